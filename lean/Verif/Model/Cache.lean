import Mathlib.Analysis.Real.Sqrt
import Mathlib.Data.List.Sort
import Mathlib.Algebra.Module.Basic

/-!
Caches: the memoised methods (`clru_cache`, rayopt/material.py 137, 201, 229, rayopt/optimize.py 116)
and the ray aiming cache (rayopt/cachend.py, rayopt/system.py 585-593).
-/

namespace RayOpt.Cache

/-! ### Least recently used cache -/

section
variable {K V : Type*} [DecidableEq K]

/-- One call of a function memoised with `clru_cache(maxsize)` (`fastcache`): the cache is a list of
keys and values, most recently used first; `f` is what the function computes now. -/
def lru (maxsize : ℕ) (f : K → V) (c : List (K × V)) (k : K) : V × List (K × V) :=
  match c.find? fun kv => kv.1 = k with
  | some kv => (kv.2, kv :: c.filter fun kv => kv.1 ≠ k)
  | none => (f k, ((k, f k) :: c).take maxsize)

/-- What a program does with a memoised method of a mutable object: call it or assign attributes. -/
inductive Op (S K : Type*) where
  | query (k : K)
  | assign (g : S → S)

/-- Run a history; `compute s k` is the method body with the attributes `s`.  Returns the attributes,
the cache and the answers with the keys asked. -/
def lruRun {S : Type*} (maxsize : ℕ) (compute : S → K → V) :
    List (Op S K) → S → List (K × V) → S × List (K × V) × List (K × V)
  | [], s, c => (s, c, [])
  | .query k :: ops, s, c =>
    let r := lru maxsize (compute s) c k
    let t := lruRun maxsize compute ops s r.2
    (t.1, t.2.1, (k, r.1) :: t.2.2)
  | .assign g :: ops, s, c => lruRun maxsize compute ops (g s) c

end

/-! ### The aiming cache -/

section
variable {V : Type*} [AddCommGroup V] [Module ℝ V]

/-- The field point: the arguments of the cached call. -/
abbrev Field := ℝ × ℝ

/-- `np.sqrt(np.square(x).sum(1))`, rayopt/cachend.py 89, 97. -/
noncomputable def radius (x : Field) : ℝ := Real.sqrt (x.1 ^ 2 + x.2 ^ 2)

/-- `PolarCacheND._interpolator(xo, yo)`, rayopt/cachend.py 96-105; `tab` is `self.r`, `self.y`
row by row.  `none` is the `IndexError` of an empty table. -/
noncomputable def interpolate (tab : List (ℝ × V)) (x : Field) : Option V :=
  let r := radius x
  tab.head?.bind fun t0 => tab.getLast?.bind fun t1 =>
    if r ≤ t0.1 then some t0.2
    else if t1.1 ≤ r then some t1.2
    else
      let i := tab.countP fun t => t.1 < r
      tab[i - 1]?.bind fun a => tab[i]?.map fun b =>
        a.2 + ((r - a.1) / (b.1 - a.1)) • (b.2 - a.2)

/-- The state of a `PolarCacheND`: the dict `cache` in order of insertion, the `guess` attribute and
the interpolation table (`none`: `interpolator` is `None`). -/
structure State (V : Type*) where
  cache : List (Field × V)
  guess : Option V
  table : Option (List (ℝ × V))

/-- `PolarCacheND._update`, rayopt/cachend.py 85-94: the table sorted by radius.  (numpy's order of
equal radii is not specified; the theorems about tables hold for any order.) -/
noncomputable def table (cache : List (Field × V)) : List (ℝ × V) :=
  open Classical in
  (cache.map fun xy => (radius xy.1, xy.2)).insertionSort fun a b => a.1 ≤ b.1

/-- `CacheND.clear(guess)`, rayopt/cachend.py 35-37. -/
def clear (st : State V) (_guess : Option V) : State V := { st with cache := [], guess := none }

/-- `CacheND(solver, guess)`, rayopt/cachend.py 28-33. -/
def init (guess : Option V) : State V := clear ⟨[], none, none⟩ guess

/-- The guess of `CacheND.__call__`, rayopt/cachend.py 44-48 (numbers are not NaN here). -/
noncomputable def guessFor (st : State V) (x : Field) : Option V :=
  match st.table with
  | none => st.guess
  | some t => interpolate t x

/-- `CacheND.__call__(*args)` of a `PolarCacheND`, rayopt/cachend.py 39-52.  The solver gets the
arguments and the guess; `none` is an exception.  Returns the value, the solver calls made and the
new state. -/
noncomputable def call (solver : Field → Option V → Option V) (st : State V) (x : Field) :
    Option V × List (Field × Option V) × State V :=
  open Classical in
  match st.cache.find? fun xy => xy.1 = x with
  | some xy => (some xy.2, [], st)
  | none =>
    let g := guessFor st x
    match solver x g with
    | none => (none, [(x, g)], st)
    | some v =>
      let c := st.cache ++ [(x, v)]
      (some v, [(x, g)], { st with cache := c, table := some (table c) })

/-- A sequence of calls: answers with their arguments, solver calls, final state. -/
noncomputable def calls (solver : Field → Option V → Option V) :
    List Field → State V → List (Field × Option V) × List (Field × Option V) × State V
  | [], st => ([], [], st)
  | x :: xs, st =>
    let r := call solver st x
    let t := calls solver xs r.2.2
    ((x, r.1) :: t.1, r.2.1 ++ t.2.1, t.2.2)

/-- `System.pupil(yo, l, stop, **kwargs)`, rayopt/system.py 585-593: the caches by key `(l, stop)`
(type `K`), each with the keyword arguments (type `A`) of the call that made it. -/
noncomputable def pupil {K A : Type*} [DecidableEq K] (solve : K → A → Field → Option V → Option V)
    (caches : List (K × A × State V)) (k : K) (kwargs : A) (x : Field) :
    Option V × List (K × A × State V) :=
  match caches.find? fun c => c.1 = k with
  | some c =>
    let r := call (solve k c.2.1) c.2.2 x
    (r.1, caches.map fun d => if d.1 = k then (d.1, d.2.1, r.2.2) else d)
  | none =>
    let r := call (solve k kwargs) (init none) x
    (r.1, caches ++ [(k, kwargs, r.2.2)])

end

/-! ### The cache for any subclass -/

namespace Any

/-- The state of a `CacheND` with arguments `K`, values `V` and interpolators `I`. -/
structure State (K V I : Type) where
  cache : List (K × V)
  guess : Option V
  interpolator : Option I

/-- `_update` of a subclass: the new `interpolator`; `none` is an exception. -/
abbrev Update (K V I : Type) := List (K × V) → Option I → Option (Option I)

/-- `CacheND._update`, rayopt/cachend.py 54-55: `NotImplementedError`. -/
def baseUpdate {K V I : Type} : Update K V I := fun _ _ => none

/-- `NearestCacheND._update`, rayopt/cachend.py 60-65; `build` is `NearestNDInterpolator(x, y)`. -/
def nearestUpdate {K V I : Type} (build : List (K × V) → I) : Update K V I :=
  fun cache _ => some (some (build cache))

/-- `LinearCacheND._update`, rayopt/cachend.py 70-80; `build` is `LinearNDInterpolator(x, y)`, where
`none` is the `QhullError`. -/
def linearUpdate {K V I : Type} (build : List (K × V) → Option I) : Update K V I :=
  fun cache i => if cache.length < 4 then some i else some (build cache)

/-- `CacheND(solver, guess)`, rayopt/cachend.py 28-37. -/
def init {K V I : Type} (_guess : Option V) : State K V I := ⟨[], none, none⟩

/-- The guess of `CacheND.__call__`, rayopt/cachend.py 44-48; `eval i x` is `none` if the interpolator
gives a NaN. -/
def guessFor {K V I : Type} (eval : I → K → Option V) (st : State K V I) (x : K) : Option V :=
  match st.interpolator with
  | none => st.guess
  | some i => match eval i x with
    | none => st.guess
    | some g => some g

/-- `CacheND.__call__(*args)`, rayopt/cachend.py 39-52: the value (`none`: an exception), the calls of
the solver and the new state.  The value is stored before `_update` is called. -/
def call {K V I : Type} [DecidableEq K] (upd : Update K V I) (eval : I → K → Option V)
    (solver : K → Option V → Option V) (st : State K V I) (x : K) :
    Option V × List (K × Option V) × State K V I :=
  match st.cache.find? fun xy => xy.1 = x with
  | some xy => (some xy.2, [], st)
  | none =>
    let g := guessFor eval st x
    match solver x g with
    | none => (none, [(x, g)], st)
    | some v =>
      let c := st.cache ++ [(x, v)]
      match upd c st.interpolator with
      | none => (none, [(x, g)], { st with cache := c })
      | some i => (some v, [(x, g)], { st with cache := c, interpolator := i })

/-- A sequence of calls: answers with their arguments, solver calls, final state. -/
def calls {K V I : Type} [DecidableEq K] (upd : Update K V I) (eval : I → K → Option V)
    (solver : K → Option V → Option V) :
    List K → State K V I → List (K × Option V) × List (K × Option V) × State K V I
  | [], st => ([], [], st)
  | x :: xs, st =>
    let r := call upd eval solver st x
    let t := calls upd eval solver xs r.2.2
    ((x, r.1) :: t.1, r.2.1 ++ t.2.1, t.2.2)

end Any

end RayOpt.Cache
