import Verif.Model.Cache
import Mathlib.Data.Real.Basic

/-!
The optimiser front end (rayopt/optimize.py): variables, operands and the functions that
`optimize` hands to `scipy.optimize.minimize`. `minimize` itself is not modelled: it is any
sequence of evaluations followed by a result.

The system that is optimised is an opaque state `S`.
-/

namespace RayOpt.Optimize

/-- `Variable` with its reader and writer (rayopt/optimize.py 24-54). A bound that is `None` here
is infinite. -/
structure Variable (S : Type*) where
  get : S → ℝ
  set : ℝ → S → S
  lower : Option ℝ
  upper : Option ℝ
  scale : ℝ
  init : ℝ

/-- The scale of `Variable.__init__`, rayopt/optimize.py 28-31: the given one or the range, which
must be finite (`none`: AssertionError). -/
def mkScale (lower upper scale : Option ℝ) : Option ℝ :=
  match scale with
  | some s => some s
  | none => match lower, upper with
    | some a, some b => some (b - a)
    | _, _ => none

/-- `Operand` with its reader: `get()` returns a flat array (rayopt/optimize.py 57-91). -/
structure Operand (S : Type*) where
  get : S → List ℝ
  weight : Option ℝ
  offset : ℝ
  min : Option ℝ
  max : Option ℝ

variable {S : Type*}

namespace Operand

/-- `get_objective`, rayopt/optimize.py 69-71 (`None` and zero weights yield nothing). -/
noncomputable def objective (o : Operand S) : List (List ℝ → List ℝ) :=
  match o.weight with
  | none => []
  | some w => if w = 0 then [] else [fun v => v.map fun x => w * (x - o.offset)]

/-- `get_equality`, rayopt/optimize.py 73-75. -/
noncomputable def equality (o : Operand S) : List (List ℝ → List ℝ) :=
  open Classical in
  if o.min ≠ none ∧ o.min = o.max then [fun v => v.map fun x => x - o.offset] else []

/-- `get_inequality`, rayopt/optimize.py 77-81. -/
def inequality (o : Operand S) : List (List ℝ → List ℝ) :=
  (match o.min with
    | none => []
    | some a => [fun v => v.map fun x => x - o.offset - a]) ++
  (match o.max with
    | none => []
    | some b => [fun v => v.map fun x => b - (x - o.offset)])

end Operand

/-- `for i, op in enumerate(operands): for f in op.get_...(): l.append((i, f))`,
rayopt/optimize.py 102-109; `i` is the number of the first operand of the list. -/
def enumerate (f : Operand S → List (List ℝ → List ℝ)) :
    ℕ → List (Operand S) → List (ℕ × (List ℝ → List ℝ))
  | _, [] => []
  | i, o :: os => (f o).map (fun g => (i, g)) ++ enumerate f (i + 1) os

/-- `np.concatenate([g(v[i]) for i, g in l])`, rayopt/optimize.py 123, 128, 132. -/
def concat (l : List (ℕ × (List ℝ → List ℝ))) (v : List (List ℝ)) : List ℝ :=
  l.flatMap fun ig => ig.2 ((v[ig.1]?).getD [])

/-- `up(x)`, rayopt/optimize.py 112-114. -/
def up (vars : List (Variable S)) (x : List ℝ) (s : S) : S :=
  ((x.zipWith (fun a (v : Variable S) => (a * v.scale, v)) vars).foldl
    (fun s av => av.2.set av.1 s)) s

/-- The body of `ex` after `up(x)`: `[op.get() for op in operands]`, rayopt/optimize.py 119. -/
def values (ops : List (Operand S)) (s : S) : List (List ℝ) := ops.map fun o => o.get s

open Classical in
/-- One call of the memoised `ex(*x)`, rayopt/optimize.py 116-119: the values, the new state of the
system and the new cache. The system is only written when the cache has no entry. -/
noncomputable def ex (vars : List (Variable S)) (ops : List (Operand S)) (x : List ℝ)
    (st : S × List (List ℝ × List (List ℝ))) :
    List (List ℝ) × S × List (List ℝ × List (List ℝ)) :=
  let r := Cache.lru (vars.length + 1) (fun x => values ops (up vars x st.1)) st.2 x
  let s := if st.2.any fun kv => kv.1 = x then st.1 else up vars x st.1
  (r.1, s, r.2)

/-- A run of the optimiser: the points at which the functions are evaluated, in order; the answers
of `ex`, the final system and the final cache. -/
noncomputable def evals (vars : List (Variable S)) (ops : List (Operand S)) :
    List (List ℝ) → S × List (List ℝ × List (List ℝ)) →
      List (List (List ℝ)) × S × List (List ℝ × List (List ℝ))
  | [], st => ([], st.1, st.2)
  | x :: xs, st =>
    let r := ex vars ops x st
    let t := evals vars ops xs r.2
    (r.1 :: t.1, t.2)

/-- What `optimize` builds from variables and operands, rayopt/optimize.py 95-141. The functions
take the answer `v` of `ex` at a point. -/
structure Problem where
  x0 : List ℝ
  x1 : List ℝ
  bounds : List (Option ℝ × Option ℝ)
  fn : List (List ℝ) → ℝ
  eq : Option (List (List ℝ) → List ℝ)
  ineq : Option (List (List ℝ) → List ℝ)

/-- `optimize` up to the call of `minimize`, rayopt/optimize.py 95-141. The assertions are `none`. -/
noncomputable def problem (vars : List (Variable S)) (ops : List (Operand S)) (s : S) :
    Option Problem :=
  let ob := enumerate Operand.objective 0 ops
  let eq := enumerate Operand.equality 0 ops
  let ineq := enumerate Operand.inequality 0 ops
  if vars.isEmpty then none else
  if ops.isEmpty then none else
  if ob.isEmpty then none else
  some {
    x0 := vars.map fun v => v.get s / v.scale
    x1 := vars.map fun v => v.init / v.scale
    bounds := vars.map fun v => (v.lower.map (· / v.scale), v.upper.map (· / v.scale))
    fn := fun v => ((concat ob v).map (· ^ 2)).sum
    eq := if eq.isEmpty then none else some (concat eq)
    ineq := if ineq.isEmpty then none else some (concat ineq) }

end RayOpt.Optimize
