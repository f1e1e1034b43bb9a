import Mathlib.Data.Real.Basic

/-!
Paths into the system, pickups, solves and validators (rayopt/system.py 112-247).

The object graph below a `System` is a tree of nodes: a node has named attributes and indexed items
(a `System` has both).  Simplified: attributes are independent of each other (no property setters),
and assigning an object copies it (no shared objects).  Python code given as text (`get_eval`,
`get_func`, `set_exec`, `exec`) is an external function of the system.
-/

namespace RayOpt.Paths

/-- One step of a path: an attribute name or an index, rayopt/system.py 115-118. -/
inductive Key where
  | attr (a : String)
  | item (i : ℤ)
deriving DecidableEq

/-- A value in the object graph. -/
inductive Node where
  /-- `None`. -/
  | null
  | num (x : ℝ)
  | obj (attrs : List (String × Node)) (items : List Node)

/-- The position meant by the index `i` in a list of `n` items; `none` is the `IndexError`. -/
def itemPos (n : ℕ) (i : ℤ) : Option ℕ :=
  if 0 ≤ i then (if i < n then some i.toNat else none)
  else if 0 ≤ i + n then some (i + n).toNat else none

/-- `getattr(v, k)` for an object with these attributes. -/
def getAttr (a : String) : List (String × Node) → Option Node
  | [] => none
  | (b, x) :: l => if b = a then some x else getAttr a l

/-- `setattr(v, k, value)`: overwrites or creates the attribute. -/
def setAttr (a : String) (w : Node) : List (String × Node) → List (String × Node)
  | [] => [(a, w)]
  | (b, x) :: l => if b = a then (b, w) :: l else (b, x) :: setAttr a w l

/-- `getattr(v, k)` or `v[k]`, rayopt/system.py 115-118; `none` is an exception. -/
def getKey : Key → Node → Option Node
  | .attr a, .obj as _ => getAttr a as
  | .item i, .obj _ is => (itemPos is.length i).bind fun j => is[j]?
  | _, _ => none

/-- `setattr(v, k, value)` or `v[k] = value`, rayopt/system.py 129-132; `none` is an exception. -/
def setKey (w : Node) : Key → Node → Option Node
  | .attr a, .obj as is => some (.obj (setAttr a w as) is)
  | .item i, .obj as is => (itemPos is.length i).map fun j => .obj as (is.set j w)
  | _, _ => none

/-- A path, e.g. `[3, "distance"]`. -/
abbrev Path := List Key

/-- `System.get_path`, rayopt/system.py 112-119. -/
def getPath : Path → Node → Option Node
  | [], v => some v
  | k :: ks, v => (getKey k v).bind (getPath ks)

/-- `System.set_path`, rayopt/system.py 121-132.  The empty path raises at `path[-1]`. -/
def setPath (w : Node) : Path → Node → Option Node
  | [], _ => none
  | [k], v => setKey w k v
  | k :: l :: ks, v => (getKey k v).bind fun c => (setPath w (l :: ks) c).bind fun c' => setKey c' k v

/-- One pickup, rayopt/system.py 135-150; absent keys are `none`. -/
structure Pickup where
  get : Option Path
  /-- `eval(pickup["get_eval"])`. -/
  getEval : Option (Node → Option Node)
  /-- `eval(pickup["get_func"])(self, pickup, value)`. -/
  getFunc : Option (Node → Node → Option Node)
  factor : Option ℝ
  offset : Option ℝ
  set : Option Path
  /-- `exec(pickup["set_exec"])` with the local `value`. -/
  setExec : Option (Node → Node → Option Node)

/-- `value*factor`, `value + offset` with a number; `none` is the `TypeError`. -/
def Node.withNum (f : ℝ → ℝ → ℝ) (v : Node) (x : ℝ) : Option Node :=
  match v with
  | .num y => some (.num (f y x))
  | _ => none

/-- The value of a pickup, rayopt/system.py 136-146. -/
def Pickup.value (p : Pickup) (s : Node) : Option Node := do
  let v ← match p.get with
    | none => some .null
    | some q => getPath q s
  let v ← match p.getEval with
    | none => some v
    | some f => f s
  let v ← match p.getFunc with
    | none => some v
    | some f => f s v
  let v ← match p.factor with
    | none => some v
    | some f => v.withNum (· * ·) f
  match p.offset with
    | none => some v
    | some o => v.withNum (· + ·) o

/-- One iteration of `System.pickup`, rayopt/system.py 135-150. -/
def Pickup.run (p : Pickup) (s : Node) : Option Node := do
  let v ← p.value s
  let s ← match p.set with
    | none => some s
    | some q => setPath v q s
  match p.setExec with
    | none => some s
    | some f => f s v

/-- `System.pickup`, rayopt/system.py 134-150. -/
def pickup : List Pickup → Node → Option Node
  | [], s => some s
  | p :: ps, s => (p.run s).bind (pickup ps)

/-- A pickup with only `get`, `factor`, `offset` and `set`. -/
structure Plain where
  src : Path
  factor : ℝ
  offset : ℝ
  dst : Path

/-- The pickup dict of a `Plain`. -/
def Plain.toPickup (p : Plain) : Pickup :=
  ⟨some p.src, none, none, some p.factor, some p.offset, some p.dst, none⟩

/-! ### Validators -/

/-- Exceptions of `validate`. -/
inductive VError where
  /-- The `ValueError` of a violated constraint. -/
  | violated
  /-- Any other exception: missing path, comparison of something that is not a number. -/
  | other
deriving DecidableEq

/-- One validator, rayopt/system.py 214-247; absent keys are `none`. -/
structure Validator where
  get : Option Path
  getEval : Option (Node → Option Node)
  getFunc : Option (Node → Node → Option Node)
  /-- `exec(validator["exec"])` with the local `value`. -/
  exec : Option (Node → Node → Option Node)
  minimum : Option ℝ
  maximum : Option ℝ
  equality : Option ℝ

/-- The value a validator checks, rayopt/system.py 215-221. -/
def Validator.value (p : Validator) (s : Node) : Option Node := do
  let v ← match p.get with
    | none => some .null
    | some q => getPath q s
  let v ← match p.getEval with
    | none => some v
    | some f => f s
  match p.getFunc with
    | none => some v
    | some f => f s v

open Classical in
/-- One of the three tests, rayopt/system.py 224-247: `bad value limit` is the test.  The limit may be
absent. -/
noncomputable def check (bad : ℝ → ℝ → Prop) (fix : Bool) (get : Option Path) (value : Node)
    (limit : Option ℝ) (s : Node) : Except VError Node :=
  match limit with
  | none => .ok s
  | some v =>
    match value with
    | .num x =>
      if bad x v then
        match fix, get with
        | true, some q => match setPath (.num v) q s with
          | some s' => .ok s'
          | none => .error .other
        | _, _ => .error .violated
      else .ok s
    | _ => .error .other

/-- The test `value != v` for a value that need not be a number, rayopt/system.py 241-247. -/
noncomputable def checkEq (fix : Bool) (get : Option Path) (value : Node)
    (limit : Option ℝ) (s : Node) : Except VError Node :=
  match value with
  | .num _ => check (· ≠ ·) fix get value limit s
  | _ => match limit with
    | none => .ok s
    | some v => match fix, get with
      | true, some q => match setPath (.num v) q s with
        | some s' => .ok s'
        | none => .error .other
      | _, _ => .error .violated

/-- One iteration of `System.validate`, rayopt/system.py 214-247.  The three tests see the value read
at the beginning, also after a fix. -/
noncomputable def Validator.run (fix : Bool) (p : Validator) (s : Node) : Except VError Node := do
  let v ← match p.value s with
    | some v => .ok v
    | none => .error .other
  let s ← match p.exec with
    | none => .ok s
    | some f => match f s v with
      | some s => .ok s
      | none => .error .other
  let s ← check (· < ·) fix p.get v p.minimum s
  let s ← check (· > ·) fix p.get v p.maximum s
  checkEq fix p.get v p.equality s

/-- `System.validate(fix)`, rayopt/system.py 213-247. -/
noncomputable def validate (fix : Bool) : List Validator → Node → Except VError Node
  | [], s => .ok s
  | p :: ps, s => (p.run fix s).bind (validate fix ps)

/-! ### Solves -/

/-- A solve with `get` and `set` paths, rayopt/system.py 152-191. -/
structure Solve where
  get : Path
  set : Path
  target : ℝ

/-- `func(x)` of a solve, rayopt/system.py 181-184: new state and value. -/
def Solve.func (ps : List Pickup) (p : Solve) (x : ℝ) (s : Node) : Option (Node × ℝ) := do
  let s ← setPath (.num x) p.set s
  let s ← pickup ps s
  match ← getPath p.get s with
  | .num y => some (s, y - p.target)
  | _ => none

/-- The evaluations of `func` made by scipy's `newton`: an external choice of trial points, each
depending on the values seen so far (`next`: the next point, or `none` to stop and return); the fuel
bounds their number.  Returns the state and the values. -/
def Solve.trials (ps : List Pickup) (p : Solve) (next : List ℝ → Option ℝ) :
    ℕ → List ℝ → Node → Option (Node × List ℝ)
  | 0, seen, s => some (s, seen)
  | k + 1, seen, s => match next seen with
    | none => some (s, seen)
    | some x => (p.func ps x s).bind fun r => trials ps p next k (seen ++ [r.2]) r.1

/-- One iteration of `System.solve`, rayopt/system.py 152-191: `newton(func, init, ...)`, then
`func(x)` with the point `ret seen` it returns (`none`: it raises). -/
def Solve.run (ps : List Pickup) (p : Solve) (next : List ℝ → Option ℝ) (ret : List ℝ → Option ℝ)
    (fuel : ℕ) (s : Node) : Option Node := do
  let r ← p.trials ps next fuel [] s
  let x ← ret r.2
  let r ← p.func ps x r.1
  pure r.1

end RayOpt.Paths
