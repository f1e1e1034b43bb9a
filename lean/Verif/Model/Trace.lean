import Verif.Model.Elements

/-!
Geometric ray tracing through a list of elements: `System.propagate`
(rayopt/system.py 459-464) and `GeometricTrace` (rayopt/geometric_trace.py).
-/

namespace RayOpt

/-- Python's conversion of one slice bound for a list of length `n`: negative bounds count from
the end, everything is clamped to `[0, n]`.  Used for `self[start:stop]` in
rayopt/system.py 402-464. -/
def pyBound (n : ℕ) (i : ℤ) : ℕ :=
  if i < 0 then (i + n).toNat else min i.toNat n

/-- The upper slice bound, `None` being the end of the list (rayopt/system.py 402-464). -/
def pyStop (n : ℕ) (stop : Option ℤ) : ℕ :=
  match stop with
  | none => n
  | some s => pyBound n s

/-- `l[start:stop]` of Python with `stop` possibly `None` (rayopt/system.py 402-464). -/
def pySlice {α : Type*} (l : List α) (start : ℤ) (stop : Option ℤ) : List α :=
  (l.take (pyStop l.length stop)).drop (pyBound l.length start)

namespace Sys

open Elem

/-- The loop of `System.propagate` over the elements of `self[start:stop]`,
rayopt/system.py 460-464: the list of yielded rows. -/
noncomputable def rows (nwt : Shape.NewtonFn) (l : ℝ) (clp : Bool) : List Elem → Ray → List Row
  | [], _ => []
  | e :: es, r => (step nwt l clp e r).1 :: rows nwt l clp es (step nwt l clp e r).2

/-- `System.propagate(y, u, n, l, start, stop, clip)`, rayopt/system.py 459-464. -/
noncomputable def propagate (nwt : Shape.NewtonFn) (sys : List Elem) (r : Ray) (l : ℝ)
    (start : ℤ) (stop : Option ℤ) (clp : Bool) : List Row :=
  rows nwt l clp (pySlice sys start stop) r

/-- The enumerate loop of `GeometricTrace.propagate`, rayopt/geometric_trace.py 75-78:
`for j, yunit in enumerate(..): self.y[j + start], ... = yunit`.  The arrays have one row per
element; one ray. -/
def writeRows {α : Type*} (arr : List α) (start : ℕ) : List α → List α
  | [] => arr
  | x :: xs => writeRows (arr.set start x) (start + 1) xs

/-- The ray that `GeometricTrace.propagate` starts from: row `init = start - 1`, turned out of
the normal frame of element `init`, rayopt/geometric_trace.py 71-73. -/
noncomputable def rayOfRow (e : Elem) (r : Row) : Ray :=
  ⟨r.y.map e.tf.fromNormal, r.u.map e.tf.fromNormal, r.n⟩

/-- `GeometricTrace.propagate(start, stop, clip)`, rayopt/geometric_trace.py 68-78, for
`start >= 1`.  `none` is the `IndexError` for a missing element `start - 1`. -/
noncomputable def gtPropagate (nwt : Shape.NewtonFn) (sys : List Elem) (l : ℝ) (clp : Bool)
    (start : ℕ) (stop : Option ℤ) (arr : List Row) : Option (List Row) :=
  match sys[start - 1]?, arr[start - 1]? with
  | some e, some r =>
    some (writeRows arr start (propagate nwt sys (rayOfRow e r) l start stop clp))
  | _, _ => none

/-- `System.origins`, rayopt/system.py 413-415: cumulative sum of the offsets. -/
noncomputable def origins (sys : List Elem) : List V3 :=
  (sys.map fun e => e.tf.offset).scanl (· + ·) 0 |>.tail

end Sys

end RayOpt
