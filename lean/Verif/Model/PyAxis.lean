import Verif.Model.CompiledAxis
import Mathlib.Algebra.BigOperators.Group.Finset.Basic

/-!
`vector_norm` and `unit_vector` of rayopt/transformations.py for arrays with any number of axes.

Arrays are a shape and the entry for every index; numpy's `sum`, `atleast_1d`, `expand_dims` and division in place are
written out.
-/

namespace RayOpt.PyAxis

open CompiledAxis Finset

/-- An array. -/
structure Arr (α : Type) where
  dims : List ℕ
  val : List ℕ → α

/-- Exceptions: an axis that does not exist, shapes that do not fit. -/
inductive PyErr
  | axis
  | shape
deriving DecidableEq

/-- numpy's `normalize_axis_index`. -/
def pyAxis (n : ℕ) (axis : ℤ) : Except PyErr ℕ :=
  if -(n : ℤ) ≤ axis ∧ axis < n then .ok (if axis < 0 then axis + n else axis).toNat else .error .axis

/-- `numpy.sum(x*x, axis)`. -/
noncomputable def sumSquares (x : Arr ℝ) : Option ℤ → Except PyErr (Arr ℝ)
  | none => .ok ⟨[], fun _ => ((indices x.dims).map fun t => x.val t ^ 2).sum⟩
  | some axis => (pyAxis x.dims.length axis).map fun a =>
      ⟨x.dims.eraseIdx a, fun t => ∑ s ∈ range (x.dims.getD a 0), x.val (t.insertIdx a s) ^ 2⟩

/-- `numpy.atleast_1d`. -/
def atleast1d (x : Arr ℝ) : Arr ℝ := if x.dims = [] then ⟨[1], fun _ => x.val []⟩ else x

/-- What `vector_norm` returns. -/
inductive Norm
  | number (x : ℝ)
  | array (x : Arr ℝ)

/-- `vector_norm(data, axis)`, rayopt/transformations.py 1702-1709. -/
noncomputable def vectorNorm (x : Arr ℝ) (axis : Option ℤ) : Except PyErr Norm :=
  if x.dims.length = 1 then .ok (.number (√(∑ s ∈ range (x.dims.getD 0 0), x.val [s] * x.val [s])))
  else do
    let s ← sumSquares x axis
    let o := atleast1d s
    pure (.array ⟨o.dims, fun t => √(o.val t)⟩)

/-- `vector_norm(data, axis, out)`, rayopt/transformations.py 1710-1713: `out` afterwards; `odims` is its shape, which
`numpy.sum` checks. -/
noncomputable def vectorNormOut (x : Arr ℝ) (axis : Option ℤ) (odims : List ℕ) : Except PyErr (Arr ℝ) := do
  let s ← sumSquares x axis
  if s.dims = odims then pure ⟨s.dims, fun t => √(s.val t)⟩ else .error .shape

/-- `numpy.expand_dims(x, axis)`. -/
def expandDims (x : Arr ℝ) (axis : ℤ) : Except PyErr (Arr ℝ) :=
  (pyAxis (x.dims.length + 1) axis).map fun a => ⟨x.dims.insertIdx a 1, fun t => x.val (t.eraseIdx a)⟩

/-- `data /= length`: the shape of `length`, filled up with ones in front, must be that of the data or one everywhere.
`none` is the NaN of `0/0` (a length is zero only if the entries are). -/
noncomputable def divide (x l : Arr ℝ) : Except PyErr (Arr (Option ℝ)) :=
  let k := x.dims.length - l.dims.length
  if l.dims.length ≤ x.dims.length ∧ List.Forall₂ (fun a b => a = b ∨ a = 1) l.dims (x.dims.drop k) then
    .ok ⟨x.dims, fun t =>
      let len := l.val (List.zipWith (fun d i => if d = 1 then 0 else i) l.dims (t.drop k))
      open Classical in if len = 0 then none else some (x.val t / len)⟩
  else .error .shape

/-- `unit_vector(data, axis, out)`, rayopt/transformations.py 1742-1757: the result or `out` afterwards.  `odims` is the
shape of a given `out`, into which the data are copied first (copies of one entry into many are left out). -/
noncomputable def unitVector (x : Arr ℝ) (axis : Option ℤ) (odims : Option (List ℕ)) :
    Except PyErr (Arr (Option ℝ)) :=
  if odims = none ∧ x.dims.length = 1 then
    let len := √(∑ s ∈ range (x.dims.getD 0 0), x.val [s] * x.val [s])
    .ok ⟨x.dims, fun t => open Classical in if len = 0 then none else some (x.val t / len)⟩
  else if ∃ d ∈ odims, d ≠ x.dims then .error .shape
  else do
    let s ← sumSquares x axis
    let o := atleast1d s
    let l : Arr ℝ := ⟨o.dims, fun t => √(o.val t)⟩
    let l' ← match axis with
      | none => .ok l
      | some a => expandDims l a
    divide x l'

end RayOpt.PyAxis
