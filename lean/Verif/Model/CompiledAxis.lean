import Mathlib.Analysis.SpecialFunctions.Sqrt
import Mathlib.Algebra.BigOperators.Group.List.Basic

/-!
`vector_norm` and `unit_vector` along an axis in the compiled module (rayopt/_transformations.c), with the
pointers into the arrays.

Memory is a map from addresses to numbers (`none` is NaN); addresses and strides count doubles.
-/

namespace RayOpt.CompiledAxis

/-- Memory. -/
abbrev Mem := ℤ → Option ℝ

/-- An array of numpy: address of the first entry, shape and strides. -/
structure View where
  base : ℤ
  dims : List ℕ
  strides : List ℤ

/-- The indices into an array of shape `dims` in the order of numpy's iterators, the last one running
fastest. -/
def indices : List ℕ → List (List ℕ)
  | [] => [[]]
  | d :: ds => (List.range d).flatMap fun i => (indices ds).map fun t => i :: t

/-- How far an entry is from the first one. -/
def offset : List ℕ → List ℤ → ℤ
  | i :: is, s :: ss => i * s + offset is ss
  | _, _ => 0

/-- The address of an entry. -/
def View.addr (v : View) (t : List ℕ) : ℤ := v.base + offset t v.strides

/-- Exceptions; `overrun` is a write behind the end of the output array, which C does not detect. -/
inductive AxErr
  | axis
  | ndim
  | size
  | shape
  | overrun
deriving DecidableEq

/-- The axis, rayopt/_transformations.c 3457-3464, 3653-3659. -/
def resolveAxis (n : ℕ) (axis : ℤ) : Except AxErr ℕ :=
  let a := if axis < 0 then axis + n else axis
  if a < 0 ∨ (n : ℤ) ≤ a then .error .axis else .ok a.toNat

/-- The pointers `PyArray_IterAllButAxis` of numpy takes, rayopt/_transformations.c 3498, 3661-3664: none for an
array without entries. -/
def View.allBut (v : View) (a : ℕ) : List ℤ :=
  if v.dims.prod = 0 then [] else (indices (v.dims.set a 1)).map v.addr

/-- The sum of squares of neighbouring entries, rayopt/_transformations.c 3509-3513, 3682-3684. -/
noncomputable def sumContiguous (mem : Mem) (size : ℕ) (p : ℤ) : Option ℝ :=
  (List.range size).foldl (fun len (s : ℕ) => do
    let l ← len
    let t ← mem (p + s)
    some (l + t * t)) (some 0)

/-- The sum of squares of entries `d` apart, rayopt/_transformations.c 3523-3529, 3698-3705. -/
noncomputable def sumStrided (mem : Mem) (d : ℤ) : ℕ → ℤ → Option ℝ → Option ℝ
  | 0, _, len => len
  | s + 1, p, len => sumStrided mem d s (p + d) (do
      let l ← len
      let t ← mem p
      some (l + t * t))

/-- The new shape is compared with itself, rayopt/_transformations.c 3487-3493: `true` is the exception. -/
def badSize (axis : ℕ) (newshape : List ℕ) : ℕ → ℕ → List ℕ → Bool
  | _, _, [] => false
  | i, j, d :: ds =>
    if i ≠ axis then
      if newshape[j]? ≠ some d then true else badSize axis newshape (i + 1) (j + 1) ds
    else badSize axis newshape (i + 1) j ds

/-- One result after the other is written to the cells of the output array, rayopt/_transformations.c
3514-3516, 3530-3532.  (Behind the end of an output array with more than one axis that is not contiguous,
numpy's iterator starts over.) -/
def store : List (Option ℝ) → List (Option ℝ) → Except AxErr (List (Option ℝ))
  | cells, [] => .ok cells
  | [], _ :: _ => .error .overrun
  | _ :: cells, v :: vs => (store cells vs).map fun r => v :: r

/-- `vector_norm(data, axis, out)`, rayopt/_transformations.c 3452-3547: what the output array contains
afterwards, in the order of its indices.  `out` is the shape and the cells of a given array; a new one
contains `junk` until it is written. -/
noncomputable def vectorNorm (junk : ℕ → Option ℝ) (mem : Mem) (v : View) (axis : ℤ)
    (out : Option (List ℕ × List (Option ℝ))) : Except AxErr (List (Option ℝ)) := do
  let a ← resolveAxis v.dims.length axis
  let newshape := v.dims.eraseIdx a
  let cells ← match out with
    | none => .ok ((List.range newshape.prod).map junk)
    | some (odims, cells) =>
      if v.dims.length ≠ odims.length + 1 then .error .ndim
      else if badSize a newshape 0 0 v.dims then .error .size
      else .ok cells
  let dstride := v.strides.getD a 0
  let size := v.dims.getD a 0
  store cells ((v.allBut a).map fun p =>
    ((if dstride = 1 then sumContiguous mem size p else sumStrided mem dstride size p (some 0)).map
      Real.sqrt))

/-- Product of numbers that may be NaN. -/
def times (x y : Option ℝ) : Option ℝ := do
  let a ← x
  let b ← y
  some (a * b)

/-- `1.0 / sqrt(len)`; infinite is `none`, as its product with the entries, which are zero then, is NaN. -/
noncomputable def inverseRoot (len : Option ℝ) : Option ℝ :=
  len.bind fun l => if Real.sqrt l = 0 then none else some (1 / Real.sqrt l)

/-- Writing of neighbouring entries, rayopt/_transformations.c 3686-3689. -/
noncomputable def scaleContiguous (len : Option ℝ) (size : ℕ) (p q : ℤ) (mem : Mem) : Mem :=
  (List.range size).foldl (fun m (i : ℕ) => Function.update m (q + (i : ℤ)) (times (m (p + (i : ℤ))) len)) mem

/-- Writing of entries `o` apart, rayopt/_transformations.c 3707-3714. -/
noncomputable def scaleStrided (len : Option ℝ) (d o : ℤ) : ℕ → ℤ → ℤ → Mem → Mem
  | 0, _, _, mem => mem
  | s + 1, p, q, mem => scaleStrided len d o s (p + d) (q + o) (Function.update mem q (times (mem p) len))

/-- One line, rayopt/_transformations.c 3677-3692, 3697-3717. -/
noncomputable def unitLine (d o : ℤ) (size : ℕ) (mem : Mem) (pq : ℤ × ℤ) : Mem :=
  if d = 1 ∧ o = 1 then
    scaleContiguous (inverseRoot (sumContiguous mem size pq.1)) size pq.1 pq.2 mem
  else scaleStrided (inverseRoot (sumStrided mem d size pq.1 (some 0))) d o size pq.1 pq.2 mem

/-- `unit_vector(data, axis, out)`, rayopt/_transformations.c 3564-3732 with an axis: memory afterwards.  `out`
is the given array, checked to have the shape of `data`, or a new one. -/
noncomputable def unitVector (mem : Mem) (v out : View) (axis : ℤ) : Except AxErr Mem :=
  if v.dims ≠ out.dims then .error .shape
  else do
    let a ← resolveAxis v.dims.length axis
    pure (((v.allBut a).zip (out.allBut a)).foldl
      (unitLine (v.strides.getD a 0) (out.strides.getD a 0) (v.dims.getD a 0)) mem)

end RayOpt.CompiledAxis
