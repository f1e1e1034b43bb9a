import Verif.Model.Compiled
import Mathlib.LinearAlgebra.Matrix.Notation
import Mathlib.Algebra.BigOperators.Intervals
import Mathlib.Order.Interval.Finset.Nat

/-!
`inverse_matrix` of the compiled extension, `rayopt/_transformations.c` 386-615 and 3131-3230.

A matrix of `n` rows is a function of row and column; the code's `M[n*i + j]` is `M i j`.  The functions return `none` where
the code returns -1.  Not modelled: the conversion of the argument to an array, arrays with one dimension (for which the code
reads the second size past the end of the sizes), allocation.
-/

namespace RayOpt.Compiled

open Matrix

/-- `ISZERO`, rayopt/_transformations.c 91. -/
def IsZero (x : ℝ) : Prop := x < tfEps ∧ x > -tfEps

open Classical

/-- `invert_matrix22`, rayopt/_transformations.c 389-404. -/
noncomputable def invert22 (M : Matrix (Fin 2) (Fin 2) ℝ) : Option (Matrix (Fin 2) (Fin 2) ℝ) :=
  let det := M 0 0 * M 1 1 - M 0 1 * M 1 0
  if IsZero det then none else some !![M 1 1 / det, -M 0 1 / det; -M 1 0 / det, M 0 0 / det]

/-- `invert_matrix33`, rayopt/_transformations.c 409-438. -/
noncomputable def invert33 (M : Matrix (Fin 3) (Fin 3) ℝ) : Option (Matrix (Fin 3) (Fin 3) ℝ) :=
  let r0 := M 2 2 * M 1 1 - M 2 1 * M 1 2
  let r1 := M 2 1 * M 0 2 - M 2 2 * M 0 1
  let r2 := M 1 2 * M 0 1 - M 1 1 * M 0 2
  let r3 := M 2 0 * M 1 2 - M 2 2 * M 1 0
  let r4 := M 2 2 * M 0 0 - M 2 0 * M 0 2
  let r5 := M 1 0 * M 0 2 - M 1 2 * M 0 0
  let r6 := M 2 1 * M 1 0 - M 2 0 * M 1 1
  let r7 := M 2 0 * M 0 1 - M 2 1 * M 0 0
  let r8 := M 1 1 * M 0 0 - M 1 0 * M 0 1
  let det := M 0 0 * r0 + M 1 0 * r1 + M 2 0 * r2
  if IsZero det then none
  else
    let det := 1 / det
    some !![r0 * det, r1 * det, r2 * det; r3 * det, r4 * det, r5 * det; r6 * det, r7 * det, r8 * det]

/-- `invert_matrix44`, rayopt/_transformations.c 443-525. -/
noncomputable def invert44 (M : Matrix (Fin 4) (Fin 4) ℝ) : Option (Matrix (Fin 4) (Fin 4) ℝ) :=
  let t0 := M 2 2 * M 3 3; let t1 := M 3 2 * M 2 3; let t2 := M 1 2 * M 3 3; let t3 := M 3 2 * M 1 3
  let t4 := M 1 2 * M 2 3; let t5 := M 2 2 * M 1 3; let t6 := M 0 2 * M 3 3; let t7 := M 3 2 * M 0 3
  let t8 := M 0 2 * M 2 3; let t9 := M 2 2 * M 0 3; let t10 := M 0 2 * M 1 3; let t11 := M 1 2 * M 0 3
  let r0 := t0 * M 1 1 + t3 * M 2 1 + t4 * M 3 1 - (t1 * M 1 1 + t2 * M 2 1 + t5 * M 3 1)
  let r1 := t1 * M 0 1 + t6 * M 2 1 + t9 * M 3 1 - (t0 * M 0 1 + t7 * M 2 1 + t8 * M 3 1)
  let r2 := t2 * M 0 1 + t7 * M 1 1 + t10 * M 3 1 - (t3 * M 0 1 + t6 * M 1 1 + t11 * M 3 1)
  let r3 := t5 * M 0 1 + t8 * M 1 1 + t11 * M 2 1 - (t4 * M 0 1 + t9 * M 1 1 + t10 * M 2 1)
  let r4 := t1 * M 1 0 + t2 * M 2 0 + t5 * M 3 0 - (t0 * M 1 0 + t3 * M 2 0 + t4 * M 3 0)
  let r5 := t0 * M 0 0 + t7 * M 2 0 + t8 * M 3 0 - (t1 * M 0 0 + t6 * M 2 0 + t9 * M 3 0)
  let r6 := t3 * M 0 0 + t6 * M 1 0 + t11 * M 3 0 - (t2 * M 0 0 + t7 * M 1 0 + t10 * M 3 0)
  let r7 := t4 * M 0 0 + t9 * M 1 0 + t10 * M 2 0 - (t5 * M 0 0 + t8 * M 1 0 + t11 * M 2 0)
  let t0 := M 2 0 * M 3 1; let t1 := M 3 0 * M 2 1; let t2 := M 1 0 * M 3 1; let t3 := M 3 0 * M 1 1
  let t4 := M 1 0 * M 2 1; let t5 := M 2 0 * M 1 1; let t6 := M 0 0 * M 3 1; let t7 := M 3 0 * M 0 1
  let t8 := M 0 0 * M 2 1; let t9 := M 2 0 * M 0 1; let t10 := M 0 0 * M 1 1; let t11 := M 1 0 * M 0 1
  let r8 := t0 * M 1 3 + t3 * M 2 3 + t4 * M 3 3 - (t1 * M 1 3 + t2 * M 2 3 + t5 * M 3 3)
  let r9 := t1 * M 0 3 + t6 * M 2 3 + t9 * M 3 3 - (t0 * M 0 3 + t7 * M 2 3 + t8 * M 3 3)
  let r10 := t2 * M 0 3 + t7 * M 1 3 + t10 * M 3 3 - (t3 * M 0 3 + t6 * M 1 3 + t11 * M 3 3)
  let r11 := t5 * M 0 3 + t8 * M 1 3 + t11 * M 2 3 - (t4 * M 0 3 + t9 * M 1 3 + t10 * M 2 3)
  let r12 := t2 * M 2 2 + t5 * M 3 2 + t1 * M 1 2 - (t4 * M 3 2 + t0 * M 1 2 + t3 * M 2 2)
  let r13 := t8 * M 3 2 + t0 * M 0 2 + t7 * M 2 2 - (t6 * M 2 2 + t9 * M 3 2 + t1 * M 0 2)
  let r14 := t6 * M 1 2 + t11 * M 3 2 + t3 * M 0 2 - (t10 * M 3 2 + t2 * M 0 2 + t7 * M 1 2)
  let r15 := t10 * M 2 2 + t4 * M 0 2 + t9 * M 1 2 - (t8 * M 1 2 + t11 * M 2 2 + t5 * M 0 2)
  let det := M 0 0 * r0 + M 1 0 * r1 + M 2 0 * r2 + M 3 0 * r3
  if IsZero det then none
  else
    let det := 1 / det
    some !![r0 * det, r1 * det, r2 * det, r3 * det; r4 * det, r5 * det, r6 * det, r7 * det;
      r8 * det, r9 * det, r10 * det, r11 * det; r12 * det, r13 * det, r14 * det, r15 * det]

/-- `M` and `seq`. -/
abbrev Work := (ℕ → ℕ → ℝ) × (ℕ → ℕ)

/-- `PIVOT_TOLERANCE`, rayopt/_transformations.c 79. -/
noncomputable def pivotTolerance : ℝ := 1 / 10 ^ 14

/-- `p`, the row of the maximum coefficient in the column, rayopt/_transformations.c 549-557. -/
noncomputable def pivotRow (n k : ℕ) (M : ℕ → ℕ → ℝ) : ℕ :=
  ((List.range' (k + 1) (n - (k + 1))).foldl (fun s i => if s.1 < |M i k| then (|M i k|, i) else s) (|M k k|, k)).2

/-- Elimination, rayopt/_transformations.c 576-588. -/
noncomputable def eliminate (k : ℕ) (M : ℕ → ℕ → ℝ) (j i : ℕ) : ℝ :=
  if j ≤ k ∨ i < k then M j i
  else if i = k then M j k / M k k
  else M j i - M j k / M k k * M k i

/-- One turn of the forward solution, rayopt/_transformations.c 544-588.  The lines `k` and `p` are exchanged also if `p` is
`k`, which changes nothing.  An error is the return value -1, with what is then in the memory. -/
noncomputable def step (n k : ℕ) (w : Work) : Except Work Work :=
  let p := pivotRow n k w.1
  let M : ℕ → ℕ → ℝ := fun i => w.1 (Equiv.swap k p i)
  let seq : ℕ → ℕ := fun i => w.2 (Equiv.swap k p i)
  if |M k k| < pivotTolerance then .error (M, seq) else .ok (eliminate k M, seq)

/-- So many turns of the forward solution. -/
noncomputable def forward (n : ℕ) : ℕ → Work → Except Work Work
  | 0, w => .ok w
  | k + 1, w => (forward n k w).bind (step n k)

/-- `iseq`, rayopt/_transformations.c 593-596. -/
def inverseSeq (n : ℕ) (seq : ℕ → ℕ) : ℕ → ℕ :=
  (List.range n).foldl (fun f i => Function.update f (seq i) i) fun _ => 0

/-- The first loop over `k`, rayopt/_transformations.c 600-606, up to and including row `k`. -/
noncomputable def down (M : ℕ → ℕ → ℝ) (is : ℕ) : ℕ → (ℕ → ℝ) → ℕ → ℝ
  | 0, x => x
  | k + 1, x =>
    let x := down M is k x
    Function.update x (k + 1) (x (k + 1) - ∑ j ∈ Finset.Ico is (k + 1), M (k + 1) j * x j)

/-- The second loop over `k`, rayopt/_transformations.c 607-613, for so many rows from the last one. -/
noncomputable def up (n : ℕ) (M : ℕ → ℕ → ℝ) : ℕ → (ℕ → ℝ) → ℕ → ℝ
  | 0, x => x
  | m + 1, x =>
    let x := up n M m x
    let k := n - 1 - m
    Function.update x k ((x k - ∑ j ∈ Finset.Ico (k + 1) n, M k j * x j) / M k k)

/-- `invert_matrix`, rayopt/_transformations.c 531-615.  `some none`: the last element of the diagonal, which the code does not
test, is zero; the last row is divided by it and its infinities or NaN enter all other rows, so that no entry is finite. -/
noncomputable def invertLU (n : ℕ) (A : ℕ → ℕ → ℝ) : Option (Option (ℕ → ℕ → ℝ)) :=
  match forward n (n - 1) (A, id) with
  | .error _ => none
  | .ok (M, seq) =>
    if M (n - 1) (n - 1) = 0 then some none
    else
      some (some fun k i => up n M n (down M (inverseSeq n seq i) (n - 1) fun j => if seq j = i then 1 else 0) k)

/-- A square array in the memory. -/
def entries {n : ℕ} (A : Matrix (Fin n) (Fin n) ℝ) (i j : ℕ) : ℝ :=
  if h : i < n ∧ j < n then A ⟨i, h.1⟩ ⟨j, h.2⟩ else 0

/-- The result of `inverse_matrix`: a matrix, or an array without finite entries. -/
inductive Inv (n : ℕ)
  | mat (m : Matrix (Fin n) (Fin n) ℝ)
  | infinite

/-- `inverse_matrix`, rayopt/_transformations.c 3137-3230. -/
noncomputable def inverseMatrix : (n : ℕ) → Matrix (Fin n) (Fin n) ℝ → Except Err (Inv n)
  | 0, _ => .error .value
  | 1, M => if IsZero (M 0 0) then .error .value else .ok (.mat !![1 / M 0 0])
  | 2, M => (invert22 M).elim (.error .value) fun m => .ok (.mat m)
  | 3, M => (invert33 M).elim (.error .value) fun m => .ok (.mat m)
  | 4, M => (invert44 M).elim (.error .value) fun m => .ok (.mat m)
  | n, M => (invertLU n (entries M)).elim (.error .value) fun r =>
      .ok (r.elim .infinite fun m => .mat (Matrix.of fun i j => m i j))

/-- What is in the memory of the array after the call, rayopt/_transformations.c 3157, 3189-3207: `invert_matrix` works in
the array it is given unless that is the object of the caller itself.  `identical`: the argument is an array and needs no
conversion. -/
noncomputable def inverseMemory (n : ℕ) (identical : Bool) (A : ℕ → ℕ → ℝ) : ℕ → ℕ → ℝ :=
  if 5 ≤ n ∧ identical = false then
    match forward n (n - 1) (A, id) with
    | .error w => w.1
    | .ok w => w.1
  else A

end RayOpt.Compiled
