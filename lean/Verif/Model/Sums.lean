import Mathlib.Analysis.SpecialFunctions.Complex.Arg
import Mathlib.Algebra.Order.Floor.Ring

/-!
Sums of a two-dimensional array along lines, circles or rays (rayopt/special_sums.py 24-262).

The array is a function on `ℕ × ℕ` with the shape `n × m`.
-/

namespace RayOpt.Sums

/-- `x.astype(np.int)`: truncation towards zero. -/
noncomputable def trunc (x : ℝ) : ℤ := if 0 ≤ x then ⌊x⌋ else ⌈x⌉

/-- The pixels of an array in the order of `ravel()`. -/
def pixels (n m : ℕ) : List (ℕ × ℕ) :=
  (List.range n).flatMap fun i => (List.range m).map fun j => (i, j)

/-- The length of `np.bincount(k, w, minlength)`. -/
def binLength (k : List ℤ) (minlength : ℕ) : ℕ :=
  k.foldl (fun a b => max a (b.toNat + 1)) minlength

/-- `np.bincount(k, w, minlength)` of numpy; `none` is the `ValueError` for negative numbers. -/
noncomputable def bincount (k : ℕ × ℕ → ℤ) (w : ℕ × ℕ → ℝ) (ps : List (ℕ × ℕ)) (minlength : ℕ) :
    Option (List ℝ) :=
  if ∃ p ∈ ps, k p < 0 then none
  else some ((List.range (binLength (ps.map k) minlength)).map fun b : ℕ =>
    ((ps.filter fun p => k p = b).map w).sum)

/-- `k` of `angle_sum` for a pixel of the reversed array, rayopt/special_sums.py 138. -/
noncomputable def angleCoord (angle aspect binsize : ℝ) (p : ℕ × ℕ) : ℝ :=
  Real.cos angle * aspect / binsize * p.2 - Real.sin angle / binsize * p.1

/-- `km` of `angle_sum`: the smallest value at the four corners, rayopt/special_sums.py 140-141. -/
noncomputable def angleMin (n m : ℕ) (angle aspect binsize : ℝ) : ℝ :=
  min (min (angleCoord angle aspect binsize (0, 0)) (angleCoord angle aspect binsize (0, m - 1)))
    (min (angleCoord angle aspect binsize (n - 1, 0))
      (angleCoord angle aspect binsize (n - 1, m - 1)))

/-- The bin of a pixel of the reversed array, rayopt/special_sums.py 138-146. -/
noncomputable def angleBin (n m : ℕ) (angle aspect binsize : ℝ) (p : ℕ × ℕ) : ℤ :=
  ⌊angleCoord angle aspect binsize p - (angleMin n m angle aspect binsize - 1 / 2)⌋

/-- `angle_sum(f, angle, aspect, binsize)`, rayopt/special_sums.py 24-147.  `none`: exception for an
empty array, or NaN bins for `binsize=0`. -/
noncomputable def angleSum (n m : ℕ) (f : ℕ → ℕ → ℝ) (angle aspect : ℝ) (binsize : Option ℝ) :
    Option (List ℝ) :=
  let b := binsize.getD (max |Real.cos angle * aspect| |Real.sin angle|)
  if n = 0 ∨ m = 0 ∨ b = 0 then none
  else bincount (angleBin n m angle aspect b) (fun p => f (n - 1 - p.1) p.2) (pixels n m) 0

/-- `polar_sum(f, center, "azimuthal", aspect, binsize)`, rayopt/special_sums.py 152-262.  `none`:
exception for negative bins, or NaN bins for `binsize=0`. -/
noncomputable def azimuthalSum (n m : ℕ) (f : ℕ → ℕ → ℝ) (center : ℝ × ℝ) (aspect : ℝ)
    (binsize : Option ℝ) : Option (List ℝ) :=
  let b := binsize.getD (min 1 aspect)
  if b = 0 then none
  else bincount (fun p => trunc (Real.sqrt ((p.2 - center.2) ^ 2 * aspect ^ 2 +
    (p.1 - center.1) ^ 2) / b)) (fun p => f p.1 p.2) (pixels n m) 0

/-- `np.arctan2(y, x)` (without signed zeros). -/
noncomputable def arctan2 (y x : ℝ) : ℝ := Complex.arg ⟨x, y⟩

/-- `r[0] += r[-1]; r = r[:-1]`, rayopt/special_sums.py 260-261; `none` is the `IndexError` for an
empty array.  With a single bin, the sum is stored in the bin that is then dropped. -/
noncomputable def wrap (r : List ℝ) : Option (List ℝ) :=
  r.head?.bind fun h => r.getLast?.map fun l => (r.set 0 (h + l)).dropLast

/-- `polar_sum(f, center, "radial", aspect, binsize)`, rayopt/special_sums.py 152-262.  `none`:
exception for negative bins or the failed assertion, or NaN bins for `binsize=0`. -/
noncomputable def radialSum (n m : ℕ) (f : ℕ → ℕ → ℝ) (center : ℝ × ℝ) (aspect : ℝ)
    (binsize : Option ℝ) : Option (List ℝ) :=
  let b := binsize.getD (2 * Real.pi / 100)
  if b = 0 then none
  else
    let minlength := trunc (2 * Real.pi / b) + 1
    if minlength < 0 then none
    else (bincount (fun p => trunc ((arctan2 (p.1 - center.1) ((p.2 - center.2) * aspect) +
      Real.pi) / b)) (fun p => f p.1 p.2) (pixels n m) minlength.toNat).bind fun r =>
        if r.length = minlength.toNat then wrap r else none

end RayOpt.Sums
