import Verif.Model.Psf
import Verif.Model.Sums

/-!
Encircled energy and modulation transfer function from the point spread function
(`Analysis.opds`, rayopt/analysis.py 319-345).
-/

namespace RayOpt.Psf

/-- `np.fft.fftshift` of an axis of length `n`: the index read for the result at `i`. -/
def fftshift (n i : ℕ) : ℕ := (i + (n - n / 2)) % n

/-- `np.fft.ifftshift` of an axis of length `n`: the index read for the result at `i`. -/
def ifftshift (n i : ℕ) : ℕ := (i + n / 2) % n

/-- `np.fft.fftfreq(n, d)[k]`. -/
noncomputable def fftfreq (n : ℕ) (d : ℝ) (k : ℕ) : ℝ :=
  (if k < (n - 1) / 2 + 1 then (k : ℝ) else k - n) / (n * d)

/-- `np.fft.ifft(a)[f]` of an array of length `n`. -/
noncomputable def ifft (n : ℕ) (a : ℕ → ℂ) (f : ℕ) : ℂ :=
  (∑ q ∈ Finset.range n, a q * Complex.exp (2 * Complex.I * Real.pi * (f * q / n))) / n

section
variable (n m pad : ℕ) (o : ℕ → ℕ → Option ℝ)

/-- The shifted `psf`, rayopt/analysis.py 319. -/
noncomputable def shifted (i j : ℕ) : ℝ :=
  psf n m pad o (fftshift (n * pad) i) (fftshift (m * pad) j)

/-- `psf.sum(i)`, rayopt/analysis.py 343. -/
noncomputable def lineSum : Fin 2 → ℕ → ℝ
  | 0, j => ∑ i ∈ Finset.range (n * pad), shifted n m pad o i j
  | 1, i => ∑ j ∈ Finset.range (m * pad), shifted n m pad o i j

/-- `ot` for `i = axis`, rayopt/analysis.py 343:
`np.fft.ifft(np.fft.ifftshift(psf.sum(i))*psf.size**.5)`. -/
noncomputable def otf (axis : Fin 2) (f : ℕ) : ℂ :=
  let k := if axis = 0 then m * pad else n * pad
  ifft k (fun q => ((lineSum n m pad o axis (ifftshift k q) *
    Real.sqrt ((n * pad : ℕ) * (m * pad : ℕ)) : ℝ) : ℂ)) f

/-- The coordinate `x[i, j]` (first component) or `y[i, j]` of the shifted function,
rayopt/geometric_trace.py 158-161 and rayopt/analysis.py 319; `d` is `dx*k/radius`.  Both axes use
the frequencies of the first one. -/
noncomputable def coords (d : ℝ) (i j : ℕ) : ℝ × ℝ :=
  (fftfreq (n * pad) d (fftshift (n * pad) i), fftfreq (n * pad) d (fftshift (n * pad) j))

/-- `x0, y0`, rayopt/analysis.py 320-321. -/
noncomputable def centroid (d : ℝ) : ℝ × ℝ :=
  (∑ i ∈ Finset.range (n * pad), ∑ j ∈ Finset.range (m * pad),
      shifted n m pad o i j * (coords n pad d i j).1,
   ∑ i ∈ Finset.range (n * pad), ∑ j ∈ Finset.range (m * pad),
      shifted n m pad o i j * (coords n pad d i j).2)

/-- `dx`, rayopt/analysis.py 323. -/
noncomputable def pixel (d : ℝ) : ℝ := (coords n pad d 1 0).1 - (coords n pad d 0 0).1

/-- The centre handed to `polar_sum`, rayopt/analysis.py 330-331. -/
noncomputable def center (d : ℝ) : ℝ × ℝ :=
  ((n * pad : ℕ) / 2 + (centroid n m pad o d).1 / pixel n pad d,
   (m * pad : ℕ) / 2 + (centroid n m pad o d).2 / pixel n pad d)

/-- `ee`, rayopt/analysis.py 330-332: `np.cumsum(polar_sum(psf, center, "azimuthal"))`. -/
noncomputable def encircled (d : ℝ) : Option (List ℝ) :=
  (Sums.azimuthalSum (n * pad) (m * pad) (shifted n m pad o) (center n m pad o d) 1 none).map
    fun r => (r.scanl (· + ·) 0).tail

end

end RayOpt.Psf
