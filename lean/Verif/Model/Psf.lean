import Mathlib.Analysis.SpecialFunctions.Complex.Circle
import Mathlib.RingTheory.RootsOfUnity.Complex

/-!
Point spread function from the optical path differences on a grid of the exit pupil
(rayopt/geometric_trace.py 146-161).

The resampled optical path differences of `opd` are the input: a grid of `n × m` values, NaN
(`none`) outside of the pupil.
-/

namespace RayOpt.Psf

/-- The phase factor of one grid point without the normalisation, rayopt/geometric_trace.py 152:
`np.where(good, np.exp(-2j*np.pi*o), 0)`. -/
noncomputable def phasor : Option ℝ → ℂ
  | some o => Complex.exp (-2 * Complex.I * Real.pi * o)
  | none => 0

/-- `np.count_nonzero(good)`, rayopt/geometric_trace.py 150-151. -/
def count (n m : ℕ) (o : ℕ → ℕ → Option ℝ) : ℕ :=
  ∑ x ∈ Finset.range n, ∑ y ∈ Finset.range m, if (o x y).isSome then 1 else 0

/-- The amplitude in the pupil, rayopt/geometric_trace.py 152. -/
noncomputable def amplitude (n m : ℕ) (o : ℕ → ℕ → Option ℝ) (x y : ℕ) : ℂ :=
  phasor (o x y) / (Real.sqrt (count n m o) : ℝ)

/-- `np.fft.fft2(a, (nx, ny))[p, q]` of numpy for an `n × m` array padded with zeros. -/
noncomputable def fft2 (n m : ℕ) (a : ℕ → ℕ → ℂ) (nx ny p q : ℕ) : ℂ :=
  ∑ x ∈ Finset.range n, ∑ y ∈ Finset.range m,
    a x y * Complex.exp (-2 * Complex.I * Real.pi * (p * x / nx + q * y / ny))

/-- `psf[p, q]`, rayopt/geometric_trace.py 153-157. -/
noncomputable def psf (n m pad : ℕ) (o : ℕ → ℕ → Option ℝ) (p q : ℕ) : ℝ :=
  let f := fft2 n m (amplitude n m o) (n * pad) (m * pad) p q
  (f * (starRingEnd ℂ) f).re / ((n * pad) * (m * pad))

end RayOpt.Psf
