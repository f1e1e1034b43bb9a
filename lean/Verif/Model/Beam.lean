import Verif.Model.Gaussian
import Verif.Model.ParaxialTrace

/-!
The start of a `GaussianTrace` and the trace as a whole (rayopt/gaussian_trace.py).
-/

namespace RayOpt.Gauss

open Matrix

/-- The beam `GaussianTrace.rays()` starts with by default, rayopt/gaussian_trace.py 59-67: `obj.radius`
of a finite conjugate is `size`. The assertion of line 68 holds for it (`c91_default`). -/
noncomputable def startQi (o : Conj) (scale l n : ℝ) : Option QM :=
  if o.finite then makeQi scale l n (fun _ => o.size) (fun _ => 0) 0
  else o.pupil.radius.bind fun r => makeQi scale l n (fun _ => r) (fun _ => -o.pupil.distance) 0

/-- The rows `(qi, n)` after `GaussianTrace(system)`, rayopt/gaussian_trace.py 31-35, 52-79; `l` is the
first wavelength. -/
noncomputable def trace (sys : List Elem) (o : Conj) (scale l : ℝ) : Option (List (QM × ℝ)) :=
  let n := Sys.refractiveIndex sys l 0
  (startQi o scale l n).bind fun q => (Sys.propagateGaussian sys q n l 1 none).map fun rows => (q, n) :: rows

/-- `diverging` of one axis, rayopt/gaussian_trace.py 168-170. The curvature radius of a plane wavefront
is `n/0`, which is `inf` (or `-inf` for a negative zero, which is left out). -/
noncomputable def diverging (qi : QM) (n : ℝ) (axis : Fin 2) : Prop :=
  match curvatureRadius qi n axis with
  | none => True
  | some r => 0 < r

/-- `confined` of one axis, rayopt/gaussian_trace.py 172-174. -/
def confined (qi : QM) (n : ℝ) (axis : Fin 2) : Prop := 0 < rayleighRange qi n axis

/-- `is_stigmatic(m)`, exact version of rayopt/gaussian_trace.py 180-181: `m[::2, ::2]` and
`m[1::2, 1::2]` agree. -/
def isStigmatic (m : PM) : Prop :=
  m (.inl 0) (.inl 0) = m (.inl 1) (.inl 1) ∧ m (.inl 0) (.inr 0) = m (.inl 1) (.inr 1) ∧
  m (.inr 0) (.inl 0) = m (.inr 1) (.inl 1) ∧ m (.inr 0) (.inr 0) = m (.inr 1) (.inr 1)

end RayOpt.Gauss
