import Mathlib.Analysis.SpecialFunctions.Pow.Complex
import Verif.Model.Paraxial

/-!
`GaussianTrace` (rayopt/gaussian_trace.py).
-/

namespace RayOpt

open Matrix

namespace Gauss

/-- `GaussianTrace.make_qi(l, n, waist, position, angle)`, rayopt/gaussian_trace.py 42-50; `waist`
and `position` have one value per axis, `scale` is `self.system.scale`.  `none` is a division by
zero. -/
noncomputable def makeQi (scale l n : ℝ) (waist position : Fin 2 → ℝ) (angle : ℝ) : Option QM :=
  let z0 : Fin 2 → ℝ := fun i => Real.pi * waist i ^ 2 * scale / l
  let z : Fin 2 → ℝ := fun i => position i / n
  let q : Fin 2 → ℂ := fun i => (z i : ℂ) + Complex.I * (z0 i : ℂ)
  if l = 0 ∨ n = 0 ∨ q 0 = 0 ∨ q 1 = 0 then none
  else
    let qq : QM := !![1 / q 0, 0; 0, 1 / q 1]
    let ca := Real.cos angle
    let sa := Real.sin angle
    let a : QM := toC !![ca, -sa; sa, ca]
    some (aᵀ * (qq * a))

/-- `np.searchsorted(path, z)` for a sorted array: the number of entries below `z`
(rayopt/gaussian_trace.py 88). -/
noncomputable def searchsorted (path : List ℝ) (z : ℝ) : ℕ := path.countP (fun p => p < z)

/-- The free space formula of `qin_at`, rayopt/gaussian_trace.py 94-101.  `none` is a division by
zero. -/
noncomputable def freeSpace (qi : QM) (dz : ℝ) : Option QM :=
  let qixx := qi 0 0
  let qixy := qi 0 1
  let qiyy := qi 1 1
  let qixy2 := qixy ^ 2
  let den := (1 + dz * qixx) * (1 + dz * qiyy) - dz ^ 2 * qixy2
  if den = 0 then none
  else
    let n := 1 / den
    some !![n * (qixx * (1 + dz * qiyy) - dz * qixy2), n * qixy;
            n * qixy, n * (qiyy * (1 + dz * qixx) - dz * qixy2)]

/-- `GaussianTrace.qin_at(z)` for one `z`, rayopt/gaussian_trace.py 81-102: `path` and `rows` are
the per-element arrays.  `none` is a division by zero or an empty trace. -/
noncomputable def qinAt (path : List ℝ) (rows : List (QM × ℝ)) (z : ℝ) : Option (QM × ℝ) :=
  let i := searchsorted path z - 1
  match rows[i]?, path[i]? with
  | some (qi, ni), some p =>
    if ni = 0 then none else (freeSpace qi ((z - p) / ni)).map fun q => (q, ni)
  | _, _ => none

/-- `waist_position` of one axis, rayopt/gaussian_trace.py 152-155:
`-(1/diag(qi)).real*n`. -/
noncomputable def waistPosition (qi : QM) (n : ℝ) (axis : Fin 2) : ℝ :=
  -(1 / qi axis axis).re * n

/-- `rayleigh_range` of one axis, rayopt/gaussian_trace.py 157-160. -/
noncomputable def rayleighRange (qi : QM) (n : ℝ) (axis : Fin 2) : ℝ :=
  (1 / qi axis axis).im * n

/-- `spot_radius_at` (not `normal`) of one axis, rayopt/gaussian_trace.py 124-132; `none` is the
NaN of a square root of a negative number or a division by zero. -/
noncomputable def spotRadius (qi : QM) (scale l : ℝ) (axis : Fin 2) : Option ℝ :=
  let c := l / (scale * Real.pi)
  let r := -(qi axis axis).im
  if r = 0 ∨ c / r < 0 then none else some (Real.sqrt (c / r))

/-- `waist_radius` of one axis, rayopt/gaussian_trace.py 162-166. -/
noncomputable def waistRadius (qi : QM) (n scale l : ℝ) (axis : Fin 2) : Option ℝ :=
  let r := rayleighRange qi n axis / Real.pi / n * l / scale
  if r < 0 then none else some (Real.sqrt r)

/-- `is_simple_astigmatic(m)`, exact version of rayopt/gaussian_trace.py 183-186. -/
def isSimpleAstigmatic (m : PM) : Prop :=
  m (.inl 0) (.inl 1) = 0 ∧ m (.inl 0) (.inr 1) = 0 ∧ m (.inl 1) (.inl 0) = 0 ∧
  m (.inl 1) (.inr 0) = 0 ∧ m (.inr 0) (.inl 1) = 0 ∧ m (.inr 0) (.inr 1) = 0 ∧
  m (.inr 1) (.inl 0) = 0 ∧ m (.inr 1) (.inr 0) = 0

/-- The polynomial whose roots `eigenmodes` takes for one axis, rayopt/gaussian_trace.py 195-197:
`a, b, c, d = m[axis::2, axis::2].flat; np.roots((c, d - a, -b))`. -/
noncomputable def eigenPoly (m : PM) (axis : Fin 2) (q : ℂ) : ℂ :=
  let a := m (.inl axis) (.inl axis)
  let b := m (.inl axis) (.inr axis)
  let c := m (.inr axis) (.inl axis)
  let d := m (.inr axis) (.inr axis)
  c * q ^ 2 + (d - a) * q - b

/-- The eigenmode built from one root per axis, rayopt/gaussian_trace.py 198. -/
noncomputable def eigenMode (q : Fin 2 → ℂ) : QM := !![1 / q 0, 0; 0, 1 / q 1]

/-- The asserted equations of `is_proper`, exact version of rayopt/gaussian_trace.py 201-209. -/
def isProper (m : PM) : Prop :=
  let a := m.toBlocks₁₁
  let b := m.toBlocks₁₂
  let c := m.toBlocks₂₁
  let d := m.toBlocks₂₂
  a * dᵀ - b * cᵀ = 1 ∧ a * bᵀ = b * aᵀ ∧ c * dᵀ = d * cᵀ

/-- `GaussianTrace.m` of one axis, rayopt/gaussian_trace.py 211-217. -/
noncomputable def halfTrace (m : PM) (axis : Fin 2) : ℝ :=
  (m (.inl axis) (.inl axis) + m (.inr axis) (.inr axis)) / 2

/-- `GaussianTrace.stable` of one axis, rayopt/gaussian_trace.py 229-231. -/
def stable (m : PM) (axis : Fin 2) : Prop := halfTrace m axis ^ 2 < 1

/-- `GaussianTrace.eigenvalues` of one axis, rayopt/gaussian_trace.py 219-223. -/
noncomputable def eigenvalues (m : PM) (axis : Fin 2) : ℂ × ℂ :=
  let h : ℂ := halfTrace m axis
  let m1 := (h ^ 2 - 1) ^ (1 / 2 : ℂ)
  (h + m1, h - m1)

/-- `GaussianTrace.angle(qi)` of one real matrix, rayopt/gaussian_trace.py 104-112.  `arctan2(y, x)`
is the argument of `x + iy`; `%` has the sign of the divisor.  The branch for complex matrices has
no caller. -/
noncomputable def angle (m : M2) : ℝ :=
  let a := Complex.arg ⟨m 0 0 - m 1 1, 2 * m 0 1⟩ / 2
  let b := a + Real.pi / 4
  b - Real.pi / 2 * ⌊b / (Real.pi / 2)⌋ - Real.pi / 4

/-- `GaussianTrace.normal(qi)` of one real matrix, rayopt/gaussian_trace.py 114-122: the diagonal and
the angle.  `none` is the failing assertion. -/
noncomputable def normal (m : M2) : Option (ℝ × ℝ × ℝ) :=
  let a := angle m
  let ca := Real.cos a
  let sa := Real.sin a
  let o : M2 := !![ca, -sa; sa, ca]
  let q := o * m * o
  open Classical in
  if close (q 0 1) 0 ∧ close (q 1 0) 0 then some (q 0 0, q 1 1, a) else none

/-- `spot_radius_at(normal=True)` of one beam, rayopt/gaussian_trace.py 124-129. -/
noncomputable def spotNormal (qi : QM) (scale l : ℝ) : Option (ℝ × ℝ × ℝ) :=
  let c := l / (scale * Real.pi)
  (normal (qi.map fun z => -z.im)).bind fun ra =>
    if ra.1 = 0 ∨ c / ra.1 < 0 ∨ ra.2.1 = 0 ∨ c / ra.2.1 < 0 then none
    else some (Real.sqrt (c / ra.1), Real.sqrt (c / ra.2.1), ra.2.2)

/-- `curvature_radius_at` (not `normal`) of one axis, rayopt/gaussian_trace.py 134-142; `none` is
infinite. -/
noncomputable def curvatureRadius (qi : QM) (n : ℝ) (axis : Fin 2) : Option ℝ :=
  let r := (qi axis axis).re
  if r = 0 then none else some (n / r)

/-- `GaussianTrace.resize(waists)`, rayopt/gaussian_trace.py 252-255; `rows` are the traced `qi`. -/
noncomputable def resize (sys : List Elem) (rows : List QM) (scale l waists : ℝ) :
    Option (List Elem) :=
  (rows.mapM fun q => spotNormal q scale l).map fun w =>
    sys.take 1 ++ (List.zipWith (fun e r => { e with radius := .fin (max r.1 r.2.1 * waists) })
      (sys.drop 1) (w.drop 1)) ++ sys.drop (max 1 w.length)

/-- `GaussianTrace.refocus(axis)`, rayopt/gaussian_trace.py 257-260, the change of the system:
`self.system[-1].distance += self.waist_position[-1, axis]` through the `distance` setter; `rows`
are the traced `(qi, n)`.  (The following `update` and `propagate` recompute the trace.)  `none`
is the `IndexError` of an empty system. -/
noncomputable def refocus (sys : List Elem) (rows : List (QM × ℝ)) (axis : Fin 2) :
    Option (List Elem) :=
  match sys.getLast?, rows.getLast? with
  | some e, some (q, n) =>
    some (sys.dropLast ++
      [{ e with tf := e.tf.setDistance (e.tf.distance + waistPosition q n axis) }])
  | _, _ => none

end Gauss

end RayOpt
