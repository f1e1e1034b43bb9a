import Verif.Props.Angles
import Mathlib.Analysis.Convex.SpecificFunctions.Deriv
import Mathlib.Analysis.SpecialFunctions.Trigonometric.Inverse

/-!
Properties C37 and C38: aiming of rays from finite and infinite objects.
-/

namespace RayOpt

open V3 Util

/-! ## C37: finite objects -/

theorem sagittalMeridional_zero (z : V3) : sagittalMeridional 0 z = none := by
  have h1 : (0 : V3).cross z = 0 := by ext <;> simp [cross]
  have h2 : (0 : V3).cross ⟨1, 0, 0⟩ = 0 := by ext <;> simp [cross]
  simp only [sagittalMeridional, h1, if_true, h2]
  have h3 : Util.normalize 0 = none := by simp [Util.normalize, norm_eq_zero]
  rw [h3]
  simp

/-- Orthonormal pair spanning the plane across the direction `u`, the first one across the axis
too. -/
structure Across (u s m : V3) : Prop where
  ss : s.dot s = 1
  mm : m.dot m = 1
  sm : s.dot m = 0
  su : s.dot u = 0
  mu : m.dot u = 0
  sz : s.z = 0

theorem frame_across {u : V3} {z : ℝ} (hu : u ≠ 0) (hz : z ≠ 0) :
    ∃ s m, sagittalMeridional u ⟨0, 0, z⟩ = some (s, m) ∧ Across u s m := by
  obtain ⟨s, m, h, h1, h2, h3, h4, h5, h6, -⟩ := c35_frame u z hu hz
  refine ⟨s, m, h, h1, h2, h3, h4, h5, ?_⟩
  simpa [dot, hz] using h6

theorem surfaceSag_shift (sh : Shape) (x y z : ℝ) :
    sh.surfaceSag ⟨x, y, z⟩ = (sh.surfaceSag ⟨x, y, 0⟩).map (· + z) := by
  unfold Shape.surfaceSag
  simp only [Shape.rsq]
  by_cases h1 : sh.curvature = 0 ∧ sh.aspherics = none
  · simp [h1]
  · by_cases h2 : sh.curvature = 0
    · cases h4 : sh.aspherics <;> simp_all
      ring
    · by_cases h3 : 1 < (1 + sh.conic) * sh.curvature ^ 2 * (x * x + y * y)
      · cases h4 : sh.aspherics <;> simp [h2, h3]
      · cases h4 : sh.aspherics <;> simp [h2, h3] <;> ring

namespace Finite

/-- The chief direction before normalisation. -/
noncomputable def chief (telecentric : Bool) (y : V3) (z : ℝ) : V3 :=
  if telecentric then ⟨0, 0, z⟩ else ⟨0, 0, z⟩ - y

/-- C37: the start point is the (inverted) object point, on the object surface if there is one. -/
theorem c37_object {R z : ℝ} {tel : Bool} {yo : ℝ × ℝ} {yp : Option (ℝ × ℝ)}
    {a : (ℝ × ℝ) × (ℝ × ℝ)} {surf : Option Shape} {filter : Bool} {y d : V3}
    (h : aim R tel yo yp z a surf filter = some (y, d)) :
    y.x = -(yo.1 * R) ∧ y.y = -(yo.2 * R) ∧ (surf = none → y.z = 0) ∧
      (∀ sh, surf = some sh → sh.surfaceSag y = some 0) := by
  unfold aim at h
  simp only [Option.bind_eq_some_iff, Option.map_eq_some_iff, Prod.mk.injEq] at h
  obtain ⟨y', hy, _, _, _, _, rfl, _⟩ := h
  unfold objectPoint at hy
  cases surf with
  | none =>
    simp only [Option.some.injEq] at hy
    subst hy; simp
  | some sh =>
    simp only [Option.map_eq_some_iff] at hy
    obtain ⟨s, hs, rfl⟩ := hy
    refine ⟨by simp, by simp, by simp, fun sh' h' => ?_⟩
    cases h'
    rw [surfaceSag_shift, hs]; simp

/-- C37: a chief ray (`yp=None`) has a unit direction and passes the pupil centre. -/
theorem c37_chief {R z : ℝ} {yo : ℝ × ℝ} {a : (ℝ × ℝ) × (ℝ × ℝ)} {surf : Option Shape}
    {filter : Bool} {y d : V3} (hz : z ≠ 0)
    (h : aim R false yo none z a surf filter = some (y, d)) :
    d.dot d = 1 ∧ (∃ t, 0 < t * z ∧ y + t • d = ⟨0, 0, z⟩) ∧ (surf = none → 0 < d.z) := by
  have ho := (c37_object h).2.2.1
  unfold aim at h
  simp only [Option.bind_eq_some_iff, Option.map_eq_some_iff, Prod.mk.injEq, Option.some.injEq] at h
  obtain ⟨y', hy, _, rfl, v, hv, rfl, hd⟩ := h
  simp only [Bool.false_eq_true, if_false] at hv
  obtain ⟨hv1, hp⟩ := normalize_eq hv
  have hu := normalize_unit hv
  generalize hN : ((⟨0, 0, z⟩ : V3) - y').norm = N at *
  have hzv : surf = none → v.z = z / N := fun hs => by rw [hv1]; simp [ho hs]; ring
  have hline : y' + N • v = ⟨0, 0, z⟩ := by
    rw [hv1]; ext <;> simp <;> field_simp <;> ring
  subst hd
  by_cases hneg : z < 0
  · rw [if_pos hneg]
    refine ⟨by rw [dot_smul_smul, hu]; norm_num, ⟨-N, by nlinarith, ?_⟩, fun hs => ?_⟩
    · rw [← hline]; ext <;> simp
    · have := hzv hs
      simp only [smul_z, this]
      have : 0 < (-z) / N := div_pos (by linarith) hp
      calc (0:ℝ) < _ := this
        _ = _ := by ring
  · have hpos : 0 < z := lt_of_le_of_ne (not_lt.mp hneg) (Ne.symm hz)
    rw [if_neg hneg]
    exact ⟨hu, ⟨N, mul_pos hp hpos, hline⟩, fun hs => by rw [hzv hs]; exact div_pos hpos hp⟩

/-- C37: an aimed ray has a unit direction, passes through the point with the pupil coordinates
`(p, q)` in an orthonormal frame across the chief ray, erected at the pupil centre (or, for a
telecentric pupil, at the point opposite the object), and travels to the same side as the chief
ray. -/
theorem c37_aim {R z : ℝ} {tel : Bool} {yo yp : ℝ × ℝ} {a : (ℝ × ℝ) × (ℝ × ℝ)}
    {surf : Option Shape} {filter : Bool} {y d : V3} (hz : z ≠ 0)
    (h : aim R tel yo (some yp) z a surf filter = some (y, d)) :
    ∃ p q s m, pupilPoint yp a z filter = some (p, q) ∧
      sagittalMeridional (chief tel y z) ⟨0, 0, z⟩ = some (s, m) ∧
      Across (chief tel y z) s m ∧ d.dot d = 1 ∧
      (∃ t, 0 < t * z ∧ y + t • d = y + chief tel y z + (p • s + q • m)) ∧
      0 < z * d.dot (chief tel y z) := by
  unfold aim at h
  simp only [Option.bind_eq_some_iff, Option.map_eq_some_iff, Prod.mk.injEq] at h
  obtain ⟨y', hy, w, ⟨⟨p, q⟩, hpq, ⟨s, m⟩, hsm, hw⟩, v, hv, rfl, hd⟩ := h
  have hch : (if tel = true then (⟨0, 0, z⟩ : V3) else ⟨0, 0, z⟩ - y') = chief tel y' z := by
    unfold chief; rfl
  rw [hch] at hsm hw
  have hu : chief tel y' z ≠ 0 := by
    intro h0
    rw [h0, sagittalMeridional_zero] at hsm
    cases hsm
  obtain ⟨s', m', hsm', hA⟩ := frame_across (z := z) hu hz
  rw [hsm] at hsm'
  simp only [Option.some.injEq, Prod.mk.injEq] at hsm'
  obtain ⟨rfl, rfl⟩ := hsm'
  refine ⟨p, q, s, m, hpq, hsm, hA, ?_⟩
  have hup := dot_self_pos hu
  obtain ⟨hv1, hp⟩ := normalize_eq hv
  have hvu := normalize_unit hv
  simp only at hw
  have hdot : w.dot (chief tel y' z) = (chief tel y' z).dot (chief tel y' z) := by
    rw [← hw]
    have e1 := hA.su
    have e2 := hA.mu
    simp only [dot, add_x, add_y, add_z, smul_x, smul_y, smul_z] at e1 e2 ⊢
    linear_combination p * e1 + q * e2
  have hdv : v.dot (chief tel y' z) = (1 / w.norm) * (chief tel y' z).dot (chief tel y' z) := by
    rw [← hdot, hv1]; simp [dot]; ring
  have hline : y' + w.norm • v = y' + chief tel y' z + (p • s + q • m) := by
    have : w.norm • v = w := by rw [hv1]; ext <;> simp <;> field_simp
    rw [this, ← hw]; ext <;> simp <;> ring
  generalize w.norm = N at *
  subst hd
  by_cases hneg : z < 0
  · rw [if_pos hneg]
    refine ⟨by rw [dot_smul_smul, hvu]; norm_num, ⟨-N, by nlinarith, ?_⟩, ?_⟩
    · rw [← hline]; ext <;> simp
    · have : ((-1 : ℝ) • v).dot (chief tel y' z) = - v.dot (chief tel y' z) := by
        simp [dot]; ring
      rw [this, hdv]
      have : 0 < (1 / N) * (chief tel y' z).dot (chief tel y' z) := by positivity
      nlinarith
  · have hpos : 0 < z := lt_of_le_of_ne (not_lt.mp hneg) (Ne.symm hz)
    rw [if_neg hneg]
    refine ⟨hvu, ⟨N, mul_pos hp hpos, hline⟩, ?_⟩
    rw [hdv]; positivity

/-- C37: aiming succeeds for every object point on a plane object. -/
theorem c37_defined (R z : ℝ) (tel : Bool) (yo yp : ℝ × ℝ) (a : (ℝ × ℝ) × (ℝ × ℝ)) (filter : Bool)
    (hz : z ≠ 0) {pq : ℝ × ℝ} (hp : pupilPoint yp a z filter = some pq) :
    ∃ r, aim R tel yo (some yp) z a none filter = some r := by
  obtain ⟨p, q⟩ := pq
  unfold aim objectPoint
  simp only [Option.bind_some]
  set u : V3 := (if tel = true then (⟨0, 0, z⟩ : V3) else ⟨0, 0, z⟩ - ⟨-yo.1 * R, -yo.2 * R, 0⟩)
    with hu
  have huz : u.z = z := by rw [hu]; cases tel <;> simp
  have hu0 : u ≠ 0 := fun h => hz (by rw [← huz, h]; rfl)
  obtain ⟨s, m, hsm, hA⟩ := frame_across hu0 hz
  rw [hp]
  simp only [Option.bind_some, hsm, Option.map_some]
  have hne : u + (p • s + q • m) ≠ 0 := by
    intro h
    have h1 : (u + (p • s + q • m)).dot u = u.dot u := by
      have e1 := hA.su
      have e2 := hA.mu
      simp only [dot, add_x, add_y, add_z, smul_x, smul_y, smul_z] at e1 e2 ⊢
      linear_combination p * e1 + q * e2
    rw [h] at h1
    have h2 := dot_self_pos hu0
    rw [← h1] at h2
    simp [dot] at h2
  rw [normalize_some hne]
  exact ⟨_, rfl⟩

/-! ### The pupil map -/

theorem arctan2_neg {r z : ℝ} (h : r ≠ 0 ∨ 0 < z) : arctan2 (-r) z = -arctan2 r z := by
  unfold arctan2
  have := Complex.arg_conj ⟨z, r⟩
  have e : (starRingEnd ℂ) (⟨z, r⟩ : ℂ) = ⟨z, -r⟩ := by apply Complex.ext <;> simp
  rw [e] at this
  rw [this, if_neg]
  intro hpi
  obtain ⟨h1, h2⟩ := Complex.arg_eq_pi_iff.mp hpi
  simp only at h1 h2
  rcases h with h | h
  · exact h h2
  · linarith

theorem arctan2_nonneg {r : ℝ} (z : ℝ) (h : 0 ≤ r) : 0 ≤ arctan2 r z :=
  Complex.arg_nonneg_iff.mpr h

theorem tan_arctan2 (r z : ℝ) : Real.tan (arctan2 r z) = r / z := Complex.tan_arg _

/-- The pupil map for a symmetric aperture. -/
theorem pupilPoint_sym {r z : ℝ} (hr : 0 ≤ r) (h : r ≠ 0 ∨ 0 < z) (yp : ℝ × ℝ) :
    pupilPoint yp (aperture r) z false =
      some (z * Real.tan (yp.1 * arctan2 r z), z * Real.tan (yp.2 * arctan2 r z)) := by
  have h1 := arctan2_neg h
  have h2 := arctan2_nonneg z hr
  simp [pupilPoint, Pupil.map, aperture, h1, abs_of_nonneg h2]

theorem pupilPoint_filter {r z : ℝ} (hr : 0 < r) (yp : ℝ × ℝ) :
    pupilPoint yp (aperture r) z true =
      if yp.1 ^ 2 + yp.2 ^ 2 ≤ 1 then pupilPoint yp (aperture r) z false else none := by
  have h1 := arctan2_neg (z := z) (Or.inl hr.ne')
  have h2 := arctan2_nonneg z hr.le
  have h3 : arctan2 r z ≠ 0 := by
    intro h0
    unfold arctan2 at h0
    have := (Complex.arg_eq_zero_iff.mp h0).2
    simp only at this
    exact hr.ne' this
  have h4 : ∀ x : ℝ, (x * arctan2 r z) ^ 2 / arctan2 r z ^ 2 = x ^ 2 := fun x => by
    field_simp
  simp only [pupilPoint, Pupil.map, aperture, h1, abs_of_nonneg h2, abs_neg, max_self, if_true,
    Bool.false_eq_true, if_false]
  have e1 : (-arctan2 r z + arctan2 r z) / 2 = 0 := by ring
  have e2 : (arctan2 r z - -arctan2 r z) / 2 = arctan2 r z := by ring
  simp only [e1, e2, h3, or_self, if_false, sub_zero, h4]
  split_ifs <;> rfl

/-- C37: full pupil fractions are the pupil edge (also for virtual pupils) and the fraction zero is
the centre. -/
theorem c37_edge {r z : ℝ} (hr : 0 < r) (hz : z ≠ 0) (filter : Bool) :
    pupilPoint (1, 0) (aperture r) z filter = some (r, 0) ∧
    pupilPoint (-1, 0) (aperture r) z filter = some (-r, 0) ∧
    pupilPoint (0, 1) (aperture r) z filter = some (0, r) ∧
    pupilPoint (0, -1) (aperture r) z filter = some (0, -r) ∧
    pupilPoint (0, 0) (aperture r) z filter = some (0, 0) := by
  have hf : ∀ yp : ℝ × ℝ, yp.1 ^ 2 + yp.2 ^ 2 ≤ 1 → pupilPoint yp (aperture r) z filter =
      some (z * Real.tan (yp.1 * arctan2 r z), z * Real.tan (yp.2 * arctan2 r z)) := by
    intro yp h
    cases filter
    · exact pupilPoint_sym hr.le (Or.inl hr.ne') yp
    · rw [pupilPoint_filter hr, if_pos h, pupilPoint_sym hr.le (Or.inl hr.ne') yp]
  refine ⟨?_, ?_, ?_, ?_, ?_⟩ <;> rw [hf _ (by norm_num)] <;>
    simp [tan_arctan2, Real.tan_neg] <;> field_simp

theorem tan_le_mul {f t : ℝ} (h0 : 0 ≤ f) (h1 : f ≤ 1) (ht : 0 ≤ t) (ht' : t < Real.pi / 2) :
    Real.tan (f * t) ≤ f * Real.tan t := by
  have hpi := Real.pi_pos
  have hft : f * t ≤ t := by nlinarith
  have hc : 0 < Real.cos t := Real.cos_pos_of_mem_Ioo ⟨by linarith, ht'⟩
  have hc' : 0 < Real.cos (f * t) :=
    Real.cos_pos_of_mem_Ioo ⟨by nlinarith [mul_nonneg h0 ht], by linarith⟩
  have hs : 0 ≤ Real.sin t := Real.sin_nonneg_of_nonneg_of_le_pi ht (by linarith)
  have hcc : (1 - f) * Real.sin t ≤ Real.sin ((1 - f) * t) := by
    have := strictConcaveOn_sin_Icc.concaveOn.2 (show t ∈ Set.Icc 0 Real.pi from ⟨ht, by linarith⟩)
      (show (0 : ℝ) ∈ Set.Icc 0 Real.pi from ⟨le_refl _, hpi.le⟩) (show 0 ≤ 1 - f by linarith) h0
      (by ring)
    simpa using this
  have hsub : Real.sin ((1 - f) * t)
      = Real.sin t * Real.cos (f * t) - Real.cos t * Real.sin (f * t) := by
    rw [← Real.sin_sub]; congr 1; ring
  have hle := Real.cos_le_one (f * t)
  rw [Real.tan_eq_sin_div_cos, Real.tan_eq_sin_div_cos, ← mul_div_assoc, div_le_div_iff₀ hc' hc]
  have : (1 - f) * Real.sin t * Real.cos (f * t) ≤ (1 - f) * Real.sin t :=
    mul_le_of_le_one_right (mul_nonneg (by linarith) hs) hle
  nlinarith

theorem tan_sq_le {f t : ℝ} (h1 : |f| ≤ 1) (ht : 0 ≤ t) (ht' : t < Real.pi / 2) :
    Real.tan (f * t) ^ 2 ≤ f ^ 2 * Real.tan t ^ 2 := by
  have key : ∀ g : ℝ, 0 ≤ g → g ≤ 1 → Real.tan (g * t) ^ 2 ≤ g ^ 2 * Real.tan t ^ 2 := by
    intro g h0 h1
    have := tan_le_mul h0 h1 ht ht'
    have hp : 0 ≤ Real.tan (g * t) := Real.tan_nonneg_of_nonneg_of_le_pi_div_two
      (mul_nonneg h0 ht) (by nlinarith)
    calc Real.tan (g * t) ^ 2 ≤ (g * Real.tan t) ^ 2 := pow_le_pow_left₀ hp this 2
      _ = _ := by ring
  rcases le_total 0 f with h | h
  · exact key f h (by rwa [abs_of_nonneg h] at h1)
  · have := key (-f) (by linarith) (by rwa [abs_of_nonpos h] at h1)
    rw [neg_mul, Real.tan_neg] at this
    linarith [this, neg_sq f, neg_sq (Real.tan (f * t))]

/-- C37: for a real pupil (`z > 0`) the rays that survive the filter are aimed inside the pupil
circle, each inside the circle of its own fraction, and all rays outside the unit circle are
filtered out. -/
theorem c37_disc {r z : ℝ} (hr : 0 < r) (hz : 0 < z) (yp : ℝ × ℝ) :
    (yp.1 ^ 2 + yp.2 ^ 2 ≤ 1 → ∃ p q, pupilPoint yp (aperture r) z true = some (p, q) ∧
      p ^ 2 + q ^ 2 ≤ r ^ 2 * (yp.1 ^ 2 + yp.2 ^ 2)) ∧
    (1 < yp.1 ^ 2 + yp.2 ^ 2 → pupilPoint yp (aperture r) z true = none) := by
  constructor
  · intro h
    refine ⟨_, _, by rw [pupilPoint_filter hr, if_pos h, pupilPoint_sym hr.le (Or.inl hr.ne')], ?_⟩
    have ht : |arctan2 r z| < Real.pi / 2 := Complex.abs_arg_lt_pi_div_two_iff.mpr (Or.inl hz)
    have h0 := arctan2_nonneg z hr.le
    rw [abs_of_nonneg h0] at ht
    have a1 : |yp.1| ≤ 1 := by rw [← sq_le_one_iff_abs_le_one]; nlinarith [sq_nonneg yp.2]
    have a2 : |yp.2| ≤ 1 := by rw [← sq_le_one_iff_abs_le_one]; nlinarith [sq_nonneg yp.1]
    have b1 := tan_sq_le a1 h0 ht
    have b2 := tan_sq_le a2 h0 ht
    rw [tan_arctan2] at b1 b2
    have e : z ^ 2 * (r / z) ^ 2 = r ^ 2 := by field_simp
    have hz2 : 0 ≤ z ^ 2 := sq_nonneg z
    nlinarith [mul_le_mul_of_nonneg_left b1 hz2, mul_le_mul_of_nonneg_left b2 hz2]
  · intro h
    rw [pupilPoint_filter hr, if_neg (not_le.mpr h)]

/-- C37: for a real pupil the fractional coordinates are fractions of the half angle under which the
pupil is seen from the object: the ray with fraction `x` is aimed where the angle is `x` times that of
the edge. -/
theorem c37_angle {r z : ℝ} (hr : 0 < r) (hz : 0 < z) {yp : ℝ × ℝ} (h : yp.1 ^ 2 + yp.2 ^ 2 ≤ 1)
    (filter : Bool) : ∃ p q, pupilPoint yp (aperture r) z filter = some (p, q) ∧
      Real.arctan (p / z) = yp.1 * Real.arctan (r / z) ∧
      Real.arctan (q / z) = yp.2 * Real.arctan (r / z) := by
  have hat : arctan2 r z = Real.arctan (r / z) := by
    have h1 : Real.tan (arctan2 r z) = r / z := tan_arctan2 r z
    have h2 : |arctan2 r z| < Real.pi / 2 := Complex.abs_arg_lt_pi_div_two_iff.mpr (Or.inl hz)
    rw [← h1, Real.arctan_tan (abs_lt.mp h2).1 (abs_lt.mp h2).2]
  have hp := Real.arctan_lt_pi_div_two (r / z)
  have h0 : 0 < Real.arctan (r / z) := Real.arctan_pos.mpr (by positivity)
  have key : ∀ f : ℝ, f ^ 2 ≤ 1 →
      Real.arctan (z * Real.tan (f * arctan2 r z) / z) = f * Real.arctan (r / z) := by
    intro f hf
    have h1 := abs_le.mp ((sq_le_one_iff_abs_le_one f).mp hf)
    rw [mul_div_assoc, mul_div_cancel₀ _ hz.ne', hat,
      Real.arctan_tan (by nlinarith) (by nlinarith)]
  refine ⟨_, _, ?_, key yp.1 (by nlinarith [sq_nonneg yp.2]), key yp.2 (by nlinarith [sq_nonneg yp.1])⟩
  cases filter
  · exact pupilPoint_sym hr.le (Or.inl hr.ne') yp
  · rw [pupilPoint_filter hr, if_pos h, pupilPoint_sym hr.le (Or.inl hr.ne') yp]

example : ∃ p q, pupilPoint (3 / 5, 4 / 5) (aperture 2) 10 true = some (p, q) ∧
    Real.arctan (p / 10) = 3 / 5 * Real.arctan (2 / 10) ∧
    Real.arctan (q / 10) = 4 / 5 * Real.arctan (2 / 10) :=
  c37_angle (by norm_num) (by norm_num) (by norm_num) true

/-- C37, violation: for a virtual pupil (`z < 0`) a ray aimed at half the pupil radius lands far
outside the pupil. -/
theorem c37_virtual_violation : ∃ p, pupilPoint (1 / 2, 0) (aperture 1) (-1) true = some (p, 0) ∧
    1 < p ^ 2 := by
  have hpi := Real.pi_pos
  have hat : arctan2 1 (-1) = 3 * Real.pi / 4 := by
    unfold arctan2
    have h1 : (⟨-1, 1⟩ : ℂ) = (Real.sqrt 2 : ℝ) *
        (Complex.cos ((3 * Real.pi / 4 : ℝ) : ℂ) + Complex.sin ((3 * Real.pi / 4 : ℝ) : ℂ) * Complex.I) := by
      have hcos : Real.cos (3 * Real.pi / 4) = -(Real.sqrt 2 / 2) := by
        rw [show 3 * Real.pi / 4 = Real.pi - Real.pi / 4 by ring, Real.cos_pi_sub,
          Real.cos_pi_div_four]
      have hsin : Real.sin (3 * Real.pi / 4) = Real.sqrt 2 / 2 := by
        rw [show 3 * Real.pi / 4 = Real.pi - Real.pi / 4 by ring, Real.sin_pi_sub,
          Real.sin_pi_div_four]
      have h2 : Real.sqrt 2 * Real.sqrt 2 = 2 := Real.mul_self_sqrt (by norm_num)
      rw [← Complex.ofReal_cos, ← Complex.ofReal_sin, hcos, hsin]
      apply Complex.ext
      · simp; linarith
      · simp; linarith
    rw [h1, Complex.arg_mul_cos_add_sin_mul_I (by positivity) ⟨by linarith, by linarith⟩]
  refine ⟨-1 * Real.tan (1 / 2 * arctan2 1 (-1)), ?_, ?_⟩
  · rw [pupilPoint_filter one_pos, if_pos (by norm_num),
      pupilPoint_sym zero_le_one (Or.inl one_ne_zero)]
    simp
  · rw [hat]
    have : 1 < Real.tan (1 / 2 * (3 * Real.pi / 4)) := by
      conv_lhs => rw [← Real.tan_pi_div_four]
      exact Real.tan_lt_tan_of_nonneg_of_lt_pi_div_two (by linarith) (by linarith) (by linarith)
    nlinarith

/-- C37, violation: for an off-axis object the requested pupil coordinates are not those of the
intersection with the pupil plane: a marginal ray aimed at the pupil edge `r = 1` crosses the pupil
plane more than three pupil radii from the axis. -/
theorem c37_plane_violation : ∃ y d : V3,
    aim (3 / 4) false (0, -1) (some (0, 1)) 1 (aperture 1) none true = some (y, d) ∧
    ∃ t : ℝ, (y + t • d).z = 1 ∧ 3 < |(y + t • d).y| := by
  have hpp := (c37_edge (r := 1) (z := 1) one_pos one_ne_zero true).2.2.1
  obtain ⟨⟨y, d⟩, h⟩ := c37_defined (3 / 4) 1 false (0, -1) (0, 1) (aperture 1) true one_ne_zero hpp
  refine ⟨y, d, h, ?_⟩
  obtain ⟨p, q, s, m, h1, hsm, -, -, ⟨t, ht, hl⟩, -⟩ := c37_aim one_ne_zero h
  obtain ⟨o1, o2, o3, -⟩ := c37_object h
  rw [hpp] at h1
  cases h1
  have hy : y = ⟨0, 3 / 4, 0⟩ := by
    ext
    · simpa using o1
    · simpa using o2
    · exact o3 rfl
  subst hy
  have hm : m = ⟨0, -(4 / 5), -(3 / 5)⟩ := by
    unfold sagittalMeridional at hsm
    have hch : chief false ⟨0, 3 / 4, 0⟩ 1 = ⟨0, -(3 / 4), 1⟩ := by
      ext <;> simp [chief]
    have hc : (⟨0, -(3 / 4), 1⟩ : V3).cross ⟨0, 0, 1⟩ = ⟨-(3 / 4), 0, 0⟩ := by
      ext <;> simp [cross]
    have hc0 : (⟨-(3 / 4), 0, 0⟩ : V3) ≠ 0 := fun h => by
      have := congrArg V3.x h; norm_num at this
    have hc2 : (⟨0, -(3 / 4), 1⟩ : V3).cross ⟨-(3 / 4), 0, 0⟩ = ⟨0, -(3 / 4), -(9 / 16)⟩ := by
      ext <;> simp [cross]; norm_num
    rw [hch] at hsm
    simp only [hc] at hsm
    rw [if_neg (by rw [hc]; exact hc0)] at hsm
    simp only [hc2, Option.bind_eq_some_iff, Option.map_eq_some_iff, Prod.mk.injEq] at hsm
    obtain ⟨_, _, m2, hm2, _, rfl⟩ := hsm
    obtain ⟨e, -⟩ := normalize_eq hm2
    have hn : (⟨0, -(3 / 4), -(9 / 16)⟩ : V3).norm = 15 / 16 := by
      rw [V3.norm, show (⟨0, -(3 / 4), -(9 / 16)⟩ : V3).dot ⟨0, -(3 / 4), -(9 / 16)⟩
        = (15 / 16) ^ 2 by simp [dot]; norm_num]
      exact Real.sqrt_sq (by norm_num)
    rw [e, hn]; ext <;> simp <;> norm_num
  subst hm
  have hly : t * d.y = -(31 / 20) := by
    have := congrArg V3.y hl; simp [chief] at this; linarith
  have hlz : t * d.z = 2 / 5 := by
    have := congrArg V3.z hl; simp [chief] at this; linarith
  refine ⟨5 / 2 * t, ?_, ?_⟩
  · simp only [add_z, smul_z]; linear_combination 5 / 2 * hlz
  · have : ((⟨0, 3 / 4, 0⟩ : V3) + (5 / 2 * t) • d).y = -(25 / 8) := by
      simp only [add_y, smul_y]; linear_combination 5 / 2 * hly
    rw [this, abs_of_neg (by norm_num)]; norm_num

/-- C37: for an axial object point the requested coordinates are those in the pupil plane, with the
meridional one mirrored for a virtual pupil. -/
theorem c37_axis {R z : ℝ} {tel : Bool} {yp : ℝ × ℝ} {a : (ℝ × ℝ) × (ℝ × ℝ)} {filter : Bool}
    {y d : V3} (hz : z ≠ 0) (h : aim R tel (0, 0) (some yp) z a none filter = some (y, d)) :
    y = 0 ∧ d.dot d = 1 ∧ ∃ p q, pupilPoint yp a z filter = some (p, q) ∧
      ∃ t, 0 < t * z ∧ t • d = ⟨p, SignType.sign z * q, z⟩ := by
  obtain ⟨o1, o2, o3, -⟩ := c37_object h
  have hy : y = 0 := by
    ext
    · simpa using o1
    · simpa using o2
    · exact o3 rfl
  subst hy
  obtain ⟨p, q, s, m, h1, hsm, -, hd, ⟨t, ht, hl⟩, -⟩ := c37_aim hz h
  refine ⟨rfl, hd, p, q, h1, t, ht, ?_⟩
  have hch : chief tel 0 z = ⟨0, 0, z⟩ := by
    cases tel <;> ext <;> simp [chief]
  rw [hch] at hsm hl
  have hs0 : (⟨1, 0, 0⟩ : V3) ≠ 0 := fun h => by have := congrArg V3.x h; simp at this
  have hc : (⟨0, 0, z⟩ : V3).cross ⟨0, 0, z⟩ = 0 := by ext <;> simp [cross]
  have hc2 : (⟨0, 0, z⟩ : V3).cross ⟨1, 0, 0⟩ = ⟨0, z, 0⟩ := by ext <;> simp [cross]
  simp only [sagittalMeridional, hc, if_true, hc2, Option.bind_eq_some_iff,
    Option.map_eq_some_iff, Prod.mk.injEq] at hsm
  obtain ⟨s2, hs2, m2, hm2, rfl, rfl⟩ := hsm
  obtain ⟨e1, -⟩ := normalize_eq hs2
  obtain ⟨e2, -⟩ := normalize_eq hm2
  have n1 : (⟨1, 0, 0⟩ : V3).norm = 1 := by simp [V3.norm, dot]
  have n2 : (⟨0, z, 0⟩ : V3).norm = |z| := by
    rw [V3.norm, show (⟨0, z, 0⟩ : V3).dot ⟨0, z, 0⟩ = z ^ 2 by simp [dot]; ring,
      Real.sqrt_sq_eq_abs]
  rw [n1] at e1
  rw [n2] at e2
  have hsg : 1 / |z| * z = SignType.sign z := by
    rcases lt_or_gt_of_ne hz with h | h
    · rw [abs_of_neg h, sign_neg h]; simp; field_simp
    · rw [abs_of_pos h, sign_pos h]; simp; field_simp
  have hl' : t • d = (⟨0, 0, z⟩ : V3) + (p • s2 + q • m2) := by
    have hx := congrArg V3.x hl
    have hy := congrArg V3.y hl
    have hz := congrArg V3.z hl
    ext
    · simpa using hx
    · simpa using hy
    · simpa using hz
  rw [hl', e1, e2]
  ext
  · simp
  · simp only [add_y, smul_y, mul_zero, zero_add]; rw [hsg]; ring
  · simp

example : ∃ r, aim 5 false (0, 7 / 10) (some (1, 0)) (-20) (aperture 3) none true = some r :=
  c37_defined _ _ _ _ _ _ _ (by norm_num) (c37_edge (by norm_num) (by norm_num) _).1

end Finite

/-! ## C38: infinite objects -/

namespace Infinite

/-- C38: rectilinear, stereographic and equisolid projections give unit directions; the equisolid
one exactly where it is defined. -/
theorem c38_unit (yo : ℝ × ℝ) (a : ℝ) :
    (∃ u, map .rectilinear yo a = some u ∧ u.dot u = 1) ∧
    (∃ u, map .stereographic yo a = some u ∧ u.dot u = 1) ∧
    ((yo.1 ^ 2 + yo.2 ^ 2) * Real.sin (a / 2) ^ 2 ≤ 1 →
      ∃ u, map .equisolid yo a = some u ∧ u.dot u = 1) := by
  refine ⟨⟨_, rfl, ?_⟩, ⟨_, rfl, ?_⟩, fun h => ?_⟩
  · simp only [dot]
    have hp : 0 < (yo.1 * Real.tan a) ^ 2 + (yo.2 * Real.tan a) ^ 2 + 1 := by positivity
    have hs := Real.sq_sqrt hp.le
    have hs0 := Real.sqrt_pos.mpr hp
    generalize Real.sqrt ((yo.1 * Real.tan a) ^ 2 + (yo.2 * Real.tan a) ^ 2 + 1) = n at *
    field_simp
    linear_combination -hs
  · simp only [dot]
    generalize yo.1 * (2 * Real.tan (a / 2)) = x
    generalize yo.2 * (2 * Real.tan (a / 2)) = y
    have hp : (x ^ 2 + y ^ 2) / 4 + 1 ≠ 0 := by positivity
    field_simp
    ring
  · have e : 1 - ((yo.1 * (2 * Real.sin (a / 2))) ^ 2 + (yo.2 * (2 * Real.sin (a / 2))) ^ 2) / 4
        = 1 - (yo.1 ^ 2 + yo.2 ^ 2) * Real.sin (a / 2) ^ 2 := by ring
    have hn : ¬ (1 - ((yo.1 * (2 * Real.sin (a / 2))) ^ 2
        + (yo.2 * (2 * Real.sin (a / 2))) ^ 2) / 4 < 0) := by rw [e]; linarith
    refine ⟨_, by simp only [map]; rw [if_neg hn], ?_⟩
    have hs := Real.sq_sqrt (not_lt.mp hn)
    simp only [dot]
    generalize yo.1 * (2 * Real.sin (a / 2)) = x at *
    generalize yo.2 * (2 * Real.sin (a / 2)) = y at *
    linear_combination (x ^ 2 + y ^ 2) * hs

/-- C38: a field point at the fraction `f` of the field in the direction `e` is seen in that direction
under the angle `t` of the projection: `tan t = f tan a` for the rectilinear, `tan (t/2) = f tan (a/2)`
for the stereographic and `sin (t/2) = f sin (a/2)` for the equisolid one (equal areas of the field are
equal solid angles). -/
theorem c38_projection (e : ℝ × ℝ) (f a t : ℝ) (h : e.1 ^ 2 + e.2 ^ 2 = 1) :
    (0 < Real.cos t → Real.tan t = f * Real.tan a →
      map .rectilinear (f * e.1, f * e.2) a = some ⟨e.1 * Real.sin t, e.2 * Real.sin t, Real.cos t⟩) ∧
    (Real.cos (t / 2) ≠ 0 → Real.tan (t / 2) = f * Real.tan (a / 2) →
      map .stereographic (f * e.1, f * e.2) a =
        some ⟨e.1 * Real.sin t, e.2 * Real.sin t, Real.cos t⟩) ∧
    (0 ≤ Real.cos (t / 2) → Real.sin (t / 2) = f * Real.sin (a / 2) →
      map .equisolid (f * e.1, f * e.2) a =
        some ⟨e.1 * Real.sin t, e.2 * Real.sin t, Real.cos t⟩) := by
  have hsin : Real.sin t = 2 * Real.sin (t / 2) * Real.cos (t / 2) := by
    rw [← Real.sin_two_mul]; congr 1; ring
  have hcos : Real.cos t = 1 - 2 * Real.sin (t / 2) ^ 2 := by
    have h2 : Real.cos (2 * (t / 2)) = Real.cos t := by congr 1; ring
    rw [← h2, Real.cos_two_mul]
    linarith [Real.sin_sq_add_cos_sq (t / 2)]
  have hone := Real.sin_sq_add_cos_sq (t / 2)
  refine ⟨fun hc ht => ?_, fun hc ht => ?_, fun hc ht => ?_⟩
  · simp only [map, Option.some.injEq]
    have e1 : ∀ x, f * x * Real.tan a = x * Real.tan t := fun x => by rw [ht]; ring
    rw [e1, e1]
    have e : (e.1 * Real.tan t) ^ 2 + (e.2 * Real.tan t) ^ 2 + 1 = (1 / Real.cos t) ^ 2 := by
      rw [Real.tan_eq_sin_div_cos]
      field_simp
      linear_combination Real.sin t ^ 2 * h + Real.sin_sq_add_cos_sq t
    rw [e, Real.sqrt_sq (by positivity), Real.tan_eq_sin_div_cos]
    ext <;> field_simp
  · simp only [map, Option.some.injEq]
    have e1 : ∀ x, f * x * (2 * Real.tan (a / 2)) = x * (2 * Real.tan (t / 2)) := fun x => by
      rw [ht]; ring
    rw [e1, e1]
    have hs2 : Real.sin (t / 2) ^ 2 = 1 - Real.cos (t / 2) ^ 2 := by linarith
    have e : ((e.1 * (2 * Real.tan (t / 2))) ^ 2 + (e.2 * (2 * Real.tan (t / 2))) ^ 2) / 4
        = Real.sin (t / 2) ^ 2 / Real.cos (t / 2) ^ 2 := by
      rw [Real.tan_eq_sin_div_cos]
      field_simp
      linear_combination 4 * Real.sin (t / 2) ^ 2 * h
    have e1 : Real.sin (t / 2) ^ 2 / Real.cos (t / 2) ^ 2 + 1 = 1 / Real.cos (t / 2) ^ 2 := by
      field_simp; linarith
    rw [e, e1, hsin, hcos, Real.tan_eq_sin_div_cos]
    ext
    · field_simp
    · field_simp
    · field_simp; linear_combination hone
  · have e0 : ∀ x, f * x * (2 * Real.sin (a / 2)) = x * (2 * Real.sin (t / 2)) := fun x => by
      rw [ht]; ring
    have e : ((e.1 * (2 * Real.sin (t / 2))) ^ 2 + (e.2 * (2 * Real.sin (t / 2))) ^ 2)
        = 4 * Real.sin (t / 2) ^ 2 := by linear_combination 4 * Real.sin (t / 2) ^ 2 * h
    have e1 : 1 - 4 * Real.sin (t / 2) ^ 2 / 4 = Real.cos (t / 2) ^ 2 := by linarith
    simp only [map, e0, e, e1]
    rw [if_neg (not_lt.mpr (sq_nonneg _)), Real.sqrt_sq hc, hsin, hcos]
    congr 1
    ext
    · ring
    · ring
    · simp only; ring

/-- C38: in all three projections a field point at the edge of the field (`|yo| = 1`) is seen under
the field angle `a`: the direction is `(yo sin a, cos a)`. -/
theorem c38_angle (yo : ℝ × ℝ) (a : ℝ) (h : yo.1 ^ 2 + yo.2 ^ 2 = 1) :
    (0 < Real.cos a → map .rectilinear yo a = some ⟨yo.1 * Real.sin a, yo.2 * Real.sin a, Real.cos a⟩) ∧
    (Real.cos (a / 2) ≠ 0 →
      map .stereographic yo a = some ⟨yo.1 * Real.sin a, yo.2 * Real.sin a, Real.cos a⟩) ∧
    (0 ≤ Real.cos (a / 2) →
      map .equisolid yo a = some ⟨yo.1 * Real.sin a, yo.2 * Real.sin a, Real.cos a⟩) := by
  have := c38_projection yo 1 a a h
  simp only [one_mul, forall_const] at this
  exact this

/-- The equisolid projection of the whole sphere: half the field is seen under 60°. -/
example : map .equisolid (1 / 2 * (3 / 5), 1 / 2 * (4 / 5)) Real.pi =
    some ⟨3 / 5 * Real.sin (Real.pi / 3), 4 / 5 * Real.sin (Real.pi / 3), Real.cos (Real.pi / 3)⟩ :=
  (c38_projection (3 / 5, 4 / 5) (1 / 2) Real.pi (Real.pi / 3) (by norm_num)).2.2
    (Real.cos_nonneg_of_mem_Icc ⟨by linarith [Real.pi_pos], by linarith [Real.pi_pos]⟩) (by
      rw [show Real.pi / 3 / 2 = Real.pi / 6 by ring, Real.sin_pi_div_six, Real.sin_pi_div_two]
      norm_num)

/-- C38: every aimed ray has the direction of its field point and passes through the point with the
requested coordinates in an orthonormal frame across the ray, erected at the pupil centre; the chief
ray passes the pupil centre itself.  A given object surface moves the start point along the ray. -/
theorem c38_aim {pr : Projection} {a : ℝ} {yo : ℝ × ℝ} {yp : Option (ℝ × ℝ)} {z : ℝ}
    {ap : (ℝ × ℝ) × (ℝ × ℝ)} {surf : Option (V3 → V3 → Option ℝ)} {filter : Bool} {y u : V3}
    (hz : z ≠ 0) (h : aim pr a yo yp z ap surf filter = some (y, u)) :
    map pr yo a = some u ∧
    (yp = none → ∃ t : ℝ, y + t • u = ⟨0, 0, z⟩) ∧
    (∀ f, yp = some f → ∃ p q s m, Pupil.map f ap.1 ap.2 filter = some (p, q) ∧ Across u s m ∧
      ∃ t : ℝ, y + t • u = ⟨0, 0, z⟩ + (p • s + q • m)) ∧
    (∀ f, surf = some f → ∃ (y0 : V3) (t : ℝ), f y0 u = some t ∧ y = y0 + t • u) := by
  unfold aim at h
  simp only [Option.bind_eq_some_iff] at h
  obtain ⟨u', hu, y1, hy1, h⟩ := h
  have hstart : ∃ t0 : ℝ, y1 + t0 • u' = y ∧ u' = u ∧
      (∀ f, surf = some f → f y1 u' = some t0) := by
    cases surf with
    | none =>
      simp only [Option.some.injEq, Prod.mk.injEq] at h
      exact ⟨0, by rw [← h.1]; ext <;> simp, h.2, fun f hf => by cases hf⟩
    | some f =>
      simp only [Option.map_eq_some_iff, Prod.mk.injEq] at h
      obtain ⟨t, ht, h1, h2⟩ := h
      exact ⟨t, h1, h2, fun g hg => by cases hg; exact ht⟩
  obtain ⟨t0, h0, rfl, hf⟩ := hstart
  refine ⟨hu, fun hn => ?_, fun f hfs => ?_, fun f hs => ⟨y1, t0, hf f hs, h0.symm⟩⟩
  · subst hn
    simp only [Option.some.injEq] at hy1
    refine ⟨z - t0, ?_⟩
    rw [← h0, ← hy1]; ext <;> simp <;> ring
  · subst hfs
    simp only [Option.bind_eq_some_iff, Option.map_eq_some_iff] at hy1
    obtain ⟨⟨p, q⟩, hpq, ⟨s, m⟩, hsm, hy1⟩ := hy1
    have hu0 : u' ≠ 0 := by
      intro h0
      rw [h0, sagittalMeridional_zero] at hsm
      cases hsm
    obtain ⟨s', m', hsm', hA⟩ := frame_across (z := z) hu0 hz
    rw [hsm] at hsm'
    simp only [Option.some.injEq, Prod.mk.injEq] at hsm'
    obtain ⟨rfl, rfl⟩ := hsm'
    refine ⟨p, q, s, m, hpq, hA, z - t0, ?_⟩
    rw [← h0, ← hy1]; ext <;> simp <;> ring

/-- C38, violation: the equidistant projection is not normalised (at the edge of a small field the
squared length is `2 sin² a`), and the field centre has the zero direction. -/
theorem c38_equidistant_violation (a : ℝ) (h : |a| ≤ Real.pi / 2) :
    map .equidistant (0, 1) a = some ⟨0, Real.sin a, |Real.sin a|⟩ ∧
    map .equidistant (0, 0) a = some ⟨0, 0, 0⟩ := by
  have h1 : ¬ (a ^ 2 > (Real.pi / 2) ^ 2) := by
    rw [not_lt, ← sq_abs a]
    exact pow_le_pow_left₀ (abs_nonneg a) h 2
  have h2 : ¬ ((0:ℝ) > (Real.pi / 2) ^ 2) := by
    rw [not_lt]; positivity
  constructor
  · simp only [map, zero_mul, one_mul, Real.sin_zero]
    simp only [ne_eq, OfNat.ofNat_ne_zero, not_false_eq_true, zero_pow, zero_add]
    rw [if_neg h1, Real.sqrt_sq_eq_abs]
  · simp only [map, zero_mul, Real.sin_zero]
    simp only [ne_eq, OfNat.ofNat_ne_zero, not_false_eq_true, zero_pow, zero_add]
    rw [if_neg h2]; simp

/-- C38, violation: the orthographic projection always fails. -/
theorem c38_orthographic_violation (yo : ℝ × ℝ) (a : ℝ) : map .orthographic yo a = none := rfl

example : ((3 / 5 : ℝ) ^ 2 + (4 / 5) ^ 2) * Real.sin (1 / 2) ^ 2 ≤ 1 ∧
    (3 / 5 : ℝ) ^ 2 + (4 / 5) ^ 2 = 1 := by
  refine ⟨?_, by norm_num⟩
  have := Real.sin_sq_le_one (1 / 2)
  nlinarith

end Infinite

end RayOpt
