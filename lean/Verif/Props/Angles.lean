import Verif.Model.Aiming
import Verif.Lemmas.Vec
import Mathlib.Analysis.SpecialFunctions.Trigonometric.ArctanDeriv
import Mathlib.Tactic.LinearCombination

/-!
Properties C34, C35, C39: angle conversions, the sagittal/meridional frame and pupil quantities.
-/

namespace RayOpt

open V3 Util

/-! ## C34 -/

/-- C34: the functions are what their names say. -/
theorem c34_meaning (u : ℝ) :
    sinarctan u = Real.sin (Real.arctan u) ∧
    (|u| < 1 → tanarcsin u = some (Real.tan (Real.arcsin u))) ∧
    (1 ≤ |u| → tanarcsin u = none) := by
  refine ⟨?_, ?_, ?_⟩
  · rw [Real.sin_arctan]; simp [sinarctan, div_eq_mul_inv]
  · intro h
    have : u ^ 2 < 1 := (sq_lt_one_iff_abs_lt_one u).mpr h
    rw [Real.tan_arcsin, tanarcsin, if_neg (by linarith)]
  · intro h
    have : 1 ≤ u ^ 2 := (one_le_sq_iff_one_le_abs u).mpr h
    rw [tanarcsin, if_pos (by linarith)]

/-- C34: scalar conversions are inverse to each other. -/
theorem c34_inverse :
    (∀ u, |u| < 1 → ∃ v, tanarcsin u = some v ∧ sinarctan v = u) ∧
    (∀ v, tanarcsin (sinarctan v) = some v) := by
  constructor
  · intro u h
    refine ⟨_, ((c34_meaning u).2.1 h), ?_⟩
    obtain ⟨h1, h2⟩ := abs_lt.mp h
    rw [(c34_meaning _).1, Real.arctan_tan (Real.neg_pi_div_two_lt_arcsin.mpr h1)
      (Real.arcsin_lt_pi_div_two.mpr h2), Real.sin_arcsin h1.le h2.le]
  · intro v
    have h1 : |Real.sin (Real.arctan v)| < 1 := by
      rw [← sq_lt_one_iff_abs_lt_one]
      have := Real.cos_arctan_pos v
      have h2 := Real.sin_sq_add_cos_sq (Real.arctan v)
      nlinarith
    rw [(c34_meaning v).1, (c34_meaning _).2.1 h1,
      Real.arcsin_sin (Real.neg_pi_div_two_lt_arctan v).le (Real.arctan_lt_pi_div_two v).le,
      Real.tan_arctan]

theorem sq_pos_one (x y : ℝ) : 0 < 1 + (x ^ 2 + y ^ 2) := by positivity

/-- C34, rows: two-component conversions are inverse to each other. -/
theorem c34_inverse_rows (x y : ℝ) :
    (x ^ 2 + y ^ 2 < 1 → ∃ r, tanarcsinRow [x, y] none = some (r, none) ∧
      sinarctanRow r none = some [x, y]) ∧
    (∃ r, sinarctanRow [x, y] none = some r ∧ tanarcsinRow r none = some ([x, y], none)) := by
  constructor
  · intro h
    have hp : 0 < 1 - (x ^ 2 + y ^ 2) := by linarith
    have hs := Real.sqrt_pos.mpr hp
    refine ⟨[x / Real.sqrt (1 - (x ^ 2 + y ^ 2)), y / Real.sqrt (1 - (x ^ 2 + y ^ 2))], ?_, ?_⟩
    · simp only [tanarcsinRow]; rw [if_neg (by linarith)]; rfl
    · have hsq := Real.sq_sqrt hp.le
      generalize Real.sqrt (1 - (x ^ 2 + y ^ 2)) = s at *
      have h1 : 1 + ((x / s) ^ 2 + (y / s) ^ 2) = (1 / s) ^ 2 := by
        field_simp; linear_combination hsq
      simp only [sinarctanRow, sumsq, List.length_cons, List.length_nil, List.map_cons, List.map_nil,
        List.sum_cons, List.sum_nil, add_zero]
      rw [h1, Real.sqrt_sq (by positivity)]
      simp [hs.ne']
  · have hp := sq_pos_one x y
    have hs := Real.sqrt_pos.mpr hp
    refine ⟨[x * (1 / Real.sqrt (1 + (x ^ 2 + y ^ 2))), y * (1 / Real.sqrt (1 + (x ^ 2 + y ^ 2)))],
      ?_, ?_⟩
    · simp [sinarctanRow, sumsq]
    · have hsq := Real.sq_sqrt hp.le
      generalize Real.sqrt (1 + (x ^ 2 + y ^ 2)) = s at *
      have h1 : 1 - ((x * (1 / s)) ^ 2 + (y * (1 / s)) ^ 2) = (1 / s) ^ 2 := by
        field_simp; linear_combination hsq
      simp only [tanarcsinRow]
      rw [h1, Real.sqrt_sq (by positivity), if_neg (by have : 0 < (1 / s) ^ 2 := by positivity
                                                       linarith)]
      simp [hs.ne']

/-- C34: with a sign for the z component the result is a unit vector on the requested side whose
slopes (with respect to the travel along `|z|`) are the given ones. -/
theorem c34_unit (x y v : ℝ) (hv : v ≠ 0) :
    ∃ a b c, sinarctanRow [x, y] (some v) = some [a, b, c] ∧ a ^ 2 + b ^ 2 + c ^ 2 = 1 ∧
      0 < v * c ∧ a = x * |c| ∧ b = y * |c| := by
  have hp := sq_pos_one x y
  have hs := Real.sqrt_pos.mpr hp
  refine ⟨x * (1 / Real.sqrt (1 + (x ^ 2 + y ^ 2))), y * (1 / Real.sqrt (1 + (x ^ 2 + y ^ 2))),
    SignType.sign v * (1 / Real.sqrt (1 + (x ^ 2 + y ^ 2))), by simp [sinarctanRow, sumsq], ?_⟩
  have hsq := Real.sq_sqrt hp.le
  have hsg := sign_sq_of_ne hv
  have hvs : 0 < v * (SignType.sign v : ℝ) := by
    rcases lt_or_gt_of_ne hv with h | h
    · simp [sign_neg h, h]
    · simp [sign_pos h, h]
  generalize Real.sqrt (1 + (x ^ 2 + y ^ 2)) = s at *
  generalize ((SignType.sign v : SignType) : ℝ) = g at *
  have hg : |g| = 1 := by rw [← sq_eq_sq₀ (abs_nonneg g) zero_le_one, sq_abs, hsg]; norm_num
  have habs : |g * (1 / s)| = 1 / s := by
    rw [abs_mul, hg, one_mul, abs_of_pos (by positivity)]
  refine ⟨?_, ?_, by rw [habs], by rw [habs]⟩
  · field_simp; linear_combination hsg - hsq
  · rw [← mul_assoc]; positivity

/-- C34: for a forward unit vector, slopes and back is the identity. -/
theorem c34_forward (x y z : ℝ) (h : x ^ 2 + y ^ 2 + z ^ 2 = 1) (hz : 0 < z) :
    ∃ r g, tanarcsinRow [x, y, z] (some z) = some (r, some g) ∧
      sinarctanRow r (some g) = some [x, y, z] := by
  refine ⟨[x / z, y / z], SignType.sign z, by simp [tanarcsinRow, hz.ne'], ?_⟩
  have h1 : 1 + ((x / z) ^ 2 + (y / z) ^ 2) = (1 / z) ^ 2 := by field_simp; linear_combination h
  simp only [sinarctanRow, sumsq, List.length_cons, List.length_nil, List.map_cons, List.map_nil,
    List.sum_cons, List.sum_nil, add_zero]
  rw [h1, Real.sqrt_sq (by positivity)]
  simp [hz.ne', sign_pos hz]

/-- C34, violation: for every backward unit vector that is not axial the same round trip flips the
transverse components. -/
theorem c34_backward_violation (x y z : ℝ) (h : x ^ 2 + y ^ 2 + z ^ 2 = 1) (hz : z < 0) :
    ∃ r g, tanarcsinRow [x, y, z] (some z) = some (r, some g) ∧
      sinarctanRow r (some g) = some [-x, -y, z] := by
  refine ⟨[x / z, y / z], SignType.sign z, by simp [tanarcsinRow, hz.ne], ?_⟩
  have h1 : 1 + ((x / z) ^ 2 + (y / z) ^ 2) = (1 / -z) ^ 2 := by
    have := hz.ne
    field_simp; linear_combination h
  simp only [sinarctanRow, sumsq, List.length_cons, List.length_nil, List.map_cons, List.map_nil,
    List.sum_cons, List.sum_nil, add_zero]
  rw [h1, Real.sqrt_sq (by have : 0 < -z := by linarith
                           positivity)]
  have := hz.ne
  simp [sign_neg hz]
  constructor <;> field_simp

/-- C34, violation: direction vectors (three columns), which the code means to accept, always raise
an `IndexError` in `sinarctan`. -/
theorem c34_three_columns_violation (x y z : ℝ) (v : Option ℝ) :
    sinarctanRow [x, y, z] v = none := rfl

example : |(1 / 2 : ℝ)| < 1 ∧ (1 / 2 : ℝ) ^ 2 + (1 / 3) ^ 2 < 1 ∧
    (3 / 5 : ℝ) ^ 2 + 0 ^ 2 + (4 / 5) ^ 2 = 1 := by
  refine ⟨?_, ?_, ?_⟩
  · rw [abs_of_pos] <;> norm_num
  · norm_num
  · norm_num

/-! ## C35 -/

theorem normalize_some {u : V3} (h : u ≠ 0) : Util.normalize u = some ((1 / u.norm) • u) := by
  rw [Util.normalize, if_neg (fun h0 => h (norm_eq_zero.mp h0))]

theorem normalize_unit {u v : V3} (h : Util.normalize u = some v) : v.dot v = 1 := by
  unfold Util.normalize at h
  split_ifs at h with h0
  cases h
  rw [dot_smul_smul, ← norm_sq]; field_simp

theorem normalize_eq {u v : V3} (h : Util.normalize u = some v) : v = (1 / u.norm) • u ∧ 0 < u.norm := by
  unfold Util.normalize at h
  split_ifs at h with h0
  cases h
  exact ⟨rfl, lt_of_le_of_ne (norm_nonneg u) (Ne.symm h0)⟩

/-- C35: for a non-zero direction and a non-zero reference along the axis the two vectors are unit
vectors, orthogonal to each other and to the direction; the sagittal one is also orthogonal to the
reference and the meridional one lies in the plane of direction and reference. -/
theorem c35_frame (u : V3) (z : ℝ) (hu : u ≠ 0) (hz : z ≠ 0) :
    ∃ s m, sagittalMeridional u ⟨0, 0, z⟩ = some (s, m) ∧ s.dot s = 1 ∧ m.dot m = 1 ∧
      s.dot m = 0 ∧ s.dot u = 0 ∧ m.dot u = 0 ∧ s.dot ⟨0, 0, z⟩ = 0 ∧
      ((u.cross ⟨0, 0, z⟩ ≠ 0) → triple m u ⟨0, 0, z⟩ = 0) := by
  unfold sagittalMeridional
  simp only
  have hcr : u.cross ⟨0, 0, z⟩ = ⟨u.y * z, -(u.x * z), 0⟩ := by ext <;> simp [cross]
  set s0 : V3 := (open Classical in if u.cross ⟨0, 0, z⟩ = 0 then ⟨1, 0, 0⟩
    else u.cross ⟨0, 0, z⟩) with hs0
  have hprop : s0 ≠ 0 ∧ s0.dot u = 0 ∧ s0.dot ⟨0, 0, z⟩ = 0 ∧
      (u.cross ⟨0, 0, z⟩ ≠ 0 → s0 = u.cross ⟨0, 0, z⟩) := by
    by_cases h : u.cross ⟨0, 0, z⟩ = 0
    · rw [hs0, if_pos h]
      refine ⟨fun h => by have := congrArg V3.x h; simp at this, ?_, by simp [dot],
        fun h' => absurd h h'⟩
      have := congrArg V3.y h
      rw [hcr] at this
      simp [hz] at this
      simp [dot, this]
    · rw [hs0, if_neg h]
      refine ⟨h, by simp only [hcr, dot]; ring, by simp only [hcr, dot]; ring, fun _ => rfl⟩
  obtain ⟨h1, h2, h3, h4⟩ := hprop
  have hm : u.cross s0 ≠ 0 := by
    intro h0
    have hl := lagrange u s0
    rw [h0] at hl
    have : (u.dot s0) = 0 := by rw [dot_comm]; exact h2
    rw [this] at hl
    have hp := mul_pos (dot_self_pos hu) (dot_self_pos h1)
    have : (0 : V3).dot 0 = 0 := by simp [dot]
    rw [this] at hl
    linarith
  refine ⟨(1 / s0.norm) • s0, (1 / (u.cross s0).norm) • u.cross s0, ?_, ?_, ?_, ?_, ?_, ?_, ?_, ?_⟩
  · rw [normalize_some h1, normalize_some hm]; rfl
  · exact normalize_unit (normalize_some h1)
  · exact normalize_unit (normalize_some hm)
  · simp only [dot, cross, smul_x, smul_y, smul_z]; ring
  · have : ((1 / s0.norm) • s0).dot u = (1 / s0.norm) * s0.dot u := by simp [dot]; ring
    rw [this, h2, mul_zero]
  · simp only [dot, cross, smul_x, smul_y, smul_z]; ring
  · have : ((1 / s0.norm) • s0).dot ⟨0, 0, z⟩ = (1 / s0.norm) * s0.dot ⟨0, 0, z⟩ := by
      simp [dot, mul_assoc]
    rw [this, h3, mul_zero]
  · intro h
    rw [h4 h]
    simp only [triple, dot, cross, smul_x, smul_y, smul_z]; ring

/-- C35, violation: with a zero reference (pupil at the object) the vectors need not be orthogonal
to the direction. -/
theorem c35_zero_violation : ∃ s m, sagittalMeridional ⟨1, 1, 0⟩ ⟨0, 0, 0⟩ = some (s, m) ∧
    s.dot ⟨1, 1, 0⟩ ≠ 0 := by
  have h0 : (⟨1, 1, 0⟩ : V3).cross ⟨0, 0, 0⟩ = 0 := by ext <;> simp [cross]
  have hs : (⟨1, 0, 0⟩ : V3) ≠ 0 := fun h => by have := congrArg V3.x h; simp at this
  have hm : (⟨1, 1, 0⟩ : V3).cross ⟨1, 0, 0⟩ ≠ 0 := fun h => by
    have := congrArg V3.z h; simp [cross] at this
  refine ⟨_, _, by
    simp only [sagittalMeridional, h0, if_true]
    rw [normalize_some hs, normalize_some hm]; rfl, ?_⟩
  simp [dot, V3.norm]

example : (⟨0, 3, 4⟩ : V3) ≠ 0 ∧ (2 : ℝ) ≠ 0 :=
  ⟨fun h => by have := congrArg V3.y h; simp at this, by norm_num⟩

/-! ## C39 -/

namespace Pupil

/-- C39: reading the radius back after setting it. -/
theorem c39_radius (p q : Pupil) (r : ℝ) (hn : p.index ≠ 0) (h : p.setRadius r = some q) :
    q.radius = some r ∧ q.distance = p.distance ∧ q.index = p.index := by
  obtain ⟨inv1, inv2⟩ := c34_inverse
  unfold setRadius at h
  cases hk : p.kind with
  | radius v => rw [hk] at h; cases h; exact ⟨rfl, rfl, rfl⟩
  | slope v =>
    rw [hk] at h; simp only at h
    split_ifs at h with hd
    cases h
    refine ⟨?_, rfl, rfl⟩
    simp [radius, slope, hd]
  | na v =>
    rw [hk] at h; simp only at h
    split_ifs at h with hd
    cases h
    refine ⟨?_, rfl, rfl⟩
    simp only [radius, slope, naOf, Option.bind_some, if_neg hn]
    rw [mul_div_cancel_left₀ _ hn, inv2]
    simp [hd]
  | fno v =>
    rw [hk] at h; simp only at h
    split_ifs at h with hd
    cases h
    rw [not_or] at hd
    refine ⟨?_, rfl, rfl⟩
    obtain ⟨hd1, hd2⟩ := hd
    have hs : sinarctan (r / p.distance) ≠ 0 := right_ne_zero_of_mul hd2
    have e1 : 1 / (2 * (1 / (2 * p.index * sinarctan (r / p.distance)))) / p.index
        = sinarctan (r / p.distance) := by field_simp
    have e2 : 2 * (1 / (2 * p.index * sinarctan (r / p.distance))) ≠ 0 := by
      have := one_div_ne_zero hd2
      positivity
    simp only [radius, slope, naOf, if_neg e2, Option.bind_some, if_neg hn]
    rw [e1, inv2]
    simp [hd1]

/-- C39: setting the radius works for every pupil at a non-zero distance, except that an f-number
pupil cannot represent a zero radius. -/
theorem c39_settable (p : Pupil) (r : ℝ) (hd : p.distance ≠ 0) (hn : p.index ≠ 0)
    (hf : r ≠ 0 ∨ ∀ v, p.kind ≠ .fno v) : ∃ q, p.setRadius r = some q := by
  unfold setRadius
  cases hk : p.kind with
  | radius v => exact ⟨_, rfl⟩
  | slope v => simp only [if_neg hd]; exact ⟨_, rfl⟩
  | na v => simp only [if_neg hd]; exact ⟨_, rfl⟩
  | fno v =>
    have hr : r ≠ 0 := hf.resolve_right fun h => h v hk
    have hs : sinarctan (r / p.distance) ≠ 0 := by
      unfold sinarctan
      have h1 : r / p.distance ≠ 0 := div_ne_zero hr hd
      have h2 : 0 < Real.sqrt (1 + (r / p.distance) ^ 2) := Real.sqrt_pos.mpr (by positivity)
      have := one_div_ne_zero h2.ne'
      exact mul_ne_zero h1 this
    simp only
    rw [if_neg (by
      rintro (h | h)
      · exact hd h
      · exact mul_ne_zero (mul_ne_zero two_ne_zero hn) hs h)]
    exact ⟨_, rfl⟩

/-- C39: for every kind of pupil the four quantities it reports satisfy their definitions:
`radius = slope*distance`, `na = n*sin(arctan slope)`, `fno = 1/(2 na)`. -/
theorem c39_consistent (p : Pupil) (hn : p.index ≠ 0) (hd : p.distance ≠ 0) (s : ℝ)
    (hs : p.slope = some s) :
    p.radius = some (s * p.distance) ∧
    p.na = some (p.index * Real.sin (Real.arctan s)) ∧
    (s ≠ 0 → p.fno = some (1 / (2 * (p.index * Real.sin (Real.arctan s))))) := by
  obtain ⟨inv1, inv2⟩ := c34_inverse
  have hna : p.na = some (p.index * Real.sin (Real.arctan s)) := by
    rw [← (c34_meaning s).1]
    have key : ∀ v, tanarcsin (v / p.index) = some s → v = p.index * sinarctan s := by
      intro v hv
      have hlt : |v / p.index| < 1 := by
        by_contra h
        rw [(c34_meaning _).2.2 (not_lt.mp h)] at hv; cases hv
      obtain ⟨w, hw1, hw2⟩ := inv1 _ hlt
      rw [hv] at hw1; cases hw1
      rw [hw2]; field_simp
    unfold na
    cases hk : p.kind with
    | radius v => simp [hs, mul_comm]
    | slope v => simp [hs, mul_comm]
    | na v =>
      simp only [slope, hk, naOf, Option.bind_some, if_neg hn] at hs
      simp only [naOf, hk, key v hs]
    | fno v =>
      simp only [slope, hk, naOf] at hs
      split_ifs at hs with h2
      · simp at hs
      · simp only [Option.bind_some] at hs
        simp only [naOf, hk, if_neg h2, key _ hs]
  refine ⟨?_, hna, fun hs0 => ?_⟩
  · unfold radius
    cases hk : p.kind with
    | radius v =>
      simp only [slope, hk, if_neg hd, Option.some.injEq] at hs
      subst hs; simp [hd]
    | slope v => simp [hs]
    | na v => simp [hs]
    | fno v => simp [hs]
  · have h0 : 2 * (p.index * Real.sin (Real.arctan s)) ≠ 0 := by
      refine mul_ne_zero two_ne_zero (mul_ne_zero hn ?_)
      rw [← (c34_meaning s).1]
      intro h
      have := inv2 s
      rw [h] at this
      have h3 : tanarcsin 0 = some 0 := by simp [tanarcsin]
      rw [h3] at this; cases this; exact hs0 rfl
    unfold fno
    cases hk : p.kind with
    | fno v =>
      simp only [na, hk, naOf] at hna
      split_ifs at hna with h2
      simp only [Option.some.injEq] at hna
      rw [← hna]; congr 1; field_simp
    | radius v => simp only [hna, Option.bind_some, if_neg h0]
    | slope v => simp only [hna, Option.bind_some, if_neg h0]
    | na v => simp only [hna, Option.bind_some, if_neg h0]

/-- C39: after an update with both flags set, distance and radius are the ones given. -/
theorem c39_update (p q : Pupil) (d r : ℝ) (hn : p.index ≠ 0) (h1 : p.updateDistance = true)
    (h2 : p.updateRadius = true) (h : p.update d r = some q) :
    q.distance = d ∧ q.radius = some r := by
  unfold update at h
  simp only [h1, h2, if_true] at h
  obtain ⟨a, b, _⟩ := c39_radius ⟨p.kind, d, p.index, true, true, p.telecentric⟩ q r hn h
  exact ⟨b, a⟩

/-- C39: without the flags nothing changes. -/
theorem c39_update_off (p : Pupil) (d r : ℝ) (h1 : p.updateDistance = false)
    (h2 : p.updateRadius = false) : p.update d r = some p := by
  simp [update, h1, h2]

/-- C39: rescaling multiplies distance and radius of every kind of pupil and keeps slope, NA and
f-number. -/
theorem c39_rescale (p : Pupil) (s : ℝ) (hs : s ≠ 0) :
    (p.rescale s).distance = p.distance * s ∧
    (p.rescale s).radius = p.radius.map (· * s) ∧ (p.rescale s).slope = p.slope ∧
    (p.rescale s).na = p.na ∧ (p.rescale s).fno = p.fno := by
  obtain ⟨k, d, n, b1, b2, b3⟩ := p
  cases k with
  | radius v =>
    have e : slope (rescale ⟨.radius v, d, n, b1, b2, b3⟩ s) = slope ⟨.radius v, d, n, b1, b2, b3⟩ := by
      simp only [slope, rescale]
      by_cases hd : d = 0
      · simp [hd]
      · have : ¬ d * s = 0 := mul_ne_zero hd hs
        simp only [hd, this, if_false, Option.some.injEq]; field_simp
    refine ⟨rfl, by simp [radius, rescale], e, ?_, ?_⟩
    · simp only [na, e]; simp only [rescale]
    · simp only [fno, na, e]; simp only [rescale]
  | na v =>
    refine ⟨rfl, ?_, rfl, rfl, rfl⟩
    simp only [radius, rescale, Option.map_map]
    congr 1; funext x; simp only [Function.comp]; ring
  | slope v =>
    refine ⟨rfl, ?_, rfl, rfl, rfl⟩
    simp only [radius, rescale, Option.map_map]
    congr 1; funext x; simp only [Function.comp]; ring
  | fno v =>
    refine ⟨rfl, ?_, rfl, rfl, rfl⟩
    simp only [radius, rescale, Option.map_map]
    congr 1; funext x; simp only [Function.comp]; ring

example : ∃ q, (⟨.fno 4, 10, 3 / 2, true, true, false⟩ : Pupil).update (-20) 2 = some q := by
  unfold update
  simp only [if_true]
  exact c39_settable _ 2 (by norm_num) (by norm_num) (Or.inl (by norm_num))

end Pupil

end RayOpt
