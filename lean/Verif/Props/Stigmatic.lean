import Verif.Props.Backwards

/-!
Property C118: the classical surfaces with sharp images.
-/

namespace RayOpt

open V3 Elem Shape

/-! ## Specification -/

/-- The ray `(y, u)` in the medium of index `n` meets the conic `s` of the element `e` on the sheet of its vertex, in `q`,
and leaves it in the direction `v`. -/
structure LeavesConic (nwt : NewtonFn) (e : Elem) (s : Shape) (l : ℝ) (clp : Bool) (y u : V3) (n : ℝ) (q v : V3) : Prop where
  shape : e.shape = some s
  conic : s.aspherics = none
  curved : s.curvature ≠ 0
  unit : u.dot u = 1
  point : (e.propagate nwt (some y) (some u) n l clp).y = some q
  direction : (e.propagate nwt (some y) (some u) n l clp).u = some v
  sheet : OnVertexSheet s.curvature s.conic q

/-- The point of the axis at `z`. -/
def axial (z : ℝ) : V3 := ⟨0, 0, z⟩

/-! ## Helpers -/

theorem LeavesConic.meets {nwt : NewtonFn} {e : Elem} {s : Shape} {l : ℝ} {clp : Bool} {y u : V3} {n : ℝ} {q v : V3}
    (h : LeavesConic nwt e s l clp y u n q v) :
    (∃ t : ℝ, q = y + t • u) ∧ OnQuadric s.curvature s.conic q ∧
      (if s.alternate then u.dot (quadricNormal s.curvature s.conic q) ≤ 0
        else 0 ≤ u.dot (quadricNormal s.curvature s.conic q)) := by
  have hp := h.point
  simp only [Elem.propagate, Elem.intercept, h.shape, Option.bind_some, Option.map_eq_some_iff] at hp
  obtain ⟨t, ht, rfl⟩ := hp
  exact ⟨⟨t, rfl⟩, c06_on_quadric nwt s y u t h.conic (norm_eq_one h.unit) ht,
    c06_root_side nwt s y u t h.conic h.curved (norm_eq_one h.unit) ht⟩

/-- What is left of the refraction once the surface is known. -/
theorem LeavesConic.refracts {nwt : NewtonFn} {e : Elem} {s : Shape} {l : ℝ} {clp : Bool} {y u : V3} {n : ℝ} {q v : V3}
    (h : LeavesConic nwt e s l clp y u n q v) {n' mu : ℝ} (hmu : getNMu (e.material.getD none) n l = (n', mu)) (h0 : mu ≠ 0) :
    refract s (some q) (some u) mu = some v := by
  have hd := h.direction
  have hp := h.point
  simp only [Elem.propagate, h.shape] at hd hp
  rw [hp, hmu] at hd
  simp only [h0, if_false] at hd
  cases clp with
  | false => simpa using hd
  | true =>
    simp only [if_true] at hd
    cases hc : clip e.radius (some q) (some u) with
    | none => rw [hc] at hd; simp [refract] at hd
    | some u' =>
      rw [hc] at hd
      have : u' = u := by
        unfold clip at hc
        split at hc
        all_goals first | (split_ifs at hc; simp_all) | simp_all
      rw [this] at hd
      exact hd

theorem quadricNormal_ne_zero {c k : ℝ} {q : V3} (hc : c ≠ 0) (hq : OnQuadric c k q) : quadricNormal c k q ≠ 0 := by
  intro h
  have hx := congrArg V3.x h; have hy := congrArg V3.y h; have hz := congrArg V3.z h
  simp only [quadricNormal, zero_x, zero_y, zero_z, neg_eq_zero, mul_eq_zero, hc, false_or] at hx hy hz
  unfold OnQuadric at hq
  rw [hx, hy] at hq
  have : q.z = 0 := by linear_combination -hq - q.z * hz
  rw [this] at hz
  norm_num at hz

theorem cross_scale (u r : V3) (w : ℝ) : u.cross (w • r) = w • u.cross r := by
  ext <;> simp [V3.cross] <;> ring

theorem dot_scale (u r : V3) (w : ℝ) : u.dot (w • r) = w * u.dot r := by
  simp [V3.dot]; ring

/-- The direction behind a refracting surface is the only one that obeys Snell's law. -/
theorem LeavesConic.snell {nwt : NewtonFn} {e : Elem} {s : Shape} {l : ℝ} {clp : Bool} {y u : V3} {n : ℝ} {q v : V3}
    (h : LeavesConic nwt e s l clp y u n q v) {n' : ℝ} (hn : 0 < n) (hn' : 0 < n')
    (hmu : getNMu (e.material.getD none) n l = (n', n / n')) (halt : s.alternate = false) {w : V3}
    (hw : Snell n n' (quadricNormal s.curvature s.conic q) u w) : v = w := by
  obtain ⟨-, hq, hside⟩ := h.meets
  rw [halt] at hside
  simp only [Bool.false_eq_true, if_false] at hside
  have hN := quadricNormal_ne_zero h.curved hq
  have h1 := h.refracts hmu (div_pos hn hn').ne'
  have h2 := (c02_snell hn hn' hN h.unit hside w).mpr hw
  by_cases he : n / n' = 1
  · simp only [he, refract, refractAt, Option.bind_some, if_true, Option.some.injEq] at h1 h2
    rw [← h1, h2]
  · simp only [refract, Option.bind_some, he, if_false, Option.bind_eq_some_iff] at h1
    obtain ⟨r, hr, h1⟩ := h1
    have hg := (c06_sag_zero_iff s q h.conic)
    obtain ⟨hr0, a, ha, hqn⟩ := surfaceNormal_graph h.conic (hg.1.mp (hg.2.mpr ⟨hq, h.sheet⟩)) hr
    rw [hqn, dot_scale] at hside
    have hS : Snell n n' r u w := by
      refine ⟨hw.unit, ?_, ?_⟩
      · have := hw.tangential
        rw [hqn, cross_scale, cross_scale] at this
        have hx := congrArg V3.x this; have hy := congrArg V3.y this; have hz := congrArg V3.z this
        simp only [smul_x, smul_y, smul_z] at hx hy hz
        ext <;> simp only [smul_x, smul_y, smul_z] <;> apply mul_left_cancel₀ ha.ne' <;> linarith
      · have := hw.side
        rw [hqn, dot_scale] at this
        exact nonneg_of_mul_nonneg_right this ha
    have h3 := (c02_snell hn hn' hr0 h.unit (nonneg_of_mul_nonneg_right hside ha) w).mpr hS
    rw [h1] at h3
    exact Option.some.inj h3

/-- The direction behind a mirror is the only one that obeys the law of reflection. -/
theorem LeavesConic.reflected {nwt : NewtonFn} {e : Elem} {s : Shape} {l : ℝ} {clp : Bool} {y u : V3} {n : ℝ} {q v : V3}
    (h : LeavesConic nwt e s l clp y u n q v) {n' : ℝ} (hmu : getNMu (e.material.getD none) n l = (n', -1)) {w : V3}
    (hw : Reflected (quadricNormal s.curvature s.conic q) u w) : v = w := by
  obtain ⟨-, hq, -⟩ := h.meets
  have h1 := h.refracts hmu (by norm_num)
  have he : (-1 : ℝ) ≠ 1 := by norm_num
  simp only [refract, Option.bind_some, he, if_false, Option.bind_eq_some_iff] at h1
  obtain ⟨r, hr, h1⟩ := h1
  have hg := (c06_sag_zero_iff s q h.conic)
  obtain ⟨hr0, a, ha, hqn⟩ := surfaceNormal_graph h.conic (hg.1.mp (hg.2.mpr ⟨hq, h.sheet⟩)) hr
  have hR : Reflected r u w := by
    constructor
    · have := hw.tangential
      rw [hqn, cross_scale, cross_scale] at this
      have hx := congrArg V3.x this; have hy := congrArg V3.y this; have hz := congrArg V3.z this
      simp only [smul_x, smul_y, smul_z] at hx hy hz
      ext <;> apply mul_left_cancel₀ ha.ne' <;> linarith
    · have := hw.normal
      rw [hqn, dot_scale, dot_scale] at this
      apply mul_left_cancel₀ ha.ne'; linarith
  have h3 := (c03_reflect hr0 w).mpr hR
  rw [h1] at h3
  exact Option.some.inj h3

theorem cross_of {w N x : V3} {a ε : ℝ} (ha : a ≠ 0) (h : a • w = N + (a * ε) • x) :
    w.cross N = ε • x.cross N := by
  have hx := congrArg V3.x h; have hy := congrArg V3.y h; have hz := congrArg V3.z h
  simp only [add_x, add_y, add_z, smul_x, smul_y, smul_z] at hx hy hz
  ext <;> simp only [V3.cross, smul_x, smul_y, smul_z] <;> apply mul_left_cancel₀ ha
  · linear_combination N.z * hy - N.y * hz
  · linear_combination N.x * hz - N.z * hx
  · linear_combination N.y * hx - N.x * hy

theorem smul_smul' (a b : ℝ) (x : V3) : a • (b • x) = (a * b) • x := by
  ext <;> simp <;> ring

theorem neg_dot' (x y : V3) : (-x).dot y = -x.dot y := by
  simp [V3.dot]; ring

theorem sub_eq_of_add {F q x : V3} (h : F = q + x) : F - q = x := by
  rw [h]; ext <;> simp

theorem back_along {F q w : V3} {t : ℝ} (h : F = q + t • w) : F + (-t) • w = q := by
  rw [h]; ext <;> simp

/-- Two unit vectors along one line. -/
theorem unit_along {u w : V3} {a t : ℝ} (ht : t ≠ 0) (hw : w.dot w = 1) (hu : u.dot u = 1) (h : t • w = a • u) :
    u = w ∨ u = -w := by
  have hx := congrArg V3.x h; have hy := congrArg V3.y h; have hz := congrArg V3.z h
  simp only [smul_x, smul_y, smul_z] at hx hy hz
  simp only [V3.dot] at hw hu
  have h2 : (a - t) * (a + t) = 0 := by
    linear_combination (-a ^ 2) * hu + t ^ 2 * hw - (t * w.x + a * u.x) * hx - (t * w.y + a * u.y) * hy -
      (t * w.z + a * u.z) * hz
  rcases mul_eq_zero.mp h2 with h3 | h3
  · left
    have : a = t := by linarith
    rw [this] at hx hy hz
    ext <;> apply mul_left_cancel₀ ht <;> linarith
  · right
    have : a = -t := by linarith
    rw [this] at hx hy hz
    ext <;> simp only [neg_x, neg_y, neg_z] <;> apply mul_left_cancel₀ ht <;> linarith

/-- The distance from a focus is linear along the axis. -/
theorem focus_dist {c ε : ℝ} {q : V3} (hc : c ≠ 0) (h1 : 1 - ε ≠ 0) (hq : OnQuadric c (-ε ^ 2) q) :
    (axial (1 / (c * (1 - ε))) - q).dot (axial (1 / (c * (1 - ε))) - q) = (1 / (c * (1 - ε)) - ε * q.z) ^ 2 ∧
    (axial (1 / (c * (1 - ε))) - q).dot (quadricNormal c (-ε ^ 2) q) = 1 / (c * (1 - ε)) - ε * q.z := by
  unfold OnQuadric at hq
  have hf : (1 / (c * (1 - ε))) * (c * (1 - ε)) = 1 := by field_simp
  generalize 1 / (c * (1 - ε)) = f at *
  constructor
  · apply mul_left_cancel₀ hc
    simp only [axial, V3.dot, sub_x, sub_y, sub_z]
    linear_combination hq - 2 * q.z * hf
  · simp only [axial, V3.dot, quadricNormal, sub_x, sub_y, sub_z]
    linear_combination hq - q.z * (1 + ε) * hf

/-- The unit vector towards the focus, with the sign for which it points along the normal. -/
theorem toward_focus {c ε : ℝ} {q : V3} (hc : c ≠ 0) (h1 : 1 - ε ≠ 0) (hq : OnQuadric c (-ε ^ 2) q) :
    1 / (c * (1 - ε)) - ε * q.z ≠ 0 ∧ ∃ w : V3, w.dot w = 1 ∧ w.dot (quadricNormal c (-ε ^ 2) q) = 1 ∧
      axial (1 / (c * (1 - ε))) = q + (1 / (c * (1 - ε)) - ε * q.z) • w ∧
      w.cross (quadricNormal c (-ε ^ 2) q) = ε • ez.cross (quadricNormal c (-ε ^ 2) q) := by
  obtain ⟨hd, hN⟩ := focus_dist hc h1 hq
  have ht : 1 / (c * (1 - ε)) - ε * q.z ≠ 0 := by
    intro h
    rw [h] at hd
    have h0 : axial (1 / (c * (1 - ε))) - q = 0 := by
      apply V3.dot_self_eq_zero.mp
      rw [hd]; norm_num
    have hx := congrArg V3.x h0; have hy := congrArg V3.y h0; have hz := congrArg V3.z h0
    simp only [axial, sub_x, sub_y, sub_z, zero_x, zero_y, zero_z, zero_sub, neg_eq_zero] at hx hy hz
    unfold OnQuadric at hq
    have hqz : q.z = 1 / (c * (1 - ε)) := by linarith
    rw [hx, hy, hqz] at hq
    field_simp at hq
    apply h1
    apply pow_eq_zero_iff (two_ne_zero) |>.mp
    linear_combination -hq
  refine ⟨ht, (1 / (1 / (c * (1 - ε)) - ε * q.z)) • (axial (1 / (c * (1 - ε))) - q), ?_, ?_, ?_, ?_⟩
  · rw [show ∀ (a : ℝ) (x : V3), (a • x).dot (a • x) = a ^ 2 * x.dot x from fun a x => by simp [V3.dot]; ring, hd, ← mul_pow,
      one_div_mul_cancel ht, one_pow]
  · rw [show ∀ (a : ℝ) (x r : V3), (a • x).dot r = a * x.dot r from fun a x r => by simp [V3.dot]; ring, hN,
      one_div_mul_cancel ht]
  · generalize 1 / (c * (1 - ε)) - ε * q.z = t at *
    ext <;> simp only [add_x, add_y, add_z, smul_x, smul_y, smul_z, sub_x, sub_y, sub_z] <;> field_simp <;> ring
  · have hf : (1 / (c * (1 - ε))) * (c * (1 - ε)) = 1 := by field_simp
    generalize 1 / (c * (1 - ε)) = f at *
    refine cross_of (a := c * (f - ε * q.z)) (mul_ne_zero hc ht) ?_
    generalize hT : f - ε * q.z = t at *
    ext
    all_goals
      simp only [quadricNormal, axial, ez, add_x, add_y, add_z, smul_x, smul_y, smul_z, sub_x, sub_y, sub_z]
      field_simp
    · ring
    · ring
    · rw [← hT]; linear_combination hf

/-! ## The property -/

/-- C118: the conic whose constant is minus the square of the ratio of the indices unites all rays that come along its
axis in one point, and all optical paths from the plane of the vertex to it are equal. -/
theorem c118_collimated {nwt : NewtonFn} {e : Elem} {s : Shape} {l : ℝ} {clp : Bool} {y : V3} {n n' : ℝ} {q v : V3}
    (h : LeavesConic nwt e s l clp y ez n q v) (hn : 0 < n) (hn' : 0 < n') (hne : n ≠ n')
    (hmu : getNMu (e.material.getD none) n l = (n', n / n')) (halt : s.alternate = false)
    (hk : s.conic = -(n / n') ^ 2) :
    ∃ t : ℝ, q + t • v = axial (1 / (s.curvature * (1 - n / n'))) ∧
      n * q.z + n' * t = n' * (1 / (s.curvature * (1 - n / n'))) := by
  have h1 : 1 - n / n' ≠ 0 := by
    rw [sub_ne_zero]; intro h; exact hne ((div_eq_one_iff_eq hn'.ne').mp h.symm)
  obtain ⟨-, hq, -⟩ := h.meets
  have hs := fun w => h.snell (w := w) hn hn' hmu halt
  rw [hk] at hq hs
  obtain ⟨ht, w, hw, hwN, hF, hX⟩ := toward_focus h.curved h1 hq
  rw [hs w ⟨hw, ?_, by rw [hwN]; norm_num⟩]
  · refine ⟨_, hF.symm, ?_⟩
    field_simp
    ring
  · rw [hX, smul_smul', mul_div_cancel₀ _ hn'.ne']

/-- C118: the other way, light from that point leaves the surface along the axis. -/
theorem c118_point {nwt : NewtonFn} {e : Elem} {s : Shape} {l : ℝ} {clp : Bool} {y u : V3} {n n' : ℝ} {q v : V3}
    (h : LeavesConic nwt e s l clp y u n q v) (hn : 0 < n) (hn' : 0 < n') (hne : n ≠ n')
    (hmu : getNMu (e.material.getD none) n l = (n', n / n')) (halt : s.alternate = false)
    (hk : s.conic = -(n' / n) ^ 2) (hF : ∃ a : ℝ, y + a • u = axial (1 / (s.curvature * (1 - n' / n)))) : v = ez := by
  have h1 : 1 - n' / n ≠ 0 := by
    rw [sub_ne_zero]; intro h; exact hne ((div_eq_one_iff_eq hn.ne').mp h.symm).symm
  obtain ⟨⟨b, hb⟩, hq, hside⟩ := h.meets
  have hs := fun w => h.snell (w := w) hn hn' hmu halt
  have hsh := h.sheet
  rw [halt] at hside
  rw [hk] at hq hs hside hsh
  simp only [Bool.false_eq_true, if_false] at hside
  obtain ⟨ht, w, hw, hwN, hF', hX⟩ := toward_focus h.curved h1 hq
  obtain ⟨a, ha⟩ := hF
  have huw := unit_along ht hw h.unit (a := a - b) (by rw [← sub_eq_of_add hF', ← ha, hb]; ext <;> simp <;> ring)
  have hu : u = w := by
    rcases huw with rfl | rfl
    · rfl
    · exfalso
      rw [neg_dot', hwN] at hside
      norm_num at hside
  subst hu
  refine hs ez ⟨by simp [V3.dot, ez], ?_, ?_⟩
  · rw [hX, smul_smul', mul_div_cancel₀ _ hn.ne']
  · unfold OnVertexSheet at hsh
    simpa [V3.dot, ez, quadricNormal] using hsh

/-- C118: a mirror in the shape of a conic sends every ray through one focus through the other one, and all optical paths
from the one to the other are equal (the foci of a sphere are its centre). -/
theorem c118_mirror {nwt : NewtonFn} {e : Elem} {s : Shape} {l : ℝ} {clp : Bool} {y u : V3} {n ε : ℝ} {q v : V3}
    (h : LeavesConic nwt e s l clp y u n q v) {m : Material} (hm : e.material = some (some m)) (hmir : m.mirror = true)
    (hk : s.conic = -ε ^ 2) (h1 : ε ≠ 1) (h2 : ε ≠ -1)
    (hF : ∃ a : ℝ, y + a • u = axial (1 / (s.curvature * (1 + ε)))) :
    ∃ a b : ℝ, axial (1 / (s.curvature * (1 + ε))) + a • u = q ∧ q + b • v = axial (1 / (s.curvature * (1 - ε))) ∧
      a + b = (if s.alternate then 1 else -1) * (2 / (s.curvature * (1 + s.conic))) := by
  have h1' : 1 - ε ≠ 0 := sub_ne_zero.mpr h1.symm
  have h2' : 1 - -ε ≠ 0 := by rw [sub_neg_eq_add]; intro h; exact h2 (by linarith)
  have hc := h.curved
  obtain ⟨⟨b, hb⟩, hq, hside⟩ := h.meets
  have hs := fun w => h.reflected (n' := n) (w := w) (by simp [getNMu, hm, hmir])
  rw [hk] at hq hs hside
  obtain ⟨ht1, w1, hw1, hN1, hF1, hX1⟩ := toward_focus (ε := -ε) hc h2' (by rwa [neg_sq])
  obtain ⟨ht2, w2, hw2, hN2, hF2, hX2⟩ := toward_focus hc h1' hq
  rw [neg_sq] at hN1 hX1
  rw [sub_neg_eq_add] at hF1 ht1
  obtain ⟨a, ha⟩ := hF
  have huw := unit_along ht1 hw1 h.unit (a := a - b) (by rw [← sub_eq_of_add hF1, ← ha, hb]; ext <;> simp <;> ring)
  have hcr : ∀ x y z : V3, x.cross z = ε • y.cross z → (-x).cross z = (-ε) • y.cross z := by
    intro x y z h
    have hx := congrArg V3.x h; have hy := congrArg V3.y h; have hz := congrArg V3.z h
    simp only [smul_x, smul_y, smul_z, V3.cross] at hx hy hz
    ext <;> simp only [V3.cross, neg_x, neg_y, neg_z, smul_x, smul_y, smul_z] <;> linarith
  have hneg : ∀ x : V3, ∀ a : ℝ, a • (-x) = (-a) • x := by intro x a; ext <;> simp
  have hsum : 1 / (s.curvature * (1 + ε)) - -ε * q.z + (1 / (s.curvature * (1 - ε)) - ε * q.z) =
      2 / (s.curvature * (1 + s.conic)) := by
    have h3 : 1 + ε ≠ 0 := by rwa [sub_neg_eq_add] at h2'
    rw [hk, show 1 + -ε ^ 2 = (1 - ε) * (1 + ε) by ring]
    field_simp
    ring
  rcases huw with rfl | rfl
  · have hal : s.alternate = false := by
      by_contra h
      rw [if_pos (by simpa using h), hN1] at hside
      norm_num at hside
    have hv := hs (-w2) ⟨by rw [hX1, hcr _ _ _ hX2], by rw [neg_dot', hN2, hN1]⟩
    refine ⟨-(1 / (s.curvature * (1 + ε)) - -ε * q.z), -(1 / (s.curvature * (1 - ε)) - ε * q.z), ?_, ?_, ?_⟩
    · exact back_along hF1
    · rw [hv, hneg, neg_neg, ← hF2]
    · rw [hal, ← hsum]; simp; ring
  · have hal : s.alternate = true := by
      by_contra h
      rw [if_neg h, neg_dot', hN1] at hside
      norm_num at hside
    have hv := hs w2 ⟨by
      rw [hX2]
      have := congrArg ((-1 : ℝ) • ·) hX1
      simp only [smul_smul'] at this
      rw [show (-1 : ℝ) * -ε = ε by ring] at this
      rw [← this]
      ext <;> simp [V3.cross] <;> ring, by rw [neg_dot', neg_neg, hN2, hN1]⟩
    refine ⟨1 / (s.curvature * (1 + ε)) - -ε * q.z, 1 / (s.curvature * (1 - ε)) - ε * q.z, ?_, ?_, ?_⟩
    · rw [hneg]; exact back_along hF1
    · rw [hv, ← hF2]
    · rw [hal, ← hsum]; simp

/-- C118: a paraboloid mirror sends the light from its focus along the axis. -/
theorem c118_paraboloid {nwt : NewtonFn} {e : Elem} {s : Shape} {l : ℝ} {clp : Bool} {y u : V3} {n : ℝ} {q v : V3}
    (h : LeavesConic nwt e s l clp y u n q v) {m : Material} (hm : e.material = some (some m)) (hmir : m.mirror = true)
    (hk : s.conic = -1) (hF : ∃ a : ℝ, y + a • u = axial (1 / (2 * s.curvature))) :
    v = if s.alternate then ez else -ez := by
  have hc := h.curved
  obtain ⟨⟨b, hb⟩, hq, hside⟩ := h.meets
  have hs := fun w => h.reflected (n' := n) (w := w) (by simp [getNMu, hm, hmir])
  rw [show s.conic = -(-1) ^ 2 by rw [hk]; norm_num] at hq hs hside
  obtain ⟨ht, w, hw, hN, hF', hX⟩ := toward_focus (ε := -1) hc (by norm_num) hq
  obtain ⟨a, ha⟩ := hF
  rw [show 2 * s.curvature = s.curvature * (1 - -1) by ring] at ha
  have huw := unit_along ht hw h.unit (a := a - b) (by rw [← sub_eq_of_add hF', ← ha, hb]; ext <;> simp <;> ring)
  have hez : ez.dot (quadricNormal s.curvature (-(-1) ^ 2) q) = 1 := by simp [V3.dot, ez, quadricNormal]
  rcases huw with rfl | rfl
  · have hal : s.alternate = false := by
      by_contra h
      rw [if_pos (by simpa using h), hN] at hside
      norm_num at hside
    rw [hal]
    simp only [Bool.false_eq_true, if_false]
    exact hs _ ⟨by rw [hX]; ext <;> simp [V3.cross, ez], by rw [neg_dot', hez, hN]⟩
  · have hal : s.alternate = true := by
      by_contra h
      rw [if_neg h, neg_dot', hN] at hside
      norm_num at hside
    rw [hal]
    simp only [if_true]
    refine hs _ ⟨?_, by rw [neg_dot', neg_neg, hez, hN]⟩
    have hx := congrArg V3.x hX; have hy := congrArg V3.y hX; have hz := congrArg V3.z hX
    simp only [smul_x, smul_y, smul_z, V3.cross] at hx hy hz
    ext <;> simp only [V3.cross, neg_x, neg_y, neg_z] <;> linarith

/-- C118 is violated by paraboloids in the light from infinity: the quadratic equation for the intersection degenerates, and
no ray along the axis meets the surface. -/
theorem c118_paraboloid_violation (nwt : NewtonFn) (e : Elem) {s : Shape} (l : ℝ) (clp : Bool) (y : V3) (n : ℝ)
    (hs : e.shape = some s) (ha : s.aspherics = none) (hc : s.curvature ≠ 0) (hk : s.conic = -1) :
    (e.propagate nwt (some y) (some ez) n l clp).y = none ∧ (e.propagate nwt (some y) (some (-ez)) n l clp).y = none ∧
    ∃ p : V3, OnConicGraph s.curvature s.conic p ∧ ∃ t : ℝ, p = y + t • ez := by
  have key : ∀ u : V3, u = ez ∨ u = -ez → s.intercept nwt y u = none := by
    intro u hu
    simp only [Shape.intercept, ha, interceptConic, hc, if_false, hk]
    rcases hu with rfl | rfl <;> simp [ez]
  refine ⟨?_, ?_, ⟨y.x, y.y, s.curvature * (y.x ^ 2 + y.y ^ 2) / 2⟩, ?_, ?_⟩
  · simp [Elem.propagate, Elem.intercept, hs, key ez (.inl rfl)]
  · simp [Elem.propagate, Elem.intercept, hs, key (-ez) (.inr rfl)]
  · rw [hk]
    constructor
    · simp
    · simp; norm_num
  · exact ⟨s.curvature * (y.x ^ 2 + y.y ^ 2) / 2 - y.z, by ext <;> simp [ez]⟩

/-- C118: a refracting sphere images its aplanatic point sharply: every ray towards the point at the distance `n'/n` radii
from the centre leaves through the one at `n/n'` radii, and the optical path between the two is zero for all of them. -/
theorem c118_aplanatic {nwt : NewtonFn} {e : Elem} {s : Shape} {l : ℝ} {clp : Bool} {y u : V3} {n n' : ℝ} {q v : V3}
    (h : LeavesConic nwt e s l clp y u n q v) (hn : 0 < n) (hn' : 0 < n')
    (hmu : getNMu (e.material.getD none) n l = (n', n / n')) (halt : s.alternate = false) (hk : s.conic = 0)
    (hA : ∃ a : ℝ, y + a • u = axial (1 / s.curvature * (1 + n' / n))) :
    ∃ a b : ℝ, axial (1 / s.curvature * (1 + n' / n)) + a • u = q ∧
      q + b • v = axial (1 / s.curvature * (1 + n / n')) ∧ n * a + n' * b = 0 := by
  have hc := h.curved
  obtain ⟨⟨b, hb⟩, hq, hside⟩ := h.meets
  have hs := fun w => h.snell (w := w) hn hn' hmu halt
  have hsh := h.sheet
  rw [halt] at hside
  simp only [Bool.false_eq_true, if_false] at hside
  obtain ⟨a, ha⟩ := hA
  obtain ⟨α, hα⟩ : ∃ α : ℝ, axial (1 / s.curvature * (1 + n' / n)) = q + α • u :=
    ⟨a - b, by rw [← ha, hb]; ext <;> simp <;> ring⟩
  have hu := h.unit
  have hm0 : 0 < n' / n := div_pos hn' hn
  have hfm : 1 / s.curvature * (1 + n' / n) * s.curvature = 1 + n' / n := by field_simp
  have hgf : 1 / s.curvature * (1 + n / n') * (n' / n) = 1 / s.curvature * (1 + n' / n) := by field_simp; ring
  have hnm : n * (n' / n) = n' := by field_simp
  rw [hk] at hq hs hside hsh
  generalize 1 / s.curvature * (1 + n' / n) = f at *
  generalize 1 / s.curvature * (1 + n / n') = g at *
  generalize n' / n = m at *
  generalize s.curvature = c at *
  have hx := congrArg V3.x hα; have hy := congrArg V3.y hα; have hz := congrArg V3.z hα
  simp only [axial, add_x, add_y, add_z, smul_x, smul_y, smul_z] at hx hy hz
  simp only [OnQuadric] at hq
  simp only [OnVertexSheet] at hsh
  simp only [V3.dot] at hu
  have hgm : g * c * m = 1 + m := by linear_combination c * hgf + hfm
  have hα2 : c * α ^ 2 = c * f ^ 2 - 2 * m * q.z := by
    linear_combination (-(c * α ^ 2)) * hu + c * (q.x - α * u.x) * hx + c * (q.y - α * u.y) * hy +
      c * (q.z - f - α * u.z) * hz + hq - 2 * q.z * hfm
  by_cases h0 : α = 0
  · rw [h0] at hα hx hy hz
    have hqx : q.x = 0 := by linarith
    have hqy : q.y = 0 := by linarith
    have hqz : q.z = f := by linarith
    have hf0 : f ≠ 0 := by
      intro h; rw [h] at hfm; linarith
    have hcf : c * f = 2 := by
      rw [hqx, hqy, hqz] at hq
      apply mul_right_cancel₀ hf0
      linear_combination hq
    have hm1 : m = 1 := by linarith
    have hfg : g = f := by rw [hm1] at hgf; linarith
    refine ⟨0, 0, ?_, ?_, by ring⟩
    · rw [hα]; ext <;> simp
    · rw [hfg, hα]; ext <;> simp
  · have hNu : α * u.dot (quadricNormal c 0 q) = f - m * q.z := by
      simp only [V3.dot, quadricNormal]
      linear_combination c * q.x * hx + c * q.y * hy - (1 - c * q.z) * hz + hq - q.z * hfm
    have hpos : 0 < c * α := by
      have h1 : 0 < c * f - m * (c * q.z) := by nlinarith
      have h2 : c * α * u.dot (quadricNormal c 0 q) = c * f - m * (c * q.z) := by linear_combination c * hNu
      rw [← h2] at h1
      exact pos_of_mul_pos_left h1 hside
    have hv := hs ((m / α) • (axial g - q)) ⟨?_, ?_, ?_⟩
    · refine ⟨-α, α / m, back_along hα, ?_, ?_⟩
      · rw [hv, smul_smul', show α / m * (m / α) = 1 by field_simp]
        ext <;> simp
      · rw [← hnm]; field_simp; ring
    · simp only [V3.dot, axial, smul_x, smul_y, smul_z, sub_x, sub_y, sub_z]
      field_simp
      apply mul_left_cancel₀ hc
      linear_combination m ^ 2 * hq - hα2 - 2 * q.z * m * hgm + c * (g * m + f) * hgf
    · have hW : α • ((m / α) • (axial g - q)) = m • (axial g - q) := by rw [smul_smul', mul_div_cancel₀ _ h0]
      generalize (m / α) • (axial g - q) = W at *
      have hX := congrArg V3.x hW; have hY := congrArg V3.y hW; have hZ := congrArg V3.z hW
      simp only [axial, smul_x, smul_y, smul_z, sub_x, sub_y, sub_z] at hX hY hZ
      rw [← hnm]
      ext <;> simp only [V3.cross, quadricNormal, smul_x, smul_y, smul_z] <;> apply mul_left_cancel₀ h0
      · linear_combination n * m * ((1 - (1 + 0) * c * q.z) * hY + c * q.y * hZ) +
          n * ((1 - (1 + 0) * c * q.z) * hy + c * q.y * hz) + n * q.y * m * hgm - n * q.y * hfm
      · linear_combination n * m * (-(1 - (1 + 0) * c * q.z) * hX - c * q.x * hZ) -
          n * ((1 - (1 + 0) * c * q.z) * hx + c * q.x * hz) - n * q.x * m * hgm + n * q.x * hfm
      · linear_combination n * m * (-c * q.y * hX + c * q.x * hY) + n * (-c * q.y * hx + c * q.x * hy)
    · have h1 : c * α * ((m / α) • (axial g - q)).dot (quadricNormal c 0 q) = c * f - c * q.z := by
        simp only [V3.dot, axial, quadricNormal, smul_x, smul_y, smul_z, sub_x, sub_y, sub_z]
        field_simp
        linear_combination m * hq + hgf - q.z * hgm
      have h2 : 0 < c * f - c * q.z := by linarith
      rw [← h1] at h2
      exact (pos_of_mul_pos_right h2 hpos.le).le

/-! ### Examples -/

/-- A surface of the examples. -/
noncomputable def conicAt (c k : ℝ) (m : Material) : Elem :=
  ⟨Transform.init 0 ez 0 none, .inf, some ⟨c, k, none, false⟩, some (some m)⟩

/-- A ray that starts on the surface. -/
theorem leaves_of (nwt : NewtonFn) {c k l n n' mu : ℝ} {m : Material} {q u v : V3} (hc : c ≠ 0) (hu : u.dot u = 1)
    (hz : u.z ≠ 0) (he : quadCoeff c k u ≠ 0) (hq : OnQuadric c k q) (hs : 0 < 1 - (1 + k) * c * q.z)
    (hside : 0 ≤ u.dot (quadricNormal c k q)) (hmu : getNMu (some m) n l = (n', mu)) (h0 : mu ≠ 0) (h1 : mu ≠ 1)
    (hv : ∀ r : V3, quadricNormal c k q = (1 - (1 + k) * c * q.z) • r → r ≠ 0 → refractAt r u mu = some v) :
    LeavesConic nwt (conicAt c k m) ⟨c, k, none, false⟩ l false q u n q v := by
  have hi : Shape.intercept nwt ⟨c, k, none, false⟩ q u = some 0 :=
    intercept_of_side nwt rfl rfl hu hz (fun _ => he) (by rw [show q + (0 : ℝ) • u = q by ext <;> simp]; exact hq)
      (fun _ => by rw [show q + (0 : ℝ) • u = q by ext <;> simp]; exact hside)
  have hqq : q + (0 : ℝ) • u = q := by ext <;> simp
  have hr : Shape.surfaceNormal ⟨c, k, none, false⟩ q =
      some ⟨q.x * (0 - c / (1 - (1 + k) * c * q.z)), q.y * (0 - c / (1 - (1 + k) * c * q.z)), 1⟩ := by
    have hsq : 1 - (1 + k) * c ^ 2 * (q.x * q.x + q.y * q.y) = (1 - (1 + k) * c * q.z) ^ 2 := by
      unfold OnQuadric at hq
      linear_combination (-((1 + k) * c)) * hq
    simp only [Shape.surfaceNormal, hc, false_and, if_false, ne_eq, not_false_iff, if_true, rsq, hsq, Real.sqrt_sq hs.le,
      not_le.mpr (pow_pos hs 2), Option.map_some]
  refine ⟨rfl, rfl, hc, hu, ?_, ?_, hs.le⟩
  · simp [Elem.propagate, conicAt, Elem.intercept, hi, hqq]
  · simp only [Elem.propagate, conicAt, Elem.intercept, Option.bind_some, hi, Option.map_some, hqq, Option.getD_some, hmu,
      h0, if_false, refract, h1, hr, Bool.false_eq_true]
    refine hv _ ?_ fun h => ?_
    · have hs0 := hs.ne'
      generalize hS : 1 - (1 + k) * c * q.z = S at *
      ext <;> simp only [quadricNormal, smul_x, smul_y, smul_z, hS] <;> field_simp <;> ring
    · have := congrArg V3.z h
      simp at this

theorem getNMu_glass (n l : ℝ) (a : ℝ) : getNMu (some ⟨false, true, fun _ => a⟩) n l = (a, n / a) := rfl

theorem getNMu_mirror (n l : ℝ) : getNMu (some ⟨true, true, fun _ => 1⟩) n l = (n, -1) := rfl

/-- `c118_collimated` for a convex ellipsoid of glass in the light from infinity. -/
example (nwt : NewtonFn) (l : ℝ) : LeavesConic nwt (conicAt 1 (-(1 / (3 / 2)) ^ 2) ⟨false, true, fun _ => 3 / 2⟩)
      ⟨1, -(1 / (3 / 2)) ^ 2, none, false⟩ l false ⟨36 / 41, 0, 18 / 41⟩ ez 1 ⟨36 / 41, 0, 18 / 41⟩ ⟨-12 / 37, 0, 35 / 37⟩ ∧
    (⟨36 / 41, 0, 18 / 41⟩ + (111 / 41 : ℝ) • (⟨-12 / 37, 0, 35 / 37⟩ : V3) : V3) =
      axial (1 / (1 * (1 - 1 / (3 / 2)))) := by
  refine ⟨leaves_of nwt (by norm_num) (by norm_num [V3.dot, ez]) (by norm_num [ez]) (by norm_num [quadCoeff, ez])
    (by norm_num [OnQuadric]) (by norm_num) (by norm_num [V3.dot, ez, quadricNormal]) (getNMu_glass 1 l (3 / 2))
    (by norm_num) (by norm_num) fun r hr h0 => ?_, by ext <;> norm_num [axial]⟩
  have hx := congrArg V3.x hr; have hy := congrArg V3.y hr; have hz := congrArg V3.z hr
  norm_num [quadricNormal] at hx hy hz
  rw [c02_snell (by norm_num) (by norm_num) h0 (by norm_num [V3.dot, ez]) (by norm_num [V3.dot, ez]; linarith)]
  have e1 : r.x = -36 / 31 := by linarith
  have e3 : r.z = 1 := by linarith
  exact ⟨by norm_num [V3.dot], by ext <;> norm_num [V3.cross, ez, e1, hy, e3], by norm_num [V3.dot, e1, hy, e3]⟩

/-- `c118_point`: the same the other way. -/
example (nwt : NewtonFn) (l : ℝ) : LeavesConic nwt (conicAt 1 (-(1 / (3 / 2)) ^ 2) ⟨false, true, fun _ => 1⟩)
      ⟨1, -(1 / (3 / 2)) ^ 2, none, false⟩ l false ⟨36 / 41, 0, 18 / 41⟩ ⟨-12 / 37, 0, 35 / 37⟩ (3 / 2)
      ⟨36 / 41, 0, 18 / 41⟩ ez := by
  refine leaves_of nwt (by norm_num) (by norm_num [V3.dot]) (by norm_num) (by norm_num [quadCoeff])
    (by norm_num [OnQuadric]) (by norm_num) (by norm_num [V3.dot, quadricNormal]) (getNMu_glass (3 / 2) l 1)
    (by norm_num) (by norm_num) fun r hr h0 => ?_
  have hx := congrArg V3.x hr; have hy := congrArg V3.y hr; have hz := congrArg V3.z hr
  norm_num [quadricNormal] at hx hy hz
  have e1 : r.x = -36 / 31 := by linarith
  have e3 : r.z = 1 := by linarith
  rw [c02_snell (by norm_num) (by norm_num) h0 (by norm_num [V3.dot]) (by norm_num [V3.dot, e1, hy, e3])]
  exact ⟨by norm_num [V3.dot, ez], by ext <;> norm_num [V3.cross, ez, e1, hy, e3], by norm_num [V3.dot, ez, e1, hy, e3]⟩

/-- `c118_mirror` for an ellipsoid. -/
example (nwt : NewtonFn) (l : ℝ) : LeavesConic nwt (conicAt (-1) (-(1 / 2) ^ 2) ⟨true, true, fun _ => 1⟩)
      ⟨-1, -(1 / 2) ^ 2, none, false⟩ l false ⟨16 / 19, 0, -8 / 19⟩ ⟨24 / 25, 0, 7 / 25⟩ 1
      ⟨16 / 19, 0, -8 / 19⟩ ⟨-8 / 17, 0, -15 / 17⟩ ∧
    (∃ a : ℝ, (⟨16 / 19, 0, -8 / 19⟩ + a • (⟨24 / 25, 0, 7 / 25⟩ : V3) : V3) = axial (1 / (-1 * (1 + 1 / 2)))) ∧
    ∃ b : ℝ, (⟨16 / 19, 0, -8 / 19⟩ + b • (⟨-8 / 17, 0, -15 / 17⟩ : V3) : V3) = axial (1 / (-1 * (1 - 1 / 2))) := by
  refine ⟨leaves_of nwt (by norm_num) (by norm_num [V3.dot]) (by norm_num) (by norm_num [quadCoeff])
    (by norm_num [OnQuadric]) (by norm_num) (by norm_num [V3.dot, quadricNormal]) (getNMu_mirror 1 l)
    (by norm_num) (by norm_num) fun r hr h0 => ?_, ⟨-50 / 57, by ext <;> norm_num [axial]⟩,
    ⟨34 / 19, by ext <;> norm_num [axial]⟩⟩
  have hx := congrArg V3.x hr; have hy := congrArg V3.y hr; have hz := congrArg V3.z hr
  norm_num [quadricNormal] at hx hy hz
  have e1 : r.x = 16 / 13 := by linarith
  have e3 : r.z = 1 := by linarith
  rw [c03_reflect h0]
  exact ⟨by ext <;> norm_num [V3.cross, e1, hy, e3], by norm_num [V3.dot, e1, hy, e3]⟩

/-- `c118_paraboloid` for a concave mirror. -/
example (nwt : NewtonFn) (l : ℝ) : LeavesConic nwt (conicAt (-1) (-1) ⟨true, true, fun _ => 1⟩)
      ⟨-1, -1, none, false⟩ l false ⟨1 / 2, 0, -1 / 8⟩ ⟨4 / 5, 0, 3 / 5⟩ 1 ⟨1 / 2, 0, -1 / 8⟩ (-ez) ∧
    ∃ a : ℝ, (⟨1 / 2, 0, -1 / 8⟩ + a • (⟨4 / 5, 0, 3 / 5⟩ : V3) : V3) = axial (1 / (2 * -1)) := by
  refine ⟨leaves_of nwt (by norm_num) (by norm_num [V3.dot]) (by norm_num) (by norm_num [quadCoeff])
    (by norm_num [OnQuadric]) (by norm_num) (by norm_num [V3.dot, quadricNormal]) (getNMu_mirror 1 l)
    (by norm_num) (by norm_num) fun r hr h0 => ?_, ⟨-5 / 8, by ext <;> norm_num [axial]⟩⟩
  have hx := congrArg V3.x hr; have hy := congrArg V3.y hr; have hz := congrArg V3.z hr
  norm_num [quadricNormal] at hx hy hz
  rw [c03_reflect h0]
  exact ⟨by ext <;> norm_num [V3.cross, ez, ← hx, ← hy, ← hz], by norm_num [V3.dot, ez, ← hx, ← hy, ← hz]⟩

/-- `c118_aplanatic` for a sphere of glass. -/
example (nwt : NewtonFn) (l : ℝ) : LeavesConic nwt (conicAt 1 0 ⟨false, true, fun _ => 35 / 24⟩)
      ⟨1, 0, none, false⟩ l false ⟨4 / 5, 0, 2 / 5⟩ ⟨-96 / 265, 0, 247 / 265⟩ 1 ⟨4 / 5, 0, 2 / 5⟩ ⟨-28 / 53, 0, 45 / 53⟩ ∧
    ∃ a : ℝ, (⟨4 / 5, 0, 2 / 5⟩ + a • (⟨-96 / 265, 0, 247 / 265⟩ : V3) : V3) = axial (1 / 1 * (1 + 35 / 24 / 1)) := by
  refine ⟨leaves_of nwt (by norm_num) (by norm_num [V3.dot]) (by norm_num) (by norm_num [quadCoeff])
    (by norm_num [OnQuadric]) (by norm_num) (by norm_num [V3.dot, quadricNormal]) (getNMu_glass 1 l (35 / 24))
    (by norm_num) (by norm_num) fun r hr h0 => ?_, ⟨53 / 24, by ext <;> norm_num [axial]⟩⟩
  have hx := congrArg V3.x hr; have hy := congrArg V3.y hr; have hz := congrArg V3.z hr
  norm_num [quadricNormal] at hx hy hz
  have e1 : r.x = -4 / 3 := by linarith
  have e3 : r.z = 1 := by linarith
  rw [c02_snell (by norm_num) (by norm_num) h0 (by norm_num [V3.dot]) (by norm_num [V3.dot, e1, hy, e3])]
  exact ⟨by norm_num [V3.dot], by ext <;> norm_num [V3.cross, e1, hy, e3], by norm_num [V3.dot, e1, hy, e3]⟩

end RayOpt
