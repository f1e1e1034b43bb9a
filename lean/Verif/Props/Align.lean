import Verif.Lemmas.Symmetry
import Verif.Model.Align
import Verif.Props.Euler
import Verif.Props.Placement

/-!
# C68: aligned elements refract the optical axis into the next direction
-/

namespace RayOpt

open V3 Transform Elem Shape

/-! ## The direction behind an element -/

/-- C68: `excidence` is what the ray trace does to the optical axis at the vertex, where the normal is
the local z axis. -/
theorem c68_excidence_refract (t : Transform) (mu : ℝ) (h : mu ≠ -1 ∨ 0 ≤ t.incidence.z) :
    t.excidence mu = refractAt ez t.incidence mu := by
  unfold excidence refractAt
  simp only
  by_cases h1 : mu = 1
  · rw [if_pos h1, if_pos h1]
  rw [if_neg h1, if_neg h1, ez_dot, if_neg one_ne_zero]
  have hd : t.incidence.dot ez = t.incidence.z := by simp [V3.dot, ez]
  rw [hd]
  by_cases h2 : mu = -1
  · have hz := h.resolve_left (not_not.mpr h2)
    rw [if_pos h2, h2, if_neg (by simp; positivity)]
    have : √((|(-1 : ℝ)| * t.incidence.z) ^ 2 - (-1) ^ 2 + 1) = t.incidence.z := by
      rw [show (|(-1 : ℝ)| * t.incidence.z) ^ 2 - (-1) ^ 2 + 1 = t.incidence.z ^ 2 by simp]
      exact Real.sqrt_sq hz
    rw [this]
    congr 1
    ext <;> simp [ez]
    ring
  · rw [if_neg h2]
    have e : (|mu| * t.incidence.z / 1) ^ 2 - (mu ^ 2 - 1) / 1
        = (|mu| * t.incidence.z) ^ 2 - mu ^ 2 + 1 := by ring
    rw [e, div_one]

/-- C68: for `mu > 0` the direction behind has length one, obeys Snell's law and goes on through the
surface. -/
theorem c68_excidence_snell {t : Transform} (ht : Reachable t) {mu : ℝ} (hmu : 0 < mu) {e : V3}
    (he : t.excidence mu = some e) (h1 : mu = 1 → 0 ≤ t.incidence.z) :
    e.dot e = 1 ∧ e.cross ez = mu • t.incidence.cross ez ∧ 0 ≤ e.z := by
  have hunit : t.incidence.dot t.incidence = 1 := by
    obtain ⟨d, v, a, rfl⟩ := ht.is_update
    unfold incidence toNormal
    rw [doRotate_dot (update_ok_normal d v a), update_direction, updDir_unit]
  unfold excidence at he
  simp only at he
  by_cases hm : mu = 1
  · rw [if_pos hm] at he
    cases he
    exact ⟨hunit, by rw [hm]; ext <;> simp, h1 hm⟩
  rw [if_neg hm, abs_of_pos hmu, sign_pos hmu] at he
  split at he
  · cases he
  rename_i hneg
  cases he
  generalize t.incidence = i at hunit hneg ⊢
  have hs := Real.sq_sqrt (not_lt.mp hneg)
  have hs0 := Real.sqrt_nonneg ((mu * i.z) ^ 2 - mu ^ 2 + 1)
  generalize √((mu * i.z) ^ 2 - mu ^ 2 + 1) = w at hs hs0
  simp only [V3.dot] at hunit
  refine ⟨?_, ?_, ?_⟩
  · simp [V3.dot, ez]
    linear_combination mu ^ 2 * hunit + hs
  · ext <;> simp [cross, ez]
  · simp [ez]
    exact hs0

/-! ## The rotation -/

/-- The rotation of `align` turns the axis into the normal. -/
theorem alignRot_apply {i r : V3} (hi : i.dot i = 1) (hr : r.dot r = 1) (hir : 0 ≤ i.dot r)
    (hturn : i.cross r = 0 ∨ ¬allclose (i.cross r) 0) : M3.vecMul i (alignRot i r) = r := by
  have hsq : (i.cross r).dot (i.cross r) = 1 - (i.dot r) ^ 2 := by
    have : (i.cross r).dot (i.cross r) = i.dot i * r.dot r - (i.dot r) ^ 2 := by
      simp only [V3.dot, cross]; ring
    rw [this, hi, hr]; ring
  have hn2 : (i.cross r).norm ^ 2 = 1 - (i.dot r) ^ 2 := by rw [norm_sq, hsq]
  have hn0 : 0 ≤ (i.cross r).norm := V3.norm_nonneg _
  have hn1 : (i.cross r).norm ≤ 1 := by nlinarith [sq_nonneg (i.dot r)]
  have hsin : Real.sin (Real.arcsin (i.cross r).norm) = (i.cross r).norm :=
    Real.sin_arcsin (by linarith) hn1
  have hcos : Real.cos (Real.arcsin (i.cross r).norm) = i.dot r := by
    rw [Real.cos_arcsin, hn2, show 1 - (1 - (i.dot r) ^ 2) = (i.dot r) ^ 2 by ring, Real.sqrt_sq hir]
  have hT : ∀ (v : V3) (m : M3), M3.vecMul v m.T = m.mulVec v := by
    intro v m; ext <;> simp [M3.vecMul, M3.mulVec, M3.T] <;> ring
  unfold alignRot
  simp only
  rw [hT, c58_rodrigues, hsin, hcos]
  rcases hturn with h0 | hn
  · have hc : allclose (i.cross r) 0 := by rw [h0]; exact ⟨close_self _, close_self _, close_self _⟩
    have hnorm : (i.cross r).norm = 0 := norm_eq_zero.mpr h0
    have h1 : i.dot r = 1 := by
      rw [hnorm] at hn2
      nlinarith
    rw [hnorm, h1]
    -- parallel unit vectors
    have : (i - r).dot (i - r) = 0 := by
      have : (i - r).dot (i - r) = i.dot i + r.dot r - 2 * i.dot r := by
        simp only [V3.dot, sub_x, sub_y, sub_z]; ring
      rw [this, hi, hr, h1]; ring
    have hz : i - r = 0 := by
      apply norm_eq_zero.mp
      unfold V3.norm
      rw [this, Real.sqrt_zero]
    have hx := congrArg V3.x hz
    have hy := congrArg V3.y hz
    have hz' := congrArg V3.z hz
    simp only [sub_x, sub_y, sub_z, zero_x, zero_y, zero_z] at hx hy hz'
    ext <;> simp <;> linarith
  · rw [if_neg hn]
    have hne : i.cross r ≠ 0 := fun h => hn (by rw [h]; exact ⟨close_self _, close_self _, close_self _⟩)
    have hnn : (i.cross r).norm ≠ 0 := fun h => hne (norm_eq_zero.mp h)
    have hw : (unitVector (i.cross r)).dot i = 0 := by
      unfold unitVector
      simp only [V3.dot, smul_x, smul_y, smul_z, cross]
      ring
    have hc : (i.cross r).norm • (unitVector (i.cross r)).cross i = r - (i.dot r) • i := by
      have h3 : (i.cross r).norm • (unitVector (i.cross r)).cross i = (i.cross r).cross i := by
        unfold unitVector
        generalize i.cross r = c at hnn
        ext <;> simp [cross] <;> field_simp
      rw [h3]
      simp only [V3.dot] at hi
      ext <;> simp [cross, V3.dot]
      · linear_combination r.x * hi
      · linear_combination r.y * hi
      · linear_combination r.z * hi
    rw [hw, hc]
    ext <;> simp

theorem alignRot_isRot (i r : V3) : (alignRot i r).IsRot := by
  unfold alignRot
  simp only
  refine (rotationMatrix_isRot _ ?_).T
  split
  · exact ex_ne
  · rename_i h
    intro h0
    exact h (by rw [h0]; exact ⟨close_self _, close_self _, close_self _⟩)

/-- Specification: none of the comparisons with a tolerance, in `align` itself and in the functions
it calls, takes a small turn for none. -/
structure Sharp (i direction : V3) (mu : ℝ) : Prop where
  pole : i = ez ∨ i = -ez ∨ ¬allclose (i.cross ez) 0
  turn : i.cross (alignNormal i direction mu) = 0 ∨ ¬allclose (i.cross (alignNormal i direction mu)) 0
  gimbal : gimbal (alignRot i (alignNormal i direction mu)) Axes.rxyz = 0 ∨
    tfEps < gimbal (alignRot i (alignNormal i direction mu)) Axes.rxyz
  angles : alignAngles i direction mu = 0 ∨ ¬allclose (alignAngles i direction mu) 0

theorem Reachable.unit {t : Transform} (h : Reachable t) :
    t.direction.dot t.direction = 1 ∧ 0 ≤ t.distance := by
  obtain ⟨d, v, a, rfl⟩ := h.is_update
  rw [update_direction, update_distance]
  exact ⟨updDir_unit d v, abs_nonneg d⟩

theorem Reachable.align {t : Transform} (h : Reachable t) (d : V3) (mu : ℝ) :
    Reachable (t.align d mu) := by
  obtain ⟨d0, v, a, o, ops, rfl⟩ := h
  exact ⟨d0, v, a, o, ops ++ [.angles (alignAngles _ d mu)], by rw [List.foldl_append]; rfl⟩

/-- C68: `align` leaves the place and the direction of the element as they are. -/
theorem c68_place {t : Transform} (h : Reachable t) (d : V3) (mu : ℝ) :
    (t.align d mu).direction = t.direction ∧ (t.align d mu).distance = t.distance ∧
    (t.align d mu).offset = t.offset := by
  obtain ⟨h1, h2⟩ := h.unit
  have h3 : updDir t.distance t.direction = t.direction := by
    rw [updDir_of_unit h1, if_neg h2.not_gt]
  have h4 : t.offset = t.distance • t.direction := (c12_invariant h).2.2
  unfold Transform.align
  rw [update_direction, update_distance, update_offset, update_distance, update_direction, h3,
    abs_of_nonneg h2, h4]
  exact ⟨rfl, rfl, rfl⟩

/-- The normal of an aligned element. -/
theorem align_normal {t : Transform} (h : Reachable t) {d : V3} {mu : ℝ}
    (hs : Sharp t.direction d mu) (hN : (alignNormal t.direction d mu).dot (alignNormal t.direction d mu) = 1)
    (hf : 0 ≤ t.direction.dot (alignNormal t.direction d mu)) :
    (t.align d mu).fromNormal ez = alignNormal t.direction d mu := by
  obtain ⟨hdir, -, -⟩ := c68_place h d mu
  have hax : (t.align d mu).fromAxis ez = t.direction := by
    rw [c11_axis_exact (h.align d mu) (by rw [hdir]; exact hs.pole), hdir]
  have hap := alignRot_apply h.unit.1 hN hf hs.turn
  have hang : (t.align d mu).angles = alignAngles t.direction d mu := update_angles _ _ _
  have hinv := c57_euler_inverse (alignRot t.direction (alignNormal t.direction d mu))
    (alignRot_isRot _ _) Axes.rxyz hs.gimbal
  simp only at hinv
  by_cases hn : (t.align d mu).normal
  · rw [(c10_normal_eq_axis (h.align d mu) hn ez).2, hax]
    have hcl : allclose (alignAngles t.direction d mu) 0 := by
      have := update_normal t.distance t.direction (alignAngles t.direction d mu)
      unfold Transform.align at hn
      rwa [this] at hn
    have h0 := hs.angles.resolve_right (not_not.mpr hcl)
    have hx := congrArg V3.x h0
    have hy := congrArg V3.y h0
    have hz := congrArg V3.z h0
    simp only [alignAngles, zero_x, zero_y, zero_z] at hx hy hz
    rw [hx, hy, hz] at hinv
    rw [← hap, ← hinv]
    ext <;> simp [eulerMatrix, M3.vecMul, axisPos, Axes.ijk, Axes.rxyz, nextAxis]
  · rw [c10_normal_angles (h.align d mu) hn, hax, hang, M3.vecMul_vecMul, M3.vecMul_vecMul]
    have hm := c58_euler_meaning (alignAngles t.direction d mu).x (alignAngles t.direction d mu).y
      (alignAngles t.direction d mu).z false 0 1 2 Axes.rxyz (by simp [axesTable, Axes.rxyz])
    rw [if_neg (by simp)] at hm
    have hm' : eulerMatrix (alignAngles t.direction d mu).x (alignAngles t.direction d mu).y
        (alignAngles t.direction d mu).z Axes.rxyz
        = (rotationMatrix (alignAngles t.direction d mu).x ⟨1, 0, 0⟩).mul
          ((rotationMatrix (alignAngles t.direction d mu).y ⟨0, 1, 0⟩).mul
          (rotationMatrix (alignAngles t.direction d mu).z ⟨0, 0, 1⟩)) := hm
    rw [← hm']
    simp only [alignAngles] at hinv ⊢
    rw [hinv, hap]

/-! ## The axis behind an aligned element -/

/-- The local coordinates of the axis: its component along the normal. -/
theorem align_incidence {t : Transform} (h : Reachable t) {d : V3} {mu : ℝ}
    (hN : (t.align d mu).fromNormal ez = alignNormal t.direction d mu) :
    (t.align d mu).incidence.z = t.direction.dot (alignNormal t.direction d mu) := by
  have h1 := (c10_dot (h.align d mu) (t.align d mu).incidence ez).1
  rw [hN] at h1
  unfold incidence at h1 ⊢
  rw [(c10_inverse (h.align d mu) _).1, (c68_place h d mu).1] at h1
  have h2 : ∀ v : V3, v.dot ez = v.z := by intro v; simp [V3.dot, ez]
  rw [h2] at h1
  rw [(c68_place h d mu).1, ← h1]

theorem align_back {t : Transform} (h : Reachable t) {d : V3} {mu : ℝ}
    (hN : (t.align d mu).fromNormal ez = alignNormal t.direction d mu) (a g : ℝ) :
    (t.align d mu).fromNormal (a • (t.align d mu).incidence + g • ez)
      = a • t.direction + g • alignNormal t.direction d mu := by
  have hl : (t.align d mu).fromNormal (a • (t.align d mu).incidence + g • ez)
      = a • (t.align d mu).fromNormal (t.align d mu).incidence + g • (t.align d mu).fromNormal ez := by
    unfold fromNormal
    rw [doRotate_linear, doRotate_smul]
  rw [hl, hN]
  unfold incidence
  rw [(c10_inverse (h.align d mu) _).1, (c68_place h d mu).1]

theorem normalized {r : V3} (h : r.norm ≠ 0) : ((1 / r.norm) • r).dot ((1 / r.norm) • r) = 1 := by
  have h2 := norm_sq r
  have : ((1 / r.norm) • r).dot ((1 / r.norm) • r) = 1 / r.norm ^ 2 * r.dot r := by
    simp only [V3.dot, smul_x, smul_y, smul_z]; field_simp
  rw [this, ← h2]
  field_simp

theorem norm_ne_of_far {r : V3} (h : ¬allclose r 0) : r.norm ≠ 0 := fun h0 =>
  h (by rw [norm_eq_zero.mp h0]; exact ⟨close_self _, close_self _, close_self _⟩)

theorem allclose_neg {r : V3} : allclose (-r) 0 ↔ allclose r 0 := by
  simp [allclose, close]

/-- The length of the normal before normalization. -/
theorem snell_norm {i d : V3} (hi : i.dot i = 1) (hd : d.dot d = 1) (mu : ℝ) :
    (mu • i - d).norm ^ 2 = 1 + mu ^ 2 - 2 * mu * i.dot d := by
  rw [norm_sq]
  have : (mu • i - d).dot (mu • i - d) = mu ^ 2 * i.dot i + d.dot d - 2 * mu * i.dot d := by
    simp only [V3.dot, sub_x, sub_y, sub_z, smul_x, smul_y, smul_z]; ring
  rw [this, hi, hd]; ring

theorem neg_norm (v : V3) : (-v).norm = v.norm := by
  unfold V3.norm
  congr 1
  simp only [V3.dot, neg_x, neg_y, neg_z]; ring

theorem alignNormal_far {i d r : V3} {mu : ℝ}
    (hr : (if mu < 1 then -(mu • i - d) else mu • i - d) = r) (hf : ¬allclose r 0) :
    alignNormal i d mu = (1 / r.norm) • r := by
  unfold alignNormal
  dsimp only
  rw [hr, if_neg hf]

/-- Specification: Snell's law can turn `i` into `d`: entering the denser side the turn is at most
that of grazing incidence, leaving it at most that of grazing emergence. -/
def Attainable (i d : V3) (mu : ℝ) : Prop :=
  (mu < 1 → mu ≤ i.dot d) ∧ (1 < mu → 1 ≤ mu * i.dot d)

theorem align_refracts {t : Transform} (h : Reachable t) {d : V3} {mu : ℝ} (hmu : 0 < mu) (h1 : mu ≠ 1)
    (hd : d.dot d = 1) (ha : Attainable t.direction d mu) (hfar : ¬allclose (mu • t.direction - d) 0)
    (hs : Sharp t.direction d mu) :
    (t.align d mu).fromNormal ez = alignNormal t.direction d mu ∧
    ∃ e, (t.align d mu).excidence mu = some e ∧ (t.align d mu).fromNormal e = d ∧
      refractAt ez ((t.align d mu).toNormal t.direction) mu = some e ∧
      (t.align d mu).direction = t.direction ∧ (t.align d mu).distance = t.distance := by
  have hi := h.unit.1
  have hr := norm_ne_of_far hfar
  have hr0 : 0 < (mu • t.direction - d).norm := lt_of_le_of_ne (V3.norm_nonneg _) hr.symm
  have hr2 := snell_norm hi hd mu
  have hNeq : alignNormal t.direction d mu = (if mu < 1 then (-1 : ℝ) else 1) •
      ((1 / (mu • t.direction - d).norm) • (mu • t.direction - d)) := by
    by_cases hlt : mu < 1
    · rw [alignNormal_far (if_pos hlt) (fun hc => hfar (allclose_neg.mp hc)), neg_norm, if_pos hlt]
      ext <;> simp <;> ring
    · rw [alignNormal_far (if_neg hlt) hfar, if_neg hlt]
      ext <;> simp
  have hNN : (alignNormal t.direction d mu).dot (alignNormal t.direction d mu) = 1 := by
    have h2 := normalized hr
    rw [hNeq]
    generalize (1 / (mu • t.direction - d).norm) • (mu • t.direction - d) = q at h2
    have : ∀ s : ℝ, (s • q).dot (s • q) = s ^ 2 * q.dot q := by
      intro s; simp only [V3.dot, smul_x, smul_y, smul_z]; ring
    rw [this, h2]
    split <;> norm_num
  have hiN : t.direction.dot (alignNormal t.direction d mu)
      = (if mu < 1 then (-1 : ℝ) else 1) * ((mu - t.direction.dot d) / (mu • t.direction - d).norm) := by
    rw [hNeq]
    generalize (mu • t.direction - d).norm = w at hr
    have : t.direction.dot ((if mu < 1 then (-1 : ℝ) else 1) • ((1 / w) • (mu • t.direction - d)))
        = (if mu < 1 then (-1 : ℝ) else 1) * ((mu * t.direction.dot t.direction - t.direction.dot d) / w) := by
      generalize (if mu < 1 then (-1 : ℝ) else 1) = s
      simp only [V3.dot, smul_x, smul_y, smul_z, sub_x, sub_y, sub_z]
      field_simp
      ring
    rw [this, hi, mul_one]
  have hc1 : t.direction.dot d ≤ 1 := by
    have h3 : 0 ≤ (t.direction - d).dot (t.direction - d) := by
      rw [← norm_sq]; positivity
    have h4 : (t.direction - d).dot (t.direction - d)
        = t.direction.dot t.direction + d.dot d - 2 * t.direction.dot d := by
      simp only [V3.dot, sub_x, sub_y, sub_z]; ring
    rw [h4, hi, hd] at h3
    linarith
  have hf : 0 ≤ t.direction.dot (alignNormal t.direction d mu) := by
    rw [hiN]
    split
    · rename_i hlt
      have := ha.1 hlt
      rw [neg_one_mul, ← neg_div]
      exact div_nonneg (by linarith) hr0.le
    · rename_i hge
      rw [one_mul]
      exact div_nonneg (by linarith) hr0.le
  have hN := align_normal h hs hNN hf
  have hz := align_incidence h hN
  obtain ⟨p1, p2, -⟩ := c68_place h d mu
  -- the square root of the refraction
  have hroot : (mu * (t.align d mu).incidence.z) ^ 2 - mu ^ 2 + 1
      = (mu * (t.align d mu).incidence.z + (if mu < 1 then 1 else -1) * (mu • t.direction - d).norm) ^ 2
      := by
    rw [hz, hiN]
    generalize (mu • t.direction - d).norm = w at hr hr2
    split <;> field_simp <;> linear_combination (-w ^ 2) * hr2
  have hrpos : 0 ≤ mu * (t.align d mu).incidence.z
      + (if mu < 1 then 1 else -1) * (mu • t.direction - d).norm := by
    split
    · rw [hz]; positivity
    · rename_i hge
      have h2 := ha.2 (lt_of_le_of_ne (not_lt.mp hge) h1.symm)
      rw [hz, hiN, if_neg hge]
      generalize (mu • t.direction - d).norm = w at hr hr0 hr2
      have : mu * (1 * ((mu - t.direction.dot d) / w)) + -1 * w
          = (mu * t.direction.dot d - 1) / w := by
        field_simp
        linear_combination -hr2
      rw [this]
      exact div_nonneg (by linarith) hr0.le
  have hex : (t.align d mu).excidence mu = some (mu • (t.align d mu).incidence +
      ((if mu < 1 then 1 else -1) * (mu • t.direction - d).norm) • ez) := by
    unfold excidence
    simp only
    rw [if_neg h1, abs_of_pos hmu, sign_pos hmu, hroot, if_neg (not_lt.mpr (sq_nonneg _)),
      Real.sqrt_sq hrpos]
    congr 3
    simp
  refine ⟨hN, _, hex, ?_, ?_, p1, p2⟩
  · rw [align_back h hN, hNeq]
    generalize (mu • t.direction - d).norm = w at hr
    split <;> ext <;> simp <;> field_simp <;> ring
  · have := c68_excidence_refract (t.align d mu) mu (.inl (by linarith))
    rw [hex] at this
    unfold incidence at this ⊢
    rw [p1] at this ⊢
    exact this.symm

/-- C68: after `align(direction, mu)` the optical axis, refracted at the vertex, leaves along
`direction`; place and direction of the element are kept. -/
theorem c68_align {t : Transform} (h : Reachable t) {d : V3} {mu : ℝ} (hmu : 0 < mu) (h1 : mu ≠ 1)
    (hd : d.dot d = 1) (ha : Attainable t.direction d mu) (hfar : ¬allclose (mu • t.direction - d) 0)
    (hs : Sharp t.direction d mu) :
    ∃ e, (t.align d mu).excidence mu = some e ∧ (t.align d mu).fromNormal e = d ∧
      refractAt ez ((t.align d mu).toNormal t.direction) mu = some e ∧
      (t.align d mu).direction = t.direction ∧ (t.align d mu).distance = t.distance :=
  (align_refracts h hmu h1 hd ha hfar hs).2

/-- The normal of a mirror, for both ways of calling `align`. -/
theorem bisector {i d : V3} (hi : i.dot i = 1) (hd : d.dot d = 1) {mu : ℝ} (hm : mu = 1 ∨ mu = -1)
    (hfar : ¬allclose (i - mu • d) 0) :
    alignNormal i d mu = (1 / (i - mu • d).norm) • (i - mu • d) ∧
    (alignNormal i d mu).dot (alignNormal i d mu) = 1 ∧ 0 ≤ i.dot (alignNormal i d mu) ∧
    i - (2 * i.dot (alignNormal i d mu)) • alignNormal i d mu = mu • d := by
  have hr := norm_ne_of_far hfar
  have hr0 : 0 < (i - mu • d).norm := lt_of_le_of_ne (V3.norm_nonneg _) hr.symm
  have hmu2 : mu ^ 2 = 1 := by rcases hm with rfl | rfl <;> norm_num
  have hr2 : (i - mu • d).norm ^ 2 = 2 * (1 - mu * i.dot d) := by
    rw [norm_sq]
    have : (i - mu • d).dot (i - mu • d) = i.dot i + mu ^ 2 * d.dot d - 2 * mu * i.dot d := by
      simp only [V3.dot, sub_x, sub_y, sub_z, smul_x, smul_y, smul_z]; ring
    rw [this, hi, hd, hmu2]; ring
  have hNeq : alignNormal i d mu = (1 / (i - mu • d).norm) • (i - mu • d) := by
    rcases hm with rfl | rfl
    · refine alignNormal_far ?_ hfar
      rw [if_neg (lt_irrefl _)]
      ext <;> simp
    · refine alignNormal_far ?_ hfar
      rw [if_pos (by norm_num)]
      ext <;> simp <;> ring
  have hiN : i.dot (alignNormal i d mu) = (i - mu • d).norm / 2 := by
    rw [hNeq]
    have : ∀ w : ℝ, i.dot ((1 / w) • (i - mu • d)) = (i.dot i - mu * i.dot d) / w := by
      intro w
      simp only [V3.dot, smul_x, smul_y, smul_z, sub_x, sub_y, sub_z]
      ring
    rw [this, hi]
    generalize (i - mu • d).norm = w at hr hr2
    field_simp
    linear_combination -hr2
  refine ⟨hNeq, by rw [hNeq]; exact normalized hr, by rw [hiN]; positivity, ?_⟩
  rw [hiN, hNeq]
  generalize (i - mu • d).norm = w at hr
  ext <;> simp <;> field_simp <;> ring

theorem align_reflects {t : Transform} (h : Reachable t) {d : V3} (hd : d.dot d = 1)
    (hfar : ¬allclose (t.direction - d) 0) (hs : Sharp t.direction d 1) :
    (t.align d 1).fromNormal ez = alignNormal t.direction d 1 ∧
    ∃ e, refractAt ez ((t.align d 1).toNormal t.direction) (-1) = some e ∧
      (t.align d 1).fromNormal e = d ∧
      (t.align d 1).direction = t.direction ∧ (t.align d 1).distance = t.distance := by
  have hfar' : ¬allclose (t.direction - (1 : ℝ) • d) 0 := by
    rwa [show t.direction - (1 : ℝ) • d = t.direction - d by ext <;> simp]
  obtain ⟨-, hNN, hf, href⟩ := bisector h.unit.1 hd (.inl rfl) hfar'
  have hN := align_normal h hs hNN hf
  have hz := align_incidence h hN
  obtain ⟨p1, p2, -⟩ := c68_place h d 1
  refine ⟨hN, (1 : ℝ) • (t.align d 1).incidence +
    (-(2 * t.direction.dot (alignNormal t.direction d 1))) • ez, ?_, ?_, p1, p2⟩
  · unfold refractAt
    rw [if_neg (by norm_num)]
    simp only
    rw [ez_dot, if_neg one_ne_zero, if_pos trivial, ← hz]
    unfold incidence
    rw [p1]
    congr 1
    ext <;> simp [V3.dot, ez]
    ring
  · rw [align_back h hN]
    have hx := congrArg V3.x href
    have hy := congrArg V3.y href
    have hz' := congrArg V3.z href
    simp only [sub_x, sub_y, sub_z, smul_x, smul_y, smul_z] at hx hy hz'
    ext <;> simp <;> linarith

/-- C68: `System.align` turns a mirror, for which the indices before and behind are equal, so that the
reflected axis leaves along `direction`. -/
theorem c68_mirror {t : Transform} (h : Reachable t) {d : V3} (hd : d.dot d = 1)
    (hfar : ¬allclose (t.direction - d) 0) (hs : Sharp t.direction d 1) :
    ∃ e, refractAt ez ((t.align d 1).toNormal t.direction) (-1) = some e ∧
      (t.align d 1).fromNormal e = d ∧
      (t.align d 1).direction = t.direction ∧ (t.align d 1).distance = t.distance :=
  (align_reflects h hd hfar hs).2

/-- C68 is violated when `align` is given the ratio `mu = -1` by which `Interface.get_n_mu` marks a
mirror, and which `excidence` understands: the axis leaves exactly opposite to `direction`. -/
theorem c68_mirror_violation {t : Transform} (h : Reachable t) {d : V3} (hd : d.dot d = 1)
    (hfar : ¬allclose (t.direction + d) 0) (hs : Sharp t.direction d (-1)) :
    ∃ e, (t.align d (-1)).excidence (-1) = some e ∧ (t.align d (-1)).fromNormal e = -d ∧ -d ≠ d := by
  have hfar' : ¬allclose (t.direction - (-1 : ℝ) • d) 0 := by
    rwa [show t.direction - (-1 : ℝ) • d = t.direction + d by ext <;> simp]
  obtain ⟨-, hNN, hf, href⟩ := bisector h.unit.1 hd (.inr rfl) hfar'
  have hN := align_normal h hs hNN hf
  have hz := align_incidence h hN
  refine ⟨(1 : ℝ) • (t.align d (-1)).incidence +
    (-(2 * t.direction.dot (alignNormal t.direction d (-1)))) • ez, ?_, ?_, ?_⟩
  · rw [c68_excidence_refract _ _ (.inr (by rw [hz]; exact hf))]
    unfold refractAt
    rw [if_neg (by norm_num)]
    simp only
    rw [ez_dot, if_neg one_ne_zero, if_pos trivial, ← hz]
    congr 1
    ext <;> simp [V3.dot, ez]
    ring
  · rw [align_back h hN]
    have hx := congrArg V3.x href
    have hy := congrArg V3.y href
    have hz' := congrArg V3.z href
    simp only [sub_x, sub_y, sub_z, smul_x, smul_y, smul_z] at hx hy hz'
    ext <;> simp <;> linarith
  · intro h0
    have hx := congrArg V3.x h0
    have hy := congrArg V3.y h0
    have hz' := congrArg V3.z h0
    simp only [neg_x, neg_y, neg_z] at hx hy hz'
    have hx : d.x = 0 := by linarith
    have hy : d.y = 0 := by linarith
    have hz' : d.z = 0 := by linarith
    simp [V3.dot, hx, hy, hz'] at hd

/-- C68 is violated at an element that does not bend the axis, such as the object, when the next
direction differs from its own: its plane is turned to contain the mean of both directions, so that
both see it under the same grazing angle. -/
theorem c68_object_violation {t : Transform} (h : Reachable t) {d : V3} (hd : d.dot d = 1)
    (hfar : ¬allclose (t.direction - d) 0) (hs : Sharp t.direction d 1) :
    ((t.align d 1).fromNormal ez).dot (t.direction + d) = 0 ∧
    (t.align d 1).excidence 1 = some (t.align d 1).incidence ∧
    (t.align d 1).fromNormal (t.align d 1).incidence = t.direction := by
  have hfar' : ¬allclose (t.direction - (1 : ℝ) • d) 0 := by
    rwa [show t.direction - (1 : ℝ) • d = t.direction - d by ext <;> simp]
  obtain ⟨hNeq, hNN, hf, -⟩ := bisector h.unit.1 hd (.inl rfl) hfar'
  have hN := align_normal h hs hNN hf
  refine ⟨?_, by simp [excidence], ?_⟩
  · rw [hN, hNeq]
    have hi := h.unit.1
    simp only [V3.dot] at hi hd
    simp only [V3.dot, smul_x, smul_y, smul_z, sub_x, sub_y, sub_z, add_x, add_y, add_z]
    generalize (t.direction - (1 : ℝ) • d).norm = w
    linear_combination 1 / w * hi - 1 / w * hd
  · unfold incidence
    rw [(c10_inverse (h.align d 1) _).1, (c68_place h d 1).1]

/-- C68: what cannot be attained is out of reach of every surface, whatever its normal. -/
theorem c68_attainable {i r d : V3} {mu : ℝ} (hmu : 0 < mu) (h1 : mu ≠ 1) (hi : i.dot i = 1)
    (hr : r.dot r = 1) (hf : 0 ≤ i.dot r) (h : refractAt r i mu = some d) : Attainable i d mu := by
  unfold refractAt at h
  rw [if_neg h1] at h
  simp only at h
  rw [hr, if_neg one_ne_zero, if_neg (by linarith), abs_of_pos hmu, sign_pos hmu] at h
  split at h
  · cases h
  rename_i hneg
  cases h
  have hs := Real.sq_sqrt (not_lt.mp hneg)
  have hs0 := Real.sqrt_nonneg ((mu * i.dot r / 1) ^ 2 - (mu ^ 2 - 1) / 1)
  generalize √((mu * i.dot r / 1) ^ 2 - (mu ^ 2 - 1) / 1) = w at hs hs0
  have hdot : ∀ g : ℝ, i.dot (mu • i + g • r) = mu * i.dot i + g * i.dot r := by
    intro g
    simp only [V3.dot, add_x, add_y, add_z, smul_x, smul_y, smul_z]; ring
  have ha : 0 ≤ mu * i.dot r := by positivity
  constructor
  · intro hlt
    rw [hdot, hi]
    have : mu * i.dot r ≤ w := by nlinarith
    have h2 : 0 ≤ (w - mu * i.dot r) * i.dot r := mul_nonneg (by linarith) hf
    simp
    nlinarith
  · intro hgt
    rw [hdot, hi]
    have : w ≤ mu * i.dot r := by nlinarith
    have h2 : 0 ≤ w * (mu * i.dot r - w) := mul_nonneg hs0 (by linarith)
    simp
    nlinarith

/-! ## Instances -/

theorem far_x {v : V3} (h : 1 / 1000 < |v.x|) : ¬allclose v 0 := by
  intro hc
  have := hc.1
  simp only [close, zero_x, sub_zero, abs_zero] at this
  norm_num at this
  linarith

theorem far_y {v : V3} (h : 1 / 1000 < |v.y|) : ¬allclose v 0 := by
  intro hc
  have := hc.2.1
  simp only [close, zero_y, sub_zero, abs_zero] at this
  norm_num at this
  linarith

/-- A turn about the local x axis is sharp. -/
theorem sharp_yz {d : V3} {mu s c : ℝ} (hN : alignNormal ez d mu = ⟨0, s, c⟩) (hsc : s ^ 2 + c ^ 2 = 1)
    (hc : 0 ≤ c) (hs : 1 / 1000 < |s|) : Sharp ez d mu := by
  have hs0 : |s| ≠ 0 := by intro h; rw [h] at hs; norm_num at hs
  have hcr : ez.cross ⟨0, s, c⟩ = ⟨-s, 0, 0⟩ := by ext <;> simp [cross, ez]
  have hnorm : (⟨-s, 0, 0⟩ : V3).norm = |s| := by
    unfold V3.norm
    rw [show (⟨-s, 0, 0⟩ : V3).dot ⟨-s, 0, 0⟩ = s ^ 2 by simp [V3.dot]; ring, Real.sqrt_sq_eq_abs]
  have hfar : ¬allclose (⟨-s, 0, 0⟩ : V3) 0 := far_x (by rw [abs_neg]; exact hs)
  have habs : |s| ≤ 1 := by
    rw [← Real.sqrt_sq_eq_abs]
    exact Real.sqrt_le_one.mpr (by nlinarith)
  have hsin : Real.sin (Real.arcsin |s|) = |s| := Real.sin_arcsin (by linarith [abs_nonneg s]) habs
  have hcos : Real.cos (Real.arcsin |s|) = c := by
    rw [Real.cos_arcsin, sq_abs, show 1 - s ^ 2 = c ^ 2 by linarith, Real.sqrt_sq hc]
  have hrot : alignRot ez ⟨0, s, c⟩ = ⟨1, 0, 0, 0, c, -s, 0, s, c⟩ := by
    unfold alignRot
    dsimp only
    rw [hcr, if_neg hfar, hnorm]
    unfold rotationMatrix
    simp only [hsin, hcos]
    have hu : unitVector (⟨-s, 0, 0⟩ : V3) = ⟨-s / |s|, 0, 0⟩ := by
      unfold unitVector
      rw [hnorm]
      ext <;> simp
      ring
    rw [hu]
    have h1 : -s / |s| * (-s / |s|) = 1 := by
      have := sq_abs s
      field_simp
      linarith
    have h2 : |s| * (-s / |s|) = -s := by field_simp
    simp only [h1, h2, M3.T]
    ext <;> simp
  have hg : gimbal (⟨1, 0, 0, 0, c, -s, 0, s, c⟩ : M3) Axes.rxyz = 1 := by
    unfold gimbal
    simp only [Axes.rxyz, Axes.ijk, nextAxis, M3.get4]
    simp
    linarith
  refine ⟨.inl rfl, ?_, ?_, ?_⟩
  · rw [hN, hcr]; exact .inr hfar
  · rw [hN, hrot, hg]
    right
    unfold tfEps
    norm_num
  · right
    intro hcl
    have hinv := c57_euler_inverse (alignRot ez (alignNormal ez d mu)) (alignRot_isRot _ _) Axes.rxyz
      (by rw [hN, hrot, hg]; right; unfold tfEps; norm_num)
    simp only at hinv
    have hx := hcl.1
    simp only [close, zero_x, sub_zero, abs_zero, alignAngles] at hx
    generalize eulerFromMatrix (alignRot ez (alignNormal ez d mu)) Axes.rxyz = a at hinv hx
    rw [hN, hrot] at hinv
    have he := congrArg M3.a12 hinv
    simp [eulerMatrix, axisPos, Axes.ijk, Axes.rxyz, nextAxis] at he
    have h1 : |s| ≤ |a.1| := by
      rw [← he, abs_mul]
      calc |Real.cos a.2.1| * |Real.sin a.1| ≤ 1 * |a.1| :=
            mul_le_mul (Real.abs_cos_le_one _) Real.abs_sin_le_abs (abs_nonneg _) zero_le_one
        _ = |a.1| := one_mul _
    norm_num at hx
    linarith

/-- An element ten units behind the last along the z axis. -/
noncomputable def exAhead : Transform := update 10 ez 0

theorem exAhead_reachable : Reachable exAhead := ⟨10, ez, 0, none, [], rfl⟩

theorem exAhead_direction : exAhead.direction = ez := by
  unfold exAhead
  rw [update_direction, updDir_of_unit ez_dot, if_neg (by norm_num)]

/-- A surface that bends the axis from `ez` to `(0, 3/5, 4/5)`. -/
theorem exBend_normal : alignNormal ez ⟨0, 3 / 5, 4 / 5⟩ (11 / 20) = ⟨0, 12 / 13, 5 / 13⟩ := by
  have hr : (if (11 / 20 : ℝ) < 1 then -((11 / 20 : ℝ) • ez - ⟨0, 3 / 5, 4 / 5⟩)
      else (11 / 20 : ℝ) • ez - ⟨0, 3 / 5, 4 / 5⟩) = (⟨0, 3 / 5, 1 / 4⟩ : V3) := by
    rw [if_pos (by norm_num)]
    ext <;> simp [ez]
    norm_num
  rw [alignNormal_far hr (far_y (by norm_num))]
  have hn : (⟨0, 3 / 5, 1 / 4⟩ : V3).norm = 13 / 20 := by
    unfold V3.norm
    rw [show (⟨0, 3 / 5, 1 / 4⟩ : V3).dot ⟨0, 3 / 5, 1 / 4⟩ = (13 / 20) ^ 2 by simp [V3.dot]; norm_num,
      Real.sqrt_sq (by norm_num)]
  rw [hn]
  ext <;> simp <;> norm_num

theorem exMirror_normal :
    alignNormal ez ⟨0, 24 / 25, -7 / 25⟩ 1 = ⟨0, -3 / 5, 4 / 5⟩ := by
  have hr : (if (1 : ℝ) < 1 then -((1 : ℝ) • ez - ⟨0, 24 / 25, -7 / 25⟩)
      else (1 : ℝ) • ez - ⟨0, 24 / 25, -7 / 25⟩) = (⟨0, -24 / 25, 32 / 25⟩ : V3) := by
    rw [if_neg (by norm_num)]
    ext <;> simp [ez] <;> norm_num
  rw [alignNormal_far hr (far_y (by norm_num))]
  have hn : (⟨0, -24 / 25, 32 / 25⟩ : V3).norm = 8 / 5 := by
    unfold V3.norm
    rw [show (⟨0, -24 / 25, 32 / 25⟩ : V3).dot ⟨0, -24 / 25, 32 / 25⟩ = (8 / 5) ^ 2 by
      simp [V3.dot]; norm_num, Real.sqrt_sq (by norm_num)]
  rw [hn]
  ext <;> simp <;> norm_num

theorem exMirror_normal' :
    alignNormal ez ⟨0, 24 / 25, -7 / 25⟩ (-1) = ⟨0, 4 / 5, 3 / 5⟩ := by
  have hr : (if (-1 : ℝ) < 1 then -((-1 : ℝ) • ez - ⟨0, 24 / 25, -7 / 25⟩)
      else (-1 : ℝ) • ez - ⟨0, 24 / 25, -7 / 25⟩) = (⟨0, 24 / 25, 18 / 25⟩ : V3) := by
    rw [if_pos (by norm_num)]
    ext <;> simp [ez]
    norm_num
  rw [alignNormal_far hr (far_y (by norm_num))]
  have hn : (⟨0, 24 / 25, 18 / 25⟩ : V3).norm = 6 / 5 := by
    unfold V3.norm
    rw [show (⟨0, 24 / 25, 18 / 25⟩ : V3).dot ⟨0, 24 / 25, 18 / 25⟩ = (6 / 5) ^ 2 by
      simp [V3.dot]; norm_num, Real.sqrt_sq (by norm_num)]
  rw [hn]
  ext <;> simp <;> norm_num

example : ∃ e, (exAhead.align ⟨0, 3 / 5, 4 / 5⟩ (11 / 20)).excidence (11 / 20) = some e ∧
    (exAhead.align ⟨0, 3 / 5, 4 / 5⟩ (11 / 20)).fromNormal e = ⟨0, 3 / 5, 4 / 5⟩ := by
  obtain ⟨e, h1, h2, -⟩ := c68_align exAhead_reachable (d := ⟨0, 3 / 5, 4 / 5⟩) (mu := 11 / 20)
    (by norm_num) (by norm_num) (by simp [V3.dot]; norm_num)
    (by rw [exAhead_direction]; constructor <;> intro h <;> simp [V3.dot, ez] <;> norm_num at *)
    (by rw [exAhead_direction]; exact far_y (by norm_num [ez]))
    (by rw [exAhead_direction]
        exact sharp_yz exBend_normal (by norm_num) (by norm_num) (by norm_num))
  exact ⟨e, h1, h2⟩

example : ∃ e, (exAhead.align ⟨0, 3 / 5, 4 / 5⟩ (11 / 20)).excidence (11 / 20) = some e ∧
    e.dot e = 1 ∧ 0 ≤ e.z := by
  obtain ⟨e, h1, -⟩ := c68_align exAhead_reachable (d := ⟨0, 3 / 5, 4 / 5⟩) (mu := 11 / 20)
    (by norm_num) (by norm_num) (by simp [V3.dot]; norm_num)
    (by rw [exAhead_direction]; constructor <;> intro h <;> simp [V3.dot, ez] <;> norm_num at *)
    (by rw [exAhead_direction]; exact far_y (by norm_num [ez]))
    (by rw [exAhead_direction]
        exact sharp_yz exBend_normal (by norm_num) (by norm_num) (by norm_num))
  have := c68_excidence_snell (exAhead_reachable.align _ _) (by norm_num) h1 (by norm_num)
  exact ⟨e, h1, this.1, this.2.2⟩

example : ∃ e, refractAt ez ((exAhead.align ⟨0, 24 / 25, -7 / 25⟩ 1).toNormal exAhead.direction) (-1)
      = some e ∧ (exAhead.align ⟨0, 24 / 25, -7 / 25⟩ 1).fromNormal e = ⟨0, 24 / 25, -7 / 25⟩ := by
  obtain ⟨e, h1, h2, -⟩ := c68_mirror exAhead_reachable (d := ⟨0, 24 / 25, -7 / 25⟩)
    (by simp [V3.dot]; norm_num)
    (by rw [exAhead_direction]; exact far_y (by norm_num [ez]))
    (by rw [exAhead_direction]
        exact sharp_yz exMirror_normal (by norm_num) (by norm_num) (by norm_num))
  exact ⟨e, h1, h2⟩

example : ∃ e, (exAhead.align ⟨0, 24 / 25, -7 / 25⟩ (-1)).excidence (-1) = some e ∧
    (exAhead.align ⟨0, 24 / 25, -7 / 25⟩ (-1)).fromNormal e ≠ ⟨0, 24 / 25, -7 / 25⟩ := by
  obtain ⟨e, h1, h2, h3⟩ := c68_mirror_violation exAhead_reachable (d := ⟨0, 24 / 25, -7 / 25⟩)
    (by simp [V3.dot]; norm_num)
    (by rw [exAhead_direction]; exact far_y (by norm_num [ez]))
    (by rw [exAhead_direction]
        exact sharp_yz exMirror_normal' (by norm_num) (by norm_num) (by norm_num))
  exact ⟨e, h1, by rw [h2]; exact h3⟩

example : ((exAhead.align ⟨0, 24 / 25, -7 / 25⟩ 1).fromNormal ez).dot
    (exAhead.direction + ⟨0, 24 / 25, -7 / 25⟩) = 0 :=
  (c68_object_violation exAhead_reachable (by simp [V3.dot]; norm_num)
    (by rw [exAhead_direction]; exact far_y (by norm_num [ez]))
    (by rw [exAhead_direction]
        exact sharp_yz exMirror_normal (by norm_num) (by norm_num) (by norm_num))).1

/-- From glass of index 1.5 into air, the normal tilted so that the sine of the angle goes from
`2/5` to `3/5`. -/
example : Attainable ⟨0, 2 / 5, √21 / 5⟩ ⟨0, 3 / 5, 4 / 5⟩ (3 / 2) := by
  refine c68_attainable (r := ez) (by norm_num) (by norm_num) ?_ ez_dot ?_ ?_
  · simp [V3.dot]; ring_nf; rw [Real.sq_sqrt (by norm_num)]; norm_num
  · simp [V3.dot, ez]; positivity
  · unfold refractAt
    rw [if_neg (by norm_num)]
    simp only
    have hd : (⟨0, 2 / 5, √21 / 5⟩ : V3).dot ez = √21 / 5 := by simp [V3.dot, ez]
    rw [ez_dot, if_neg one_ne_zero, if_neg (by norm_num), hd, abs_of_pos (by norm_num),
      sign_pos (by norm_num)]
    have h2 : (3 / 2 * (√21 / 5) / 1) ^ 2 - ((3 / 2 : ℝ) ^ 2 - 1) / 1 = (4 / 5) ^ 2 := by
      ring_nf; rw [Real.sq_sqrt (by norm_num)]; norm_num
    rw [h2, if_neg (by norm_num), Real.sqrt_sq (by norm_num)]
    congr 1
    ext <;> simp [ez]
    ring

end RayOpt
