import Verif.Model.Elements

/-! Helper lemmas about 3-vectors and refraction. -/

namespace RayOpt

namespace V3

theorem dot_comm (a b : V3) : a.dot b = b.dot a := by simp only [dot]; ring

theorem lagrange (a r : V3) :
    a.dot a * r.dot r = (a.dot r) ^ 2 + (a.cross r).dot (a.cross r) := by
  simp only [dot, cross]; ring

theorem dot_self_nonneg (a : V3) : 0 ≤ a.dot a := by
  simp only [dot]; nlinarith [mul_self_nonneg a.x, mul_self_nonneg a.y, mul_self_nonneg a.z]

theorem dot_self_eq_zero {a : V3} : a.dot a = 0 ↔ a = 0 := by
  constructor
  · intro h
    simp only [dot] at h
    have hx := mul_self_nonneg a.x
    have hy := mul_self_nonneg a.y
    have hz := mul_self_nonneg a.z
    ext
    · exact mul_self_eq_zero.mp (by linarith)
    · exact mul_self_eq_zero.mp (by linarith)
    · exact mul_self_eq_zero.mp (by linarith)
  · rintro rfl; simp [dot]

theorem dot_self_pos {a : V3} (h : a ≠ 0) : 0 < a.dot a :=
  lt_of_le_of_ne (dot_self_nonneg a) fun h0 => h (dot_self_eq_zero.mp h0.symm)

/-- Reconstruction of a vector from its normal and tangential parts. -/
theorem decompose (v r : V3) :
    r.dot r • v = (v.dot r) • r + r.cross (v.cross r) := by
  ext <;> simp [dot, cross] <;> ring

theorem eq_of_dot_cross {v w r : V3} (hr : r ≠ 0) (hc : v.cross r = w.cross r)
    (hd : v.dot r = w.dot r) : v = w := by
  have h1 := decompose v r
  have h2 := decompose w r
  rw [hc, hd, ← h2] at h1
  have hp := (dot_self_pos hr).ne'
  have hx := congrArg V3.x h1
  have hy := congrArg V3.y h1
  have hz := congrArg V3.z h1
  simp only [smul_x, smul_y, smul_z] at hx hy hz
  ext
  · exact mul_left_cancel₀ hp hx
  · exact mul_left_cancel₀ hp hy
  · exact mul_left_cancel₀ hp hz

theorem norm_sq (a : V3) : a.norm ^ 2 = a.dot a := Real.sq_sqrt (dot_self_nonneg a)

theorem norm_nonneg (a : V3) : 0 ≤ a.norm := Real.sqrt_nonneg _

theorem norm_eq_zero {a : V3} : a.norm = 0 ↔ a = 0 := by
  rw [← dot_self_eq_zero, ← norm_sq]; simp

theorem norm_eq_one {a : V3} (h : a.dot a = 1) : a.norm = 1 := by simp [norm, h]

theorem dot_self_of_norm {a : V3} (h : a.norm = 1) : a.dot a = 1 := by rw [← norm_sq, h]; norm_num

theorem dot_smul_smul (s : ℝ) (a : V3) : (s • a).dot (s • a) = s ^ 2 * a.dot a := by
  simp [dot]; ring

theorem norm_smul (s : ℝ) (a : V3) : (s • a).norm = |s| * a.norm := by
  rw [norm, dot_smul_smul, Real.sqrt_mul (sq_nonneg s), Real.sqrt_sq_eq_abs, norm]

end V3

open V3

theorem sign_sq_of_ne {mu : ℝ} (h : mu ≠ 0) : ((SignType.sign mu : SignType) : ℝ) ^ 2 = 1 := by
  rcases lt_or_gt_of_ne h with h | h
  · simp [sign_neg h]
  · simp [sign_pos h]

/-- Normal component of a refracted ray. -/
theorem refractAt_generic {r u0 u : V3} {mu : ℝ} (h1 : mu ≠ 1) (h2 : mu ≠ -1) :
    refractAt r u0 mu = some u ↔
      r.dot r ≠ 0 ∧ 0 ≤ (|mu| * u0.dot r / r.dot r) ^ 2 - (mu ^ 2 - 1) / r.dot r ∧
      u = |mu| • u0 + (-(|mu| * u0.dot r / r.dot r) + SignType.sign mu *
        Real.sqrt ((|mu| * u0.dot r / r.dot r) ^ 2 - (mu ^ 2 - 1) / r.dot r)) • r := by
  unfold refractAt
  simp only [h1, h2, if_false]
  by_cases hr : r.dot r = 0
  · simp [hr]
  · simp only [hr, if_false]
    by_cases hd : (|mu| * u0.dot r / r.dot r) ^ 2 - (mu ^ 2 - 1) / r.dot r < 0
    · simp [hd, not_le.mpr hd]
    · simp only [hd, if_false]
      constructor
      · intro h; exact ⟨hr, not_lt.mp hd, (Option.some.inj h).symm⟩
      · rintro ⟨_, _, h⟩; rw [h]

end RayOpt
