import Verif.Model.Decompose
import Verif.Props.Homog
import Verif.Props.Euler

/-!
C96: taking a homogeneous matrix apart and putting it together again (rayopt/transformations.py 722-857).
-/

namespace RayOpt

open V3

namespace H4

theorem split_norm {v : V3} (h : v ≠ 0) :
    0 < v.norm ∧ ((1 / v.norm) • v).dot ((1 / v.norm) • v) = 1 ∧ v = v.norm • ((1 / v.norm) • v) := by
  have h0 : 0 < v.norm := by
    rcases (Real.sqrt_nonneg (v.dot v)).lt_or_eq with h' | h'
    · exact h'
    · exact absurd (V3.norm_eq_zero.mp h'.symm) h
  refine ⟨h0, ?_, ?_⟩
  · have := V3.norm_sq v
    have e : ((1 / v.norm) • v).dot ((1 / v.norm) • v) = v.dot v / v.norm ^ 2 := by
      simp only [dot, smul_x, smul_y, smul_z]; field_simp
    rw [e, this, div_self]
    rw [← this]; positivity
  · ext <;> simp only [smul_x, smul_y, smul_z] <;> field_simp

theorem smul_norm (s : ℝ) {v : V3} (h : v.dot v = 1) : (s • v).norm = |s| := by
  rw [V3.norm, show (s • v).dot (s • v) = s ^ 2 * v.dot v by simp only [dot, smul_x, smul_y, smul_z]; ring, h,
    mul_one, Real.sqrt_sq_eq_abs]

/-- Right-handed axes of length one at right angles. -/
structure Frame (r0 r1 r2 : V3) : Prop where
  h00 : r0.dot r0 = 1
  h11 : r1.dot r1 = 1
  h22 : r2.dot r2 = 1
  h01 : r0.dot r1 = 0
  h02 : r0.dot r2 = 0
  h12 : r1.dot r2 = 0
  right : r0.dot (r1.cross r2) = 1

/-- What the orthogonalisation of three independent vectors gives. -/
theorem gram_schmidt {c0 c1 c2 : V3} (h : c0.dot (c1.cross c2) ≠ 0) :
    ∃ s k r0 r1 r2, gramSchmidt c0 c1 c2 = (s, k, r0, r1, r2) ∧ Frame r0 r1 r2 ∧
      c0 = s.x • r0 ∧ c1 = s.y • (k.x • r0 + r1) ∧ c2 = s.z • (k.y • r0 + k.z • r1 + r2) ∧
      ((0 < c0.dot (c1.cross c2) ∧ 0 < s.x ∧ 0 < s.y ∧ 0 < s.z) ∨
        (c0.dot (c1.cross c2) < 0 ∧ s.x < 0 ∧ s.y < 0 ∧ s.z < 0)) := by
  have hc0 : c0 ≠ 0 := by rintro rfl; exact h (by simp [dot])
  obtain ⟨n0, e00, hx0⟩ := split_norm hc0
  simp only [gramSchmidt]
  generalize (1 / c0.norm) • c0 = u0 at *
  generalize c0.norm = s0 at *
  obtain ⟨k0, hk0⟩ : ∃ k0, u0.dot c1 = k0 := ⟨_, rfl⟩
  simp only [hk0]
  obtain ⟨w1, hw1⟩ : ∃ w1, c1 - k0 • u0 = w1 := ⟨_, rfl⟩
  simp only [hw1]
  have hc1 : c1 = k0 • u0 + w1 := by rw [← hw1]; ext <;> simp
  have o01 : u0.dot w1 = 0 := by
    have : u0.dot w1 = u0.dot c1 - k0 * u0.dot u0 := by
      rw [← hw1]; simp only [dot, sub_x, sub_y, sub_z, smul_x, smul_y, smul_z]; ring
    rw [this, hk0, e00]; ring
  have hw1' : w1 ≠ 0 := by
    rintro rfl
    apply h
    rw [hc1, hx0]
    simp only [dot, cross, smul_x, smul_y, smul_z, add_x, add_y, add_z, zero_x, zero_y, zero_z]
    ring
  obtain ⟨n1, e11, hx1⟩ := split_norm hw1'
  have o01' : u0.dot ((1 / w1.norm) • w1) = 0 := by
    have : u0.dot ((1 / w1.norm) • w1) = 1 / w1.norm * u0.dot w1 := by
      simp only [dot, smul_x, smul_y, smul_z]; ring
    rw [this, o01, mul_zero]
  generalize (1 / w1.norm) • w1 = u1 at *
  generalize w1.norm = s1 at *
  obtain ⟨k1, hk1⟩ : ∃ k1, u0.dot c2 = k1 := ⟨_, rfl⟩
  simp only [hk1]
  obtain ⟨k2, hk2⟩ : ∃ k2, u1.dot (c2 - k1 • u0) = k2 := ⟨_, rfl⟩
  simp only [hk2]
  obtain ⟨w2, hw2⟩ : ∃ w2, c2 - k1 • u0 - k2 • u1 = w2 := ⟨_, rfl⟩
  simp only [hw2]
  have hc2 : c2 = k1 • u0 + k2 • u1 + w2 := by rw [← hw2]; ext <;> simp
  have o02 : u0.dot w2 = 0 := by
    have : u0.dot w2 = u0.dot c2 - k1 * u0.dot u0 - k2 * u0.dot u1 := by
      rw [← hw2]; simp only [dot, sub_x, sub_y, sub_z, smul_x, smul_y, smul_z]; ring
    rw [this, hk1, e00, o01']; ring
  have o12 : u1.dot w2 = 0 := by
    have : u1.dot w2 = u1.dot (c2 - k1 • u0) - k2 * u1.dot u1 := by
      rw [← hw2]; simp only [dot, sub_x, sub_y, sub_z, smul_x, smul_y, smul_z]; ring
    rw [this, hk2, e11]; ring
  have hw2' : w2 ≠ 0 := by
    rintro rfl
    apply h
    rw [hc1, hc2, hx0, hx1]
    simp only [dot, cross, smul_x, smul_y, smul_z, add_x, add_y, add_z, zero_x, zero_y, zero_z]
    ring
  obtain ⟨n2, e22, hx2⟩ := split_norm hw2'
  have o02' : u0.dot ((1 / w2.norm) • w2) = 0 := by
    have : u0.dot ((1 / w2.norm) • w2) = 1 / w2.norm * u0.dot w2 := by
      simp only [dot, smul_x, smul_y, smul_z]; ring
    rw [this, o02, mul_zero]
  have o12' : u1.dot ((1 / w2.norm) • w2) = 0 := by
    have : u1.dot ((1 / w2.norm) • w2) = 1 / w2.norm * u1.dot w2 := by
      simp only [dot, smul_x, smul_y, smul_z]; ring
    rw [this, o12, mul_zero]
  generalize (1 / w2.norm) • w2 = u2 at *
  generalize w2.norm = s2 at *
  have htri : c0.dot (c1.cross c2) = s0 * s1 * s2 * u0.dot (u1.cross u2) := by
    rw [hc1, hc2, hx0, hx1, hx2]
    simp only [dot, cross, smul_x, smul_y, smul_z, add_x, add_y, add_z]
    ring
  have hone : (u0.dot (u1.cross u2) - 1) * (u0.dot (u1.cross u2) + 1) = 0 := by
    have : u0.dot (u1.cross u2) ^ 2 = u0.dot u0 * u1.dot u1 * u2.dot u2 + 2 * u0.dot u1 * u1.dot u2 * u0.dot u2
        - u0.dot u0 * u1.dot u2 ^ 2 - u1.dot u1 * u0.dot u2 ^ 2 - u2.dot u2 * u0.dot u1 ^ 2 := by
      simp only [dot, cross]; ring
    rw [e00, e11, e22, o01', o02', o12'] at this
    linear_combination this
  have hpos : 0 < s0 * s1 * s2 := by positivity
  by_cases ht : u0.dot (u1.cross u2) < 0
  · rw [if_pos ht]
    have ht1 : u0.dot (u1.cross u2) = -1 := by
      rcases mul_eq_zero.mp hone with h' | h' <;> linarith
    refine ⟨_, _, _, _, _, rfl, ⟨?_, ?_, ?_, ?_, ?_, ?_, ?_⟩, ?_, ?_, ?_, Or.inr ⟨?_, ?_, ?_, ?_⟩⟩
    · rw [← e00]; simp [dot]
    · rw [← e11]; simp [dot]
    · rw [← e22]; simp [dot]
    · rw [← o01']; simp [dot]
    · rw [← o02']; simp [dot]
    · rw [← o12']; simp [dot]
    · have : (-u0).dot ((-u1).cross (-u2)) = -u0.dot (u1.cross u2) := by
        simp only [dot, cross, neg_x, neg_y, neg_z]; ring
      rw [this, ht1]; norm_num
    · rw [hx0]; ext <;> simp
    · rw [hc1, hx1]; ext <;> simp only [smul_x, smul_y, smul_z, add_x, add_y, add_z, neg_x, neg_y, neg_z] <;>
        field_simp <;> ring
    · rw [hc2, hx2]; ext <;> simp only [smul_x, smul_y, smul_z, add_x, add_y, add_z, neg_x, neg_y, neg_z] <;>
        field_simp <;> ring
    · rw [htri, ht1]; linarith
    · simpa using n0
    · simpa using n1
    · simpa using n2
  · rw [if_neg ht]
    have ht1 : u0.dot (u1.cross u2) = 1 := by
      rcases mul_eq_zero.mp hone with h' | h' <;> linarith
    refine ⟨_, _, _, _, _, rfl, ⟨e00, e11, e22, o01', o02', o12', ht1⟩, hx0, ?_, ?_, Or.inl ⟨?_, n0, n1, n2⟩⟩
    · rw [hc1, hx1]; ext <;> simp only [smul_x, smul_y, smul_z, add_x, add_y, add_z] <;> field_simp
    · rw [hc2, hx2]; ext <;> simp only [smul_x, smul_y, smul_z, add_x, add_y, add_z] <;> field_simp
    · rw [htri, ht1]; linarith

/-- The factors are unique: scales of one sign, axes that form a frame. -/
theorem gram_schmidt_unique {r0 r1 r2 s k : V3} (hf : Frame r0 r1 r2)
    (hs : (0 < s.x ∧ 0 < s.y ∧ 0 < s.z) ∨ (s.x < 0 ∧ s.y < 0 ∧ s.z < 0)) :
    gramSchmidt (s.x • r0) (s.y • (k.x • r0 + r1)) (s.z • (k.y • r0 + k.z • r1 + r2)) = (s, k, r0, r1, r2) := by
  obtain ⟨g, hg, hx, hy, hz, hgs⟩ : ∃ g : ℝ, g * g = 1 ∧ |s.x| = g * s.x ∧ |s.y| = g * s.y ∧ |s.z| = g * s.z ∧
      ((g = 1 ∧ 0 < s.x ∧ 0 < s.y ∧ 0 < s.z) ∨ (g = -1 ∧ s.x < 0 ∧ s.y < 0 ∧ s.z < 0)) := by
    rcases hs with ⟨h0, h1, h2⟩ | ⟨h0, h1, h2⟩
    · exact ⟨1, by norm_num, by rw [abs_of_pos h0, one_mul], by rw [abs_of_pos h1, one_mul],
        by rw [abs_of_pos h2, one_mul], Or.inl ⟨rfl, h0, h1, h2⟩⟩
    · exact ⟨-1, by norm_num, by rw [abs_of_neg h0]; ring, by rw [abs_of_neg h1]; ring,
        by rw [abs_of_neg h2]; ring, Or.inr ⟨rfl, h0, h1, h2⟩⟩
  have hg0 : g ≠ 0 := by rintro rfl; norm_num at hg
  have hne : s.x ≠ 0 ∧ s.y ≠ 0 ∧ s.z ≠ 0 := by
    rcases hs with ⟨h0, h1, h2⟩ | ⟨h0, h1, h2⟩
    · exact ⟨h0.ne', h1.ne', h2.ne'⟩
    · exact ⟨h0.ne, h1.ne, h2.ne⟩
  obtain ⟨hx0, hy0, hz0⟩ := hne
  have inv : ∀ {t : ℝ}, t ≠ 0 → ∀ v : V3, (1 / (g * t)) • t • v = g • v := by
    intro t ht v
    have : 1 / (g * t) * t = g := by
      field_simp
      linear_combination -hg
    ext <;> simp only [smul_x, smul_y, smul_z] <;> rw [← mul_assoc, this]
  have d1 : (g • r0).dot (s.y • (k.x • r0 + r1)) = g * s.y * k.x := by
    have : (g • r0).dot (s.y • (k.x • r0 + r1)) = g * s.y * (k.x * r0.dot r0 + r0.dot r1) := by
      simp only [dot, smul_x, smul_y, smul_z, add_x, add_y, add_z]; ring
    rw [this, hf.h00, hf.h01]; ring
  have w1 : s.y • (k.x • r0 + r1) - (g * s.y * k.x) • g • r0 = s.y • r1 := by
    ext <;> simp only [smul_x, smul_y, smul_z, add_x, add_y, add_z, sub_x, sub_y, sub_z]
    · linear_combination (-s.y * k.x * r0.x) * hg
    · linear_combination (-s.y * k.x * r0.y) * hg
    · linear_combination (-s.y * k.x * r0.z) * hg
  have d2 : (g • r0).dot (s.z • (k.y • r0 + k.z • r1 + r2)) = g * s.z * k.y := by
    have : (g • r0).dot (s.z • (k.y • r0 + k.z • r1 + r2)) =
        g * s.z * (k.y * r0.dot r0 + k.z * r0.dot r1 + r0.dot r2) := by
      simp only [dot, smul_x, smul_y, smul_z, add_x, add_y, add_z]; ring
    rw [this, hf.h00, hf.h01, hf.h02]; ring
  have w2 : s.z • (k.y • r0 + k.z • r1 + r2) - (g * s.z * k.y) • g • r0 = s.z • (k.z • r1 + r2) := by
    ext <;> simp only [smul_x, smul_y, smul_z, add_x, add_y, add_z, sub_x, sub_y, sub_z]
    · linear_combination (-s.z * k.y * r0.x) * hg
    · linear_combination (-s.z * k.y * r0.y) * hg
    · linear_combination (-s.z * k.y * r0.z) * hg
  have d3 : (g • r1).dot (s.z • (k.z • r1 + r2)) = g * s.z * k.z := by
    have : (g • r1).dot (s.z • (k.z • r1 + r2)) = g * s.z * (k.z * r1.dot r1 + r1.dot r2) := by
      simp only [dot, smul_x, smul_y, smul_z, add_x, add_y, add_z]; ring
    rw [this, hf.h11, hf.h12]; ring
  have w3 : s.z • (k.z • r1 + r2) - (g * s.z * k.z) • g • r1 = s.z • r2 := by
    ext <;> simp only [smul_x, smul_y, smul_z, add_x, add_y, add_z, sub_x, sub_y, sub_z]
    · linear_combination (-s.z * k.z * r1.x) * hg
    · linear_combination (-s.z * k.z * r1.y) * hg
    · linear_combination (-s.z * k.z * r1.z) * hg
  have q1 : g * s.y * k.x / (g * s.y) = k.x := by field_simp
  have q2 : g * s.z * k.y / (g * s.z) = k.y := by field_simp
  have q3 : g * s.z * k.z / (g * s.z) = k.z := by field_simp
  have tri : (g • r0).dot ((g • r1).cross (g • r2)) = g := by
    have : (g • r0).dot ((g • r1).cross (g • r2)) = g * g * g * r0.dot (r1.cross r2) := by
      simp only [dot, cross, smul_x, smul_y, smul_z]; ring
    rw [this, hg, hf.right]; ring
  simp only [gramSchmidt, smul_norm _ hf.h00, hx, inv hx0, d1, w1, smul_norm _ hf.h11, hy, inv hy0, d2, w2, d3, w3,
    smul_norm _ hf.h22, hz, inv hz0, q1, q2, q3, tri]
  rcases hgs with ⟨rfl, -⟩ | ⟨rfl, -⟩
  · rw [if_neg (by norm_num)]
    have : ∀ v : V3, (1 : ℝ) • v = v := by intro v; ext <;> simp
    simp [this]
  · rw [if_pos (by norm_num)]
    have : ∀ v : V3, -((-1 : ℝ) • v) = v := by intro v; ext <;> simp
    have h2 : -(⟨-s.x, -s.y, -s.z⟩ : V3) = s := by ext <;> simp
    simp [this, h2]

/-- The rotation with the given columns. -/
def columns (r0 r1 r2 : V3) : M3 := ⟨r0.x, r1.x, r2.x, r0.y, r1.y, r2.y, r0.z, r1.z, r2.z⟩

theorem Frame.isRot {r0 r1 r2 : V3} (h : Frame r0 r1 r2) : (columns r0 r1 r2).IsRot := by
  obtain ⟨h00, h11, h22, h01, h02, h12, hr⟩ := h
  have key : (columns r0 r1 r2).T.mul (columns r0 r1 r2) = M3.one := by
    simp only [dot] at *
    ext <;> simp only [columns, M3.T, M3.mul, M3.one] <;> linarith
  have hd : (columns r0 r1 r2).det = 1 := by
    rw [← hr]; simp only [columns, M3.det, dot, cross]; ring
  -- the inverse of a matrix is on both sides
  refine ⟨?_, key, hd⟩
  simp only [dot, cross] at *
  ext <;> simp only [columns, M3.T, M3.mul, M3.one]
  all_goals grind

theorem euler_sxyz (a b c : ℝ) : eulerMatrix a b c sxyz = eulerTab false a b c := by
  ext <;> simp [eulerMatrix, eulerTab, sxyz, Axes.ijk, nextAxis, axisPos]

theorem rowAngles_spec {r0 r1 r2 : V3} (h : Frame r0 r1 r2) :
    eulerMatrix (rowAngles r0 r1 r2).x (rowAngles r0 r1 r2).y (rowAngles r0 r1 r2).z sxyz = columns r0 r1 r2 := by
  have hn := h.isRot
  rw [euler_sxyz]
  obtain ⟨n, hnn⟩ : ∃ n, columns r0 r1 r2 = n := ⟨_, rfl⟩
  have hra : rowAngles r0 r1 r2 = if Real.cos (Real.arcsin (-n.a20)) ≠ 0 then
      ⟨mathAtan2 n.a21 n.a22, Real.arcsin (-n.a20), mathAtan2 n.a10 n.a00⟩
      else ⟨mathAtan2 (-n.a12) n.a11, Real.arcsin (-n.a20), 0⟩ := by
    rw [← hnn]; rfl
  rw [hra]
  rw [hnn] at hn ⊢
  clear hra hnn h
  have hr := hn.left
  have hl := hn.right
  obtain ⟨c00, c01, c02, c10, c11, c12, c20, c21, c22⟩ := hn.cofactor
  simp only [M3.mul, M3.T, M3.one, M3.mk.injEq] at hr hl
  obtain ⟨h00, h01, h02, h10, h11, h12, h20, h21, h22⟩ := hr
  obtain ⟨l00, l01, l02, l10, l11, l12, l20, l21, l22⟩ := hl
  have hb : n.a20 ^ 2 ≤ 1 := by nlinarith [mul_self_nonneg n.a00, mul_self_nonneg n.a10]
  have hb1 : -1 ≤ -n.a20 := by nlinarith
  have hb2 : -n.a20 ≤ 1 := by nlinarith
  have hsin := Real.sin_arcsin hb1 hb2
  have hcos := Real.cos_arcsin (-n.a20)
  have hsq : Real.sqrt (1 - (-n.a20) ^ 2) ^ 2 = n.a00 ^ 2 + n.a10 ^ 2 := by
    rw [Real.sq_sqrt (by linarith [neg_sq n.a20])]; linear_combination -l00
  have hnn := Real.sqrt_nonneg (1 - (-n.a20) ^ 2)
  simp only [hcos]
  generalize Real.sqrt (1 - (-n.a20) ^ 2) = r at *
  simp only [eulerTab, Bool.false_eq_true, if_false]
  by_cases h0 : r = 0
  · rw [if_neg (by simpa using h0)]
    obtain ⟨z0, z1⟩ := sq_add_sq_zero (hsq.symm.trans (by rw [h0]; norm_num))
    simp only [z0, z1] at l00 c01 c02 h10 h11 c21 c22
    obtain ⟨e1, e2⟩ := atan2_cos_sin (y := -n.a12) (x := n.a11) one_pos
      (by linear_combination h11)
    simp only [e1, e2, hsin, hcos, Real.cos_zero, Real.sin_zero]
    simp only [h0]
    ext <;> simp only [div_one]
    · rw [z0]; ring
    · linear_combination c01
    · linear_combination c02
    · rw [z1]; ring
    · ring
    · ring
    · ring
    · linear_combination c21
    · linear_combination c22
  · rw [if_pos h0]
    have hp : 0 < r := lt_of_le_of_ne hnn (Ne.symm h0)
    obtain ⟨e1, e2⟩ := atan2_cos_sin (y := n.a21) (x := n.a22) hp
      (by linear_combination h22 - l00 - hsq)
    obtain ⟨e5, e6⟩ := atan2_cos_sin (y := n.a10) (x := n.a00) hp (by linear_combination -hsq)
    simp only [e1, e2, hsin, hcos, e5, e6]
    ext <;> simp only [] <;> field_simp
    · linear_combination -n.a00 * l01 + n.a10 * c22 - n.a01 * hsq
    · linear_combination -n.a00 * l02 - n.a10 * c21 - n.a02 * hsq
    · linear_combination -n.a10 * l01 - n.a00 * c22 - n.a11 * hsq
    · linear_combination -n.a10 * l02 + n.a00 * c21 - n.a12 * hsq

/-- The upper left block of a composed matrix: rotation, shear, scale. -/
noncomputable def block (s k a : V3) : M3 :=
  ((eulerMatrix a.x a.y a.z sxyz).mul ⟨1, k.x, k.y, 0, 1, k.z, 0, 0, 1⟩).mul ⟨s.x, 0, 0, 0, s.y, 0, 0, 0, s.z⟩

theorem compose_eq (p : Parts) :
    p.compose = if p.perspective.1.dot p.translate + p.perspective.2 = 0 then none else
      some (H4.unit ⟨block p.scale p.shear p.angles, p.translate,
        M3.vecMul p.perspective.1 (block p.scale p.shear p.angles),
        p.perspective.1.dot p.translate + p.perspective.2⟩) := by
  have key : ((((one.mul ⟨M3.one, 0, p.perspective.1, p.perspective.2⟩).mul ⟨M3.one, p.translate, 0, 1⟩).mul
      ⟨eulerMatrix p.angles.x p.angles.y p.angles.z sxyz, 0, 0, 1⟩).mul
      ⟨⟨1, p.shear.x, p.shear.y, 0, 1, p.shear.z, 0, 0, 1⟩, 0, 0, 1⟩).mul
      ⟨⟨p.scale.x, 0, 0, 0, p.scale.y, 0, 0, 0, p.scale.z⟩, 0, 0, 1⟩ =
      ⟨block p.scale p.shear p.angles, p.translate,
        M3.vecMul p.perspective.1 (block p.scale p.shear p.angles),
        p.perspective.1.dot p.translate + p.perspective.2⟩ := by
    unfold block
    generalize eulerMatrix p.angles.x p.angles.y p.angles.z sxyz = r
    ext <;> simp [mul, one, M3.one, add3, outer, M3.mul, M3.mulVec, M3.vecMul, dot] <;> ring
  simp only [Parts.compose, compose]
  rw [key]

theorem vecMul_inv {a : M3} (h : a.det ≠ 0) (c : V3) : M3.vecMul (M3.vecMul c (inv3 a)) a = c := by
  obtain ⟨g, hg⟩ : ∃ g, 1 / a.det = g := ⟨_, rfl⟩
  have hg1 : g * a.det = 1 := by rw [← hg]; field_simp
  simp only [inv3, hg]
  simp only [M3.det] at hg1
  ext <;> simp only [M3.vecMul, smul3]
  · linear_combination c.x * hg1
  · linear_combination c.y * hg1
  · linear_combination c.z * hg1

theorem vecMul_inv' {a : M3} (h : a.det ≠ 0) (c : V3) : M3.vecMul (M3.vecMul c a) (inv3 a) = c := by
  obtain ⟨g, hg⟩ : ∃ g, 1 / a.det = g := ⟨_, rfl⟩
  have hg1 : g * a.det = 1 := by rw [← hg]; field_simp
  simp only [inv3, hg]
  simp only [M3.det] at hg1
  ext <;> simp only [M3.vecMul, smul3]
  · linear_combination c.x * hg1
  · linear_combination c.y * hg1
  · linear_combination c.z * hg1

theorem det_columns (a : M3) : (⟨a.a00, a.a10, a.a20⟩ : V3).dot
    ((⟨a.a01, a.a11, a.a21⟩ : V3).cross ⟨a.a02, a.a12, a.a22⟩) = a.det := by
  simp only [dot, cross, M3.det]; ring

theorem unit_one {m : H4} (h : m.d = 1) : m.unit = m := by
  obtain ⟨a, b, c, d⟩ := m
  obtain rfl := h
  ext <;> simp [unit, smul3]

theorem det_smul3 (f : ℝ) (a : M3) : (smul3 f a).det = f ^ 3 * a.det := by
  simp only [M3.det, smul3]; ring

end H4

open H4

/-- C96: `decompose_matrix` raises exactly for matrices with a vanishing last entry (within the rounding
threshold) or a singular upper left block. -/
theorem c96_raises (m : H4) :
    (m.decompose = .error .zero ↔ |m.d| < tfEps) ∧
    (m.decompose = .error .singular ↔ tfEps ≤ |m.d| ∧ m.a.det = 0) := by
  have hpos : (0 : ℝ) < tfEps := by unfold tfEps; positivity
  unfold H4.decompose
  by_cases h : |m.d| < tfEps
  · simp [h]
  · rw [if_neg h]
    have hd : m.d ≠ 0 := by rintro h0; rw [h0, abs_zero] at h; exact h hpos
    have hdet : m.unit.a.det = 0 ↔ m.a.det = 0 := by
      simp only [H4.unit, det_smul3, mul_eq_zero, pow_eq_zero_iff, ne_eq, OfNat.ofNat_ne_zero, not_false_eq_true,
        one_div, inv_eq_zero, hd, false_or]
    dsimp only
    by_cases h2 : m.unit.a.det = 0
    · rw [if_pos h2]
      simp [h, not_lt.mp h, hdet.mp h2]
    · rw [if_neg h2]
      simp [h, mt hdet.mpr h2]

/-- C96: putting together what was taken apart gives the matrix back, divided by its last entry.  The parts are
normal: scales of one sign, which is that of the determinant, and angles in their principal ranges.  A
perspective below the rounding threshold is not seen. -/
theorem c96_compose_decompose (m : H4) (p : Parts) (h : m.decompose = .ok p) :
    (m.c = 0 ∨ tfEps < |m.unit.c.x| ∨ tfEps < |m.unit.c.y| ∨ tfEps < |m.unit.c.z| → p.compose = some m.unit) ∧
    p.translate = m.unit.b ∧
    ((0 < m.unit.a.det ∧ 0 < p.scale.x ∧ 0 < p.scale.y ∧ 0 < p.scale.z) ∨
      (m.unit.a.det < 0 ∧ p.scale.x < 0 ∧ p.scale.y < 0 ∧ p.scale.z < 0)) ∧
    p.scale.x * p.scale.y * p.scale.z = m.unit.a.det ∧
    p.angles.x ∈ Set.Ioc (-Real.pi) Real.pi ∧ p.angles.y ∈ Set.Icc (-(Real.pi / 2)) (Real.pi / 2) ∧
    p.angles.z ∈ Set.Ioc (-Real.pi) Real.pi ∧
    block p.scale p.shear p.angles = m.unit.a := by
  have hpos : (0 : ℝ) < tfEps := by unfold tfEps; positivity
  unfold H4.decompose at h
  split_ifs at h with h1
  have hd : m.d ≠ 0 := by intro h0; rw [h0, abs_zero] at h1; exact h1 hpos
  dsimp only at h
  by_cases h2 : m.unit.a.det = 0
  · rw [if_pos h2] at h; cases h
  rw [if_neg h2] at h
  have hud : m.unit.d = 1 := by simp only [H4.unit]; field_simp
  have huc : m.c = 0 → m.unit.c = 0 := by intro h0; simp only [H4.unit, h0]; ext <;> simp
  generalize m.unit = u at *
  have htri := h2
  rw [← det_columns] at htri
  obtain ⟨s, k, r0, r1, r2, hgs, hf, hc0, hc1, hc2, hsign⟩ := gram_schmidt htri
  rw [hgs] at h
  simp only [Except.ok.injEq] at h
  rw [det_columns] at hsign
  have hblock : block s k (rowAngles r0 r1 r2) = u.a := by
    rw [block, rowAngles_spec hf]
    have x0 := congrArg V3.x hc0
    have y0 := congrArg V3.y hc0
    have z0 := congrArg V3.z hc0
    have x1 := congrArg V3.x hc1
    have y1 := congrArg V3.y hc1
    have z1 := congrArg V3.z hc1
    have x2 := congrArg V3.x hc2
    have y2 := congrArg V3.y hc2
    have z2 := congrArg V3.z hc2
    simp only [smul_x, smul_y, smul_z, add_x, add_y, add_z] at x0 y0 z0 x1 y1 z1 x2 y2 z2
    ext <;> simp only [M3.mul, columns]
    · rw [x0]; ring
    · rw [x1]; ring
    · rw [x2]; ring
    · rw [y0]; ring
    · rw [y1]; ring
    · rw [y2]; ring
    · rw [z0]; ring
    · rw [z1]; ring
    · rw [z2]; ring
  subst h
  have harg : ∀ x y, mathAtan2 y x ∈ Set.Ioc (-Real.pi) Real.pi := fun x y => Complex.arg_mem_Ioc _
  have hzero : (0 : ℝ) ∈ Set.Ioc (-Real.pi) Real.pi := ⟨by linarith [Real.pi_pos], Real.pi_pos.le⟩
  refine ⟨?_, rfl, hsign, ?_, ?_, ?_, ?_, hblock⟩
  · intro hc
    rw [compose_eq]
    dsimp only
    rw [hblock]
    split_ifs with hper h0 h0
    · exfalso
      have : (M3.vecMul u.c (inv3 u.a)).dot u.b = u.c.dot ((inv3 u.a).mulVec u.b) := by
        simp only [M3.vecMul, M3.mulVec, dot]; ring
      dsimp only at h0
      rw [this, hud] at h0
      have : u.c.dot (-(inv3 u.a).mulVec u.b) = -u.c.dot ((inv3 u.a).mulVec u.b) := by
        simp only [dot, neg_x, neg_y, neg_z]; ring
      rw [this] at h0
      linarith
    · have e1 : (M3.vecMul u.c (inv3 u.a)).dot u.b = u.c.dot ((inv3 u.a).mulVec u.b) := by
        simp only [M3.vecMul, M3.mulVec, dot]; ring
      have e2 : u.c.dot (-(inv3 u.a).mulVec u.b) = -u.c.dot ((inv3 u.a).mulVec u.b) := by
        simp only [dot, neg_x, neg_y, neg_z]; ring
      dsimp only
      rw [vecMul_inv h2, e1, e2, hud, unit_one (by dsimp only; ring)]
      congr 1
      ext <;> simp [hud]
    · exfalso
      simp [dot] at h0
    · have hc0 : u.c = 0 := by
        rcases hc with hc | hc
        · exact huc hc
        · exact absurd hc hper
      rw [unit_one (by simp [dot])]
      congr 1
      ext <;> simp [hc0, hud, M3.vecMul, dot]
  · have e : (block s k (rowAngles r0 r1 r2)).det = s.x * s.y * s.z := by
      have hdet := hf.isRot.det1
      rw [block, rowAngles_spec hf]
      generalize columns r0 r1 r2 = r at *
      simp only [M3.det, M3.mul] at *
      linear_combination s.x * s.y * s.z * hdet
    rw [← hblock, e]
  · dsimp only [rowAngles]
    split_ifs
    · exact harg _ _
    · exact harg _ _
  · dsimp only [rowAngles]
    split_ifs
    · exact ⟨Real.neg_pi_div_two_le_arcsin _, Real.arcsin_le_pi_div_two _⟩
    · exact ⟨Real.neg_pi_div_two_le_arcsin _, Real.arcsin_le_pi_div_two _⟩
  · dsimp only [rowAngles]
    split_ifs
    · exact harg _ _
    · exact hzero

namespace H4

theorem atan2_polar {r t : ℝ} (hr : 0 < r) (ht : t ∈ Set.Ioc (-Real.pi) Real.pi) :
    mathAtan2 (r * Real.sin t) (r * Real.cos t) = t := by
  unfold mathAtan2
  have : (⟨r * Real.cos t, r * Real.sin t⟩ : ℂ) = r * (Complex.cos t + Complex.sin t * Complex.I) := by
    apply Complex.ext <;> simp [← Complex.ofReal_cos, ← Complex.ofReal_sin]
  rw [this, Complex.arg_mul_cos_add_sin_mul_I hr ht]

theorem euler_frame (a : V3) : ∃ r0 r1 r2, eulerMatrix a.x a.y a.z sxyz = columns r0 r1 r2 ∧ Frame r0 r1 r2 := by
  have h := (eulerMatrix_isRot a.x a.y a.z sxyz)
  obtain ⟨n, hn⟩ : ∃ n, eulerMatrix a.x a.y a.z sxyz = n := ⟨_, rfl⟩
  rw [hn] at h ⊢
  have hr := h.right
  have hd := h.det1
  simp only [M3.mul, M3.T, M3.one, M3.mk.injEq] at hr
  obtain ⟨l00, l01, l02, l10, l11, l12, l20, l21, l22⟩ := hr
  refine ⟨⟨n.a00, n.a10, n.a20⟩, ⟨n.a01, n.a11, n.a21⟩, ⟨n.a02, n.a12, n.a22⟩, rfl, ?_⟩
  exact ⟨l00, l11, l22, l01, l02, l12, (det_columns n).trans hd⟩

theorem rowAngles_euler {a : V3} (hx : a.x ∈ Set.Ioc (-Real.pi) Real.pi)
    (hy : a.y ∈ Set.Ioo (-(Real.pi / 2)) (Real.pi / 2)) (hz : a.z ∈ Set.Ioc (-Real.pi) Real.pi) {r0 r1 r2 : V3}
    (h : eulerMatrix a.x a.y a.z sxyz = columns r0 r1 r2) : rowAngles r0 r1 r2 = a := by
  rw [euler_sxyz] at h
  simp only [eulerTab, Bool.false_eq_true, if_false, columns, M3.mk.injEq] at h
  obtain ⟨h00, h01, h02, h10, h11, h12, h20, h21, h22⟩ := h
  have hc : 0 < Real.cos a.y := Real.cos_pos_of_mem_Ioo hy
  have has : Real.arcsin (-r0.z) = a.y := by
    rw [← h20, neg_neg, Real.arcsin_sin hy.1.le hy.2.le]
  simp only [rowAngles, has]
  rw [if_pos hc.ne', ← h21, ← h22, ← h10, ← h00, atan2_polar hc hx, atan2_polar hc hz]

end H4

/-- C96: taking apart what was put together gives the parts back, if they are normal: scales of one sign, a pitch of
less than a right angle, the other angles in their principal range, and a perspective that is zero or seen.  The
matrix is divided by its last entry `k`, which divides scale, translation and the last entry of the
perspective. -/
theorem c96_decompose_compose (p : Parts) (k : ℝ) (hk : p.perspective.1.dot p.translate + p.perspective.2 = k)
    (hk0 : k ≠ 0) (hs : (0 < p.scale.x ∧ 0 < p.scale.y ∧ 0 < p.scale.z) ∨
      (p.scale.x < 0 ∧ p.scale.y < 0 ∧ p.scale.z < 0))
    (hx : p.angles.x ∈ Set.Ioc (-Real.pi) Real.pi) (hy : p.angles.y ∈ Set.Ioo (-(Real.pi / 2)) (Real.pi / 2))
    (hz : p.angles.z ∈ Set.Ioc (-Real.pi) Real.pi) (m : H4) (hm : p.compose = some m)
    (hp : p.perspective.1 = 0 ∨ tfEps < |m.c.x| ∨ tfEps < |m.c.y| ∨ tfEps < |m.c.z|) :
    m.decompose = .ok ⟨(1 / k) • p.scale, p.shear, p.angles, (1 / k) • p.translate,
      (p.perspective.1, p.perspective.2 / k)⟩ := by
  have hlt : tfEps < 1 := by unfold tfEps; norm_num
  have hpos : (0 : ℝ) < tfEps := by unfold tfEps; positivity
  rw [compose_eq, hk, if_neg hk0, Option.some.injEq] at hm
  obtain ⟨r0, r1, r2, he, hf⟩ := euler_frame p.angles
  have hra := rowAngles_euler hx hy hz he
  obtain ⟨b, hb⟩ : ∃ b, block p.scale p.shear p.angles = b := ⟨_, rfl⟩
  have hdet : b.det = p.scale.x * p.scale.y * p.scale.z := by
    have hdet := hf.isRot.det1
    rw [← hb, block, he]
    generalize columns r0 r1 r2 = r at *
    simp only [M3.det, M3.mul] at *
    linear_combination p.scale.x * p.scale.y * p.scale.z * hdet
  have hdet0 : b.det ≠ 0 := by
    rw [hdet]
    rcases hs with ⟨h0, h1, h2⟩ | ⟨h0, h1, h2⟩
    · exact mul_ne_zero (mul_ne_zero h0.ne' h1.ne') h2.ne'
    · exact mul_ne_zero (mul_ne_zero h0.ne h1.ne) h2.ne
  rw [hb] at hm
  have hmd : m.d = 1 := by rw [← hm]; simp only [H4.unit]; field_simp
  have hma : m.a = smul3 (1 / k) b := by rw [← hm]; rfl
  have hmb : m.b = (1 / k) • p.translate := by rw [← hm]; rfl
  have hmc : m.c = (1 / k) • M3.vecMul p.perspective.1 b := by rw [← hm]; rfl
  have hmdet : m.a.det ≠ 0 := by
    rw [hma, det_smul3]
    exact mul_ne_zero (pow_ne_zero _ (one_div_ne_zero hk0)) hdet0
  have hcm : m.c = M3.vecMul p.perspective.1 m.a := by
    rw [hmc, hma]; ext <;> simp only [M3.vecMul, smul3, smul_x, smul_y, smul_z] <;> ring
  unfold H4.decompose
  rw [if_neg (by rw [hmd, abs_one]; exact not_lt.mpr hlt.le), unit_one hmd]
  dsimp only
  rw [if_neg hmdet]
  have hs' : (0 < ((1 / k) • p.scale).x ∧ 0 < ((1 / k) • p.scale).y ∧ 0 < ((1 / k) • p.scale).z) ∨
      (((1 / k) • p.scale).x < 0 ∧ ((1 / k) • p.scale).y < 0 ∧ ((1 / k) • p.scale).z < 0) := by
    simp only [smul_x, smul_y, smul_z]
    rcases lt_or_gt_of_ne hk0 with hn | hn
    · have : 1 / k < 0 := one_div_neg.mpr hn
      rcases hs with ⟨h0, h1, h2⟩ | ⟨h0, h1, h2⟩
      · exact Or.inr ⟨mul_neg_of_neg_of_pos this h0, mul_neg_of_neg_of_pos this h1, mul_neg_of_neg_of_pos this h2⟩
      · exact Or.inl ⟨mul_pos_of_neg_of_neg this h0, mul_pos_of_neg_of_neg this h1, mul_pos_of_neg_of_neg this h2⟩
    · have : 0 < 1 / k := one_div_pos.mpr hn
      rcases hs with ⟨h0, h1, h2⟩ | ⟨h0, h1, h2⟩
      · exact Or.inl ⟨mul_pos this h0, mul_pos this h1, mul_pos this h2⟩
      · exact Or.inr ⟨mul_neg_of_pos_of_neg this h0, mul_neg_of_pos_of_neg this h1, mul_neg_of_pos_of_neg this h2⟩
  have hg := gram_schmidt_unique (k := p.shear) hf hs'
  have hcols : (⟨m.a.a00, m.a.a10, m.a.a20⟩ : V3) = ((1 / k) • p.scale).x • r0 ∧
      (⟨m.a.a01, m.a.a11, m.a.a21⟩ : V3) = ((1 / k) • p.scale).y • (p.shear.x • r0 + r1) ∧
      (⟨m.a.a02, m.a.a12, m.a.a22⟩ : V3) =
        ((1 / k) • p.scale).z • (p.shear.y • r0 + p.shear.z • r1 + r2) := by
    rw [hma, ← hb, block, he]
    refine ⟨?_, ?_, ?_⟩ <;> ext <;>
      simp only [columns, M3.mul, smul3, smul_x, smul_y, smul_z, add_x, add_y, add_z] <;> ring
  rw [hcols.1, hcols.2.1, hcols.2.2, hg]
  dsimp only
  rw [hra, hmb]
  congr 2
  split_ifs with hper
  · rw [hcm, vecMul_inv' hmdet, hmd]
    congr 1
    have e : (M3.vecMul p.perspective.1 m.a).dot (-(inv3 m.a).mulVec ((1 / k) • p.translate)) =
        -(M3.vecMul (M3.vecMul p.perspective.1 m.a) (inv3 m.a)).dot ((1 / k) • p.translate) := by
      simp only [M3.vecMul, M3.mulVec, dot, neg_x, neg_y, neg_z]; ring
    rw [e, vecMul_inv' hmdet]
    have e2 : p.perspective.1.dot ((1 / k) • p.translate) = p.perspective.1.dot p.translate / k := by
      simp only [dot, smul_x, smul_y, smul_z]; ring
    rw [e2]
    field_simp
    linarith
  · rcases hp with hp | hp
    · rw [hp]
      have : p.perspective.2 = k := by rw [← hk, hp]; simp [dot]
      rw [this, div_self hk0]
    · exact absurd hp hper

/-- C96: `compose_matrix` of one part is the matrix of that part. -/
theorem c96_single (s k a t : V3) (f : ℝ) (q : V3 × ℝ) (hq : q.2 ≠ 0) :
    H4.compose none none none none none = some one ∧
    H4.compose none none none (some t) none = some (translation t) ∧
    H4.compose none none (some a) none none = some ⟨eulerMatrix a.x a.y a.z sxyz, 0, 0, 1⟩ ∧
    H4.compose none (some k) none none none = some ⟨⟨1, k.x, k.y, 0, 1, k.z, 0, 0, 1⟩, 0, 0, 1⟩ ∧
    H4.compose (some s) none none none none = some ⟨⟨s.x, 0, 0, 0, s.y, 0, 0, 0, s.z⟩, 0, 0, 1⟩ ∧
    H4.compose (some ⟨f, f, f⟩) none none none none = some (scaling f none none) ∧
    H4.compose none none none none (some q) = some ⟨smul3 (1 / q.2) M3.one, 0, (1 / q.2) • q.1, 1⟩ := by
  have key : ∀ (r : M3) (b : V3), one.mul ⟨r, b, 0, 1⟩ = ⟨r, b, 0, 1⟩ := by
    intro r b
    ext <;> simp [mul, one, M3.one, add3, outer, M3.mul, M3.mulVec, M3.vecMul, dot]
  have hone : one.d = 1 := rfl
  refine ⟨?_, ?_, ?_, ?_, ?_, ?_, ?_⟩
  · simp only [H4.compose, hone, one_ne_zero, if_false, unit_one hone]
  · simp only [H4.compose, key, one_ne_zero, if_false, unit_one, translation]
  · simp only [H4.compose, key, one_ne_zero, if_false, unit_one]
  · simp only [H4.compose, key, one_ne_zero, if_false, unit_one]
  · simp only [H4.compose, key, one_ne_zero, if_false, unit_one]
  · simp only [H4.compose, key, one_ne_zero, if_false, unit_one, scaling, Option.some.injEq]
    ext <;> simp [smul3, M3.one]
  · have : one.mul ⟨M3.one, 0, q.1, q.2⟩ = ⟨M3.one, 0, q.1, q.2⟩ := by
      ext <;> simp [mul, one, M3.one, add3, outer, M3.mul, M3.mulVec, M3.vecMul, dot]
    simp only [H4.compose, this, if_neg hq, H4.unit, Option.some.injEq]
    ext <;> simp [hq]

/-- C96, violation: a perspective below the threshold is dropped, which moves points that are far away: here the
point `(2^51, 0, 0)` by half of its distance. -/
theorem c96_perspective_violation : ∃ (m : H4) (p : Parts) (m' : H4), m.decompose = .ok p ∧
    p.compose = some m' ∧ point (m.app (⟨2 ^ 51, 0, 0⟩, 1)) = ⟨2 ^ 50, 0, 0⟩ ∧
    point (m'.app (⟨2 ^ 51, 0, 0⟩, 1)) = ⟨2 ^ 51, 0, 0⟩ := by
  have hlt : tfEps < 1 := by unfold tfEps; norm_num
  have hu : unit ⟨M3.one, 0, ⟨1 / 2 ^ 51, 0, 0⟩, 1⟩ = ⟨M3.one, 0, ⟨1 / 2 ^ 51, 0, 0⟩, 1⟩ := unit_one rfl
  have hsmall : ¬ (|(1 / 2 ^ 51 : ℝ)| > tfEps ∨ |(0 : ℝ)| > tfEps ∨ |(0 : ℝ)| > tfEps) := by
    rw [abs_of_pos (by positivity), abs_zero]
    unfold tfEps
    norm_num
  obtain ⟨p, hp⟩ : ∃ p, H4.decompose ⟨M3.one, 0, ⟨1 / 2 ^ 51, 0, 0⟩, 1⟩ = .ok p ∧ p.perspective = (0, 1) := by
    unfold H4.decompose
    rw [if_neg (by simpa using hlt.le), hu]
    dsimp only
    rw [if_neg (by simp [M3.det, M3.one]), if_neg hsmall]
    exact ⟨_, rfl, rfl⟩
  have hc := c96_compose_decompose _ p hp.1
  rw [hu] at hc
  obtain ⟨-, ht, -, -, -, -, -, hb⟩ := hc
  refine ⟨_, p, ⟨M3.one, 0, 0, 1⟩, hp.1, ?_, ?_, ?_⟩
  · rw [compose_eq, hp.2, hb, ht]
    dsimp only
    rw [if_neg (by simp [dot]), unit_one (by simp [dot])]
    congr 1
    ext <;> simp [M3.vecMul, dot]
  · ext <;> simp [point, app, M3.mulVec, M3.one, dot]; norm_num
  · ext <;> simp [point, app, M3.mulVec, M3.one, dot]

/-- A matrix with everything in it: the hypotheses of `c96_compose_decompose`. -/
example : ∃ p, H4.decompose ⟨⟨2, 1, 0, 0, 3, 1, 0, 0, -4⟩, ⟨1, 2, 3⟩, ⟨1, 0, 1 / 2⟩, 2⟩ = .ok p ∧
    tfEps < |(H4.unit ⟨⟨2, 1, 0, 0, 3, 1, 0, 0, -4⟩, ⟨1, 2, 3⟩, ⟨1, 0, 1 / 2⟩, 2⟩).c.x| := by
  have hr := c96_raises ⟨⟨2, 1, 0, 0, 3, 1, 0, 0, -4⟩, ⟨1, 2, 3⟩, ⟨1, 0, 1 / 2⟩, 2⟩
  rcases hd : H4.decompose ⟨⟨2, 1, 0, 0, 3, 1, 0, 0, -4⟩, ⟨1, 2, 3⟩, ⟨1, 0, 1 / 2⟩, 2⟩ with e | p
  · exfalso
    cases e
    · have := hr.1.mp hd
      simp only [tfEps] at this
      norm_num at this
    · have := (hr.2.mp hd).2
      simp only [M3.det] at this
      norm_num at this
  · refine ⟨p, rfl, ?_⟩
    simp only [H4.unit, smul_x, tfEps]
    norm_num [abs_of_pos]

/-- Parts that are normal: the hypotheses of `c96_decompose_compose`. -/
example : ∃ m, Parts.compose ⟨⟨1, 2, 3⟩, ⟨1, 0, -1⟩, ⟨1, -1, 2⟩, ⟨1, 1, 1⟩, (0, 5)⟩ = some m := by
  rw [compose_eq, if_neg (by simp [dot])]
  exact ⟨_, rfl⟩

end RayOpt
