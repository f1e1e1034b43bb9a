import Verif.Model.Quat
import Verif.Lemmas.Transform
import Mathlib.Analysis.SpecialFunctions.Trigonometric.Bounds
import Mathlib.Tactic

/-!
# C57: quaternion algebra and Euler angles

Statements about rayopt/transformations.py 1047-1486.
-/

namespace RayOpt
open Quat

/-- Quaternion multiplication is associative. -/
theorem c57_assoc (a b c : Quat) : (a.mul b).mul c = a.mul (b.mul c) := by
  ext <;> simp only [mul] <;> ring

/-- `[1, 0, 0, 0]` is a two-sided unit. -/
theorem c57_unit (a : Quat) : (⟨1, 0, 0, 0⟩ : Quat).mul a = a ∧ a.mul ⟨1, 0, 0, 0⟩ = a := by
  constructor <;> ext <;> simp [mul]

/-- The defining relations of the quaternion units: `i² = j² = k² = ijk = -1` and `ij = k`. -/
theorem c57_relations :
    let i : Quat := ⟨0, 1, 0, 0⟩; let j : Quat := ⟨0, 0, 1, 0⟩; let k : Quat := ⟨0, 0, 0, 1⟩
    let m1 : Quat := ⟨-1, 0, 0, 0⟩
    i.mul i = m1 ∧ j.mul j = m1 ∧ k.mul k = m1 ∧ (i.mul j).mul k = m1 ∧ i.mul j = k ∧
      j.mul k = i ∧ k.mul i = j := by
  refine ⟨?_, ?_, ?_, ?_, ?_, ?_, ?_⟩ <;> ext <;> simp [mul]

/-- The norm of a product is the product of the norms. -/
theorem c57_norm_sq (a b : Quat) : (a.mul b).dot (a.mul b) = a.dot a * b.dot b := by
  simp only [mul, dot]; ring

theorem Quat.dot_nonneg (a : Quat) : 0 ≤ a.dot a := by
  simp only [dot]; nlinarith [mul_self_nonneg a.w, mul_self_nonneg a.x, mul_self_nonneg a.y, mul_self_nonneg a.z]

theorem c57_norm (a b : Quat) : (a.mul b).norm = a.norm * b.norm := by
  unfold Quat.norm; rw [c57_norm_sq, Real.sqrt_mul (Quat.dot_nonneg a)]

theorem Quat.dot_pos {a : Quat} (h : a ≠ ⟨0, 0, 0, 0⟩) : 0 < a.dot a := by
  rcases lt_or_eq_of_le (Quat.dot_nonneg a) with h1 | h1
  · exact h1
  · exfalso; apply h
    simp only [dot] at h1
    ext <;> dsimp only <;> nlinarith [sq_nonneg a.w, sq_nonneg a.x, sq_nonneg a.y, sq_nonneg a.z]

/-- `quaternion_inverse` is a two-sided inverse of every quaternion but zero. -/
theorem c57_inverse (a : Quat) (h : a ≠ ⟨0, 0, 0, 0⟩) :
    a.mul a.inv = ⟨1, 0, 0, 0⟩ ∧ a.inv.mul a = ⟨1, 0, 0, 0⟩ := by
  have h1 := (Quat.dot_pos h).ne'
  have h2 : (⟨a.w, -a.x, -a.y, -a.z⟩ : Quat).dot ⟨a.w, -a.x, -a.y, -a.z⟩ = a.dot a := by
    simp only [dot]; ring
  constructor <;> ext <;> simp only [mul, inv, h2] <;> field_simp <;> simp only [dot] <;> ring

/-- Conjugation reverses products and multiplies a quaternion to its squared norm. -/
theorem c57_conj (a b : Quat) :
    (a.mul b).conj = b.conj.mul a.conj ∧ a.mul a.conj = ⟨a.dot a, 0, 0, 0⟩ := by
  constructor <;> ext <;> simp only [mul, conj, dot] <;> ring

/-- The entries of `quaternion_matrix` for a quaternion that is not treated as zero. -/
theorem Quat.matrix_eq {q : Quat} (h : tfEps ≤ q.dot q) :
    q.matrix = ⟨1 - 2 * (q.y * q.y + q.z * q.z) / q.dot q, 2 * (q.x * q.y - q.z * q.w) / q.dot q,
      2 * (q.x * q.z + q.y * q.w) / q.dot q,
      2 * (q.x * q.y + q.z * q.w) / q.dot q, 1 - 2 * (q.x * q.x + q.z * q.z) / q.dot q,
      2 * (q.y * q.z - q.x * q.w) / q.dot q,
      2 * (q.x * q.z - q.y * q.w) / q.dot q, 2 * (q.y * q.z + q.x * q.w) / q.dot q,
      1 - 2 * (q.x * q.x + q.y * q.y) / q.dot q⟩ := by
  have h1 : 0 < q.dot q := lt_of_lt_of_le (by unfold tfEps; positivity) h
  have h2 : Real.sqrt (2 / q.dot q) ^ 2 = 2 / q.dot q := Real.sq_sqrt (by positivity)
  unfold matrix
  rw [if_neg (not_lt.mpr h)]
  generalize Real.sqrt (2 / q.dot q) = s at h2
  ext <;> simp only [scale]
  · linear_combination (-(q.y * q.y + q.z * q.z)) * h2
  · linear_combination (q.x * q.y - q.z * q.w) * h2
  · linear_combination (q.x * q.z + q.y * q.w) * h2
  · linear_combination (q.x * q.y + q.z * q.w) * h2
  · linear_combination (-(q.x * q.x + q.z * q.z)) * h2
  · linear_combination (q.y * q.z - q.x * q.w) * h2
  · linear_combination (q.x * q.z - q.y * q.w) * h2
  · linear_combination (q.y * q.z + q.x * q.w) * h2
  · linear_combination (-(q.x * q.x + q.y * q.y)) * h2

/-- Independent description of the rotation of a quaternion: `quaternion_matrix(q)` maps `v` to the
imaginary part of `q v q⁻¹`. -/
theorem c57_sandwich (q : Quat) (h : tfEps ≤ q.dot q) (v : V3) :
    (q.mul ⟨0, v.x, v.y, v.z⟩).mul q.inv =
      ⟨0, (q.matrix.mulVec v).x, (q.matrix.mulVec v).y, (q.matrix.mulVec v).z⟩ := by
  have h1 : q.dot q ≠ 0 := (lt_of_lt_of_le (by unfold tfEps; positivity) h).ne'
  have h2 : (⟨q.w, -q.x, -q.y, -q.z⟩ : Quat).dot ⟨q.w, -q.x, -q.y, -q.z⟩ = q.dot q := by
    simp only [dot]; ring
  rw [Quat.matrix_eq h]
  ext <;> simp only [mul, inv, h2, M3.mulVec] <;> field_simp <;> simp only [dot] <;> ring

theorem M3.ext_mulVec {a b : M3} (h : ∀ v, a.mulVec v = b.mulVec v) : a = b := by
  have hx := h ⟨1, 0, 0⟩
  have hy := h ⟨0, 1, 0⟩
  have hz := h ⟨0, 0, 1⟩
  simp only [M3.mulVec, V3.mk.injEq] at hx hy hz
  ext <;> linarith [hx.1, hx.2.1, hx.2.2, hy.1, hy.2.1, hy.2.2, hz.1, hz.2.1, hz.2.2]

/-- `quaternion_matrix` of every quaternion is a proper rotation. -/
theorem c57_matrix_rot (q : Quat) : q.matrix.IsRot := by
  by_cases h : q.dot q < tfEps
  · unfold matrix; rw [if_pos h]; exact M3.isRot_one
  · have h := not_lt.mp h
    have h1 : q.dot q ≠ 0 := (lt_of_lt_of_le (by unfold tfEps; positivity) h).ne'
    rw [Quat.matrix_eq h]
    refine ⟨?_, ?_, ?_⟩
    · ext <;> simp only [M3.mul, M3.T, M3.one] <;> field_simp <;> simp only [dot] <;> ring
    · ext <;> simp only [M3.mul, M3.T, M3.one] <;> field_simp <;> simp only [dot] <;> ring
    · simp only [M3.det]; field_simp; simp only [dot]; ring

/-- `quaternion_matrix` turns products into products of matrices. -/
theorem c57_matrix_mul (a b : Quat) (ha : tfEps ≤ a.dot a) (hb : tfEps ≤ b.dot b)
    (hab : tfEps ≤ (a.mul b).dot (a.mul b)) : (a.mul b).matrix = a.matrix.mul b.matrix := by
  have h1 : a.dot a ≠ 0 := (lt_of_lt_of_le (by unfold tfEps; positivity) ha).ne'
  have h2 : b.dot b ≠ 0 := (lt_of_lt_of_le (by unfold tfEps; positivity) hb).ne'
  rw [Quat.matrix_eq ha, Quat.matrix_eq hb, Quat.matrix_eq hab, c57_norm_sq]
  ext <;> simp only [M3.mul] <;> field_simp <;> simp only [dot, mul] <;> ring

/-- For unit quaternions the size conditions hold. -/
theorem c57_matrix_mul_unit (a b : Quat) (ha : a.dot a = 1) (hb : b.dot b = 1) :
    (a.mul b).matrix = a.matrix.mul b.matrix := by
  have h : tfEps ≤ 1 := by unfold tfEps; norm_num
  exact c57_matrix_mul a b (ha ▸ h) (hb ▸ h) (by rw [c57_norm_sq, ha, hb]; simpa using h)

/-- The condition on the size is needed: the half turn about `x`, given by a quaternion of length
`2^-26`, becomes the identity. -/
theorem c57_matrix_small_violation :
    let q : Quat := ⟨0, 1 / 2 ^ 26, 0, 0⟩
    q ≠ ⟨0, 0, 0, 0⟩ ∧ q.matrix = M3.one ∧
      (q.mul ⟨0, 0, 1, 0⟩).mul q.inv = ⟨0, 0, -1, 0⟩ := by
  refine ⟨?_, ?_, ?_⟩
  · intro h; have := congrArg Quat.x h; norm_num at this
  · unfold matrix; rw [if_pos]; simp only [dot, tfEps]; norm_num
  · ext <;> simp only [mul, inv, dot] <;> norm_num

/-- Only `1` and `-1` among the unit quaternions have the identity matrix. -/
theorem c57_matrix_kernel (q : Quat) (h : q.dot q = 1) (h1 : q.matrix = M3.one) :
    q = ⟨1, 0, 0, 0⟩ ∨ q = ⟨-1, 0, 0, 0⟩ := by
  have h2 : tfEps ≤ q.dot q := by rw [h]; unfold tfEps; norm_num
  rw [Quat.matrix_eq h2, h] at h1
  have e0 := congrArg M3.a00 h1
  have e1 := congrArg M3.a11 h1
  simp only [M3.one] at e0 e1
  have hx : q.x = 0 := by nlinarith [sq_nonneg q.x, sq_nonneg q.z]
  have hy : q.y = 0 := by nlinarith [sq_nonneg q.y, sq_nonneg q.z]
  have hz : q.z = 0 := by nlinarith [sq_nonneg q.y, sq_nonneg q.z]
  have hw : q.w = 1 ∨ q.w = -1 := by
    simp only [dot, hx, hy, hz] at h
    have : (q.w - 1) * (q.w + 1) = 0 := by linarith
    rcases mul_eq_zero.mp this with e | e
    · left; linarith
    · right; linarith
  rcases hw with e | e
  · left; ext <;> assumption
  · right; ext <;> assumption

example : (⟨4, 1, -2, 3⟩ : Quat).mul ⟨8, -5, 6, 7⟩ = ⟨28, -44, -14, 48⟩ := by
  ext <;> norm_num [mul]
example : (⟨4, 1, -2, 3⟩ : Quat) ≠ ⟨0, 0, 0, 0⟩ := by
  intro h; have := congrArg Quat.w h; norm_num at this
example : tfEps ≤ (⟨4, 1, -2, 3⟩ : Quat).dot ⟨4, 1, -2, 3⟩ := by
  simp only [dot, tfEps]; norm_num

/-! ## Rotation about an axis -/

/-- Rodrigues' formula for `rotation_matrix`: with the unit axis `d`, a vector goes to
`cos v + sin d×v + (1 - cos)(d·v) d`. -/
theorem c57_rodrigues (angle : ℝ) (axis v : V3) :
    (rotationMatrix angle axis).mulVec v =
      Real.cos angle • v + Real.sin angle • (unitVector axis).cross v +
        ((1 - Real.cos angle) * (unitVector axis).dot v) • unitVector axis := by
  ext <;> simp [rotationMatrix, M3.mulVec, V3.cross, V3.dot] <;> ring

/-- `quaternion_about_axis` and `rotation_matrix` describe the same rotation. -/
theorem c57_about_axis (angle : ℝ) (axis : V3) (h : tfEps < axis.norm) :
    (aboutAxis angle axis).dot (aboutAxis angle axis) = 1 ∧
      (aboutAxis angle axis).matrix = rotationMatrix angle axis := by
  have h0 : 0 < axis.norm := lt_trans (by unfold tfEps; positivity) h
  have hn : axis.norm ^ 2 = axis.dot axis := V3.norm_sq axis
  have e : (⟨0, axis.x, axis.y, axis.z⟩ : Quat).norm = axis.norm := by
    unfold Quat.norm V3.norm; congr 1; simp only [Quat.dot, V3.dot]; ring
  have hq : aboutAxis angle axis = ⟨Real.cos (angle / 2), axis.x * (Real.sin (angle / 2) / axis.norm),
      axis.y * (Real.sin (angle / 2) / axis.norm), axis.z * (Real.sin (angle / 2) / axis.norm)⟩ := by
    unfold aboutAxis
    simp only [e, gt_iff_lt, h, if_true, scale]
  have hcs := Real.sin_sq_add_cos_sq (angle / 2)
  have h1 : (aboutAxis angle axis).dot (aboutAxis angle axis) = 1 := by
    rw [hq]; simp only [Quat.dot]
    field_simp
    simp only [V3.dot] at hn
    linear_combination (axis.norm ^ 2) * hcs - (Real.sin (angle / 2)) ^ 2 * hn
  refine ⟨h1, ?_⟩
  rw [Quat.matrix_eq (by rw [h1]; unfold tfEps; norm_num), h1, hq]
  have hc : Real.cos angle = 1 - 2 * Real.sin (angle / 2) ^ 2 := by
    have := Real.cos_two_mul (angle / 2)
    rw [show 2 * (angle / 2) = angle by ring] at this
    rw [this]; linarith
  have hs : Real.sin angle = 2 * Real.sin (angle / 2) * Real.cos (angle / 2) := by
    have := Real.sin_two_mul (angle / 2)
    rwa [show 2 * (angle / 2) = angle by ring] at this
  simp only [rotationMatrix, hc, hs, unitVector]
  generalize Real.sin (angle / 2) = s at *
  generalize Real.cos (angle / 2) = c at *
  simp only [V3.dot] at hn
  ext <;> simp only [V3.smul_x, V3.smul_y, V3.smul_z] <;> field_simp
  · linear_combination (2 * s ^ 2) * hn
  · ring
  · ring
  · ring
  · linear_combination (2 * s ^ 2) * hn
  · ring
  · ring
  · ring
  · linear_combination (2 * s ^ 2) * hn

example : tfEps < (⟨3, 0, 4⟩ : V3).norm := by
  have : (⟨3, 0, 4⟩ : V3).norm = 5 := by
    unfold V3.norm
    rw [show (⟨3, 0, 4⟩ : V3).dot ⟨3, 0, 4⟩ = 5 ^ 2 by norm_num [V3.dot]]
    exact Real.sqrt_sq (by norm_num)
  rw [this]; unfold tfEps; norm_num

/-! ## Back from the matrix -/

/-- The inverse formula of the branch `t > M[3, 3]`. -/
theorem Quat.from_trace {m : M3} (hm : m.IsRot) (ht : 0 < 1 + m.a00 + m.a11 + m.a22) :
    let t := m.a00 + m.a11 + m.a22 + 1
    let q : Quat := (⟨t, m.a21 - m.a12, m.a02 - m.a20, m.a10 - m.a01⟩ : Quat).scale
      (1 / 2 / Real.sqrt t)
    q.dot q = 1 ∧ q.matrix = m := by
  intro t q
  have ht : 0 < t := by simp only [t]; linarith
  have hs : (1 / 2 / Real.sqrt t) ^ 2 * (4 * t) = 1 := by
    rw [div_pow, Real.sq_sqrt ht.le]; field_simp; norm_num
  have hr := hm.left
  have hl := hm.right
  obtain ⟨c00, c01, c02, c10, c11, c12, c20, c21, c22⟩ := hm.cofactor
  simp only [M3.mul, M3.T, M3.one, M3.mk.injEq] at hr hl
  obtain ⟨h00, h01, h02, h10, h11, h12, h20, h21, h22⟩ := hr
  obtain ⟨l00, l01, l02, l10, l11, l12, l20, l21, l22⟩ := hl
  generalize hsd : 1 / 2 / Real.sqrt t = s at hs
  have htd : t = m.a00 + m.a11 + m.a22 + 1 := rfl
  have hq : q = ⟨t * s, (m.a21 - m.a12) * s, (m.a02 - m.a20) * s, (m.a10 - m.a01) * s⟩ := by
    simp only [q, scale, hsd]
  have hsum : t * t + (m.a21 - m.a12) ^ 2 + (m.a02 - m.a20) ^ 2 + (m.a10 - m.a01) ^ 2 = 4 * t := by
    rw [htd]; grind
  have hn : q.dot q = 1 := by
    rw [hq]; simp only [dot]
    linear_combination s ^ 2 * hsum + hs
  refine ⟨hn, ?_⟩
  rw [Quat.matrix_eq (by rw [hn]; unfold tfEps; norm_num), hn, hq]
  have key : ∀ a b : ℝ, a = b * (4 * t) → a * s ^ 2 = b := by
    intro a b h; rw [h]; linear_combination b * hs
  ext <;> dsimp only
  · have := key ((m.a02 - m.a20) ^ 2 + (m.a10 - m.a01) ^ 2) ((1 - m.a00) / 2) (by rw [htd]; grind)
    linear_combination -2 * this
  · have := key ((m.a21 - m.a12) * (m.a02 - m.a20) - (m.a10 - m.a01) * t) (m.a01 / 2)
      (by rw [htd]; grind)
    linear_combination 2 * this
  · have := key ((m.a21 - m.a12) * (m.a10 - m.a01) + (m.a02 - m.a20) * t) (m.a02 / 2)
      (by rw [htd]; grind)
    linear_combination 2 * this
  · have := key ((m.a21 - m.a12) * (m.a02 - m.a20) + (m.a10 - m.a01) * t) (m.a10 / 2)
      (by rw [htd]; grind)
    linear_combination 2 * this
  · have := key ((m.a21 - m.a12) ^ 2 + (m.a10 - m.a01) ^ 2) ((1 - m.a11) / 2) (by rw [htd]; grind)
    linear_combination -2 * this
  · have := key ((m.a02 - m.a20) * (m.a10 - m.a01) - (m.a21 - m.a12) * t) (m.a12 / 2)
      (by rw [htd]; grind)
    linear_combination 2 * this
  · have := key ((m.a21 - m.a12) * (m.a10 - m.a01) - (m.a02 - m.a20) * t) (m.a20 / 2)
      (by rw [htd]; grind)
    linear_combination 2 * this
  · have := key ((m.a02 - m.a20) * (m.a10 - m.a01) + (m.a21 - m.a12) * t) (m.a21 / 2)
      (by rw [htd]; grind)
    linear_combination 2 * this
  · have := key ((m.a21 - m.a12) ^ 2 + (m.a02 - m.a20) ^ 2) ((1 - m.a22) / 2) (by rw [htd]; grind)
    linear_combination -2 * this

theorem Quat.neg_matrix (q : Quat) : q.neg.matrix = q.matrix := by
  have h : q.neg.dot q.neg = q.dot q := by simp only [neg, dot]; ring
  unfold matrix
  rw [h]
  dsimp only
  split
  · rfl
  · ext <;> simp only [neg, scale] <;> ring

theorem Quat.upper_matrix (q : Quat) : q.upper.matrix = q.matrix := by
  unfold upper; split
  · exact Quat.neg_matrix q
  · rfl

/-- `quaternion_from_matrix(M, isprecise=True)` of a rotation with positive trace gives the unit
quaternion of the rotation with a positive real part. -/
theorem c57_from_precise (junk : ℝ) (m : M3) (hm : m.IsRot) (ht : 0 < m.a00 + m.a11 + m.a22) :
    ∃ q, fromPrecise junk m = some q ∧ q.dot q = 1 ∧ 0 < q.w ∧ q.matrix = m := by
  obtain ⟨h1, h2⟩ := Quat.from_trace hm (by linarith)
  have h0 : m.a00 + m.a11 + m.a22 + 1 > 1 := by linarith
  have hp : 0 < m.a00 + m.a11 + m.a22 + 1 := by linarith
  have hw : 0 < (m.a00 + m.a11 + m.a22 + 1) * (1 / 2 / Real.sqrt (m.a00 + m.a11 + m.a22 + 1)) := by
    have := Real.sqrt_pos.mpr hp
    positivity
  refine ⟨_, ?_, h1, hw, h2⟩
  unfold fromPrecise
  simp only [M3.get4, h0, if_true, mul_one, not_le.mpr hp, if_false]
  congr 1
  unfold upper
  exact if_neg (not_lt.mpr hw.le)

/-- With `isprecise=True` the code is wrong as soon as the trace is not positive. The half turn
about `x` (an exact rotation matrix) raises ZeroDivisionError. -/
theorem c57_precise_raise_violation (junk : ℝ) :
    let m : M3 := ⟨1, 0, 0, 0, -1, 0, 0, 0, -1⟩
    m.IsRot ∧ fromPrecise junk m = none := by
  refine ⟨⟨?_, ?_, ?_⟩, ?_⟩
  · ext <;> norm_num [M3.mul, M3.T, M3.one]
  · ext <;> norm_num [M3.mul, M3.T, M3.one]
  · norm_num [M3.det]
  · unfold fromPrecise pivot
    norm_num [M3.get4]

/-- The half turn about `z` gives a quaternion whose only nonzero entry is uninitialised memory:
if it is not tiny, it stands for the identity. -/
theorem c57_precise_junk_violation (junk : ℝ) (h : 1 ≤ junk) :
    let m : M3 := ⟨-1, 0, 0, 0, -1, 0, 0, 0, 1⟩
    m.IsRot ∧ ∃ q, fromPrecise junk m = some q ∧ q.matrix = M3.one ∧ q.matrix ≠ m := by
  have hm : fromPrecise junk ⟨-1, 0, 0, 0, -1, 0, 0, 0, 1⟩ =
      some (⟨junk * (1 / 2 / Real.sqrt 2), 0, 0, 0⟩ : Quat) := by
    unfold fromPrecise pivot
    norm_num [M3.get4, Function.update, scale, upper]
    have : 0 ≤ junk * (1 / 2 / Real.sqrt 2) := by positivity
    intro h1
    exfalso
    have h2 : 0 ≤ junk * ((Real.sqrt 2)⁻¹ * (1 / 2)) := by positivity
    linarith
  have h1 : (⟨junk * (1 / 2 / Real.sqrt 2), 0, 0, 0⟩ : Quat).matrix = M3.one := by
    unfold matrix
    dsimp only
    split
    · rfl
    · ext <;> simp [scale, M3.one]
  refine ⟨⟨?_, ?_, ?_⟩, _, hm, h1, ?_⟩
  · ext <;> norm_num [M3.mul, M3.T, M3.one]
  · ext <;> norm_num [M3.mul, M3.T, M3.one]
  · norm_num [M3.det]
  · rw [h1]; intro h2; have := congrArg M3.a00 h2; norm_num [M3.one] at this

/-- Every rotation is `quaternion_matrix` of a unit quaternion. -/
theorem c57_onto (m : M3) (hm : m.IsRot) : ∃ q : Quat, q.dot q = 1 ∧ q.matrix = m := by
  have e1 : (1 + m.a00 + m.a11 + m.a22) + (1 + m.a00 - m.a11 - m.a22) + (1 - m.a00 + m.a11 - m.a22)
      + (1 - m.a00 - m.a11 + m.a22) = 4 := by ring
  -- half turns
  have half : ∀ (u : Quat) (d : M3), u.dot u = 1 → u.matrix = d → d.IsRot → d.mul d = M3.one →
      0 < 1 + (m.mul d).a00 + (m.mul d).a11 + (m.mul d).a22 →
      ∃ q : Quat, q.dot q = 1 ∧ q.matrix = m := by
    intro u d hu hd hr hdd ht
    obtain ⟨p, h1, h2⟩ : ∃ p : Quat, p.dot p = 1 ∧ p.matrix = m.mul d :=
      ⟨_, Quat.from_trace (hm.mul hr) ht⟩
    refine ⟨p.mul u, ?_, ?_⟩
    · rw [c57_norm_sq, hu, h1, one_mul]
    · rw [c57_matrix_mul_unit _ _ h1 hu, h2, hd, M3.mul_assoc, hdd]
      ext <;> simp [M3.mul, M3.one]
  have hI : ∀ (u : Quat), u.dot u = 1 → u.w = 0 →
      u.matrix = ⟨1 - 2 * (u.y * u.y + u.z * u.z), 2 * (u.x * u.y), 2 * (u.x * u.z),
        2 * (u.x * u.y), 1 - 2 * (u.x * u.x + u.z * u.z), 2 * (u.y * u.z),
        2 * (u.x * u.z), 2 * (u.y * u.z), 1 - 2 * (u.x * u.x + u.y * u.y)⟩ := by
    intro u h1 h2
    rw [Quat.matrix_eq (by rw [h1]; unfold tfEps; norm_num), h1, h2]
    ext <;> simp
  by_cases h0 : 0 < 1 + m.a00 + m.a11 + m.a22
  · obtain ⟨h1, h2⟩ := Quat.from_trace hm h0
    exact ⟨_, h1, h2⟩
  by_cases hx : 0 < 1 + m.a00 - m.a11 - m.a22
  · refine half ⟨0, 1, 0, 0⟩ ⟨1, 0, 0, 0, -1, 0, 0, 0, -1⟩ (by norm_num [dot]) ?_ ⟨?_, ?_, ?_⟩ ?_ ?_
    · rw [hI _ (by norm_num [dot]) rfl]; ext <;> norm_num
    · ext <;> norm_num [M3.mul, M3.T, M3.one]
    · ext <;> norm_num [M3.mul, M3.T, M3.one]
    · norm_num [M3.det]
    · ext <;> norm_num [M3.mul, M3.one]
    · simp only [M3.mul]; linarith
  by_cases hy : 0 < 1 - m.a00 + m.a11 - m.a22
  · refine half ⟨0, 0, 1, 0⟩ ⟨-1, 0, 0, 0, 1, 0, 0, 0, -1⟩ (by norm_num [dot]) ?_ ⟨?_, ?_, ?_⟩ ?_ ?_
    · rw [hI _ (by norm_num [dot]) rfl]; ext <;> norm_num
    · ext <;> norm_num [M3.mul, M3.T, M3.one]
    · ext <;> norm_num [M3.mul, M3.T, M3.one]
    · norm_num [M3.det]
    · ext <;> norm_num [M3.mul, M3.one]
    · simp only [M3.mul]; linarith
  · refine half ⟨0, 0, 0, 1⟩ ⟨-1, 0, 0, 0, -1, 0, 0, 0, 1⟩ (by norm_num [dot]) ?_ ⟨?_, ?_, ?_⟩ ?_ ?_
    · rw [hI _ (by norm_num [dot]) rfl]; ext <;> norm_num
    · ext <;> norm_num [M3.mul, M3.T, M3.one]
    · ext <;> norm_num [M3.mul, M3.T, M3.one]
    · norm_num [M3.det]
    · ext <;> norm_num [M3.mul, M3.one]
    · simp only [M3.mul]; linarith

/-- What `numpy.linalg.eigh` and `argmax` promise about the column that is used: a unit eigenvector
of `K` whose eigenvalue is not smaller than any other. -/
structure TopEigen (m : M3) (v : Fin 4 → ℝ) : Prop where
  unit : v 0 ^ 2 + v 1 ^ 2 + v 2 ^ 2 + v 3 ^ 2 = 1
  eig : ∃ l, (∀ i, kMul m v i = l * v i) ∧
    ∀ (l' : ℝ) (v' : Fin 4 → ℝ), (∃ i, v' i ≠ 0) → (∀ i, kMul m v' i = l' * v' i) → l' ≤ l

/-- The eigenvector branch of `quaternion_from_matrix` is correct for every rotation matrix. -/
theorem c57_from_matrix (m : M3) (hm : m.IsRot) (v : Fin 4 → ℝ) (hv : TopEigen m v) :
    (fromEig v).dot (fromEig v) = 1 ∧ 0 ≤ (fromEig v).w ∧ (fromEig v).matrix = m := by
  obtain ⟨q, hq, rfl⟩ := c57_onto m hm
  -- K = (4 u uᵀ - 1) / 3
  have hK : ∀ (x : Fin 4 → ℝ), 
      let d := q.x * x 0 + q.y * x 1 + q.z * x 2 + q.w * x 3
      kMul q.matrix x 0 = (4 * d * q.x - x 0) / 3 ∧ kMul q.matrix x 1 = (4 * d * q.y - x 1) / 3 ∧
      kMul q.matrix x 2 = (4 * d * q.z - x 2) / 3 ∧ kMul q.matrix x 3 = (4 * d * q.w - x 3) / 3 := by
    intro x d
    have hq' := hq
    simp only [dot] at hq'
    rw [Quat.matrix_eq (by rw [hq]; unfold tfEps; norm_num), hq]
    simp only [kMul, d]
    refine ⟨?_, ?_, ?_, ?_⟩
    · ring
    · ring
    · ring
    · linear_combination (-4 / 3 * x 3) * hq'
  obtain ⟨hu, l, he, hmax⟩ := hv
  have hq' := hq
  simp only [dot] at hq'
  have hl : 1 ≤ l := by
    apply hmax 1 ![q.x, q.y, q.z, q.w]
    · by_contra hc
      push Not at hc
      have h0 := hc 0; have h1 := hc 1; have h2 := hc 2; have h3 := hc 3
      simp at h0 h1 h2 h3
      rw [h0, h1, h2, h3] at hq'
      norm_num at hq'
    · obtain ⟨k0, k1, k2, k3⟩ := hK ![q.x, q.y, q.z, q.w]
      simp only [Matrix.cons_val] at k0 k1 k2 k3
      intro i
      fin_cases i
      · simp only [Fin.zero_eta, Matrix.cons_val]
        rw [k0]; linear_combination (4 / 3 * q.x) * hq'
      · simp only [Fin.mk_one, Matrix.cons_val]
        rw [k1]; linear_combination (4 / 3 * q.y) * hq'
      · simp only [Fin.reduceFinMk, Matrix.cons_val]
        rw [k2]; linear_combination (4 / 3 * q.z) * hq'
      · simp only [Fin.reduceFinMk, Matrix.cons_val]
        rw [k3]; linear_combination (4 / 3 * q.w) * hq'
  obtain ⟨k0, k1, k2, k3⟩ := hK v
  rw [he] at k0 k1 k2 k3
  generalize q.x * v 0 + q.y * v 1 + q.z * v 2 + q.w * v 3 = d at k0 k1 k2 k3
  have hp : 3 * l + 1 ≠ 0 := by linarith
  obtain ⟨c, hc⟩ : ∃ c, c = 4 * d / (3 * l + 1) := ⟨_, rfl⟩
  have hc' : c * (3 * l + 1) = 4 * d := by rw [hc]; field_simp
  have v0 : v 0 = c * q.x := mul_left_cancel₀ hp (by linear_combination 3 * k0 - q.x * hc')
  have v1 : v 1 = c * q.y := mul_left_cancel₀ hp (by linear_combination 3 * k1 - q.y * hc')
  have v2 : v 2 = c * q.z := mul_left_cancel₀ hp (by linear_combination 3 * k2 - q.z * hc')
  have v3 : v 3 = c * q.w := mul_left_cancel₀ hp (by linear_combination 3 * k3 - q.w * hc')
  have hc2 : (c - 1) * (c + 1) = 0 := by
    rw [v0, v1, v2, v3] at hu
    linear_combination hu - c ^ 2 * hq'
  have hv : (⟨v 3, v 0, v 1, v 2⟩ : Quat) = q ∨ (⟨v 3, v 0, v 1, v 2⟩ : Quat) = q.neg := by
    rcases mul_eq_zero.mp hc2 with h | h
    · left; have : c = 1 := by linarith
      ext <;> simp [v0, v1, v2, v3, this]
    · right; have : c = -1 := by linarith
      ext <;> simp [v0, v1, v2, v3, this, neg]
  have hw : ∀ p : Quat, 0 ≤ p.upper.w := by
    intro p; unfold upper; split
    · simp only [neg]; linarith
    · linarith
  have hn : ∀ p : Quat, p.upper.dot p.upper = p.dot p := by
    intro p; unfold upper; split
    · simp only [neg, dot]; ring
    · rfl
  refine ⟨?_, hw _, ?_⟩
  · unfold fromEig; rw [hn]
    rcases hv with h | h
    · rw [h, hq]
    · rw [h, ← hq]; simp only [neg, dot]; ring
  · unfold fromEig
    rw [Quat.upper_matrix]
    rcases hv with h | h
    · rw [h]
    · rw [h, Quat.neg_matrix]

/-- The eigenvector used by `quaternion_from_matrix` exists, for instance for the half turn about
`z`. -/
example : TopEigen ⟨-1, 0, 0, 0, -1, 0, 0, 0, 1⟩ ![0, 0, 1, 0] := by
  refine ⟨by simp, 1, ?_, ?_⟩
  · intro i; fin_cases i <;>
      first | (simp only [kMul]; simp; done) | (simp only [kMul]; simp; norm_num)
  · intro l' v' ⟨i, hi⟩ h
    have h0 := h 0; have h1 := h 1; have h2 := h 2; have h3 := h 3
    simp only [kMul] at h0 h1 h2 h3
    by_contra hl
    push Not at hl
    have e0 : v' 0 = 0 := by
      have : v' 0 * (l' + 1 / 3) = 0 := by linarith
      rcases mul_eq_zero.mp this with h | h
      · exact h
      · linarith
    have e1 : v' 1 = 0 := by
      have : v' 1 * (l' + 1 / 3) = 0 := by linarith
      rcases mul_eq_zero.mp this with h | h
      · exact h
      · linarith
    have e2 : v' 2 = 0 := by
      have : v' 2 * (l' - 1) = 0 := by linarith
      rcases mul_eq_zero.mp this with h | h
      · exact h
      · linarith
    have e3 : v' 3 = 0 := by
      have : v' 3 * (l' + 1 / 3) = 0 := by linarith
      rcases mul_eq_zero.mp this with h | h
      · exact h
      · linarith
    fin_cases i <;> simp_all

/-- Unit quaternions with the same matrix are equal up to sign. -/
theorem c57_matrix_injective (a b : Quat) (ha : a.dot a = 1) (hb : b.dot b = 1)
    (h : a.matrix = b.matrix) : a = b ∨ a = b.neg := by
  have hne : b ≠ ⟨0, 0, 0, 0⟩ := by rintro rfl; norm_num [dot] at hb
  have hi : b.inv = b.conj := by
    have : (⟨b.w, -b.x, -b.y, -b.z⟩ : Quat).dot ⟨b.w, -b.x, -b.y, -b.z⟩ = 1 := by
      rw [← hb]; simp only [dot]; ring
    ext <;> simp [inv, conj, this]
  have hc : b.conj.dot b.conj = 1 := by rw [← hb]; simp only [dot, conj]; ring
  have h1 : (a.mul b.conj).matrix = M3.one := by
    rw [c57_matrix_mul_unit _ _ ha hc, h, ← c57_matrix_mul_unit _ _ hb hc, ← hi,
      (c57_inverse b hne).1]
    rw [Quat.matrix_eq (by simp [dot, tfEps]; norm_num)]
    ext <;> simp [dot, M3.one]
  have h2 : (a.mul b.conj).dot (a.mul b.conj) = 1 := by rw [c57_norm_sq, ha, hc, one_mul]
  have h3 : a = (a.mul b.conj).mul b := by
    rw [c57_assoc, ← hi, (c57_inverse b hne).2, (c57_unit a).2]
  rcases c57_matrix_kernel _ h2 h1 with e | e
  · left; rw [h3, e, (c57_unit b).1]
  · right; rw [h3, e]; ext <;> simp [mul, neg]

/-! ## Interpolation -/

theorem Quat.scale_unit {q : Quat} (h : q ≠ ⟨0, 0, 0, 0⟩) :
    (q.scale (1 / q.norm)).dot (q.scale (1 / q.norm)) = 1 := by
  have h1 := Quat.dot_pos h
  have h2 : q.norm ^ 2 = q.dot q := Real.sq_sqrt h1.le
  have h3 : q.norm ≠ 0 := (Real.sqrt_pos.mpr h1).ne'
  simp only [dot] at h2
  simp only [scale, dot]; field_simp
  linear_combination -h2

theorem Quat.dot_le_one {p q : Quat} (hp : p.dot p = 1) (hq : q.dot q = 1) :
    -1 ≤ p.dot q ∧ p.dot q ≤ 1 := by
  simp only [dot] at *
  constructor <;> nlinarith [sq_nonneg (p.w - q.w), sq_nonneg (p.x - q.x), sq_nonneg (p.y - q.y),
    sq_nonneg (p.z - q.z), sq_nonneg (p.w + q.w), sq_nonneg (p.x + q.x), sq_nonneg (p.y + q.y),
    sq_nonneg (p.z + q.z)]

theorem Quat.dot_comb {p e r : Quat} {x y : ℝ} (h : r = (p.scale x).add (e.scale y)) :
    r.dot r = x * p.dot r + y * r.dot e := by
  have hw := congrArg Quat.w h
  have hx := congrArg Quat.x h
  have hy := congrArg Quat.y h
  have hz := congrArg Quat.z h
  simp only [add, scale] at hw hx hy hz
  simp only [dot]
  linear_combination r.w * hw + r.x * hx + r.y * hy + r.z * hz

/-- The interpolation starts at `q0` and ends at `q1` (normalised). -/
theorem c57_slerp_ends (q0 q1 : Quat) (spin : ℤ) (s : Bool) :
    slerp q0 q1 0 spin s = q0.scale (1 / q0.norm) ∧
      slerp q0 q1 1 spin s = q1.scale (1 / q1.norm) := by
  constructor <;> simp [slerp]

/-- In between it stays on the unit sphere, if the spin is even, and the angles to the two ends
are the given fraction of the whole angle `a` (including the whole turns of the spin) and the rest
of it: their cosines are the scalar products. The end point is replaced by its negative (the same
rotation) when the path is to be short. -/
theorem c57_slerp (q0 q1 : Quat) (h0 : q0 ≠ ⟨0, 0, 0, 0⟩) (h1 : q1 ≠ ⟨0, 0, 0, 0⟩) (f : ℝ)
    (n : ℤ) (s : Bool) :
    let r := slerp q0 q1 f (2 * n) s
    let u0 := q0.scale (1 / q0.norm)
    let u1 := q1.scale (1 / q1.norm)
    let e := if s = true ∧ u0.dot u1 < 0 then u1.neg else u1
    let a := Real.arccos (u0.dot e) + 2 * n * Real.pi
    r.dot r = 1 ∧
    (f ≠ 1 → tfEps ≤ |(|u0.dot u1|) - 1| →
      u0.dot r = Real.cos (f * a) ∧ r.dot e = Real.cos ((1 - f) * a)) := by
  intro r u0 u1 e a
  have hu0 : u0.dot u0 = 1 := Quat.scale_unit h0
  have hu1 : u1.dot u1 = 1 := Quat.scale_unit h1
  have he : e.dot e = 1 := by
    simp only [e]; split
    · rw [← hu1]; simp only [neg, dot]; ring
    · exact hu1
  have hb := Quat.dot_le_one hu0 he
  have hd : (if s = true ∧ u0.dot u1 < 0 then -u0.dot u1 else u0.dot u1) = u0.dot e := by
    simp only [e]; split
    · simp only [neg, dot]; ring
    · rfl
  have hcos : Real.cos a = u0.dot e := by
    simp only [a]
    rw [show 2 * (n : ℝ) * Real.pi = n * (2 * Real.pi) by ring, Real.cos_add_int_mul_two_pi,
      Real.cos_arccos hb.1 hb.2]
  by_cases hf1 : f = 1
  · have hr : r = u1 := by simp only [r, hf1]; exact (c57_slerp_ends q0 q1 _ s).2
    exact ⟨by rw [hr, hu1], fun h => absurd hf1 h⟩
  by_cases hf0 : f = 0
  · have hr : r = u0 := by simp only [r, hf0]; exact (c57_slerp_ends q0 q1 _ s).1
    refine ⟨by rw [hr, hu0], fun _ _ => ?_⟩
    rw [hr, hf0, hu0]
    simp [hcos]
  have hr : r = slerp q0 q1 f (2 * n) s := rfl
  unfold slerp at hr
  simp only [if_neg hf0, if_neg hf1] at hr
  change r = (if |(|u0.dot u1|) - 1| < tfEps then u0 else _) at hr
  by_cases hp : |(|u0.dot u1|) - 1| < tfEps
  · rw [if_pos hp] at hr
    exact ⟨by rw [hr, hu0], fun _ h => absurd hp (not_lt.mpr h)⟩
  rw [if_neg hp] at hr
  have hp := not_lt.mp hp
  have hsq : (u0.dot e) ^ 2 ≠ 1 := by
    intro h
    have h2 : |u0.dot e| = 1 := by
      rw [← sq_abs] at h
      have := abs_nonneg (u0.dot e)
      nlinarith
    have h3 : |u0.dot u1| = 1 := by
      rw [← h2, ← hd]; split
      · rw [abs_neg]
      · rfl
    rw [h3] at hp
    simp [tfEps] at hp
    norm_num at hp
  have hsin : Real.sin a ≠ 0 := by
    intro h
    have := Real.sin_sq_add_cos_sq a
    rw [h, hcos] at this
    apply hsq; linarith
  have habs : ¬ |a| < tfEps := by
    intro h
    have h2 := Real.one_sub_sq_div_two_le_cos (x := a)
    have h3 : a ^ 2 < tfEps := by
      rw [← sq_abs]
      have h4 : tfEps ≤ 1 := by unfold tfEps; norm_num
      nlinarith [abs_nonneg a]
    have h4 : |u0.dot u1| = |u0.dot e| := by
      rw [← hd]; split
      · rw [abs_neg]
      · rfl
    rw [h4] at hp
    have h6 : 0 < u0.dot e := by
      have : tfEps ≤ 1 := by unfold tfEps; norm_num
      rw [hcos] at h2; linarith
    rw [abs_of_pos h6, abs_of_nonpos (by linarith [hb.2])] at hp
    rw [hcos] at h2
    have : 0 < tfEps := by unfold tfEps; positivity
    linarith
  have ha : Real.arccos (if s = true ∧ u0.dot u1 < 0 then -u0.dot u1 else u0.dot u1) +
      ((2 * n : ℤ) : ℝ) * Real.pi = a := by
    rw [hd]; simp only [a]; push_cast; ring
  have hr2 : r = (u0.scale (Real.sin ((1 - f) * a) * (1 / Real.sin a))).add
      (e.scale (Real.sin (f * a) * (1 / Real.sin a))) := by
    rw [hr]
    change (if |Real.arccos (if s = true ∧ u0.dot u1 < 0 then -u0.dot u1 else u0.dot u1) +
      ((2 * n : ℤ) : ℝ) * Real.pi| < tfEps then u0 else _) = _
    rw [ha, if_neg habs]
  have e1 : Real.sin ((1 - f) * a) = Real.sin a * Real.cos (f * a) - Real.cos a * Real.sin (f * a) := by
    rw [← Real.sin_sub]; congr 1; ring
  have e2 : Real.sin (f * a) =
      Real.sin a * Real.cos ((1 - f) * a) - Real.cos a * Real.sin ((1 - f) * a) := by
    rw [← Real.sin_sub]; congr 1; ring
  have e3 : Real.sin a = Real.sin ((1 - f) * a) * Real.cos (f * a) +
      Real.cos ((1 - f) * a) * Real.sin (f * a) := by
    rw [← Real.sin_add]; congr 1; ring
  rw [hcos] at e1 e2
  have d1 : u0.dot r = Real.cos (f * a) := by
    have : u0.dot r = (Real.sin ((1 - f) * a) * u0.dot u0 + Real.sin (f * a) * u0.dot e)
        * (1 / Real.sin a) := by
      rw [hr2]; simp only [dot, add, scale]; ring
    rw [this, hu0]; field_simp; linear_combination e1
  have d2 : r.dot e = Real.cos ((1 - f) * a) := by
    have : r.dot e = (Real.sin ((1 - f) * a) * u0.dot e + Real.sin (f * a) * e.dot e)
        * (1 / Real.sin a) := by
      rw [hr2]; simp only [dot, add, scale]; ring
    rw [this, he]; field_simp; linear_combination e2
  refine ⟨?_, fun _ _ => ⟨d1, d2⟩⟩
  have := Quat.dot_comb hr2
  rw [this, d1, d2]; field_simp; linear_combination -e3

/-- With an odd spin the result is not a unit quaternion: half way between `1` and the rotation by
120 degrees about `x`, with `spin=1`, the length is `√3`. -/
theorem c57_slerp_spin_violation :
    let r := slerp ⟨1, 0, 0, 0⟩ ⟨1 / 2, Real.sqrt 3 / 2, 0, 0⟩ (1 / 2) 1 true
    r.dot r = 3 := by
  intro r
  have h3 : Real.sqrt 3 ^ 2 = 3 := Real.sq_sqrt (by norm_num)
  have n0 : (⟨1, 0, 0, 0⟩ : Quat).norm = 1 := by simp [Quat.norm, dot]
  have n1 : (⟨1 / 2, Real.sqrt 3 / 2, 0, 0⟩ : Quat).norm = 1 := by
    unfold Quat.norm; rw [show (⟨1 / 2, Real.sqrt 3 / 2, 0, 0⟩ : Quat).dot
      ⟨1 / 2, Real.sqrt 3 / 2, 0, 0⟩ = 1 by simp only [dot]; linarith]; simp
  have hac : Real.arccos (1 / 2) = Real.pi / 3 := by
    rw [← Real.cos_pi_div_three, Real.arccos_cos (by positivity) (by linarith [Real.pi_pos])]
  have s43 : Real.sin (Real.pi / 3 + Real.pi) = -(Real.sqrt 3 / 2) := by
    rw [Real.sin_add_pi, Real.sin_pi_div_three]
  have s23 : Real.sin (1 / 2 * (Real.pi / 3 + Real.pi)) = Real.sqrt 3 / 2 := by
    rw [show 1 / 2 * (Real.pi / 3 + Real.pi) = Real.pi - Real.pi / 3 by ring, Real.sin_pi_sub,
      Real.sin_pi_div_three]
  have hpi := Real.two_le_pi
  have ha : ¬ |Real.pi / 3 + Real.pi| < tfEps := by
    rw [abs_of_pos (by positivity)]; unfold tfEps; norm_num; linarith
  have he : ¬ |(|(1 / 2 : ℝ)|) - 1| < tfEps := by
    unfold tfEps; norm_num
  have hd : ((⟨1, 0, 0, 0⟩ : Quat).scale (1 / 1)).dot
      ((⟨1 / 2, Real.sqrt 3 / 2, 0, 0⟩ : Quat).scale (1 / 1)) = 1 / 2 := by
    simp [dot, scale]
  have hr : r = ⟨-(3 / 2), -(Real.sqrt 3 / 2), 0, 0⟩ := by
    have hne : Real.sqrt 3 ≠ 0 := by positivity
    simp only [r, slerp, n0, n1, hd]
    rw [if_neg (by norm_num), if_neg (by norm_num), if_neg he]
    simp only [show ¬ ((1 / 2 : ℝ) < 0) by norm_num, and_false, if_false, hac, Int.cast_one,
      one_mul, if_neg ha, s43, show (1 - 1 / 2 : ℝ) = 1 / 2 by norm_num, s23]
    ext <;> simp only [add, scale] <;> field_simp <;> norm_num
  rw [hr]; simp only [dot]; linarith

/-- `random_quaternion` gives unit quaternions. -/
theorem c57_random (r0 r1 r2 : ℝ) (h0 : 0 ≤ r0) (h1 : r0 ≤ 1) :
    (random r0 r1 r2).dot (random r0 r1 r2) = 1 := by
  have a := Real.sq_sqrt h0
  have b := Real.sq_sqrt (show 0 ≤ 1 - r0 by linarith)
  simp only [random, dot]
  have c1 := Real.sin_sq_add_cos_sq (Real.pi * 2 * r1)
  have c2 := Real.sin_sq_add_cos_sq (Real.pi * 2 * r2)
  linear_combination (Real.sqrt r0 ^ 2) * c2 + (Real.sqrt (1 - r0) ^ 2) * c1 + a + b

/-- A point of the plane in polar coordinates, the angle as a fraction of a turn. -/
theorem turn_polar (a b : ℝ) : ∃ r : ℝ, 0 ≤ r ∧ r < 1 ∧
    Real.cos (Real.pi * 2 * r) * Real.sqrt (a ^ 2 + b ^ 2) = a ∧
    Real.sin (Real.pi * 2 * r) * Real.sqrt (a ^ 2 + b ^ 2) = b := by
  have hpi := Real.pi_pos
  have hn : ‖(⟨a, b⟩ : ℂ)‖ = Real.sqrt (a ^ 2 + b ^ 2) := by
    rw [Complex.norm_def, Complex.normSq_mk]; congr 1; ring
  have hc := Complex.norm_mul_cos_arg (⟨a, b⟩ : ℂ)
  have hs := Complex.norm_mul_sin_arg (⟨a, b⟩ : ℂ)
  rw [hn] at hc hs
  simp only at hc hs
  obtain ⟨t, ht⟩ : ∃ t, Complex.arg (⟨a, b⟩ : ℂ) = t := ⟨_, rfl⟩
  have h1 := Complex.neg_pi_lt_arg (⟨a, b⟩ : ℂ)
  have h2 := Complex.arg_le_pi (⟨a, b⟩ : ℂ)
  rw [ht] at hc hs h1 h2
  by_cases h : 0 ≤ t
  · refine ⟨t / (2 * Real.pi), by positivity, by rw [div_lt_one (by positivity)]; linarith, ?_⟩
    rw [show Real.pi * 2 * (t / (2 * Real.pi)) = t by field_simp]
    exact ⟨by linarith, by linarith⟩
  · have hd : t / (2 * Real.pi) < 0 := div_neg_of_neg_of_pos (by linarith) (by positivity)
    have hd2 : -1 ≤ t / (2 * Real.pi) := by
      rw [le_div_iff₀ (by positivity)]; linarith
    refine ⟨t / (2 * Real.pi) + 1, by linarith, by linarith, ?_⟩
    rw [show Real.pi * 2 * (t / (2 * Real.pi) + 1) = t + 2 * Real.pi by field_simp,
      Real.cos_add_two_pi, Real.sin_add_two_pi]
    exact ⟨by linarith, by linarith⟩

/-- `random_quaternion` gives every unit quaternion for some numbers between 0 and 1. -/
theorem c57_random_onto (q : Quat) (hq : q.dot q = 1) :
    ∃ r0 r1 r2 : ℝ, (0 ≤ r0 ∧ r0 ≤ 1) ∧ (0 ≤ r1 ∧ r1 < 1) ∧ (0 ≤ r2 ∧ r2 < 1) ∧
      random r0 r1 r2 = q := by
  obtain ⟨w, x, y, z⟩ := q
  simp only [dot] at hq
  obtain ⟨r1, a1, b1, c1, s1⟩ := turn_polar y x
  obtain ⟨r2, a2, b2, c2, s2⟩ := turn_polar w z
  refine ⟨w ^ 2 + z ^ 2, r1, r2, ⟨by positivity, by nlinarith [sq_nonneg x, sq_nonneg y]⟩,
    ⟨a1, b1⟩, ⟨a2, b2⟩, ?_⟩
  have h1 : 1 - (w ^ 2 + z ^ 2) = y ^ 2 + x ^ 2 := by linear_combination -hq
  simp only [random, h1, c1, c2, s1, s2]

/-- `random_rotation_matrix` gives a rotation for all numbers between 0 and 1, and every rotation for
some of them. -/
theorem c57_random_matrix :
    (∀ r0 r1 r2 : ℝ, 0 ≤ r0 → r0 ≤ 1 → (randomMatrix r0 r1 r2).IsRot) ∧
    ∀ m : M3, m.IsRot → ∃ r0 r1 r2 : ℝ, (0 ≤ r0 ∧ r0 ≤ 1) ∧ (0 ≤ r1 ∧ r1 < 1) ∧
      (0 ≤ r2 ∧ r2 < 1) ∧ randomMatrix r0 r1 r2 = m := by
  refine ⟨fun r0 r1 r2 _ _ => c57_matrix_rot _, ?_⟩
  intro m hm
  obtain ⟨q, hq, hqm⟩ := c57_onto m hm
  obtain ⟨r0, r1, r2, h0, h1, h2, hr⟩ := c57_random_onto q hq
  exact ⟨r0, r1, r2, h0, h1, h2, by rw [randomMatrix, hr, hqm]⟩

/-- A quarter of each random number. -/
example : (0 : ℝ) ≤ 1 / 4 ∧ (1 / 4 : ℝ) ≤ 1 ∧
    (random (1 / 4) (1 / 4) (1 / 4)).dot (random (1 / 4) (1 / 4) (1 / 4)) = 1 ∧
    M3.one.IsRot :=
  ⟨by norm_num, by norm_num, c57_random _ _ _ (by norm_num) (by norm_num), by
    have := c57_matrix_rot ⟨1, 0, 0, 0⟩
    have h1 : (⟨1, 0, 0, 0⟩ : Quat).matrix = M3.one := by
      rw [Quat.matrix_eq (by simp only [dot, tfEps]; norm_num)]
      simp [dot, M3.one]
    rwa [h1] at this⟩

end RayOpt
