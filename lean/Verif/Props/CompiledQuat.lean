import Verif.Props.Compiled
import Verif.Props.Quat

/-!
# C107: the compiled quaternions
-/

namespace RayOpt.Compiled

open RayOpt V3

theorem sqrt_quat (q : Quat) : √(q.w * q.w + q.x * q.x + q.y * q.y + q.z * q.z) = q.norm := by
  simp only [Quat.norm, Quat.dot]

/-- Products, conjugates, rotations about an axis and the quaternions of Euler angles and of random numbers are
those of the Python module. -/
theorem c107_same (junk : ℕ → ℝ) (p q : Quat) (angle r0 r1 r2 : ℝ) (axis : V3) (axes : Axes) :
    multiply p q = p.mul q ∧ conjugate q = q.conj ∧ aboutAxis angle axis = Quat.aboutAxis angle axis ∧
      random r0 r1 r2 = Quat.random r0 r1 r2 ∧ fromEuler junk r0 r1 r2 axes = Quat.fromEuler r0 r1 r2 axes := by
  refine ⟨rfl, rfl, ?_, ?_, ?_⟩
  · unfold aboutAxis Quat.aboutAxis
    have h : (⟨0, axis.x, axis.y, axis.z⟩ : Quat).norm =
        √(axis.x * axis.x + axis.y * axis.y + axis.z * axis.z) := by
      simp [Quat.norm, Quat.dot]
    dsimp only
    rw [h]
    split <;> rfl
  · unfold random Quat.random
    dsimp only
    rw [mul_comm Real.pi 2]
  · obtain ⟨f, p, r, s⟩ := axes
    fin_cases f <;> cases p <;> cases r <;> cases s <;> ext <;>
      simp [fromEuler, Quat.fromEuler, nextAxis, next, store, Function.update]

/-- `quaternion_inverse` is that of the Python module, and raises `ValueError` for quaternions shorter than 2^-25. -/
theorem c107_inverse (q : Quat) :
    inverse q = if q.dot q < tfEps then .error .value else .ok q.inv := by
  unfold inverse
  dsimp only
  split
  · rename_i h
    rw [if_pos (show q.dot q < tfEps from h)]
  · rename_i h
    rw [if_neg (show ¬ q.dot q < tfEps from h)]
    congr 1
    ext <;> simp [Quat.inv, Quat.dot]

/-- The matrix of a quaternion that is not shorter than 2^-25 is that of the Python module. -/
theorem c107_matrix (q : Quat) (h : tfEps ≤ q.dot q) : (quaternionMatrix q).1 = ⟨q.matrix, 0, 0, 1⟩ := by
  have h0 : 0 < q.dot q := lt_of_lt_of_le eps_pos h
  have hn : q.norm * q.norm = q.dot q := Real.mul_self_sqrt h0.le
  have hnpos : 0 < q.norm := Real.sqrt_pos.2 h0
  have hlong : ¬ q.norm < tfEps := by
    intro hl
    have h1 : q.norm * q.norm < tfEps * 1 :=
      mul_lt_mul'' hl (lt_trans hl (by unfold tfEps; norm_num)) hnpos.le hnpos.le
    rw [hn, mul_one] at h1
    exact absurd h (not_le.2 h1)
  have hs : √(2 / q.dot q) * √(2 / q.dot q) = 2 / q.dot q := Real.mul_self_sqrt (by positivity)
  unfold quaternionMatrix Quat.matrix
  dsimp only
  rw [if_neg (by rw [sqrt_quat]; exact hlong), if_neg (not_lt.2 h), sqrt_quat]
  have key : ∀ a b : ℝ, a * √(2 / q.dot q) * (b * √(2 / q.dot q)) = a / q.norm * (b / q.norm + b / q.norm) := by
    intro a b
    rw [show a * √(2 / q.dot q) * (b * √(2 / q.dot q)) = a * b * (√(2 / q.dot q) * √(2 / q.dot q)) by ring, hs,
      ← hn]
    field_simp
    ring
  ext <;> simp only [unitMatrix, mat, Quat.scale, key, V3.zero_x, V3.zero_y, V3.zero_z] <;> ring

theorem c107_unit (q : Quat) (h : q.dot q = 1) : unitMatrix q = ⟨q.matrix, 0, 0, 1⟩ := by
  have hn : q.norm = 1 := by rw [Quat.norm, h, Real.sqrt_one]
  have := c107_matrix q (by rw [h]; unfold tfEps; norm_num)
  rw [← this]
  unfold quaternionMatrix
  dsimp only
  rw [if_neg (by rw [sqrt_quat, hn]; unfold tfEps; norm_num), sqrt_quat, hn]
  simp

/-- Shorter quaternions give the identity only below 2^-50, and the array of the caller is left normalised. -/
theorem c107_matrix_short (q : Quat) :
    quaternionMatrix q = if q.norm < tfEps then (H4.one, q) else
      (⟨(q.scale (1 / q.norm)).matrix, 0, 0, 1⟩, q.scale (1 / q.norm)) := by
  by_cases h : q.norm < tfEps
  · unfold quaternionMatrix
    dsimp only
    rw [if_pos h, if_pos (by rw [sqrt_quat]; exact h)]
    rfl
  · have hn : q.norm ≠ 0 := fun h0 => h (by rw [h0]; exact eps_pos)
    have hnn : q.norm * q.norm = q.dot q := Real.mul_self_sqrt (by
      simp only [Quat.dot]; nlinarith [mul_self_nonneg q.w, mul_self_nonneg q.x, mul_self_nonneg q.y, mul_self_nonneg q.z])
    set p := q.scale (1 / q.norm) with hp
    have hp1 : p.dot p = 1 := by
      have : p.dot p = q.dot q / (q.norm * q.norm) := by
        simp only [hp, Quat.scale, Quat.dot]; field_simp
      rw [this, hnn, div_self]
      rw [← hnn]; exact mul_ne_zero hn hn
    have e : quaternionMatrix q = (unitMatrix p, p) := by
      unfold quaternionMatrix
      dsimp only
      rw [if_neg (by rw [sqrt_quat]; exact h), sqrt_quat]
      have : (⟨q.w / q.norm, q.x / q.norm, q.y / q.norm, q.z / q.norm⟩ : Quat) = p := by
        ext <;> simp [hp, Quat.scale, div_eq_mul_inv]
      rw [this]
    have e1 : (quaternionMatrix p).1 = unitMatrix p := by
      have hp2 : p.norm = 1 := by rw [Quat.norm, hp1, Real.sqrt_one]
      unfold quaternionMatrix
      dsimp only
      rw [if_neg (by rw [sqrt_quat, hp2]; unfold tfEps; norm_num), sqrt_quat, hp2]
      simp
    rw [if_neg h, e, ← e1, c107_matrix p (by rw [hp1]; unfold tfEps; norm_num)]

/-- The caller's quaternion is changed. -/
theorem c107_matrix_violation : ∃ q : Quat, (quaternionMatrix q).2 ≠ q := by
  refine ⟨⟨2, 0, 0, 0⟩, ?_⟩
  have hn : (⟨2, 0, 0, 0⟩ : Quat).norm = 2 := by
    simp only [Quat.norm, Quat.dot]
    rw [show (2 * 2 + 0 * 0 + 0 * 0 + 0 * 0 : ℝ) = 2 ^ 2 by norm_num]
    exact Real.sqrt_sq (by norm_num)
  rw [c107_matrix_short, hn, if_neg (by unfold tfEps; norm_num)]
  intro h
  have := congrArg Quat.w h
  simp [Quat.scale] at this

/-- A short quaternion: the compiled matrix is the half turn that it stands for, that of the Python module the
identity. -/
theorem c107_short_violation :
    (quaternionMatrix ⟨0, 1 / 2 ^ 26, 0, 0⟩).1.a = ⟨1, 0, 0, 0, -1, 0, 0, 0, -1⟩ ∧
      (⟨0, 1 / 2 ^ 26, 0, 0⟩ : Quat).matrix = M3.one := by
  have hn : (⟨0, 1 / 2 ^ 26, 0, 0⟩ : Quat).norm = 1 / 2 ^ 26 := by
    simp only [Quat.norm, Quat.dot]
    rw [show (0 * 0 + 1 / 2 ^ 26 * (1 / 2 ^ 26) + 0 * 0 + 0 * 0 : ℝ) = (1 / 2 ^ 26) ^ 2 by norm_num]
    exact Real.sqrt_sq (by norm_num)
  constructor
  · unfold quaternionMatrix
    dsimp only
    rw [if_neg (by rw [sqrt_quat ⟨0, 1 / 2 ^ 26, 0, 0⟩, hn]; unfold tfEps; norm_num),
      sqrt_quat ⟨0, 1 / 2 ^ 26, 0, 0⟩, hn]
    ext <;> simp [unitMatrix, mat] <;> norm_num
  · unfold Quat.matrix
    rw [if_pos (by simp only [Quat.dot]; unfold tfEps; norm_num)]

theorem sqrt_four_sq (x : ℝ) : √(4 * (x * x)) = 2 * |x| := by
  rw [show 4 * (x * x) = (2 * |x|) ^ 2 by rw [mul_pow, sq_abs]; ring]
  exact Real.sqrt_sq (by positivity)

theorem precise_eq (a : M3) (b c : V3) :
    fromPrecise ⟨a, b, c, 1⟩ = .ok (
      if a.a00 + a.a11 + a.a22 > 0 then
        let s := 1 / 2 / √(a.a00 + a.a11 + a.a22 + 1)
        ⟨1 / 4 / s, (a.a21 - a.a12) * s, (a.a02 - a.a20) * s, (a.a10 - a.a01) * s⟩
      else if a.a00 > a.a11 ∧ a.a00 > a.a22 then
        let s := 1 / 2 / √(a.a00 - (a.a11 + a.a22) + 1)
        ⟨(a.a21 - a.a12) * s, 1 / 4 / s, (a.a10 + a.a01) * s, (a.a02 + a.a20) * s⟩
      else if a.a11 > a.a22 then
        let s := 1 / 2 / √(a.a11 - (a.a00 + a.a22) + 1)
        ⟨(a.a02 - a.a20) * s, (a.a10 + a.a01) * s, 1 / 4 / s, (a.a21 + a.a12) * s⟩
      else
        let s := 1 / 2 / √(a.a22 - (a.a00 + a.a11) + 1)
        ⟨(a.a10 - a.a01) * s, (a.a02 + a.a20) * s, (a.a21 + a.a12) * s, 1 / 4 / s⟩) := by
  unfold fromPrecise
  dsimp only
  rw [if_neg (show ¬ isZero (toArray ⟨a, b, c, 1⟩ 15) from fun h => absurd h.1 (by
    show ¬ (1 : ℝ) < tfEps
    unfold tfEps; norm_num)), if_neg (show ¬ toArray ⟨a, b, c, 1⟩ 15 ≠ 1 from fun h => h rfl)]
  rfl

/-- With `isprecise`, the quaternion of the matrix of a unit quaternion is this quaternion or its negative: for half
turns too, for which the Python module gives a wrong result. -/
theorem c107_precise (q : Quat) (h : q.dot q = 1) :
    fromPrecise ⟨q.matrix, 0, 0, 1⟩ = .ok q ∨ fromPrecise ⟨q.matrix, 0, 0, 1⟩ = .ok q.neg := by
  obtain ⟨w, x, y, z⟩ := q
  have h' : w * w + x * x + y * y + z * z = 1 := h
  rw [Quat.matrix_eq (by rw [h]; unfold tfEps; norm_num), h, precise_eq]
  dsimp only
  have big : ∀ a : ℝ, a ≠ 0 → 1 / 4 / (1 / 2 / (2 * |a|)) = |a| := by
    intro a ha
    have := abs_ne_zero.2 ha
    field_simp
    norm_num
  have pos : ∀ a b : ℝ, 0 < a → 4 * a * b * (1 / 2 / (2 * |a|)) = b := by
    intro a b ha
    rw [abs_of_pos ha]
    field_simp
    ring
  have neg : ∀ a b : ℝ, a < 0 → 4 * a * b * (1 / 2 / (2 * |a|)) = -b := by
    intro a b ha
    rw [abs_of_neg ha]
    have := ha.ne
    field_simp
    ring
  have fin : ∀ (a : ℝ) (r : Quat), a ≠ 0 → (0 < a → r = ⟨w, x, y, z⟩) → (a < 0 → r = (⟨w, x, y, z⟩ : Quat).neg) →
      (Except.ok r : Except Err Quat) = .ok ⟨w, x, y, z⟩ ∨
        (Except.ok r : Except Err Quat) = .ok (⟨w, x, y, z⟩ : Quat).neg := by
    intro a r ha h1 h2
    rcases lt_or_gt_of_ne ha with h | h
    · right; rw [h2 h]
    · left; rw [h1 h]
  split
  · rename_i ht
    have e : 1 - 2 * (y * y + z * z) / 1 + (1 - 2 * (x * x + z * z) / 1) + (1 - 2 * (x * x + y * y) / 1) + 1 =
        4 * (w * w) := by linear_combination (-4) * h'
    have ha : w ≠ 0 := by rintro rfl; nlinarith
    rw [e, sqrt_four_sq, big _ ha]
    apply fin w _ ha
    · intro hp
      ext
      · exact abs_of_pos hp
      · exact Eq.trans (by ring) (pos w x hp)
      · exact Eq.trans (by ring) (pos w y hp)
      · exact Eq.trans (by ring) (pos w z hp)
    · intro hp
      ext
      · exact abs_of_neg hp
      · show _ = -x; exact Eq.trans (by ring) (neg w x hp)
      · show _ = -y; exact Eq.trans (by ring) (neg w y hp)
      · show _ = -z; exact Eq.trans (by ring) (neg w z hp)
  · rename_i ht
    split
    · rename_i hx
      have e : 1 - 2 * (y * y + z * z) / 1 - (1 - 2 * (x * x + z * z) / 1 + (1 - 2 * (x * x + y * y) / 1)) + 1 =
          4 * (x * x) := by ring
      have ha : x ≠ 0 := by rintro rfl; nlinarith [hx.1, mul_self_nonneg y]
      rw [e, sqrt_four_sq, big _ ha]
      apply fin x _ ha
      · intro hp
        ext
        · exact Eq.trans (by ring) (pos x w hp)
        · exact abs_of_pos hp
        · exact Eq.trans (by ring) (pos x y hp)
        · exact Eq.trans (by ring) (pos x z hp)
      · intro hp
        ext
        · show _ = -w; exact Eq.trans (by ring) (neg x w hp)
        · exact abs_of_neg hp
        · show _ = -y; exact Eq.trans (by ring) (neg x y hp)
        · show _ = -z; exact Eq.trans (by ring) (neg x z hp)
    · rename_i hx
      split
      · rename_i hy
        have e : 1 - 2 * (x * x + z * z) / 1 - (1 - 2 * (y * y + z * z) / 1 + (1 - 2 * (x * x + y * y) / 1)) + 1 =
            4 * (y * y) := by ring
        have ha : y ≠ 0 := by rintro rfl; nlinarith [mul_self_nonneg z]
        rw [e, sqrt_four_sq, big _ ha]
        apply fin y _ ha
        · intro hp
          ext
          · exact Eq.trans (by ring) (pos y w hp)
          · exact Eq.trans (by ring) (pos y x hp)
          · exact abs_of_pos hp
          · exact Eq.trans (by ring) (pos y z hp)
        · intro hp
          ext
          · show _ = -w; exact Eq.trans (by ring) (neg y w hp)
          · show _ = -x; exact Eq.trans (by ring) (neg y x hp)
          · exact abs_of_neg hp
          · show _ = -z; exact Eq.trans (by ring) (neg y z hp)
      · rename_i hy
        have e : 1 - 2 * (x * x + y * y) / 1 - (1 - 2 * (y * y + z * z) / 1 + (1 - 2 * (x * x + z * z) / 1)) + 1 =
            4 * (z * z) := by ring
        have ha : z ≠ 0 := by
          rintro rfl
          have hy0 : y * y ≤ 0 := by nlinarith
          have hx0 : x * x ≤ 0 := by
            by_contra hc
            exact hx ⟨by nlinarith, by nlinarith [mul_self_nonneg y]⟩
          exact ht (by nlinarith)
        rw [e, sqrt_four_sq, big _ ha]
        apply fin z _ ha
        · intro hp
          ext
          · exact Eq.trans (by ring) (pos z w hp)
          · exact Eq.trans (by ring) (pos z x hp)
          · exact Eq.trans (by ring) (pos z y hp)
          · exact abs_of_pos hp
        · intro hp
          ext
          · show _ = -w; exact Eq.trans (by ring) (neg z w hp)
          · show _ = -x; exact Eq.trans (by ring) (neg z x hp)
          · show _ = -y; exact Eq.trans (by ring) (neg z y hp)
          · exact abs_of_neg hp

/-- The result can have a negative real part, which that of the Python module never has. -/
theorem c107_precise_violation :
    ∃ (m : H4) (q : Quat), fromPrecise m = .ok q ∧ q.w < 0 ∧ m.a.mul m.a.T = M3.one := by
  have hs : (0 : ℝ) < 1 / 2 / √(1 - (-4 / 5 + -4 / 5) + 1) := by
    have : (0 : ℝ) < √(1 - (-4 / 5 + -4 / 5) + 1) := Real.sqrt_pos.2 (by norm_num)
    positivity
  refine ⟨⟨⟨1, 0, 0, 0, -4 / 5, 3 / 5, 0, -3 / 5, -4 / 5⟩, 0, 0, 1⟩,
    ⟨(-3 / 5 - 3 / 5) * (1 / 2 / √(1 - (-4 / 5 + -4 / 5) + 1)), 1 / 4 / (1 / 2 / √(1 - (-4 / 5 + -4 / 5) + 1)),
      (0 + 0) * (1 / 2 / √(1 - (-4 / 5 + -4 / 5) + 1)), (0 + 0) * (1 / 2 / √(1 - (-4 / 5 + -4 / 5) + 1))⟩, ?_, ?_, ?_⟩
  · rw [precise_eq]
    dsimp only
    rw [if_neg (by norm_num), if_pos (by norm_num)]
  · dsimp only
    nlinarith
  · ext <;> simp [M3.mul, M3.T, M3.one] <;> norm_num

/-- A last entry of the matrix that is zero ends the process. -/
theorem c107_precise_fatal (m : H4) (h : m.d = 0) : fromPrecise m = .error .fatal := by
  unfold fromPrecise
  dsimp only
  rw [if_pos]
  rw [show toArray m 15 = m.d from rfl, h]
  exact ⟨eps_pos, by simpa using eps_pos⟩

open Classical in
/-- `quaternion_slerp` is that of the Python module for quaternions that are not short and fractions that are 0, 1 or
not within 2^-50 of 0, 1 and -1, except where a comparison is with a number of exactly 2^-50. -/
theorem c107_slerp (p q : Quat) (f : ℝ) (spin : ℤ) (shortest : Bool) (hp : tfEps ≤ p.norm) (hq : tfEps ≤ q.norm)
    (hf : f = 0 ∨ f = 1 ∨ (tfEps < |f| ∧ tfEps ≤ |(|f|) - 1|))
    (h1 : |(|(p.scale (1 / p.norm)).dot (q.scale (1 / q.norm))|) - 1| ≠ tfEps)
    (h2 : ∀ c, c = (p.scale (1 / p.norm)).dot (q.scale (1 / q.norm)) →
      |Real.arccos c + spin * Real.pi| ≠ tfEps ∧ |Real.arccos (-c) + spin * Real.pi| ≠ tfEps) :
    slerp p q f spin shortest = .ok (Quat.slerp p q f spin shortest) := by
  have hq0 : q.norm ≠ 0 := (lt_of_lt_of_le eps_pos hq).ne'
  have ep : (⟨p.w / p.norm, p.x / p.norm, p.y / p.norm, p.z / p.norm⟩ : Quat) = p.scale (1 / p.norm) := by
    ext <;> simp [Quat.scale, div_eq_mul_inv]
  have eq : (⟨q.w / q.norm, q.x / q.norm, q.y / q.norm, q.z / q.norm⟩ : Quat) = q.scale (1 / q.norm) := by
    ext <;> simp [Quat.scale, div_eq_mul_inv]
  unfold slerp
  dsimp only
  rw [if_neg (by rw [sqrt_quat]; exact not_lt.2 hp), if_neg (by rw [sqrt_quat]; exact not_lt.2 hq)]
  simp only [sqrt_quat]
  rw [ep, eq]
  set a := p.scale (1 / p.norm) with hadef
  set b := q.scale (1 / q.norm) with hb
  have hd : (p.w / p.norm * q.w + p.x / p.norm * q.x + p.y / p.norm * q.y + p.z / p.norm * q.z) / q.norm =
      a.dot b := by
    simp only [hadef, hb, Quat.scale, Quat.dot]
    field_simp
  rw [hd]
  obtain ⟨h2a, h2b⟩ := h2 _ rfl
  have nz : ∀ x : ℝ, notZero x ↔ tfEps < |x| := by
    intro x
    unfold notZero
    rw [lt_abs]
    constructor
    · rintro (h | h)
      · exact Or.inl h
      · exact Or.inr (by linarith)
    · rintro (h | h)
      · exact Or.inl h
      · exact Or.inr (by linarith)
  unfold Quat.slerp
  dsimp only
  rw [← hadef, ← hb]
  rcases hf with rfl | rfl | ⟨hf0, hf1⟩
  · rw [if_neg (by simp; unfold tfEps; norm_num), if_neg (by rw [nz]; simp; exact eps_pos.le), if_pos rfl]
  · rw [if_pos (by simp; exact eps_pos), if_neg one_ne_zero, if_pos rfl]
  · have f0 : f ≠ 0 := by rintro rfl; simp at hf0; exact absurd hf0 (not_lt.2 eps_pos.le)
    have f1 : f ≠ 1 := by rintro rfl; simp at hf1; exact absurd eps_pos (not_lt.2 hf1)
    rw [if_neg (not_lt.2 hf1), if_pos ((nz f).2 hf0), if_neg f0, if_neg f1]
    rcases lt_or_gt_of_ne h1 with h1 | h1
    · rw [if_neg (not_lt.2 h1.le), if_pos h1]
    · rw [if_pos h1, if_neg (not_lt.2 h1.le)]
      have fin : ∀ g : ℝ, |g| ≠ tfEps → ∀ fl : Prop, ∀ _ : Decidable fl,
          (if notZero g then
            (Except.ok ⟨a.w * (Real.sin ((1 - f) * g) * (1 / Real.sin g)) +
                q.w * (if fl then -(Real.sin (f * g) * (1 / Real.sin g) / q.norm)
                  else Real.sin (f * g) * (1 / Real.sin g) / q.norm),
              a.x * (Real.sin ((1 - f) * g) * (1 / Real.sin g)) +
                q.x * (if fl then -(Real.sin (f * g) * (1 / Real.sin g) / q.norm)
                  else Real.sin (f * g) * (1 / Real.sin g) / q.norm),
              a.y * (Real.sin ((1 - f) * g) * (1 / Real.sin g)) +
                q.y * (if fl then -(Real.sin (f * g) * (1 / Real.sin g) / q.norm)
                  else Real.sin (f * g) * (1 / Real.sin g) / q.norm),
              a.z * (Real.sin ((1 - f) * g) * (1 / Real.sin g)) +
                q.z * (if fl then -(Real.sin (f * g) * (1 / Real.sin g) / q.norm)
                  else Real.sin (f * g) * (1 / Real.sin g) / q.norm)⟩ : Except Err Quat)
            else .ok a) =
          .ok (if |g| < tfEps then a else (a.scale (Real.sin ((1 - f) * g) * (1 / Real.sin g))).add
            ((if fl then b.neg else b).scale (Real.sin (f * g) * (1 / Real.sin g)))) := by
        intro g hg fl _
        rcases lt_or_gt_of_ne hg with hg | hg
        · rw [if_neg (by rw [nz]; exact not_lt.2 hg.le), if_pos hg]
        · rw [if_pos ((nz g).2 hg), if_neg (not_lt.2 hg.le)]
          by_cases hfl : fl
          · simp only [if_pos hfl]
            congr 1
            ext <;> simp only [hb, Quat.add, Quat.scale, Quat.neg] <;> ring
          · simp only [if_neg hfl]
            congr 1
            ext <;> simp only [hb, Quat.add, Quat.scale] <;> ring
      have := fin (Real.arccos (if shortest = true ∧ a.dot b < 0 then -a.dot b else a.dot b) + spin * Real.pi)
        (by split <;> assumption) (shortest = true ∧ a.dot b < 0) inferInstance
      have aw : p.w / p.norm = a.w := by simp [hadef, Quat.scale, div_eq_mul_inv]
      have ax : p.x / p.norm = a.x := by simp [hadef, Quat.scale, div_eq_mul_inv]
      have ay : p.y / p.norm = a.y := by simp [hadef, Quat.scale, div_eq_mul_inv]
      have az : p.z / p.norm = a.z := by simp [hadef, Quat.scale, div_eq_mul_inv]
      rw [← this, aw, ax, ay, az]

/-- Fraction -1 gives the second quaternion, as if it were 1. -/
theorem c107_slerp_violation :
    slerp ⟨1, 0, 0, 0⟩ ⟨0, 1, 0, 0⟩ (-1) 0 true = .ok ⟨0, 1, 0, 0⟩ ∧
      Quat.slerp ⟨1, 0, 0, 0⟩ ⟨0, 1, 0, 0⟩ (-1) 0 true = ⟨0, -1, 0, 0⟩ := by
  have n0 : (⟨1, 0, 0, 0⟩ : Quat).norm = 1 := by simp [Quat.norm, Quat.dot]
  have n1 : (⟨0, 1, 0, 0⟩ : Quat).norm = 1 := by simp [Quat.norm, Quat.dot]
  have e1 : ¬ (1 : ℝ) < tfEps := by unfold tfEps; norm_num
  constructor
  · unfold slerp
    dsimp only
    rw [if_neg (by rw [sqrt_quat ⟨1, 0, 0, 0⟩, n0]; exact e1), if_neg (by rw [sqrt_quat ⟨0, 1, 0, 0⟩, n1]; exact e1),
      if_pos (by simp; exact eps_pos)]
    simp
  · unfold Quat.slerp
    dsimp only
    rw [n0, n1, if_neg (by norm_num), if_neg (by norm_num)]
    have hd : ((⟨1, 0, 0, 0⟩ : Quat).scale (1 / 1)).dot ((⟨0, 1, 0, 0⟩ : Quat).scale (1 / 1)) = 0 := by
      simp [Quat.dot, Quat.scale]
    rw [hd, if_neg (by simp; exact not_lt.1 e1)]
    simp only [lt_irrefl, and_false, if_false]
    have hang : Real.arccos 0 + ((0 : ℤ) : ℝ) * Real.pi = Real.pi / 2 := by simp
    rw [hang, if_neg]
    · have : Real.sin ((1 - -1) * (Real.pi / 2)) = 0 := by
        rw [show (1 - -1) * (Real.pi / 2) = Real.pi by ring, Real.sin_pi]
      rw [this, show -1 * (Real.pi / 2) = -(Real.pi / 2) by ring, Real.sin_neg, Real.sin_pi_div_two]
      ext <;> simp [Quat.add, Quat.scale]
    · rw [abs_of_pos (by positivity)]
      have := Real.two_le_pi
      unfold tfEps
      norm_num
      linarith

/-- The random numbers are in [0, 1) and have 53 bits. -/
theorem c107_doubles (a b : ℕ) (ha : a < 2 ^ 32) (hb : b < 2 ^ 32) :
    0 ≤ randomDouble a b ∧ randomDouble a b < 1 ∧ ∃ n : ℕ, randomDouble a b = n / 2 ^ 53 := by
  unfold randomDouble
  have h1 : a >>> 5 < 2 ^ 27 := by rw [Nat.shiftRight_eq_div_pow]; omega
  have h2 : b >>> 6 < 2 ^ 26 := by rw [Nat.shiftRight_eq_div_pow]; omega
  have h3 : a >>> 5 * 67108864 + b >>> 6 < 9007199254740992 := by omega
  have h4 : ((a >>> 5 : ℕ) : ℝ) * 67108864 + (b >>> 6 : ℕ) < 9007199254740992 := by exact_mod_cast h3
  refine ⟨by positivity, (div_lt_one (by norm_num)).2 h4, ⟨a >>> 5 * 67108864 + b >>> 6, ?_⟩⟩
  push_cast
  norm_num

/-- `random_rotation_matrix` is that of the Python module: the matrix of the unit quaternion. -/
theorem c107_random (r0 r1 r2 : ℝ) (h0 : 0 ≤ r0) (h1 : r0 ≤ 1) :
    randomMatrix r0 r1 r2 = ⟨Quat.randomMatrix r0 r1 r2, 0, 0, 1⟩ := by
  have e : random r0 r1 r2 = Quat.random r0 r1 r2 := (c107_same (fun _ => 0) ⟨0, 0, 0, 0⟩ ⟨0, 0, 0, 0⟩ 0 r0 r1 r2 0
    ⟨0, false, false, false⟩).2.2.2.1
  have hu : (Quat.random r0 r1 r2).dot (Quat.random r0 r1 r2) = 1 := c57_random r0 r1 r2 h0 h1
  unfold randomMatrix Quat.randomMatrix
  rw [e, ← c107_matrix _ (by rw [hu]; unfold tfEps; norm_num)]
  have hn : (Quat.random r0 r1 r2).norm = 1 := by rw [Quat.norm, hu, Real.sqrt_one]
  rw [c107_matrix_short, hn, if_neg (by unfold tfEps; norm_num), c107_unit _ hu]
  simp [Quat.scale]

/-- The half turn about x. -/
example : fromPrecise ⟨(⟨0, 1, 0, 0⟩ : Quat).matrix, 0, 0, 1⟩ = .ok ⟨0, 1, 0, 0⟩ ∨
    fromPrecise ⟨(⟨0, 1, 0, 0⟩ : Quat).matrix, 0, 0, 1⟩ = .ok (⟨0, 1, 0, 0⟩ : Quat).neg :=
  c107_precise _ (by simp [Quat.dot])

example : (quaternionMatrix ⟨1, 2, 3, 4⟩).1 = ⟨(⟨1, 2, 3, 4⟩ : Quat).matrix, 0, 0, 1⟩ :=
  c107_matrix _ (by simp only [Quat.dot]; unfold tfEps; norm_num)

example : inverse ⟨0, 0, 0, 0⟩ = .error .value := by
  rw [c107_inverse, if_pos]
  simp [Quat.dot, eps_pos]

end RayOpt.Compiled
