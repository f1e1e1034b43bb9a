import Verif.Props.CompiledEigen
import Mathlib.LinearAlgebra.Matrix.Adjugate

/-!
C109: the eigenvector of the compiled extension and `quaternion_from_matrix`, `rayopt/_transformations.c` 290-387 and
2575-2699.
-/

namespace RayOpt.Compiled

open RayOpt Matrix

/-- The components of the array in the order of the matrix. -/
def Arr4.vec (v : Arr4) : Fin 4 → ℝ := ![v.v3, v.v0, v.v1, v.v2]

/-- The four tries. -/
def tries (M : Sym4) (k : Fin 4) : Arr4 :=
  match k with
  | 0 => try1 M
  | 1 => try2 M
  | 2 => try3 M
  | 3 => try4 M

theorem tries_vec (M : Sym4) (i k : Fin 4) : (tries M k).vec i = M.matrix.adjugate i k := by
  rw [adjugate_fin_succ_eq_det_submatrix, det_fin_three]
  fin_cases k <;> fin_cases i <;>
    simp [Arr4.vec, tries, try1, try2, try3, try4, Sym4.matrix, submatrix, Fin.succAbove] <;> ring

theorem sq_vec (v : Arr4) : v.sq = v.vec ⬝ᵥ v.vec := by
  simp [Arr4.sq, Arr4.vec, dotProduct, Fin.sum_univ_four]; ring

/-- `v / sqrt(n)` -/
noncomputable def Arr4.unit (v : Arr4) : Arr4 := ⟨v.v0 / √v.sq, v.v1 / √v.sq, v.v2 / √v.sq, v.v3 / √v.sq⟩

theorem unit_vec (v : Arr4) : v.unit.vec = (1 / √v.sq) • v.vec := by
  ext i; fin_cases i <;> simp [Arr4.unit, Arr4.vec] <;> ring

theorem shortest_eq (M : Sym4) : shortest M =
    max (((M.m0 * M.m5 * M.m10 * M.m15 - (M.m1 * M.m11) ^ 2) / 10 ^ 6) ^ 2) (1 / 2 ^ 50) := by
  unfold shortest
  dsimp only
  have e : (M.m0 * M.m5 * M.m10 * M.m15 - M.m1 * M.m1 * M.m11 * M.m11) * (1 / 10 ^ 6) *
      ((M.m0 * M.m5 * M.m10 * M.m15 - M.m1 * M.m1 * M.m11 * M.m11) * (1 / 10 ^ 6)) =
      ((M.m0 * M.m5 * M.m10 * M.m15 - (M.m1 * M.m11) ^ 2) / 10 ^ 6) ^ 2 := by ring
  rw [e]
  split_ifs with h
  · rw [max_eq_right]
    · rfl
    · exact h.le
  · exact (max_eq_left (not_lt.mp h)).symm

theorem eigenvector_cases (M : Sym4) :
    (eigenvector M = none ∧ ∀ k, (tries M k).sq < shortest M) ∨
    ∃ k, shortest M ≤ (tries M k).sq ∧ eigenvector M = some (tries M k).unit := by
  unfold eigenvector
  dsimp only
  by_cases h1 : (try1 M).sq < shortest M
  · rw [if_pos h1]
    by_cases h2 : (try2 M).sq < shortest M
    · rw [if_pos h2]
      by_cases h3 : (try3 M).sq < shortest M
      · rw [if_pos h3]
        by_cases h4 : (try4 M).sq < shortest M
        · rw [if_pos h4]
          left
          exact ⟨rfl, fun k => by fin_cases k <;> assumption⟩
        · rw [if_neg h4]
          exact .inr ⟨3, not_lt.mp h4, rfl⟩
      · rw [if_neg h3, if_neg h3]
        exact .inr ⟨2, not_lt.mp h3, rfl⟩
    · rw [if_neg h2, if_neg h2, if_neg h2]
      exact .inr ⟨1, not_lt.mp h2, rfl⟩
  · rw [if_neg h1, if_neg h1, if_neg h1, if_neg h1]
    exact .inr ⟨0, not_lt.mp h1, rfl⟩

theorem shortest_ge (M : Sym4) : 1 / 2 ^ 50 ≤ shortest M := by rw [shortest_eq]; exact le_max_right _ _

/-- `eigenvector_of_symmetric_44` fails exactly if the columns of the adjugate are all shorter than its limit. -/
theorem c109_vector_fails (M : Sym4) : eigenvector M = none ↔ ∀ k, ∑ i, M.matrix.adjugate i k ^ 2 <
    max (((M.m0 * M.m5 * M.m10 * M.m15 - (M.m1 * M.m11) ^ 2) / 10 ^ 6) ^ 2) (1 / 2 ^ 50) := by
  have hs : ∀ k, ∑ i, M.matrix.adjugate i k ^ 2 = (tries M k).sq := by
    intro k
    rw [sq_vec, dotProduct]
    exact Finset.sum_congr rfl fun i _ => by rw [tries_vec]; ring
  simp only [hs, ← shortest_eq]
  rcases eigenvector_cases M with ⟨h, h'⟩ | ⟨k, h, h'⟩
  · exact ⟨fun _ => h', fun _ => h⟩
  · rw [h']
    exact ⟨fun h => by simp at h, fun hk => absurd (hk k) (not_lt.mpr h)⟩

/-- Otherwise the vector it returns has length one, and the matrix takes it to a multiple of a basis vector that is no
longer than 2^25 times the determinant: to zero if the matrix is singular, so the vector is an eigenvector if the
eigenvalue is exact. -/
theorem c109_vector (M : Sym4) (v : Arr4) (h : eigenvector M = some v) : v.vec ⬝ᵥ v.vec = 1 ∧
    (∃ (k : Fin 4) (c : ℝ), |c| ≤ |M.matrix.det| * 2 ^ 25 ∧ M.matrix *ᵥ v.vec = Pi.single k c) ∧
    (M.matrix.det = 0 → M.matrix *ᵥ v.vec = 0) := by
  rcases eigenvector_cases M with ⟨h1, -⟩ | ⟨k, h1, h2⟩
  · rw [h1] at h; simp at h
  rw [h, Option.some.injEq] at h2
  subst h2
  have hge : 1 / 2 ^ 50 ≤ (tries M k).sq := le_trans (shortest_ge M) h1
  have hp : 0 < (tries M k).sq := lt_of_lt_of_le (by norm_num) hge
  have hs : 0 < √(tries M k).sq := Real.sqrt_pos.mpr hp
  have hq : 1 / 2 ^ 25 ≤ √(tries M k).sq := Real.le_sqrt_of_sq_le (by norm_num at hge ⊢; exact hge)
  have hm : M.matrix *ᵥ (tries M k).unit.vec = Pi.single k (M.matrix.det / √(tries M k).sq) := by
    rw [unit_vec, mulVec_smul]
    have : (tries M k).vec = fun i => M.matrix.adjugate i k := funext fun i => tries_vec M i k
    rw [this]
    ext j
    have hj := congrFun (congrFun (mul_adjugate M.matrix) j) k
    rw [mul_apply] at hj
    rw [Pi.smul_apply, smul_eq_mul, mulVec, dotProduct, hj, Matrix.smul_apply, one_apply, smul_eq_mul, Pi.single_apply]
    split_ifs <;> ring
  refine ⟨?_, ⟨k, _, ?_, hm⟩, fun h0 => ?_⟩
  · rw [unit_vec, smul_dotProduct, dotProduct_smul, ← sq_vec, smul_eq_mul, smul_eq_mul]
    have := Real.mul_self_sqrt hp.le
    field_simp
    rw [pow_two, this]
  · rw [abs_div, abs_of_pos hs, div_le_iff₀ hs, mul_assoc]
    have : 1 ≤ 2 ^ 25 * √(tries M k).sq := by
      have := mul_le_mul_of_nonneg_left hq (show (0 : ℝ) ≤ 2 ^ 25 by norm_num)
      norm_num at this ⊢
      exact this
    nlinarith [abs_nonneg M.matrix.det]
  · rw [hm, h0, zero_div, Pi.single_zero]

/-- The matrix that takes the first vector to zero. -/
example : eigenvector ⟨0, 0, 0, 0, -1, 0, 0, -1, 0, -1⟩ = some ⟨0, 0, 0, -1⟩ := by
  have h : tfEps < 1 := by unfold tfEps; norm_num
  have h0 : 0 < tfEps := eps_pos
  norm_num [eigenvector, try1, Arr4.sq, shortest, h, h0, not_lt.mpr h.le]

/-- The entries of the adjugate are small if those of the matrix are. -/
theorem adjugate_small (A : Matrix (Fin 4) (Fin 4) ℝ) (E : ℝ) (h : ∀ i j, |A i j| ≤ E) (i k : Fin 4) :
    |A.adjugate i k| ≤ 6 * E ^ 3 := by
  have hp : ∀ a b c a' b' c' : Fin 4, |A a a' * A b b' * A c c'| ≤ E ^ 3 := by
    intro a b c a' b' c'
    have h0 : 0 ≤ E := le_trans (abs_nonneg _) (h 0 0)
    rw [abs_mul, abs_mul, show E ^ 3 = E * E * E by ring]
    exact mul_le_mul (mul_le_mul (h _ _) (h _ _) (abs_nonneg _) h0) (h _ _) (abs_nonneg _) (mul_nonneg h0 h0)
  rw [adjugate_fin_succ_eq_det_submatrix, abs_mul, abs_pow, abs_neg, abs_one, one_pow, one_mul, det_fin_three]
  simp only [submatrix_apply]
  generalize k.succAbove 0 = k0
  generalize k.succAbove 1 = k1
  generalize k.succAbove 2 = k2
  generalize i.succAbove 0 = i0
  generalize i.succAbove 1 = i1
  generalize i.succAbove 2 = i2
  have p1 := abs_le.mp (hp k0 k1 k2 i0 i1 i2); have p2 := abs_le.mp (hp k0 k1 k2 i0 i2 i1)
  have p3 := abs_le.mp (hp k0 k1 k2 i1 i0 i2); have p4 := abs_le.mp (hp k0 k1 k2 i1 i2 i0)
  have p5 := abs_le.mp (hp k0 k1 k2 i2 i0 i1); have p6 := abs_le.mp (hp k0 k1 k2 i2 i1 i0)
  rw [abs_le]
  constructor <;> linarith [p1.1, p1.2, p2.1, p2.2, p3.1, p3.2, p4.1, p4.2, p5.1, p5.2, p6.1, p6.2]

theorem shift_matrix (M : Sym4) (r : ℝ) : (M.shift r).matrix = M.matrix - r • (1 : Matrix (Fin 4) (Fin 4) ℝ) := by
  ext i j
  fin_cases i <;> fin_cases j <;> simp [Sym4.matrix, Sym4.shift]

/-- The determinant of the shifted matrix is small if the shift is near an eigenvalue, so the eigenvector is good. -/
theorem c109_determinant (M : Sym4) (y r E : ℝ) (hy : Largest M.matrix y) (hE : ∀ i j, |(M.shift r).matrix i j| ≤ E) :
    |(M.shift r).matrix.det| ≤ 24 * E ^ 3 * |y - r| := by
  obtain ⟨⟨u, hu, he⟩, -⟩ := hy
  have hA : (M.shift r).matrix *ᵥ u = (y - r) • u := by
    rw [shift_matrix, sub_mulVec, he, smul_mulVec, one_mulVec, sub_smul]
  generalize (M.shift r).matrix = A at *
  have hadj := adjugate_small A E hE
  obtain ⟨k, hk⟩ : ∃ k, ∀ i, |u i| ≤ |u k| := Finite.exists_max fun i => |u i|
  have hpos : 0 < |u k| := by
    rw [abs_pos]
    intro h0
    apply hu
    funext i
    have := hk i
    rw [h0, abs_zero] at this
    exact abs_eq_zero.mp (le_antisymm this (abs_nonneg _))
  have hd : A.det * u k = (y - r) * ∑ i, A.adjugate k i * u i := by
    have h1 : A.adjugate *ᵥ (A *ᵥ u) = A.det • u := by
      rw [mulVec_mulVec, adjugate_mul, smul_mulVec, one_mulVec]
    have h2 := congrFun h1 k
    rw [hA, mulVec_smul] at h2
    simp only [Pi.smul_apply, smul_eq_mul, mulVec, dotProduct] at h2
    exact h2.symm
  have hs : |∑ i, A.adjugate k i * u i| ≤ 24 * E ^ 3 * |u k| := by
    calc |∑ i, A.adjugate k i * u i| ≤ ∑ i, |A.adjugate k i * u i| := Finset.abs_sum_le_sum_abs _ _
      _ ≤ ∑ _i : Fin 4, 6 * E ^ 3 * |u k| := Finset.sum_le_sum fun i _ => by
          rw [abs_mul]
          exact mul_le_mul (hadj k i) (hk i) (abs_nonneg _) (le_trans (abs_nonneg _) (hadj k i))
      _ = 24 * E ^ 3 * |u k| := by rw [Fin.sum_const, nsmul_eq_mul]; push_cast; ring
  have h3 : |A.det| * |u k| ≤ |y - r| * (24 * E ^ 3 * |u k|) := by
    rw [← abs_mul, hd, abs_mul]
    exact mul_le_mul_of_nonneg_left hs (abs_nonneg _)
  have h4 : |A.det| ≤ |y - r| * (24 * E ^ 3) := by
    refine le_of_mul_le_mul_right ?_ hpos
    linarith
  linarith

/-- The matrix with the eigenvalues 2, -1, -1 and -1, shifted by one and a half. -/
example : |(Sym4.shift ⟨2, 0, 0, 0, -1, 0, 0, -1, 0, -1⟩ (3 / 2)).matrix.det| ≤ 24 * (5 / 2) ^ 3 * |2 - 3 / 2| := by
  refine c109_determinant _ _ _ _ ⟨⟨![1, 0, 0, 0], fun h => by simpa using congrFun h 0, ?_⟩, fun v => ?_⟩ fun i j => ?_
  · ext i; fin_cases i <;> simp [Sym4.matrix, mulVec, dotProduct, Fin.sum_univ_four]
  · simp [Sym4.matrix, mulVec, dotProduct, Fin.sum_univ_four]
    nlinarith [mul_self_nonneg (v 3), mul_self_nonneg (v 1), mul_self_nonneg (v 2)]
  · fin_cases i <;> fin_cases j <;> norm_num [Sym4.matrix, Sym4.shift, abs_le]

/-- The vector part and then the scalar, the order of `K`. -/
def order (q : Quat) : Fin 4 → ℝ := ![q.x, q.y, q.z, q.w]

/-- `K` of a rotation less `l`. -/
theorem kMatrix_rotation (q : Quat) (b c : V3) (d l : ℝ) (hq : q.dot q = 1) :
    (kMatrix ⟨q.matrix, b, c, d⟩).shift l =
      ⟨4 / 3 * q.x * q.x - (l + 1 / 3), 4 / 3 * q.x * q.y, 4 / 3 * q.x * q.z, 4 / 3 * q.x * q.w,
        4 / 3 * q.y * q.y - (l + 1 / 3), 4 / 3 * q.y * q.z, 4 / 3 * q.y * q.w,
        4 / 3 * q.z * q.z - (l + 1 / 3), 4 / 3 * q.z * q.w, 4 / 3 * q.w * q.w - (l + 1 / 3)⟩ := by
  have hm : q.matrix = (unitMatrix q).a := by rw [c107_unit q hq]
  have h1 : q.w * q.w + q.x * q.x + q.y * q.y + q.z * q.z = 1 := hq
  rw [hm]
  ext <;> simp [kMatrix, Sym4.shift, unitMatrix, mat, toArray, -mul_eq_mul_left_iff, -mul_eq_mul_right_iff] <;>
    first
      | ring1
      | linear_combination (-4 / 3 : ℝ) * h1

theorem tries_outer (x y z w k b : ℝ) (i j : Fin 4) :
    (tries ⟨k * x * x - b, k * x * y, k * x * z, k * x * w, k * y * y - b, k * y * z, k * y * w,
      k * z * z - b, k * z * w, k * w * w - b⟩ j).vec i =
      b ^ 2 * ((k * (x * x + y * y + z * z + w * w) - b) * (if i = j then 1 else 0) -
        k * (![x, y, z, w] : Fin 4 → ℝ) j * (![x, y, z, w] : Fin 4 → ℝ) i) := by
  fin_cases j <;> fin_cases i <;> simp [Arr4.vec, tries, try1, try2, try3, try4] <;> ring

/-- For a rotation and a value `l` the tries are this. -/
theorem tries_rotation (q : Quat) (b c : V3) (d l : ℝ) (hq : q.dot q = 1) (i k : Fin 4) :
    (tries ((kMatrix ⟨q.matrix, b, c, d⟩).shift l) k).vec i =
      (l + 1 / 3) ^ 2 * ((1 - l) * (if i = k then 1 else 0) - 4 / 3 * order q k * order q i) := by
  have h1 : q.w * q.w + q.x * q.x + q.y * q.y + q.z * q.z = 1 := hq
  rw [kMatrix_rotation q b c d l hq, tries_outer]
  have : q.x * q.x + q.y * q.y + q.z * q.z + q.w * q.w = 1 := by linarith
  rw [this]
  have e : 4 / 3 * 1 - (l + 1 / 3) = 1 - l := by ring
  rw [e]
  rfl

theorem order_sq (q : Quat) (hq : q.dot q = 1) : order q ⬝ᵥ order q = 1 := by
  have h1 : q.w * q.w + q.x * q.x + q.y * q.y + q.z * q.z = 1 := hq
  simp [order, dotProduct, Fin.sum_univ_four]
  linarith

/-- The square of a try and its product with the quaternion. -/
theorem tries_rotation_sq (q : Quat) (b c : V3) (d l : ℝ) (hq : q.dot q = 1) (k : Fin 4) :
    (tries ((kMatrix ⟨q.matrix, b, c, d⟩).shift l) k).sq =
      (l + 1 / 3) ^ 4 * ((1 - l) ^ 2 - 8 / 3 * (1 - l) * order q k ^ 2 + 16 / 9 * order q k ^ 2) ∧
    (tries ((kMatrix ⟨q.matrix, b, c, d⟩).shift l) k).vec ⬝ᵥ order q =
      (l + 1 / 3) ^ 2 * order q k * ((1 - l) - 4 / 3) := by
  have hv := fun i => tries_rotation q b c d l hq i k
  have ho := order_sq q hq
  rw [dotProduct, Fin.sum_univ_four] at ho
  constructor
  · rw [sq_vec, dotProduct, Fin.sum_univ_four, hv, hv, hv, hv]
    fin_cases k <;> simp <;>
      first
        | linear_combination (l + 1 / 3) ^ 4 * (16 / 9) * order q 0 ^ 2 * ho
        | linear_combination (l + 1 / 3) ^ 4 * (16 / 9) * order q 1 ^ 2 * ho
        | linear_combination (l + 1 / 3) ^ 4 * (16 / 9) * order q 2 ^ 2 * ho
        | linear_combination (l + 1 / 3) ^ 4 * (16 / 9) * order q 3 ^ 2 * ho
  · rw [dotProduct, Fin.sum_univ_four, hv, hv, hv, hv]
    fin_cases k <;> simp <;>
      first
        | linear_combination (-(l + 1 / 3) ^ 2 * (4 / 3) * order q 0) * ho
        | linear_combination (-(l + 1 / 3) ^ 2 * (4 / 3) * order q 1) * ho
        | linear_combination (-(l + 1 / 3) ^ 2 * (4 / 3) * order q 2) * ho
        | linear_combination (-(l + 1 / 3) ^ 2 * (4 / 3) * order q 3) * ho

/-- One of the components is at least a half. -/
theorem order_large (q : Quat) (hq : q.dot q = 1) : ∃ k, 1 / 4 ≤ order q k ^ 2 := by
  by_contra hc
  push Not at hc
  have ho := order_sq q hq
  rw [dot_self4] at ho
  linarith [hc 0, hc 1, hc 2, hc 3]

theorem order_le (q : Quat) (hq : q.dot q = 1) (k : Fin 4) : order q k ^ 2 ≤ 1 := by
  have ho := order_sq q hq
  rw [dot_self4] at ho
  fin_cases k <;> simp only [Fin.zero_eta, Fin.mk_one, Fin.reduceFinMk] <;>
    linarith [sq_nonneg (order q 0), sq_nonneg (order q 1), sq_nonneg (order q 2), sq_nonneg (order q 3)]

theorem exchange_vec (v : Arr4) (q : Quat) : (exchange v).dot (exchange v) = v.vec ⬝ᵥ v.vec ∧ 0 ≤ (exchange v).w ∧
    (exchange v).dot q ^ 2 = (v.vec ⬝ᵥ order q) ^ 2 := by
  unfold exchange
  dsimp only
  split_ifs with h
  · refine ⟨?_, ?_, ?_⟩
    · simp [Quat.dot, Arr4.vec, dotProduct, Fin.sum_univ_four]; ring
    · simp at h ⊢; linarith
    · simp [Quat.dot, Arr4.vec, order, dotProduct, Fin.sum_univ_four]; ring
  · refine ⟨?_, ?_, ?_⟩
    · simp [Quat.dot, Arr4.vec, dotProduct, Fin.sum_univ_four]; ring
    · simpa using h
    · simp [Quat.dot, Arr4.vec, order, dotProduct, Fin.sum_univ_four]; ring

theorem abs_mul_le {a b c d : ℝ} (h : |a| ≤ c) (h' : |b| ≤ d) : |a * b| ≤ c * d := by
  rw [abs_mul]
  exact mul_le_mul h h' (abs_nonneg _) (le_trans (abs_nonneg _) h)

theorem shortest_rotation (q : Quat) (b c : V3) (d l : ℝ) (hq : q.dot q = 1) (hl : |l - 1| ≤ 1 / 8) :
    shortest ((kMatrix ⟨q.matrix, b, c, d⟩).shift l) < 1 / 4 := by
  have h1 : q.w * q.w + q.x * q.x + q.y * q.y + q.z * q.z = 1 := hq
  obtain ⟨ha, hb⟩ := abs_le.mp hl
  rw [shortest_eq, kMatrix_rotation q b c d l hq]
  dsimp only
  have sx := mul_self_nonneg q.x
  have sy := mul_self_nonneg q.y
  have sz := mul_self_nonneg q.z
  have sw := mul_self_nonneg q.w
  have kd : ∀ t, 0 ≤ t → t ≤ 1 → |4 / 3 * t - (l + 1 / 3)| ≤ 3 / 2 := by
    intro t h0 h1; rw [abs_le]; constructor <;> linarith
  have ko : ∀ s t : ℝ, s * s + t * t ≤ 1 → |4 / 3 * s * t| ≤ 1 := by
    intro s t h; rw [abs_le]; constructor <;> nlinarith [sq_nonneg (s + t), sq_nonneg (s - t)]
  have k0 := kd (q.x * q.x) sx (by linarith)
  have k5 := kd (q.y * q.y) sy (by linarith)
  have k10 := kd (q.z * q.z) sz (by linarith)
  have k15 := kd (q.w * q.w) sw (by linarith)
  simp only [← mul_assoc] at k0 k5 k10 k15
  have k1 := ko q.x q.y (by linarith)
  have k11 := ko q.z q.w (by linarith)
  have p := abs_mul_le (abs_mul_le (abs_mul_le k0 k5) k10) k15
  have r := abs_mul_le k1 k11
  generalize (4 / 3 * q.x * q.x - (l + 1 / 3)) * (4 / 3 * q.y * q.y - (l + 1 / 3)) *
    (4 / 3 * q.z * q.z - (l + 1 / 3)) * (4 / 3 * q.w * q.w - (l + 1 / 3)) = P at *
  generalize 4 / 3 * q.x * q.y * (4 / 3 * q.z * q.w) = R at *
  rw [max_lt_iff]
  refine ⟨?_, by norm_num⟩
  obtain ⟨p1, p2⟩ := abs_le.mp p
  obtain ⟨r1, r2⟩ := abs_le.mp r
  have hR : R ^ 2 ≤ 1 := by nlinarith
  have hX : |(P - R ^ 2) / 10 ^ 6| ≤ 1 / 4 := by
    rw [abs_le]; constructor <;> norm_num at p1 p2 ⊢ <;> nlinarith [sq_nonneg R]
  obtain ⟨x1, x2⟩ := abs_le.mp hX
  nlinarith

/-- The quaternion that `quaternion_from_matrix` returns for the rotation of the unit quaternion `q`, if the eigenvalue
it found is not far from one: a unit quaternion with `w` not negative, which differs from `q` and `-q` by no more than
2^53 times the square of the error of the eigenvalue. -/
theorem quaternion_near (q : Quat) (b c : V3) (d l : ℝ) (turns : ℕ) (hq : q.dot q = 1)
    (hm : maxEigenvalue turns (tridiagonalize (kMatrix ⟨q.matrix, b, c, d⟩)) = some l) (hl : |l - 1| ≤ 1 / 8) :
    ∃ p, quaternionOf turns ⟨q.matrix, b, c, d⟩ = some (.ok p) ∧ p.dot p = 1 ∧ 0 ≤ p.w ∧
      1 - p.dot q ^ 2 ≤ 2 ^ 53 * (l - 1) ^ 2 := by
  obtain ⟨ha, hb⟩ := abs_le.mp hl
  have hsh := shortest_rotation q b c d l hq hl
  unfold quaternionOf largest
  rw [hm, Option.map_some, Option.map_some]
  rcases eigenvector_cases ((kMatrix ⟨q.matrix, b, c, d⟩).shift l) with ⟨-, h⟩ | ⟨k, h, h'⟩
  · exfalso
    obtain ⟨k, hk⟩ := order_large q hq
    have := (tries_rotation_sq q b c d l hq k).1
    have hlt := lt_trans (h k) hsh
    rw [this] at hlt
    have h4 : 1 ≤ (l + 1 / 3) ^ 4 := one_le_pow₀ (by linarith)
    have h5 : 1 / 4 ≤ (1 - l) ^ 2 - 8 / 3 * (1 - l) * order q k ^ 2 + 16 / 9 * order q k ^ 2 := by nlinarith
    nlinarith
  · have hv := c109_vector _ _ h'
    rw [h']
    dsimp only
    refine ⟨exchange (tries ((kMatrix ⟨q.matrix, b, c, d⟩).shift l) k).unit, rfl, ?_⟩
    obtain ⟨e1, e2, e3⟩ := exchange_vec (tries ((kMatrix ⟨q.matrix, b, c, d⟩).shift l) k).unit q
    refine ⟨by rw [e1, hv.1], e2, ?_⟩
    rw [e3, unit_vec, smul_dotProduct, smul_eq_mul]
    obtain ⟨s1, s2⟩ := tries_rotation_sq q b c d l hq k
    rw [s2]
    have hge : 1 / 2 ^ 50 ≤ (tries ((kMatrix ⟨q.matrix, b, c, d⟩).shift l) k).sq := le_trans (shortest_ge _) h
    generalize (tries ((kMatrix ⟨q.matrix, b, c, d⟩).shift l) k).sq = n at *
    have hp : 0 < n := lt_of_lt_of_le (by norm_num) hge
    rw [mul_pow, div_pow, one_pow, Real.sq_sqrt hp.le]
    have hk1 := order_le q hq k
    have hk0 := sq_nonneg (order q k)
    generalize order q k = g at *
    have e : 1 - 1 / n * ((l + 1 / 3) ^ 2 * g * (1 - l - 4 / 3)) ^ 2 = (l + 1 / 3) ^ 4 * (l - 1) ^ 2 * (1 - g ^ 2) / n := by
      field_simp
      rw [s1]
      ring
    rw [e, div_le_iff₀ hp]
    have h4 : (l + 1 / 3) ^ 4 ≤ 8 := by
      have : (l + 1 / 3) ^ 2 ≤ 9 / 4 := by nlinarith
      nlinarith [sq_nonneg (l + 1 / 3)]
    have h5 : (l + 1 / 3) ^ 4 * (1 - g ^ 2) ≤ 8 := by nlinarith [pow_nonneg (show 0 ≤ l + 1 / 3 by linarith) 4]
    have h6 : 8 ≤ 2 ^ 53 * n := by
      have := mul_le_mul_of_nonneg_left hge (show (0 : ℝ) ≤ 2 ^ 53 by norm_num)
      norm_num at this ⊢
      exact this
    nlinarith [sq_nonneg (l - 1)]

theorem kMatrix_form (q : Quat) (b c : V3) (d : ℝ) (hq : q.dot q = 1) (v : Fin 4 → ℝ) :
    v ⬝ᵥ ((kMatrix ⟨q.matrix, b, c, d⟩).matrix *ᵥ v) = 4 / 3 * (order q ⬝ᵥ v) ^ 2 - 1 / 3 * (v ⬝ᵥ v) := by
  have h : kMatrix ⟨q.matrix, b, c, d⟩ = (kMatrix ⟨q.matrix, b, c, d⟩).shift 0 := by simp [Sym4.shift]
  rw [h, kMatrix_rotation q b c d 0 hq]
  simp [Sym4.matrix, order, dotProduct, mulVec, Fin.sum_univ_four]
  ring

theorem cauchy4 (u v : Fin 4 → ℝ) : (u ⬝ᵥ v) ^ 2 ≤ (u ⬝ᵥ u) * (v ⬝ᵥ v) := by
  simp only [dotProduct, Fin.sum_univ_four]
  nlinarith [sq_nonneg (u 0 * v 1 - u 1 * v 0), sq_nonneg (u 0 * v 2 - u 2 * v 0), sq_nonneg (u 0 * v 3 - u 3 * v 0),
    sq_nonneg (u 1 * v 2 - u 2 * v 1), sq_nonneg (u 1 * v 3 - u 3 * v 1), sq_nonneg (u 2 * v 3 - u 3 * v 2)]

theorem kMatrix_below (q : Quat) (b c : V3) (d : ℝ) (hq : q.dot q = 1) : Below (kMatrix ⟨q.matrix, b, c, d⟩).matrix 1 := by
  intro v
  rw [kMatrix_form q b c d hq]
  have := cauchy4 (order q) v
  rw [order_sq q hq] at this
  linarith

theorem kMatrix_reaches (q : Quat) (b c : V3) (d : ℝ) (hq : q.dot q = 1) :
    Reaches (kMatrix ⟨q.matrix, b, c, d⟩).matrix 1 := by
  have ho := order_sq q hq
  refine ⟨order q, fun h => ?_, ?_⟩
  · rw [h] at ho; simp at ho
  · rw [kMatrix_form q b c d hq, ho]; norm_num

/-- `quaternion_from_matrix` without `isprecise` for the rotation of any unit quaternion `q`: if no pivot of the
bisection changes its sign the result is a unit quaternion with `w` not negative, and the cosine between it and `q` or
`-q` has a square within 2^-42 of one. -/
theorem c109_quaternion (q : Quat) (b c : V3) (d : ℝ) (turns : ℕ) (ht : 50 ≤ turns) (hq : q.dot q = 1)
    (hk : ∀ x ∈ tested turns (tridiagonalize (kMatrix ⟨q.matrix, b, c, d⟩)),
      Clean (tridiagonalize (kMatrix ⟨q.matrix, b, c, d⟩))
        (precision (tridiagonalize (kMatrix ⟨q.matrix, b, c, d⟩))) x) :
    ∃ p, quaternionOf turns ⟨q.matrix, b, c, d⟩ = some (.ok p) ∧ p.dot p = 1 ∧ 0 ≤ p.w ∧
      1 - p.dot q ^ 2 ≤ 1 / 2 ^ 42 := by
  obtain ⟨l, -, -, hl⟩ := c109_terminates (tridiagonalize (kMatrix ⟨q.matrix, b, c, d⟩))
  have hl := hl turns ht
  have hb := tri_below _ _ (kMatrix_below q b c d hq)
  have ha := tri_above (kMatrix ⟨q.matrix, b, c, d⟩) (-1 / 3) (fun v => by
    rw [kMatrix_form q b c d hq]; nlinarith [sq_nonneg (order q ⬝ᵥ v)])
  have hp := precision_le _ _ _ hb ha (by norm_num) (by norm_num)
  have h1 := (max_between _ turns _ l hl).1 hb
  have h2 := (max_between _ turns _ l hl).2 (tri_reaches _ _ (kMatrix_reaches q b c d hq)) hk
  have h47 : |l - 1| ≤ 9 / 2 / 2 ^ 50 := by
    rw [abs_le]
    generalize precision (tridiagonalize (kMatrix ⟨q.matrix, b, c, d⟩)) = e at *
    constructor <;> norm_num at * <;> linarith
  obtain ⟨p, r1, r2, r3, r4⟩ := quaternion_near q b c d l turns hq hl (by norm_num at h47 ⊢; linarith)
  refine ⟨p, r1, r2, r3, le_trans r4 ?_⟩
  have : (l - 1) ^ 2 ≤ (9 / 2 / 2 ^ 50) ^ 2 := by
    rw [← sq_abs (l - 1)]
    exact pow_le_pow_left₀ (abs_nonneg _) h47 2
  norm_num at this ⊢
  linarith

/-- The matrix of no rotation is such a matrix. -/
example : ∃ p, quaternionOf 50 ⟨Quat.matrix ⟨1, 0, 0, 0⟩, 0, 0, 1⟩ = some (.ok p) ∧ p.dot p = 1 ∧ 0 ≤ p.w ∧
    1 - p.dot ⟨1, 0, 0, 0⟩ ^ 2 ≤ 1 / 2 ^ 42 := by
  have hq : Quat.dot ⟨1, 0, 0, 0⟩ ⟨1, 0, 0, 0⟩ = 1 := by norm_num [Quat.dot]
  have hK : kMatrix ⟨Quat.matrix ⟨1, 0, 0, 0⟩, 0, 0, 1⟩ = ⟨-1 / 3, 0, 0, 0, -1 / 3, 0, 0, -1 / 3, 0, 1⟩ := by
    have h : kMatrix ⟨Quat.matrix ⟨1, 0, 0, 0⟩, 0, 0, 1⟩ = (kMatrix ⟨Quat.matrix ⟨1, 0, 0, 0⟩, 0, 0, 1⟩).shift 0 := by
      simp [Sym4.shift]
    rw [h, kMatrix_rotation _ _ _ _ _ hq]
    norm_num
  have he : ¬ tfEps < 0 := not_lt.mpr eps_pos.le
  have hT : tridiagonalize (kMatrix ⟨Quat.matrix ⟨1, 0, 0, 0⟩, 0, 0, 1⟩) = ⟨-1 / 3, -1 / 3, -1 / 3, 1, 0, 0, 0⟩ := by
    rw [hK]
    norm_num [tridiagonalize, house2, house3, he]
  have hB : bounds ⟨-1 / 3, -1 / 3, -1 / 3, 1, 0, 0, 0⟩ = (-1 / 3, 1) := by norm_num [bounds]
  refine c109_quaternion _ _ _ _ 50 le_rfl hq ?_
  rw [hT]
  unfold tested
  rw [hB]
  exact example_clean (-1 / 3) _ (by norm_num) (by rw [precision, hB]; norm_num [abs_of_pos]) 50 _ (by norm_num) (by norm_num)

/-- The cosine of the angle of the example. -/
noncomputable def nearC : ℝ := 1 / 2 ^ 54

/-- Its sine. -/
noncomputable def nearS : ℝ := √(1 - nearC ^ 2)

theorem near_facts : nearS ^ 2 = 1 - nearC ^ 2 ∧ 1 - nearC ≤ nearS ∧ nearS ≤ 1 ∧ 0 < nearC ∧ nearC ≤ 1 / 1000 := by
  have h0 : 0 < nearC := by unfold nearC; norm_num
  have h1 : nearC ≤ 1 / 1000 := by unfold nearC; norm_num
  have hs : nearS ^ 2 = 1 - nearC ^ 2 := Real.sq_sqrt (by nlinarith)
  refine ⟨hs, Real.le_sqrt_of_sq_le (by nlinarith), ?_, h0, h1⟩
  exact Real.sqrt_le_one.mpr (by nlinarith)

/-- The tridiagonal matrix of a rotation about `x` of a little less than a right angle. -/
noncomputable def nearT : Tri :=
  ⟨(1 - 2 * nearC) / 3, (1 + 2 * nearC) / 3, -1 / 3, -1 / 3, -(2 * nearS / 3), 0, 0⟩

theorem near_bounds : bounds nearT = ((1 - 2 * nearC - 2 * nearS) / 3, (1 + 2 * nearC + 2 * nearS) / 3) := by
  obtain ⟨hs, h1, h2, h3, h4⟩ := near_facts
  unfold bounds nearT
  dsimp only
  rw [abs_neg, abs_of_nonneg (show 0 ≤ 2 * nearS / 3 by linarith), abs_zero]
  refine Prod.ext ?_ ?_
  · dsimp only
    rw [min_eq_left, min_eq_left, min_eq_left]
    · ring
    · linarith
    · rw [min_eq_left] <;> linarith
    · rw [min_eq_left, min_eq_left] <;> first | linarith | (rw [min_eq_left] <;> linarith)
  · dsimp only
    rw [max_eq_left, max_eq_left, max_eq_right]
    · ring
    · linarith
    · rw [max_eq_right] <;> linarith
    · rw [max_eq_left, max_eq_right] <;> first | linarith | (rw [max_eq_right] <;> linarith)

/-- The first midpoint is taken for larger than the largest eigenvalue, which is one. -/
theorem near_max : ∃ r, (1 - nearC - nearS) / 3 ≤ r ∧ r ≤ 1 / 3 ∧ ∀ turns ≥ 50, maxEigenvalue turns nearT = some r := by
  obtain ⟨hs, h1, h2, h3, h4⟩ := near_facts
  have hp : precision nearT = 4 / 3 * (nearS + nearC) / 2 ^ 50 := by
    unfold precision
    rw [near_bounds]
    dsimp only
    rw [abs_of_neg (by linarith), abs_of_pos (by linarith)]
    norm_num
    ring
  have he0 : 0 < precision nearT := by rw [hp]; have : 0 < nearS := by linarith
                                       positivity
  have hsmall : precision nearT ≤ 1 / 1000 := by rw [hp]; norm_num; linarith
  have hbig : 2 * nearC / 3 < precision nearT := by
    rw [hp]; unfold nearC; have : 1 / 2 ≤ nearS := by linarith
    norm_num
    linarith
  obtain ⟨eps, heps⟩ : ∃ e, precision nearT = e := ⟨_, rfl⟩
  rw [heps] at he0 hsmall hbig
  have c1 : ¬ count nearT eps (1 / 3) < 4 := by
    have p0 : (pivots nearT eps (1 / 3)).v0 = -(2 * nearC / 3) := by simp only [pivots, nearT]; ring
    have l0 : lift eps (-(2 * nearC / 3)) = eps := by
      unfold lift
      rw [if_pos]
      rw [abs_neg, abs_of_pos (by linarith)]
      exact hbig
    have p1 : (pivots nearT eps (1 / 3)).v1 < 0 := by
      have : (pivots nearT eps (1 / 3)).v1 = 2 * nearC / 3 - (2 * nearS / 3) ^ 2 / eps := by
        have e : (pivots nearT eps (1 / 3)).v1 = (1 + 2 * nearC) / 3 - 1 / 3 -
          -(2 * nearS / 3) * -(2 * nearS / 3) / lift eps (pivots nearT eps (1 / 3)).v0 := rfl
        rw [e, p0, l0]
        ring
      rw [this, sub_neg, lt_div_iff₀ he0]
      nlinarith
    have p2 : (pivots nearT eps (1 / 3)).v2 < 0 := by simp only [pivots, nearT]; norm_num
    have p3 : (pivots nearT eps (1 / 3)).v3 < 0 := by simp only [pivots, nearT]; norm_num
    unfold count
    dsimp only
    rw [if_pos p1, if_pos p2, if_pos p3, p0, if_pos (by linarith)]
    norm_num
  have c2 : count nearT eps ((1 - nearC - nearS) / 3) < 4 := by
    have p0 : ¬ (pivots nearT eps ((1 - nearC - nearS) / 3)).v0 < 0 := by simp only [pivots, nearT]; linarith
    unfold count
    dsimp only
    rw [if_neg p0]
    split_ifs <;> norm_num
  have step : ∀ n, maxEigenvalue (n + 2) nearT = bisect nearT eps n ((1 - nearC - nearS) / 3) (1 / 3) := by
    intro n
    unfold maxEigenvalue
    rw [heps, near_bounds]
    dsimp only
    rw [bisect, if_pos (by rw [abs_of_pos (by linarith)]; linarith)]
    have m1 : ((1 + 2 * nearC + 2 * nearS) / 3 + (1 - 2 * nearC - 2 * nearS) / 3) / 2 = 1 / 3 := by ring
    dsimp only
    rw [m1, if_neg (by rintro (h | h) <;> linarith), if_neg c1, bisect,
      if_pos (by rw [abs_of_pos (by linarith)]; linarith)]
    have m2 : (1 / 3 + (1 - 2 * nearC - 2 * nearS) / 3) / 2 = (1 - nearC - nearS) / 3 := by ring
    dsimp only
    rw [m2, if_neg (by rintro (h | h) <;> linarith), if_pos c2]
  have hw : 1 / 3 - (1 - nearC - nearS) / 3 ≤ eps * 2 ^ 48 := by
    rw [← heps, hp]; norm_num; linarith
  obtain ⟨r, hl, hu, hr, -⟩ := bisect_some nearT eps he0.le 48 48 _ _ (by linarith) hw le_rfl
  refine ⟨r, hl, hu, fun n hn => ?_⟩
  obtain ⟨m, rfl⟩ : ∃ m, n = m + 2 := ⟨n - 2, by omega⟩
  obtain ⟨r', -, -, hr', hr2⟩ := bisect_some nearT eps he0.le 48 m _ _ (by linarith) hw (by omega)
  rw [hr, Option.some.injEq] at hr'
  rw [step, hr', hr2]

/-- The eigenvalue returned for this matrix is at most a third; the largest eigenvalue is one. -/
theorem c109_eigenvalue_violation : ∃ (T : Tri) (r : ℝ), Largest T.matrix 1 ∧
    (∀ turns ≥ 50, maxEigenvalue turns T = some r) ∧ r ≤ 1 / 3 := by
  obtain ⟨r, -, hu, h⟩ := near_max
  obtain ⟨hs, h1, h2, h3, h4⟩ := near_facts
  refine ⟨nearT, r, ⟨⟨![nearS, -(1 + nearC), 0, 0], fun h => ?_, ?_⟩, fun v => ?_⟩, h, hu⟩
  · have := congrFun h 0
    simp at this
    linarith
  · ext i
    fin_cases i <;> simp [nearT, Tri.matrix, mulVec, dotProduct, Fin.sum_univ_four]
    · ring
    · linear_combination (-2 / 3 : ℝ) * hs
  · have hf := form_eq nearT 1 v
    have hc : 0 < 1 + nearC := by linarith
    have : form nearT 1 v ≤ 0 := by
      have e : (1 + nearC) * form nearT 1 v = -(2 / 3) * ((1 + nearC) * v 0 + nearS * v 1) ^ 2 -
          4 / 3 * (1 + nearC) * (v 2 ^ 2 + v 3 ^ 2) := by
        simp only [form, nearT]
        linear_combination (2 / 3 * v 1 ^ 2) * hs
      have hn : (1 + nearC) * form nearT 1 v ≤ 0 := by
        rw [e]
        nlinarith [sq_nonneg ((1 + nearC) * v 0 + nearS * v 1), mul_nonneg hc.le (sq_nonneg (v 2)),
          mul_nonneg hc.le (sq_nonneg (v 3))]
      by_contra hx
      nlinarith [mul_pos hc (not_le.mp hx)]
    linarith

/-- The quaternion of the example. -/
noncomputable def nearQ : Quat := ⟨√((1 + nearC) / 2), √((1 - nearC) / 2), 0, 0⟩

theorem nearQ_facts : nearQ.w ^ 2 = (1 + nearC) / 2 ∧ nearQ.x ^ 2 = (1 - nearC) / 2 ∧ 0 < nearQ.w ∧ 0 < nearQ.x ∧
    nearQ.x * nearQ.w = nearS / 2 := by
  obtain ⟨hs, h1, h2, h3, h4⟩ := near_facts
  have hw : nearQ.w ^ 2 = (1 + nearC) / 2 := Real.sq_sqrt (by linarith)
  have hx : nearQ.x ^ 2 = (1 - nearC) / 2 := Real.sq_sqrt (by linarith)
  have pw : 0 < nearQ.w := Real.sqrt_pos.mpr (by linarith)
  have px : 0 < nearQ.x := Real.sqrt_pos.mpr (by linarith)
  refine ⟨hw, hx, pw, px, ?_⟩
  have hsq : (nearQ.x * nearQ.w) ^ 2 = (nearS / 2) ^ 2 := by
    rw [mul_pow, hw, hx, div_pow, hs]; ring
  exact (pow_left_inj₀ (mul_pos px pw).le (by linarith) two_ne_zero).mp hsq

theorem near_unit : nearQ.dot nearQ = 1 := by
  obtain ⟨hw, hx, -⟩ := nearQ_facts
  have : nearQ.dot nearQ = nearQ.w ^ 2 + nearQ.x ^ 2 := by simp [Quat.dot, nearQ]; ring
  rw [this, hw, hx]; ring

theorem near_k (l : ℝ) : (kMatrix ⟨nearQ.matrix, 0, 0, 1⟩).shift l =
    ⟨(1 - 2 * nearC) / 3 - l, 0, 0, 2 * nearS / 3, -1 / 3 - l, 0, 0, -1 / 3 - l, 0, (1 + 2 * nearC) / 3 - l⟩ := by
  obtain ⟨hw, hx, -, -, hxw⟩ := nearQ_facts
  rw [kMatrix_rotation nearQ 0 0 1 l near_unit]
  have hy : nearQ.y = 0 := rfl
  have hz : nearQ.z = 0 := rfl
  rw [hy, hz]
  ext <;> simp <;> first | ring1 | linear_combination (4 / 3 : ℝ) * hx | linear_combination (4 / 3 : ℝ) * hxw |
    linear_combination (4 / 3 : ℝ) * hw

theorem near_tri : tridiagonalize (kMatrix ⟨nearQ.matrix, 0, 0, 1⟩) = nearT := by
  obtain ⟨hs, h1, h2, h3, h4⟩ := near_facts
  have h : kMatrix ⟨nearQ.matrix, 0, 0, 1⟩ = (kMatrix ⟨nearQ.matrix, 0, 0, 1⟩).shift 0 := by simp [Sym4.shift]
  rw [h, near_k 0]
  have hm : 0 < 2 * nearS / 3 := by linarith
  obtain ⟨m, hmm⟩ : ∃ m, 2 * nearS / 3 = m := ⟨_, rfl⟩
  have hT : nearT = ⟨(1 - 2 * nearC) / 3, (1 + 2 * nearC) / 3, -1 / 3, -1 / 3, -m, 0, 0⟩ := by rw [← hmm]; rfl
  have hbig : m > tfEps := by rw [← hmm]; unfold tfEps; norm_num; linarith
  rw [hmm] at hm ⊢
  rw [hT]
  have h3' : house3 ⟨(1 - 2 * nearC) / 3 - 0, 0, 0, m, -1 / 3 - 0, 0, 0, -1 / 3 - 0, 0, (1 + 2 * nearC) / 3 - 0⟩ =
      ⟨(1 - 2 * nearC) / 3, -m, 0, m, (1 + 2 * nearC) / 3, 0, 0, -1 / 3, 0, -1 / 3⟩ := by
    unfold house3
    dsimp only
    have hr : √(0 * 0 + (0 * 0 + m * m)) = m := by
      rw [show (0 * 0 + (0 * 0 + m * m) : ℝ) = m ^ 2 by ring, Real.sqrt_sq hm.le]
    rw [hr, if_pos hbig, if_neg (lt_irrefl _)]
    ext <;> simp <;> field_simp <;> ring
  unfold tridiagonalize
  rw [h3']
  unfold house2
  dsimp only
  have hr : √(0 * 0 + 0 * 0) = (0 : ℝ) := by simp
  rw [hr, if_neg (not_lt.mpr eps_pos.le)]

theorem near_vector (v : Arr4) (a b : ℝ) (hv : v = ⟨0, 0, -a, b⟩) (ha : 0 < a) (hb : 0 < b) :
    v.unit.v2 < 0 ∧ 0 < v.unit.v3 ∧ v.unit.v0 = 0 ∧ v.unit.v1 = 0 := by
  have hroot : 0 < √v.sq := Real.sqrt_pos.mpr (by rw [hv, Arr4.sq]; nlinarith)
  have e0 : v.v0 = 0 := by rw [hv]
  have e1 : v.v1 = 0 := by rw [hv]
  have e2 : v.v2 = -a := by rw [hv]
  have e3 : v.v3 = b := by rw [hv]
  unfold Arr4.unit
  dsimp only
  generalize √v.sq = n at *
  rw [e0, e1, e2, e3]
  exact ⟨div_neg_of_neg_of_pos (by linarith) hroot, div_pos hb hroot, zero_div _, zero_div _⟩

set_option maxHeartbeats 1000000 in
/-- The rotation about `x` by an angle of a little less than a right angle: `quaternion_from_matrix` returns a quaternion
that turns the other way. -/
theorem c109_quaternion_violation : ∃ q p : Quat, q.dot q = 1 ∧ 0 < q.w ∧ 0 < q.x ∧ q.y = 0 ∧ q.z = 0 ∧
    (∀ turns ≥ 50, quaternionOf turns ⟨q.matrix, 0, 0, 1⟩ = some (.ok p)) ∧ p.dot p = 1 ∧ 0 < p.w ∧ p.x < 0 ∧
    1 / 3 < 1 - p.dot q ^ 2 := by
  obtain ⟨hs, h1, h2, h3, h4⟩ := near_facts
  obtain ⟨hw, hx, pw, px, hxw⟩ := nearQ_facts
  obtain ⟨r, hl, hu, h⟩ := near_max
  have hm := near_k r
  obtain ⟨M, hM⟩ : ∃ M, (kMatrix ⟨nearQ.matrix, 0, 0, 1⟩).shift r = M := ⟨_, rfl⟩
  rw [hM] at hm
  obtain ⟨be, hbe⟩ : ∃ be, r + 1 / 3 = be := ⟨_, rfl⟩
  obtain ⟨ga, hga⟩ : ∃ ga, (1 + 2 * nearC) / 3 - r = ga := ⟨_, rfl⟩
  obtain ⟨si, hsi⟩ : ∃ si, 2 * nearS / 3 = si := ⟨_, rfl⟩
  have hb0 : 3 / 10 ≤ be := by linarith
  have hb1 : be ≤ 1 := by linarith
  have hg0 : 0 < ga := by linarith
  have hg1 : ga ≤ 1 := by linarith
  have hs0 : 6 / 10 ≤ si := by linarith
  have ht : try1 M = ⟨0, 0, -(be ^ 2 * si), be ^ 2 * ga⟩ := by
    rw [hm]
    ext <;> simp only [try1] <;> (try simp only [← hbe, ← hga, ← hsi]) <;> ring
  have hsq : (try1 M).sq = be ^ 4 * (si ^ 2 + ga ^ 2) := by rw [ht, Arr4.sq]; ring
  have hb2 : 9 / 100 ≤ be ^ 2 := by nlinarith
  have hb4 : 81 / 10000 ≤ be ^ 4 := by nlinarith
  have hsg : 36 / 100 ≤ si ^ 2 + ga ^ 2 := by nlinarith
  have hn : 1 / 1000 ≤ (try1 M).sq := by rw [hsq]; nlinarith
  have hsh : shortest M < 1 / 1000 := by
    rw [shortest_eq, max_lt_iff]
    refine ⟨?_, by norm_num⟩
    rw [hm]
    dsimp only
    have k0 : |(1 - 2 * nearC) / 3 - r| ≤ 1 := abs_le.mpr ⟨by linarith, by linarith⟩
    have k5 : |-1 / 3 - r| ≤ 1 := abs_le.mpr ⟨by linarith, by linarith⟩
    have k15 : |(1 + 2 * nearC) / 3 - r| ≤ 1 := abs_le.mpr ⟨by linarith, by linarith⟩
    have p := abs_mul_le (abs_mul_le (abs_mul_le k0 k5) k5) k15
    generalize ((1 - 2 * nearC) / 3 - r) * (-1 / 3 - r) * (-1 / 3 - r) * ((1 + 2 * nearC) / 3 - r) = P at *
    obtain ⟨p1, p2⟩ := abs_le.mp p
    norm_num
    nlinarith
  have hnot : ¬ (try1 M).sq < shortest M := not_lt.mpr (by linarith)
  have hev : eigenvector M = some (try1 M).unit := by
    unfold eigenvector
    dsimp only
    rw [if_neg hnot, if_neg hnot, if_neg hnot, if_neg hnot]
    rfl
  obtain ⟨hneg, hpos, hv0, hv1⟩ := near_vector _ _ _ ht (by nlinarith) (by nlinarith)
  have hone := (c109_vector M _ hev).1
  generalize (try1 M).unit = v at *
  have hex : exchange v = ⟨-v.v2, -v.v3, 0, 0⟩ := by
    unfold exchange
    dsimp only
    rw [if_pos hneg, hv0, hv1]
    simp
  have hone' : v.v2 ^ 2 + v.v3 ^ 2 = 1 := by
    rw [dot_self4] at hone
    simp [Arr4.vec, hv0, hv1] at hone
    linarith
  refine ⟨nearQ, exchange v, near_unit, pw, px, rfl, rfl, fun n hn => ?_, ?_, ?_, ?_, ?_⟩
  · unfold quaternionOf largest
    rw [near_tri, h n hn, Option.map_some, Option.map_some, hM, hev]
    rfl
  · rw [hex]; simp [Quat.dot]; linarith
  · rw [hex]; simpa using hneg
  · rw [hex]; simpa using hpos
  · rw [hex]
    have hd : Quat.dot ⟨-v.v2, -v.v3, 0, 0⟩ nearQ = -v.v2 * nearQ.w - v.v3 * nearQ.x := by simp [Quat.dot]; ring
    rw [hd]
    have a1 : 0 < -v.v2 * nearQ.w := mul_pos (by linarith) pw
    have a2 : 0 < v.v3 * nearQ.x := mul_pos hpos px
    have b1 : (-v.v2 * nearQ.w) ^ 2 ≤ nearQ.w ^ 2 := by
      rw [mul_pow, neg_sq]; nlinarith [sq_nonneg v.v3, sq_nonneg nearQ.w, sq_nonneg v.v2]
    have b2 : (v.v3 * nearQ.x) ^ 2 ≤ nearQ.x ^ 2 := by
      rw [mul_pow]; nlinarith [sq_nonneg v.v3, sq_nonneg nearQ.x, sq_nonneg v.v2]
    rw [hw] at b1
    rw [hx] at b2
    nlinarith

end RayOpt.Compiled
