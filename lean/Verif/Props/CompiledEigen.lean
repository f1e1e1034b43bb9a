import Verif.Model.CompiledEigen
import Verif.Props.CompiledQuat
import Mathlib.LinearAlgebra.Matrix.Notation
import Mathlib.Tactic

/-!
C109: the eigenvalue solver of the compiled extension, `rayopt/_transformations.c` 142-387.
-/

namespace RayOpt.Compiled

open RayOpt Matrix

/-- The symmetric matrix of which the entries on and above the diagonal are given. -/
def Sym4.matrix (M : Sym4) : Matrix (Fin 4) (Fin 4) ℝ :=
  !![M.m0, M.m1, M.m2, M.m3; M.m1, M.m5, M.m6, M.m7; M.m2, M.m6, M.m10, M.m11; M.m3, M.m7, M.m11, M.m15]

/-- The tridiagonal matrix. -/
def Tri.matrix (T : Tri) : Matrix (Fin 4) (Fin 4) ℝ :=
  !![T.a0, T.b0, 0, 0; T.b0, T.a1, T.b1, 0; 0, T.b1, T.a2, T.b2; 0, 0, T.b2, T.a3]

/-- What the first step leaves out. -/
def rest3 (e2 e3 : ℝ) : Matrix (Fin 4) (Fin 4) ℝ := !![0, 0, e2, e3; 0, 0, 0, 0; e2, 0, 0, 0; e3, 0, 0, 0]

/-- The reflection in the last three coordinates. -/
def refl3 (k u0 u1 u2 : ℝ) : Matrix (Fin 4) (Fin 4) ℝ :=
  !![1, 0, 0, 0; 0, 1 - k * u0 * u0, -k * u0 * u1, -k * u0 * u2; 0, -k * u0 * u1, 1 - k * u1 * u1, -k * u1 * u2;
    0, -k * u0 * u2, -k * u1 * u2, 1 - k * u2 * u2]

theorem refl3_orth {k u0 u1 u2 : ℝ} (h : k * (u0 * u0 + u1 * u1 + u2 * u2) = 2) :
    refl3 k u0 u1 u2 * (refl3 k u0 u1 u2)ᵀ = 1 := by
  ext i j
  fin_cases i <;> fin_cases j <;> simp [refl3, Matrix.mul_apply, Fin.sum_univ_four] <;>
    first
      | ring1
      | linear_combination (k * u0 * u0) * h
      | linear_combination (k * u0 * u1) * h
      | linear_combination (k * u0 * u2) * h
      | linear_combination (k * u1 * u1) * h
      | linear_combination (k * u1 * u2) * h
      | linear_combination (k * u2 * u2) * h

theorem abs_n {x t : ℝ} (n : ℝ) (hn : n = √(x * x + t)) (ht : 0 ≤ t) (hp : n > tfEps) :
    ∃ n' : ℝ, (if x < 0 then -n else n) = n' ∧ n' * n' = x * x + t ∧ n' * (x + n') ≠ 0 ∧
      ((x + n') * (x + n') + t) / 2 = n' * (x + n') := by
  have h0 : 0 < n := lt_trans eps_pos hp
  have hs : n * n = x * x + t := by rw [hn]; exact Real.mul_self_sqrt (by nlinarith [mul_self_nonneg x])
  by_cases hx : x < 0
  · refine ⟨-n, if_pos hx, by linear_combination hs, ?_, by linear_combination -(1 / 2 : ℝ) * hs⟩
    have : 0 < (-n) * (x + -n) := mul_pos_of_neg_of_neg (by linarith) (by linarith)
    exact this.ne'
  · refine ⟨n, if_neg hx, hs, ?_, by linear_combination -(1 / 2 : ℝ) * hs⟩
    exact (mul_pos h0 (by linarith [not_lt.mp hx])).ne'

theorem house3_spec (M : Sym4) : ∃ (Q : Matrix (Fin 4) (Fin 4) ℝ) (e2 e3 : ℝ), Q * Qᵀ = 1 ∧
    Q * M.matrix * Qᵀ = ({ house3 M with m2 := 0, m3 := 0 } : Sym4).matrix + rest3 e2 e3 ∧
    e2 * e2 + e3 * e3 ≤ tfEps * tfEps ∧
    (M.m1 * M.m1 + M.m2 * M.m2 + M.m3 * M.m3 = 0 ∨
      tfEps * tfEps < M.m1 * M.m1 + M.m2 * M.m2 + M.m3 * M.m3 → e2 = 0 ∧ e3 = 0) := by
  have ht : 0 ≤ M.m2 * M.m2 + M.m3 * M.m3 := add_nonneg (mul_self_nonneg _) (mul_self_nonneg _)
  unfold house3
  dsimp only
  by_cases hn : √(M.m1 * M.m1 + (M.m2 * M.m2 + M.m3 * M.m3)) > tfEps
  · rw [if_pos hn]
    obtain ⟨n, he, hs, hz, hh⟩ := abs_n _ rfl ht hn
    rw [he]
    generalize hu : M.m1 + n = u0 at *
    rw [← add_assoc] at hh
    have hk : (n * u0)⁻¹ * (n * u0) = 1 := inv_mul_cancel₀ hz
    have hsum : u0 * u0 + M.m2 * M.m2 + M.m3 * M.m3 = 2 * (n * u0) := by linear_combination 2 * hh
    have hh' : (u0 * u0 + (M.m2 * M.m2 + M.m3 * M.m3)) / 2 = n * u0 := by linear_combination hh
    rw [hh']
    obtain ⟨k, hk'⟩ : ∃ k, (n * u0)⁻¹ = k := ⟨_, rfl⟩
    rw [hk'] at hk
    have h2 : (2 * (n * u0))⁻¹ = k / 2 := by rw [mul_inv, hk']; ring
    simp only [div_eq_mul_inv _ (n * u0), div_eq_mul_inv _ (2 * (n * u0)), hk', h2]
    refine ⟨refl3 k u0 M.m2 M.m3, 0, 0, refl3_orth (by rw [hsum]; linear_combination 2 * hk), ?_, ?_, fun _ => ⟨rfl, rfl⟩⟩
    · have hm : M.m1 = u0 - n := by linarith
      ext i j
      fin_cases i <;> fin_cases j <;>
        simp [refl3, rest3, Sym4.matrix, Matrix.mul_apply, Fin.sum_univ_four, hm] <;>
        first
          | ring1
          | linear_combination (-u0) * hk - k * u0 * hsum
          | linear_combination (-M.m2) * hk - k * M.m2 * hsum
          | linear_combination (-M.m3) * hk - k * M.m3 * hsum
    · simp only [mul_zero, add_zero]; exact mul_self_nonneg _
  · rw [if_neg hn]
    have hle : M.m1 * M.m1 + (M.m2 * M.m2 + M.m3 * M.m3) ≤ tfEps * tfEps := by
      have := (Real.sqrt_le_iff.mp (not_lt.mp hn)).2
      rwa [pow_two] at this
    refine ⟨1, M.m2, M.m3, by simp, ?_, by nlinarith [mul_self_nonneg M.m1], fun h => ?_⟩
    · ext i j
      fin_cases i <;> fin_cases j <;> simp [rest3, Sym4.matrix]
    · rcases h with h | h
      · exact ⟨mul_self_eq_zero.mp (by nlinarith [mul_self_nonneg M.m1, mul_self_nonneg M.m2, mul_self_nonneg M.m3]),
          mul_self_eq_zero.mp (by nlinarith [mul_self_nonneg M.m1, mul_self_nonneg M.m2, mul_self_nonneg M.m3])⟩
      · linarith

/-- What the second step leaves out. -/
def rest2 (e : ℝ) : Matrix (Fin 4) (Fin 4) ℝ := !![0, 0, 0, 0; 0, 0, 0, e; 0, 0, 0, 0; 0, e, 0, 0]

/-- The reflection in the last two coordinates. -/
def refl2 (k u0 u1 : ℝ) : Matrix (Fin 4) (Fin 4) ℝ :=
  !![1, 0, 0, 0; 0, 1, 0, 0; 0, 0, 1 - k * u0 * u0, -k * u0 * u1; 0, 0, -k * u0 * u1, 1 - k * u1 * u1]

theorem refl2_orth {k u0 u1 : ℝ} (h : k * (u0 * u0 + u1 * u1) = 2) :
    refl2 k u0 u1 * (refl2 k u0 u1)ᵀ = 1 ∧ ∀ e2 e3 : ℝ, ∃ e2' e3' : ℝ,
      refl2 k u0 u1 * rest3 e2 e3 * (refl2 k u0 u1)ᵀ = rest3 e2' e3' ∧ e2' * e2' + e3' * e3' = e2 * e2 + e3 * e3 := by
  constructor
  · ext i j
    fin_cases i <;> fin_cases j <;> simp [refl2, Matrix.mul_apply, Fin.sum_univ_four] <;>
      first
        | ring1
        | linear_combination (k * u0 * u0) * h
        | linear_combination (k * u0 * u1) * h
        | linear_combination (k * u1 * u1) * h
  · intro e2 e3
    refine ⟨e2 * (1 - k * u0 * u0) - e3 * (k * u0 * u1), -e2 * (k * u0 * u1) + e3 * (1 - k * u1 * u1), ?_, ?_⟩
    · ext i j
      fin_cases i <;> fin_cases j <;> simp [refl2, rest3, Matrix.mul_apply, Fin.sum_univ_four] <;> ring1
    · linear_combination (k * (e2 * u0 + e3 * u1) ^ 2) * h

/-- The matrix the diagonals of `M` are the diagonals of. -/
def Sym4.tri (M : Sym4) : Tri := ⟨M.m0, M.m5, M.m10, M.m15, M.m1, M.m6, M.m11⟩

theorem house2_spec (M : Sym4) (h2 : M.m2 = 0) (h3 : M.m3 = 0) : ∃ (Q : Matrix (Fin 4) (Fin 4) ℝ) (e : ℝ), Q * Qᵀ = 1 ∧
    (∀ e2 e3 : ℝ, ∃ e2' e3' : ℝ, Q * rest3 e2 e3 * Qᵀ = rest3 e2' e3' ∧ e2' * e2' + e3' * e3' = e2 * e2 + e3 * e3) ∧
    Q * M.matrix * Qᵀ = (house2 M).tri.matrix + rest2 e ∧ e * e ≤ tfEps * tfEps ∧
    (M.m6 * M.m6 + M.m7 * M.m7 = 0 ∨ tfEps * tfEps < M.m6 * M.m6 + M.m7 * M.m7 → e = 0) := by
  have ht : 0 ≤ M.m7 * M.m7 := mul_self_nonneg _
  unfold house2
  dsimp only
  by_cases hn : √(M.m6 * M.m6 + M.m7 * M.m7) > tfEps
  · rw [if_pos hn]
    obtain ⟨n, he, hs, hz, hh⟩ := abs_n _ rfl ht hn
    rw [he]
    generalize hu : M.m6 + n = u0 at *
    have hk : (n * u0)⁻¹ * (n * u0) = 1 := inv_mul_cancel₀ hz
    have hsum : u0 * u0 + M.m7 * M.m7 = 2 * (n * u0) := by linear_combination 2 * hh
    rw [hh]
    obtain ⟨k, hk'⟩ : ∃ k, (n * u0)⁻¹ = k := ⟨_, rfl⟩
    rw [hk'] at hk
    have h2' : (2 * (n * u0))⁻¹ = k / 2 := by rw [mul_inv, hk']; ring
    simp only [div_eq_mul_inv _ (n * u0), div_eq_mul_inv _ (2 * (n * u0)), hk', h2']
    obtain ⟨ho, hr⟩ := refl2_orth (k := k) (u0 := u0) (u1 := M.m7) (by rw [hsum]; linear_combination 2 * hk)
    refine ⟨refl2 k u0 M.m7, 0, ho, hr, ?_, ?_, fun _ => rfl⟩
    · have hm : M.m6 = u0 - n := by linarith
      ext i j
      fin_cases i <;> fin_cases j <;>
        simp [refl2, rest2, Sym4.matrix, Sym4.tri, Tri.matrix, Matrix.mul_apply, Fin.sum_univ_four, hm, h2, h3] <;>
        first
          | ring1
          | linear_combination (-u0) * hk - k * u0 * hsum
          | linear_combination (-M.m7) * hk - k * M.m7 * hsum
    · simp only [mul_zero]; exact mul_self_nonneg _
  · rw [if_neg hn]
    have hle : M.m6 * M.m6 + M.m7 * M.m7 ≤ tfEps * tfEps := by
      have := (Real.sqrt_le_iff.mp (not_lt.mp hn)).2
      rwa [pow_two] at this
    refine ⟨1, M.m7, by simp, fun e2 e3 => ⟨e2, e3, by simp, rfl⟩, ?_, by nlinarith [mul_self_nonneg M.m6], fun h => ?_⟩
    · ext i j
      fin_cases i <;> fin_cases j <;> simp [rest2, Sym4.matrix, Sym4.tri, Tri.matrix, h2, h3]
    · rcases h with h | h
      · exact mul_self_eq_zero.mp (by nlinarith [mul_self_nonneg M.m6, mul_self_nonneg M.m7])
      · linarith

theorem house2_tri (M : Sym4) : (house2 { M with m2 := 0, m3 := 0 }).tri = (house2 M).tri := by
  unfold house2
  dsimp only
  split <;> rfl

theorem tridiagonalize_spec (M : Sym4) : ∃ (Q : Matrix (Fin 4) (Fin 4) ℝ) (e2 e3 e : ℝ), Q * Qᵀ = 1 ∧
    Q * M.matrix * Qᵀ = (tridiagonalize M).matrix + (rest3 e2 e3 + rest2 e) ∧
    e2 * e2 + e3 * e3 ≤ tfEps * tfEps ∧ e * e ≤ tfEps * tfEps ∧
    (M.m1 * M.m1 + M.m2 * M.m2 + M.m3 * M.m3 = 0 ∨
      tfEps * tfEps < M.m1 * M.m1 + M.m2 * M.m2 + M.m3 * M.m3 → e2 = 0 ∧ e3 = 0) ∧
    ((house3 M).m6 * (house3 M).m6 + (house3 M).m7 * (house3 M).m7 = 0 ∨
      tfEps * tfEps < (house3 M).m6 * (house3 M).m6 + (house3 M).m7 * (house3 M).m7 → e = 0) := by
  obtain ⟨Q, e2, e3, hQ, hM, he, hz⟩ := house3_spec M
  obtain ⟨P, e, hP, hr, hN, he', hz'⟩ := house2_spec { house3 M with m2 := 0, m3 := 0 } rfl rfl
  rw [house2_tri] at hN
  obtain ⟨f2, f3, hf, hff⟩ := hr e2 e3
  refine ⟨P * Q, f2, f3, e, ?_, ?_, hff ▸ he, he', fun h => ?_, hz'⟩
  · rw [transpose_mul, Matrix.mul_assoc, ← Matrix.mul_assoc Q, hQ, Matrix.one_mul, hP]
  · have : P * Q * M.matrix * (P * Q)ᵀ = P * (Q * M.matrix * Qᵀ) * Pᵀ := by
      rw [transpose_mul]; simp only [Matrix.mul_assoc]
    rw [this, hM, Matrix.mul_add, Matrix.add_mul, hN, hf, add_assoc, add_comm (rest2 e)]
    rfl
  · obtain ⟨rfl, rfl⟩ := hz h
    simp only [mul_zero, add_zero] at hff
    exact ⟨mul_self_eq_zero.mp (by nlinarith [mul_self_nonneg f2, mul_self_nonneg f3]),
      mul_self_eq_zero.mp (by nlinarith [mul_self_nonneg f2, mul_self_nonneg f3])⟩

theorem abs_le_eps {e : ℝ} (h : e * e ≤ tfEps * tfEps) : |e| ≤ 1 / 2 ^ 50 := by
  have h' : |e| ≤ tfEps := abs_le_of_sq_le_sq (by rwa [pow_two, pow_two]) eps_pos.le
  exact h'

/-- `tridiagonalize_symmetric_44` turns every symmetric matrix by an orthogonal matrix into the tridiagonal one that it
returns, up to entries of at most `EPSILON`: it leaves out a row that is shorter than that.  If no such row is met the
two matrices are the same. -/
theorem c109_tridiagonal (M : Sym4) : ∃ Q : Matrix (Fin 4) (Fin 4) ℝ, Q * Qᵀ = 1 ∧
    (∀ i j, |(Q * M.matrix * Qᵀ) i j - (tridiagonalize M).matrix i j| ≤ 1 / 2 ^ 50) ∧
    ((M.m1 ^ 2 + M.m2 ^ 2 + M.m3 ^ 2 = 0 ∨ 1 / 2 ^ 100 < M.m1 ^ 2 + M.m2 ^ 2 + M.m3 ^ 2) →
      ((house3 M).m6 ^ 2 + (house3 M).m7 ^ 2 = 0 ∨ 1 / 2 ^ 100 < (house3 M).m6 ^ 2 + (house3 M).m7 ^ 2) →
      Q * M.matrix * Qᵀ = (tridiagonalize M).matrix) := by
  obtain ⟨Q, e2, e3, e, hQ, hM, he, he', hz, hz'⟩ := tridiagonalize_spec M
  have ht : tfEps * tfEps = 1 / 2 ^ 100 := by unfold tfEps; norm_num
  refine ⟨Q, hQ, fun i j => ?_, fun h h' => ?_⟩
  · rw [hM, Matrix.add_apply, add_sub_cancel_left]
    have b2 : |e2| ≤ 1 / 2 ^ 50 := abs_le_eps (by nlinarith [mul_self_nonneg e3])
    have b3 : |e3| ≤ 1 / 2 ^ 50 := abs_le_eps (by nlinarith [mul_self_nonneg e2])
    have b : |e| ≤ 1 / 2 ^ 50 := abs_le_eps he'
    have b0 : (0 : ℝ) ≤ 1 / 2 ^ 50 := by norm_num
    clear hM hQ hz hz' he he' ht
    fin_cases i <;> fin_cases j <;> simp [rest3, rest2] <;> norm_num at * <;> assumption
  · rw [ht] at hz hz'
    obtain ⟨rfl, rfl⟩ := hz (by simpa only [pow_two] using h)
    obtain rfl := hz' (by simpa only [pow_two] using h')
    rw [hM]
    have : rest3 0 0 + rest2 0 = 0 := by
      ext i j; fin_cases i <;> fin_cases j <;> simp [rest3, rest2]
    rw [this, add_zero]

/-- The matrix with the two 1s at its corners is turned. -/
example : tridiagonalize ⟨0, 0, 0, 1, 0, 0, 0, 0, 0, 0⟩ = ⟨0, 0, 0, 0, -1, 0, 0⟩ := by
  have h1 : ¬ (1 : ℝ) < tfEps := by unfold tfEps; norm_num
  have h0 : ¬ tfEps < 0 := by unfold tfEps; norm_num
  have h2 : tfEps < 1 := by unfold tfEps; norm_num
  norm_num [tridiagonalize, house2, house3, h0, h1, h2]

/-- `x` is the largest eigenvalue of the symmetric matrix `A`. -/
def Largest (A : Matrix (Fin 4) (Fin 4) ℝ) (x : ℝ) : Prop :=
  (∃ v, v ≠ 0 ∧ A *ᵥ v = x • v) ∧ ∀ v, v ⬝ᵥ (A *ᵥ v) ≤ x * (v ⬝ᵥ v)

/-- The quadratic form of `A` is at most `x` times the square. -/
def Below (A : Matrix (Fin 4) (Fin 4) ℝ) (x : ℝ) : Prop := ∀ v, v ⬝ᵥ (A *ᵥ v) ≤ x * (v ⬝ᵥ v)

/-- The quadratic form of `A` is somewhere at least `x` times the square. -/
def Reaches (A : Matrix (Fin 4) (Fin 4) ℝ) (x : ℝ) : Prop := ∃ v, v ≠ 0 ∧ x * (v ⬝ᵥ v) ≤ v ⬝ᵥ (A *ᵥ v)

theorem Largest.below {A : Matrix (Fin 4) (Fin 4) ℝ} {x : ℝ} (h : Largest A x) : Below A x := h.2

theorem Largest.reaches {A : Matrix (Fin 4) (Fin 4) ℝ} {x : ℝ} (h : Largest A x) : Reaches A x := by
  obtain ⟨⟨v, hv, he⟩, -⟩ := h
  exact ⟨v, hv, by rw [he, dotProduct_smul, smul_eq_mul]⟩

/-- `v` times the tridiagonal matrix less `x` times `v`. -/
def form (T : Tri) (x : ℝ) (v : Fin 4 → ℝ) : ℝ :=
  (T.a0 - x) * v 0 ^ 2 + (T.a1 - x) * v 1 ^ 2 + (T.a2 - x) * v 2 ^ 2 + (T.a3 - x) * v 3 ^ 2 +
    2 * T.b0 * v 0 * v 1 + 2 * T.b1 * v 1 * v 2 + 2 * T.b2 * v 2 * v 3

theorem form_eq (T : Tri) (x : ℝ) (v : Fin 4 → ℝ) : v ⬝ᵥ (T.matrix *ᵥ v) - x * (v ⬝ᵥ v) = form T x v := by
  simp [form, Tri.matrix, dotProduct, mulVec, Fin.sum_univ_four]
  ring

theorem sq_pos_of_ne {v : Fin 4 → ℝ} (h : v ≠ 0) : 0 < v 0 ^ 2 + v 1 ^ 2 + v 2 ^ 2 + v 3 ^ 2 := by
  by_contra hc
  apply h
  have h0 := sq_nonneg (v 0); have h1 := sq_nonneg (v 1); have h2 := sq_nonneg (v 2); have h3 := sq_nonneg (v 3)
  have z0 : v 0 = 0 := pow_eq_zero_iff (two_ne_zero) |>.mp (by linarith)
  have z1 : v 1 = 0 := pow_eq_zero_iff (two_ne_zero) |>.mp (by linarith)
  have z2 : v 2 = 0 := pow_eq_zero_iff (two_ne_zero) |>.mp (by linarith)
  have z3 : v 3 = 0 := pow_eq_zero_iff (two_ne_zero) |>.mp (by linarith)
  funext i
  fin_cases i <;> assumption

theorem dot_self4 (v : Fin 4 → ℝ) : v ⬝ᵥ v = v 0 ^ 2 + v 1 ^ 2 + v 2 ^ 2 + v 3 ^ 2 := by
  simp [dotProduct, Fin.sum_univ_four]; ring

/-- Completing the squares. -/
theorem form_squares (T : Tri) (x d0 d1 d2 d3 : ℝ) (v : Fin 4 → ℝ) (n0 : d0 ≠ 0) (n1 : d1 ≠ 0) (n2 : d2 ≠ 0)
    (h0 : d0 = T.a0 - x) (h1 : d1 = T.a1 - x - T.b0 * T.b0 / d0) (h2 : d2 = T.a2 - x - T.b1 * T.b1 / d1)
    (h3 : d3 = T.a3 - x - T.b2 * T.b2 / d2) :
    form T x v = d0 * (v 0 + T.b0 / d0 * v 1) ^ 2 + d1 * (v 1 + T.b1 / d1 * v 2) ^ 2 +
      d2 * (v 2 + T.b2 / d2 * v 3) ^ 2 + d3 * v 3 ^ 2 := by
  have e0 : T.a0 - x = d0 := h0.symm
  have e1 : T.a1 - x = d1 + T.b0 * T.b0 / d0 := by linarith
  have e2 : T.a2 - x = d2 + T.b1 * T.b1 / d1 := by linarith
  have e3 : T.a3 - x = d3 + T.b2 * T.b2 / d2 := by linarith
  unfold form
  rw [e0, e1, e2, e3]
  field_simp
  ring

theorem largest_lt (T : Tri) (x d0 d1 d2 d3 y : ℝ) (n0 : d0 < 0) (n1 : d1 < 0) (n2 : d2 < 0) (n3 : d3 < 0)
    (h0 : d0 = T.a0 - x) (h1 : d1 = T.a1 - x - T.b0 * T.b0 / d0) (h2 : d2 = T.a2 - x - T.b1 * T.b1 / d1)
    (h3 : d3 = T.a3 - x - T.b2 * T.b2 / d2) (hy : Reaches T.matrix y) : y < x := by
  obtain ⟨v, hv, he⟩ := hy
  have hf := form_eq T x v
  rw [form_squares T x d0 d1 d2 d3 v n0.ne n1.ne n2.ne h0 h1 h2 h3] at hf
  have hp := sq_pos_of_ne hv
  rw [← dot_self4] at hp
  by_contra hc
  have hge : x * (v ⬝ᵥ v) ≤ y * (v ⬝ᵥ v) := mul_le_mul_of_nonneg_right (not_lt.mp hc) hp.le
  have s0 := mul_nonneg_of_nonpos_of_nonpos n0.le (neg_nonpos.mpr (sq_nonneg (v 0 + T.b0 / d0 * v 1)))
  have s1 := mul_nonneg_of_nonpos_of_nonpos n1.le (neg_nonpos.mpr (sq_nonneg (v 1 + T.b1 / d1 * v 2)))
  have s2 := mul_nonneg_of_nonpos_of_nonpos n2.le (neg_nonpos.mpr (sq_nonneg (v 2 + T.b2 / d2 * v 3)))
  have s3 := mul_nonneg_of_nonpos_of_nonpos n3.le (neg_nonpos.mpr (sq_nonneg (v 3)))
  rw [mul_neg] at s0 s1 s2 s3
  have z3 : v 3 = 0 := by
    have : d3 * v 3 ^ 2 = 0 := by linarith
    exact pow_eq_zero_iff two_ne_zero |>.mp ((mul_eq_zero.mp this).resolve_left n3.ne)
  have z2 : v 2 = 0 := by
    have : d2 * (v 2 + T.b2 / d2 * v 3) ^ 2 = 0 := by linarith
    have := pow_eq_zero_iff two_ne_zero |>.mp ((mul_eq_zero.mp this).resolve_left n2.ne)
    rwa [z3, mul_zero, add_zero] at this
  have z1 : v 1 = 0 := by
    have : d1 * (v 1 + T.b1 / d1 * v 2) ^ 2 = 0 := by linarith
    have := pow_eq_zero_iff two_ne_zero |>.mp ((mul_eq_zero.mp this).resolve_left n1.ne)
    rwa [z2, mul_zero, add_zero] at this
  have z0 : v 0 = 0 := by
    have : d0 * (v 0 + T.b0 / d0 * v 1) ^ 2 = 0 := by linarith
    have := pow_eq_zero_iff two_ne_zero |>.mp ((mul_eq_zero.mp this).resolve_left n0.ne)
    rwa [z1, mul_zero, add_zero] at this
  exact hv (by funext i; fin_cases i <;> assumption)

/-- The pivots without replacement are negative where the matrix is negative definite. -/
theorem pivots_neg (T : Tri) (x y : ℝ) (hy : Below T.matrix y) (hx : y < x) : ∃ d0 d1 d2 d3 : ℝ,
    d0 < 0 ∧ d1 < 0 ∧ d2 < 0 ∧ d3 < 0 ∧ d0 = T.a0 - x ∧ d1 = T.a1 - x - T.b0 * T.b0 / d0 ∧
    d2 = T.a2 - x - T.b1 * T.b1 / d1 ∧ d3 = T.a3 - x - T.b2 * T.b2 / d2 := by
  have hneg : ∀ v : Fin 4 → ℝ, v ≠ 0 → form T x v < 0 := by
    intro v hv
    rw [← form_eq]
    have hp := sq_pos_of_ne hv
    rw [← dot_self4] at hp
    have := hy v
    nlinarith
  have h0 : T.a0 - x < 0 := by
    have := hneg ![1, 0, 0, 0] (fun h => by simpa using congrFun h 0)
    simpa [form] using this
  obtain ⟨d0, e0⟩ : ∃ d0, d0 = T.a0 - x := ⟨_, rfl⟩
  rw [← e0] at h0
  have h1 : T.a1 - x - T.b0 * T.b0 / d0 < 0 := by
    have := hneg ![-T.b0 / d0, 1, 0, 0] (fun h => by simpa using congrFun h 1)
    refine lt_of_eq_of_lt ?_ this
    simp [form, ← e0]
    field_simp [h0.ne]
    ring
  obtain ⟨d1, e1⟩ : ∃ d1, d1 = T.a1 - x - T.b0 * T.b0 / d0 := ⟨_, rfl⟩
  rw [← e1] at h1
  have h2 : T.a2 - x - T.b1 * T.b1 / d1 < 0 := by
    have := hneg ![T.b0 * T.b1 / (d0 * d1), -T.b1 / d1, 1, 0] (fun h => by simpa using congrFun h 2)
    refine lt_of_eq_of_lt ?_ this
    have e1' : T.a1 - x = d1 + T.b0 * T.b0 / d0 := by linarith
    simp [form, ← e0, e1']
    field_simp [h0.ne, h1.ne]
    ring
  obtain ⟨d2, e2⟩ : ∃ d2, d2 = T.a2 - x - T.b1 * T.b1 / d1 := ⟨_, rfl⟩
  rw [← e2] at h2
  have h3 : T.a3 - x - T.b2 * T.b2 / d2 < 0 := by
    have := hneg ![-T.b0 * T.b1 * T.b2 / (d0 * d1 * d2), T.b1 * T.b2 / (d1 * d2), -T.b2 / d2, 1]
      (fun h => by simpa using congrFun h 3)
    refine lt_of_eq_of_lt ?_ this
    have e1' : T.a1 - x = d1 + T.b0 * T.b0 / d0 := by linarith
    have e2' : T.a2 - x = d2 + T.b1 * T.b1 / d1 := by linarith
    simp [form, ← e0, e1', e2']
    field_simp [h0.ne, h1.ne, h2.ne]
    ring
  exact ⟨d0, d1, d2, _, h0, h1, h2, h3, e0, e1, e2, rfl⟩

/-- A replaced pivot only makes the next one smaller. -/
theorem lift_le {eps d d' b : ℝ} (he : 0 < eps) (hd : d < 0) (h : d' ≤ d) : -(b * b / lift eps d') ≤ -(b * b / d) := by
  have hb := mul_self_nonneg b
  have hr : b * b / d ≤ 0 := div_nonpos_of_nonneg_of_nonpos hb hd.le
  unfold lift
  split_ifs with hc
  · have := div_nonneg hb he.le
    linarith
  · apply neg_le_neg
    have := div_le_div_of_nonneg_left hb (neg_pos.mpr hd) (neg_le_neg h)
    rw [div_neg, div_neg] at this
    linarith

theorem count_lt (T : Tri) (eps x y : ℝ) (he : 0 < eps) (hy : Below T.matrix y) (hc : count T eps x < 4) : x ≤ y := by
  by_contra hx
  obtain ⟨d0, d1, d2, d3, n0, n1, n2, n3, e0, e1, e2, e3⟩ := pivots_neg T x y hy (not_le.mp hx)
  have p0 : (pivots T eps x).v0 = d0 := e0.symm
  have p1 : (pivots T eps x).v1 ≤ d1 := by
    have := lift_le (b := T.b0) he n0 p0.le
    have hd : (pivots T eps x).v1 = T.a1 - x - T.b0 * T.b0 / lift eps (pivots T eps x).v0 := rfl
    linarith
  have p2 : (pivots T eps x).v2 ≤ d2 := by
    have := lift_le (b := T.b1) he n1 p1
    have hd : (pivots T eps x).v2 = T.a2 - x - T.b1 * T.b1 / lift eps (pivots T eps x).v1 := rfl
    linarith
  have p3 : (pivots T eps x).v3 ≤ d3 := by
    have := lift_le (b := T.b2) he n2 p2
    have hd : (pivots T eps x).v3 = T.a3 - x - T.b2 * T.b2 / lift eps (pivots T eps x).v2 := rfl
    linarith
  unfold count at hc
  dsimp only at hc
  rw [if_pos (by linarith), if_pos (by linarith), if_pos (by linarith), if_pos (by linarith)] at hc
  omega

/-- None of the pivots is replaced by one of the other sign. -/
def Clean (T : Tri) (eps x : ℝ) : Prop :=
  ∀ d ∈ [(pivots T eps x).v0, (pivots T eps x).v1, (pivots T eps x).v2], ¬ (-eps < d ∧ d < 0)

theorem count_four (T : Tri) (eps x y : ℝ) (hk : Clean T eps x) (hy : Reaches T.matrix y) (hc : ¬ count T eps x < 4) :
    y < x := by
  unfold count at hc
  dsimp only at hc
  have hn : (pivots T eps x).v0 < 0 ∧ (pivots T eps x).v1 < 0 ∧ (pivots T eps x).v2 < 0 ∧ (pivots T eps x).v3 < 0 := by
    split_ifs at hc <;> first | exact ⟨by assumption, by assumption, by assumption, by assumption⟩ | omega
  obtain ⟨n0, n1, n2, n3⟩ := hn
  have key : ∀ d, ¬ (-eps < d ∧ d < 0) → d < 0 → lift eps d = d := by
    intro d h h'
    unfold lift
    rw [if_neg]
    rw [abs_of_neg h']
    intro hl
    exact h ⟨by linarith, h'⟩
  refine largest_lt T x _ _ _ _ y n0 n1 n2 n3 rfl ?_ ?_ ?_ hy
  · rw [← key _ (hk _ (by simp)) n0]; rfl
  · rw [← key _ (hk _ (by simp)) n1]; rfl
  · rw [← key _ (hk _ (by simp)) n2]; rfl

/-- The values at which the signs of the pivots are counted. -/
noncomputable def midpoints (T : Tri) (eps : ℝ) : ℕ → ℝ → ℝ → List ℝ
  | 0, _, _ => []
  | n + 1, l, u => if |u - l| > eps then
      (u + l) / 2 :: if count T eps ((u + l) / 2) < 4 then midpoints T eps n ((u + l) / 2) u
        else midpoints T eps n l ((u + l) / 2)
    else []

theorem bounds_le (T : Tri) : (bounds T).1 ≤ T.a0 - |T.b0| ∧ (bounds T).1 ≤ T.a1 - |T.b0| - |T.b1| ∧
    (bounds T).1 ≤ T.a2 - |T.b2| - |T.b1| ∧ (bounds T).1 ≤ T.a3 - |T.b2| ∧ T.a0 + |T.b0| ≤ (bounds T).2 ∧
    T.a1 + |T.b0| + |T.b1| ≤ (bounds T).2 ∧ T.a2 + |T.b2| + |T.b1| ≤ (bounds T).2 ∧ T.a3 + |T.b2| ≤ (bounds T).2 := by
  unfold bounds
  dsimp only
  refine ⟨?_, ?_, ?_, ?_, ?_, ?_, ?_, ?_⟩ <;> simp [min_le_iff, le_max_iff]

theorem le_upper (T : Tri) (y : ℝ) (hy : Reaches T.matrix y) : y ≤ (bounds T).2 := by
  obtain ⟨-, -, -, -, h0, h1, h2, h3⟩ := bounds_le T
  obtain ⟨u, hu⟩ : ∃ u, u = (bounds T).2 := ⟨_, rfl⟩
  rw [← hu] at h0 h1 h2 h3 ⊢
  obtain ⟨v, hv, he⟩ := hy
  by_contra hc
  have hp := sq_pos_of_ne hv
  have hf := form_eq T u v
  rw [dot_self4] at hf he
  have hle : form T u v ≤ 0 := by
    unfold form
    have k : ∀ b p q : ℝ, 2 * b * p * q ≤ |b| * p ^ 2 + |b| * q ^ 2 := by
      intro b p q
      rcases abs_cases b with ⟨hb, h⟩ | ⟨hb, h⟩ <;> rw [hb]
      · nlinarith [mul_nonneg h (sq_nonneg (p - q))]
      · nlinarith [mul_nonneg (neg_nonneg.mpr h.le) (sq_nonneg (p + q))]
    have k0 := k T.b0 (v 0) (v 1)
    have k1 := k T.b1 (v 1) (v 2)
    have k2 := k T.b2 (v 2) (v 3)
    have m0 := mul_le_mul_of_nonneg_right h0 (sq_nonneg (v 0))
    have m1 := mul_le_mul_of_nonneg_right h1 (sq_nonneg (v 1))
    have m2 := mul_le_mul_of_nonneg_right h2 (sq_nonneg (v 2))
    have m3 := mul_le_mul_of_nonneg_right h3 (sq_nonneg (v 3))
    nlinarith
  have := mul_lt_mul_of_pos_right (not_le.mp hc) hp
  linarith

theorem lower_le (T : Tri) (y : ℝ) (hy : Below T.matrix y) : (bounds T).1 ≤ y := by
  have h := (bounds_le T).1
  have := hy ![1, 0, 0, 0]
  have hf := form_eq T y ![1, 0, 0, 0]
  have hv : form T y ![1, 0, 0, 0] = T.a0 - y := by simp [form]
  rw [hv] at hf
  have := abs_nonneg T.b0
  linarith

theorem precision_eq (T : Tri) : (|(bounds T).1| + |(bounds T).2|) = precision T * 2 ^ 50 := by
  unfold precision; norm_num; ring

theorem precision_nonneg (T : Tri) : 0 ≤ precision T := by unfold precision; positivity

theorem bounds_sub (T : Tri) : 0 ≤ (bounds T).2 - (bounds T).1 ∧ (bounds T).2 - (bounds T).1 ≤ precision T * 2 ^ 50 := by
  obtain ⟨h, -, -, -, h', -⟩ := bounds_le T
  have := abs_nonneg T.b0
  rw [← precision_eq]
  constructor
  · linarith
  · have h1 := neg_abs_le (bounds T).1
    have h2 := le_abs_self (bounds T).2
    linarith

theorem bisect_some (T : Tri) (eps : ℝ) (he : 0 ≤ eps) : ∀ (n m : ℕ) (l u : ℝ), 0 ≤ u - l → u - l ≤ eps * 2 ^ n → n ≤ m →
    ∃ r, l ≤ r ∧ r ≤ u ∧ bisect T eps n l u = some r ∧ bisect T eps m l u = some r := by
  intro n
  induction n with
  | zero =>
    intro m l u h0 h1 _
    rw [pow_zero, mul_one] at h1
    have hn : ¬ |u - l| > eps := by rw [abs_of_nonneg h0]; linarith
    refine ⟨(u + l) / 2, by linarith, by linarith, ?_, ?_⟩
    · rw [bisect, if_neg hn]
    · cases m <;> rw [bisect, if_neg hn]
  | succ n ih =>
    intro m l u h0 h1 hm
    obtain ⟨m, rfl⟩ : ∃ k, m = k + 1 := ⟨m - 1, by omega⟩
    rw [pow_succ] at h1
    rw [bisect, bisect]
    dsimp only
    by_cases hn : |u - l| > eps
    · rw [if_pos hn, if_pos hn]
      rw [abs_of_nonneg h0] at hn
      have hne : ¬ ((u + l) / 2 = u ∨ (u + l) / 2 = l) := by rintro (h | h) <;> linarith
      rw [if_neg hne, if_neg hne]
      split_ifs
      · obtain ⟨r, h1, h2, h3, h4⟩ := ih m ((u + l) / 2) u (by linarith) (by linarith) (by omega)
        exact ⟨r, by linarith, h2, h3, h4⟩
      · obtain ⟨r, h1, h2, h3, h4⟩ := ih m l ((u + l) / 2) (by linarith) (by linarith) (by omega)
        exact ⟨r, h1, by linarith, h3, h4⟩
    · rw [if_neg hn, if_neg hn]
      exact ⟨_, by linarith, by linarith, rfl, rfl⟩

/-- The bisection of `max_eigenvalue_of_tridiag_44` ends after at most fifty turns for every matrix, with a value
between the bounds of Gerschgorin. -/
theorem c109_terminates (T : Tri) : ∃ r, (bounds T).1 ≤ r ∧ r ≤ (bounds T).2 ∧
    ∀ turns ≥ 50, maxEigenvalue turns T = some r := by
  obtain ⟨h0, h1⟩ := bounds_sub T
  obtain ⟨r, hl, hu, hr, -⟩ := bisect_some T (precision T) (precision_nonneg T) 50 50 _ _ h0 h1 le_rfl
  refine ⟨r, hl, hu, fun n hn => ?_⟩
  obtain ⟨r', -, -, hr', hr2⟩ := bisect_some T (precision T) (precision_nonneg T) 50 n _ _ h0 h1 hn
  rw [hr, Option.some.injEq] at hr'
  exact hr'.symm ▸ hr2

example : ∃ r, maxEigenvalue 50 ⟨1, 2, 3, 4, 1, 1, 1⟩ = some r := by
  obtain ⟨r, -, -, h⟩ := c109_terminates ⟨1, 2, 3, 4, 1, 1, 1⟩
  exact ⟨r, h 50 le_rfl⟩

theorem bisect_le (T : Tri) (eps : ℝ) (he : 0 ≤ eps) (y : ℝ) (hb : Below T.matrix y) : ∀ (n : ℕ) (l u r : ℝ),
    l ≤ u → (eps = 0 → l = u) → l ≤ y → bisect T eps n l u = some r → r ≤ y + eps / 2 := by
  intro n
  induction n with
  | zero =>
    intro l u r hlu hz hl h
    rw [bisect] at h
    split_ifs at h with hn
    rw [abs_of_nonneg (by linarith)] at hn
    rw [Option.some.injEq] at h
    linarith
  | succ n ih =>
    intro l u r hlu hz hl h
    rw [bisect] at h
    dsimp only at h
    split_ifs at h with hn hx hc
    · rw [abs_of_nonneg (by linarith)] at hn
      rcases hx with hx | hx <;> linarith
    · rw [abs_of_nonneg (by linarith)] at hn
      have hp : 0 < eps := lt_of_le_of_ne he (fun h0 => by rw [hz h0.symm] at hn; linarith)
      exact ih _ _ _ (by linarith) (fun h0 => by linarith) (count_lt T eps _ y hp hb hc) h
    · exact ih _ _ _ (by linarith) (fun h0 => by linarith [hz h0]) hl h
    · rw [abs_of_nonneg (by linarith)] at hn
      rw [Option.some.injEq] at h
      linarith

theorem bisect_ge (T : Tri) (eps : ℝ) (he : 0 ≤ eps) (y : ℝ) (hb : Reaches T.matrix y) : ∀ (n : ℕ) (l u r : ℝ),
    l ≤ u → y ≤ u → (∀ x ∈ midpoints T eps n l u, Clean T eps x) → bisect T eps n l u = some r → y - eps / 2 ≤ r := by
  intro n
  induction n with
  | zero =>
    intro l u r hlu hl hk h
    rw [bisect] at h
    split_ifs at h with hn
    rw [abs_of_nonneg (by linarith)] at hn
    rw [Option.some.injEq] at h
    linarith
  | succ n ih =>
    intro l u r hlu hl hk h
    rw [bisect] at h
    dsimp only at h
    rw [midpoints] at hk
    split_ifs at h with hn hx hc
    · rw [abs_of_nonneg (by linarith)] at hn
      rcases hx with hx | hx <;> linarith
    · rw [if_pos hn, if_pos hc] at hk
      exact ih _ _ _ (by linarith) hl (fun x hx => hk x (List.mem_cons_of_mem _ hx)) h
    · rw [if_pos hn, if_neg hc] at hk
      exact ih _ _ _ (by linarith) (count_four T eps _ y (hk _ (List.mem_cons_self ..)) hb hc).le
        (fun x hx => hk x (List.mem_cons_of_mem _ hx)) h
    · rw [abs_of_nonneg (by linarith)] at hn
      rw [Option.some.injEq] at h
      linarith

/-- Where the bisection counts the signs. -/
noncomputable def tested (turns : ℕ) (T : Tri) : List ℝ := midpoints T (precision T) turns (bounds T).1 (bounds T).2

theorem max_between (T : Tri) (turns : ℕ) (y r : ℝ) (hr : maxEigenvalue turns T = some r) :
    (Below T.matrix y → r ≤ y + precision T / 2) ∧
    (Reaches T.matrix y → (∀ x ∈ tested turns T, Clean T (precision T) x) → y - precision T / 2 ≤ r) := by
  have hs := bounds_sub T
  constructor
  · intro hb
    refine bisect_le T _ (precision_nonneg T) y hb turns _ _ r (by linarith) (fun h0 => ?_) (lower_le T y hb) hr
    rw [h0] at hs
    linarith
  · intro hb hk
    exact bisect_ge T _ (precision_nonneg T) y hb turns _ _ r (by linarith) (le_upper T y hb) hk hr

/-- `max_eigenvalue_of_tridiag_44` never returns more than half its precision above the largest eigenvalue.  If no pivot
that it counts as negative is so small that it is replaced by a positive one, the value is within half the precision. -/
theorem c109_largest (T : Tri) (turns : ℕ) (y r : ℝ) (hy : Largest T.matrix y) (hr : maxEigenvalue turns T = some r) :
    r ≤ y + precision T / 2 ∧ ((∀ x ∈ tested turns T, Clean T (precision T) x) → |r - y| ≤ precision T / 2) := by
  obtain ⟨h1, h2⟩ := max_between T turns y r hr
  refine ⟨h1 hy.below, fun hk => abs_le.mpr ⟨?_, ?_⟩⟩
  · linarith [h2 hy.reaches hk]
  · linarith [h1 hy.below]

theorem example_clean (a eps : ℝ) (ha : a ≤ 0) (he : eps ≤ 1 / 8) (n : ℕ) (l : ℝ) (h0 : -1 / 2 ≤ l) (h1 : l ≤ 1) :
    ∀ x ∈ midpoints ⟨a, a, a, 1, 0, 0, 0⟩ eps n l 1, Clean ⟨a, a, a, 1, 0, 0, 0⟩ eps x := by
  induction n generalizing l with
  | zero => intro x hx; simp [midpoints] at hx
  | succ n ih =>
    intro x hx
    rw [midpoints] at hx
    split_ifs at hx with hn hc
    · rcases List.mem_cons.mp hx with rfl | hx
      · intro d hd
        have : d = a - (1 + l) / 2 := by
          simp only [pivots, mul_zero, zero_div, sub_zero, List.mem_cons, List.not_mem_nil, or_false, or_self] at hd
          exact hd
        rintro ⟨hd', -⟩
        rw [this] at hd'
        linarith
      · exact ih _ (by linarith) (by linarith) x hx
    · exfalso
      apply hc
      have h3 : ¬ (pivots ⟨a, a, a, 1, 0, 0, 0⟩ eps ((1 + l) / 2)).v3 < 0 := by
        simp only [pivots, mul_zero, zero_div, sub_zero]
        linarith
      unfold count
      dsimp only
      rw [if_neg h3]
      split_ifs <;> norm_num
    · simp at hx

/-- The matrix with the diagonal 0, 0, 0, 1 has the largest eigenvalue 1, and the value found is as near. -/
example : ∃ r, maxEigenvalue 50 ⟨0, 0, 0, 1, 0, 0, 0⟩ = some r ∧ |r - 1| ≤ 1 / 2 ^ 51 := by
  obtain ⟨r, -, -, h⟩ := c109_terminates ⟨0, 0, 0, 1, 0, 0, 0⟩
  have hb : bounds ⟨0, 0, 0, 1, 0, 0, 0⟩ = (0, 1) := by norm_num [bounds]
  have hp : precision ⟨0, 0, 0, 1, 0, 0, 0⟩ = 1 / 2 ^ 50 := by norm_num [precision, hb]
  have hl : Largest (Tri.matrix ⟨0, 0, 0, 1, 0, 0, 0⟩) 1 := by
    refine ⟨⟨![0, 0, 0, 1], fun h => by simpa using congrFun h 3, ?_⟩, fun v => ?_⟩
    · ext i; fin_cases i <;> simp [Tri.matrix, mulVec, dotProduct, Fin.sum_univ_four]
    · simp [Tri.matrix, mulVec, dotProduct, Fin.sum_univ_four]
      nlinarith [mul_self_nonneg (v 0), mul_self_nonneg (v 1), mul_self_nonneg (v 2)]
  refine ⟨r, h 50 le_rfl, ?_⟩
  have := (c109_largest _ 50 1 r hl (h 50 le_rfl)).2 (by
    unfold tested
    rw [hp, hb]
    exact example_clean 0 _ le_rfl (by norm_num) 50 0 (by norm_num) zero_le_one)
  rw [hp] at this
  norm_num at this ⊢
  exact this

/-- The form of the turned matrix. -/
theorem form_turn (Q A : Matrix (Fin 4) (Fin 4) ℝ) (v : Fin 4 → ℝ) :
    v ⬝ᵥ ((Q * A * Qᵀ) *ᵥ v) = (Qᵀ *ᵥ v) ⬝ᵥ (A *ᵥ (Qᵀ *ᵥ v)) := by
  rw [Matrix.mul_assoc, ← mulVec_mulVec, ← mulVec_mulVec, dotProduct_mulVec, ← mulVec_transpose]

theorem square_turn (Q : Matrix (Fin 4) (Fin 4) ℝ) (hQ : Q * Qᵀ = 1) (v : Fin 4 → ℝ) :
    (Qᵀ *ᵥ v) ⬝ᵥ (Qᵀ *ᵥ v) = v ⬝ᵥ v := by
  have := form_turn Q 1 v
  rw [Matrix.mul_one, hQ, one_mulVec, one_mulVec] at this
  exact this.symm

theorem rest_small (e2 e3 e : ℝ) (h2 : |e2| ≤ 1 / 2 ^ 50) (h3 : |e3| ≤ 1 / 2 ^ 50) (h : |e| ≤ 1 / 2 ^ 50) (v : Fin 4 → ℝ) :
    |v ⬝ᵥ ((rest3 e2 e3 + rest2 e) *ᵥ v)| ≤ 2 / 2 ^ 50 * (v ⬝ᵥ v) := by
  have hv : v ⬝ᵥ ((rest3 e2 e3 + rest2 e) *ᵥ v) = 2 * (e2 * (v 0 * v 2) + e3 * (v 0 * v 3) + e * (v 1 * v 3)) := by
    simp [rest3, rest2, dotProduct, mulVec, Fin.sum_univ_four]
    ring
  rw [hv, dot_self4]
  have k : ∀ e p q : ℝ, |e| ≤ 1 / 2 ^ 50 → |e * (p * q)| ≤ 1 / 2 ^ 50 * ((p ^ 2 + q ^ 2) / 2) := by
    intro e p q he
    rw [abs_mul]
    refine mul_le_mul he ?_ (abs_nonneg _) (by norm_num)
    rw [abs_le]
    constructor <;> nlinarith [sq_nonneg (p + q), sq_nonneg (p - q)]
  have k2 := k e2 (v 0) (v 2) h2
  have k3 := k e3 (v 0) (v 3) h3
  have k1 := k e (v 1) (v 3) h
  rw [abs_mul, abs_two]
  have t := abs_add_le (e2 * (v 0 * v 2) + e3 * (v 0 * v 3)) (e * (v 1 * v 3))
  have t' := abs_add_le (e2 * (v 0 * v 2)) (e3 * (v 0 * v 3))
  have hp : (0 : ℝ) < 1 / 2 ^ 50 := by norm_num
  have e2' : (2 : ℝ) / 2 ^ 50 = 2 * (1 / 2 ^ 50) := by ring
  rw [e2']
  generalize (1 : ℝ) / 2 ^ 50 = c at *
  nlinarith [sq_nonneg (v 0), sq_nonneg (v 1), sq_nonneg (v 2), sq_nonneg (v 3), mul_nonneg hp.le (sq_nonneg (v 1)),
    mul_nonneg hp.le (sq_nonneg (v 2)), mul_nonneg hp.le (sq_nonneg (v 3)), mul_nonneg hp.le (sq_nonneg (v 0))]

theorem transpose_ne {Q : Matrix (Fin 4) (Fin 4) ℝ} (hQ : Q * Qᵀ = 1) {v : Fin 4 → ℝ} (hv : v ≠ 0) : Q *ᵥ v ≠ 0 := by
  have hQ' : Qᵀ * Q = 1 := mul_eq_one_comm.mp hQ
  intro h
  apply hv
  have : (Qᵀ * Q) *ᵥ v = 0 := by rw [← mulVec_mulVec, h, mulVec_zero]
  rwa [hQ', one_mulVec] at this

/-- The form of the tridiagonal matrix is that of the symmetric one elsewhere, but for what was left out. -/
theorem tri_form (M : Sym4) : ∃ Q : Matrix (Fin 4) (Fin 4) ℝ, Q * Qᵀ = 1 ∧
    ∀ v, |v ⬝ᵥ ((tridiagonalize M).matrix *ᵥ v) - (Qᵀ *ᵥ v) ⬝ᵥ (M.matrix *ᵥ (Qᵀ *ᵥ v))| ≤ 1 / 2 ^ 49 * (v ⬝ᵥ v) := by
  obtain ⟨Q, e2, e3, e, hQ, hM, he, he', -, -⟩ := tridiagonalize_spec M
  have b2 : |e2| ≤ 1 / 2 ^ 50 := abs_le_eps (by nlinarith [mul_self_nonneg e3])
  have b3 : |e3| ≤ 1 / 2 ^ 50 := abs_le_eps (by nlinarith [mul_self_nonneg e2])
  have hsm := rest_small e2 e3 e b2 b3 (abs_le_eps he')
  generalize tridiagonalize M = T at *
  have hT : T.matrix = Q * M.matrix * Qᵀ - (rest3 e2 e3 + rest2 e) := by rw [hM, add_sub_cancel_right]
  refine ⟨Q, hQ, fun v => ?_⟩
  rw [hT, sub_mulVec, dotProduct_sub, form_turn, sub_sub_cancel_left, abs_neg]
  refine le_of_le_of_eq (hsm v) ?_
  norm_num

theorem tri_below (M : Sym4) (y : ℝ) (h : Below M.matrix y) : Below (tridiagonalize M).matrix (y + 1 / 2 ^ 49) := by
  obtain ⟨Q, hQ, hf⟩ := tri_form M
  intro v
  have h1 := h (Qᵀ *ᵥ v)
  rw [square_turn Q hQ] at h1
  linarith [(abs_le.mp (hf v)).2]

theorem tri_above (M : Sym4) (y : ℝ) (h : ∀ v, y * (v ⬝ᵥ v) ≤ v ⬝ᵥ (M.matrix *ᵥ v)) (v : Fin 4 → ℝ) :
    (y - 1 / 2 ^ 49) * (v ⬝ᵥ v) ≤ v ⬝ᵥ ((tridiagonalize M).matrix *ᵥ v) := by
  obtain ⟨Q, hQ, hf⟩ := tri_form M
  have h1 := h (Qᵀ *ᵥ v)
  rw [square_turn Q hQ] at h1
  linarith [(abs_le.mp (hf v)).1]

theorem tri_reaches (M : Sym4) (y : ℝ) (h : Reaches M.matrix y) : Reaches (tridiagonalize M).matrix (y - 1 / 2 ^ 49) := by
  obtain ⟨Q, hQ, hf⟩ := tri_form M
  obtain ⟨v, hv, hl⟩ := h
  refine ⟨Q *ᵥ v, transpose_ne hQ hv, ?_⟩
  have hQ' : Qᵀ *ᵥ (Q *ᵥ v) = v := by rw [mulVec_mulVec, mul_eq_one_comm.mp hQ, one_mulVec]
  have hsq := square_turn Q hQ (Q *ᵥ v)
  have h1 := (abs_le.mp (hf (Q *ᵥ v))).1
  rw [hQ'] at hsq h1
  rw [← hsq] at h1 ⊢
  linarith

/-- The two functions together: the value is at most half the precision and 2^-49 above the largest eigenvalue of the
symmetric matrix, and if no pivot changes its sign it is as near. -/
theorem c109_eigenvalue (M : Sym4) (turns : ℕ) (y r : ℝ) (hy : Largest M.matrix y)
    (hr : maxEigenvalue turns (tridiagonalize M) = some r) :
    r ≤ y + (precision (tridiagonalize M) / 2 + 1 / 2 ^ 49) ∧
    ((∀ x ∈ tested turns (tridiagonalize M), Clean (tridiagonalize M) (precision (tridiagonalize M)) x) →
      |r - y| ≤ precision (tridiagonalize M) / 2 + 1 / 2 ^ 49) := by
  have h1 := (max_between _ turns _ r hr).1 (tri_below M y hy.below)
  refine ⟨by linarith, fun hk => abs_le.mpr ⟨?_, by linarith⟩⟩
  have h2 := (max_between _ turns _ r hr).2 (tri_reaches M y hy.reaches) hk
  linarith

/-- How far the bounds are apart. -/
theorem precision_le (T : Tri) (lo hi : ℝ) (h1 : Below T.matrix hi) (h0 : ∀ v, lo * (v ⬝ᵥ v) ≤ v ⬝ᵥ (T.matrix *ᵥ v))
    (hlo : lo ≤ 0) (hhi : 0 ≤ hi) : precision T ≤ (3 * hi - 3 * lo) / 2 ^ 50 := by
  have f1 : ∀ v, form T hi v ≤ 0 := fun v => by rw [← form_eq]; linarith [h1 v]
  have f0 : ∀ v, 0 ≤ form T lo v := fun v => by rw [← form_eq]; linarith [h0 v]
  have a0 := f1 ![1, 0, 0, 0]; have a0' := f0 ![1, 0, 0, 0]
  have a1 := f1 ![0, 1, 0, 0]; have a1' := f0 ![0, 1, 0, 0]
  have a2 := f1 ![0, 0, 1, 0]; have a2' := f0 ![0, 0, 1, 0]
  have a3 := f1 ![0, 0, 0, 1]; have a3' := f0 ![0, 0, 0, 1]
  have b0 := f1 ![1, 1, 0, 0]; have b0' := f0 ![1, -1, 0, 0]
  have b1 := f1 ![0, 1, 1, 0]; have b1' := f0 ![0, 1, -1, 0]
  have b2 := f1 ![0, 0, 1, 1]; have b2' := f0 ![0, 0, 1, -1]
  have c0 := f1 ![1, -1, 0, 0]; have c0' := f0 ![1, 1, 0, 0]
  have c1 := f1 ![0, 1, -1, 0]; have c1' := f0 ![0, 1, 1, 0]
  have c2 := f1 ![0, 0, 1, -1]; have c2' := f0 ![0, 0, 1, 1]
  simp [form] at a0 a0' a1 a1' a2 a2' a3 a3' b0 b0' b1 b1' b2 b2' c0 c0' c1 c1' c2 c2'
  have k0 : |T.b0| ≤ (hi - lo) / 2 := abs_le.mpr ⟨by linarith, by linarith⟩
  have k1 : |T.b1| ≤ (hi - lo) / 2 := abs_le.mpr ⟨by linarith, by linarith⟩
  have k2 : |T.b2| ≤ (hi - lo) / 2 := abs_le.mpr ⟨by linarith, by linarith⟩
  have hu : (bounds T).2 ≤ hi + (hi - lo) := by
    unfold bounds
    dsimp only
    simp only [max_le_iff]
    refine ⟨⟨⟨?_, ?_⟩, ?_⟩, ?_⟩ <;> linarith
  have hl : lo - (hi - lo) ≤ (bounds T).1 := by
    unfold bounds
    dsimp only
    simp only [le_min_iff]
    refine ⟨⟨⟨?_, ?_⟩, ?_⟩, ?_⟩ <;> linarith
  obtain ⟨l1, -, -, -, u1, -⟩ := bounds_le T
  have n0 := abs_nonneg T.b0
  unfold precision
  rcases abs_cases (bounds T).1 with ⟨e, -⟩ | ⟨e, -⟩ <;> rcases abs_cases (bounds T).2 with ⟨e', -⟩ | ⟨e', -⟩ <;>
    rw [e, e'] <;> norm_num <;> linarith

end RayOpt.Compiled
