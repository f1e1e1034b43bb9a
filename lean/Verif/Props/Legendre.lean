import Verif.Model.Quadrature
import Mathlib.MeasureTheory.Integral.IntervalIntegral.FundThmCalculus
import Mathlib.Analysis.Calculus.Deriv.Polynomial
import Mathlib.LinearAlgebra.Lagrange
import Mathlib.Analysis.Complex.Polynomial.Basic
import Mathlib.Tactic.LinearCombination
import Mathlib.Tactic.FieldSimp

/-!
Legendre polynomials and interpolatory quadrature on `[-1, 1]`, for C105.
-/

namespace RayOpt

namespace Quadrature

open Polynomial

/-! ## Integrals of polynomials -/

theorem intervalIntegrable_poly (p : ℝ[X]) : IntervalIntegrable (fun x => p.eval x) MeasureTheory.volume (-1) 1 :=
  p.continuous.intervalIntegrable _ _

/-- The integral from -1 to 1. -/
noncomputable def I : ℝ[X] →ₗ[ℝ] ℝ where
  toFun p := ∫ x in (-1 : ℝ)..1, p.eval x
  map_add' p q := by
    simp only [eval_add]
    exact intervalIntegral.integral_add (intervalIntegrable_poly p) (intervalIntegrable_poly q)
  map_smul' c p := by simp

theorem I_apply (p : ℝ[X]) : I p = ∫ x in (-1 : ℝ)..1, p.eval x := rfl

theorem I_C_mul (c : ℝ) (p : ℝ[X]) : I (C c * p) = c * I p := by
  rw [← smul_eq_C_mul, map_smul, smul_eq_mul]

theorem I_derivative (p : ℝ[X]) : I (derivative p) = p.eval 1 - p.eval (-1) := by
  rw [I_apply]
  exact intervalIntegral.integral_eq_sub_of_hasDerivAt (fun x _ => p.hasDerivAt x)
    (intervalIntegrable_poly _)

theorem I_pos (p : ℝ[X]) (h0 : p ≠ 0) (h : ∀ x ∈ Set.Ioo (-1 : ℝ) 1, 0 ≤ p.eval x) : 0 < I p := by
  have hcl : ∀ x ∈ Set.Icc (-1 : ℝ) 1, 0 ≤ p.eval x := by
    have : Set.Icc (-1 : ℝ) 1 = closure (Set.Ioo (-1 : ℝ) 1) := (closure_Ioo (by norm_num)).symm
    intro x hx
    rw [this] at hx
    have hc : IsClosed {x : ℝ | 0 ≤ p.eval x} := isClosed_le continuous_const p.continuous
    exact closure_minimal h hc hx
  rw [I_apply]
  refine intervalIntegral.integral_pos (by norm_num) p.continuous.continuousOn
    (fun x hx => hcl x ⟨hx.1.le, hx.2⟩) ?_
  by_contra hne
  push Not at hne
  have hz : ∀ x ∈ Set.Icc (-1 : ℝ) 1, p.eval x = 0 := fun x hx => le_antisymm (hne x hx) (hcl x hx)
  apply h0
  apply Polynomial.eq_zero_of_infinite_isRoot
  exact (Set.Icc_infinite (by norm_num : (-1 : ℝ) < 1)).mono fun x hx => hz x hx

/-! ## Legendre polynomials -/

theorem natCast_ne (n : ℕ) : ((n : ℝ[X]) + 1) ≠ 0 := by
  exact_mod_cast Nat.succ_ne_zero n

theorem bonnet (n : ℕ) : ((n : ℝ[X]) + 2) * legendre (n + 2) =
    (2 * (n : ℝ[X]) + 3) * X * legendre (n + 1) - ((n : ℝ[X]) + 1) * legendre n := by
  rw [legendre]
  have h : ((n : ℝ[X]) + 2) * C (1 / (n + 2 : ℝ)) = 1 := by
    have : ((n : ℝ[X]) + 2) = C (n + 2 : ℝ) := by simp [map_ofNat]
    rw [this, ← C_mul, mul_one_div_cancel (by positivity), C_1]
  have e1 : C (2 * n + 3 : ℝ) = (2 * (n : ℝ[X]) + 3) := by simp [map_ofNat]
  have e2 : C (n + 1 : ℝ) = ((n : ℝ[X]) + 1) := by simp
  rw [e1, e2]
  linear_combination ((2 * (n : ℝ[X]) + 3) * X * legendre (n + 1) - ((n : ℝ[X]) + 1) * legendre n) * h

theorem derivs (n : ℕ) :
    derivative (legendre (n + 1)) = X * derivative (legendre n) + ((n : ℝ[X]) + 1) * legendre n ∧
    X * derivative (legendre (n + 1)) - derivative (legendre n) = ((n : ℝ[X]) + 1) * legendre (n + 1) := by
  induction n with
  | zero => constructor <;> simp [legendre]
  | succ n ih =>
    obtain ⟨hA, hB⟩ := ih
    have hb := bonnet n
    have hd := congrArg derivative hb
    simp only [derivative_mul, derivative_sub, derivative_add, derivative_natCast, derivative_X,
      derivative_ofNat, derivative_one] at hd
    have hne : ((n : ℝ[X]) + 2) ≠ 0 := by
      have := natCast_ne (n + 1); push_cast at this; rwa [add_assoc, one_add_one_eq_two] at this
    have hA' : derivative (legendre (n + 2)) =
        X * derivative (legendre (n + 1)) + ((n : ℝ[X]) + 2) * legendre (n + 1) := by
      apply mul_left_cancel₀ hne
      linear_combination hd + ((n : ℝ[X]) + 1) * hB
    constructor
    · push_cast; linear_combination hA'
    · push_cast
      linear_combination X * hA' + X * hB - hA - hb

theorem legendre_one (n : ℕ) : (legendre n).eval 1 = 1 := by
  induction n using Nat.strong_induction_on with
  | _ n ih =>
    match n with
    | 0 => simp [legendre]
    | 1 => simp [legendre]
    | n + 2 =>
      rw [legendre]
      simp only [eval_mul, eval_sub, eval_C, eval_X, ih (n + 1) (by omega), ih n (by omega)]
      field_simp; ring

theorem legendre_neg_one (n : ℕ) : (legendre n).eval (-1) = (-1) ^ n := by
  induction n using Nat.strong_induction_on with
  | _ n ih =>
    match n with
    | 0 => simp [legendre]
    | 1 => simp [legendre]
    | n + 2 =>
      rw [legendre]
      simp only [eval_mul, eval_sub, eval_C, eval_X, ih (n + 1) (by omega), ih n (by omega)]
      field_simp; ring

/-- The recursion for the derivative. -/
theorem weighted (n : ℕ) : (1 - X ^ 2) * derivative (legendre (n + 1)) =
    ((n : ℝ[X]) + 1) * (legendre n - X * legendre (n + 1)) := by
  obtain ⟨hA, hB⟩ := derivs n
  linear_combination hA - X * hB

theorem weighted' (n : ℕ) : (1 - X ^ 2) * derivative (legendre n) =
    ((n : ℝ[X]) + 1) * (X * legendre n - legendre (n + 1)) := by
  obtain ⟨hA, hB⟩ := derivs n
  linear_combination X * hA - hB

/-- The differential equation. -/
theorem ode (n : ℕ) : derivative ((1 - X ^ 2) * derivative (legendre n)) =
    -((n : ℝ[X]) * ((n : ℝ[X]) + 1)) * legendre n := by
  cases n with
  | zero => simp [legendre]
  | succ n =>
    rw [weighted]
    obtain ⟨hA, hB⟩ := derivs n
    simp only [derivative_mul, derivative_sub, derivative_add, derivative_natCast, derivative_X,
      derivative_one]
    push_cast
    linear_combination -((n : ℝ[X]) + 1) * hB

theorem natDegree_legendre_le (n : ℕ) : (legendre n).natDegree ≤ n := by
  induction n using Nat.strong_induction_on with
  | _ n ih =>
    match n with
    | 0 => simp [legendre]
    | 1 => simp [legendre]
    | n + 2 =>
      have h1 := ih (n + 1) (by omega)
      have h2 := ih n (by omega)
      rw [legendre]
      refine (natDegree_C_mul_le _ _).trans ((natDegree_sub_le _ _).trans (max_le ?_ ?_))
      · rw [mul_assoc]
        refine (natDegree_C_mul_le _ _).trans (natDegree_mul_le.trans ?_)
        rw [natDegree_X]; omega
      · exact (natDegree_C_mul_le _ _).trans (by omega)

/-- The leading coefficient. -/
noncomputable def lead (n : ℕ) : ℝ := (legendre n).coeff n

theorem lead_succ (n : ℕ) : (n + 1) * lead (n + 1) = (2 * n + 1) * lead n := by
  cases n with
  | zero => simp [lead, legendre]
  | succ n =>
    have h := congrArg (fun p => coeff p (n + 2)) (bonnet n)
    have e : (n : ℝ[X]) + 2 = C (n + 2 : ℝ) := by simp [map_ofNat]
    have e1 : 2 * (n : ℝ[X]) + 3 = C (2 * n + 3 : ℝ) := by simp [map_ofNat]
    have e2 : (n : ℝ[X]) + 1 = C (n + 1 : ℝ) := by simp
    have hz : (legendre n).coeff (n + 2) = 0 :=
      coeff_eq_zero_of_natDegree_lt (by have := natDegree_legendre_le n; omega)
    simp only [e, e1, e2, mul_assoc, coeff_sub, coeff_C_mul, hz, coeff_X_mul] at h
    simp only [lead]
    push_cast
    linear_combination h

theorem lead_pos (n : ℕ) : 0 < lead n := by
  induction n with
  | zero => simp [lead, legendre]
  | succ n ih =>
    have h := lead_succ n
    have h1 : 0 < (2 * n + 1) * lead n := by positivity
    rw [← h] at h1
    exact pos_of_mul_pos_right h1 (by positivity)

theorem natDegree_legendre (n : ℕ) : (legendre n).natDegree = n :=
  le_antisymm (natDegree_legendre_le n) (le_natDegree_of_ne_zero (lead_pos n).ne')

theorem legendre_ne_zero (n : ℕ) : legendre n ≠ 0 := by
  intro h
  have := legendre_one n
  rw [h] at this
  simp at this

theorem by_parts (n : ℕ) (q : ℝ[X]) :
    I ((1 - X ^ 2) * derivative (legendre n) * derivative q) = n * (n + 1) * I (legendre n * q) := by
  have h := I_derivative ((1 - X ^ 2) * derivative (legendre n) * q)
  rw [derivative_mul, ode] at h
  simp only [eval_mul, eval_sub, eval_one, eval_pow, eval_X] at h
  have e : -((n : ℝ[X]) * (n + 1)) * legendre n * q = C (-(n * (n + 1) : ℝ)) * (legendre n * q) := by
    simp; ring
  rw [map_add, e, I_C_mul] at h
  norm_num at h
  linear_combination h

theorem selfadjoint (n : ℕ) (q : ℝ[X]) :
    n * (n + 1) * I (legendre n * q) = -I (legendre n * derivative ((1 - X ^ 2) * derivative q)) := by
  rw [← by_parts]
  have h := I_derivative ((1 - X ^ 2) * derivative q * legendre n)
  rw [derivative_mul, map_add] at h
  simp only [eval_mul, eval_sub, eval_one, eval_pow, eval_X] at h
  rw [show (1 - 1 ^ 2 : ℝ) = 0 by norm_num, show (1 - (-1) ^ 2 : ℝ) = 0 by norm_num, zero_mul, zero_mul,
    zero_mul, zero_mul, sub_zero] at h
  rw [mul_comm (legendre n) (derivative _), show (1 - X ^ 2) * derivative (legendre n) * derivative q =
    (1 - X ^ 2) * derivative q * derivative (legendre n) by ring]
  linear_combination h

theorem orth_pow (n k : ℕ) (h : k < n) : I (legendre n * X ^ k) = 0 := by
  induction k using Nat.strong_induction_on with
  | _ k ih =>
    have hs := selfadjoint n (X ^ k)
    have hlt : (k : ℝ) < n := by exact_mod_cast h
    have hk0 : (0 : ℝ) ≤ k := by positivity
    have hne : (n * (n + 1) - k * (k + 1) : ℝ) ≠ 0 := by nlinarith
    have key : (n * (n + 1) - k * (k + 1) : ℝ) * I (legendre n * X ^ k) = 0 := by
      match k with
      | 0 => simp at hs ⊢; exact hs
      | 1 =>
        have e : derivative ((1 - X ^ 2) * derivative (X ^ 1) : ℝ[X]) = C (-2) * X ^ 1 := by
          simp [map_ofNat, one_add_one_eq_two]
        rw [e, mul_left_comm, I_C_mul] at hs
        push_cast
        linear_combination hs
      | k + 2 =>
        have e : derivative ((1 - X ^ 2) * derivative (X ^ (k + 2)) : ℝ[X]) =
            C ((k + 2 : ℝ) * (k + 1)) * X ^ k - C ((k + 2 : ℝ) * (k + 3)) * X ^ (k + 2) := by
          cases k with
          | zero => simp [map_ofNat]; ring
          | succ k => simp [map_ofNat]; ring
        rw [e, mul_sub, map_sub, mul_left_comm, I_C_mul, mul_left_comm, I_C_mul,
          ih k (by omega) (by omega)] at hs
        push_cast
        linear_combination hs
    exact (mul_eq_zero.mp key).resolve_left hne

theorem orth (n : ℕ) (q : ℝ[X]) (h : q.degree < n) : I (legendre n * q) = 0 := by
  rcases eq_or_ne q 0 with rfl | h0
  · simp
  rw [as_sum_range' q n ((natDegree_lt_iff_degree_lt h0).mpr h)]
  rw [Finset.mul_sum, map_sum]
  refine Finset.sum_eq_zero fun i hi => ?_
  rw [← C_mul_X_pow_eq_monomial, mul_left_comm, I_C_mul, orth_pow n i (Finset.mem_range.mp hi), mul_zero]

theorem orth_top (n : ℕ) (q : ℝ[X]) (h : q.natDegree ≤ n) :
    I (legendre n * q) = q.coeff n * I (legendre n * X ^ n) := by
  have hd : (q - C (q.coeff n) * X ^ n).degree < (n : WithBot ℕ) := by
    rw [degree_lt_iff_coeff_zero]
    intro m hm
    rcases hm.eq_or_lt with rfl | hm
    · simp
    · rw [coeff_sub, coeff_eq_zero_of_natDegree_lt (by omega), coeff_C_mul, coeff_X_pow, if_neg (by omega)]
      simp
  have := orth n _ hd
  rw [mul_sub, map_sub, mul_left_comm, I_C_mul] at this
  linear_combination this

theorem top_integral (n : ℕ) : (2 * n + 1) * (lead n * I (legendre n * X ^ n)) = 2 := by
  have h := I_derivative (X * legendre n ^ 2)
  have e : derivative (X * legendre n ^ 2) =
      legendre n * legendre n + C 2 * (legendre n * (X * derivative (legendre n))) := by
    simp [pow_two, map_ofNat]; ring
  rw [e, map_add, I_C_mul, orth_top n _ (natDegree_legendre_le n), orth_top n (X * derivative (legendre n)) (by
    rcases Nat.eq_zero_or_pos n with rfl | hn
    · simp [legendre]
    refine natDegree_mul_le.trans ?_
    rw [natDegree_X]
    have := natDegree_derivative_le (legendre n)
    have := natDegree_legendre n
    omega)] at h
  have hc : (X * derivative (legendre n)).coeff n = n * lead n := by
    cases n with
    | zero => simp
    | succ n => rw [coeff_X_mul, coeff_derivative, lead]; push_cast; ring
  rw [hc] at h
  simp only [eval_mul, eval_X, eval_pow, legendre_one, legendre_neg_one] at h
  rw [← pow_mul, mul_comm n 2, pow_mul] at h
  norm_num at h
  rw [show (legendre n).coeff n = lead n from rfl] at h
  linear_combination h

/-! ## Quadrature -/

/-- The roots of a polynomial orthogonal to all polynomials of lower degree, with a weight that is
not negative, are real, simple and inside the interval. -/
theorem orthogonal_roots (W p : ℝ[X]) (hW0 : W ≠ 0) (hW : ∀ x ∈ Set.Ioo (-1 : ℝ) 1, 0 ≤ W.eval x)
    (hp : p ≠ 0) (h : ∀ q : ℝ[X], q.degree < p.degree → I (W * p * q) = 0) :
    p.Splits ∧ p.roots.Nodup ∧ ∀ x ∈ p.roots, -1 < x ∧ x < 1 := by
  -- a factor without change of sign is constant
  have key : ∀ s t : ℝ[X], p = s * t → (∀ x ∈ Set.Ioo (-1 : ℝ) 1, 0 ≤ s.eval x) → s.natDegree = 0 := by
    intro s t hst hs
    by_contra hd
    have hs0 : s ≠ 0 := by rintro rfl; simp at hd
    have ht0 : t ≠ 0 := by rintro rfl; simp at hst; exact hp hst
    have hlt : t.degree < p.degree := by
      rw [degree_eq_natDegree ht0, degree_eq_natDegree hp, hst, natDegree_mul hs0 ht0]
      exact_mod_cast Nat.lt_add_of_pos_left (Nat.pos_of_ne_zero hd)
    have h1 := h t hlt
    have h2 : 0 < I (W * p * t) := by
      apply I_pos
      · exact mul_ne_zero (mul_ne_zero hW0 hp) ht0
      · intro x hx
        rw [hst]
        simp only [eval_mul]
        have e : W.eval x * (s.eval x * t.eval x) * t.eval x = W.eval x * s.eval x * (t.eval x) ^ 2 := by ring
        rw [e]
        exact mul_nonneg (mul_nonneg (hW x hx) (hs x hx)) (sq_nonneg _)
    linarith
  refine ⟨?_, ?_, ?_⟩
  · rw [splits_iff_card_roots]
    obtain ⟨q, hq, hdeg, hr⟩ := exists_prod_multiset_X_sub_C_mul p
    by_contra hne
    have hqd : q.natDegree ≠ 0 := by omega
    have hq0 : q ≠ 0 := by rintro rfl; simp at hqd
    obtain ⟨z, hz⟩ := IsAlgClosed.exists_aeval_eq_zero ℂ q (by
      rw [degree_eq_natDegree hq0]; exact_mod_cast hqd)
    have him : z.im ≠ 0 := by
      intro h0
      have hzr : z = ((z.re : ℝ) : ℂ) := Complex.ext rfl (by simpa using h0)
      rw [hzr] at hz
      have : q.eval z.re = 0 := by
        have h3 : aeval ((algebraMap ℝ ℂ) z.re) q = 0 := hz
        rw [aeval_algebraMap_apply] at h3
        simpa using h3
      have hm : z.re ∈ q.roots := (mem_roots hq0).mpr this
      rw [hr] at hm
      simp at hm
    obtain ⟨t, ht⟩ := quadratic_dvd_of_aeval_eq_zero_im_ne_zero q hz him
    have h3 := key (X ^ 2 - C (2 * z.re) * X + C (‖z‖ ^ 2))
      ((p.roots.map fun a => X - C a).prod * t) (by
        rw [mul_left_comm, ← ht, hq]) (by
        intro x _
        simp only [eval_add, eval_sub, eval_mul, eval_pow, eval_X, eval_C]
        rw [← Complex.normSq_eq_norm_sq, Complex.normSq_apply]
        nlinarith [sq_nonneg (x - z.re), sq_nonneg z.im])
    rw [show X ^ 2 - C (2 * z.re) * X + C (‖z‖ ^ 2) = C 1 * X ^ 2 + C (-(2 * z.re)) * X + C (‖z‖ ^ 2) by
      simp only [C_neg, C_1]; ring, natDegree_quadratic one_ne_zero] at h3
    omega
  · rw [Multiset.nodup_iff_count_le_one]
    intro a
    rw [count_roots]
    by_contra hc
    obtain ⟨t, ht⟩ : (X - C a) ^ 2 ∣ p := (le_rootMultiplicity_iff hp).mp (by omega)
    have h3 := key _ t ht (fun x _ => by
      simp only [eval_pow, eval_sub, eval_X, eval_C]; exact sq_nonneg _)
    rw [natDegree_pow, natDegree_X_sub_C] at h3
    omega
  · intro a ha
    obtain ⟨t, ht⟩ := dvd_iff_isRoot.mpr ((mem_roots hp).mp ha)
    constructor
    · by_contra hc
      have h3 := key _ t ht (fun x hx => by
        simp only [eval_sub, eval_X, eval_C]; linarith [hx.1])
      rw [natDegree_X_sub_C] at h3
      omega
    · by_contra hc
      have h3 := key (C (-1) * (X - C a)) (C (-1) * t) (by
        rw [ht]; simp only [C_neg, C_1]; ring) (fun x hx => by
        simp only [eval_sub, eval_X, eval_C, eval_mul]; linarith [hx.2])
      rw [natDegree_C_mul (by norm_num), natDegree_X_sub_C] at h3
      omega

open Lagrange in
/-- Quadrature with the integrals of Lagrange's polynomials as weights. -/
theorem gauss (s : Finset ℝ) (k : ℕ) (h : ∀ q : ℝ[X], q.degree < (k : WithBot ℕ) → I (nodal s id * q) = 0) (f : ℝ[X])
    (hf : f.degree < ((s.card + k : ℕ) : WithBot ℕ)) :
    I f = ∑ x ∈ s, I (Lagrange.basis s id x) * f.eval x := by
  have hm : (nodal s (id : ℝ → ℝ)).Monic := nodal_monic
  have hinj : Set.InjOn (id : ℝ → ℝ) s := Function.injective_id.injOn
  have hdiv := modByMonic_add_div f (nodal s (id : ℝ → ℝ))
  have hr : (f %ₘ nodal s id).degree < (s.card : WithBot ℕ) := by
    rw [← degree_nodal (s := s) (v := (id : ℝ → ℝ))]
    exact degree_modByMonic_lt f hm
  have hq : (f /ₘ nodal s id).degree < (k : WithBot ℕ) := by
    rcases eq_or_ne (f /ₘ nodal s id) 0 with h0 | h0
    · rw [h0, degree_zero]; exact WithBot.bot_lt_coe k
    · have hle : s.card ≤ f.natDegree := by
        by_contra hc
        apply h0
        rw [divByMonic_eq_zero_iff hm, degree_nodal]
        exact lt_of_le_of_lt degree_le_natDegree (by exact_mod_cast not_le.mp hc)
      have hf0 : f ≠ 0 := by rintro rfl; simp at h0
      rw [degree_eq_natDegree hf0] at hf
      have hf' : f.natDegree < s.card + k := by exact_mod_cast hf
      rw [degree_eq_natDegree h0, natDegree_divByMonic f hm, natDegree_nodal]
      exact_mod_cast (by omega : f.natDegree - s.card < k)
  have e1 : I f = I (f %ₘ nodal s id) := by
    rw [← hdiv, map_add, h _ hq, add_zero, hdiv]
  have e2 : ∀ x ∈ s, (f %ₘ nodal s id).eval x = f.eval x := by
    intro x hx
    have := congrArg (eval x) hdiv
    rw [eval_add, eval_mul, show eval x (nodal s id) = 0 from eval_nodal_at_node (v := id) hx] at this
    linarith
  rw [e1, eq_interpolate hinj hr, interpolate_apply, map_sum]
  refine Finset.sum_congr rfl fun x hx => ?_
  rw [I_C_mul, id, e2 x hx, mul_comm]

end Quadrature

end RayOpt
