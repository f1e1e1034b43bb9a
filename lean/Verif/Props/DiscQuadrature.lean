import Verif.Props.Quadrature
import Verif.Props.Sampling
import Mathlib.Analysis.SpecialFunctions.Integrals.Basic

/-!
Property C105: quadrature on the disc.
-/

namespace RayOpt

namespace Quadrature

open Polynomial Real

/-! ## Angles -/

/-- The angles of `interval_to_circle`. -/
noncomputable def angle (m k : ℕ) : ℝ := π * ((k + 1 / 2) / m - 1 / 2)

theorem sum_cos (m j : ℕ) (hj : 0 < j) (hjm : j < m) :
    ∑ k ∈ Finset.range m, cos (2 * j * angle m k) = 0 := by
  have hm : (m : ℝ) ≠ 0 := by exact_mod_cast (by omega : m ≠ 0)
  have hs : 0 < sin (j * π / m) := by
    apply sin_pos_of_pos_of_lt_pi
    · have : (0 : ℝ) < j := by exact_mod_cast hj
      have : (0 : ℝ) < m := by exact_mod_cast (by omega : 0 < m)
      positivity
    · have h1 : (j : ℝ) < m := by exact_mod_cast hjm
      rw [div_lt_iff₀ (by exact_mod_cast (by omega : 0 < m)), mul_comm]
      exact mul_lt_mul_of_pos_left h1 pi_pos
  have key : ∀ n : ℕ, ∑ k ∈ Finset.range n, 2 * sin (j * π / m) * cos (2 * j * angle m k) =
      sin (2 * j * π * n / m - j * π) - sin (-(j * π)) := by
    intro n
    induction n with
    | zero => simp
    | succ n ih =>
      rw [Finset.sum_range_succ, ih]
      have e1 : 2 * j * π * (n + 1 : ℕ) / m - j * π = 2 * j * angle m n + j * π / m := by
        unfold angle; push_cast; field_simp; ring
      have e2 : 2 * j * π * n / m - j * π = 2 * j * angle m n - j * π / m := by
        unfold angle; field_simp; ring
      rw [e1, e2, sin_add, sin_sub]
      ring
  have h := key m
  rw [← Finset.mul_sum, mul_div_cancel_right₀ _ hm, show 2 * (j : ℝ) * π - j * π = j * π by ring,
    sin_neg, sin_nat_mul_pi] at h
  simp only [neg_zero, sub_zero, mul_eq_zero] at h
  rcases h with (h | h) | h
  · norm_num at h
  · exact absurd h hs.ne'
  · exact h

theorem integral_cos_even (j : ℕ) (hj : 0 < j) : ∫ φ in (-π)..π, cos (2 * j * φ) = 0 := by
  have hj' : (2 * j : ℝ) ≠ 0 := by
    have : (0 : ℝ) < j := by exact_mod_cast hj
    positivity
  rw [intervalIntegral.integral_comp_mul_left (fun x => cos x) hj', integral_cos]
  have e : 2 * (j : ℝ) * π = (2 * j : ℕ) * π := by push_cast; ring
  have e' : 2 * (j : ℝ) * -π = -((2 * j : ℕ) * π) := by push_cast; ring
  rw [e, e', sin_neg, sin_nat_mul_pi]
  simp

theorem cos_step (i j : ℕ) (φ : ℝ) : cos (2 * φ) ^ (i + 1) * cos (2 * (j + 1 : ℕ) * φ) =
    1 / 2 * (cos (2 * φ) ^ i * cos (2 * (j + 2 : ℕ) * φ)) + 1 / 2 * (cos (2 * φ) ^ i * cos (2 * j * φ)) := by
  have h := cos_add (2 * (j + 1 : ℕ) * φ) (2 * φ)
  have h' := cos_sub (2 * (j + 1 : ℕ) * φ) (2 * φ)
  rw [show 2 * ((j + 1 : ℕ) : ℝ) * φ + 2 * φ = 2 * (j + 2 : ℕ) * φ by push_cast; ring] at h
  rw [show 2 * ((j + 1 : ℕ) : ℝ) * φ - 2 * φ = 2 * j * φ by push_cast; ring] at h'
  rw [h, h', pow_succ]
  ring

theorem angular_pow (m i : ℕ) : ∀ j : ℕ, i + j < m →
    2 * π * ∑ k ∈ Finset.range m, cos (2 * angle m k) ^ i * cos (2 * j * angle m k) =
      m * ∫ φ in (-π)..π, cos (2 * φ) ^ i * cos (2 * j * φ) := by
  induction i with
  | zero =>
    intro j hj
    simp only [pow_zero, one_mul]
    rcases Nat.eq_zero_or_pos j with rfl | hj0
    · simp; ring
    · rw [sum_cos m j hj0 (by omega), integral_cos_even j hj0]; simp
  | succ i ih =>
    intro j hj
    cases j with
    | zero =>
      have h := ih 1 (by omega)
      simpa [pow_succ] using h
    | succ j =>
      have h1 := ih (j + 2) (by omega)
      have h2 := ih j (by omega)
      simp only [cos_step]
      rw [Finset.sum_add_distrib, ← Finset.mul_sum, ← Finset.mul_sum,
        intervalIntegral.integral_add (by apply Continuous.intervalIntegrable; fun_prop)
          (by apply Continuous.intervalIntegrable; fun_prop),
        intervalIntegral.integral_const_mul, intervalIntegral.integral_const_mul]
      linear_combination h1 / 2 + h2 / 2

theorem angular_poly (m : ℕ) (f : ℝ[X]) (hf : f.natDegree < m) :
    2 * π * ∑ k ∈ Finset.range m, f.eval (cos (2 * angle m k)) =
      m * ∫ φ in (-π)..π, f.eval (cos (2 * φ)) := by
  simp only [eval_eq_sum_range' hf]
  rw [Finset.sum_comm, intervalIntegral.integral_finsetSum (fun i _ => by
    apply Continuous.intervalIntegrable; fun_prop), Finset.mul_sum, Finset.mul_sum]
  refine Finset.sum_congr rfl fun i hi => ?_
  rw [← Finset.mul_sum, intervalIntegral.integral_const_mul]
  have h := angular_pow m i 0 (by have := Finset.mem_range.mp hi; omega)
  simp only [Nat.cast_zero, mul_zero, zero_mul, cos_zero, mul_one] at h
  linear_combination f.coeff i * h

theorem angular_even (m a c : ℕ) (h : a + c < m) :
    2 * π * ∑ k ∈ Finset.range m, cos (angle m k) ^ (2 * a) * sin (angle m k) ^ (2 * c) =
      m * ∫ φ in (-π)..π, cos φ ^ (2 * a) * sin φ ^ (2 * c) := by
  have e : ∀ φ, cos φ ^ (2 * a) * sin φ ^ (2 * c) =
      (((C (1 / 2) * (1 + X)) ^ a * (C (1 / 2) * (1 - X)) ^ c : ℝ[X])).eval (cos (2 * φ)) := by
    intro φ
    simp only [eval_mul, eval_pow, eval_C, eval_add, eval_sub, eval_one, eval_X]
    rw [pow_mul, pow_mul, cos_sq, sin_sq, cos_sq]
    congr 2 <;> ring
  simp only [e]
  apply angular_poly
  refine lt_of_le_of_lt natDegree_mul_le (lt_of_le_of_lt (Nat.add_le_add (natDegree_pow_le_of_le a
    (show _ ≤ 1 from ?_)) (natDegree_pow_le_of_le c (show _ ≤ 1 from ?_))) (by omega))
  · refine (natDegree_C_mul_le _ _).trans ((natDegree_add_le _ _).trans ?_)
    simp
  · refine (natDegree_C_mul_le _ _).trans ((natDegree_sub_le _ _).trans ?_)
    simp

theorem angular_odd (m a c : ℕ) :
    ∑ k ∈ Finset.range m, cos (angle m k) ^ (2 * a) * sin (angle m k) ^ (2 * c + 1) = 0 ∧
      ∫ φ in (-π)..π, cos φ ^ (2 * a) * sin φ ^ (2 * c + 1) = 0 := by
  constructor
  · have h := Finset.sum_range_reflect
      (fun k => cos (angle m k) ^ (2 * a) * sin (angle m k) ^ (2 * c + 1)) m
    have e : ∀ k ∈ Finset.range m, cos (angle m (m - 1 - k)) ^ (2 * a) * sin (angle m (m - 1 - k)) ^ (2 * c + 1)
        = -(cos (angle m k) ^ (2 * a) * sin (angle m k) ^ (2 * c + 1)) := by
      intro k hk
      have hk' := Finset.mem_range.mp hk
      have hm : (m : ℝ) ≠ 0 := by exact_mod_cast (by omega : m ≠ 0)
      have : angle m (m - 1 - k) = -angle m k := by
        unfold angle
        rw [Nat.sub_sub, Nat.cast_sub (by omega)]
        push_cast
        field_simp
        ring
      rw [this, cos_neg, sin_neg, Odd.neg_pow (⟨c, rfl⟩ : Odd (2 * c + 1))]
      ring
    rw [Finset.sum_congr rfl e, Finset.sum_neg_distrib] at h
    linarith
  · have h := intervalIntegral.integral_comp_neg
      (fun φ => cos φ ^ (2 * a) * sin φ ^ (2 * c + 1)) (a := -π) (b := π)
    simp only [cos_neg, sin_neg, neg_neg, Odd.neg_pow (⟨c, rfl⟩ : Odd (2 * c + 1)), mul_neg,
      intervalIntegral.integral_neg] at h
    linarith

/-! ## The disc -/

theorem sum_circle (x w : List ℝ) (h : x.length = w.length) (a b : ℕ) :
    ((Sampling.intervalToCircle x w).map fun t =>
      t.2.2 * ((t.1 * cos t.2.1) ^ a * (t.1 * sin t.2.1) ^ b)).sum =
    (List.zipWith (fun t v => v * √((t + 1) / 2) ^ (a + b)) x w).sum *
      (∑ k ∈ Finset.range x.length, cos (angle x.length k) ^ a * sin (angle x.length k) ^ b) /
      (2 * x.length) := by
  have hsp : ∀ (m : ℕ) (r v : ℝ), (((((List.range m).map fun k : ℕ => π * (((k : ℝ) + 1 / 2) / m - 1 / 2)).map
      fun p => ((r, p, v / m / 2) : ℝ × ℝ × ℝ))).map fun t =>
      t.2.2 * ((t.1 * cos t.2.1) ^ a * (t.1 * sin t.2.1) ^ b)).sum =
      v * r ^ (a + b) * (∑ k ∈ Finset.range m, cos (angle m k) ^ a * sin (angle m k) ^ b) / (2 * m) := by
    intro m r v
    rw [List.map_map, List.map_map, ← List.sum_toFinset _ (List.nodup_range), List.toFinset_range,
      Finset.mul_sum, Finset.sum_div]
    refine Finset.sum_congr rfl fun k _ => ?_
    simp only [Function.comp_apply, angle, mul_pow, pow_add]
    ring
  have hflat : ∀ (m : ℕ) (xs ws : List ℝ), xs.length = ws.length →
      ((((xs.map fun x => √((x + 1) / 2)).zip ws).flatMap fun rw : ℝ × ℝ =>
        ((List.range m).map fun k : ℕ => π * (((k : ℝ) + 1 / 2) / m - 1 / 2)).map
          fun p => ((rw.1, p, rw.2 / m / 2) : ℝ × ℝ × ℝ)).map fun t =>
      t.2.2 * ((t.1 * cos t.2.1) ^ a * (t.1 * sin t.2.1) ^ b)).sum =
      (List.zipWith (fun t v => v * √((t + 1) / 2) ^ (a + b)) xs ws).sum *
        (∑ k ∈ Finset.range m, cos (angle m k) ^ a * sin (angle m k) ^ b) / (2 * m) := by
    intro m xs
    induction xs with
    | nil => intro ws _; simp
    | cons x xs ih =>
      intro ws hl
      cases ws with
      | nil => simp at hl
      | cons w ws =>
        have hl' : xs.length = ws.length := by simpa using hl
        rw [List.map_cons, List.zip_cons_cons, List.flatMap_cons, List.map_append, List.sum_append,
          ih ws hl', hsp, List.zipWith_cons_cons, List.sum_cons]
        ring
  unfold Sampling.intervalToCircle
  cases x with
  | nil => simp
  | cons x0 xs =>
    cases w with
    | nil => simp at h
    | cons w0 ws =>
      have hl' : xs.length = ws.length := by simpa using h
      simp only [List.map_cons]
      split_ifs with h0
      · rw [List.map_cons, List.sum_cons, hflat _ xs ws hl', List.zipWith_cons_cons, List.sum_cons, h0]
        have hm : ((x0 :: xs).length : ℝ) ≠ 0 := by simp; positivity
        rcases Nat.eq_zero_or_pos a with rfl | ha
        · rcases Nat.eq_zero_or_pos b with rfl | hb
          · simp only [pow_zero, mul_one, add_zero, Finset.sum_const, Finset.card_range, nsmul_eq_mul]
            field_simp
          · simp [hb.ne']
        · simp [ha.ne']
      · rw [← List.map_cons (f := fun x => √((x + 1) / 2)), hflat _ (x0 :: xs) (w0 :: ws) h]

theorem radial_integral (k : ℕ) : ∫ r in (0 : ℝ)..1, r ^ (2 * k) * r = 1 / (2 * (k + 1)) := by
  have e : ∀ r : ℝ, r ^ (2 * k) * r = r ^ (2 * k + 1) := fun r => (pow_succ _ _).symm
  simp only [e, integral_pow]
  push_cast
  norm_num
  field_simp
  ring

theorem zip_congr (f g : ℝ → ℝ) (x w : List ℝ) (h : ∀ t ∈ x, f t = g t) :
    List.zipWith (fun t v => v * f t) x w = List.zipWith (fun t v => v * g t) x w := by
  induction x generalizing w with
  | nil => simp
  | cons a x ih =>
    cases w with
    | nil => simp
    | cons v w =>
      rw [List.zipWith_cons_cons, List.zipWith_cons_cons, h a List.mem_cons_self,
        ih w fun t ht => h t (List.mem_cons_of_mem _ ht)]

theorem interval_pow (k : ℕ) : I ((C (1 / 2) * (X + C 1)) ^ k) = 2 / ((k : ℝ) + 1) := by
  have h := I_derivative ((C (1 / 2) * (X + C 1)) ^ (k + 1))
  have e : derivative ((C (1 / 2) * (X + C 1)) ^ (k + 1) : ℝ[X]) =
      C (((k : ℝ) + 1) / 2) * (C (1 / 2) * (X + C 1)) ^ k := by
    rw [derivative_pow, derivative_C_mul, derivative_X_add_C, Nat.add_sub_cancel, mul_one, mul_right_comm,
      ← C_mul]
    congr 2
    push_cast
    ring
  rw [e, I_C_mul] at h
  simp only [eval_pow, eval_mul, eval_C, eval_add, eval_X] at h
  norm_num at h
  have : (k : ℝ) + 1 ≠ 0 := by positivity
  rw [C_1]
  field_simp
  linear_combination 2 * h

/-- Monomials. -/
theorem disc_monomial (x w : List ℝ) (h : x.length = w.length) (hx : ∀ t ∈ x, -1 ≤ t) (d : ℕ)
    (hd : x.length ≤ d + 1)
    (hex : ∀ f : ℝ[X], f.natDegree ≤ d →
      (List.zipWith (fun t v => v * f.eval t) x w).sum = ∫ t in (-1 : ℝ)..1, f.eval t)
    (a b : ℕ) (hab : 2 * a + b + 2 ≤ 2 * x.length) :
    ((Sampling.intervalToCircle x w).map fun t =>
      t.2.2 * ((t.1 * cos t.2.1) ^ (2 * a) * (t.1 * sin t.2.1) ^ b)).sum =
    (1 / π) * ∫ r in (0 : ℝ)..1, (∫ φ in (-π)..π, (r * cos φ) ^ (2 * a) * (r * sin φ) ^ b) * r := by
  have hm : (x.length : ℝ) ≠ 0 := by exact_mod_cast (by omega : x.length ≠ 0)
  have hpi := pi_ne_zero
  rw [sum_circle x w h]
  have e : ∀ r : ℝ, (∫ φ in (-π)..π, (r * cos φ) ^ (2 * a) * (r * sin φ) ^ b) * r =
      (∫ φ in (-π)..π, cos φ ^ (2 * a) * sin φ ^ b) * (r ^ (2 * a + b) * r) := by
    intro r
    have : ∀ φ, (r * cos φ) ^ (2 * a) * (r * sin φ) ^ b = r ^ (2 * a + b) * (cos φ ^ (2 * a) * sin φ ^ b) := by
      intro φ; rw [mul_pow, mul_pow, pow_add]; ring
    simp only [this, intervalIntegral.integral_const_mul]
    ring
  simp only [e, intervalIntegral.integral_const_mul]
  rcases Nat.even_or_odd' b with ⟨c, rfl | rfl⟩
  · have hA := angular_even x.length a c (by omega)
    rw [← Nat.mul_add, radial_integral]
    have hR : (List.zipWith (fun t v => v * √((t + 1) / 2) ^ (2 * (a + c))) x w).sum =
        2 / (((a + c : ℕ) : ℝ) + 1) := by
      rw [zip_congr _ (fun t => ((C (1 / 2) * (X + C 1)) ^ (a + c) : ℝ[X]).eval t) x w (fun t ht => by
        simp only [eval_pow, eval_mul, eval_C, eval_add, eval_X]
        rw [pow_mul, Real.sq_sqrt (by linarith [hx t ht])]
        congr 1; ring)]
      rw [hex _ (by rw [natDegree_pow, natDegree_C_mul (by norm_num), natDegree_X_add_C]; omega), ← I_apply,
        interval_pow]
    rw [hR]
    generalize ∑ k ∈ Finset.range x.length, cos (angle x.length k) ^ (2 * a) * sin (angle x.length k) ^ (2 * c)
      = S at *
    generalize ∫ φ in (-π)..π, cos φ ^ (2 * a) * sin φ ^ (2 * c) = J at *
    have hk : ((a + c : ℕ) : ℝ) + 1 ≠ 0 := by positivity
    field_simp
    linear_combination hA
  · obtain ⟨h1, h2⟩ := angular_odd x.length a c
    rw [h1, h2]
    simp

theorem sum_finset {ι : Type*} (S : Finset ι) (c : ι → ℝ) (l : List (ℝ × ℝ × ℝ)) (g : ι → ℝ × ℝ × ℝ → ℝ) :
    (l.map fun t => t.2.2 * ∑ s ∈ S, c s * g s t).sum = ∑ s ∈ S, c s * (l.map fun t => t.2.2 * g s t).sum := by
  induction l with
  | nil => simp
  | cons t l ih =>
    rw [List.map_cons, List.sum_cons, ih, Finset.mul_sum, ← Finset.sum_add_distrib]
    refine Finset.sum_congr rfl fun s _ => ?_
    rw [List.map_cons, List.sum_cons]
    ring

theorem disc_exact (x w : List ℝ) (h : x.length = w.length) (hx : ∀ t ∈ x, -1 ≤ t) (d : ℕ)
    (hd : x.length ≤ d + 1)
    (hex : ∀ f : ℝ[X], f.natDegree ≤ d →
      (List.zipWith (fun t v => v * f.eval t) x w).sum = ∫ t in (-1 : ℝ)..1, f.eval t)
    (S : Finset (ℕ × ℕ)) (c : ℕ × ℕ → ℝ) (hS : ∀ s ∈ S, 2 * s.1 + s.2 + 2 ≤ 2 * x.length) (F : ℝ → ℝ → ℝ)
    (hF : ∀ u v, F u v = ∑ s ∈ S, c s * (u ^ (2 * s.1) * v ^ s.2)) :
    ((Sampling.intervalToCircle x w).map fun t => t.2.2 * F (t.1 * cos t.2.1) (t.1 * sin t.2.1)).sum =
    (1 / π) * ∫ r in (0 : ℝ)..1, (∫ φ in (-π)..π, F (r * cos φ) (r * sin φ)) * r := by
  simp only [hF]
  rw [sum_finset S c _ (fun s t => (t.1 * cos t.2.1) ^ (2 * s.1) * (t.1 * sin t.2.1) ^ s.2)]
  have e1 : ∀ r : ℝ, (∫ φ in (-π)..π, ∑ s ∈ S, c s * ((r * cos φ) ^ (2 * s.1) * (r * sin φ) ^ s.2)) * r =
      ∑ s ∈ S, c s * ((∫ φ in (-π)..π, (r * cos φ) ^ (2 * s.1) * (r * sin φ) ^ s.2) * r) := by
    intro r
    rw [intervalIntegral.integral_finsetSum (fun s _ => by
      apply Continuous.intervalIntegrable; fun_prop), Finset.sum_mul]
    refine Finset.sum_congr rfl fun s _ => ?_
    rw [intervalIntegral.integral_const_mul]
    ring
  simp only [e1]
  have e2 : ∀ (a b : ℕ) (r : ℝ), (∫ φ in (-π)..π, (r * cos φ) ^ a * (r * sin φ) ^ b) * r =
      (∫ φ in (-π)..π, cos φ ^ a * sin φ ^ b) * (r ^ (a + b) * r) := by
    intro a b r
    have : ∀ φ, (r * cos φ) ^ a * (r * sin φ) ^ b = r ^ (a + b) * (cos φ ^ a * sin φ ^ b) := by
      intro φ; rw [mul_pow, mul_pow, pow_add]; ring
    simp only [this, intervalIntegral.integral_const_mul]
    ring
  rw [intervalIntegral.integral_finsetSum (fun s _ => by
    apply Continuous.intervalIntegrable
    simp only [e2]
    fun_prop), Finset.mul_sum]
  refine Finset.sum_congr rfl fun s hs => ?_
  rw [intervalIntegral.integral_const_mul, disc_monomial x w h hx d hd hex s.1 s.2 (hS s hs)]
  ring

theorem nodes_two (n : ℕ) (hn : 2 ≤ n) : 2 ≤ ⌊√(n : ℝ) + 1⌋₊ := by
  apply Nat.le_floor
  have h1 : (1 : ℝ) ≤ √n := by
    rw [Real.one_le_sqrt]; exact_mod_cast (by omega : 1 ≤ n)
  push_cast
  linarith

theorem head_tail {x : List ℝ} {P : ℝ → Prop} {a : ℝ} (h0 : x.head? = some a) (ha : P a)
    (ht : ∀ t ∈ x.tail, P t) : ∀ t ∈ x, P t := by
  cases x with
  | nil => simp at h0
  | cons b x =>
    simp at h0
    subst h0
    intro t h
    rcases List.mem_cons.mp h with rfl | h
    · exact ha
    · exact ht t h

theorem lobatto_range (roots : ℝ[X] → List ℝ) (hr : RootsOk roots) (n : ℕ) (hn : 2 ≤ n) :
    ∀ t ∈ (glRoots roots n).1, -1 ≤ t := by
  obtain ⟨-, -, h0, h1, -, hi, -⟩ := c105_lobatto roots hr n hn _ _ rfl
  refine head_tail h0 le_rfl fun t ht => ?_
  have hne : (glRoots roots n).1.tail ≠ [] := List.ne_nil_of_mem ht
  rw [← List.dropLast_append_getLast hne] at ht
  rcases List.mem_append.mp ht with ht | ht
  · exact (hi t ht).1.le
  · have : (glRoots roots n).1.tail.getLast hne = 1 := by
      simp [glRoots]
    rw [this] at ht
    rw [List.mem_singleton.mp ht]
    norm_num

/-- C105: the points and weights of `pupil_distribution("radau", n)` average every polynomial that is even in
`x` over the disc, up to the degree `2 m - 2` for `m = int(sqrt(n) + 1)` radii. -/
theorem c105_radau_disc (roots : ℝ[X] → List ℝ) (hr : RootsOk roots) (n : ℕ) (hn : 2 ≤ n)
    (S : Finset (ℕ × ℕ)) (c : ℕ × ℕ → ℝ) (hS : ∀ s ∈ S, 2 * s.1 + s.2 + 2 ≤ 2 * ⌊√(n : ℝ) + 1⌋₊)
    (F : ℝ → ℝ → ℝ) (hF : ∀ u v, F u v = ∑ s ∈ S, c s * (u ^ (2 * s.1) * v ^ s.2)) :
    ((radau roots n).map fun t => t.2.2 * F (t.1 * cos t.2.1) (t.1 * sin t.2.1)).sum =
    (1 / π) * ∫ r in (0 : ℝ)..1, (∫ φ in (-π)..π, F (r * cos φ) (r * sin φ)) * r := by
  have hN := nodes_two n hn
  obtain ⟨hl, hl', h0, -, hi, -, hex⟩ := c105_radau roots hr ⌊√(n : ℝ) + 1⌋₊ (by omega) _ _ rfl
  exact disc_exact _ _ (hl.trans hl'.symm) (head_tail h0 le_rfl fun t ht => (hi t ht).1.le) _
    (by rw [hl]; omega) hex S c (by rw [hl]; exact hS) F hF

/-- C105: the same for `pupil_distribution("lobatto", n)`. -/
theorem c105_lobatto_disc (roots : ℝ[X] → List ℝ) (hr : RootsOk roots) (n : ℕ) (hn : 2 ≤ n)
    (S : Finset (ℕ × ℕ)) (c : ℕ × ℕ → ℝ) (hS : ∀ s ∈ S, 2 * s.1 + s.2 + 2 ≤ 2 * ⌊√(n : ℝ) + 1⌋₊)
    (F : ℝ → ℝ → ℝ) (hF : ∀ u v, F u v = ∑ s ∈ S, c s * (u ^ (2 * s.1) * v ^ s.2)) :
    ((lobatto roots n).map fun t => t.2.2 * F (t.1 * cos t.2.1) (t.1 * sin t.2.1)).sum =
    (1 / π) * ∫ r in (0 : ℝ)..1, (∫ φ in (-π)..π, F (r * cos φ) (r * sin φ)) * r := by
  have hN := nodes_two n hn
  obtain ⟨hl, hl', -, -, -, -, -, hex⟩ := c105_lobatto roots hr ⌊√(n : ℝ) + 1⌋₊ hN _ _ rfl
  exact disc_exact _ _ (hl.trans hl'.symm) (lobatto_range roots hr _ hN) _
    (by rw [hl]; omega) hex S c (by rw [hl]; exact hS) F hF

/-- C105: the weights always sum to one, so that the assertion of `interval_to_circle` holds, and there are
`m (m - 1) + 1` points. -/
theorem c105_assert (roots : ℝ[X] → List ℝ) (hr : RootsOk roots) (n : ℕ) (hn : 2 ≤ n) :
    ((radau roots n).map fun t => t.2.2).sum = 1 ∧ ((lobatto roots n).map fun t => t.2.2).sum = 1 ∧
    (radau roots n).length = ⌊√(n : ℝ) + 1⌋₊ * (⌊√(n : ℝ) + 1⌋₊ - 1) + 1 ∧
    (lobatto roots n).length = ⌊√(n : ℝ) + 1⌋₊ * (⌊√(n : ℝ) + 1⌋₊ - 1) + 1 := by
  have hN := nodes_two n hn
  have one : (1 / π) * ∫ r in (0 : ℝ)..1, (∫ _ in (-π)..π, (1 : ℝ)) * r = 1 := by
    have := pi_ne_zero
    rw [intervalIntegral.integral_const_mul, integral_id, intervalIntegral.integral_const]
    simp
    field_simp
    norm_num
  have hS : ∀ s ∈ ({(0, 0)} : Finset (ℕ × ℕ)), 2 * s.1 + s.2 + 2 ≤ 2 * ⌊√(n : ℝ) + 1⌋₊ := by
    intro s hs
    rw [Finset.mem_singleton.mp hs]
    simp only
    omega
  have h1 := c105_radau_disc roots hr n hn {(0, 0)} (fun _ => 1) hS (fun _ _ => 1) (fun u v => by simp)
  have h2 := c105_lobatto_disc roots hr n hn {(0, 0)} (fun _ => 1) hS (fun _ _ => 1) (fun u v => by simp)
  rw [one] at h1 h2
  simp only [mul_one] at h1 h2
  obtain ⟨hl, hl', h0, -, hi, -, -⟩ := c105_radau roots hr ⌊√(n : ℝ) + 1⌋₊ (by omega)
    (grRoots roots ⌊√(n : ℝ) + 1⌋₊).1 (grRoots roots ⌊√(n : ℝ) + 1⌋₊).2 rfl
  obtain ⟨gl, gl', g0, -, -, -, -, -⟩ := c105_lobatto roots hr ⌊√(n : ℝ) + 1⌋₊ hN
    (glRoots roots ⌊√(n : ℝ) + 1⌋₊).1 (glRoots roots ⌊√(n : ℝ) + 1⌋₊).2 rfl
  have c1 := Sampling.c64_count _ _ (hl.trans hl'.symm) (head_tail h0 le_rfl fun t ht => (hi t ht).1.le)
  have c2 := Sampling.c64_count _ _ (gl.trans gl'.symm) (lobatto_range roots hr _ hN)
  rw [if_pos h0, hl] at c1
  rw [if_pos g0, gl] at c2
  exact ⟨h1, h2, c1, c2⟩

/-- C105, violation: the points lie in one half of the disc, so that the average of `x`, which is zero, is
never found. -/
theorem c105_half_violation (roots : ℝ[X] → List ℝ) (hr : RootsOk roots) (n : ℕ) (hn : 2 ≤ n) :
    0 < ((radau roots n).map fun t => t.2.2 * (t.1 * cos t.2.1)).sum ∧
    (1 / π) * ∫ r in (0 : ℝ)..1, (∫ φ in (-π)..π, r * cos φ) * r = 0 := by
  constructor
  · have hN := nodes_two n hn
    obtain ⟨hl, hl', h0, -, hi, hw, -⟩ := c105_radau roots hr ⌊√(n : ℝ) + 1⌋₊ (by omega)
      (grRoots roots ⌊√(n : ℝ) + 1⌋₊).1 (grRoots roots ⌊√(n : ℝ) + 1⌋₊).2 rfl
    have h := sum_circle (grRoots roots ⌊√(n : ℝ) + 1⌋₊).1 (grRoots roots ⌊√(n : ℝ) + 1⌋₊).2
      (hl.trans hl'.symm) 1 0
    simp only [pow_one, pow_zero, mul_one, add_zero] at h
    rw [radau, h, hl]
    have hm : (0 : ℝ) < ⌊√(n : ℝ) + 1⌋₊ := by exact_mod_cast (by omega)
    have hc : 0 < ∑ k ∈ Finset.range ⌊√(n : ℝ) + 1⌋₊, cos (angle ⌊√(n : ℝ) + 1⌋₊ k) := by
      refine Finset.sum_pos (fun k hk => cos_pos_of_mem_Ioo ⟨?_, ?_⟩) ⟨0, Finset.mem_range.mpr (by omega)⟩
      · unfold angle
        have : 0 < π * (((k : ℝ) + 1 / 2) / ⌊√(n : ℝ) + 1⌋₊) := by positivity
        linarith
      · unfold angle
        have hk' : (k : ℝ) + 1 ≤ ⌊√(n : ℝ) + 1⌋₊ := by exact_mod_cast Finset.mem_range.mp hk
        have : ((k : ℝ) + 1 / 2) / ⌊√(n : ℝ) + 1⌋₊ < 1 := by rw [div_lt_one hm]; linarith
        nlinarith [pi_pos]
    have hs : ∀ x w : List ℝ, x.length = w.length → (∀ v ∈ w, 0 < v) →
        0 ≤ (List.zipWith (fun t v => v * √((t + 1) / 2)) x w).sum ∧
        ((∃ t ∈ x, -1 < t) → 0 < (List.zipWith (fun t v => v * √((t + 1) / 2)) x w).sum) := by
      intro x
      induction x with
      | nil => intro w _ _; simp
      | cons a x ih =>
        intro w hl hw
        cases w with
        | nil => simp at hl
        | cons v w =>
          obtain ⟨i1, i2⟩ := ih w (by simpa using hl) fun v hv => hw v (List.mem_cons_of_mem _ hv)
          have hv := hw v List.mem_cons_self
          have hr := Real.sqrt_nonneg ((a + 1) / 2)
          rw [List.zipWith_cons_cons, List.sum_cons]
          refine ⟨by positivity, ?_⟩
          rintro ⟨t, ht, h1⟩
          rcases List.mem_cons.mp ht with rfl | ht
          · have : 0 < √((t + 1) / 2) := Real.sqrt_pos.mpr (by linarith)
            have := mul_pos hv this
            linarith
          · have := i2 ⟨t, ht, h1⟩
            have := mul_nonneg hv.le hr
            linarith
    have hp := (hs _ _ (hl.trans hl'.symm) hw).2 (by
      obtain ⟨t, ht⟩ : ∃ t, t ∈ (grRoots roots ⌊√(n : ℝ) + 1⌋₊).1.tail := by
        apply List.exists_mem_of_length_pos
        rw [List.length_tail, hl]
        omega
      exact ⟨t, List.mem_of_mem_tail ht, (hi t ht).1⟩)
    positivity
  · have e : ∀ r : ℝ, ∫ φ in (-π)..π, r * cos φ = 0 := by
      intro r
      rw [intervalIntegral.integral_const_mul, integral_cos]
      simp
    simp [e]

/-- An instance: the average of `x² + y²` over the disc with two radii. -/
example : RootsOk (fun p => p.roots.toList) ∧
    ∀ s ∈ ({(1, 0), (0, 2)} : Finset (ℕ × ℕ)), 2 * s.1 + s.2 + 2 ≤ 2 * ⌊√(2 : ℕ) + 1⌋₊ := by
  refine ⟨fun p _ _ => p.roots.coe_toList, fun s hs => ?_⟩
  have := nodes_two 2 le_rfl
  simp only [Finset.mem_insert, Finset.mem_singleton] at hs
  rcases hs with rfl | rfl <;> simp only <;> omega

end Quadrature

end RayOpt
