import Verif.Lemmas.PolySurf
import Verif.Lemmas.ThirdOrder

/-!
Functions of one parameter with a given Taylor polynomial: evaluation of truncated polynomials at small
arguments.
-/

namespace RayOpt.Poly

open Simplex MvPolynomial Filter Topology Asymptotics

/-- A polynomial in the squared height, the squared slope and their product, for the ray whose height and
slope are `t` times those with the values `a`. -/
noncomputable def ev (a : Fin 3 → ℝ) (t : ℝ) (A : MvPolynomial (Fin 3) ℝ) : ℝ :=
  MvPolynomial.eval (fun i => t ^ 2 * a i) A

/-- Specification: `f` is the polynomial `q` along the family of rays `a`, up to terms of order `2 m`. -/
def Tay {m : ℕ} (a : Fin 3 → ℝ) (f : ℝ → ℝ) (q : Q 3 m) : Prop :=
  ∃ A : MvPolynomial (Fin 3) ℝ, Ideal.Quotient.mk (high 3 m) A = q ∧
    (fun t => f t - ev a t A) =O[𝓝 0] fun t => t ^ (2 * m)

theorem ev_continuous (a : Fin 3 → ℝ) (A : MvPolynomial (Fin 3) ℝ) : Continuous fun t => ev a t A := by
  unfold ev
  simp only [MvPolynomial.eval_eq]
  fun_prop

theorem ev_zero (a : Fin 3 → ℝ) (A : MvPolynomial (Fin 3) ℝ) : ev a 0 A = (line a A).coeff 0 := by
  unfold ev line
  induction A using MvPolynomial.induction_on with
  | C c => simp
  | add p q hp hq => simp only [map_add, hp, hq, Polynomial.coeff_add]
  | mul_X p i hp => simp

theorem high_isO {m : ℕ} (a : Fin 3 → ℝ) {A : MvPolynomial (Fin 3) ℝ} (h : TEq m A 0) :
    (fun t => ev a t A) =O[𝓝 0] fun t => t ^ (2 * m) := by
  unfold ev
  simp only [MvPolynomial.eval_eq]
  refine IsBigO.fun_sum (fun e he => ?_)
  have hd : m ≤ e.degree := by
    by_contra hlt
    have := h e (not_le.mp hlt)
    rw [coeff_zero] at this
    exact (MvPolynomial.mem_support_iff.mp he) this
  have e1 : ∀ t : ℝ, coeff e A * ∏ i, (t ^ 2 * a i) ^ e i
      = (coeff e A * ∏ i, a i ^ e i) * t ^ (2 * e.degree) := by
    intro t
    simp only [mul_pow, Finset.prod_mul_distrib, ← pow_mul]
    rw [Finset.prod_pow_eq_pow_sum, ← Finset.mul_sum, Finsupp.degree_eq_sum]
    ring
  have e2 : (fun t : ℝ => coeff e A * ∏ i ∈ e.support, (t ^ 2 * a i) ^ e i)
      = fun t => (coeff e A * ∏ i, a i ^ e i) * t ^ (2 * e.degree) := by
    funext t
    rw [← e1]
    congr 1
    exact Finset.prod_subset (Finset.subset_univ _) (fun i _ hi => by simp [Finsupp.notMem_support_iff.mp hi])
  rw [e2]
  exact (pow_isO (by omega)).const_mul_left _

section
variable {m : ℕ} {a : Fin 3 → ℝ} {f g : ℝ → ℝ} {p q : Q 3 m}

theorem tay_mk {A : MvPolynomial (Fin 3) ℝ} :
    Tay a f (Ideal.Quotient.mk (high 3 m) A) ↔
      (fun t => f t - ev a t A) =O[𝓝 0] fun t => t ^ (2 * m) := by
  constructor
  · rintro ⟨B, hB, h⟩
    rw [mk_eq] at hB
    have h2 : TEq m (B - A) 0 := by
      rw [← mk_eq, map_sub, map_zero, mk_eq.mpr hB, sub_self]
    have h3 := high_isO a h2
    refine (h.add h3).congr_left fun t => ?_
    simp [ev]
  · intro h
    exact ⟨A, rfl, h⟩

theorem tay_zero : Tay a f (0 : Q 3 m) ↔ f =O[𝓝 0] fun t => t ^ (2 * m) := by
  rw [← map_zero (Ideal.Quotient.mk (high 3 m)), tay_mk]
  simp [ev]

namespace Tay

theorem congr (h : Tay a f p) (e : p = q) : Tay a f q := e ▸ h

theorem of_eventuallyEq (h : Tay a f p) (e : f =ᶠ[𝓝 0] g) : Tay a g p := by
  obtain ⟨A, hA, h⟩ := h
  refine ⟨A, hA, h.congr' ?_ (EventuallyEq.refl _ _)⟩
  filter_upwards [e] with t ht
  rw [ht]

theorem const (c : ℝ) : Tay a (fun _ => c) (κ c : Q 3 m) :=
  ⟨C c, rfl, by simpa [ev] using isBigO_zero _ _⟩

theorem one : Tay a (fun _ => 1) (1 : Q 3 m) := (const 1).congr κ_one

theorem var (i : Fin 3) : Tay a (fun t => t ^ 2 * a i) (var i : Q 3 m) :=
  ⟨X i, rfl, by simpa [ev] using isBigO_zero _ _⟩

theorem add (hf : Tay a f p) (hg : Tay a g q) : Tay a (fun t => f t + g t) (p + q) := by
  obtain ⟨A, rfl, hA⟩ := hf
  obtain ⟨B, rfl, hB⟩ := hg
  refine ⟨A + B, map_add _ _ _, (hA.add hB).congr_left fun t => ?_⟩
  simp only [ev, map_add]
  ring

theorem sub (hf : Tay a f p) (hg : Tay a g q) : Tay a (fun t => f t - g t) (p - q) := by
  obtain ⟨A, rfl, hA⟩ := hf
  obtain ⟨B, rfl, hB⟩ := hg
  refine ⟨A - B, map_sub _ _ _, (hA.sub hB).congr_left fun t => ?_⟩
  simp only [ev, map_sub]
  ring

theorem tendsto (hm : 0 < m) (hf : Tay a f p) : Tendsto f (𝓝 0) (𝓝 (lc a 0 p)) := by
  obtain ⟨A, rfl, hA⟩ := hf
  rw [lc_mk a hm, ← ev_zero]
  have h1 : Tendsto (fun t => f t - ev a t A) (𝓝 0) (𝓝 0) := by
    refine hA.trans_tendsto ?_
    have : ContinuousAt (fun t : ℝ => t ^ (2 * m)) 0 := by fun_prop
    have h2 := this.tendsto
    rwa [zero_pow (by omega)] at h2
  have h2 := (ev_continuous a A).tendsto 0
  have := h1.add h2
  simpa using this

theorem isO_one (hm : 0 < m) (hf : Tay a f p) : f =O[𝓝 0] fun _ => (1 : ℝ) :=
  (hf.tendsto hm).isBigO_one ℝ

theorem mul (hm : 0 < m) (hf : Tay a f p) (hg : Tay a g q) : Tay a (fun t => f t * g t) (p * q) := by
  have hb := hg.isO_one hm
  obtain ⟨A, rfl, hA⟩ := hf
  obtain ⟨B, rfl, hB⟩ := hg
  have hA1 : (fun t => ev a t A) =O[𝓝 0] fun _ => (1 : ℝ) :=
    ((ev_continuous a A).tendsto 0).isBigO_one ℝ
  refine ⟨A * B, map_mul _ _ _, (((hA.mul hb).congr_right (g₂ := fun t => t ^ (2 * m)) (by simp)).add
    ((hA1.mul hB).congr_right (g₂ := fun t => t ^ (2 * m)) (by simp))).congr_left fun t => ?_⟩
  simp only [ev, map_mul]
  ring

theorem const_mul (hm : 0 < m) (c : ℝ) (hf : Tay a f p) : Tay a (fun t => c * f t) (κ c * p) :=
  (const c).mul hm hf

theorem sq (hm : 0 < m) (hf : Tay a f p) : Tay a (fun t => f t ^ 2) (p ^ 2) :=
  ((hf.mul hm hf).congr (_root_.sq p).symm).of_eventuallyEq (.of_forall fun _ => (_root_.sq _).symm)

theorem pow (hm : 0 < m) (hf : Tay a f p) (n : ℕ) : Tay a (fun t => f t ^ n) (p ^ n) := by
  induction n with
  | zero => simpa using (one (a := a) (m := m))
  | succ n ih =>
    refine ((ih.mul hm hf).congr (_root_.pow_succ p n).symm).of_eventuallyEq (.of_forall fun t => ?_)
    exact (_root_.pow_succ _ _).symm

/-- A root of a quadratic equation whose coefficients have Taylor polynomials has the one that solves the
equation between polynomials, if its constant term is right and the root is simple. -/
theorem root (hm : 0 < m) {A B C X : ℝ → ℝ} {qa qb qc x : Q 3 m} (hA : Tay a A qa) (hB : Tay a B qb)
    (hC : Tay a C qc) (heq : ∀ᶠ t in 𝓝 0, A t * X t ^ 2 + B t * X t + C t = 0)
    (hq : qa * x ^ 2 + qb * x + qc = 0) (hX : Tendsto X (𝓝 0) (𝓝 (lc a 0 x)))
    (hne : 2 * lc a 0 qa * lc a 0 x + lc a 0 qb ≠ 0) : Tay a X x := by
  obtain ⟨P, rfl⟩ := Ideal.Quotient.mk_surjective x
  have hP : Tay a (fun t => ev a t P) (Ideal.Quotient.mk (high 3 m) P) :=
    ⟨P, rfl, by simpa using isBigO_zero _ _⟩
  have h1 := ((hA.mul hm (hP.sq hm)).add (hB.mul hm hP)).add hC
  rw [hq, tay_zero] at h1
  have hD : Tendsto (fun t => A t * (X t + ev a t P) + B t) (𝓝 0)
      (𝓝 (2 * lc a 0 qa * lc a 0 (Ideal.Quotient.mk (high 3 m) P) + lc a 0 qb)) := by
    refine (((hA.tendsto hm).mul (hX.add (hP.tendsto hm))).add (hB.tendsto hm)).congr' ?_ |>.trans ?_
    · exact .of_forall fun t => rfl
    · rw [show lc a 0 qa * (lc a 0 (Ideal.Quotient.mk (high 3 m) P)
        + lc a 0 (Ideal.Quotient.mk (high 3 m) P)) + lc a 0 qb
        = 2 * lc a 0 qa * lc a 0 (Ideal.Quotient.mk (high 3 m) P) + lc a 0 qb by ring]
  have hI := (hD.inv₀ hne).isBigO_one ℝ
  rw [tay_mk]
  have h2 := (h1.neg_left.mul hI).congr_right (g₂ := fun t => t ^ (2 * m)) (by simp)
  refine h2.congr' ?_ (EventuallyEq.refl _ _)
  filter_upwards [heq, hD.eventually_ne hne] with t h3 h4
  rw [← div_eq_mul_inv, div_eq_iff h4]
  linear_combination -h3

/-- The solution of a linear equation. -/
theorem solve (hm : 0 < m) {B C X : ℝ → ℝ} {qb qc x : Q 3 m} (hB : Tay a B qb)
    (hC : Tay a C qc) (heq : ∀ᶠ t in 𝓝 0, B t * X t = C t) (hq : qb * x = qc)
    (hne : lc a 0 qb ≠ 0) : Tay a X x := by
  have hBt := hB.tendsto hm
  have hX : Tendsto X (𝓝 0) (𝓝 (lc a 0 x)) := by
    have h1 := (hC.tendsto hm).mul (hBt.inv₀ hne)
    have h2 : lc a 0 qc * (lc a 0 qb)⁻¹ = lc a 0 x := by
      rw [← hq, lc_mul_zero a hm]
      field_simp
    rw [h2] at h1
    refine h1.congr' ?_
    filter_upwards [heq, hBt.eventually_ne hne] with t h3 h4
    rw [← h3]
    field_simp
  refine root hm (const 0) hB ((const 0).sub hC) (qa := κ 0) (qc := κ 0 - qc) (x := x) ?_ ?_ hX ?_
  · filter_upwards [heq] with t ht
    linear_combination ht
  · rw [κ_zero]
    linear_combination hq
  · rw [lc_κ a hm]
    simpa using hne

end Tay

end

end RayOpt.Poly
