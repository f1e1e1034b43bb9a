import Verif.Model.PolyTrace
import Verif.Props.Simplex
import Mathlib.RingTheory.Ideal.Quotient.Basic

/-! The ring of polynomials modulo everything of degree `m` and above, and the poly trace in it. -/

namespace RayOpt.Poly

open Simplex MvPolynomial

/-- Polynomials without terms of degree below `m`. -/
def high (d m : ℕ) : Ideal (MvPolynomial (Fin d) ℝ) where
  carrier := {A | TEq m A 0}
  add_mem' := by
    intro a b ha hb
    have := TEq.add ha hb
    rwa [add_zero] at this
  zero_mem' := TEq.refl 0
  smul_mem' := by
    intro c a ha
    have := TEq.mul (TEq.refl c) ha
    rwa [mul_zero] at this

/-- Truncated polynomials as a ring. -/
abbrev Q (d m : ℕ) := MvPolynomial (Fin d) ℝ ⧸ high d m

theorem mk_eq {d m : ℕ} {A B : MvPolynomial (Fin d) ℝ} :
    Ideal.Quotient.mk (high d m) A = Ideal.Quotient.mk (high d m) B ↔ TEq m A B := by
  rw [Ideal.Quotient.eq]
  change TEq m (A - B) 0 ↔ _
  constructor
  · intro h e he
    have := h e he
    rw [coeff_sub, coeff_zero] at this
    linarith
  · intro h e he
    rw [coeff_sub, coeff_zero, h e he, sub_self]

/-- Constants. -/
noncomputable def κ {d m : ℕ} (c : ℝ) : Q d m := Ideal.Quotient.mk _ (C c)

theorem κ_add {d m : ℕ} (a b : ℝ) : (κ (a + b) : Q d m) = κ a + κ b := by simp [κ]
theorem κ_sub {d m : ℕ} (a b : ℝ) : (κ (a - b) : Q d m) = κ a - κ b := by simp [κ]
theorem κ_mul {d m : ℕ} (a b : ℝ) : (κ (a * b) : Q d m) = κ a * κ b := by simp [κ]
theorem κ_neg {d m : ℕ} (a : ℝ) : (κ (-a) : Q d m) = -κ a := by simp [κ]
theorem κ_pow {d m : ℕ} (a : ℝ) (n : ℕ) : (κ (a ^ n) : Q d m) = κ a ^ n := by simp [κ]
theorem κ_one {d m : ℕ} : (κ 1 : Q d m) = 1 := by simp [κ]
theorem κ_zero {d m : ℕ} : (κ 0 : Q d m) = 0 := by simp [κ]
theorem κ_ofNat {d m : ℕ} (n : ℕ) [n.AtLeastTwo] :
    (κ (OfNat.ofNat n) : Q d m) = OfNat.ofNat n := by
  unfold κ
  rw [show (C (OfNat.ofNat n : ℝ) : MvPolynomial (Fin d) ℝ) = OfNat.ofNat n from map_ofNat C n]
  exact map_ofNat _ n
theorem κ_half {d m : ℕ} : (2 : Q d m) * κ (1 / 2) = 1 := by
  rw [← κ_ofNat 2, ← κ_mul, ← κ_one]
  norm_num

/-- The tables in use. -/
structure Ctx (d m : ℕ) (t : Tables) (abi : ℕ → List (ℕ × ℕ)) : Prop where
  fits : Fits d m
  idx : simplexIdx d m = some (t, abi)

section
variable {d m : ℕ} {tb : Tables} {abi : ℕ → List (ℕ × ℕ)}

theorem Ctx.good (K : Ctx d m tb abi) : Good d m tb := enum_good K.fits (simplexIdx_some K.idx).1
theorem Ctx.abi_eq (K : Ctx d m tb abi) : abi = abiTable d m tb := (simplexIdx_some K.idx).2

/-- The class of a coefficient vector. -/
noncomputable def cls (d m : ℕ) (tb : Tables) (a : Co) : Q d m :=
  Ideal.Quotient.mk _ (toPoly d tb.jdx a)

theorem cls_eq_iff (K : Ctx d m tb abi) {a b : Co} :
    cls d m tb a = cls d m tb b ↔ ∀ l < tb.jdx.length, a l = b l := by
  unfold cls
  rw [mk_eq]
  constructor
  · intro h l hl; exact eq_of_teq K.good h hl
  · intro h e he
    rw [coeff_toPoly K.good, coeff_toPoly K.good, if_pos he, if_pos he]
    apply h
    apply K.good.lt
    rw [K.good.mem, tuple_length, tuple_sum]
    exact ⟨rfl, he⟩

theorem cls_add (a b : Co) : cls d m tb (a + b) = cls d m tb a + cls d m tb b := by
  unfold cls
  rw [← map_add, ← toPoly_add]; rfl

theorem cls_smul (c : ℝ) (a : Co) : cls d m tb (c • a) = κ c * cls d m tb a := by
  unfold cls κ
  rw [← map_mul, ← toPoly_smul]; rfl

theorem cls_neg (a : Co) : cls d m tb (-a) = -cls d m tb a := by
  rw [show -a = (-1 : ℝ) • a by simp, cls_smul, κ_neg, κ_one]; ring

theorem cls_sub (a b : Co) : cls d m tb (a - b) = cls d m tb a - cls d m tb b := by
  rw [sub_eq_add_neg, cls_add, cls_neg, sub_eq_add_neg]

theorem cls_zero : cls d m tb 0 = 0 := by
  have := cls_smul (d := d) (m := m) (tb := tb) 0 0
  rwa [zero_smul, κ_zero, zero_mul] at this

theorem cls_shift (K : Ctx d m tb abi) (a : Co) (c : ℝ) :
    cls d m tb (shift a c) = cls d m tb a + κ c := by
  unfold cls κ shift
  rw [toPoly_update K.good, map_add, add_sub_cancel_left]

theorem cls_mul (K : Ctx d m tb abi) (a b : Co) :
    cls d m tb (mul abi a b) = cls d m tb a * cls d m tb b := by
  unfold cls
  rw [← map_mul, mk_eq, K.abi_eq]
  exact teq_toPoly_mul K.good a b

theorem pow_add (K : Ctx d m tb abi) (a : Co) (ha : a 0 = 1) (p q : ℝ) :
    cls d m tb (pow abi m a p) * cls d m tb (pow abi m a q) = cls d m tb (pow abi m a (p + q)) := by
  rw [← cls_mul K, cls_eq_iff K]
  exact c46_add d m K.fits tb abi K.idx a ha p q

theorem pow_nat (K : Ctx d m tb abi) (a : Co) (ha : a 0 = 1) (n : ℕ) :
    cls d m tb (pow abi m a n) = cls d m tb a ^ n := by
  induction n with
  | zero =>
    rw [pow_zero]
    unfold cls
    rw [← map_one (Ideal.Quotient.mk (high d m)), ← toPoly_one K.good]
    refine (cls_eq_iff K).mpr ?_
    intro l hl
    rw [(c46_natural d m K.fits tb abi K.idx a ha 0 l hl).2]
    rfl
  | succ n ih =>
    rw [pow_succ, ← ih]
    have h1 : cls d m tb (pow abi m a ((1 : ℕ) : ℝ)) = cls d m tb a := by
      refine (cls_eq_iff K).mpr ?_
      intro l hl
      rw [(c46_natural d m K.fits tb abi K.idx a ha 1 l hl).1, pow_one]
      exact coeff_toPoly_row K.good a hl
    conv_rhs => rw [← h1]
    rw [pow_add K a ha]
    push_cast
    rfl

theorem pow_one' (K : Ctx d m tb abi) (a : Co) (ha : a 0 = 1) :
    cls d m tb (pow abi m a 1) = cls d m tb a := by
  have := pow_nat K a ha 1
  rwa [Nat.cast_one, pow_one] at this

theorem pow_zero' (K : Ctx d m tb abi) (a : Co) (ha : a 0 = 1) :
    cls d m tb (pow abi m a 0) = 1 := by
  have := pow_nat K a ha 0
  rwa [Nat.cast_zero, pow_zero] at this

theorem pow_inv (K : Ctx d m tb abi) (a : Co) (ha : a 0 = 1) :
    cls d m tb (pow abi m a (-1)) * cls d m tb a = 1 := by
  have h := pow_add K a ha (-1) 1
  rw [pow_one' K a ha] at h
  rw [h, neg_add_cancel, pow_zero' K a ha]

theorem pow_sqrt (K : Ctx d m tb abi) (a : Co) (ha : a 0 = 1) :
    cls d m tb (pow abi m a (1 / 2)) * cls d m tb (pow abi m a (1 / 2)) = cls d m tb a := by
  have h := pow_add K a ha (1 / 2) (1 / 2)
  rw [h, show (1 / 2 + 1 / 2 : ℝ) = 1 by norm_num, pow_one' K a ha]

theorem pow_isqrt (K : Ctx d m tb abi) (a : Co) (ha : a 0 = 1) :
    cls d m tb (pow abi m a (-1 / 2)) * cls d m tb (pow abi m a (-1 / 2)) * cls d m tb a = 1 := by
  have h := pow_add K a ha (-1 / 2) (-1 / 2)
  rw [h, show (-1 / 2 + -1 / 2 : ℝ) = -1 by norm_num, pow_inv K a ha]

theorem pow_sqrt_isqrt (K : Ctx d m tb abi) (a : Co) (ha : a 0 = 1) :
    cls d m tb (pow abi m a (1 / 2)) * cls d m tb (pow abi m a (-1 / 2)) = 1 := by
  have h := pow_add K a ha (1 / 2) (-1 / 2)
  rw [h, show (1 / 2 + -1 / 2 : ℝ) = 0 by norm_num, pow_zero' K a ha]

/-! ### Constant terms -/

theorem mul_const (K : Ctx d m tb abi) (a b : Co) : mul abi a b 0 = a 0 * b 0 := by
  have G := K.good
  have e0 : expo d (tb.jdx.getD 0 []) = 0 := by rw [G.zero_row]; ext k; simp
  have ha := coeff_toPoly_row G a G.length_pos
  have hb := coeff_toPoly_row G b G.length_pos
  have h := mul_eq_coeff G a b G.length_pos
  rw [e0] at ha hb h
  rw [K.abi_eq, h, ← ha, ← hb]
  simp [coeff_mul]

theorem pow_const (K : Ctx d m tb abi) (a : Co) (ha : a 0 = 1) (p : ℝ) : pow abi m a p 0 = 1 := by
  have G := K.good
  have e0 : expo d (tb.jdx.getD 0 []) = 0 := by rw [G.zero_row]; ext k; simp
  have h := c46_series d m K.fits tb abi K.idx a p 0 G.length_pos
  rw [h, e0, ha, Real.one_rpow, one_mul, coeff_sum]
  have hm := G.mpos
  rw [Finset.sum_eq_single_of_mem 0 (Finset.mem_range.mpr hm)]
  · simp
  · intro k _ hk
    have := coeff_pow_low (coeff_zero_sub G a) k 0 (by simp; omega)
    rw [ha] at this
    rw [coeff_C_mul, this, coeff_zero, mul_zero]

theorem shift_const (a : Co) (c : ℝ) : shift a c 0 = a 0 + c := by simp [shift]

/-- Square roots with constant term one are unique. -/
theorem root_unique (K : Ctx d m tb abi) {a b : Co} (ha : a 0 = 1) (hb : b 0 = 1)
    (h : cls d m tb a * cls d m tb a = cls d m tb b * cls d m tb b) :
    cls d m tb a = cls d m tb b := by
  set c : Co := (1 / 2 : ℝ) • (a + b) with hc
  have hc0 : c 0 = 1 := by simp [hc, ha, hb]; norm_num
  have hi := pow_inv K c hc0
  have e : cls d m tb c = κ (1 / 2) * (cls d m tb a + cls d m tb b) := by
    rw [hc, cls_smul, cls_add]
  rw [e] at hi
  have h2 := κ_half (d := d) (m := m)
  set x := cls d m tb (pow abi m c (-1))
  linear_combination (-(cls d m tb a - cls d m tb b)) * hi + x * κ (1 / 2) * h

/-! ### Intercepts -/

/-- What refraction needs of an intercept: it starts at the vertex, and `g (-2 fr y, 1)` is a unit
vector, where `|y|² = r + f (2 k + f p)`. -/
structure GoodIcpt (d m : ℕ) (tb : Tables) (ic : Icpt) (r p k : Co) : Prop where
  f0 : ic.f 0 = 0
  g0 : ic.g 0 = 1
  unit : cls d m tb ic.g ^ 2 * (1 + 4 * cls d m tb ic.fr ^ 2 *
    (cls d m tb r + cls d m tb ic.f * (2 * cls d m tb k + cls d m tb ic.f * cls d m tb p))) = 1

theorem plane_good (K : Ctx d m tb abi) (r p k : Co) : GoodIcpt d m tb (planePoly r) r p k := by
  refine ⟨rfl, by simp [planePoly, shift], ?_⟩
  simp only [planePoly, cls_shift K, cls_zero, κ_one]
  ring

theorem sphere_spec (K : Ctx d m tb abi) {u : ℝ} (hu : u ≠ 0) {r p k : Co} (hr : r 0 = 0)
    (hp : p 0 = 0) (hk : k 0 = 0) :
    GoodIcpt d m tb (spherePoly abi m u r p k) r p k ∧
    κ u * ((cls d m tb r + cls d m tb (spherePoly abi m u r p k).f *
        (2 * cls d m tb k + cls d m tb (spherePoly abi m u r p k).f * cls d m tb p))
        + cls d m tb (spherePoly abi m u r p k).f ^ 2)
      = 2 * cls d m tb (spherePoly abi m u r p k).f ∧
    cls d m tb (spherePoly abi m u r p k).g
      = 1 - κ u * cls d m tb (spherePoly abi m u r p k).f ∧
    2 * cls d m tb (spherePoly abi m u r p k).fr * cls d m tb (spherePoly abi m u r p k).g = κ u ∧
    cls d m tb (spherePoly abi m u r p k).r = κ u ^ 2 *
      (cls d m tb r + cls d m tb (spherePoly abi m u r p k).f *
        (2 * cls d m tb k + cls d m tb (spherePoly abi m u r p k).f * cls d m tb p)) := by
  set p1 := shift p 1 with hp1
  set a1 := shift ((-u) • k) 1 with ha1
  set rad := mul abi a1 a1 - (u ^ 2) • mul abi p1 r with hrad
  set S := pow abi m rad (1 / 2) with hS
  set A := mul abi (a1 - S) (pow abi m p1 (-1)) with hA
  have p10 : p1 0 = 1 := by rw [hp1, shift_const, hp, zero_add]
  have a10 : a1 0 = 1 := by rw [ha1, shift_const]; simp [hk]
  have rad0 : rad 0 = 1 := by
    rw [hrad]
    simp only [Pi.sub_apply, Pi.smul_apply, mul_const K, a10, p10, hr]
    simp
  have S0 : S 0 = 1 := pow_const K _ rad0 _
  have A0 : A 0 = 0 := by
    rw [hA, mul_const K]
    simp [a10, S0]
  have g0 : (shift (-A) 1) 0 = 1 := by rw [shift_const]; simp [A0]
  have hSS := pow_sqrt K rad rad0
  have hinv := pow_inv K p1 p10
  have hginv := pow_inv K (shift (-A) 1) g0
  rw [← hS] at hSS
  have c1 : cls d m tb p1 = cls d m tb p + 1 := by rw [hp1, cls_shift K, κ_one]
  have c2 : cls d m tb a1 = 1 - κ u * cls d m tb k := by
    rw [ha1, cls_shift K, cls_smul, κ_one, κ_neg]; ring
  have c3 : cls d m tb rad = cls d m tb a1 * cls d m tb a1
      - κ u ^ 2 * (cls d m tb p1 * cls d m tb r) := by
    rw [hrad, cls_sub, cls_smul, cls_mul K, cls_mul K, κ_pow]
  have c4 : cls d m tb A = (cls d m tb a1 - cls d m tb S) * cls d m tb (pow abi m p1 (-1)) := by
    rw [hA, cls_mul K, cls_sub]
  have hui : (κ u : Q d m) * κ (1 / u) = 1 := by
    rw [← κ_mul, mul_one_div_cancel hu, κ_one]
  have quad : cls d m tb A ^ 2 * (1 + cls d m tb p) - 2 * cls d m tb A * cls d m tb a1
      + κ u ^ 2 * cls d m tb r = 0 := by
    have e : (cls d m tb A ^ 2 * (1 + cls d m tb p) - 2 * cls d m tb A * cls d m tb a1
        + κ u ^ 2 * cls d m tb r) * (cls d m tb p + 1) = 0 := by
      have hAp : cls d m tb A * (cls d m tb p + 1) = cls d m tb a1 - cls d m tb S := by
        rw [c4]; rw [c1] at hinv
        linear_combination (cls d m tb a1 - cls d m tb S) * hinv
      rw [c3, c1] at hSS
      linear_combination (cls d m tb A * (cls d m tb p + 1) + cls d m tb a1 - cls d m tb S
        - 2 * cls d m tb a1) * hAp + hSS
    rw [c1] at hinv
    linear_combination cls d m tb (pow abi m p1 (-1)) * e - (cls d m tb A ^ 2 * (1 + cls d m tb p)
      - 2 * cls d m tb A * cls d m tb a1 + κ u ^ 2 * cls d m tb r) * hinv
  have e1 : cls d m tb (spherePoly abi m u r p k).f = κ (1 / u) * cls d m tb A := by
    change cls d m tb ((1 / u) • A) = _
    rw [cls_smul]
  have e2 : cls d m tb (spherePoly abi m u r p k).g = 1 - cls d m tb A := by
    change cls d m tb (shift (-A) 1) = _
    rw [cls_shift K, cls_neg, κ_one]; ring
  have e3 : cls d m tb (spherePoly abi m u r p k).fr
      = κ (1 / 2) * κ u * cls d m tb (pow abi m (shift (-A) 1) (-1)) := by
    change cls d m tb ((1 / 2 * u) • pow abi m (shift (-A) 1) (-1)) = _
    rw [cls_smul, κ_mul]
  have e4 : cls d m tb (spherePoly abi m u r p k).r = cls d m tb A * (2 - cls d m tb A) := by
    change cls d m tb (mul abi A (shift (-A) 2)) = _
    rw [cls_mul K, cls_shift K, cls_neg, κ_ofNat]; ring
  have hg : cls d m tb (shift (-A) 1) = 1 - cls d m tb A := e2
  rw [hg] at hginv
  have half := κ_half (d := d) (m := m)
  have key : κ u ^ 2 * (cls d m tb r + κ (1 / u) * cls d m tb A *
      (2 * cls d m tb k + κ (1 / u) * cls d m tb A * cls d m tb p))
      = cls d m tb A * (2 - cls d m tb A) := by
    rw [c2] at quad
    linear_combination quad + (2 * κ u * cls d m tb A * cls d m tb k
      + cls d m tb A ^ 2 * cls d m tb p * (κ u * κ (1 / u) + 1)) * hui
  have hfr : 2 * cls d m tb (spherePoly abi m u r p k).fr * cls d m tb (spherePoly abi m u r p k).g
      = κ u := by
    rw [e2, e3]
    linear_combination (κ u * (2 * κ (1 / 2))) * hginv + κ u * half
  refine ⟨⟨?_, g0, ?_⟩, ?_, ?_, hfr, ?_⟩
  · change ((1 / u) • A) 0 = 0
    simp [A0]
  · have h4 : cls d m tb (spherePoly abi m u r p k).g ^ 2 *
        (4 * cls d m tb (spherePoly abi m u r p k).fr ^ 2) = κ u ^ 2 := by
      linear_combination (2 * cls d m tb (spherePoly abi m u r p k).fr
        * cls d m tb (spherePoly abi m u r p k).g + κ u) * hfr
    rw [e1]
    rw [e2] at h4 ⊢
    linear_combination (cls d m tb r + κ (1 / u) * cls d m tb A *
      (2 * cls d m tb k + κ (1 / u) * cls d m tb A * cls d m tb p)) * h4 + key
  · rw [e1]
    linear_combination κ (1 / u) * key - (κ u * (cls d m tb r + κ (1 / u) * cls d m tb A *
      (2 * cls d m tb k + κ (1 / u) * cls d m tb A * cls d m tb p))
      - κ (1 / u) * cls d m tb A ^ 2) * hui
  · rw [e1, e2]
    linear_combination cls d m tb A * hui
  · rw [e1, e4, key]

/-! ### Refraction -/

theorem refract_spec (K : Ctx d m tb abi) (ic : Icpt) (dz n mu : ℝ) (st : PolyState)
    (hp : st.p 0 = 0) (hr : st.r 0 = 0) (hk : st.k 0 = 0)
    (hic : GoodIcpt d m tb ic (transferPoly abi dz st).2.1 st.p (transferPoly abi dz st).2.2)
    {st' : PolyState}
    (hst : st' = refractPoly abi m ic (transferPoly abi dz st).1 (transferPoly abi dz st).2.2 n mu st)
    {F : Co → Q d m} (hF : F = cls d m tb) :
    -- constant terms
    (st'.r 0 = 0 ∧ st'.p 0 = 0 ∧ st'.k 0 = 0) ∧
    -- transfer
    (F st'.s = F st.s + (κ dz + F st'.f - F st.f) * F st.v ∧
      F st'.t = F st.t + (κ dz + F st'.f - F st.f) * F st.w ∧
      F st'.r = F st.r + (κ dz + F st'.f - F st.f) *
        (2 * F st.k + (κ dz + F st'.f - F st.f) * F st.p)) ∧
    -- Snell
    (F (pow abi m (shift st'.p 1) (-1 / 2)) * F st'.v
        - κ mu * F (pow abi m (shift st.p 1) (-1 / 2)) * F st.v
      = (F (pow abi m (shift st'.p 1) (-1 / 2)) - κ mu * F (pow abi m (shift st.p 1) (-1 / 2)))
        * (-2 * F ic.fr * F st'.s) ∧
     F (pow abi m (shift st'.p 1) (-1 / 2)) * F st'.w
        - κ mu * F (pow abi m (shift st.p 1) (-1 / 2)) * F st.w
      = (F (pow abi m (shift st'.p 1) (-1 / 2)) - κ mu * F (pow abi m (shift st.p 1) (-1 / 2)))
        * (-2 * F ic.fr * F st'.t) ∧
     F (pow abi m (shift st'.p 1) (-1 / 2)) * F st'.k
        - κ mu * F (pow abi m (shift st.p 1) (-1 / 2)) *
          (F st.k + (κ dz + F st'.f - F st.f) * F st.p)
      = (F (pow abi m (shift st'.p 1) (-1 / 2)) - κ mu * F (pow abi m (shift st.p 1) (-1 / 2)))
        * (-2 * F ic.fr * F st'.r)) ∧
    -- the slope stays that of a unit direction
    (∀ ρ π χ : Q d m, F st.r = F st.s ^ 2 * ρ + 2 * F st.s * F st.t * χ + F st.t ^ 2 * π →
      F st.k = F st.s * F st.v * ρ + (F st.s * F st.w + F st.t * F st.v) * χ + F st.t * F st.w * π →
      F st.p = F st.v ^ 2 * ρ + 2 * F st.v * F st.w * χ + F st.w ^ 2 * π →
      F st'.r = F st'.s ^ 2 * ρ + 2 * F st'.s * F st'.t * χ + F st'.t ^ 2 * π ∧
      F st'.k = F st'.s * F st'.v * ρ + (F st'.s * F st'.w + F st'.t * F st'.v) * χ
        + F st'.t * F st'.w * π ∧
      F st'.p = F st'.v ^ 2 * ρ + 2 * F st'.v * F st'.w * χ + F st'.w ^ 2 * π) ∧
    -- optical path
    F st'.o = F st.o + κ st.n * ((κ dz + F st'.f - F st.f) * F (pow abi m (shift st.p 1) (1 / 2)))
    ∧ st'.f = ic.f ∧ st'.n = n := by
  subst hF
  set fd := (transferPoly abi dz st).1 with hfd
  set rt := (transferPoly abi dz st).2.1 with hrt
  set kt := (transferPoly abi dz st).2.2 with hkt
  have cfd : cls d m tb fd = κ dz - cls d m tb st.f := by
    rw [hfd]; change cls d m tb (shift (-st.f) dz) = _
    rw [cls_shift K, cls_neg]; ring
  have crt : cls d m tb rt = cls d m tb st.r + cls d m tb fd *
      (2 * cls d m tb st.k + cls d m tb fd * cls d m tb st.p) := by
    rw [hrt]
    change cls d m tb (st.r + mul abi fd ((2 : ℝ) • st.k + mul abi fd st.p)) = _
    rw [cls_add, cls_mul K, cls_add, cls_smul, cls_mul K, κ_ofNat]
  have ckt : cls d m tb kt = cls d m tb st.k + cls d m tb fd * cls d m tb st.p := by
    rw [hkt]
    change cls d m tb (st.k + mul abi fd st.p) = _
    rw [cls_add, cls_mul K]
  have kt0 : kt 0 = 0 := by
    rw [hkt]
    change (st.k + mul abi fd st.p) 0 = 0
    rw [Pi.add_apply, mul_const K, hk, hp]; ring
  obtain ⟨f0, g0, hu⟩ := hic
  set p1 := shift st.p 1 with hp1
  set h := pow abi m p1 (-1 / 2) with hh
  set mun := mu • h with hmun
  set ct := mul abi (mul abi ic.g mun)
    (shift (mul abi ((-2 : ℝ) • (kt + mul abi ic.f st.p)) ic.fr) 1) with hct
  set W := pow abi m (shift (mul abi ct ct) (1 - mu ^ 2)) (1 / 2) with hW
  set gd := mul abi ic.g (W - ct) with hgd
  set n1i := pow abi m (mun + gd) (-1) with hn1i
  set a := ic.f + fd with ha
  set b := mul abi (mul abi ((-2 : ℝ) • n1i) gd) ic.fr with hb
  set c := mul abi mun n1i with hc
  set ap := mul abi a st.p with hap
  set r' := st.r + mul abi a ((2 : ℝ) • st.k + ap) with hr'
  set p' := shift (mul abi n1i n1i) (-1) with hp'
  set k' := mul abi b r' + mul abi c (st.k + ap) with hk'
  set s' := st.s + mul abi a st.v with hs'
  set t' := st.t + mul abi a st.w with ht'
  set v' := mul abi b s' + mul abi c st.v with hv'
  set w' := mul abi b t' + mul abi c st.w with hw'
  set o' := st.o + mul abi (st.n • a) (pow abi m p1 (1 / 2)) with ho'
  have hst2 : st' = ⟨ic.f, n, r', p', k', s', t', v', w', o'⟩ := hst
  clear hst
  subst hst2
  clear_value o' w' v' t' s' k' p' r' ap c b a n1i gd W ct mun h p1 kt rt fd
  -- constant terms
  have p10 : p1 0 = 1 := by rw [hp1, shift_const, hp, zero_add]
  have h0 : h 0 = 1 := by rw [hh]; exact pow_const K _ p10 _
  have mun0 : mun 0 = mu := by rw [hmun]; simp [h0]
  have ct0 : ct 0 = mu := by
    rw [hct, mul_const K, mul_const K, shift_const, mul_const K, g0, mun0]
    simp [kt0, mul_const K, hp]
  have rad0 : (shift (mul abi ct ct) (1 - mu ^ 2)) 0 = 1 := by
    rw [shift_const, mul_const K, ct0]; ring
  have W0 : W 0 = 1 := by rw [hW]; exact pow_const K _ rad0 _
  have gd0 : gd 0 = 1 - mu := by
    rw [hgd, mul_const K, g0, Pi.sub_apply, W0, ct0]; ring
  have N0 : (mun + gd) 0 = 1 := by rw [Pi.add_apply, mun0, gd0]; ring
  have ni0 : n1i 0 = 1 := by rw [hn1i]; exact pow_const K _ N0 _
  have p'0 : p' 0 = 0 := by rw [hp', shift_const, mul_const K, ni0]; ring
  have r'0 : r' 0 = 0 := by
    rw [hr', Pi.add_apply, mul_const K]
    simp [hr, hk, hap, mul_const K, hp]
  have k'0 : k' 0 = 0 := by
    rw [hk', Pi.add_apply, mul_const K, mul_const K]
    simp [r'0, hk, hap, mul_const K, hp]
  -- classes
  have cp1 : cls d m tb p1 = cls d m tb st.p + 1 := by rw [hp1, cls_shift K, κ_one]
  have ch := pow_isqrt K p1 p10
  rw [← hh, cp1] at ch
  have cmun : cls d m tb mun = κ mu * cls d m tb h := by rw [hmun, cls_smul]
  have cct : cls d m tb ct = cls d m tb ic.g * cls d m tb mun *
      (1 - 2 * (cls d m tb kt + cls d m tb ic.f * cls d m tb st.p) * cls d m tb ic.fr) := by
    rw [hct, cls_mul K, cls_mul K, cls_shift K, cls_mul K, cls_smul, cls_add, cls_mul K, κ_one,
      κ_neg, κ_ofNat]
    ring
  have cW := pow_sqrt K _ rad0
  rw [← hW, cls_shift K, cls_mul K, κ_sub, κ_one, κ_pow] at cW
  have cgd : cls d m tb gd = cls d m tb ic.g * (cls d m tb W - cls d m tb ct) := by
    rw [hgd, cls_mul K, cls_sub]
  have cni := pow_inv K (mun + gd) N0
  rw [← hn1i, cls_add] at cni
  have ca : cls d m tb a = κ dz + cls d m tb ic.f - cls d m tb st.f := by
    rw [ha, cls_add, cfd]; ring
  have cb : cls d m tb b = -2 * cls d m tb n1i * cls d m tb gd * cls d m tb ic.fr := by
    rw [hb, cls_mul K, cls_mul K, cls_smul, κ_neg, κ_ofNat]
  have cc : cls d m tb c = cls d m tb mun * cls d m tb n1i := by rw [hc, cls_mul K]
  have cap : cls d m tb ap = cls d m tb a * cls d m tb st.p := by rw [hap, cls_mul K]
  have cr' : cls d m tb r' = cls d m tb st.r + cls d m tb a *
      (2 * cls d m tb st.k + cls d m tb a * cls d m tb st.p) := by
    rw [hr', cls_add, cls_mul K, cls_add, cls_smul, cap, κ_ofNat]
  have cp' : cls d m tb p' = cls d m tb n1i * cls d m tb n1i - 1 := by
    rw [hp', cls_shift K, cls_mul K, κ_neg, κ_one]; ring
  have ck' : cls d m tb k' = cls d m tb b * cls d m tb r' + cls d m tb c *
      (cls d m tb st.k + cls d m tb a * cls d m tb st.p) := by
    rw [hk', cls_add, cls_mul K, cls_mul K, cls_add, cap]
  have cs' : cls d m tb s' = cls d m tb st.s + cls d m tb a * cls d m tb st.v := by
    rw [hs', cls_add, cls_mul K]
  have ct' : cls d m tb t' = cls d m tb st.t + cls d m tb a * cls d m tb st.w := by
    rw [ht', cls_add, cls_mul K]
  have cv' : cls d m tb v' = cls d m tb b * cls d m tb s' + cls d m tb c * cls d m tb st.v := by
    rw [hv', cls_add, cls_mul K, cls_mul K]
  have cw' : cls d m tb w' = cls d m tb b * cls d m tb t' + cls d m tb c * cls d m tb st.w := by
    rw [hw', cls_add, cls_mul K, cls_mul K]
  have co' : cls d m tb o' = cls d m tb st.o + κ st.n *
      (cls d m tb a * cls d m tb (pow abi m p1 (1 / 2))) := by
    rw [ho', cls_add, cls_mul K, cls_smul]; ring
  -- the inverse root of `1 + p'` is `mun + gd`
  have hp'1 : (shift p' 1) 0 = 1 := by rw [shift_const, p'0]; ring
  have cH : cls d m tb (pow abi m (shift p' 1) (-1 / 2)) = cls d m tb mun + cls d m tb gd := by
    have e := root_unique (abi := abi) K (a := pow abi m (shift p' 1) (-1 / 2)) (b := mun + gd)
      (pow_const K _ hp'1 _) N0 ?_
    · rw [e, cls_add]
    · have e1 := pow_isqrt K _ hp'1
      rw [cls_shift K, κ_one, cp'] at e1
      rw [cls_add]
      set H := cls d m tb (pow abi m (shift p' 1) (-1 / 2))
      set N := cls d m tb mun + cls d m tb gd
      set I := cls d m tb n1i
      linear_combination N * N * e1 - (H * H * N * I + H * H) * cni
  simp only [cfd] at crt ckt
  have hX : cls d m tb kt + cls d m tb ic.f * cls d m tb st.p
      = cls d m tb st.k + cls d m tb a * cls d m tb st.p := by rw [ckt, ca]; ring
  have hR : cls d m tb rt + cls d m tb ic.f *
      (2 * cls d m tb kt + cls d m tb ic.f * cls d m tb st.p) = cls d m tb r' := by
    rw [crt, ckt, cr', ca]; ring
  rw [hR] at hu
  rw [hX] at cct
  refine ⟨⟨r'0, p'0, k'0⟩, ⟨?_, ?_, ?_⟩, ⟨?_, ?_, ?_⟩, ?_, ?_, rfl, rfl⟩
  · rw [cs', ca]
  · rw [ct', ca]
  · rw [cr', ca]
  · simp only
    rw [cH, cv', cb, cc, ← cmun]
    linear_combination (-2 * cls d m tb gd * cls d m tb ic.fr * cls d m tb s'
      + cls d m tb mun * cls d m tb st.v) * cni
  · simp only
    rw [cH, cw', cb, cc, ← cmun]
    linear_combination (-2 * cls d m tb gd * cls d m tb ic.fr * cls d m tb t'
      + cls d m tb mun * cls d m tb st.w) * cni
  · simp only
    rw [cH, ck', cb, cc, ← cmun, ← ca]
    linear_combination (-2 * cls d m tb gd * cls d m tb ic.fr * cls d m tb r'
      + cls d m tb mun * (cls d m tb st.k + cls d m tb a * cls d m tb st.p)) * cni
  · intro ρ π χ h1 h2 h3
    have e1 : cls d m tb r' = cls d m tb s' ^ 2 * ρ + 2 * cls d m tb s' * cls d m tb t' * χ
        + cls d m tb t' ^ 2 * π := by
      rw [cr', cs', ct', h1, h2, h3]; ring
    have e2 : cls d m tb st.k + cls d m tb a * cls d m tb st.p
        = cls d m tb s' * cls d m tb st.v * ρ
          + (cls d m tb s' * cls d m tb st.w + cls d m tb t' * cls d m tb st.v) * χ
          + cls d m tb t' * cls d m tb st.w * π := by
      rw [cs', ct', h2, h3]; ring
    refine ⟨e1, ?_, ?_⟩
    · simp only
      rw [ck', cv', cw', e2, e1]; ring
    · simp only
      have e3 : cls d m tb v' ^ 2 * ρ + 2 * cls d m tb v' * cls d m tb w' * χ
          + cls d m tb w' ^ 2 * π = cls d m tb b ^ 2 * cls d m tb r' + 2 * cls d m tb b *
            cls d m tb c * (cls d m tb st.k + cls d m tb a * cls d m tb st.p)
          + cls d m tb c ^ 2 * cls d m tb st.p := by
        rw [cv', cw', e2, e1, h3]; ring
      rw [e3, cp', cb, cc]
      set X := cls d m tb st.k + cls d m tb a * cls d m tb st.p
      set R := cls d m tb r'
      set G := cls d m tb ic.g
      set Fr := cls d m tb ic.fr
      set M := cls d m tb mun
      set I := cls d m tb n1i
      set P := cls d m tb st.p
      set C := cls d m tb ct
      set V := cls d m tb W
      set D := cls d m tb gd
      have hM : M ^ 2 * (1 + P) = κ mu ^ 2 := by
        rw [cmun]; linear_combination κ mu ^ 2 * ch
      have unit : D ^ 2 * (1 + 4 * Fr ^ 2 * R) + 2 * D * M * (1 - 2 * X * Fr) + M ^ 2 * (1 + P)
          = 1 := by
        rw [hM, cgd]
        linear_combination (V - C) ^ 2 * hu - 2 * (V - C) * cct + cW
      linear_combination (-I ^ 2) * unit + (1 + I * (M + D)) * cni
  · rw [co', ca]

/-- Without a change of index nothing is refracted. -/
theorem refract_one (K : Ctx d m tb abi) (ic : Icpt) (fd kt : Co) (n : ℝ) (st : PolyState)
    (hp : st.p 0 = 0) (hkt : kt 0 = 0) (g0 : ic.g 0 = 1) {st' : PolyState}
    (hst : st' = refractPoly abi m ic fd kt n 1 st) :
    cls d m tb st'.p = cls d m tb st.p ∧ cls d m tb st'.v = cls d m tb st.v ∧
      cls d m tb st'.w = cls d m tb st.w := by
  set p1 := shift st.p 1 with hp1
  set h := pow abi m p1 (-1 / 2) with hh
  set mun := (1 : ℝ) • h with hmun
  set ct := mul abi (mul abi ic.g mun)
    (shift (mul abi ((-2 : ℝ) • (kt + mul abi ic.f st.p)) ic.fr) 1) with hct
  set W := pow abi m (shift (mul abi ct ct) (1 - 1 ^ 2)) (1 / 2) with hW
  set gd := mul abi ic.g (W - ct) with hgd
  set n1i := pow abi m (mun + gd) (-1) with hn1i
  set b := mul abi (mul abi ((-2 : ℝ) • n1i) gd) ic.fr with hb
  set c := mul abi mun n1i with hc
  have e1 : st'.p = shift (mul abi n1i n1i) (-1) := by rw [hst]; rfl
  have e2 : st'.v = mul abi b st'.s + mul abi c st.v := by rw [hst]; rfl
  have e3 : st'.w = mul abi b st'.t + mul abi c st.w := by rw [hst]; rfl
  clear_value c b n1i gd W ct mun h p1
  have p10 : p1 0 = 1 := by rw [hp1, shift_const, hp, zero_add]
  have h0 : h 0 = 1 := by rw [hh]; exact pow_const K _ p10 _
  have mun0 : mun 0 = 1 := by rw [hmun]; simp [h0]
  have ct0 : ct 0 = 1 := by
    rw [hct, mul_const K, mul_const K, shift_const, mul_const K, g0, mun0]
    simp [hkt, mul_const K, hp]
  have rad0 : (shift (mul abi ct ct) (1 - 1 ^ 2)) 0 = 1 := by
    rw [shift_const, mul_const K, ct0]; ring
  have W0 : W 0 = 1 := by rw [hW]; exact pow_const K _ rad0 _
  have cW := pow_sqrt K _ rad0
  rw [← hW, cls_shift K, cls_mul K, one_pow, sub_self, κ_zero, add_zero] at cW
  have hWct : cls d m tb W = cls d m tb ct := root_unique (abi := abi) K W0 ct0 cW
  have cgd : cls d m tb gd = 0 := by rw [hgd, cls_mul K, cls_sub, hWct]; ring
  have gd0 : gd 0 = 0 := by rw [hgd, mul_const K, Pi.sub_apply, W0, ct0]; ring
  have N0 : (mun + gd) 0 = 1 := by rw [Pi.add_apply, mun0, gd0]; ring
  have cni := pow_inv K (mun + gd) N0
  rw [← hn1i, cls_add, cgd, hmun, cls_smul, κ_one] at cni
  have ch := pow_isqrt K p1 p10
  rw [← hh, hp1, cls_shift K, κ_one] at ch
  have cb : cls d m tb b = 0 := by rw [hb, cls_mul K, cls_mul K, cgd]; ring
  have cc : cls d m tb c = 1 := by
    rw [hc, cls_mul K, hmun, cls_smul, κ_one]; linear_combination cni
  refine ⟨?_, ?_, ?_⟩
  · rw [e1, cls_shift K, cls_mul K, κ_neg, κ_one]
    set I := cls d m tb n1i
    set H := cls d m tb h
    linear_combination (-(I * I)) * ch + (cls d m tb st.p + 1) * (I * H + 1) * cni
  · rw [e2, cls_add, cls_mul K, cls_mul K, cb, cc]; ring
  · rw [e3, cls_add, cls_mul K, cls_mul K, cb, cc]; ring

/-- The constant terms of one step: the paraxial ray. -/
theorem refract_const (K : Ctx d m tb abi) (ic : Icpt) (dz n mu : ℝ) (st : PolyState)
    (hp : st.p 0 = 0) (hr : st.r 0 = 0) (hk : st.k 0 = 0) (f0 : ic.f 0 = 0) (g0 : ic.g 0 = 1)
    {st' : PolyState}
    (hst : st' = refractPoly abi m ic (transferPoly abi dz st).1 (transferPoly abi dz st).2.2 n mu st) :
    (st'.r 0 = 0 ∧ st'.p 0 = 0 ∧ st'.k 0 = 0 ∧ st'.f 0 = 0) ∧
    (st'.s 0 = st.s 0 + (dz - st.f 0) * st.v 0 ∧ st'.t 0 = st.t 0 + (dz - st.f 0) * st.w 0) ∧
    st'.v 0 = mu * st.v 0 - (1 - mu) * (2 * ic.fr 0) * st'.s 0 ∧
    st'.w 0 = mu * st.w 0 - (1 - mu) * (2 * ic.fr 0) * st'.t 0 := by
  set fd := (transferPoly abi dz st).1 with hfd
  set kt := (transferPoly abi dz st).2.2 with hkt
  have fd0 : fd 0 = dz - st.f 0 := by
    rw [hfd]; change shift (-st.f) dz 0 = _
    rw [shift_const]; simp; ring
  have kt0 : kt 0 = 0 := by
    rw [hkt]
    change (st.k + mul abi fd st.p) 0 = 0
    rw [Pi.add_apply, mul_const K, hk, hp]; ring
  set p1 := shift st.p 1 with hp1
  set h := pow abi m p1 (-1 / 2) with hh
  set mun := mu • h with hmun
  set ct := mul abi (mul abi ic.g mun)
    (shift (mul abi ((-2 : ℝ) • (kt + mul abi ic.f st.p)) ic.fr) 1) with hct
  set W := pow abi m (shift (mul abi ct ct) (1 - mu ^ 2)) (1 / 2) with hW
  set gd := mul abi ic.g (W - ct) with hgd
  set n1i := pow abi m (mun + gd) (-1) with hn1i
  set a := ic.f + fd with ha
  set b := mul abi (mul abi ((-2 : ℝ) • n1i) gd) ic.fr with hb
  set c := mul abi mun n1i with hc
  set ap := mul abi a st.p with hap
  set r' := st.r + mul abi a ((2 : ℝ) • st.k + ap) with hr'
  set p' := shift (mul abi n1i n1i) (-1) with hp'
  set k' := mul abi b r' + mul abi c (st.k + ap) with hk'
  set s' := st.s + mul abi a st.v with hs'
  set t' := st.t + mul abi a st.w with ht'
  set v' := mul abi b s' + mul abi c st.v with hv'
  set w' := mul abi b t' + mul abi c st.w with hw'
  set o' := st.o + mul abi (st.n • a) (pow abi m p1 (1 / 2)) with ho'
  have hst2 : st' = ⟨ic.f, n, r', p', k', s', t', v', w', o'⟩ := hst
  clear hst
  subst hst2
  clear_value o' w' v' t' s' k' p' r' ap c b a n1i gd W ct mun h p1 kt fd
  have p10 : p1 0 = 1 := by rw [hp1, shift_const, hp, zero_add]
  have h0 : h 0 = 1 := by rw [hh]; exact pow_const K _ p10 _
  have mun0 : mun 0 = mu := by rw [hmun]; simp [h0]
  have ct0 : ct 0 = mu := by
    rw [hct, mul_const K, mul_const K, shift_const, mul_const K, g0, mun0]
    simp [kt0, mul_const K, hp]
  have rad0 : (shift (mul abi ct ct) (1 - mu ^ 2)) 0 = 1 := by
    rw [shift_const, mul_const K, ct0]; ring
  have W0 : W 0 = 1 := by rw [hW]; exact pow_const K _ rad0 _
  have gd0 : gd 0 = 1 - mu := by
    rw [hgd, mul_const K, g0, Pi.sub_apply, W0, ct0]; ring
  have N0 : (mun + gd) 0 = 1 := by rw [Pi.add_apply, mun0, gd0]; ring
  have ni0 : n1i 0 = 1 := by rw [hn1i]; exact pow_const K _ N0 _
  have p'0 : p' 0 = 0 := by rw [hp', shift_const, mul_const K, ni0]; ring
  have r'0 : r' 0 = 0 := by
    rw [hr', Pi.add_apply, mul_const K]
    simp [hr, hk, hap, mul_const K, hp]
  have k'0 : k' 0 = 0 := by
    rw [hk', Pi.add_apply, mul_const K, mul_const K]
    simp [r'0, hk, hap, mul_const K, hp]
  have a0 : a 0 = dz - st.f 0 := by rw [ha, Pi.add_apply, f0, fd0, zero_add]
  have b0 : b 0 = -2 * (1 - mu) * ic.fr 0 := by
    rw [hb, mul_const K, mul_const K, Pi.smul_apply, ni0, gd0]; simp
  have c0 : c 0 = mu := by rw [hc, mul_const K, mun0, ni0, mul_one]
  refine ⟨⟨r'0, p'0, k'0, f0⟩, ⟨?_, ?_⟩, ?_, ?_⟩
  · simp only
    rw [hs', Pi.add_apply, mul_const K, a0]
  · simp only
    rw [ht', Pi.add_apply, mul_const K, a0]
  · simp only
    rw [hv', Pi.add_apply, mul_const K, mul_const K, b0, c0]; ring
  · simp only
    rw [hw', Pi.add_apply, mul_const K, mul_const K, b0, c0]; ring

end

end RayOpt.Poly
