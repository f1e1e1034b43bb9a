import Verif.Lemmas.TaylorStep

/-! Taylor polynomials of the intersection with a surface and of the refracted direction. -/

namespace RayOpt.Poly

open Simplex MvPolynomial Filter Topology Asymptotics Shape

/-- The three variables of the ray with transverse position `x` and slope `u`. -/
def vars3 (x u : Fin 2 → ℝ) : Fin 3 → ℝ := ![dot2 x x, dot2 u u, dot2 x u]

/-- The scalar product of `p x + q u` and `p' x + q' u`, as a polynomial. -/
noncomputable def form {m : ℕ} (p q p' q' : Q 3 m) : Q 3 m :=
  p * p' * var 0 + (p * q' + q * p') * var 2 + q * q' * var 1

/-- `t (A x + B u)`. -/
def comb (x u : Fin 2 → ℝ) (t A B : ℝ) (b : Fin 2) : ℝ := t * (A * x b + B * u b)

section
variable {m : ℕ} {x u : Fin 2 → ℝ}

theorem lc_two (hm : 0 < m) (a : Fin 3 → ℝ) : lc a 0 (2 : Q 3 m) = 2 := by
  rw [← κ_ofNat, lc_κ a hm, if_pos rfl]

theorem lc_form (hm : 0 < m) (a : Fin 3 → ℝ) (p q p' q' : Q 3 m) : lc a 0 (form p q p' q') = 0 := by
  unfold form
  rw [lc_add a hm, lc_add a hm, lc_mul_zero a hm _ (var 0), lc_mul_zero a hm _ (var 1),
    lc_mul_zero a hm _ (var 2), lc_var a hm, lc_var a hm, lc_var a hm]
  simp

theorem Tay.ofNat_mul (hm : 0 < m) {a : Fin 3 → ℝ} {f : ℝ → ℝ} {p : Q 3 m} (k : ℕ) [k.AtLeastTwo]
    (hf : Tay a f p) : Tay a (fun t => (OfNat.ofNat k : ℝ) * f t) ((OfNat.ofNat k : Q 3 m) * p) := by
  rw [← κ_ofNat]
  exact hf.const_mul hm _

theorem Tay.sum {ι : Type*} {a : Fin 3 → ℝ} (I : Finset ι) {f : ι → ℝ → ℝ} {p : ι → Q 3 m}
    (h : ∀ i ∈ I, Tay a (f i) (p i)) : Tay a (fun t => ∑ i ∈ I, f i t) (∑ i ∈ I, p i) := by
  classical
  induction I using Finset.induction_on with
  | empty => simpa [κ_zero] using Tay.const (a := a) (m := m) 0
  | insert i I hi ih =>
    simp only [Finset.sum_insert hi]
    exact (h i (by simp)).add (ih fun j hj => h j (by simp [hj]))

/-- Scalar products of transverse vectors. -/
theorem tay_dot (hm : 0 < m) {A B C D : ℝ → ℝ} {p q p' q' : Q 3 m} (hA : Tay (vars3 x u) A p)
    (hB : Tay (vars3 x u) B q) (hC : Tay (vars3 x u) C p') (hD : Tay (vars3 x u) D q') :
    Tay (vars3 x u) (fun t => dot2 (comb x u t (A t) (B t)) (comb x u t (C t) (D t)))
      (form p q p' q') := by
  refine ((((hA.mul hm hC).mul hm (Tay.var 0)).add (((hA.mul hm hD).add (hB.mul hm hC)).mul hm
    (Tay.var 2))).add ((hB.mul hm hD).mul hm (Tay.var 1))).of_eventuallyEq (.of_forall fun t => ?_)
  simp only [vars3, dot2, comb, Matrix.cons_val_zero, Matrix.cons_val_one, Matrix.cons_val]
  ring

/-- The intersection with a sphere of signed curvature `k`. -/
theorem tay_sphere (hm : 0 < m) {α β V W Z : ℝ → ℝ} {qα qβ qv qw f : Q 3 m} (k : ℝ)
    (hα : Tay (vars3 x u) α qα) (hβ : Tay (vars3 x u) β qβ) (hV : Tay (vars3 x u) V qv)
    (hW : Tay (vars3 x u) W qw) (hZ0 : Tendsto Z (𝓝 0) (𝓝 0)) (hf0 : lc (vars3 x u) 0 f = 0)
    (hZ : ∀ᶠ t in 𝓝 0, k * (dot2 (comb x u t (α t + Z t * V t) (β t + Z t * W t))
      (comb x u t (α t + Z t * V t) (β t + Z t * W t)) + Z t ^ 2) = 2 * Z t)
    (hf : κ k * (form (qα + f * qv) (qβ + f * qw) (qα + f * qv) (qβ + f * qw) + f ^ 2) = 2 * f) :
    Tay (vars3 x u) Z f := by
  have hρ := tay_dot hm hα hβ hα hβ
  have hχ := tay_dot hm hα hβ hV hW
  have hπ := tay_dot hm hV hW hV hW
  refine Tay.root hm ((hπ.add Tay.one).const_mul hm k)
    (((hχ.const_mul hm k).sub Tay.one).ofNat_mul hm 2) (hρ.const_mul hm k) (x := f) ?_ ?_
    (by rw [hf0]; exact hZ0) ?_
  · filter_upwards [hZ] with t ht
    simp only [dot2, comb] at ht ⊢
    linear_combination ht
  · simp only [form] at hf ⊢
    linear_combination hf
  · rw [hf0, lc_mul_zero _ hm 2, lc_sub _ hm, lc_mul_zero _ hm (κ k) (form qα qβ qv qw), lc_form hm,
      lc_one _ hm, lc_two hm]
    norm_num

/-- The intersection with a flat asphere with coefficients `g`. -/
theorem tay_asphere (hm : 0 < m) {α β V W Z G : ℝ → ℝ} {qα qβ qv qw f : Q 3 m} (g : ℕ → ℝ) (N : ℕ)
    (hα : Tay (vars3 x u) α qα) (hβ : Tay (vars3 x u) β qβ) (hV : Tay (vars3 x u) V qv)
    (hW : Tay (vars3 x u) W qw) (hZ0 : Tendsto Z (𝓝 0) (𝓝 0)) (hf0 : lc (vars3 x u) 0 f = 0)
    (hG : G =O[𝓝 0] fun t => t ^ (2 * m))
    (hZ : ∀ᶠ t in 𝓝 0, Z t = (∑ i ∈ Finset.range N,
      g i * dot2 (comb x u t (α t + Z t * V t) (β t + Z t * W t))
        (comb x u t (α t + Z t * V t) (β t + Z t * W t)) ^ (i + 1)) + G t)
    (hf : f = ∑ i ∈ Finset.range N,
      κ (g i) * form (qα + f * qv) (qβ + f * qw) (qα + f * qv) (qβ + f * qw) ^ (i + 1)) :
    Tay (vars3 x u) Z f := by
  obtain ⟨P, hP⟩ := Ideal.Quotient.mk_surjective f
  have hPt : Tay (vars3 x u) (fun t => ev (vars3 x u) t P) f :=
    ⟨P, hP, by simpa using isBigO_zero _ _⟩
  have hP0 := hPt.tendsto hm
  rw [hf0] at hP0
  have hρ := (tay_dot hm hα hβ hα hβ).tendsto hm
  have hχ := (tay_dot hm hα hβ hV hW).tendsto hm
  have hπ := (tay_dot hm hV hW hV hW).tendsto hm
  rw [lc_form hm] at hρ hχ hπ
  set ρ0 : ℝ → ℝ := fun t => dot2 (comb x u t (α t) (β t)) (comb x u t (α t) (β t))
  set χ : ℝ → ℝ := fun t => dot2 (comb x u t (α t) (β t)) (comb x u t (V t) (W t))
  set π : ℝ → ℝ := fun t => dot2 (comb x u t (V t) (W t)) (comb x u t (V t) (W t))
  have hexp : ∀ t z : ℝ, dot2 (comb x u t (α t + z * V t) (β t + z * W t))
      (comb x u t (α t + z * V t) (β t + z * W t)) = ρ0 t + 2 * χ t * z + π t * z ^ 2 := by
    intro t z
    simp only [ρ0, χ, π, dot2, comb]
    ring
  simp only [hexp] at hZ
  set X1 : ℝ → ℝ := fun t => ρ0 t + 2 * χ t * Z t + π t * Z t ^ 2 with hX1
  set X2 : ℝ → ℝ := fun t => ρ0 t + 2 * χ t * ev (vars3 x u) t P + π t * ev (vars3 x u) t P ^ 2 with hX2
  have lim : ∀ {y : ℝ → ℝ}, Tendsto y (𝓝 0) (𝓝 0) →
      Tendsto (fun t => ρ0 t + 2 * χ t * y t + π t * y t ^ 2) (𝓝 0) (𝓝 0) := by
    intro y hy
    have := (hρ.add ((hχ.const_mul 2).mul hy)).add (hπ.mul (hy.pow 2))
    simpa using this
  have h1 : Tendsto X1 (𝓝 0) (𝓝 0) := lim hZ0
  have h2 : Tendsto X2 (𝓝 0) (𝓝 0) := lim hP0
  have hsum := Tay.sum (a := vars3 x u) (Finset.range N) (fun i _ =>
    ((tay_dot hm (hα.add (hPt.mul hm hV)) (hβ.add (hPt.mul hm hW)) (hα.add (hPt.mul hm hV))
      (hβ.add (hPt.mul hm hW))).pow hm (i + 1)).const_mul hm (g i))
  have hO := hPt.sub hsum
  rw [← hf, sub_self, tay_zero] at hO
  simp only [hexp] at hO
  set E : ℝ → ℝ := fun t => ∑ i ∈ Finset.range N, g i
    * ∑ j ∈ Finset.range (i + 1), X1 t ^ j * X2 t ^ (i + 1 - 1 - j) with hE
  have hEl : ∃ L, Tendsto E (𝓝 0) (𝓝 L) :=
    ⟨_, tendsto_finsetSum _ fun i _ => (tendsto_finsetSum _ fun j _ =>
      (h1.pow j).mul (h2.pow (i + 1 - 1 - j))).const_mul (g i)⟩
  obtain ⟨L, hL⟩ := hEl
  have hD : Tendsto (fun t => 1 - (2 * χ t + π t * (Z t + ev (vars3 x u) t P)) * E t) (𝓝 0) (𝓝 1) := by
    have := (((hχ.const_mul 2).add (hπ.mul (hZ0.add hP0))).mul hL).const_sub 1
    simpa using this
  have hI := (hD.inv₀ one_ne_zero).isBigO_one ℝ
  rw [← hP, tay_mk]
  have h3 := ((hO.neg_left.add hG).mul hI).congr_right (g₂ := fun t => t ^ (2 * m)) (by simp)
  refine h3.congr' ?_ (EventuallyEq.refl _ _)
  filter_upwards [hZ, hD.eventually_ne one_ne_zero] with t h4 h5
  rw [← div_eq_mul_inv, div_eq_iff h5]
  have h6 : (∑ i ∈ Finset.range N, g i * X1 t ^ (i + 1)) - ∑ i ∈ Finset.range N, g i * X2 t ^ (i + 1)
      = E t * (X1 t - X2 t) := by
    rw [hE, ← Finset.sum_sub_distrib, Finset.sum_mul]
    refine Finset.sum_congr rfl fun i _ => ?_
    rw [mul_assoc, geom_sum₂_mul]
    ring
  have h7 : X1 t - X2 t = (Z t - ev (vars3 x u) t P)
      * (2 * χ t + π t * (Z t + ev (vars3 x u) t P)) := by
    simp only [hX1, hX2]
    ring
  rw [h7] at h6
  have h8 : Z t = (∑ i ∈ Finset.range N, g i * X1 t ^ (i + 1)) + G t := h4
  change -(ev (vars3 x u) t P - ∑ i ∈ Finset.range N, g i * X2 t ^ (i + 1)) + G t = _
  linear_combination -h6 - h8

/-- Snell's law for slopes.  `m = V x + W u` is the slope before, `-2 ψ (S x + T u)` that of the normal,
`h` and `h2` are the cosines to the axis. -/
theorem tay_refract (hm : 0 < m) {S T V W ψ h h2 : ℝ → ℝ} {qs qt qv qw fr qh qh' qv' qw' : Q 3 m} (mu : ℝ)
    (hS : Tay (vars3 x u) S qs) (hT : Tay (vars3 x u) T qt) (hV : Tay (vars3 x u) V qv)
    (hW : Tay (vars3 x u) W qw) (hψ : Tay (vars3 x u) ψ fr)
    (hh0 : Tendsto h (𝓝 0) (𝓝 1)) (hh20 : Tendsto h2 (𝓝 0) (𝓝 1))
    (hh : ∀ᶠ t in 𝓝 0, h t ^ 2 * (1 + dot2 (comb x u t (V t) (W t)) (comb x u t (V t) (W t))) = 1)
    (hh2 : ∀ᶠ t in 𝓝 0, h2 t ^ 2 + dot2
      (fun b => mu * h t * comb x u t (V t) (W t) b
        + (h2 t - mu * h t) * (-2 * ψ t * comb x u t (S t) (T t) b))
      (fun b => mu * h t * comb x u t (V t) (W t) b
        + (h2 t - mu * h t) * (-2 * ψ t * comb x u t (S t) (T t) b)) = 1)
    (h0 : lc (vars3 x u) 0 qh = 1) (h0' : lc (vars3 x u) 0 qh' = 1)
    (hq : qh ^ 2 * (1 + form qv qw qv qw) = 1) (hq' : qh' ^ 2 * (1 + form qv' qw' qv' qw') = 1)
    (hv : qh' * qv' - κ mu * qh * qv = (qh' - κ mu * qh) * (-2 * fr * qs))
    (hw : qh' * qw' - κ mu * qh * qw = (qh' - κ mu * qh) * (-2 * fr * qt)) :
    ∃ V2 W2 : ℝ → ℝ, Tay (vars3 x u) V2 qv' ∧ Tay (vars3 x u) W2 qw' ∧
      Tay (vars3 x u) h qh ∧ Tay (vars3 x u) h2 qh' ∧
      ∀ᶠ t in 𝓝 0, h2 t * V2 t = mu * h t * V t + (h2 t - mu * h t) * (-2 * ψ t * S t) ∧
        h2 t * W2 t = mu * h t * W t + (h2 t - mu * h t) * (-2 * ψ t * T t) := by
  have hπ := tay_dot hm hV hW hV hW
  have Hh : Tay (vars3 x u) h qh := by
    refine Tay.root hm (Tay.one.add hπ) (Tay.const 0) ((Tay.const 0).sub Tay.one) (x := qh) ?_ ?_
      (by rw [h0]; exact hh0) ?_
    · filter_upwards [hh] with t ht
      linear_combination ht
    · rw [κ_zero]
      linear_combination hq
    · rw [h0, lc_add _ hm, lc_form hm, lc_one _ hm, lc_κ _ hm]
      norm_num
  have hmh := Hh.const_mul hm mu
  have hD1 := (hψ.const_mul hm (-2)).mul hm hS
  have hD2 := (hψ.const_mul hm (-2)).mul hm hT
  have hC1 := hmh.mul hm (hV.sub hD1)
  have hC2 := hmh.mul hm (hW.sub hD2)
  have hk2 : (κ (-2) : Q 3 m) = -2 := by rw [κ_neg, κ_ofNat]
  have Hh2 : Tay (vars3 x u) h2 qh' := by
    refine Tay.root hm (Tay.one.add (tay_dot hm hD1 hD2 hD1 hD2))
      ((tay_dot hm hC1 hC2 hD1 hD2).ofNat_mul hm 2) ((tay_dot hm hC1 hC2 hC1 hC2).sub Tay.one)
      (x := qh') ?_ ?_ (by rw [h0']; exact hh20) ?_
    · filter_upwards [hh2] with t ht
      simp only [dot2, comb] at ht ⊢
      linear_combination ht
    · have e1 : qh' * qv' = κ mu * qh * qv + (qh' - κ mu * qh) * (-2 * fr * qs) := by
        linear_combination hv
      have e2 : qh' * qw' = κ mu * qh * qw + (qh' - κ mu * qh) * (-2 * fr * qt) := by
        linear_combination hw
      have e3 : qh' ^ 2 + ((qh' * qv') * (qh' * qv') * var 0 + 2 * (qh' * qv') * (qh' * qw') * var 2
          + (qh' * qw') * (qh' * qw') * var 1) = 1 := by
        simp only [form] at hq'
        linear_combination hq'
      rw [e1, e2] at e3
      rw [hk2]
      simp only [form]
      linear_combination e3
    · rw [h0', lc_add _ hm, lc_mul_zero _ hm 2, lc_form hm, lc_form hm, lc_one _ hm]
      norm_num
  have hne : ∀ᶠ t in 𝓝 0, h2 t ≠ 0 := hh20.eventually_ne one_ne_zero
  have hev : ∀ (X : ℝ → ℝ), ∀ᶠ t in 𝓝 0, h2 t * (X t / h2 t) = X t := by
    intro X
    filter_upwards [hne] with t ht
    field_simp
  refine ⟨fun t => (mu * h t * V t + (h2 t - mu * h t) * (-2 * ψ t * S t)) / h2 t,
    fun t => (mu * h t * W t + (h2 t - mu * h t) * (-2 * ψ t * T t)) / h2 t, ?_, ?_, Hh, Hh2, ?_⟩
  · refine Tay.solve hm Hh2 ((hmh.mul hm hV).add ((Hh2.sub hmh).mul hm hD1)) (hev _) ?_ (by
      rw [h0']; norm_num)
    rw [hk2]
    linear_combination hv
  · refine Tay.solve hm Hh2 ((hmh.mul hm hW).add ((Hh2.sub hmh).mul hm hD2)) (hev _) ?_ (by
      rw [h0']; norm_num)
    rw [hk2]
    linear_combination hw
  · filter_upwards [hev fun t => mu * h t * V t + (h2 t - mu * h t) * (-2 * ψ t * S t),
      hev fun t => mu * h t * W t + (h2 t - mu * h t) * (-2 * ψ t * T t)] with t h1 h2
    exact ⟨h1, h2⟩

/-! ### The profile -/

theorem sag_sphere {sh : Shape} (ha : sh.aspherics = none ∨ sh.aspherics = some [])
    (hk : sh.conic = 0 ∨ sh.curvature = 0) {ρ : ℝ}
    (hp : 0 < 1 - (1 + sh.conic) * sh.curvature ^ 2 * ρ) :
    sh.curvature * (ρ + sagFn sh ρ ^ 2) = 2 * sagFn sh ρ ∧
      normFn sh ρ * (1 - sh.curvature * sagFn sh ρ) = -sh.curvature := by
  have hasp : aspSag ρ (sh.aspherics.getD []) = 0 ∧ aspSlope ρ (sh.aspherics.getD []) = 0 := by
    rcases ha with h | h <;> simp [h, aspSag, aspSlope]
  unfold sagFn normFn
  rw [hasp.1, hasp.2]
  rcases hk with hk | hk
  · rw [hk] at hp ⊢
    set c := sh.curvature
    have hq := Real.sq_sqrt hp.le
    have hq0 := Real.sqrt_pos.mpr hp
    set q := √(1 - (1 + 0) * c ^ 2 * ρ)
    have h1 : 1 + q ≠ 0 := by positivity
    have h2 : c * (c * ρ / (1 + q)) = 1 - q := by
      field_simp
      linear_combination hq
    refine ⟨?_, ?_⟩
    · rw [add_zero, mul_add]
      have h3 : c * ρ = c * ρ / (1 + q) * (1 + q) := by field_simp
      generalize c * ρ / (1 + q) = z at h2 h3
      linear_combination h3 + z * h2
    · rw [add_zero, h2]
      field_simp
      ring
  · simp [hk]

theorem aspSag_range (ρ : ℝ) (l : List ℝ) :
    aspSag ρ l = ∑ i ∈ Finset.range l.length, l.getD i 0 * ρ ^ (i + 1) := by
  rw [aspSag_sum, ← Fin.sum_univ_eq_sum_range (fun i => l.getD i 0 * ρ ^ (i + 1))]
  refine Finset.sum_congr rfl fun i _ => ?_
  rw [List.getD_eq_getElem _ _ i.2]
  rfl

theorem aspSlope_range (ρ : ℝ) (l : List ℝ) :
    aspSlope ρ l = ∑ i ∈ Finset.range l.length, 2 * ((i : ℝ) + 1) * l.getD i 0 * ρ ^ i := by
  have key : ∀ n : ℕ, aspSlopeFrom ρ n l
      = ∑ i ∈ Finset.range l.length, 2 * ((n + i : ℝ) + 1) * l.getD i 0 * ρ ^ i := by
    induction l with
    | nil => simp [aspSlopeFrom]
    | cons a l ih =>
      intro n
      rw [aspSlopeFrom_cons, ih (n + 1), List.length_cons, Finset.sum_range_succ', Finset.sum_mul]
      congr 1
      · refine Finset.sum_congr rfl fun i _ => ?_
        simp only [List.getD_cons_succ]
        push_cast
        ring
      · simp
  have := key 0
  simp only [Nat.cast_zero, zero_add] at this
  exact this

theorem sag_asphere {sh : Shape} (hc : sh.curvature = 0) {l : List ℝ} (ha : sh.aspherics = some l)
    (ρ : ℝ) :
    sagFn sh ρ = ∑ i ∈ Finset.range l.length, l.getD i 0 * ρ ^ (i + 1) ∧
      normFn sh ρ = -∑ i ∈ Finset.range l.length, 2 * ((i : ℝ) + 1) * l.getD i 0 * ρ ^ i := by
  unfold sagFn normFn
  rw [ha, Option.getD_some, aspSag_range, aspSlope_range, hc]
  constructor <;> simp

end

end RayOpt.Poly
