import Verif.Lemmas.TaylorSurf
import Verif.Props.PolyEval
import Verif.Props.PolyTrace

/-!
C83: the polynomials of `PolyTrace` (rayopt/poly_trace.py) are the Taylor polynomials of the rays of
`GeometricTrace`.
-/

namespace RayOpt.Poly

open Simplex MvPolynomial Filter Topology Asymptotics Shape Elem Sys

section
variable {m : ℕ} {tb : Tables} {abi : ℕ → List (ℕ × ℕ)}

/-- The elements that the polynomials of order `m` represent: spheres, planes, and planes with at least
`m - 1` aspheric coefficients. -/
def Plain (m : ℕ) (e : Elem) : Prop :=
  ∀ sh, e.shape = some sh →
    (sh.aspherics = none ∧ (sh.curvature = 0 ∨ sh.conic = 0 ∧ 0 < e.tf.distance)) ∨
    (sh.curvature = 0 ∧ 0 < e.tf.distance ∧
      ∃ a as, sh.aspherics = some (a :: as) ∧ m ≤ (a :: as).length + 1)

/-- `r`, `k`, `p` are the scalar products of `y = s x + t u` and the slope `v x + w u`. -/
def Products (m : ℕ) (tb : Tables) (st : PolyState) : Prop :=
  Poly.OnAxis st ∧
  cls 3 m tb st.r = form (cls 3 m tb st.s) (cls 3 m tb st.t) (cls 3 m tb st.s) (cls 3 m tb st.t) ∧
  cls 3 m tb st.k = form (cls 3 m tb st.s) (cls 3 m tb st.t) (cls 3 m tb st.v) (cls 3 m tb st.w) ∧
  cls 3 m tb st.p = form (cls 3 m tb st.v) (cls 3 m tb st.w) (cls 3 m tb st.v) (cls 3 m tb st.w)

/-- Specification: the curve of rays `r` is close to the axis, travels in direction `s` along it, and lies
on the lines given by the polynomials of `st`; `P` is their optical path. -/
def Line (m : ℕ) (tb : Tables) (abi : ℕ → List (ℕ × ℕ)) (x u : Fin 2 → ℝ) (s : ℝ) (r : ℝ → Ray)
    (P : ℝ → ℝ) (st : PolyState) : Prop :=
  ∃ (Y U : ℝ → V3) (Y' U' : V3) (A B V W : ℝ → ℝ),
    (∀ᶠ t in 𝓝 0, r t = ⟨some (Y t), some (U t), st.n⟩) ∧
    HasD Y 0 Y' ∧ HasD U ⟨0, 0, s⟩ U' ∧ (∀ᶠ t in 𝓝 0, (U t).norm = 1) ∧
    Tay (vars3 x u) A (cls 3 m tb st.s - cls 3 m tb st.f * cls 3 m tb st.v) ∧
    Tay (vars3 x u) B (cls 3 m tb st.t - cls 3 m tb st.f * cls 3 m tb st.w) ∧
    Tay (vars3 x u) V (cls 3 m tb st.v) ∧ Tay (vars3 x u) W (cls 3 m tb st.w) ∧
    Tay (vars3 x u) (fun t => P t - st.n * (Y t).z * (1 / (s * (U t).z)))
      (cls 3 m tb st.o - κ st.n * cls 3 m tb st.f * cls 3 m tb (pow abi m (shift st.p 1) (1 / 2))) ∧
    ∀ᶠ t in 𝓝 0, ∀ b, tr (Y t) b - (Y t).z * (tr (U t) b / (U t).z) = comb x u t (A t) (B t) b ∧
      tr (U t) b / (U t).z = comb x u t (V t) (W t) b

/-- Specification: in addition the points of the rays and the optical paths are those given by the
polynomials. -/
def Meets (m : ℕ) (tb : Tables) (x u : Fin 2 → ℝ) (s : ℝ) (r : ℝ → Ray) (P : ℝ → ℝ) (st : PolyState) :
    Prop :=
  ∃ (Y U : ℝ → V3) (Y' U' : V3) (S T V W : ℝ → ℝ),
    (∀ᶠ t in 𝓝 0, r t = ⟨some (Y t), some (U t), st.n⟩) ∧
    HasD Y 0 Y' ∧ HasD U ⟨0, 0, s⟩ U' ∧ (∀ᶠ t in 𝓝 0, (U t).norm = 1) ∧
    Tay (vars3 x u) S (cls 3 m tb st.s) ∧ Tay (vars3 x u) T (cls 3 m tb st.t) ∧
    Tay (vars3 x u) V (cls 3 m tb st.v) ∧ Tay (vars3 x u) W (cls 3 m tb st.w) ∧
    Tay (vars3 x u) (fun t => (Y t).z) (cls 3 m tb st.f) ∧ Tay (vars3 x u) P (cls 3 m tb st.o) ∧
    ∀ᶠ t in 𝓝 0, ∀ b, tr (Y t) b = comb x u t (S t) (T t) b ∧
      tr (U t) b / (U t).z = comb x u t (V t) (W t) b

/-- `1 / √(1 + U·U)` and its inverse. -/
theorem tay_cos (K : Ctx 3 m tb abi) (hm : 0 < m) {x u : Fin 2 → ℝ} {s : ℝ} {p : Co} {V W : ℝ → ℝ}
    {U : ℝ → V3} {U' : V3} {v w : Q 3 m} (hss : s * s = 1) (hp : p 0 = 0)
    (hpr : cls 3 m tb p = form v w v w) (hU : HasD U ⟨0, 0, s⟩ U') (hunit : ∀ᶠ t in 𝓝 0, (U t).norm = 1)
    (hV : Tay (vars3 x u) V v) (hW : Tay (vars3 x u) W w)
    (hsl : ∀ᶠ t in 𝓝 0, ∀ b, tr (U t) b / (U t).z = comb x u t (V t) (W t) b) :
    (∀ᶠ t in 𝓝 0, (U t).z ≠ 0) ∧ Tendsto (fun t => s * (U t).z) (𝓝 0) (𝓝 1) ∧
    (∀ᶠ t in 𝓝 0, (s * (U t).z) ^ 2
      * (1 + dot2 (comb x u t (V t) (W t)) (comb x u t (V t) (W t))) = 1) ∧
    lc (vars3 x u) 0 (cls 3 m tb (pow abi m (shift p 1) (-1 / 2))) = 1 ∧
    cls 3 m tb (pow abi m (shift p 1) (-1 / 2)) ^ 2 * (1 + form v w v w) = 1 ∧
    Tay (vars3 x u) (fun t => 1 / (s * (U t).z)) (cls 3 m tb (pow abi m (shift p 1) (1 / 2))) := by
  have hs0 : s ≠ 0 := by rintro rfl; simp at hss
  have p10 : (shift p 1) 0 = 1 := by rw [shift_const, hp, zero_add]
  have hUz : ∀ᶠ t in 𝓝 0, (U t).z ≠ 0 :=
    hU.contZ.eventually_ne (by rw [hU.at0]; exact hs0)
  have hh0 : Tendsto (fun t => s * (U t).z) (𝓝 0) (𝓝 1) := by
    have := hU.contZ.tendsto.const_mul s
    rwa [hU.at0, hss] at this
  have hh : ∀ᶠ t in 𝓝 0, (s * (U t).z) ^ 2
      * (1 + dot2 (comb x u t (V t) (W t)) (comb x u t (V t) (W t))) = 1 := by
    filter_upwards [hsl, hunit, hUz] with t h1 h2 h3
    have h4 := V3.dot_self_of_norm h2
    simp only [V3.dot] at h4
    have e0 := h1 0
    have e1 := h1 1
    rw [div_eq_iff h3] at e0 e1
    simp only [tr, Matrix.cons_val_zero, Matrix.cons_val_one] at e0 e1
    simp only [dot2]
    rw [e0, e1] at h4
    linear_combination h4 + ((U t).z ^ 2 * (1 + comb x u t (V t) (W t) 0 ^ 2
      + comb x u t (V t) (W t) 1 ^ 2)) * hss
  have q1 : lc (vars3 x u) 0 (cls 3 m tb (pow abi m (shift p 1) (-1 / 2))) = 1 := by
    rw [lc_cls _ K, pow_const K _ p10]
  have q3 : cls 3 m tb (pow abi m (shift p 1) (-1 / 2)) ^ 2 * (1 + form v w v w) = 1 := by
    have := pow_isqrt K _ p10
    rw [cls_shift K, κ_one, hpr] at this
    linear_combination this
  refine ⟨hUz, hh0, hh, q1, q3, ?_⟩
  have hπ := tay_dot hm hV hW hV hW
  have Hh : Tay (vars3 x u) (fun t => s * (U t).z) (cls 3 m tb (pow abi m (shift p 1) (-1 / 2))) := by
    refine Tay.root hm (Tay.one.add hπ) (Tay.const 0) ((Tay.const 0).sub Tay.one) ?_ ?_
      (by rw [q1]; exact hh0) ?_
    · filter_upwards [hh] with t ht
      linear_combination ht
    · rw [κ_zero]
      linear_combination q3
    · rw [q1, lc_add _ hm, lc_form hm, lc_one _ hm, lc_κ _ hm]
      norm_num
  refine Tay.solve hm Hh Tay.one ?_ ?_ (by rw [q1]; norm_num)
  · filter_upwards [hUz] with t ht
    exact mul_one_div_cancel (mul_ne_zero hs0 ht)
  · rw [mul_comm]
    exact pow_sqrt_isqrt K _ p10

theorem Meets.line (K : Ctx 3 m tb abi) (hm : 0 < m) {x u : Fin 2 → ℝ} {s : ℝ} {r : ℝ → Ray}
    {P : ℝ → ℝ} {st : PolyState} (hss : s * s = 1) (hpr : Products m tb st)
    (h : Meets m tb x u s r P st) : Line m tb abi x u s r P st := by
  obtain ⟨Y, U, Y', U', S, T, V, W, h1, h2, h3, h4, hS, hT, hV, hW, hZ, hP, h5⟩ := h
  obtain ⟨-, -, -, -, -, hc⟩ := tay_cos K hm hss hpr.1.2.1 hpr.2.2.2 h3 h4 hV hW
    (h5.mono fun t ht b => (ht b).2)
  refine ⟨Y, U, Y', U', _, _, V, W, h1, h2, h3, h4, hS.sub (hZ.mul hm hV), hT.sub (hZ.mul hm hW), hV, hW,
    hP.sub ((hZ.const_mul hm st.n).mul hm hc), ?_⟩
  filter_upwards [h5] with t ht b
  obtain ⟨e1, e2⟩ := ht b
  refine ⟨?_, e2⟩
  rw [e2, e1]
  simp only [comb]
  ring

/-- One surface. -/
theorem meets_step (K : Ctx 3 m tb abi) (hm : 0 < m) (nwt : NewtonFn) (l s : ℝ) (clp : Bool) (e : Elem)
    (st st' : PolyState) (x u : Fin 2 → ℝ) (r : ℝ → Ray) (P : ℝ → ℝ)
    (hg : Fitted (2 * m) nwt l st.n s e) (hp : Plain m e) (hst : stepPoly abi m l st e = some st')
    (hpr : Products m tb st) (hr : Line m tb abi x u s r P st) :
    Products m tb st' ∧ Meets m tb x u (sideAfter s e) (fun t => (step nwt l clp e (r t)).2)
      (fun t => P t + s * ((step nwt l clp e (r t)).1.t).getD 0) st' := by
  obtain ⟨sh, hsh, hst⟩ := Option.map_eq_some_iff.mp hst
  obtain ⟨⟨hr0, hp0, hk0⟩, hpr1, hpr2, hpr3⟩ := hpr
  obtain ⟨Y, U, Y', U', A, B, V, W, hr, hY, hU, hunit, hA, hB, hV, hW, hP, hline⟩ := hr
  obtain ⟨Y2, U2, Y2', U2', T, G, hr2, hY2, hU2, hunit2, hG, hG0, hev⟩ :=
    surface_step (2 * m) nwt l st.n s clp e sh r hg hsh hr hY hU hunit
  have hs := hg.axis.sign
  have hss : s * s = 1 := by rcases hs with h | h <;> rw [h] <;> norm_num
  have hs0 : s ≠ 0 := by rintro rfl; simp at hss
  set dz := e.tf.offset.z with hdz
  have hdzs : dz = s * e.tf.distance := by rw [hdz, hg.axis.off]
  set F : Co → Q 3 m := cls 3 m tb with hF
  set a := vars3 x u with ha
  -- the polynomials
  obtain ⟨t1, t2⟩ := transfer_const K dz st hr0 hp0 hk0
  have hsimple : Simple sh dz := by
    rcases hp sh hsh with ⟨h, -⟩ | ⟨h, -⟩
    · exact .inr (.inl h)
    · exact .inl (by rw [h, zero_mul])
  have hi := intercept_good K sh dz hsimple t1 hp0 t2
  obtain ⟨s1, s2, -, s4, s5, s6, -⟩ := refract_spec K _ dz (Elem.getNMu e.mat st.n l).1
    (Elem.getNMu e.mat st.n l).2 st hp0 hr0 hk0 hi (st' := st') (by rw [← hst]; rfl) hF
  obtain ⟨i1, i2, i3⟩ := s4 (var 0) (var 1) (var 2) (by rw [hpr1]; simp only [form]; ring)
    (by rw [hpr2]; simp only [form]) (by rw [hpr3]; simp only [form]; ring)
  have i1' : F st'.r = form (F st'.s) (F st'.t) (F st'.s) (F st'.t) := by
    rw [i1]; simp only [form]; ring
  have i3' : F st'.p = form (F st'.v) (F st'.w) (F st'.v) (F st'.w) := by
    rw [i3]; simp only [form]; ring
  refine ⟨⟨s1, i1', by rw [← hF, i2]; simp only [form], i3'⟩, ?_⟩
  have hf0 : st'.f 0 = 0 := by rw [s6]; exact hi.f0
  have hf0' : lc a 0 (F st'.f) = 0 := by rw [hF, lc_cls _ K, hf0]
  have p10' : (shift st'.p 1) 0 = 1 := by rw [shift_const, s1.2.1, zero_add]
  have hn' : st'.n = (Elem.getNMu e.mat st.n l).1 := by rw [← hst]; rfl
  have hmu : (Elem.getNMu e.mat st.n l).2 = (Elem.getNMu (e.material.getD none) st.n l).2 := rfl
  set mu := (Elem.getNMu e.mat st.n l).2
  -- the point on the surface
  set α : ℝ → ℝ := fun t => A t + dz * V t with hα
  set β : ℝ → ℝ := fun t => B t + dz * W t with hβ
  have Hα : Tay a α (F st.s - F st.f * F st.v + κ dz * F st.v) := hA.add (hV.const_mul hm dz)
  have Hβ : Tay a β (F st.t - F st.f * F st.w + κ dz * F st.w) := hB.add (hW.const_mul hm dz)
  obtain ⟨hUz, hh0, hh, q1, q3, Hc⟩ := tay_cos K hm hss hp0 hpr3 hU hunit hV hW
    (hline.mono fun t ht b => (ht b).2)
  have hpt : ∀ᶠ t in 𝓝 0, ∀ b, tr (Y2 t) b
      = comb x u t (α t + (Y2 t).z * V t) (β t + (Y2 t).z * W t) b := by
    filter_upwards [hev, hline, hUz] with t h1 h2 h3 b
    obtain ⟨e1, e2⟩ := h2 b
    have e3 : tr (Y2 t) b = tr (Y t) b + T t * tr (U t) b := by
      rw [h1.1, hg.axis.off]
      fin_cases b <;> simp [tr]
    have e4 : (Y2 t).z = (Y t).z - dz + T t * (U t).z := by
      rw [h1.1]; simp [hdz]
    have e5 : tr (U t) b = (U t).z * comb x u t (V t) (W t) b := by
      rw [← e2]; field_simp
    rw [e2] at e1
    rw [e3, e5, show T t * ((U t).z * comb x u t (V t) (W t) b)
      = ((Y2 t).z + dz - (Y t).z) * comb x u t (V t) (W t) b by rw [e4]; ring]
    simp only [hα, hβ]
    simp only [comb] at e1 ⊢
    linear_combination e1
  have hrsq : ∀ᶠ t in 𝓝 0, rsq (Y2 t) = dot2
      (comb x u t (α t + (Y2 t).z * V t) (β t + (Y2 t).z * W t))
      (comb x u t (α t + (Y2 t).z * V t) (β t + (Y2 t).z * W t)) := by
    filter_upwards [hpt] with t ht
    have : rsq (Y2 t) = dot2 (tr (Y2 t)) (tr (Y2 t)) := by simp [rsq, dot2, tr]
    rw [this, funext ht]
  have hZ0 : Tendsto (fun t => (Y2 t).z) (𝓝 0) (𝓝 0) := by
    have := hY2.contZ.tendsto
    rwa [hY2.at0] at this
  have hqs : F st'.s = F st.s - F st.f * F st.v + κ dz * F st.v + F st'.f * F st.v := by
    linear_combination s2.1
  have hqt : F st'.t = F st.t - F st.f * F st.w + κ dz * F st.w + F st'.f * F st.w := by
    linear_combination s2.2.1
  -- the rest, given the surface and its normal
  have core : ∀ fr : Q 3 m, Tay a (fun t => (Y2 t).z) (F st'.f) →
      Tay a (fun t => -(s * normFn sh (rsq (Y2 t))) / 2) fr →
      (F (pow abi m (shift st'.p 1) (-1 / 2)) * F st'.v
          - κ mu * F (pow abi m (shift st.p 1) (-1 / 2)) * F st.v
        = (F (pow abi m (shift st'.p 1) (-1 / 2)) - κ mu * F (pow abi m (shift st.p 1) (-1 / 2)))
          * (-2 * fr * F st'.s)) →
      (F (pow abi m (shift st'.p 1) (-1 / 2)) * F st'.w
          - κ mu * F (pow abi m (shift st.p 1) (-1 / 2)) * F st.w
        = (F (pow abi m (shift st'.p 1) (-1 / 2)) - κ mu * F (pow abi m (shift st.p 1) (-1 / 2)))
          * (-2 * fr * F st'.t)) →
      Meets m tb x u (sideAfter s e) (fun t => (step nwt l clp e (r t)).2)
        (fun t => P t + s * ((step nwt l clp e (r t)).1.t).getD 0) st' := by
    intro fr hZ hψ hv hw
    have HS : Tay a (fun t => α t + (Y2 t).z * V t) (F st'.s) :=
      (Hα.add (hZ.mul hm hV)).congr hqs.symm
    have HT : Tay a (fun t => β t + (Y2 t).z * W t) (F st'.t) :=
      (Hβ.add (hZ.mul hm hW)).congr hqt.symm
    have hsa : sideAfter s e * sideAfter s e = 1 := by
      obtain ⟨σ, h1, h2⟩ := side_mu hg.toFair hsh
      rw [h1]
      rcases h2 with ⟨-, rfl⟩ | ⟨-, rfl⟩ <;> linear_combination hss
    have hh20 : Tendsto (fun t => sideAfter s e * (U2 t).z) (𝓝 0) (𝓝 1) := by
      have := hU2.contZ.tendsto.const_mul (sideAfter s e)
      rwa [hU2.at0, hsa] at this
    have hh2 : ∀ᶠ t in 𝓝 0, (sideAfter s e * (U2 t).z) ^ 2 + dot2
        (fun b => mu * (s * (U t).z) * comb x u t (V t) (W t) b
          + (sideAfter s e * (U2 t).z - mu * (s * (U t).z)) * (-2 * (-(s * normFn sh (rsq (Y2 t))) / 2)
            * comb x u t (α t + (Y2 t).z * V t) (β t + (Y2 t).z * W t) b))
        (fun b => mu * (s * (U t).z) * comb x u t (V t) (W t) b
          + (sideAfter s e * (U2 t).z - mu * (s * (U t).z)) * (-2 * (-(s * normFn sh (rsq (Y2 t))) / 2)
            * comb x u t (α t + (Y2 t).z * V t) (β t + (Y2 t).z * W t) b)) = 1 := by
      filter_upwards [hpt, hev, hline, hunit2, hUz] with t h1 h2 h3 h4 h5
      have h6 := V3.dot_self_of_norm h4
      simp only [V3.dot] at h6
      have g : ∀ b, mu * (s * (U t).z) * comb x u t (V t) (W t) b
          + (sideAfter s e * (U2 t).z - mu * (s * (U t).z)) * (-2 * (-(s * normFn sh (rsq (Y2 t))) / 2)
            * comb x u t (α t + (Y2 t).z * V t) (β t + (Y2 t).z * W t) b)
          = sideAfter s e * tr (U2 t) b := by
        intro b
        have h7 := h2.2.2.2.2 b
        have h8 := (h3 b).2
        rw [div_eq_iff h5] at h8
        rw [h7, h1 b, h8]
        ring
      rw [funext g]
      simp only [dot2, tr, Matrix.cons_val_zero, Matrix.cons_val_one]
      linear_combination h6 + ((U2 t).x * (U2 t).x + (U2 t).y * (U2 t).y + (U2 t).z * (U2 t).z) * hsa
    have q2 : lc a 0 (F (pow abi m (shift st'.p 1) (-1 / 2))) = 1 := by
      rw [hF, lc_cls _ K, pow_const K _ p10']
    have q4 : F (pow abi m (shift st'.p 1) (-1 / 2)) ^ 2 * (1 + form (F st'.v) (F st'.w) (F st'.v) (F st'.w)) = 1 := by
      have := pow_isqrt K _ p10'
      rw [cls_shift K, κ_one, ← hF, i3'] at this
      linear_combination this
    obtain ⟨V2, W2, hV2, hW2, -, -, hVW⟩ := tay_refract hm mu HS HT hV hW hψ hh0 hh20 hh hh2 q1 q2 q3 q4
      hv hw
    have hP2 : Tay a (fun t => P t + s * ((step nwt l clp e (r t)).1.t).getD 0) (F st'.o) := by
      have h1 := hP.add (((hZ.add (Tay.const dz)).const_mul hm st.n).mul hm Hc)
      refine (h1.congr ?_).of_eventuallyEq ?_
      · rw [s5]; ring
      · filter_upwards [hev, hUz] with t g1 g2
        have e4 : (Y2 t).z = (Y t).z - dz + T t * (U t).z := by
          rw [g1.1]; simp [hdz]
        rw [g1.2.1, Option.getD_some, e4]
        have hsz : s * (U t).z ≠ 0 := mul_ne_zero hs0 g2
        have hc := one_div_mul_cancel hsz
        generalize 1 / (s * (U t).z) = c at hc ⊢
        linear_combination T t * st.n * s * hc - T t * st.n * c * (U t).z * hss
    refine ⟨Y2, U2, Y2', U2', _, _, V2, W2, by rw [hn']; exact hr2, hY2, hU2, hunit2, HS, HT, hV2, hW2, hZ,
      hP2,
      ?_⟩
    filter_upwards [hpt, hev, hVW, hline, hUz, hh20.eventually_ne one_ne_zero] with t h1 h2 h3 h4 h5 h6 b
    refine ⟨h1 b, ?_⟩
    have h7 := h2.2.2.2.2 b
    have h8 := (h4 b).2
    rw [div_eq_iff h5] at h8
    have hz2 : (U2 t).z ≠ 0 := fun h => h6 (by rw [h, mul_zero])
    rw [h1 b, h8] at h7
    have h9 : sideAfter s e * (U2 t).z * comb x u t (V2 t) (W2 t) b
        = sideAfter s e * tr (U2 t) b := by
      rw [h7]
      simp only [comb]
      linear_combination (t * x b) * h3.1 + (t * u b) * h3.2
    rw [div_eq_iff hz2]
    have : sideAfter s e ≠ 0 := fun h => h6 (by rw [h, zero_mul])
    apply mul_left_cancel₀ this
    linear_combination -h9
  rcases hp sh hsh with ⟨h1, h2⟩ | ⟨h1, h2, c, as, h3, h4⟩
  · -- spheres and planes
    have hcond : dz ≠ 0 ∨ sh.curvature = 0 := by
      rcases h2 with h2 | ⟨-, h2⟩
      · exact .inr h2
      · exact .inl (by rw [hdzs]; exact mul_ne_zero hs0 h2.ne')
    have hk : sh.curvature * Real.sign dz = s * sh.curvature := by
      rcases h2 with h2 | ⟨-, h2⟩
      · rw [h2]; ring
      · rw [hdzs]
        rcases hs with rfl | rfl
        · rw [one_mul, Real.sign_of_pos h2]; ring
        · rw [Real.sign_of_neg (by linarith)]; ring
    obtain ⟨-, -, -, -, c5, -, ⟨fr, c7, -, -, c8, c9, -⟩, -⟩ := c69_sphere K sh (e.material.getD none) dz l
      (.inl h1) hcond st ⟨hr0, hp0, hk0⟩ hst.symm hF (u := s * sh.curvature) hk.symm hmu
    have hsag : ∀ᶠ t in 𝓝 0, s * sh.curvature * (rsq (Y2 t) + (Y2 t).z ^ 2) = 2 * (Y2 t).z ∧
        2 * (1 - s * sh.curvature * (Y2 t).z) * (-(s * normFn sh (rsq (Y2 t))) / 2)
          = s * sh.curvature := by
      filter_upwards [hev] with t ht
      obtain ⟨g1, g2⟩ := sag_sphere (.inl h1) (h2.symm.imp_left And.left) ht.2.2.2.1
      have g0 := ht.2.2.1
      rw [hG0 h1, add_zero] at g0
      rw [← g0] at g1 g2
      constructor
      · linear_combination s * g1 + (2 * (Y2 t).z - s * sh.curvature * (Y2 t).z ^ 2) * hss
      · linear_combination (-s) * g2
    have hZ : Tay a (fun t => (Y2 t).z) (F st'.f) := by
      refine tay_sphere hm (s * sh.curvature) Hα Hβ hV hW hZ0 hf0' ?_ ?_
      · filter_upwards [hsag, hrsq] with t g1 g2
        rw [← g2]
        exact g1.1
      · rw [← hqs, ← hqt, ← i1']
        exact c5
    refine core fr hZ ?_ c8 c9
    refine Tay.solve hm ((Tay.one.sub (hZ.const_mul hm (s * sh.curvature))).ofNat_mul hm 2)
      (Tay.const (s * sh.curvature)) ?_ ?_ ?_
    · filter_upwards [hsag] with t g1
      exact g1.2
    · linear_combination -c7
    · rw [lc_mul_zero _ hm 2, lc_sub _ hm, lc_mul_zero _ hm (κ _), hf0', lc_two hm, lc_one _ hm]
      norm_num
  · -- planes with aspheric terms
    have hsg : Real.sign dz = s := by
      rw [hdzs]
      rcases hs with rfl | rfl
      · rw [one_mul, Real.sign_of_pos h2]
      · rw [Real.sign_of_neg (by linarith)]
    obtain ⟨-, -, c3, -, c5, c6⟩ := c69_asphere K sh (e.material.getD none) dz l h1 c as h3 st
      ⟨hr0, hp0, hk0⟩ hst.symm hF hmu
    have c3 := c3 h4
    rw [hsg] at c3 c5 c6
    have hZ : Tay a (fun t => (Y2 t).z) (F st'.f) := by
      refine tay_asphere hm (fun i => (c :: as).getD i 0 * s) (c :: as).length Hα Hβ hV hW hZ0 hf0'
        (hG.const_mul_left s) ?_ ?_
      · filter_upwards [hev, hrsq] with t g1 g2
        rw [← g2]
        have g3 := g1.2.2.1
        rw [(sag_asphere h1 h3 _).1] at g3
        have : (Y2 t).z = s * (s * (Y2 t).z) := by linear_combination -(Y2 t).z * hss
        rw [this, g3, mul_add, Finset.mul_sum]
        congr 1
        exact Finset.sum_congr rfl fun i _ => by ring
      · rw [← hqs, ← hqt, ← i1']
        exact c3
    have HS : Tay a (fun t => α t + (Y2 t).z * V t) (F st'.s) :=
      (Hα.add (hZ.mul hm hV)).congr hqs.symm
    have HT : Tay a (fun t => β t + (Y2 t).z * W t) (F st'.t) :=
      (Hβ.add (hZ.mul hm hW)).congr hqt.symm
    have HR : Tay a (fun t => rsq (Y2 t)) (F st'.r) := by
      refine ((tay_dot hm HS HT HS HT).congr i1'.symm).of_eventuallyEq ?_
      filter_upwards [hrsq] with t ht
      exact ht.symm
    refine core _ hZ ?_ c5 c6
    refine (Tay.sum _ fun i _ => (HR.pow hm i).const_mul hm _).of_eventuallyEq (.of_forall fun t => ?_)
    simp only
    rw [(sag_asphere h1 h3 _).2, mul_neg, neg_neg, Finset.mul_sum, Finset.sum_div]
    refine Finset.sum_congr rfl fun i _ => ?_
    ring

/-- Specification: the optical path up to element `j`, counted negative where the ray travels against
the axis. -/
noncomputable def signedPath (s : ℝ) (es : List Elem) (rs : List Row) (j : ℕ) : ℝ :=
  ∑ i ∈ Finset.range (j + 1), sideAt s es i * ((rs[i]?.bind (·.t)).getD 0)

theorem signedPath_cons (s : ℝ) (e : Elem) (es : List Elem) (a : Row) (rs : List Row) (j : ℕ) :
    signedPath s (e :: es) (a :: rs) (j + 1)
      = s * (a.t).getD 0 + signedPath (sideAfter s e) es rs j := by
  unfold signedPath
  rw [Finset.sum_range_succ']
  simp only [sideAt, List.getElem?_cons_succ, List.getElem?_cons_zero, Option.bind_some]
  ring

theorem good_sides {nwt : NewtonFn} {l n s : ℝ} {e : Elem} {sh : Shape} (hg : Fair nwt l n s e)
    (hsh : e.shape = some sh) : sideAfter s e * sideAfter s e = 1 := by
  have hss : s * s = 1 := by rcases hg.axis.sign with h | h <;> rw [h] <;> norm_num
  obtain ⟨σ, h1, h2⟩ := side_mu hg hsh
  rw [h1]
  rcases h2 with ⟨-, rfl⟩ | ⟨-, rfl⟩ <;> linear_combination hss

/-- Whole systems: the polynomials after every element are those of the rays there. -/
theorem meets_system (K : Ctx 3 m tb abi) (hm : 0 < m) (nwt : NewtonFn) (l : ℝ) (clp : Bool)
    (es : List Elem) (x u : Fin 2 → ℝ) (s : ℝ) (st : PolyState) (r : ℝ → Ray) (P : ℝ → ℝ)
    (hg : FittedFrom (2 * m) nwt l st.n s es) (hp : ∀ e ∈ es, Plain m e ∧ e.shape ≠ none)
    (hpr : Products m tb st) (hr : Line m tb abi x u s r P st) (j : ℕ) (e : Elem)
    (hj : es[j]? = some e) :
    ∃ st', tracePoly abi m l st (es.take (j + 1)) = some st' ∧
      ∃ row : ℝ → Row, (∀ t, (rows nwt l clp es (r t))[j]? = some (row t)) ∧
        Meets m tb x u (sideAt s es (j + 1)) (fun t => rayOfRow e (row t))
          (fun t => P t + signedPath s es (rows nwt l clp es (r t)) j) st' := by
  induction es generalizing s st r P j with
  | nil => simp at hj
  | cons e0 es ih =>
    obtain ⟨hg1, hg2⟩ := hg
    obtain ⟨hp1, hp2⟩ := hp e0 (by simp)
    obtain ⟨sh, hsh⟩ := Option.ne_none_iff_exists'.mp hp2
    obtain ⟨st1, hst1⟩ : ∃ st1, stepPoly abi m l st e0 = some st1 :=
      ⟨_, by unfold stepPoly; rw [hsh]; rfl⟩
    obtain ⟨hpr1, hm1⟩ := meets_step K hm nwt l s clp e0 st st1 x u r P hg1 hp1 hst1 hpr hr
    cases j with
    | zero =>
      simp only [List.getElem?_cons_zero, Option.some.injEq] at hj
      subst hj
      refine ⟨st1, by simp [tracePoly, hst1], fun t => (step nwt l clp e0 (r t)).1, fun t => rfl, ?_⟩
      have hs : ∀ t, signedPath s (e0 :: es) (rows nwt l clp (e0 :: es) (r t)) 0
          = s * ((step nwt l clp e0 (r t)).1.t).getD 0 := fun t => by simp [signedPath, sideAt, rows]
      simp only [hs, sideAt]
      exact hm1
    | succ j =>
      simp only [List.getElem?_cons_succ] at hj
      have hn1 : st1.n = e0.paraxN st.n l := by
        rw [paraxN_eq hg1.toFair hsh]
        unfold stepPoly at hst1
        rw [hsh] at hst1
        simp only [Option.map_some, Option.some.injEq] at hst1
        rw [← hst1]
        rfl
      rw [← hn1] at hg2
      obtain ⟨st', h1, row, h2, h3⟩ := ih (sideAfter s e0) st1 _ _ hg2 (fun e he => hp e (by simp [he]))
        hpr1 (hm1.line K hm (good_sides hg1.toFair hsh) hpr1) j hj
      refine ⟨st', ?_, row, fun t => by simp only [rows, List.getElem?_cons_succ, h2 t], ?_⟩
      · rw [List.take_succ_cons, tracePoly_cons, hst1]
        exact h1
      · simp only [sideAt, rows, signedPath_cons, ← add_assoc]
        exact h3

/-- The ray `x, U` of `PolyTrace`, scaled. -/
def StartRay.scale (w : StartRay) (t : ℝ) : StartRay := ⟨(t * w.x.1, t * w.x.2), (t * w.u.1, t * w.u.2)⟩

/-- Specification: the real ray with height `x` in the plane `z = pos` and slope `U`, given in the plane
`z = 0`. -/
noncomputable def StartRay.launch (w : StartRay) (n0 pos : ℝ) : Ray :=
  let c := √(1 + w.u.1 ^ 2 + w.u.2 ^ 2)
  ⟨some ⟨w.x.1 - pos * w.u.1, w.x.2 - pos * w.u.2, 0⟩, some ⟨w.u.1 / c, w.u.2 / c, 1 / c⟩, n0⟩

/-- Specification: its optical path from the plane `z = 0` to the plane `z = pos`. -/
noncomputable def StartRay.lead (w : StartRay) (n0 pos : ℝ) : ℝ :=
  n0 * pos * √(1 + w.u.1 ^ 2 + w.u.2 ^ 2)

theorem start_products (K : Ctx 3 m tb abi) (hm : 2 ≤ m) (n0 pos : ℝ) :
    Products m tb (startState n0 pos) := by
  obtain ⟨c1, c2, c3, c4, c5, c6, c7, c8⟩ := start_classes K hm n0 pos
  refine ⟨start_onAxis n0 pos, ?_, ?_, ?_⟩
  · rw [c1, c4, c5]; simp only [form]; ring
  · rw [c3, c4, c5, c6, c7]; simp only [form]; ring
  · rw [c2, c6, c7]; simp only [form]; ring

theorem start_line (K : Ctx 3 m tb abi) (hm : 2 ≤ m) (n0 pos : ℝ) (w : StartRay) :
    Line m tb abi ![w.x.1, w.x.2] ![w.u.1, w.u.2] 1 (fun t => (w.scale t).launch n0 pos)
      (fun t => -(w.scale t).lead n0 pos) (startState n0 pos) := by
  obtain ⟨c1, c2, c3, c4, c5, c6, c7, c8⟩ := start_classes K hm n0 pos
  have hm0 : 0 < m := by omega
  set c : ℝ → ℝ := fun t => √(1 + (t * w.u.1) ^ 2 + (t * w.u.2) ^ 2) with hc
  have hpos : ∀ t, 0 < 1 + (t * w.u.1) ^ 2 + (t * w.u.2) ^ 2 := fun t => by positivity
  have hc0 : ∀ t, 0 < c t := fun t => Real.sqrt_pos.mpr (hpos t)
  have hcc : ∀ t, c t ^ 2 = 1 + (t * w.u.1) ^ 2 + (t * w.u.2) ^ 2 := fun t => Real.sq_sqrt (hpos t).le
  have h10 : c 0 = 1 := by simp [hc]
  have hlin : ∀ k : ℝ, HasDerivAt (fun t : ℝ => t * k) k 0 := fun k => by
    simpa using (hasDerivAt_id (0 : ℝ)).mul_const k
  have hcd : HasDerivAt c 0 0 := by
    have h1 : HasDerivAt (fun t : ℝ => 1 + (t * w.u.1) ^ 2 + (t * w.u.2) ^ 2) 0 0 := by
      have := (((hlin w.u.1).fun_pow 2).const_add 1).fun_add ((hlin w.u.2).fun_pow 2)
      simpa using this
    have := h1.sqrt (by simp)
    simpa using this
  have hunit : ∀ t, (⟨t * w.u.1 / c t, t * w.u.2 / c t, 1 / c t⟩ : V3).norm = 1 := fun t => by
    apply V3.norm_eq_one
    simp only [V3.dot]
    have := hc0 t
    field_simp
    linear_combination -hcc t
  have hU : HasD (fun t => (⟨t * w.u.1 / c t, t * w.u.2 / c t, 1 / c t⟩ : V3)) ⟨0, 0, 1⟩ ⟨w.u.1, w.u.2, 0⟩ := by
    refine ⟨by ext <;> simp [h10], ?_, ?_, ?_⟩
    · simpa [h10] using (hlin w.u.1).fun_div hcd (by rw [h10]; norm_num)
    · simpa [h10] using (hlin w.u.2).fun_div hcd (by rw [h10]; norm_num)
    · simpa [h10] using (hasDerivAt_const (0 : ℝ) (1 : ℝ)).fun_div hcd (by rw [h10]; norm_num)
  have hsl : ∀ t b, tr (⟨t * w.u.1 / c t, t * w.u.2 / c t, 1 / c t⟩ : V3) b / (1 / c t)
      = comb ![w.x.1, w.x.2] ![w.u.1, w.u.2] t 0 1 b := by
    intro t b
    have := (hc0 t).ne'
    fin_cases b <;> simp [tr, comb] <;> field_simp
  have hV : Tay (m := m) (vars3 ![w.x.1, w.x.2] ![w.u.1, w.u.2]) (fun _ => 0) 0 := (Tay.const 0).congr κ_zero
  obtain ⟨-, -, -, -, -, hsq⟩ := tay_cos K hm0 (p := (startState n0 pos).p) (one_mul 1)
    (start_onAxis n0 pos).2.1 (v := 0) (w := 1) (by rw [c2]; simp only [form]; ring) hU
    (.of_forall hunit) hV Tay.one (.of_forall hsl)
  refine ⟨fun t => ⟨t * w.x.1 - pos * (t * w.u.1), t * w.x.2 - pos * (t * w.u.2), 0⟩,
    fun t => ⟨t * w.u.1 / c t, t * w.u.2 / c t, 1 / c t⟩, ⟨w.x.1 - pos * w.u.1, w.x.2 - pos * w.u.2, 0⟩,
    ⟨w.u.1, w.u.2, 0⟩, fun _ => 1, fun _ => -pos, fun _ => 0, fun _ => 1, .of_forall fun t => rfl,
    ⟨by ext <;> simp, (hlin _).sub ((hlin _).const_mul pos), (hlin _).sub ((hlin _).const_mul pos),
      hasDerivAt_const _ _⟩, hU, .of_forall hunit, ?_, ?_, ?_, ?_, ?_, ?_⟩
  · rw [c4, c6, mul_zero, sub_zero]; exact Tay.one
  · rw [c5, c7, c8, mul_one, zero_sub, ← κ_neg]; exact Tay.const _
  · rw [c6]; exact (Tay.const 0).congr κ_zero
  · rw [c7]; exact Tay.one
  · have e0 : cls 3 m tb (startState n0 pos).o = 0 := cls_zero
    rw [e0, c8]
    refine ((((Tay.const 0).congr κ_zero).sub ((Tay.const (n0 * pos)).mul hm0 hsq)).congr ?_).of_eventuallyEq
      (.of_forall fun t => ?_)
    · rw [κ_mul]; rfl
    · have := (hc0 t).ne'
      simp only [StartRay.lead, StartRay.scale]
      change 0 - n0 * pos * (1 / (1 * (1 / c t))) = -(n0 * pos * c t) - n0 * 0 * (1 / (1 * (1 / c t)))
      field_simp
      ring
  · refine .of_forall fun t b => ?_
    rw [hsl t b]
    refine ⟨?_, rfl⟩
    fin_cases b <;> simp [tr, comb] <;> ring

theorem vars_scale (w : StartRay) (t : ℝ) : (w.scale t).vars
    = List.ofFn fun i => t ^ 2 * vars3 ![w.x.1, w.x.2] ![w.u.1, w.u.2] i := by
  simp [StartRay.vars, StartRay.scale, vars3, dot2, List.ofFn_succ]
  refine ⟨?_, ?_, ?_⟩ <;> ring

/-- Evaluating the coefficients of a polynomial approximates the function it stands for. -/
theorem tay_eval (K : Ctx 3 m tb abi) (hm : 2 ≤ m) {w : StartRay} {f : ℝ → ℝ} {b : Co}
    (h : Tay (vars3 ![w.x.1, w.x.2] ![w.u.1, w.u.2]) f (cls 3 m tb b)) :
    ∃ g : ℝ → ℝ, (∀ t, Simplex.eval tb.jdx b (w.scale t).vars = some (g t)) ∧
      (fun t => f t - g t) =O[𝓝 0] fun t => t ^ (2 * m) := by
  refine ⟨fun t => ev (vars3 ![w.x.1, w.x.2] ![w.u.1, w.u.2]) t (toPoly 3 tb.jdx b), fun t => ?_,
    tay_mk.mp h⟩
  rw [vars_scale, eval_spec K.good hm]
  rfl

theorem isO_comb {f g : ℝ → ℝ} (c : ℝ) (h : (fun t => f t - g t) =O[𝓝 0] fun t => t ^ (2 * m)) :
    (fun t => f t * (t * c) - g t * (t * c)) =O[𝓝 0] fun t => t ^ (2 * m + 1) := by
  have h1 : (fun t : ℝ => t * c) =O[𝓝 0] fun t => t :=
    (isBigO_refl (fun t : ℝ => t) (𝓝 0)).mul (isBigO_const_const c one_ne_zero (𝓝 0)) |>.congr_right
      fun t => mul_one t
  refine (h.mul h1).congr (fun t => ?_) fun t => ?_
  · ring
  · ring

/-- C83: the polynomials of `PolyTrace` are the Taylor polynomials of the traced rays. For elements along
the axis (turned over after every mirror) that are spheres, planes, or planes with at least `m - 1`
aspheric coefficients, and for rays with height `t x` in the start plane and slope `t U`: at every
element the evaluated polynomials give the point of the ray and its slope up to an error of order
`2 m + 1` in `t`, and the sag and the optical path up to an error of order `2 m`. The path counts as
negative where the ray travels against the axis. -/
theorem c83_taylor (K : Ctx 3 m tb abi) (hm : 2 ≤ m) (nwt : NewtonFn) (l n0 pos : ℝ) (clp : Bool)
    (es : List Elem) (hg : FittedFrom (2 * m) nwt l n0 1 es) (hp : ∀ e ∈ es, Plain m e ∧ e.shape ≠ none)
    (w : StartRay) (j : ℕ) (e : Elem) (hj : es[j]? = some e) :
    ∃ st, tracePoly abi m l (startState n0 pos) (es.take (j + 1)) = some st ∧
      ∃ (Y U : ℝ → V3) (y v : ℝ → ℝ × ℝ) (z o : ℝ → ℝ),
        (∀ᶠ t in 𝓝 0, (rows nwt l clp es ((w.scale t).launch n0 pos))[j]?.map (rayOfRow e)
          = some ⟨some (Y t), some (U t), st.n⟩) ∧
        (∀ᶠ t in 𝓝 0, (U t).z ≠ 0) ∧
        (∀ t, rayPoint tb.jdx st.s st.t (w.scale t) = some (y t)) ∧
        (∀ t, rayPoint tb.jdx st.v st.w (w.scale t) = some (v t)) ∧
        (∀ t, Simplex.eval tb.jdx st.f (w.scale t).vars = some (z t)) ∧
        (∀ t, Simplex.eval tb.jdx st.o (w.scale t).vars = some (o t)) ∧
        ((fun t => (Y t).x - (y t).1) =O[𝓝 0] fun t => t ^ (2 * m + 1)) ∧
        ((fun t => (Y t).y - (y t).2) =O[𝓝 0] fun t => t ^ (2 * m + 1)) ∧
        ((fun t => (U t).x / (U t).z - (v t).1) =O[𝓝 0] fun t => t ^ (2 * m + 1)) ∧
        ((fun t => (U t).y / (U t).z - (v t).2) =O[𝓝 0] fun t => t ^ (2 * m + 1)) ∧
        ((fun t => (Y t).z - z t) =O[𝓝 0] fun t => t ^ (2 * m)) ∧
        (fun t => signedPath 1 es (rows nwt l clp es ((w.scale t).launch n0 pos)) j
          - (w.scale t).lead n0 pos - o t) =O[𝓝 0] fun t => t ^ (2 * m) := by
  obtain ⟨st, hst, row, hrow, Y, U, Y', U', S, T, V, W, h1, h2, h3, h4, hS, hT, hV, hW, hZ, hP, h5⟩ :=
    meets_system K (by omega : 0 < m) nwt l clp es ![w.x.1, w.x.2] ![w.u.1, w.u.2] 1 (startState n0 pos)
      (fun t => (w.scale t).launch n0 pos) (fun t => -(w.scale t).lead n0 pos) hg hp
      (start_products K hm n0 pos) (start_line K hm n0 pos w) j e hj
  obtain ⟨gs, es, bs⟩ := tay_eval K hm hS
  obtain ⟨gt, et, bt⟩ := tay_eval K hm hT
  obtain ⟨gv, ev, bv⟩ := tay_eval K hm hV
  obtain ⟨gw, ew, bw⟩ := tay_eval K hm hW
  obtain ⟨gf, ef, bf⟩ := tay_eval K hm hZ
  obtain ⟨go, eo, bo⟩ := tay_eval K hm hP
  have key : ∀ {A B a b : ℝ → ℝ} {f : ℝ → ℝ} (i : Fin 2),
      (fun t => A t - a t) =O[𝓝 0] (fun t => t ^ (2 * m)) →
      (fun t => B t - b t) =O[𝓝 0] (fun t => t ^ (2 * m)) →
      (∀ᶠ t in 𝓝 0, f t = comb ![w.x.1, w.x.2] ![w.u.1, w.u.2] t (A t) (B t) i) →
      (fun t => f t - (a t * (t * ![w.x.1, w.x.2] i) + b t * (t * ![w.u.1, w.u.2] i)))
        =O[𝓝 0] fun t => t ^ (2 * m + 1) := by
    intro A B a b f i hA hB hf
    refine ((isO_comb (![w.x.1, w.x.2] i) hA).add (isO_comb (![w.u.1, w.u.2] i) hB)).congr' ?_ .rfl
    filter_upwards [hf] with t ht
    rw [ht]
    simp only [comb]
    ring
  refine ⟨st, hst, Y, U,
    fun t => (gs t * (t * w.x.1) + gt t * (t * w.u.1), gs t * (t * w.x.2) + gt t * (t * w.u.2)),
    fun t => (gv t * (t * w.x.1) + gw t * (t * w.u.1), gv t * (t * w.x.2) + gw t * (t * w.u.2)), gf, go,
    ?_, ?_, ?_, ?_, ef, eo, ?_, ?_, ?_, ?_, bf, ?_⟩
  · filter_upwards [h1] with t ht
    rw [hrow t, Option.map_some, ht]
  · refine h3.contZ.eventually_ne (y := 0) ?_
    rw [h3.at0]
    intro h0
    have h4' := h4.self_of_nhds
    rw [h3.at0] at h4'
    simp only at h0
    rw [h0] at h4'
    simp [V3.norm, V3.dot] at h4'
  · intro t
    unfold rayPoint
    rw [es, et]
    rfl
  · intro t
    unfold rayPoint
    rw [ev, ew]
    rfl
  · exact key 0 bs bt (h5.mono fun t ht => (ht 0).1)
  · exact key 1 bs bt (h5.mono fun t ht => (ht 1).1)
  · exact key 0 bv bw (h5.mono fun t ht => (ht 0).2)
  · exact key 1 bv bw (h5.mono fun t ht => (ht 1).2)
  · refine bo.congr_left fun t => ?_
    ring

theorem sideAt_no_mirror {es : List Elem} (h : ∀ e ∈ es, e.mat.any (·.mirror) = false) (j : ℕ) :
    sideAt 1 es j = 1 := by
  induction es generalizing j with
  | nil => cases j <;> rfl
  | cons e es ih =>
    cases j with
    | zero => rfl
    | succ j =>
      have : sideAfter 1 e = 1 := if_neg (by simp [h e (by simp)])
      simp only [sideAt, this]
      exact ih (fun e he => h e (by simp [he])) j

/-- C83: without mirrors the polynomial `o` is the optical path, the sum of the path lengths of
`GeometricTrace.t`. -/
theorem c83_path {es : List Elem} (h : ∀ e ∈ es, e.mat.any (·.mirror) = false) (rs : List Row) (j : ℕ) :
    signedPath 1 es rs j = ∑ i ∈ Finset.range (j + 1), (rs[i]?.bind (·.t)).getD 0 := by
  unfold signedPath
  simp only [sideAt_no_mirror h, one_mul]

/-- C83, violated behind mirrors: `GeometricTrace.t` of the ray along the axis is positive, index times
distance, while `o` shrinks by as much. -/
theorem c83_path_violation (K : Ctx 3 m tb abi) (hm : 0 < m) (nwt : NewtonFn) (l : ℝ) (clp : Bool)
    (e : Elem) (st st' : PolyState) (hg : RayOpt.Good nwt l st.n (-1) e) (hp : Plain m e)
    (hst : stepPoly abi m l st e = some st') (h0 : Poly.OnAxis st) (hf : st.f 0 = 0) :
    st'.o 0 = st.o 0 - st.n * e.tf.distance ∧
    (step nwt l clp e ⟨some 0, some ⟨0, 0, -1⟩, st.n⟩).1.t = some (st.n * e.tf.distance) := by
  obtain ⟨sh, hsh, hst'⟩ := Option.map_eq_some_iff.mp hst
  obtain ⟨hr0, hp0, hk0⟩ := h0
  have hdz : e.tf.offset.z = -e.tf.distance := by rw [hg.axis.off]; ring
  constructor
  · obtain ⟨t1, t2⟩ := transfer_const K e.tf.offset.z st hr0 hp0 hk0
    have hsimple : Simple sh e.tf.offset.z := by
      rcases hp sh hsh with ⟨h, -⟩ | ⟨h, -⟩
      · exact .inr (.inl h)
      · exact .inl (by rw [h, zero_mul])
    have hi := intercept_good K sh e.tf.offset.z hsimple t1 hp0 t2
    obtain ⟨-, -, -, -, s5, s6, -⟩ := refract_spec K _ e.tf.offset.z (Elem.getNMu e.mat st.n l).1
      (Elem.getNMu e.mat st.n l).2 st hp0 hr0 hk0 hi (st' := st') (by rw [← hst']; rfl) rfl
    have p10 : (shift st.p 1) 0 = 1 := by rw [shift_const, hp0, zero_add]
    have := congrArg (lc 0 0) s5
    rw [lc_cls _ K, lc_add _ hm, lc_cls _ K, lc_mul_zero _ hm, lc_κ _ hm, lc_mul_zero _ hm, lc_sub _ hm,
      lc_add _ hm, lc_κ _ hm, lc_cls _ K, lc_cls _ K, lc_cls _ K, pow_const K _ p10, hf, s6, hi.f0, hdz] at this
    rw [this]
    simp
    ring
  · obtain ⟨Y2, U2, Y2', U2', T, G, -, hY2, -, -, -, -, hev⟩ := surface_step 0 nwt l st.n (-1) clp e sh
      (fun _ => ⟨some 0, some ⟨0, 0, -1⟩, st.n⟩) (Y := fun _ => 0) (U := fun _ => ⟨0, 0, -1⟩) (Y' := 0)
      (U' := 0) (hg.sharp 0) hsh (.of_forall fun _ => rfl)
      ⟨rfl, hasDerivAt_const _ _, hasDerivAt_const _ _, hasDerivAt_const _ _⟩
      ⟨rfl, hasDerivAt_const _ _, hasDerivAt_const _ _, hasDerivAt_const _ _⟩
      (.of_forall fun _ => V3.norm_eq_one (by simp [V3.dot]))
    obtain ⟨h1, h2, -⟩ := hev.self_of_nhds
    rw [h2, mul_comm]
    have h3 := congrArg V3.z h1
    rw [hY2.at0] at h3
    simp [hdz] at h3
    rw [show T 0 = e.tf.distance by linarith]

/-! ### Examples -/

/-- A spherical surface into glass, a curved mirror behind it in air, and an image plane in front of the
mirror. -/
noncomputable def exMirror : List Elem :=
  [{ tf := Transform.update 10 ⟨0, 0, 1⟩ 0, radius := .inf,
     material := some (some ⟨false, true, fun _ => 3 / 2⟩), shape := some ⟨1 / 50, 0, none, false⟩ },
   { tf := Transform.update 4 ⟨0, 0, 1⟩ 0, radius := .inf,
     material := some (some ⟨false, true, fun _ => 1⟩), shape := some ⟨0, 0, none, false⟩ },
   { tf := Transform.update 20 ⟨0, 0, 1⟩ 0, radius := .inf,
     material := some (some ⟨true, false, fun _ => 1⟩), shape := some ⟨-1 / 100, 0, none, false⟩ },
   { tf := Transform.update 15 ⟨0, 0, -1⟩ 0, radius := .inf,
     material := some (some ⟨false, true, fun _ => 1⟩), shape := some ⟨0, 0, none, false⟩ }]

theorem exMirror_good (nwt : NewtonFn) : GoodFrom nwt 1 1 1 exMirror := by
  have h1 : ∀ e : Elem, e.mat.any (·.mirror) = false → sideAfter 1 e = 1 := by
    intro e h; exact if_neg (by simp [h])
  have h2 : ∀ e : Elem, e.shape.isSome → e.mat.any (·.mirror) = true → sideAfter 1 e = -1 := by
    intro e h h'; exact if_pos ⟨h, h'⟩
  refine ⟨?_, ?_, ?_, ?_, trivial⟩
  · exact good_conic (.inl rfl) (by norm_num) one_pos trivial (by norm_num) (by simp) (by norm_num)
  · rw [h1 _ (by simp [mat])]
    exact good_conic (.inl rfl) (by norm_num) (by norm_num [paraxN, index?, mat])
      trivial (by norm_num) (by simp) (.inl rfl)
  · rw [h1 _ (by simp [mat]), h1 _ (by simp [mat])]
    exact good_conic (.inl rfl) (by norm_num) (by norm_num [paraxN, index?, mat])
      trivial (by norm_num) (by simp [paraxN, index?, mat]) (by norm_num)
  · rw [h1 _ (by simp [mat]), h1 _ (by simp [mat]), h2 _ (by simp) (by simp [mat])]
    exact good_conic (.inr rfl) (by norm_num) (by norm_num [paraxN, index?, mat])
      trivial (by norm_num) (by simp) (.inl rfl)

theorem exMirror_plain (m : ℕ) : ∀ e ∈ exMirror, Plain m e ∧ e.shape ≠ none := by
  intro e he
  simp only [exMirror, List.mem_cons, List.not_mem_nil, or_false] at he
  have hd : ∀ (d : ℝ) (v a : V3), 0 < d → (Transform.update d v a).distance = d := by
    intro d v a h
    unfold Transform.update
    dsimp only
    split <;> exact if_neg (not_lt.mpr h.le)
  rcases he with rfl | rfl | rfl | rfl <;>
    exact ⟨fun sh h => by cases h; exact .inl ⟨rfl, by norm_num [hd]⟩, by simp⟩

/-- The hypotheses of `c83_taylor` hold for this system: the point in the image plane up to ninth
order, for every ray. -/
example (nwt : NewtonFn) (w : StartRay) : ∃ tb abi, Ctx 3 4 tb abi ∧
    ∃ st, tracePoly abi 4 1 (startState 1 3) exMirror = some st ∧ ∃ (Y U : ℝ → V3) (y : ℝ → ℝ × ℝ),
      (∀ᶠ t in 𝓝 0, (rows nwt 1 true exMirror ((w.scale t).launch 1 3))[3]?.map (rayOfRow exMirror[3])
        = some ⟨some (Y t), some (U t), st.n⟩) ∧
      (∀ t, rayPoint tb.jdx st.s st.t (w.scale t) = some (y t)) ∧
      (fun t => (Y t).x - (y t).1) =O[𝓝 0] fun t => t ^ 9 := by
  have hf : Fits 3 4 := ⟨by norm_num, by norm_num, by decide +kernel⟩
  obtain ⟨tb, abi, h, -⟩ := c45_three_variables 4 hf
  have K : Ctx 3 4 tb abi := ⟨hf, h⟩
  obtain ⟨st, h1, Y, U, y, v, z, o, h2, -, h3, -, -, -, h4, -⟩ := c83_taylor K (by norm_num) nwt 1 1 3 true
    exMirror ((exMirror_good nwt).sharp _) (exMirror_plain 4) w 3 _ rfl
  exact ⟨tb, abi, K, st, h1, Y, U, y, h2, h3, h4⟩

/-- The hypotheses of `c83_path_violation` hold for the image plane behind the mirror. -/
example (nwt : NewtonFn) (sideN : ℝ) (hn : 0 < sideN) : RayOpt.Good nwt 1 sideN (-1) exMirror[3] :=
  good_conic (.inr rfl) (by norm_num) hn trivial (by norm_num) (by simp) (.inl rfl)

/-- A root finder that is exact for quadratic functions. -/
noncomputable def quadSolver : NewtonFn := fun f _ _ =>
  (f 0).bind fun c => (f 1).bind fun p => (f (-1)).map fun q =>
    -2 * c / ((p - q) / 2 + √(((p - q) / 2) ^ 2 - 4 * ((p + q) / 2 - c) * c))

/-- It meets the specification for paraboloids given by an aspheric coefficient. -/
theorem paraboloid_hit (a d : ℝ) (k : ℝ) (n : ℕ) :
    AxialHit quadSolver ⟨0, k, some (a :: List.replicate n 0), false⟩ ⟨0, 0, 1⟩ d := by
  intro Y U Y' U' hY hU hunit
  have hrep : ∀ r, aspSag r (a :: List.replicate n 0) = a * r := by
    intro r
    rw [aspSag_range, List.length_cons, Finset.sum_range_succ']
    simp
  have hsag : ∀ p : V3, surfaceSag ⟨0, k, some (a :: List.replicate n 0), false⟩ p
      = some (p.z - a * (p.x ^ 2 + p.y ^ 2)) := by
    intro p
    simp [surfaceSag, hrep, rsq, pow_two]
  set A : ℝ → ℝ := fun t => -a * ((U t).x ^ 2 + (U t).y ^ 2) with hA
  set B : ℝ → ℝ := fun t => (U t).z - 2 * a * ((Y t).x * (U t).x + (Y t).y * (U t).y) with hB
  set C : ℝ → ℝ := fun t => (Y t).z - a * ((Y t).x ^ 2 + (Y t).y ^ 2) with hC
  have dA : ∃ D, HasDerivAt A D 0 := ⟨_, ((hU.x.fun_pow 2).fun_add (hU.y.fun_pow 2)).const_mul (-a)⟩
  have dB : ∃ D, HasDerivAt B D 0 :=
    ⟨_, hU.z.fun_sub (((hY.x.fun_mul hU.x).fun_add (hY.y.fun_mul hU.y)).const_mul (2 * a))⟩
  have dC : ∃ D, HasDerivAt C D 0 := ⟨_, hY.z.fun_sub (((hY.x.fun_pow 2).fun_add (hY.y.fun_pow 2)).const_mul a)⟩
  obtain ⟨A', dA⟩ := dA
  obtain ⟨B', dB⟩ := dB
  obtain ⟨C', dC⟩ := dC
  have A0 : A 0 = 0 := by simp [hA, hU.at0]
  have B0 : B 0 = 1 := by simp [hB, hU.at0]
  have C0 : C 0 = -d := by simp [hC, hY.at0]
  have dD : HasDerivAt (fun t => B t ^ 2 - 4 * A t * C t) _ 0 :=
    (dB.fun_pow 2).fun_sub ((dA.const_mul 4).fun_mul dC)
  have D0 : B 0 ^ 2 - 4 * A 0 * C 0 = 1 := by rw [A0, B0]; ring
  have dS : HasDerivAt (fun t => √(B t ^ 2 - 4 * A t * C t)) _ 0 := dD.sqrt (by rw [D0]; norm_num)
  have dQ : HasDerivAt (fun t => B t + √(B t ^ 2 - 4 * A t * C t)) _ 0 := dB.fun_add dS
  have Q0 : B 0 + √(B 0 ^ 2 - 4 * A 0 * C 0) = 2 := by rw [D0, B0]; norm_num
  have hQ := dQ.continuousAt.eventually_ne (y := 0) (by beta_reduce; rw [Q0]; norm_num)
  have hD : ∀ᶠ t in 𝓝 0, 0 < B t ^ 2 - 4 * A t * C t :=
    dD.continuousAt.eventually (lt_mem_nhds (by beta_reduce; rw [D0]; norm_num))
  refine ⟨fun t => -2 * C t / (B t + √(B t ^ 2 - 4 * A t * C t)), _, ?_,
    (dC.const_mul (-2)).fun_div dQ (by rw [Q0]; norm_num), ?_, ?_⟩
  · filter_upwards [hU.contZ.eventually_ne (y := 0) (by rw [hU.at0]; norm_num)] with t ht
    have e1 : ((Y t + (1 : ℝ) • U t).z - a * ((Y t + (1 : ℝ) • U t).x ^ 2 + (Y t + (1 : ℝ) • U t).y ^ 2)
        - ((Y t + (-1 : ℝ) • U t).z - a * ((Y t + (-1 : ℝ) • U t).x ^ 2 + (Y t + (-1 : ℝ) • U t).y ^ 2))) / 2
        = B t := by simp [hB]; ring
    have e2 : ((Y t + (1 : ℝ) • U t).z - a * ((Y t + (1 : ℝ) • U t).x ^ 2 + (Y t + (1 : ℝ) • U t).y ^ 2)
        + ((Y t + (-1 : ℝ) • U t).z - a * ((Y t + (-1 : ℝ) • U t).x ^ 2 + (Y t + (-1 : ℝ) • U t).y ^ 2))) / 2
        - C t = A t := by simp [hA, hC]; ring
    have e3 : (Y t + (0 : ℝ) • U t).z - a * ((Y t + (0 : ℝ) • U t).x ^ 2 + (Y t + (0 : ℝ) • U t).y ^ 2) = C t := by
      simp [hC]
    simp only [Shape.intercept, interceptNewton, interceptPlane, ht, if_false, Option.bind_some, quadSolver, hsag,
      Option.map_some]
    rw [e3, e2, e1]
  · beta_reduce
    rw [Q0, C0]; ring
  · filter_upwards [hQ, hD] with t h1 h2
    rw [hsag]
    have hsq := Real.sq_sqrt h2.le
    set S := √(B t ^ 2 - 4 * A t * C t)
    have key : A t * (-2 * C t / (B t + S)) ^ 2 + B t * (-2 * C t / (B t + S)) + C t = 0 := by
      field_simp
      linear_combination C t * hsq
    rw [← key]
    generalize -2 * C t / (B t + S) = τ
    simp [hA, hB, hC]
    ring

/-- An aspheric plate meets the hypotheses of `c83_taylor` as well. -/
example : RayOpt.Good quadSolver 1 1 1
    { tf := Transform.update 2 ⟨0, 0, 1⟩ 0, radius := .inf,
      material := some (some ⟨false, true, fun _ => 3 / 2⟩),
      shape := some ⟨0, 0, some (-1 / 20 :: List.replicate 2 0), false⟩ } := by
  refine Good.of (onAxis_update 2 1 (by norm_num) (.inl rfl)) one_pos trivial ?_ ?_ ?_ ?_
  · intro sh h; cases h; exact paraboloid_hit _ _ _ _
  · intro sh h; cases h; simp [paraxCurv]
  · intro m' h; cases h; norm_num
  · intro m' h; cases h; simp

/-- A plane with aspheric terms. -/
example : Plain 4 (exSurf 2 0 (some [-1 / 20, 1 / 100, 0]) (some exGlass)) := by
  intro sh h
  cases h
  exact .inr ⟨rfl, by norm_num [exSurf], _, _, rfl, by simp⟩

end

end RayOpt.Poly
