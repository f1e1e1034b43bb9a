import Verif.Props.Seidel
import Verif.Props.FirstOrderExamples

/-!
C67, continued: the classical forms of the Seidel coefficients, stop shifts, the fourth-order figure,
the chromatic coefficients, and examples.
-/

namespace RayOpt

open V3 Shape Filter Topology Matrix Parax Sys Elem PTrace

/-- C67, the classical Seidel sums: `2 L` times the coefficients are
`-A² y Δ(u/n) + 8 K y⁴ Δn` and its relatives, with the refraction invariants `A` of the two rays and
`ν` the index behind the surface (negative behind a mirror). -/
theorem c67_textbook {e : Elem} {sh : Shape} {y u0 u : Fin 2 → ℝ} {n0 n v0 v ν C K L D D' A0 A1 : ℝ}
    {c : Seidel} (hc : e.aberration y u0 u n0 n v0 v = some c) (hsh : e.shape = some sh)
    (hfig : sh.figure = some (C, K)) (hν : ν = if e.mat.any (·.mirror) then -n else n)
    (hu : ∀ k, u k = u0 k - (ν - n0) * C * y k) (hL : L = u0 0 * y 1 - u0 1 * y 0)
    (hA0 : A0 = n0 * C * y 0 + u0 0) (hA1 : A1 = n0 * C * y 1 + u0 1)
    (hD : D = u 0 / ν ^ 2 - u0 0 / n0 ^ 2) (hD' : D' = 1 / ν - 1 / n0) :
    2 * L * c.tsc = -A0 ^ 2 * y 0 * D + 8 * K * (ν - n0) * y 0 ^ 4 ∧
    2 * L * c.cc = -A0 * A1 * y 0 * D + 8 * K * (ν - n0) * y 0 ^ 3 * y 1 ∧
    2 * L * c.tac = -A1 ^ 2 * y 0 * D + 8 * K * (ν - n0) * y 0 ^ 2 * y 1 ^ 2 ∧
    2 * L * c.tpc = -L ^ 2 * C * D' ∧
    A0 * (2 * L * c.dc - 8 * K * (ν - n0) * y 0 * y 1 ^ 3)
      = A1 * (-A1 ^ 2 * y 0 * D - L ^ 2 * C * D') := by
  unfold Elem.aberration at hc
  simp only [hsh, hfig, Option.bind_some, ← hν] at hc
  split at hc
  · cases hc
  · rename_i hne
    push Not at hne
    obtain ⟨hn0, hν0, hl⟩ := hne
    cases hc
    have hL' : u 0 * y 1 - u 1 * y 0 = L := by rw [hu 0, hu 1, hL]; ring
    rw [hL'] at hl ⊢
    have h0 := hu 0
    have h1 := hu 1
    refine ⟨?_, ?_, ?_, ?_, ?_⟩
    · simp only [hA0, hD, h0]; field_simp; ring
    · simp only [hA0, hA1, hD, h0]; field_simp; ring
    · simp only [hA1, hD, h0]; field_simp; ring
    · simp only [hD']; field_simp
    · simp only [hA0, hA1, hD, hD', h0, h1]; field_simp; rw [hL]; ring

/-- C67, stop shift at one surface: adding `Q` times the marginal ray to the chief ray changes the
coefficients by the stop-shift formulas. -/
theorem c67_stop_shift {e : Elem} {y u0 u y' u0' u' : Fin 2 → ℝ} {n0 n v0 v Q : ℝ} {c c' : Seidel}
    (hc : e.aberration y u0 u n0 n v0 v = some c)
    (hc' : e.aberration y' u0' u' n0 n v0 v = some c')
    (hu : ∀ sh C K, e.shape = some sh → sh.figure = some (C, K) → ∀ k,
      u k = u0 k - ((if e.mat.any (·.mirror) then -n else n) - n0) * C * y k)
    (hy0 : y' 0 = y 0) (hy1 : y' 1 = y 1 + Q * y 0) (hu00 : u0' 0 = u0 0)
    (hu01 : u0' 1 = u0 1 + Q * u0 0) (huu0 : u' 0 = u 0) (huu1 : u' 1 = u 1 + Q * u 0) :
    c'.tsc = c.tsc ∧ c'.cc = c.cc + Q * c.tsc ∧ c'.tac = c.tac + 2 * Q * c.cc + Q ^ 2 * c.tsc ∧
    c'.tpc = c.tpc ∧
    c'.dc = c.dc + Q * (3 * c.tac + c.tpc) + 3 * Q ^ 2 * c.cc + Q ^ 3 * c.tsc ∧
    c'.tachc = c.tachc ∧ c'.tchc = c.tchc + Q * c.tachc := by
  unfold Elem.aberration at hc hc'
  cases hsh : e.shape with
  | none =>
    simp only [hsh, Option.some.injEq] at hc hc'
    rw [← hc, ← hc']
    simp
  | some sh =>
    simp only [hsh, Option.bind_eq_some_iff] at hc hc'
    obtain ⟨⟨C, K⟩, hfig, hc⟩ := hc
    obtain ⟨ck, hfig', hc'⟩ := hc'
    rw [hfig] at hfig'
    cases hfig'
    have hu' := hu sh C K hsh hfig
    set ν := if e.mat.any (·.mirror) then -n else n with hν
    simp only at hc hc'
    split at hc
    · cases hc
    · rename_i hne
      split at hc'
      · cases hc'
      · push Not at hne
        obtain ⟨hn0, hν0, hl⟩ := hne
        cases hc
        cases hc'
        have hL' : u' 0 * y' 1 - u' 1 * y' 0 = u 0 * y 1 - u 1 * y 0 := by
          rw [huu0, huu1, hy0, hy1]; ring
        rw [hL']
        have h0 := hu' 0
        have h1 := hu' 1
        have hL2 : u 0 * y 1 - u 1 * y 0 = u0 0 * y 1 - u0 1 * y 0 := by rw [h0, h1]; ring
        rw [hL2] at hl ⊢
        obtain ⟨L, hLd⟩ : ∃ L, u0 0 * y 1 - u0 1 * y 0 = L := ⟨_, rfl⟩
        rw [hLd] at hl ⊢
        refine ⟨?_, ?_, ?_, rfl, ?_, ?_, ?_⟩
        · simp only [hy0, hu00, huu0]
        · simp only [hy0, hy1, hu00, hu01, huu0]; field_simp; ring
        · simp only [hy0, hy1, hu00, hu01, huu0]; field_simp; ring
        · simp only [hy0, hy1, hu00, hu01, huu1, h0, h1]; field_simp; rw [← hLd]; ring
        · simp only [hy0, hu00]
        · simp only [hy0, hy1, hu01]; field_simp; ring

/-- C67, the two numbers taken from the shape: near the vertex the surface is
`z = C r²/2 + (C³/8 + K) r⁴`, so `K` is the departure from the sphere of curvature `C`. -/
theorem c67_figure {sh : Shape} {C K : ℝ} (h : sh.figure = some (C, K)) (P : ℝ → V3)
    (hP : ∀ᶠ t in 𝓝 0, sh.surfaceSag (P t) = some 0 ∧ rsq (P t) = t ^ 2) :
    (fun t => (P t).z - (C / 2 * t ^ 2 + (C ^ 3 / 8 + K) * t ^ 4)) =o[𝓝 0] fun t => t ^ 4 := by
  have hsq : Even2 (fun t : ℝ => t ^ 2) 0 1 := by
    refine (Asymptotics.isLittleO_zero _ _).congr_left fun t => ?_
    ring
  -- the sag is the square of the distance times `g`
  have main : ∀ g : ℝ → ℝ, HasDerivAt g (C ^ 3 / 8 + K) 0 → g 0 = C / 2 →
      (∀ ρ, sagFn sh ρ = ρ * g ρ) →
      (fun t => (P t).z - (C / 2 * t ^ 2 + (C ^ 3 / 8 + K) * t ^ 4)) =o[𝓝 0] fun t => t ^ 4 := by
    intro g hg g0 hs
    have h1 := hsq.comp hg
    have h2 := (Asymptotics.isBigO_refl (fun t : ℝ => t ^ 2) (𝓝 0)).mul_isLittleO h1
    refine (h2.congr_right fun t => by ring).congr' ?_ (EventuallyEq.refl _ _)
    filter_upwards [hP] with t ht
    rw [z_of_sag ht.1, add_zero, ht.2, hs, g0]
    ring
  have h1 := (hasDerivAt_const (0 : ℝ) sh.curvature).div
    ((root_deriv ((1 + sh.conic) * sh.curvature ^ 2)).const_add 1) (by simp)
  have h1' : HasDerivAt (fun ρ : ℝ => sh.curvature
      / (1 + √(1 - (1 + sh.conic) * sh.curvature ^ 2 * ρ))) ((1 + sh.conic) * sh.curvature ^ 3 / 8) 0 := by
    refine h1.congr_deriv ?_
    simp
    ring
  unfold figure at h
  rcases ha : sh.aspherics with _ | _ | ⟨a, _ | ⟨b, l⟩⟩
  · simp only [ha, Option.some.injEq, Prod.mk.injEq] at h
    refine main _ (h1'.congr_deriv ?_) ?_ fun ρ => ?_
    · rw [← h.1, ← h.2]; ring
    · simp; rw [← h.1]; ring
    · simp [sagFn, ha, aspSag]; ring
  · simp only [ha, Option.some.injEq, Prod.mk.injEq] at h
    refine main _ (h1'.congr_deriv ?_) ?_ fun ρ => ?_
    · rw [← h.1, ← h.2]; ring
    · simp; rw [← h.1]; ring
    · simp [sagFn, ha, aspSag]; ring
  · simp [ha] at h
  · simp only [ha, Option.some.injEq, Prod.mk.injEq] at h
    refine main (fun ρ => _ + (aspSag ρ (b :: l) + a))
      ((h1'.add ((aspSag_deriv b l).add_const a)).congr_deriv ?_) ?_ fun ρ => ?_
    · rw [← h.1, ← h.2]; ring
    · simp [aspSag_zero]; rw [← h.1]; ring
    · simp only [sagFn, ha, Option.getD_some]
      rw [show aspSag ρ (a :: b :: l) = (aspSag ρ (b :: l) + a) * ρ from rfl]
      ring

/-! ### Colour -/

/-- Specification: the element with the index of its material changed by `ε` times the difference
between the wavelengths `l1` and `l2`. -/
def Elem.tint (l1 l2 ε : ℝ) (e : Elem) : Elem :=
  { e with material := e.material.map (Option.map fun m =>
      ({ m with index := fun w => m.index w + ε * (m.index l1 - m.index l2) } : Material)) }

theorem tint_mat (l1 l2 ε : ℝ) (e : Elem) : (e.tint l1 l2 ε).mat = e.mat.map fun m =>
    ({ m with index := fun w => m.index w + ε * (m.index l1 - m.index l2) } : Material) := by
  unfold Elem.tint Elem.mat
  cases e.material <;> simp

/-- Specification: the elements whose dispersion `aberrations` follows correctly, for a medium of
dispersion `v` in front: refracting surfaces; anything between media without dispersion; a final
plane. -/
def Coloured (l1 l2 : ℝ) : ℝ → List Elem → Prop
  | _, [] => True
  | v, e :: es => ((e.shape.isSome ∧ ∃ m, e.mat = some m ∧ m.mirror = false) ∨
      (v = 0 ∧ ∀ m, e.mat = some m → m.index l1 = m.index l2) ∨
      (e.shape = none ∧ e.mat = none ∧ es = [])) ∧
      Coloured l1 l2 (e.dispersion l1 l2) es

/-- The dispersion of the medium behind an element. -/
noncomputable def trueDispersion (e : Elem) (l1 l2 v : ℝ) : ℝ :=
  match e.shape, e.mat with
  | some _, some m => m.index l1 - m.index l2
  | _, _ => v

theorem tint_paraxN (l1 l2 ε n v l : ℝ) (e : Elem) : (e.tint l1 l2 ε).paraxN (n + ε * v) l
    = e.paraxN n l + ε * trueDispersion e l1 l2 v := by
  unfold paraxN index? trueDispersion
  rw [tint_mat]
  have : (e.tint l1 l2 ε).shape = e.shape := rfl
  rw [this]
  cases e.shape <;> cases e.mat <;> simp

/-- The chromatic coefficients: of the marginal ray and of the chief ray. -/
def Seidel.colour (c : Seidel) : Fin 2 → ℝ := ![c.tachc, c.tchc]

theorem colour_step {nwt : NewtonFn} {l l1 l2 n s v : ℝ} {e : Elem} {a b : ℝ → PRow} {c : Seidel}
    {dy du : Fin 2 → ℝ} (hg : Fine nwt l n s e)
    (hok : (e.shape.isSome ∧ ∃ m, e.mat = some m ∧ m.mirror = false) ∨
      (v = 0 ∧ e.dispersion l1 l2 = 0) ∨ e.shape = none)
    (han : ∀ᶠ ε in 𝓝 0, (a ε).n = n + ε * v)
    (hstep : ∀ᶠ ε in 𝓝 0, ParaxStep l (e.tint l1 l2 ε) (a ε) (b ε))
    (hc : e.aberration (b 0).y (a 0).u (b 0).u (a 0).n (b 0).n v (e.dispersion l1 l2) = some c)
    (hy : ∀ k, HasDerivAt (fun ε => (a ε).y k) (dy k) 0)
    (hu : ∀ k, HasDerivAt (fun ε => (a ε).u k) (du k) 0) :
    ∃ dy' du' : Fin 2 → ℝ, (∀ᶠ ε in 𝓝 0, (b ε).n = e.paraxN n l + ε * trueDispersion e l1 l2 v) ∧
      (∀ k, HasDerivAt (fun ε => (b ε).y k) (dy' k) 0) ∧
      (∀ k, HasDerivAt (fun ε => (b ε).u k) (du' k) 0) ∧
      PTrace.lagrange (b 0) = PTrace.lagrange (a 0) ∧
      ∀ k, dy' k * (b 0).u 0
          - (du' k - (b 0).u k / e.paraxN n l * trueDispersion e l1 l2 v) * (b 0).y 0
        = dy k * (a 0).u 0 - (du k - (a 0).u k / n * v) * (a 0).y 0
          + PTrace.lagrange (a 0) * c.colour k := by
  have hn0 : n ≠ 0 := hg.pos.ne'
  have hbn : ∀ᶠ ε in 𝓝 0, (b ε).n = e.paraxN n l + ε * trueDispersion e l1 l2 v := by
    filter_upwards [han, hstep] with ε h1 h2
    rw [h2.1, h1, tint_paraxN]
  have ha0 : (a 0).n = n := by simpa using han.self_of_nhds
  have hb0 : (b 0).n = e.paraxN n l := by simpa using hbn.self_of_nhds
  -- the power
  have hpow : ∃ P dP, (∀ᶠ ε in 𝓝 0, ∀ k, (b ε).y k = (a ε).y k + e.tf.distance / (n + ε * v) * (a ε).u k ∧
      (b ε).u k = (a ε).u k + (P + ε * dP) * (b ε).y k) ∧
      ((dP = 0 ∧ (e.shape = none ∧ P = 0 ∨ v = 0 ∧ e.dispersion l1 l2 = 0)) ∨
        ∃ sh m C K, e.shape = some sh ∧ e.mat = some m ∧ m.mirror = false ∧
          sh.figure = some (C, K) ∧ P = C * (n - m.index l) ∧
          dP = C * (v - (m.index l1 - m.index l2))) := by
    cases hsh : e.shape with
    | none =>
      refine ⟨0, 0, ?_, .inl ⟨rfl, .inl ⟨rfl, rfl⟩⟩⟩
      filter_upwards [han, hstep] with ε h1 h2
      obtain ⟨_, P, hP, hk⟩ := h2
      have : (e.tint l1 l2 ε).shape = none := hsh
      simp only [uprightPower, this, Option.some.injEq] at hP
      subst hP
      intro k
      rw [h1] at hk
      obtain ⟨k1, k2⟩ := hk k
      exact ⟨k1, by rw [k2]; ring⟩
    | some sh =>
      obtain ⟨ck, hfig⟩ : ∃ ck, sh.figure = some ck := by
        unfold Elem.aberration at hc
        simp only [hsh, Option.bind_eq_some_iff] at hc
        obtain ⟨ck, h, -⟩ := hc
        exact ⟨ck, h⟩
      have hcC : sh.paraxCurv = some ck.1 := by
        have hc1 := hg.curv sh hsh
        unfold paraxCurv at hc1 ⊢
        unfold figure at hfig
        rcases hasp : sh.aspherics with _ | _ | ⟨x, _ | ⟨y, l⟩⟩ <;> simp_all
        · rw [← hfig]
        · rw [← hfig]
      have hpar : ∀ ε, uprightPower (e.tint l1 l2 ε) (n + ε * v) l = some (match e.mat with
          | none => 0
          | some m => if m.mirror then 2 * ck.1
            else ck.1 * ((n + ε * v) - (m.index l + ε * (m.index l1 - m.index l2)))) := by
        intro ε
        unfold uprightPower
        have : (e.tint l1 l2 ε).shape = some sh := hsh
        rw [this, tint_mat]
        simp only [hcC, Option.map_some]
        cases e.mat <;> simp
      have hall : ∀ᶠ ε in 𝓝 0, ∀ k, (b ε).y k = (a ε).y k + e.tf.distance / (n + ε * v) * (a ε).u k ∧
          (b ε).u k = (a ε).u k + (match e.mat with
          | none => 0
          | some m => if m.mirror then 2 * ck.1
            else ck.1 * ((n + ε * v) - (m.index l + ε * (m.index l1 - m.index l2)))) * (b ε).y k := by
        filter_upwards [han, hstep] with ε h1 h2
        obtain ⟨_, P, hP, hk⟩ := h2
        rw [h1, hpar] at hP
        cases hP
        rw [h1] at hk
        exact hk
      rcases hok with ⟨_, m, hm, hmir⟩ | hvv | h
      · refine ⟨ck.1 * (n - m.index l), ck.1 * (v - (m.index l1 - m.index l2)), ?_,
          .inr ⟨sh, m, ck.1, ck.2, rfl, hm, hmir, hfig, rfl, rfl⟩⟩
        filter_upwards [hall] with ε h k
        obtain ⟨h1, h2⟩ := h k
        refine ⟨h1, ?_⟩
        rw [h2]
        simp only [hm, hmir]
        simp only [Bool.false_eq_true, if_false]
        ring
      · cases hm : e.mat with
        | none =>
          refine ⟨0, 0, ?_, .inl ⟨rfl, .inr hvv⟩⟩
          filter_upwards [hall] with ε h k
          obtain ⟨h1, h2⟩ := h k
          refine ⟨h1, ?_⟩
          rw [h2, hm]; ring
        | some m =>
          have hd : m.index l1 - m.index l2 = 0 := by
            have := hvv.2
            simpa [dispersion, hsh, hm] using this
          refine ⟨if m.mirror then 2 * ck.1 else ck.1 * (n - m.index l), 0, ?_, .inl ⟨rfl, .inr hvv⟩⟩
          filter_upwards [hall] with ε h k
          obtain ⟨h1, h2⟩ := h k
          refine ⟨h1, ?_⟩
          rw [h2, hm]
          simp only [hd, hvv.1]
          split <;> ring
      · rw [hsh] at h; cases h
  obtain ⟨P, dP, hk, hcase⟩ := hpow
  -- derivatives
  have hnd : HasDerivAt (fun ε : ℝ => n + ε * v) v 0 := by
    simpa using ((hasDerivAt_id (0 : ℝ)).mul_const v).const_add n
  have hPd : HasDerivAt (fun ε : ℝ => P + ε * dP) dP 0 := by
    simpa using ((hasDerivAt_id (0 : ℝ)).mul_const dP).const_add P
  have hyd : ∀ k, HasDerivAt (fun ε => (b ε).y k)
      (dy k + e.tf.distance / n * (du k - (a 0).u k / n * v)) 0 := by
    intro k
    have h1 := (hy k).add (((hasDerivAt_const (0 : ℝ) e.tf.distance).div hnd (by simpa using hn0)).mul (hu k))
    refine (h1.congr_deriv ?_).congr_of_eventuallyEq ?_
    · simp
      field_simp
      ring
    · filter_upwards [hk] with ε h
      exact (h k).1
  have hud : ∀ k, HasDerivAt (fun ε => (b ε).u k)
      (du k + (dP * (b 0).y k + P * (dy k + e.tf.distance / n * (du k - (a 0).u k / n * v)))) 0 := by
    intro k
    have h1 := (hu k).add (hPd.mul (hyd k))
    refine (h1.congr_deriv ?_).congr_of_eventuallyEq ?_
    · simp
    · filter_upwards [hk] with ε h
      exact (h k).2
  have hk0 := hk.self_of_nhds
  simp only [zero_mul, add_zero] at hk0
  have hby : ∀ k, (b 0).y k = (a 0).y k + e.tf.distance / n * (a 0).u k := fun k => (hk0 k).1
  have hbu : ∀ k, (b 0).u k = (a 0).u k + P * (b 0).y k := fun k => (hk0 k).2
  refine ⟨_, _, hbn, hyd, hud, ?_, ?_⟩
  · unfold PTrace.lagrange
    rw [hbu, hbu, hby, hby]; ring
  · intro k
    have hL : PTrace.lagrange (a 0) = (a 0).u 0 * (b 0).y 1 - (a 0).u 1 * (b 0).y 0 := by
      unfold PTrace.lagrange; rw [hby, hby]; ring
    -- transfer leaves the quantity alone
    have htr : dy k * (a 0).u 0 - (du k - (a 0).u k / n * v) * (a 0).y 0
        = (dy k + e.tf.distance / n * (du k - (a 0).u k / n * v)) * (a 0).u 0
          - (du k - (a 0).u k / n * v) * (b 0).y 0 := by
      rw [hby 0]; ring
    rw [htr]
    obtain ⟨X, hX⟩ : ∃ X, X = dy k + e.tf.distance / n * (du k - (a 0).u k / n * v) := ⟨_, rfl⟩
    rw [← hX]
    rcases hcase with ⟨rfl, hz⟩ | ⟨sh, m, C, K, hsh, hm, hmir, hfig, rfl, rfl⟩
    · have hcol : c.colour k = 0 := by
        unfold Elem.aberration at hc
        cases hsh : e.shape with
        | none =>
          simp only [hsh, Option.some.injEq] at hc
          rw [← hc]; fin_cases k <;> simp [Seidel.colour]
        | some sh =>
          rcases hz with h | ⟨h1, h2⟩
          · rw [hsh] at h; cases h.1
          · simp only [hsh, Option.bind_eq_some_iff] at hc
            obtain ⟨ck, _, hc⟩ := hc
            simp only [Option.ite_none_left_eq_some, Option.some.injEq] at hc
            obtain ⟨_, rfl⟩ := hc
            fin_cases k <;> simp [Seidel.colour, h1, h2]
      rw [hcol, mul_zero, add_zero, hbu 0]
      rcases hz with ⟨h, e3⟩ | ⟨h1, h2⟩
      · have e1 : trueDispersion e l1 l2 v = v := by simp [trueDispersion, h]
        have e2 : e.paraxN n l = n := by simp [paraxN, index?, h]
        rw [e1, e2, hbu k, e3]; ring
      · have e1 : trueDispersion e l1 l2 v = 0 := by
          unfold trueDispersion
          unfold dispersion at h2
          cases hsh : e.shape <;> cases hm : e.mat <;> simp_all
        rw [e1, h1]; ring
    · have hT : trueDispersion e l1 l2 v = m.index l1 - m.index l2 := by simp [trueDispersion, hsh, hm]
      have hD : e.dispersion l1 l2 = m.index l1 - m.index l2 := by simp [dispersion, hsh, hm]
      have hN : e.paraxN n l = m.index l := by simp [paraxN, index?, hsh, hm]
      have hm0 : m.index l ≠ 0 := (hg.index m hm).ne'
      rw [hT, hN]
      rw [hD, ha0, hb0, hN] at hc
      unfold Elem.aberration at hc
      simp only [hsh, hfig, Option.bind_some, hm, Option.any_some, hmir] at hc
      simp only [Bool.false_eq_true, if_false] at hc
      split at hc
      · cases hc
      · rename_i hne
        push Not at hne
        cases hc
        have hL2 : (b 0).u 0 * (b 0).y 1 - (b 0).u 1 * (b 0).y 0 = PTrace.lagrange (a 0) := by
          rw [hL, hbu, hbu]; ring
        rw [hL2] at hne ⊢
        have hl := hne.2.2
        fin_cases k
        · simp only [Seidel.colour, Fin.zero_eta, cons_val_zero]
          have := hbu 0
          rw [this]
          field_simp
          ring
        · simp only [Seidel.colour, Fin.mk_one, cons_val_one, cons_val_fin_one]
          rw [hbu 0, hbu 1]
          field_simp
          ring

theorem flat_dispersion {e : Elem} {l1 l2 : ℝ} (h : ∀ m, e.mat = some m → m.index l1 = m.index l2) :
    e.dispersion l1 l2 = 0 := by
  unfold dispersion
  cases e.shape with
  | none => rfl
  | some sh =>
    cases hm : e.mat with
    | none => rfl
    | some m => simp [h m hm]

theorem colour_system {nwt : NewtonFn} {l l1 l2 : ℝ} (es : List Elem) :
    ∀ {n s v : ℝ} {a : ℝ → PRow} {rows' : ℝ → List PRow} {cs : List Seidel} {dy du : Fin 2 → ℝ},
    FineFrom nwt l n s es → Coloured l1 l2 v es → (∀ᶠ ε in 𝓝 0, (a ε).n = n + ε * v) →
    (∀ᶠ ε in 𝓝 0, (rows' ε).length = es.length) →
    (∀ᶠ ε in 𝓝 0, ∀ j e x y, es[j]? = some e → (a ε :: rows' ε)[j]? = some x →
      (a ε :: rows' ε)[j + 1]? = some y → ParaxStep l (e.tint l1 l2 ε) x y) →
    aberrationsFrom l1 l2 es (a 0) (rows' 0) v = some cs →
    (∀ k, HasDerivAt (fun ε => (a ε).y k) (dy k) 0) →
    (∀ k, HasDerivAt (fun ε => (a ε).u k) (du k) 0) →
    ∀ j, j < es.length → ∃ (b : ℝ → PRow) (dy' : Fin 2 → ℝ),
      (∀ᶠ ε in 𝓝 0, (rows' ε)[j]? = some (b ε)) ∧
      (∀ k, HasDerivAt (fun ε => (b ε).y k) (dy' k) 0) ∧
      PTrace.lagrange (b 0) = PTrace.lagrange (a 0) ∧
      ((b 0).y 0 = 0 → ∀ k, dy' k * (b 0).u 0
        = dy k * (a 0).u 0 - (du k - (a 0).u k / n * v) * (a 0).y 0
          + PTrace.lagrange (a 0) * ((cs.take (j + 1)).map fun c => c.colour k).sum) := by
  induction es with
  | nil => intro n s v a rows' cs dy du _ _ _ _ _ _ _ _ j hj; simp at hj
  | cons e es ih =>
    intro n s v a rows' cs dy du hg hcol han hlen hstep hab hy hu j hj
    obtain ⟨b, hb⟩ : ∃ b : ℝ → PRow, ∀ ε, b ε = (rows' ε).headD (a 0) := ⟨_, fun _ => rfl⟩
    obtain ⟨rest, hrest⟩ : ∃ rest : ℝ → List PRow, ∀ ε, rest ε = (rows' ε).tail := ⟨_, fun _ => rfl⟩
    have hcons : ∀ᶠ ε in 𝓝 0, rows' ε = b ε :: rest ε := by
      filter_upwards [hlen] with ε h
      rw [hb, hrest]
      match hr : rows' ε, h with
      | x :: xs, _ => rfl
    have h0 := hcons.self_of_nhds
    rw [h0] at hab
    simp only [aberrationsFrom, Option.bind_eq_some_iff, Option.map_eq_some_iff] at hab
    obtain ⟨c, hc, cs', hcs', rfl⟩ := hab
    have hst : ∀ᶠ ε in 𝓝 0, ParaxStep l (e.tint l1 l2 ε) (a ε) (b ε) := by
      filter_upwards [hcons, hstep] with ε h1 h2
      exact h2 0 e (a ε) (b ε) rfl rfl (by rw [h1]; rfl)
    obtain ⟨dy', du', hbn, hy', hu', hlag, hkick⟩ := colour_step hg.1 (by
      rcases hcol.1 with h | h | h
      · exact .inl h
      · exact .inr (.inl ⟨h.1, flat_dispersion h.2⟩)
      · exact .inr (.inr h.1)) han hst hc hy hu
    cases j with
    | zero =>
      refine ⟨b, dy', ?_, hy', hlag, ?_⟩
      · filter_upwards [hcons] with ε h
        rw [h]; rfl
      · intro hz k
        have := hkick k
        rw [hz, mul_zero, sub_zero] at this
        rw [this]; simp
    | succ j =>
      have hne : es ≠ [] := by
        rintro rfl; simp at hj
      have hv : trueDispersion e l1 l2 v = e.dispersion l1 l2 := by
        unfold trueDispersion dispersion
        rcases hcol.1 with ⟨h1, m, hm, _⟩ | ⟨h1, h2⟩ | ⟨_, _, h⟩
        · obtain ⟨sh, hsh⟩ := Option.isSome_iff_exists.mp h1
          simp [hsh, hm]
        · cases e.shape <;> cases e.mat <;> simp [h1]
        · exact absurd h hne
      rw [hv] at hbn hkick
      obtain ⟨b', dy'', g1, g2, g3, g4⟩ := ih hg.2 hcol.2 hbn (by
          filter_upwards [hlen] with ε h
          rw [hrest, List.length_tail, h]; simp)
        (by
          filter_upwards [hcons, hstep] with ε h1 h2
          intro i e' x y he hx hy2
          exact h2 (i + 1) e' x y (by simpa using he) (by rw [h1]; simpa using hx)
            (by rw [h1]; simpa using hy2)) hcs' hy' hu' j (by simpa using hj)
      refine ⟨b', dy'', ?_, g2, by rw [g3, hlag], ?_⟩
      · filter_upwards [g1, hcons] with ε h1 h2
        rw [h2]; simpa using h1
      · intro hz k
        rw [g4 hz k, hkick k, hlag, List.take_succ_cons, List.map_cons, List.sum_cons]
        ring

/-- Changing the indices a little keeps the system good. -/
theorem good_tint {nwt : NewtonFn} {l l1 l2 : ℝ} (es : List Elem) : ∀ {n s v : ℝ},
    FineFrom nwt l n s es → Coloured l1 l2 v es →
    ∀ᶠ ε in 𝓝 0, FineFrom nwt l (n + ε * v) s (es.map (Elem.tint l1 l2 ε)) := by
  induction es with
  | nil => intro n s v _ _; exact .of_forall fun _ => trivial
  | cons e es ih =>
    intro n s v hg hcol
    have hpos : ∀ x y : ℝ, 0 < x → ∀ᶠ ε in 𝓝 (0 : ℝ), 0 < x + ε * y := by
      intro x y hx
      have : ContinuousAt (fun ε : ℝ => x + ε * y) 0 := by fun_prop
      exact this.eventually (lt_mem_nhds (by simpa using hx))
    have hside : ∀ ε, sideAfter s (e.tint l1 l2 ε) = sideAfter s e := by
      intro ε
      unfold sideAfter
      rw [tint_mat]
      have : (e.tint l1 l2 ε).shape = e.shape := rfl
      rw [this]
      cases e.mat <;> simp
    have hhead : ∀ᶠ ε in 𝓝 0, Fine nwt l (n + ε * v) s (e.tint l1 l2 ε) := by
      have hi : ∀ᶠ ε in 𝓝 (0 : ℝ), ∀ m, e.mat = some m → 0 < m.index l + ε * (m.index l1 - m.index l2) := by
        cases hm : e.mat with
        | none => exact .of_forall fun _ m h => by cases h
        | some m =>
          filter_upwards [hpos _ (m.index l1 - m.index l2) (hg.1.index m hm)] with ε h m' h'
          cases h'; exact h
      filter_upwards [hpos n v hg.1.pos, hi] with ε h1 h2
      refine Fine.of hg.1.axis h1 hg.1.opening hg.1.close hg.1.curv ?_ ?_
      · intro m' hm'
        rw [tint_mat] at hm'
        obtain ⟨m, hm, rfl⟩ := Option.map_eq_some_iff.mp hm'
        exact h2 m hm
      · intro m' hm' hmir
        rw [tint_mat] at hm'
        obtain ⟨m, hm, rfl⟩ := Option.map_eq_some_iff.mp hm'
        obtain ⟨a1, a2⟩ := hg.1.air m hm hmir
        rcases hcol.1 with ⟨_, m2, hm2, h3⟩ | ⟨h3, h4⟩ | ⟨_, h4, _⟩
        · rw [hm] at hm2; cases hm2
          simp [h3] at hmir
        · simp [a1, a2, h3, h4 m hm]
        · rw [hm] at h4; cases h4
    have htail : ∀ᶠ ε in 𝓝 0, FineFrom nwt l (e.paraxN n l + ε * trueDispersion e l1 l2 v)
        (sideAfter s e) (es.map (Elem.tint l1 l2 ε)) := by
      rcases hcol.1 with ⟨h1, m, hm, _⟩ | ⟨h1, h2⟩ | ⟨_, _, rfl⟩
      · obtain ⟨sh, hsh⟩ := Option.isSome_iff_exists.mp h1
        have hv : trueDispersion e l1 l2 v = e.dispersion l1 l2 := by
          simp [trueDispersion, dispersion, hsh, hm]
        rw [hv]
        exact ih hg.2 hcol.2
      · have hv : trueDispersion e l1 l2 v = e.dispersion l1 l2 := by
          unfold trueDispersion dispersion
          cases e.shape <;> cases e.mat <;> simp [h1]
        rw [hv]
        exact ih hg.2 hcol.2
      · exact .of_forall fun _ => trivial
    filter_upwards [hhead, htail] with ε h1 h2
    refine ⟨h1, ?_⟩
    rw [tint_paraxN, hside]
    exact h2

/-- C67, colour: let every index of refraction change in proportion to its difference between the
shortest and the longest wavelength.  Then at the image the marginal and the chief ray of the
paraxial trace move at the rate given by the image height times the sums of the axial and the
lateral chromatic coefficients.  (Asked of the system: the medium in front of the first surface and
around planes and mirrors does not disperse, see `Coloured` and `c67_colour_violation`.) -/
theorem c67_colour {nwt : NewtonFn} {l l1 l2 s : ℝ} {obj : Elem} {es : List Elem} {axis : Fin 2}
    {ws : List ℝ} {r0 : PRow} {prows : ℝ → List PRow} {c : List Seidel}
    (hg : FineFrom nwt l r0.n s es) (hw1 : ws.min? = some l1) (hw2 : ws.max? = some l2)
    (hcol : Coloured l1 l2 0 es)
    (ht : ∀ᶠ ε in 𝓝 0, PTrace.trace (obj :: es.map (Elem.tint l1 l2 ε)) axis l r0 = some (prows ε))
    (hc : PTrace.aberrations (obj :: es) ws (prows 0) = some c) (hL : PTrace.lagrange r0 ≠ 0)
    {j : ℕ} (hj : j < es.length) :
    ∃ b : ℝ → PRow, (∀ᶠ ε in 𝓝 0, (prows ε)[j + 1]? = some (b ε)) ∧ ((b 0).y 0 = 0 →
      HasDerivAt (fun ε => (b ε).y 0) ((b 0).y 1 * ((c.take (j + 2)).map Seidel.tachc).sum) 0 ∧
      HasDerivAt (fun ε => (b ε).y 1) ((b 0).y 1 * ((c.take (j + 2)).map Seidel.tchc).sum) 0) := by
  have hform : ∀ᶠ ε in 𝓝 0, prows ε = r0 :: (prows ε).tail ∧ (prows ε).tail.length = es.length := by
    filter_upwards [ht] with ε h
    obtain ⟨m, cc, _, _, hl1, hl2, hrows⟩ := trace_columns h
    rw [hrows]
    simp at hl1 hl2
    simp [hl1, hl2]
  have hsteps : ∀ᶠ ε in 𝓝 0, ∀ j e x y, es[j]? = some e → (r0 :: (prows ε).tail)[j]? = some x →
      (r0 :: (prows ε).tail)[j + 1]? = some y → ParaxStep l (e.tint l1 l2 ε) x y := by
    filter_upwards [ht, hform, good_tint es hg hcol] with ε h1 h2 h3 j e x y he hx hy
    rw [h2.1] at h1
    rw [mul_zero, add_zero] at h3
    exact parax_steps h3 h1 j _ x y (by simp [he]) hx hy
  have h0 := hform.self_of_nhds
  rw [h0.1] at hc
  simp only [PTrace.aberrations, Option.bind_eq_some_iff, Option.map_eq_some_iff, List.tail_cons, hw1,
    hw2, Option.some.injEq] at hc
  obtain ⟨l1', rfl, l2', rfl, cs, hcs, rfl⟩ := hc
  obtain ⟨b, dy', g1, g2, g3, g4⟩ := colour_system es (a := fun _ => r0)
    (rows' := fun ε => (prows ε).tail) (dy := 0) (du := 0) hg hcol (.of_forall fun _ => by simp)
    (hform.mono fun _ h => h.2) hsteps hcs (fun _ => hasDerivAt_const _ _)
    (fun _ => hasDerivAt_const _ _) j hj
  refine ⟨b, ?_, ?_⟩
  · filter_upwards [g1, hform] with ε h1 h2
    rw [h2.1]; simpa using h1
  · intro hz
    have hL' : PTrace.lagrange r0 = (b 0).u 0 * (b 0).y 1 := by
      rw [← g3]; unfold PTrace.lagrange; rw [hz]; ring
    have hu : (b 0).u 0 ≠ 0 := by
      intro h0; rw [h0, zero_mul] at hL'; exact hL hL'
    have hk : ∀ k, dy' k = (b 0).y 1 * ((cs.take (j + 1)).map fun c => c.colour k).sum := by
      intro k
      have := g4 hz k
      simp only [Pi.zero_apply, mul_zero, zero_mul, zero_add, sub_self, hL'] at this
      exact mul_right_cancel₀ hu (by linear_combination this)
    constructor
    · have := g2 0
      rw [hk 0] at this
      simpa [Seidel.colour] using this
    · have := g2 1
      rw [hk 1] at this
      simpa [Seidel.colour] using this

end RayOpt
