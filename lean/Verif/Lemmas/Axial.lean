import Verif.Props.Paraxial
import Verif.Props.Surface
import Mathlib.Analysis.Calculus.Deriv.Slope

/-! Derivatives of rays along curves of rays, for the first-order limit of the real trace. -/

namespace RayOpt

open V3 Shape Filter Topology Asymptotics

/-- Specification: the curve `f` of vectors passes through `f0` at parameter zero with velocity
`f'`. -/
structure HasD (f : ℝ → V3) (f0 f' : V3) : Prop where
  at0 : f 0 = f0
  x : HasDerivAt (fun t => (f t).x) f'.x 0
  y : HasDerivAt (fun t => (f t).y) f'.y 0
  z : HasDerivAt (fun t => (f t).z) f'.z 0

theorem hasDerivAt_mul_of_zero {f h : ℝ → ℝ} {h' : ℝ} (hf : ContinuousAt f 0) (h0 : h 0 = 0)
    (hh : HasDerivAt h h' 0) : HasDerivAt (fun t => f t * h t) (f 0 * h') 0 := by
  rw [hasDerivAt_iff_tendsto_slope] at hh ⊢
  have h1 : Tendsto f (𝓝[≠] 0) (𝓝 (f 0)) := hf.tendsto.mono_left nhdsWithin_le_nhds
  refine (h1.mul hh).congr fun t => ?_
  simp only [slope_def_field, h0]
  ring

namespace HasD

variable {f g : ℝ → V3} {f0 f' g0 g' : V3}

theorem dot (hf : HasD f f0 f') (hg : HasD g g0 g') :
    HasDerivAt (fun t => (f t).dot (g t)) (f'.dot g0 + f0.dot g') 0 := by
  have h := ((hf.x.mul hg.x).add (hf.y.mul hg.y)).add (hf.z.mul hg.z)
  refine h.congr_deriv ?_
  simp only [V3.dot, hf.at0, hg.at0]
  ring

theorem add (hf : HasD f f0 f') (hg : HasD g g0 g') :
    HasD (fun t => f t + g t) (f0 + g0) (f' + g') :=
  ⟨by rw [hf.at0, hg.at0], hf.x.add hg.x, hf.y.add hg.y, hf.z.add hg.z⟩

theorem smul {a : ℝ → ℝ} {a' : ℝ} (ha : HasDerivAt a a' 0) (hf : HasD f f0 f') :
    HasD (fun t => a t • f t) (a 0 • f0) (a' • f0 + a 0 • f') := by
  refine ⟨by rw [hf.at0], ?_, ?_, ?_⟩
  · have := ha.mul hf.x; simp only [hf.at0] at this; exact this
  · have := ha.mul hf.y; simp only [hf.at0] at this; exact this
  · have := ha.mul hf.z; simp only [hf.at0] at this; exact this

theorem constSmul (a : ℝ) (hf : HasD f f0 f') : HasD (fun t => a • f t) (a • f0) (a • f') :=
  ⟨by rw [hf.at0], hf.x.const_mul a, hf.y.const_mul a, hf.z.const_mul a⟩

theorem sub (hf : HasD f f0 f') (hg : HasD g g0 g') :
    HasD (fun t => f t - g t) (f0 - g0) (f' - g') :=
  ⟨by rw [hf.at0, hg.at0], hf.x.sub hg.x, hf.y.sub hg.y, hf.z.sub hg.z⟩

theorem contX (hf : HasD f f0 f') : ContinuousAt (fun t => (f t).x) 0 := hf.x.continuousAt
theorem contY (hf : HasD f f0 f') : ContinuousAt (fun t => (f t).y) 0 := hf.y.continuousAt
theorem contZ (hf : HasD f f0 f') : ContinuousAt (fun t => (f t).z) 0 := hf.z.continuousAt

theorem congr (hf : HasD f f0 f') (h0 : f0 = g0) (h1 : f' = g') : HasD f g0 g' := by
  rw [← h0, ← h1]; exact hf

/-- A curve of unit vectors has a velocity orthogonal to it. -/
theorem unit (hf : HasD f f0 f') (h : ∀ᶠ t in 𝓝 0, (f t).norm = 1) : f0.dot f' = 0 := by
  have h1 := hf.dot hf
  have h2 : HasDerivAt (fun t => (f t).dot (f t)) 0 0 := by
    refine (hasDerivAt_const 0 (1 : ℝ)).congr_of_eventuallyEq ?_
    filter_upwards [h] with t ht
    exact dot_self_of_norm ht
  have h3 := h1.unique h2
  rw [dot_comm f' f0] at h3
  linarith

end HasD

/-! ### The normal near the vertex -/

/-- Near the vertex the normal of the code is `(-c x, -c y, 1)` to first order, `c` being the
paraxial curvature. -/
theorem normal_limit (sh : Shape) (c : ℝ) (hc : sh.paraxCurv = some c) (Q : ℝ → V3) (Q' : V3)
    (hQ : HasD Q 0 Q') : ∃ R : ℝ → V3, (∀ᶠ t in 𝓝 0, sh.surfaceNormal (Q t) = some (R t)) ∧
      HasD R ez ⟨-(c * Q'.x), -(c * Q'.y), 0⟩ := by
  have hx0 : (Q 0).x = 0 := by rw [hQ.at0]; rfl
  have hy0 : (Q 0).y = 0 := by rw [hQ.at0]; rfl
  set ρ : ℝ → ℝ := fun t => rsq (Q t) with hρ
  have hρc : ContinuousAt ρ 0 := (hQ.contX.mul hQ.contX).add (hQ.contY.mul hQ.contY)
  have hρ0 : ρ 0 = 0 := by simp [hρ, rsq, hx0, hy0]
  have build : ∀ e : ℝ → ℝ, ContinuousAt e 0 → e 0 = -c →
      HasD (fun t => (⟨(Q t).x * e t, (Q t).y * e t, 1⟩ : V3)) ez ⟨-(c * Q'.x), -(c * Q'.y), 0⟩ := by
    intro e he he0
    refine ⟨?_, ?_, ?_, hasDerivAt_const _ _⟩
    · rw [hx0, hy0]; simp [ez]
    · have := hasDerivAt_mul_of_zero he hx0 hQ.x
      rw [he0] at this
      simp only [mul_comm (e _)] at this
      convert this using 1; simp
    · have := hasDerivAt_mul_of_zero he hy0 hQ.y
      rw [he0] at this
      simp only [mul_comm (e _)] at this
      convert this using 1; simp
  obtain ⟨cu, k, asp, alt⟩ := sh
  have hslope : ∀ l : List ℝ, ContinuousAt (fun t => aspSlope (ρ t) l) 0 := by
    intro l
    have : ∀ (l : List (ℝ × ℕ)), ContinuousAt (fun t =>
        l.foldr (fun ai d => d * ρ t + 2 * ((ai.2 : ℝ) + 1) * ai.1) 0) 0 := by
      intro l
      induction l with
      | nil => exact continuousAt_const
      | cons a l ih => exact (ih.mul hρc).add continuousAt_const
    exact this _
  have hconic : ContinuousAt (fun t => 0 - cu / √(1 - (1 + k) * cu ^ 2 * ρ t)) 0 := by
    refine continuousAt_const.sub (continuousAt_const.div ?_ ?_)
    · exact Real.continuous_sqrt.continuousAt.comp
        (continuousAt_const.sub (continuousAt_const.mul hρc))
    · rw [hρ0]; simp
  have hpos : ∀ᶠ t in 𝓝 0, ¬ (1 - (1 + k) * cu ^ 2 * ρ t ≤ 0) := by
    have h1 : ContinuousAt (fun t => 1 - (1 + k) * cu ^ 2 * ρ t) 0 :=
      continuousAt_const.sub (continuousAt_const.mul hρc)
    have := h1.eventually (lt_mem_nhds (a := 0) (b := 1 - (1 + k) * cu ^ 2 * ρ 0) (by rw [hρ0]; simp))
    filter_upwards [this] with t ht
    exact not_le.mpr ht
  by_cases hcu : cu = 0
  · subst hcu
    rcases asp with _ | _ | ⟨a, l⟩
    · simp only [paraxCurv, Option.some.injEq] at hc
      refine ⟨fun t => ez, Eventually.of_forall fun t => ?_, ?_⟩
      · simp [surfaceNormal, ez]
      · subst hc
        exact ⟨rfl, by simpa using hasDerivAt_const (0 : ℝ) ez.x,
          by simpa using hasDerivAt_const (0 : ℝ) ez.y, hasDerivAt_const _ _⟩
    · simp [paraxCurv] at hc
    · simp only [paraxCurv, Option.some.injEq, zero_add] at hc
      refine ⟨_, Eventually.of_forall fun t => ?_, build (fun t => 0 - aspSlope (ρ t) (a :: l))
        (continuousAt_const.sub (hslope _)) ?_⟩
      · simp [surfaceNormal, hρ]
      · rw [hρ0, ← hc]
        simp [aspSlope, List.zipIdx_cons]
  · rcases asp with _ | _ | ⟨a, l⟩
    · simp only [paraxCurv, Option.some.injEq] at hc
      refine ⟨_, ?_, build _ hconic (by rw [hρ0, ← hc]; simp)⟩
      filter_upwards [hpos] with t ht
      simp only [hρ] at ht
      simp [surfaceNormal, hcu, hρ, ht]
    · simp [paraxCurv] at hc
    · simp only [paraxCurv, Option.some.injEq] at hc
      refine ⟨_, ?_, build (fun t => 0 - cu / √(1 - (1 + k) * cu ^ 2 * ρ t) - aspSlope (ρ t) (a :: l))
        (hconic.sub (hslope (a :: l))) ?_⟩
      · filter_upwards [hpos] with t ht
        simp only [hρ] at ht
        simp [surfaceNormal, hcu, hρ, ht]
      · rw [hρ0, ← hc]
        simp [aspSlope, List.zipIdx_cons]
        ring

/-! ### Refraction and reflection near the chief ray -/

/-- Refraction of a curve of rays: velocity of the refracted directions. -/
theorem refract_limit {R U : ℝ → V3} {R' U' : V3} {s1 c1 mu : ℝ} (hR : HasD R ez R')
    (hRz : R'.z = 0) (hU : HasD U ⟨0, s1, c1⟩ U') (hsc : s1 ^ 2 + c1 ^ 2 = 1)
    (hmu : 0 < mu) (hmu1 : mu ≠ 1) (hT : 0 < 1 - mu ^ 2 * s1 ^ 2) :
    ∃ U2 : ℝ → V3, (∀ᶠ t in 𝓝 0, refractAt (R t) (U t) mu = some (U2 t)) ∧
      HasD U2 ⟨0, mu * s1, √(1 - mu ^ 2 * s1 ^ 2)⟩
        (mu • U' + (mu * (U'.z + s1 * R'.y) * (mu * c1 - √(1 - mu ^ 2 * s1 ^ 2))
            / √(1 - mu ^ 2 * s1 ^ 2)) • ez
          + (√(1 - mu ^ 2 * s1 ^ 2) - mu * c1) • R') := by
  set c2 := √(1 - mu ^ 2 * s1 ^ 2) with hc2
  have hc2p : 0 < c2 := Real.sqrt_pos.mpr hT
  have hc2s : c2 ^ 2 = 1 - mu ^ 2 * s1 ^ 2 := Real.sq_sqrt hT.le
  have hRR := hR.dot hR
  have hUR := hU.dot hR
  have e1 : R'.dot ez + ez.dot R' = 0 := by simp [V3.dot, ez, hRz]
  rw [e1] at hRR
  have r0 : (R 0).dot (R 0) = 1 := by rw [hR.at0]; exact ez_dot
  have u0 : (U 0).dot (R 0) = c1 := by rw [hR.at0, hU.at0]; simp [V3.dot, ez]
  have hrne : ∀ᶠ t in 𝓝 0, (R t).dot (R t) ≠ 0 :=
    hRR.continuousAt.eventually_ne (by rw [r0]; norm_num)
  have e2 : U'.dot ez + (⟨0, s1, c1⟩ : V3).dot R' = U'.z + s1 * R'.y := by
    simp [V3.dot, ez, hRz]
  rw [e2] at hUR
  have ha : HasDerivAt (fun t => |mu| * (U t).dot (R t) / (R t).dot (R t))
      (mu * (U'.z + s1 * R'.y)) 0 := by
    have := (hUR.const_mul |mu|).div hRR (by rw [r0]; norm_num)
    refine this.congr_deriv ?_
    rw [r0, u0, abs_of_pos hmu]
    ring
  set a : ℝ → ℝ := fun t => |mu| * (U t).dot (R t) / (R t).dot (R t) with hadef
  have a0 : a 0 = mu * c1 := by simp only [hadef, r0, u0, abs_of_pos hmu]; ring
  have hb : HasDerivAt (fun t => (mu ^ 2 - 1) / (R t).dot (R t)) 0 0 := by
    have := (hasDerivAt_const (0 : ℝ) (mu ^ 2 - 1)).div hRR (by rw [r0]; norm_num)
    refine this.congr_deriv ?_
    rw [r0]; ring
  set b : ℝ → ℝ := fun t => (mu ^ 2 - 1) / (R t).dot (R t) with hbdef
  have b0 : b 0 = mu ^ 2 - 1 := by simp only [hbdef, r0]; ring
  have hdisc : HasDerivAt (fun t => a t ^ 2 - b t) (2 * a 0 * (mu * (U'.z + s1 * R'.y))) 0 := by
    have := (ha.pow 2).sub hb
    refine this.congr_deriv ?_
    simp
  have d0 : a 0 ^ 2 - b 0 = c2 ^ 2 := by
    rw [a0, b0, hc2s]; linear_combination mu ^ 2 * hsc
  have hroot := hdisc.sqrt (by rw [d0]; positivity)
  have hroot0 : √(a 0 ^ 2 - b 0) = c2 := by rw [d0, Real.sqrt_sq hc2p.le]
  have hg : HasDerivAt (fun t => -a t + √(a t ^ 2 - b t))
      (mu * (U'.z + s1 * R'.y) * (mu * c1 - c2) / c2) 0 := by
    have := ha.neg.add hroot
    refine this.congr_deriv ?_
    rw [hroot0, a0]
    field_simp
    ring
  refine ⟨fun t => mu • U t + (-a t + √(a t ^ 2 - b t)) • R t, ?_, ?_⟩
  · have hge : ∀ᶠ t in 𝓝 0, 0 < a t ^ 2 - b t :=
      hdisc.continuousAt.eventually (lt_mem_nhds (by
        show 0 < a 0 ^ 2 - b 0
        rw [d0]; positivity))
    filter_upwards [hrne, hge] with t h1 h2
    have hm1 : mu ≠ -1 := by linarith
    rw [refractAt_generic hmu1 hm1]
    refine ⟨h1, h2.le, ?_⟩
    rw [sign_pos hmu, abs_of_pos hmu]
    simp [hadef, hbdef, abs_of_pos hmu]
  · refine ((hU.constSmul mu).add (HasD.smul hg hR)).congr ?_ ?_
    · rw [hroot0, a0]
      ext <;> simp [ez]
    · rw [hroot0, a0]
      ext
      · simp only [add_x, smul_x, ez]; ring
      · simp only [add_y, smul_y, ez]; ring
      · simp only [add_z, smul_z, ez]; ring

/-- Reflection of a curve of rays. -/
theorem mirror_limit {R U : ℝ → V3} {R' U' : V3} {s1 c1 : ℝ} (hR : HasD R ez R')
    (hRz : R'.z = 0) (hU : HasD U ⟨0, s1, c1⟩ U') :
    ∃ U2 : ℝ → V3, (∀ᶠ t in 𝓝 0, refractAt (R t) (U t) (-1) = some (U2 t)) ∧
      HasD U2 ⟨0, s1, -c1⟩ (U' - ((2 * (U'.z + s1 * R'.y)) • ez + (2 * c1) • R')) := by
  have hRR := hR.dot hR
  have hUR := hU.dot hR
  have e1 : R'.dot ez + ez.dot R' = 0 := by simp [V3.dot, ez, hRz]
  rw [e1] at hRR
  have r0 : (R 0).dot (R 0) = 1 := by rw [hR.at0]; exact ez_dot
  have u0 : (U 0).dot (R 0) = c1 := by rw [hR.at0, hU.at0]; simp [V3.dot, ez]
  have hrne : ∀ᶠ t in 𝓝 0, (R t).dot (R t) ≠ 0 :=
    hRR.continuousAt.eventually_ne (by rw [r0]; norm_num)
  have e2 : U'.dot ez + (⟨0, s1, c1⟩ : V3).dot R' = U'.z + s1 * R'.y := by
    simp [V3.dot, ez, hRz]
  rw [e2] at hUR
  have ha : HasDerivAt (fun t => 2 * (|(-1 : ℝ)| * (U t).dot (R t) / (R t).dot (R t)))
      (2 * (U'.z + s1 * R'.y)) 0 := by
    have := ((hUR.const_mul |(-1 : ℝ)|).div hRR (by rw [r0]; norm_num)).const_mul 2
    refine this.congr_deriv ?_
    rw [r0, u0]
    simp
  refine ⟨fun t => U t - (2 * (|(-1 : ℝ)| * (U t).dot (R t) / (R t).dot (R t))) • R t, ?_, ?_⟩
  · filter_upwards [hrne] with t h1
    unfold refractAt
    simp only [h1, if_false]
    norm_num
  · refine (hU.sub (HasD.smul ha hR)).congr ?_ ?_
    · rw [r0, u0]; ext <;> simp [ez]; ring
    · rw [r0, u0]; ext <;> simp [ez]

/-! ### Intersection near the vertex -/

/-- Specification: along every curve of unit rays through the chief ray, which comes from distance
`d` with direction `u0` to the vertex, the intersection is found, is differentiable and on the
surface. -/
def AxialHit (nwt : NewtonFn) (sh : Shape) (u0 : V3) (d : ℝ) : Prop :=
  ∀ (Y U : ℝ → V3) (Y' U' : V3), HasD Y (-(d • u0)) Y' → HasD U u0 U' →
    (∀ᶠ t in 𝓝 0, (U t).norm = 1) →
    ∃ (T : ℝ → ℝ) (T' : ℝ), (∀ᶠ t in 𝓝 0, sh.intercept nwt (Y t) (U t) = some (T t)) ∧
      HasDerivAt T T' 0 ∧ T 0 = d ∧
      ∀ᶠ t in 𝓝 0, sh.surfaceSag (Y t + T t • U t) = some 0

/-- Specification, to first order: the intersection is found, is differentiable, and the surface function there has value
and velocity zero. -/
def NearHit (nwt : NewtonFn) (sh : Shape) (u0 : V3) (d : ℝ) : Prop :=
  ∀ (Y U : ℝ → V3) (Y' U' : V3), HasD Y (-(d • u0)) Y' → HasD U u0 U' →
    (∀ᶠ t in 𝓝 0, (U t).norm = 1) →
    ∃ (T : ℝ → ℝ) (T' : ℝ) (G : ℝ → ℝ), (∀ᶠ t in 𝓝 0, sh.intercept nwt (Y t) (U t) = some (T t)) ∧
      HasDerivAt T T' 0 ∧ T 0 = d ∧
      (∀ᶠ t in 𝓝 0, sh.surfaceSag (Y t + T t • U t) = some (G t)) ∧ G 0 = 0 ∧ HasDerivAt G 0 0

/-- Specification, to second order: the surface function at the intersection is small compared with the square of the
parameter. -/
def CloseHit (nwt : NewtonFn) (sh : Shape) (u0 : V3) (d : ℝ) : Prop :=
  ∀ (Y U : ℝ → V3) (Y' U' : V3), HasD Y (-(d • u0)) Y' → HasD U u0 U' →
    (∀ᶠ t in 𝓝 0, (U t).norm = 1) →
    ∃ (T : ℝ → ℝ) (T' : ℝ) (G : ℝ → ℝ), (∀ᶠ t in 𝓝 0, sh.intercept nwt (Y t) (U t) = some (T t)) ∧
      HasDerivAt T T' 0 ∧ T 0 = d ∧
      (∀ᶠ t in 𝓝 0, sh.surfaceSag (Y t + T t • U t) = some (G t)) ∧ G =o[𝓝 0] fun t => t ^ 2

theorem AxialHit.close {nwt : NewtonFn} {sh : Shape} {u0 : V3} {d : ℝ} (h : AxialHit nwt sh u0 d) :
    CloseHit nwt sh u0 d := by
  intro Y U Y' U' hY hU hunit
  obtain ⟨T, T', h1, h2, h3, h4⟩ := h Y U Y' U' hY hU hunit
  exact ⟨T, T', fun _ => 0, h1, h2, h3, h4, Asymptotics.isLittleO_zero _ _⟩

theorem deriv_of_little {G : ℝ → ℝ} (h : G =o[𝓝 0] fun t : ℝ => t ^ 2) : G 0 = 0 ∧ HasDerivAt G 0 0 := by
  have h0 : G 0 = 0 := by
    have := (h.bound one_pos).self_of_nhds
    simpa using this
  refine ⟨h0, ?_⟩
  rw [hasDerivAt_iff_isLittleO]
  simp only [h0, sub_zero, smul_zero]
  refine h.trans ?_
  simpa using (Asymptotics.isLittleO_pow_pow (𝕜 := ℝ) (m := 1) (n := 2) (by norm_num))

theorem CloseHit.near {nwt : NewtonFn} {sh : Shape} {u0 : V3} {d : ℝ} (h : CloseHit nwt sh u0 d) :
    NearHit nwt sh u0 d := by
  intro Y U Y' U' hY hU hunit
  obtain ⟨T, T', G, h1, h2, h3, h4, h5⟩ := h Y U Y' U' hY hU hunit
  exact ⟨T, T', G, h1, h2, h3, h4, deriv_of_little h5⟩

theorem AxialHit.near {nwt : NewtonFn} {sh : Shape} {u0 : V3} {d : ℝ} (h : AxialHit nwt sh u0 d) :
    NearHit nwt sh u0 d := by
  intro Y U Y' U' hY hU hunit
  obtain ⟨T, T', h1, h2, h3, h4⟩ := h Y U Y' U' hY hU hunit
  exact ⟨T, T', fun _ => 0, h1, h2, h3, h4, rfl, hasDerivAt_const _ _⟩

/-- The surface function along a curve through the vertex has the velocity of the height. -/
theorem sag_velocity {sh : Shape} {Q : ℝ → V3} {Q' : V3} {c : ℝ} (hc : sh.paraxCurv = some c)
    (hQ : HasD Q 0 Q') : ∃ G : ℝ → ℝ, (∀ᶠ t in 𝓝 0, sh.surfaceSag (Q t) = some (G t)) ∧ HasDerivAt G Q'.z 0 := by
  have h0 : HasD (fun _ => (0 : V3)) 0 0 :=
    ⟨rfl, hasDerivAt_const _ _, hasDerivAt_const _ _, hasDerivAt_const _ _⟩
  obtain ⟨R, hR, hRd⟩ := normal_limit sh c hc (fun _ => 0) 0 h0
  have hn : sh.surfaceNormal 0 = some ez := by
    rw [hR.self_of_nhds, hRd.at0]
  obtain ⟨G, hG, hGd⟩ := (c08_gradient sh 0 ez hn).1 (fun t => (Q t).x) (fun t => (Q t).y)
    (fun t => (Q t).z) Q' 0 (by rw [hQ.at0]) (by rw [hQ.at0]) (by rw [hQ.at0]) hQ.x hQ.y hQ.z
  exact ⟨G, hG, by simpa [V3.dot, ez] using hGd⟩

theorem sag_limit_near {sh : Shape} {Q : ℝ → V3} {Q' : V3} {c : ℝ} {F : ℝ → ℝ} (hc : sh.paraxCurv = some c)
    (hQ : HasD Q 0 Q') (h : ∀ᶠ t in 𝓝 0, sh.surfaceSag (Q t) = some (F t)) (hF : HasDerivAt F 0 0) : Q'.z = 0 := by
  obtain ⟨G, hG, hGd⟩ := sag_velocity hc hQ
  refine hGd.unique (hF.congr_of_eventuallyEq ?_)
  filter_upwards [h, hG] with t h1 h2
  exact Option.some.inj (h2.symm.trans h1)

theorem sag_limit {sh : Shape} {Q : ℝ → V3} {Q' : V3} {c : ℝ} (hc : sh.paraxCurv = some c)
    (hQ : HasD Q 0 Q') (h : ∀ᶠ t in 𝓝 0, sh.surfaceSag (Q t) = some 0) : Q'.z = 0 :=
  sag_limit_near hc hQ h (hasDerivAt_const _ _)

theorem plane_hit {Y U : ℝ → V3} {Y' U' u0 : V3} {d : ℝ} (hY : HasD Y (-(d • u0)) Y')
    (hU : HasD U u0 U') (hz : u0.z ≠ 0) : ∃ (T : ℝ → ℝ) (T' : ℝ),
    (∀ᶠ t in 𝓝 0, interceptPlane (Y t) (U t) = some (T t)) ∧ HasDerivAt T T' 0 ∧ T 0 = d ∧
      ∀ᶠ t in 𝓝 0, (Y t + T t • U t).z = 0 := by
  have hz0 : (U 0).z ≠ 0 := by rw [hU.at0]; exact hz
  have hev := hU.contZ.eventually_ne hz0
  refine ⟨fun t => -(Y t).z / (U t).z, _, ?_, hY.z.neg.div hU.z hz0, ?_, ?_⟩
  · filter_upwards [hev] with t ht
    simp [interceptPlane, ht]
  · simp only [hY.at0, hU.at0]
    simp only [neg_z, smul_z]
    field_simp
  · filter_upwards [hev] with t ht
    simp only [add_z, smul_z]
    field_simp
    ring

/-- Conic surfaces (and planes) meet the specification, unless the chief ray is parallel to an
asymptote: `1 + k c1² ≠ 0`. -/
theorem conic_hit (nwt : NewtonFn) (sh : Shape) (s1 c1 d : ℝ) (ha : sh.aspherics = none)
    (halt : sh.curvature = 0 ∨ sh.alternate = false) (hsc : s1 ^ 2 + c1 ^ 2 = 1) (hc1 : 0 < c1)
    (hk : sh.curvature = 0 ∨ 1 + sh.conic * c1 ^ 2 ≠ 0) : AxialHit nwt sh ⟨0, s1, c1⟩ d := by
  intro Y U Y' U' hY hU hunit
  by_cases hcu : sh.curvature = 0
  · obtain ⟨T, T', h1, h2, h3, h4⟩ := plane_hit hY hU hc1.ne'
    refine ⟨T, T', ?_, h2, h3, ?_⟩
    · filter_upwards [h1] with t ht
      simp [intercept, ha, interceptConic, hcu, ht]
    · filter_upwards [h4] with t ht
      simp only [surfaceSag, hcu, ha, true_and, if_true, ht]
  · have halt' := halt.resolve_left hcu
    have hk' := hk.resolve_left hcu
    clear halt hk
    set c := sh.curvature with hcdef
    set k := sh.conic with hkdef
    have hd : ∃ D', HasDerivAt (fun t => c * ((U t).x * (Y t).x + (U t).y * (Y t).y
        + (U t).z * (Y t).z * (1 + k)) - (U t).z) D' 0 := ⟨_,
      (((((hU.x.mul hY.x).add (hU.y.mul hY.y)).add ((hU.z.mul hY.z).mul_const (1 + k)))).const_mul
        c).sub hU.z⟩
    have he : ∃ E', HasDerivAt (fun t => quadCoeff c k (U t)) E' 0 := ⟨_,
      (((hU.x.pow 2).add (hU.y.pow 2)).add ((hU.z.pow 2).const_mul (1 + k))).const_mul c⟩
    have hf : ∃ F', HasDerivAt (fun t => c * ((Y t).x ^ 2 + (Y t).y ^ 2 + (Y t).z ^ 2 * (1 + k))
        - 2 * (Y t).z) F' 0 := ⟨_,
      ((((hY.x.pow 2).add (hY.y.pow 2)).add ((hY.z.pow 2).mul_const (1 + k))).const_mul c).sub
        (hY.z.const_mul 2)⟩
    obtain ⟨D', hD⟩ := hd
    obtain ⟨E', hE⟩ := he
    obtain ⟨F', hF⟩ := hf
    set D : ℝ → ℝ := fun t => c * ((U t).x * (Y t).x + (U t).y * (Y t).y
        + (U t).z * (Y t).z * (1 + k)) - (U t).z with hDdef
    set E : ℝ → ℝ := fun t => quadCoeff c k (U t) with hEdef
    set F : ℝ → ℝ := fun t => c * ((Y t).x ^ 2 + (Y t).y ^ 2 + (Y t).z ^ 2 * (1 + k))
        - 2 * (Y t).z with hFdef
    have D0 : D 0 = -(c * d * (1 + k * c1 ^ 2)) - c1 := by
      simp only [hDdef, hY.at0, hU.at0]
      simp only [neg_x, neg_y, neg_z, smul_x, smul_y, smul_z]
      linear_combination (-c * d) * hsc
    have E0 : E 0 = c * (1 + k * c1 ^ 2) := by
      simp only [hEdef, quadCoeff, hU.at0]
      linear_combination c * hsc
    have F0 : F 0 = c * d ^ 2 * (1 + k * c1 ^ 2) + 2 * d * c1 := by
      simp only [hFdef, hY.at0]
      simp only [neg_x, neg_y, neg_z, smul_x, smul_y, smul_z]
      linear_combination (c * d ^ 2) * hsc
    have disc0 : D 0 ^ 2 - E 0 * F 0 = c1 ^ 2 := by rw [D0, E0, F0]; ring
    have hE0 : E 0 ≠ 0 := by rw [E0]; exact mul_ne_zero hcu hk'
    have hdisc := (hD.pow 2).sub (hE.mul hF)
    have hroot := hdisc.sqrt (by
      show D 0 ^ 2 - E 0 * F 0 ≠ 0
      rw [disc0]; positivity)
    have hT := ((hD.add hroot).neg).div hE hE0
    have hev1 : ∀ᶠ t in 𝓝 0, 0 < D t ^ 2 - E t * F t :=
      hdisc.continuousAt.eventually (lt_mem_nhds (by
        show 0 < D 0 ^ 2 - E 0 * F 0
        rw [disc0]; positivity))
    have hev2 := hE.continuousAt.eventually_ne hE0
    have hTval : ∀ᶠ t in 𝓝 0, sh.intercept nwt (Y t) (U t)
        = some (-(D t + √(D t ^ 2 - E t * F t)) / E t) := by
      filter_upwards [hev1, hev2, hunit] with t h1 h2 h3
      simp only [intercept, ha]
      rw [interceptConic_eq sh (Y t) (U t) h3 hcu]
      have e : (if sh.alternate = true then -√(D t ^ 2 - E t * F t) else √(D t ^ 2 - E t * F t))
          = √(D t ^ 2 - E t * F t) := by rw [if_neg (by simp [halt'])]
      rw [← e]
      exact (if_neg (not_lt.mpr h1.le)).trans (if_neg h2)
    have hT0 : -(D 0 + √(D 0 ^ 2 - E 0 * F 0)) / E 0 = d := by
      rw [disc0, Real.sqrt_sq hc1.le, D0, E0]
      field_simp
      ring
    refine ⟨_, _, hTval, hT, hT0, ?_⟩
    -- on the quadric, near the vertex
    have hQz : ContinuousAt (fun t => 1 - (1 + k) * c * ((Y t).z
        + (-(D t + √(D t ^ 2 - E t * F t)) / E t) * (U t).z)) 0 :=
      continuousAt_const.sub (continuousAt_const.mul (hY.contZ.add (hT.continuousAt.mul hU.contZ)))
    have hpos := hQz.eventually (lt_mem_nhds (a := 0) (by
      show 0 < 1 - (1 + k) * c * ((Y 0).z + (-(D 0 + √(D 0 ^ 2 - E 0 * F 0)) / E 0) * (U 0).z)
      rw [hT0, hY.at0, hU.at0]; simp))
    filter_upwards [hTval, hunit, hpos] with t h1 h2 h3
    rw [c06_on_surface nwt sh (Y t) (U t) _ ha h2 h1]
    exact h3.le

end RayOpt
