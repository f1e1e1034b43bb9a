import Verif.Props.Malus

/-!
Property C93: near a ray that meets all surfaces without grazing them, the rays of a differentiable start
are traced too and form a differentiable bundle.
-/

namespace RayOpt

open V3 Elem Sys Filter Topology Shape

/-- A curve with some velocity. -/
def Moves (f : ℝ → V3) (s0 : ℝ) : Prop := ∃ v, Curve f v s0

namespace Moves

variable {f g : ℝ → V3} {s0 : ℝ}

theorem x (h : Moves f s0) : DifferentiableAt ℝ (fun s => (f s).x) s0 := h.choose_spec.x.differentiableAt
theorem y (h : Moves f s0) : DifferentiableAt ℝ (fun s => (f s).y) s0 := h.choose_spec.y.differentiableAt
theorem z (h : Moves f s0) : DifferentiableAt ℝ (fun s => (f s).z) s0 := h.choose_spec.z.differentiableAt

theorem add (hf : Moves f s0) (hg : Moves g s0) : Moves (fun s => f s + g s) s0 :=
  ⟨_, hf.choose_spec.add hg.choose_spec⟩

theorem sub (hf : Moves f s0) (hg : Moves g s0) : Moves (fun s => f s - g s) s0 :=
  ⟨_, hf.choose_spec.sub hg.choose_spec⟩

theorem smul {a : ℝ → ℝ} (ha : DifferentiableAt ℝ a s0) (hf : Moves f s0) : Moves (fun s => a s • f s) s0 :=
  ⟨_, Curve.smul ha.hasDerivAt hf.choose_spec⟩

theorem dot (hf : Moves f s0) (hg : Moves g s0) : DifferentiableAt ℝ (fun s => (f s).dot (g s)) s0 :=
  (hf.choose_spec.dot hg.choose_spec).differentiableAt

end Moves

/-- Refraction and reflection are differentiable unless the ray leaves along the surface. -/
theorem refractAt_smooth {I R : ℝ → V3} {s0 : ℝ} (hI : Moves I s0) (hR : Moves R s0) (mu : ℝ) (v : V3)
    (h : refractAt (R s0) (I s0) mu = some v) (hv : v.dot (R s0) ≠ 0) :
    ∃ G : ℝ → V3, (∀ᶠ s in 𝓝 s0, refractAt (R s) (I s) mu = some (G s)) ∧ Moves G s0 := by
  unfold refractAt at h ⊢
  by_cases h1 : mu = 1
  · simp only [if_pos h1]
    exact ⟨I, by simp, hI⟩
  simp only [if_neg h1] at h ⊢
  by_cases h0 : (R s0).dot (R s0) = 0
  · rw [if_pos h0] at h; cases h
  rw [if_neg h0] at h
  have hr2 := hR.dot hR
  have hr2' : ∀ᶠ s in 𝓝 s0, (R s).dot (R s) ≠ 0 := hr2.continuousAt.eventually_ne h0
  have ha : DifferentiableAt ℝ (fun s => |mu| * (I s).dot (R s) / (R s).dot (R s)) s0 :=
    ((hI.dot hR).const_mul _).div hr2 h0
  by_cases h2 : mu = -1
  · simp only [if_pos h2]
    refine ⟨fun s => I s - (2 * (|mu| * (I s).dot (R s) / (R s).dot (R s))) • R s, ?_,
      hI.sub (hR.smul (ha.const_mul 2))⟩
    filter_upwards [hr2'] with s hs
    rw [if_neg hs]
  simp only [if_neg h2] at h ⊢
  have hb : DifferentiableAt ℝ (fun s => (mu ^ 2 - 1) / (R s).dot (R s)) s0 :=
    (differentiableAt_const _).div hr2 h0
  have hD := (ha.pow 2).sub hb
  have hpos : 0 < (|mu| * (I s0).dot (R s0) / (R s0).dot (R s0)) ^ 2 - (mu ^ 2 - 1) / (R s0).dot (R s0) := by
    by_cases hneg : (|mu| * (I s0).dot (R s0) / (R s0).dot (R s0)) ^ 2 -
        (mu ^ 2 - 1) / (R s0).dot (R s0) < 0
    · rw [if_pos hneg] at h; cases h
    rw [if_neg hneg] at h
    refine lt_of_le_of_ne (not_lt.mp hneg) fun h3 => hv ?_
    cases h
    rw [← h3, Real.sqrt_zero, mul_zero, add_zero]
    have : ∀ c : ℝ, (|mu| • I s0 + c • R s0).dot (R s0) =
        |mu| * (I s0).dot (R s0) + c * (R s0).dot (R s0) := by
      intro c
      simp only [V3.dot, add_x, add_y, add_z, smul_x, smul_y, smul_z]; ring
    rw [this, neg_mul, div_mul_cancel₀ _ h0, add_neg_cancel]
  have hev : ∀ᶠ s in 𝓝 s0, 0 < (|mu| * (I s).dot (R s) / (R s).dot (R s)) ^ 2 -
      (mu ^ 2 - 1) / (R s).dot (R s) := hD.continuousAt.eventually (lt_mem_nhds hpos)
  refine ⟨fun s => |mu| • I s + (-(|mu| * (I s).dot (R s) / (R s).dot (R s)) + SignType.sign mu *
    Real.sqrt ((|mu| * (I s).dot (R s) / (R s).dot (R s)) ^ 2 - (mu ^ 2 - 1) / (R s).dot (R s))) • R s, ?_,
    (hI.smul (differentiableAt_const _)).add (hR.smul (ha.neg.add
      ((differentiableAt_const _).mul (hD.sqrt hpos.ne'))))⟩
  filter_upwards [hr2', hev] with s hs hs'
  rw [if_neg hs, if_neg (not_lt.mpr hs'.le)]

/-- The intersection is differentiable unless the ray touches the surface. -/
theorem intercept_smooth (nwt : NewtonFn) (e : Elem)
    (hasp : ∀ sh, e.shape = some sh → sh.aspherics = none) {y i : ℝ → V3} {s0 : ℝ} (hy : Moves y s0)
    (hi : Moves i s0) (hu : ∀ᶠ s in 𝓝 s0, (i s).dot (i s) = 1) (τ : ℝ)
    (ht : e.intercept nwt (y s0) (i s0) = some τ)
    (hg : ∀ sh, e.shape = some sh → sh.curvature ≠ 0 →
      (i s0).dot (quadricNormal sh.curvature sh.conic (y s0 + τ • i s0)) ≠ 0) :
    ∃ T : ℝ → ℝ, DifferentiableAt ℝ T s0 ∧ T s0 = τ ∧
      ∀ᶠ s in 𝓝 s0, e.intercept nwt (y s) (i s) = some (T s) := by
  have plane : interceptPlane (y s0) (i s0) = some τ → ∃ T : ℝ → ℝ, DifferentiableAt ℝ T s0 ∧ T s0 = τ ∧
      ∀ᶠ s in 𝓝 s0, interceptPlane (y s) (i s) = some (T s) := by
    intro h
    unfold interceptPlane at h
    by_cases hz : (i s0).z = 0
    · rw [if_pos hz] at h; cases h
    rw [if_neg hz] at h
    refine ⟨fun s => -(y s).z / (i s).z, hy.z.neg.div hi.z hz, Option.some.inj h, ?_⟩
    filter_upwards [hi.z.continuousAt.eventually_ne hz] with s hs
    unfold interceptPlane
    rw [if_neg hs]
  unfold Elem.intercept at ht ⊢
  cases hs : e.shape with
  | none =>
    rw [hs] at ht
    exact plane ht
  | some sh =>
    rw [hs] at ht
    simp only [Shape.intercept, hasp sh hs] at ht ⊢
    by_cases hc : sh.curvature = 0
    · unfold interceptConic at ht ⊢
      simp only [hc, if_true] at ht ⊢
      exact plane ht
    have hg := hg sh hs hc
    have hu0 := norm_eq_one hu.self_of_nhds
    rw [interceptConic_eq sh _ _ hu0 hc] at ht
    dsimp only at ht
    set d : ℝ → ℝ := fun s => sh.curvature * ((i s).x * (y s).x + (i s).y * (y s).y +
      (i s).z * (y s).z * (1 + sh.conic)) - (i s).z with hd
    set E : ℝ → ℝ := fun s => quadCoeff sh.curvature sh.conic (i s) with hE
    set f : ℝ → ℝ := fun s => sh.curvature * ((y s).x ^ 2 + (y s).y ^ 2 + (y s).z ^ 2 * (1 + sh.conic))
      - 2 * (y s).z with hf
    have dd : DifferentiableAt ℝ d s0 :=
      ((((hi.x.mul hy.x).add (hi.y.mul hy.y)).add ((hi.z.mul hy.z).mul_const _)).const_mul _).sub hi.z
    have dE : DifferentiableAt ℝ E s0 :=
      (((hi.x.pow 2).add (hi.y.pow 2)).add ((hi.z.pow 2).const_mul _)).const_mul _
    have df : DifferentiableAt ℝ f s0 :=
      ((((hy.x.pow 2).add (hy.y.pow 2)).add ((hy.z.pow 2).mul_const _)).const_mul _).sub (hy.z.const_mul _)
    obtain ⟨σ, hσ⟩ : ∃ σ : ℝ, ∀ x : ℝ, (if sh.alternate then -x else x) = σ * x := by
      cases sh.alternate
      · exact ⟨1, fun x => by simp⟩
      · exact ⟨-1, fun x => by simp⟩
    simp only [hσ] at ht
    change (if d s0 ^ 2 - E s0 * f s0 < 0 then none else if E s0 = 0 then none else
      some (-(d s0 + σ * √(d s0 ^ 2 - E s0 * f s0)) / E s0)) = some τ at ht
    by_cases hneg : d s0 ^ 2 - E s0 * f s0 < 0
    · rw [if_pos hneg] at ht; cases ht
    by_cases he0 : E s0 = 0
    · rw [if_neg hneg, if_pos he0] at ht; cases ht
    rw [if_neg hneg, if_neg he0] at ht
    have hdot : (i s0).dot (quadricNormal sh.curvature sh.conic (y s0 + τ • i s0)) =
        -(d s0 + E s0 * τ) := by
      have e1 : d s0 = sh.curvature * ((i s0).x * (y s0).x + (i s0).y * (y s0).y +
        (i s0).z * (y s0).z * (1 + sh.conic)) - (i s0).z := rfl
      have e2 : E s0 = quadCoeff sh.curvature sh.conic (i s0) := rfl
      rw [e1, e2]
      simp only [quadricNormal, quadCoeff, V3.dot, add_x, add_y, add_z, smul_x, smul_y, smul_z]
      ring
    have hpos : 0 < d s0 ^ 2 - E s0 * f s0 := by
      refine lt_of_le_of_ne (not_lt.mp hneg) fun h0 => hg ?_
      rw [hdot, ← Option.some.inj ht, ← h0, Real.sqrt_zero, mul_div_assoc', mul_div_cancel_left₀ _ he0]
      ring
    have dD := (dd.pow 2).sub (dE.mul df)
    have hev : ∀ᶠ s in 𝓝 s0, 0 < d s ^ 2 - E s * f s := dD.continuousAt.eventually (lt_mem_nhds hpos)
    refine ⟨fun s => -(d s + σ * √(d s ^ 2 - E s * f s)) / E s,
      ((dd.add ((dD.sqrt hpos.ne').const_mul σ)).neg).div dE he0, Option.some.inj ht, ?_⟩
    filter_upwards [hu, hev, dE.continuousAt.eventually_ne he0] with s h1 h2 h3
    rw [interceptConic_eq sh _ _ (norm_eq_one h1) hc]
    simp only [hσ]
    change (if d s ^ 2 - E s * f s < 0 then none else if E s = 0 then none else
      some (-(d s + σ * √(d s ^ 2 - E s * f s)) / E s)) = _
    rw [if_neg (not_lt.mpr h2.le), if_neg h3]

/-- The normal of the code is that of the quadric. -/
theorem quadricNormal_eq (sh : Shape) (q r : V3) (ha : sh.aspherics = none) (hc : sh.curvature ≠ 0)
    (hq : OnQuadric sh.curvature sh.conic q) (hs : OnVertexSheet sh.curvature sh.conic q)
    (hr : sh.surfaceNormal q = some r) :
    0 < 1 - (1 + sh.conic) * sh.curvature * q.z ∧
      quadricNormal sh.curvature sh.conic q = (1 - (1 + sh.conic) * sh.curvature * q.z) • r := by
  unfold surfaceNormal at hr
  simp only [ha, hc, false_and, if_false, ne_eq, not_false_iff, if_true, rsq] at hr
  unfold OnQuadric at hq
  unfold OnVertexSheet at hs
  have hsq : 1 - (1 + sh.conic) * sh.curvature ^ 2 * (q.x * q.x + q.y * q.y) =
      (1 - (1 + sh.conic) * sh.curvature * q.z) ^ 2 := by
    linear_combination (-((1 + sh.conic) * sh.curvature)) * hq
  simp only [hsq, Real.sqrt_sq hs] at hr
  split_ifs at hr with hw
  · simp at hr
  · simp only [Option.map_some, Option.some.injEq] at hr
    subst hr
    have hw' : 0 < 1 - (1 + sh.conic) * sh.curvature * q.z := by
      rcases hs.lt_or_eq with h | h
      · exact h
      · exfalso; apply hw; rw [← h]; norm_num
    refine ⟨hw', ?_⟩
    unfold quadricNormal
    generalize 1 - (1 + sh.conic) * sh.curvature * q.z = w at hw'
    ext <;> simp <;> field_simp

/-- Specification: the ray meets the sheet of a conic surface at the vertex, and neither arrives nor leaves
along the surface. -/
def Crosses (e : Elem) (b : Row) : Prop :=
  ∀ sh, e.shape = some sh → sh.aspherics = none ∧ ∃ q i v r : V3, b.y = some q ∧ b.i = some i ∧
    b.u = some v ∧ OnVertexSheet sh.curvature sh.conic q ∧ sh.surfaceNormal q = some r ∧
    i.dot r ≠ 0 ∧ v.dot r ≠ 0

theorem smooth_propagate (nwt : NewtonFn) (l : ℝ) (e : Elem) {y i : ℝ → V3} {s0 : ℝ} (hy : Moves y s0)
    (hi : Moves i s0) (hu : ∀ᶠ s in 𝓝 s0, (i s).dot (i s) = 1) (n : ℝ) (hn : 0 < n)
    (hm : ∀ sh m, Acts e sh m → m.mirror = false → 0 < m.index l) (τ : ℝ)
    (ht : e.intercept nwt (y s0) (i s0) = some τ) (v : V3)
    (hv : (e.propagate nwt (some (y s0)) (some (i s0)) n l false).u = some v)
    (hC : ∀ sh, e.shape = some sh → sh.aspherics = none ∧ ∃ r : V3,
      OnVertexSheet sh.curvature sh.conic (y s0 + τ • i s0) ∧
      sh.surfaceNormal (y s0 + τ • i s0) = some r ∧ (i s0).dot r ≠ 0 ∧ v.dot r ≠ 0) :
    ∃ (F G : ℝ → V3) (T : ℝ → ℝ) (n' : ℝ), (∀ᶠ s in 𝓝 s0,
        e.propagate nwt (some (y s)) (some (i s)) n l false = ⟨some (F s), some (G s), n', some (T s)⟩) ∧
      Moves F s0 ∧ Moves G s0 ∧
      ∀ sh, e.shape = some sh → ∀ᶠ s in 𝓝 s0, sh.surfaceSag (F s) = some 0 := by
  have hu0 := norm_eq_one hu.self_of_nhds
  have hq0 : ∀ sh, e.shape = some sh → OnQuadric sh.curvature sh.conic (y s0 + τ • i s0) := by
    intro sh hs
    have h := ht
    simp only [Elem.intercept, hs] at h
    exact c06_on_quadric nwt sh _ _ _ (hC sh hs).1 hu0 h
  obtain ⟨T, hT, hT0, hTe⟩ := intercept_smooth nwt e (fun sh hs => (hC sh hs).1) hy hi hu τ ht (by
    intro sh hs hc
    obtain ⟨ha, r, hsh, hr, hir, -⟩ := hC sh hs
    obtain ⟨hw, he⟩ := quadricNormal_eq sh _ r ha hc (hq0 sh hs) hsh hr
    rw [he]
    have : (i s0).dot ((1 - (1 + sh.conic) * sh.curvature * (y s0 + τ • i s0).z) • r) =
        (1 - (1 + sh.conic) * sh.curvature * (y s0 + τ • i s0).z) * (i s0).dot r := by
      simp only [V3.dot, smul_x, smul_y, smul_z]; ring
    rw [this]
    exact mul_ne_zero hw.ne' hir)
  have hF : Moves (fun s => y s + T s • i s) s0 := hy.add (hi.smul hT)
  have hsheet : ∀ sh, e.shape = some sh → ∀ᶠ s in 𝓝 s0, sh.surfaceSag (y s + T s • i s) = some 0 := by
    intro sh hs
    obtain ⟨ha, r, hsh, hr, -, -⟩ := hC sh hs
    have hw : 0 < 1 - (1 + sh.conic) * sh.curvature * (y s0 + T s0 • i s0).z := by
      rw [hT0]
      by_cases hc : sh.curvature = 0
      · simp [hc]
      · exact (quadricNormal_eq sh _ r ha hc (hq0 sh hs) hsh hr).1
    have hcont : ContinuousAt (fun s => 1 - (1 + sh.conic) * sh.curvature * (y s + T s • i s).z) s0 :=
      ((differentiableAt_const _).sub (hF.z.const_mul _)).continuousAt
    filter_upwards [hTe, hu, hcont.eventually (lt_mem_nhds hw)] with s h1 h2 h3
    simp only [Elem.intercept, hs] at h1
    exact c06_on_surface nwt sh _ _ _ ha (norm_eq_one h2) h1 h3.le
  have hprop : ∀ (G : ℝ → V3) (n' : ℝ), (∀ᶠ s in 𝓝 s0, ∀ t, e.intercept nwt (y s) (i s) = some t → t = T s →
      (e.propagate nwt (some (y s)) (some (i s)) n l false).u = some (G s) ∧
      (e.propagate nwt (some (y s)) (some (i s)) n l false).n = n') → Moves G s0 →
      ∃ (F G : ℝ → V3) (T : ℝ → ℝ) (n' : ℝ), (∀ᶠ s in 𝓝 s0,
        e.propagate nwt (some (y s)) (some (i s)) n l false = ⟨some (F s), some (G s), n', some (T s)⟩) ∧
      Moves F s0 ∧ Moves G s0 ∧
      ∀ sh, e.shape = some sh → ∀ᶠ s in 𝓝 s0, sh.surfaceSag (F s) = some 0 := by
    intro G n' h hG
    refine ⟨_, G, fun s => T s * n, n', ?_, hF, hG, hsheet⟩
    filter_upwards [hTe, h] with s h1 h2
    obtain ⟨h3, h4⟩ := h2 _ h1 rfl
    have h5 : (e.propagate nwt (some (y s)) (some (i s)) n l false).y = some (y s + T s • i s) := by
      unfold Elem.propagate; cases e.shape <;> simp [h1]
    have h6 : (e.propagate nwt (some (y s)) (some (i s)) n l false).t = some (T s * n) := by
      unfold Elem.propagate; cases e.shape <;> simp [h1]
    generalize e.propagate nwt (some (y s)) (some (i s)) n l false = o at h3 h4 h5 h6
    obtain ⟨a, b, c, d⟩ := o
    simp_all
  obtain hs | ⟨sh, hs⟩ : e.shape = none ∨ ∃ sh, e.shape = some sh := by cases e.shape <;> simp
  · exact hprop i n (Eventually.of_forall fun s t h1 h2 => by
      unfold Elem.propagate; simp [hs]) hi
  · obtain ⟨ha, r, hsh, hr, hir, hvr⟩ := hC sh hs
    cases hmat : e.material.getD none with
    | none =>
      exact hprop i n (Eventually.of_forall fun s t h1 h2 => by
        unfold Elem.propagate; simp [hs, hmat, getNMu, refract]) hi
    | some m =>
      have hact : Acts e sh m := ⟨hs, hmat⟩
      have hmu : (getNMu (some m) n l).2 ≠ 0 := by
        unfold getNMu
        cases hmir : m.mirror with
        | true => simp [hmir]
        | false =>
          simp only [hmir, Bool.false_eq_true, if_false]
          exact (div_pos hn (hm sh m hact hmir)).ne'
      have hval : ∀ s t, e.intercept nwt (y s) (i s) = some t →
          (e.propagate nwt (some (y s)) (some (i s)) n l false).u =
            refract sh (some (y s + t • i s)) (some (i s)) (getNMu (some m) n l).2 ∧
          (e.propagate nwt (some (y s)) (some (i s)) n l false).n = (getNMu (some m) n l).1 := by
        intro s t h
        unfold Elem.propagate
        simp [hs, hmat, h, hmu]
      rw [(hval s0 τ ht).1] at hv
      by_cases h1 : (getNMu (some m) n l).2 = 1
      · refine hprop i _ (Eventually.of_forall fun s t h h2 => ⟨?_, (hval s t h).2⟩) hi
        rw [(hval s t h).1, h1]
        simp [refract]
      · obtain ⟨i', r', hi', hr', hv'⟩ := refract_some h1 rfl hv
        obtain rfl := Option.some.inj hi'
        rw [hr] at hr'
        obtain rfl := Option.some.inj hr'
        obtain ⟨e1, κ, hN⟩ := normal_curve sh _ r hr
        obtain ⟨R, hR, hRc⟩ := hN (fun s => y s + T s • i s) _ s0 (by simp only [hT0]) hF.choose_spec
        have hR0 : R s0 = r := by
          have := hR.self_of_nhds
          simp only [hT0] at this
          rw [hr] at this
          exact (Option.some.inj this).symm
        obtain ⟨G, hG, hGm⟩ := refractAt_smooth hi ⟨_, hRc⟩ _ v (by rw [hR0]; exact hv') (by
          rw [hR0]; exact hvr)
        refine hprop G (getNMu (some m) n l).1 ?_ hGm
        filter_upwards [hR, hG] with s h3 h4 t h5 h6
        refine ⟨?_, (hval s t h5).2⟩
        rw [(hval s t h5).1, h6]
        simp only [refract, Option.bind_some, if_neg h1, h3, h4]

/-- C93: if one ray is traced through conic surfaces and crosses them all, the rays of every differentiable
start near it are traced too, and their positions and directions at all elements are differentiable. -/
theorem c93_smooth (nwt : NewtonFn) (l : ℝ) (sys : List Elem) (hsys : ∀ e ∈ sys, Reachable e.tf)
    (hm : ∀ e ∈ sys, ∀ sh m, Acts e sh m → m.mirror = false → 0 < m.index l) (n0 : ℝ) (hn0 : 0 < n0)
    {p0 u0 : ℝ → V3} {s0 : ℝ} (hp0 : Moves p0 s0) (hu0 : Moves u0 s0)
    (hunit : ∀ᶠ s in 𝓝 s0, (u0 s).dot (u0 s) = 1) (i0 : Option V3) (t0 : Option ℝ) (tail : List Row)
    (hlen : tail.length + 1 = sys.length) (out0 : List Row)
    (hout0 : gtPropagate nwt sys l false 1 none (⟨some (p0 s0), some (u0 s0), n0, i0, t0⟩ :: tail) = some out0)
    (hcross : ∀ j (hj : j + 1 < sys.length), ∃ b : Row, out0[j + 1]? = some b ∧ b.y.isSome ∧ b.u.isSome ∧
      Crosses sys[j + 1] b) :
    ∃ (p u : ℕ → ℝ → V3) (t : ℕ → ℝ → ℝ) (n : ℕ → ℝ), Bundle nwt l false sys s0 p u t n ∧
      p 0 = p0 ∧ u 0 = u0 ∧ n 0 = n0 ∧ ∀ j < sys.length, Moves (p j) s0 ∧ Moves (u j) s0 := by
  set arr : ℝ → List Row := fun s => ⟨some (p0 s), some (u0 s), n0, i0, t0⟩ :: tail with harr
  have hl : ∀ s, (arr s).length = sys.length := fun s => by rw [harr]; simpa using hlen
  have hex : ∀ s, ∃ o, gtPropagate nwt sys l false 1 none (arr s) = some o := by
    intro s
    unfold gtPropagate
    rw [List.getElem?_eq_getElem (by omega : 1 - 1 < sys.length), harr]
    exact ⟨_, rfl⟩
  choose out hout using hex
  have hb0 : out s0 = out0 := by
    have := hout s0
    rw [show arr s0 = _ from rfl, hout0] at this
    exact (Option.some.inj this).symm
  have main : ∀ j (hj : j < sys.length), ∃ (F G : ℝ → V3) (T : ℝ → ℝ) (N : ℝ),
      (∀ᶠ s in 𝓝 s0, ∃ b : Row, (out s)[j]? = some b ∧ b.y = some (F s) ∧ b.u = some (G s) ∧ b.n = N ∧
        (0 < j → b.t = some (T s))) ∧ Moves F s0 ∧ Moves G s0 ∧
      (∀ᶠ s in 𝓝 s0, (G s).dot (G s) = 1) ∧ 0 < N ∧ (j = 0 → F = p0 ∧ G = u0 ∧ N = n0) ∧
      (0 < j → ∀ sh, sys[j].shape = some sh → ∀ᶠ s in 𝓝 s0, sh.surfaceSag (F s) = some 0) := by
    intro j
    induction j with
    | zero =>
      intro hj
      refine ⟨p0, u0, fun _ => 0, n0, Eventually.of_forall fun s => ?_, hp0, hu0, hunit, hn0,
        fun _ => ⟨rfl, rfl, rfl⟩, fun h => absurd h (lt_irrefl 0)⟩
      refine ⟨_, (trace_zero (hl s) (hout s)).trans rfl, rfl, rfl, rfl, fun h => absurd h (lt_irrefl 0)⟩
    | succ j ih =>
      intro hj
      obtain ⟨F, G, T, N, hrow, hF, hG, hGu, hN, -, -⟩ := ih (by omega)
      have hR := hsys _ (List.getElem_mem hj)
      have hR0 := hsys _ (List.getElem_mem (Nat.lt_of_succ_lt hj))
      obtain ⟨hi, hy⟩ := Bundle.arriving (sys := sys) (p := fun _ => F) (u := fun _ => G) j hj
        hF.choose_spec hG.choose_spec
      set I : ℝ → V3 := fun s => sys[j + 1].tf.toNormal (sys[j].tf.fromNormal (G s)) with hI
      set Y : ℝ → V3 := fun s => sys[j + 1].tf.toNormal (sys[j].tf.fromNormal (F s) - sys[j + 1].tf.offset)
        with hY
      have hIu : ∀ᶠ s in 𝓝 s0, (I s).dot (I s) = 1 := by
        filter_upwards [hGu] with s h
        rw [hI, (c10_dot hR _ _).2.1, (c10_dot hR0 _ _).1, h]
      have hstep : ∀ᶠ s in 𝓝 s0, (out s)[j + 1]? = some ⟨
          (sys[j + 1].propagate nwt (some (Y s)) (some (I s)) N l false).y,
          (sys[j + 1].propagate nwt (some (Y s)) (some (I s)) N l false).u,
          (sys[j + 1].propagate nwt (some (Y s)) (some (I s)) N l false).n, some (I s),
          (sys[j + 1].propagate nwt (some (Y s)) (some (I s)) N l false).t⟩ := by
        filter_upwards [hrow] with s ⟨b, hb, hby, hbu, hbn, _⟩
        obtain ⟨x, hx, hx1⟩ := trace_succ (hl s) (hout s) j hj
        rw [hb] at hx; cases hx
        rw [hx1]
        simp only [Elem.step, rayOfRow, hby, hbu, hbn, Option.map_some]
        rfl
      obtain ⟨b, hb, hby, hbu, hC⟩ := hcross j hj
      have hb' := hstep.self_of_nhds
      rw [hb0, hb] at hb'
      obtain rfl := Option.some.inj hb'
      obtain ⟨q, hq⟩ := Option.isSome_iff_exists.mp hby
      obtain ⟨v, hv⟩ := Option.isSome_iff_exists.mp hbu
      simp only at hq hv
      have hτ : ∃ τ, sys[j + 1].intercept nwt (Y s0) (I s0) = some τ ∧ q = Y s0 + τ • I s0 := by
        have h2 : (sys[j + 1].propagate nwt (some (Y s0)) (some (I s0)) N l false).y =
            (sys[j + 1].intercept nwt (Y s0) (I s0)).map fun t => Y s0 + t • I s0 := by
          unfold Elem.propagate; cases sys[j + 1].shape <;> rfl
        rw [h2, Option.map_eq_some_iff] at hq
        obtain ⟨τ, h1, h3⟩ := hq
        exact ⟨τ, h1, h3.symm⟩
      obtain ⟨τ, hτ, rfl⟩ := hτ
      obtain ⟨F', G', T', N', hprop, hF', hG', hsag⟩ := smooth_propagate nwt l sys[j + 1] ⟨_, hy⟩ ⟨_, hi⟩ hIu N
        hN (hm _ (List.getElem_mem hj)) τ hτ v hv (by
          intro sh hs
          obtain ⟨ha, q', i', v', r, h1, h2, h3, h4, h5, h6, h7⟩ := hC sh hs
          simp only at h1 h2 h3
          rw [hq] at h1
          rw [hv] at h3
          obtain rfl := Option.some.inj h1
          obtain rfl := Option.some.inj h2
          obtain rfl := Option.some.inj h3
          exact ⟨ha, r, h4, h5, h6, h7⟩)
      have hN' : 0 < N' := by
        obtain ⟨s, h1⟩ := hprop.exists
        have h2 := congrArg PropOut.n h1
        simp only at h2
        rw [← h2]
        unfold Elem.propagate
        cases hs : sys[j + 1].shape with
        | none => exact hN
        | some sh =>
          simp only
          cases hmat : sys[j + 1].material.getD none with
          | none => exact hN
          | some m =>
            unfold getNMu
            cases hmir : m.mirror with
            | true => simpa [hmir] using hN
            | false => simpa [hmir] using hm _ (List.getElem_mem hj) sh m ⟨hs, hmat⟩ hmir
      refine ⟨F', G', T', N', ?_, hF', hG', ?_, hN', fun h => absurd h (by omega), fun _ => hsag⟩
      · filter_upwards [hstep, hprop] with s h1 h2
        exact ⟨_, h1, by rw [h2], by rw [h2], by rw [h2], fun _ => by rw [h2]⟩
      · filter_upwards [hprop, hIu] with s h1 h2
        have := propagate_unit nwt false sys[j + 1] (some (Y s)) (some (I s)) N l (by
          intro w hw
          obtain rfl := Option.some.inj hw
          exact norm_eq_one h2)
        rw [h1] at this
        exact dot_self_of_norm (this _ rfl)
  choose! F G T N h1 h2 h3 h4 h5 h6 h7 using main
  have hpos : 0 < sys.length := by omega
  refine ⟨F, G, T, N, ⟨hsys, hm, h5 0 hpos, h4 0 hpos, ?_, ?_⟩, (h6 0 hpos rfl).1, (h6 0 hpos rfl).2.1,
    (h6 0 hpos rfl).2.2, fun j hj => ⟨h2 j hj, h3 j hj⟩⟩
  · have : ∀ᶠ s in 𝓝 s0, ∀ j ∈ Finset.range sys.length, ∃ b : Row, (out s)[j]? = some b ∧
        b.y = some (F j s) ∧ b.u = some (G j s) ∧ b.n = N j ∧ (0 < j → b.t = some (T j s)) := by
      rw [Filter.eventually_all_finset]
      intro j hj
      exact h1 j (Finset.mem_range.mp hj)
    filter_upwards [this] with s hs
    exact ⟨arr s, out s, hl s, hout s, fun j hj => hs j (Finset.mem_range.mpr hj)⟩
  · intro j hj sh m hA
    exact h7 (j + 1) hj (by omega) sh hA.1

/-! ### Example: moving the object in the centre of a spherical mirror -/

namespace MalusExample

/-- Rays parallel to a ray of the example through the centre: all hypotheses of `c93_smooth` hold. -/
theorem exShift (nwt : NewtonFn) : ∃ (p u : ℕ → ℝ → V3) (t : ℕ → ℝ → ℝ) (n : ℕ → ℝ),
    Bundle nwt 1 false [exObject, exMirror, exCentre] 0 p u t n ∧
      p 0 = (fun s => ⟨s, 0, 0⟩) ∧ u 0 = (fun _ => exDir (3 / 5)) ∧ n 0 = 1 ∧
      ∀ j < 3, Moves (p j) 0 ∧ Moves (u j) 0 := by
  have hs : (3 / 5 : ℝ) ∈ Set.Ioo (-1 : ℝ) 1 := ⟨by norm_num, by norm_num⟩
  have hz := exDir_pos hs
  have hu := exDir_unit hs
  have B := exBundle nwt hs
  refine c93_smooth nwt 1 [exObject, exMirror, exCentre] B.placed B.index 1 one_pos
    (p0 := fun s => ⟨s, 0, 0⟩) (u0 := fun _ => exDir (3 / 5))
    ⟨⟨1, 0, 0⟩, hasDerivAt_id _, hasDerivAt_const _ _, hasDerivAt_const _ _⟩ ⟨0, Curve.const _⟩
    (Eventually.of_forall fun _ => hu) none none [⟨none, none, 0, none, none⟩, ⟨none, none, 0, none, none⟩] rfl
    _ (exTrace nwt hs) ?_
  intro j hj
  have : j + 1 < 3 := hj
  obtain rfl | rfl : j = 0 ∨ j = 1 := by omega
  · refine ⟨_, rfl, rfl, rfl, fun sh h => ?_⟩
    obtain rfl := Option.some.inj h
    refine ⟨rfl, _, _, _, _, rfl, rfl, rfl, ?_, exMirror_normal hs, ?_, ?_⟩
    · unfold OnVertexSheet
      simp only [exPos, sub_z, smul_z]
      linarith
    · have h3 : (exDir (3 / 5)).dot ((1 / (exDir (3 / 5)).z) • exDir (3 / 5)) = 1 / (exDir (3 / 5)).z := by
        simp only [V3.dot, smul_x, smul_y, smul_z] at hu ⊢
        linear_combination (1 / (exDir (3 / 5)).z) * hu
      rw [h3]
      positivity
    · have h3 : (exAim 1 (3 / 5)).dot ((1 / (exDir (3 / 5)).z) • exDir (3 / 5)) = -(1 / (exDir (3 / 5)).z) := by
        simp only [exAim, V3.dot, smul_x, smul_y, smul_z] at hu ⊢
        linear_combination (-(1 / (exDir (3 / 5)).z)) * hu
      rw [h3]
      exact neg_ne_zero.mpr (by positivity)
  · exact ⟨_, rfl, rfl, rfl, fun sh h => by cases h⟩

/-- Turning and moving the ray: all hypotheses of `c93_symplectic` hold, and the invariant is not zero. -/
example (nwt : NewtonFn) : ∃ (p u : ℕ → ℝ → V3) (t : ℕ → ℝ → ℝ) (n : ℕ → ℝ) (dp1 du1 dp2 du2 : ℕ → V3),
    Bundle nwt 1 false [exObject, exMirror, exCentre] (3 / 5) exPos exAim (fun _ _ => 10) (fun _ => 1) ∧
    Bundle nwt 1 false [exObject, exMirror, exCentre] 0 p u t n ∧
    (du1 2).dot (dp2 2) - (du2 2).dot (dp1 2) = 1 := by
  have hs : (3 / 5 : ℝ) ∈ Set.Ioo (-1 : ℝ) 1 := ⟨by norm_num, by norm_num⟩
  obtain ⟨p, u, t, n, B, h0, h1, h2, h3⟩ := exShift nwt
  choose dp1 hdp1 using fun j => (exCurves hs j).1
  choose du1 hdu1 using fun j => (exCurves hs j).2
  choose! dp2 hdp2 using fun j hj => (h3 j hj).1
  choose! du2 hdu2 using fun j hj => (h3 j hj).2
  refine ⟨p, u, t, n, dp1, du1, dp2, du2, exBundle nwt hs, B, ?_⟩
  have := c93_symplectic (exBundle nwt hs) B dp1 du1 dp2 du2 (fun j _ => hdp1 j) (fun j _ => hdu1 j) hdp2 hdu2
    (by rw [h0]; rfl) (by rw [h1]; rfl) h2.symm 2 (by simp)
  rw [one_mul, one_mul] at this
  rw [this]
  have e1 : dp1 0 = 0 := (hdp1 0).unique (Curve.const 0)
  have e2 : dp2 0 = ⟨1, 0, 0⟩ := by
    have := hdp2 0 (by norm_num)
    rw [h0] at this
    exact this.unique ⟨hasDerivAt_id _, hasDerivAt_const _ _, hasDerivAt_const _ _⟩
  have e3 : (du1 0).x = 1 := (hdu1 0).x.unique (hasDerivAt_id _)
  rw [e1, e2]
  simp [V3.dot, e3]

end MalusExample

end RayOpt
