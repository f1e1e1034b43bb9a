import Verif.Model.Raphson
import Verif.Props.Seidel

/-!
C19 and C67 for aspheric surfaces with the Newton search that the code runs.
-/

namespace RayOpt

open Elem Shape Topology Filter V3 Asymptotics PTrace

/-- Near the vertex one Newton step from the plane is taken and accepted. -/
theorem newton_step_near {tol : ℝ} (htol : 0 < tol) (n : ℕ) (sh : Shape) (l : List ℝ) (c s1 c1 d : ℝ)
    (ha : sh.aspherics = some l) (hc : sh.paraxCurv = some c) (hc1 : c1 ≠ 0) {Y U : ℝ → V3} {Y' U' : V3}
    (hY : HasD Y (-(d • ⟨0, s1, c1⟩)) Y') (hU : HasD U ⟨0, s1, c1⟩ U') :
    ∃ (S F D : ℝ → ℝ) (S' : ℝ), HasDerivAt S S' 0 ∧ S 0 = d ∧ (∀ᶠ t in 𝓝 0, (Y t + S t • U t).z = 0) ∧
      (∀ᶠ t in 𝓝 0, sh.surfaceSag (Y t + S t • U t) = some (F t)) ∧ ContinuousAt D 0 ∧ D 0 = c1 ∧
      HasDerivAt (fun t => S t - F t / D t) S' 0 ∧ S 0 - F 0 / D 0 = d ∧
      (∀ᶠ t in 𝓝 0, sh.intercept (raphson tol (n + 1)) (Y t) (U t) = some (S t - F t / D t)) ∧
      (∀ᶠ t in 𝓝 0, ∃ R, sh.surfaceNormal (Y t + S t • U t) = some R ∧ D t = R.dot (U t)) ∧
      (Y' + (S' • (⟨0, s1, c1⟩ : V3) + d • U')).z = 0 := by
  obtain ⟨S, S', hS, hSd, hS0, hSz⟩ := plane_hit hY hU hc1
  have hP := hit_curve hY hU hSd hS0
  set P' : V3 := Y' + (S' • ⟨0, s1, c1⟩ + d • U') with hP'
  have hPz : P'.z = 0 :=
    hP.z.unique ((hasDerivAt_const (0 : ℝ) (0 : ℝ)).congr_of_eventuallyEq hSz)
  obtain ⟨F, hF, hFd⟩ := sag_velocity hc hP
  rw [hPz] at hFd
  obtain ⟨R, hR, hRd⟩ := normal_limit sh c hc _ _ hP
  have hD := hRd.dot hU
  set D : ℝ → ℝ := fun t => (R t).dot (U t) with hDdef
  have hD0 : D 0 = c1 := by simp [hDdef, hRd.at0, hU.at0, V3.dot, ez]
  have hF0 : F 0 = 0 := by
    have h1 := hF.self_of_nhds
    rw [hP.at0] at h1
    have h2 : sh.surfaceSag 0 = some 0 := by
      unfold surfaceSag
      simp [rsq, ha, aspSag_eq]
    rw [h2] at h1
    exact (Option.some.inj h1).symm
  have hq : HasDerivAt (fun t => F t / D t) 0 0 := by
    refine (hFd.fun_div hD (by rw [hD0]; exact hc1)).congr_deriv ?_
    rw [hF0]; simp
  have hT : HasDerivAt (fun t => S t - F t / D t) S' 0 := by
    simpa using hSd.fun_sub hq
  have hT0 : S 0 - F 0 / D 0 = d := by rw [hF0, hS0]; simp
  refine ⟨S, F, D, S', hSd, hS0, hSz, hF, hD.continuousAt, hD0, hT, hT0, ?_, hR.mono fun t h => ⟨_, h, rfl⟩, hPz⟩
  have hDne := hD.continuousAt.eventually_ne (y := 0) (by
    show D 0 ≠ 0
    rw [hD0]; exact hc1)
  have hsmall : ∀ᶠ t in 𝓝 0, |F t / D t| < tol := by
    refine (hq.continuousAt.abs).eventually (gt_mem_nhds ?_)
    show |F 0 / D 0| < tol
    rw [hF0]; simpa using htol
  filter_upwards [hS, hF, hR, hDne, hsmall] with t h1 h2 h3 h4 h5
  unfold Shape.intercept interceptNewton
  rw [ha]
  simp only [h1, Option.bind_some, raphson, h2, h3, Option.map_some]
  by_cases h0 : F t = 0
  · rw [if_pos h0, h0]; simp
  · rw [if_neg h0, if_neg h4, if_pos]
    rw [show S t - F t / (R t).dot (U t) - S t = -(F t / D t) by ring, abs_neg]
    exact h5.le

theorem newton_hit {tol : ℝ} (htol : 0 < tol) (n : ℕ) (sh : Shape) (l : List ℝ) (c s1 c1 d : ℝ)
    (ha : sh.aspherics = some l) (hc : sh.paraxCurv = some c) (hc1 : c1 ≠ 0) :
    NearHit (raphson tol (n + 1)) sh ⟨0, s1, c1⟩ d := by
  intro Y U Y' U' hY hU hunit
  obtain ⟨S, F, D, S', hSd, hS0, hSz, hF, hD, hD0, hT, hT0, hint, -, hz⟩ :=
    newton_step_near htol n sh l c s1 c1 d ha hc hc1 hY hU
  have hQ := hit_curve hY hU hT hT0
  obtain ⟨G, hG, hGd⟩ := sag_velocity hc hQ
  rw [hz] at hGd
  refine ⟨_, _, G, hint, hT, hT0, hG, ?_, hGd⟩
  have h1 := hG.self_of_nhds
  rw [hQ.at0] at h1
  have h2 : sh.surfaceSag 0 = some 0 := by
    unfold surfaceSag
    simp [rsq, ha, aspSag_eq]
  rw [h2] at h1
  exact (Option.some.inj h1).symm

/-- The sag near the vertex in terms of the paraxial curvature. -/
theorem sag_parax {sh : Shape} {c : ℝ} (hc : sh.paraxCurv = some c) :
    HasDerivAt (sagFn sh) (c / 2) 0 ∧ sagFn sh 0 = 0 := by
  rcases ha : sh.aspherics with _ | _ | ⟨a, l⟩
  · refine sagFn_deriv (K := sh.conic * sh.curvature ^ 3 / 8) ?_
    simp only [paraxCurv, ha, Option.some.injEq] at hc
    simp [figure, ha, hc]
  · simp [paraxCurv, ha] at hc
  · refine ⟨?_, by simp [sagFn, aspSag_zero]⟩
    obtain ⟨h1, -⟩ := sagFn_deriv (sh := ⟨sh.curvature, sh.conic, none, false⟩) (C := sh.curvature)
      (K := sh.conic * sh.curvature ^ 3 / 8) rfl
    have h2 := h1.add (aspSag_deriv a l)
    simp only [paraxCurv, ha, Option.some.injEq] at hc
    refine (h2.congr_deriv (by rw [← hc]; ring)).congr_of_eventuallyEq (.of_forall fun ρ => ?_)
    simp [sagFn, ha, aspSag]

theorem rsq_even {P : ℝ → V3} {P' : V3} (h : HasD P 0 P') :
    Even2 (fun t => rsq (P t)) 0 (P'.x * P'.x + P'.y * P'.y) := by
  have hx := even_of_deriv h.x h.x (by rw [h.at0]; rfl) (by rw [h.at0]; rfl)
  have hy := even_of_deriv h.y h.y (by rw [h.at0]; rfl) (by rw [h.at0]; rfl)
  exact (hx.add hy).congr (by ring) rfl

/-- Close to the axis the step is good to second order. -/
theorem newton_close {tol : ℝ} (htol : 0 < tol) (n : ℕ) (sh : Shape) (l : List ℝ) (c d : ℝ)
    (ha : sh.aspherics = some l) (hc : sh.paraxCurv = some c) :
    CloseHit (raphson tol (n + 1)) sh ⟨0, 0, 1⟩ d := by
  intro Y U Y' U' hY hU hunit
  obtain ⟨S, F, D, S', hSd, hS0, hSz, hF, hD, hD0, hT, hT0, hint, -, hz⟩ :=
    newton_step_near htol n sh l c 0 1 d ha hc one_ne_zero hY hU
  have hP := hit_curve hY hU hSd hS0
  have hQ := hit_curve hY hU hT hT0
  obtain ⟨G, hG, -⟩ := sag_velocity hc hQ
  refine ⟨_, _, G, hint, hT, hT0, hG, ?_⟩
  obtain ⟨hd, h0⟩ := sag_parax hc
  have eP := ((rsq_even hP).comp hd).congr h0 rfl
  have eQ := ((rsq_even hQ).comp hd).congr h0 rfl
  have oP : (fun t => sagFn sh (rsq (Y t + S t • U t))) =O[𝓝 0] fun t : ℝ => t ^ 2 := by
    have h1 := eP.isBigO.add ((isBigO_refl (fun t : ℝ => t ^ 2) (𝓝 0)).const_mul_left
      (c / 2 * ((Y' + (S' • (⟨0, 0, 1⟩ : V3) + d • U')).x * (Y' + (S' • (⟨0, 0, 1⟩ : V3) + d • U')).x +
        (Y' + (S' • (⟨0, 0, 1⟩ : V3) + d • U')).y * (Y' + (S' • (⟨0, 0, 1⟩ : V3) + d • U')).y)))
    refine h1.congr_left fun t => ?_
    ring
  have hr : (fun t => (U t).z / D t - 1) =o[𝓝 0] fun _ => (1 : ℝ) := by
    rw [isLittleO_one_iff]
    have h1 : ContinuousAt (fun t => (U t).z / D t - 1) 0 :=
      (hU.contZ.div hD (by rw [hD0]; exact one_ne_zero)).sub continuousAt_const
    have h2 := h1.tendsto
    simp only [hU.at0, hD0] at h2
    simpa using h2
  have h1 := (oP.mul_isLittleO hr).congr_right (fun t => by ring : ∀ t : ℝ, t ^ 2 * 1 = t ^ 2)
  have h2 : (fun t => sagFn sh (rsq (Y t + S t • U t)) - sagFn sh (rsq (Y t + (S t - F t / D t) • U t)))
      =o[𝓝 0] fun t => t ^ 2 := by
    have := eP.sub eQ
    unfold Even2 at this
    simpa using this
  refine (h1.add h2).congr' ?_ (EventuallyEq.refl _ _)
  have hDne := hD.eventually_ne (y := 0) (by rw [hD0]; exact one_ne_zero)
  filter_upwards [hG, hF, hSz, hDne] with t g f z hne
  have g1 := z_of_sag g
  have f1 := z_of_sag f
  rw [z] at f1
  have z2 : (Y t + (S t - F t / D t) • U t).z = -(F t / D t) * (U t).z := by
    simp only [add_z, smul_z] at z ⊢
    linear_combination z
  rw [z2] at g1
  have f2 : sagFn sh (rsq (Y t + S t • U t)) = -F t := by linear_combination -f1
  rw [f2]
  linear_combination g1

/-- C19 with the search of the code: `intercept` with scipy's Newton search meets the condition of the theorems of C19
for every surface with a curvature at the vertex that is met at an angle of less than 90 degrees; only without aspheric
terms are the conditions of the closed form needed. -/
theorem c19_newton (sh : Shape) (s1 c1 d : ℝ) (hc : sh.paraxCurv ≠ none) (hsc : s1 ^ 2 + c1 ^ 2 = 1) (hc1 : 0 < c1)
    (hk : sh.aspherics = none → sh.curvature = 0 ∨ (sh.alternate = false ∧ 1 + sh.conic * c1 ^ 2 ≠ 0)) :
    NearHit scipyNewton sh ⟨0, s1, c1⟩ d := by
  obtain ⟨c, hc⟩ := Option.ne_none_iff_exists'.mp hc
  cases ha : sh.aspherics with
  | none =>
    refine (conic_hit _ sh s1 c1 d ha ?_ hsc hc1 ?_).near
    · exact (hk ha).imp_right And.left
    · exact (hk ha).imp_right And.right
  | some l => exact newton_hit (by norm_num) 4 sh l c s1 c1 d ha hc hc1.ne'

/-- C19 for whole systems with the search of the code, aspheric surfaces included: an element on the axis between
media with positive indices meets the condition of `c19_system`. -/
theorem c19_newton_element (l n s : ℝ) (e : Elem) (haxis : OnAxis s e.tf) (hn : 0 < n) (hR : e.radius.Open)
    (hsh : ∀ sh, e.shape = some sh → sh.paraxCurv ≠ none ∧
      (sh.aspherics = none → sh.curvature = 0 ∨ (sh.alternate = false ∧ 1 + sh.conic ≠ 0)))
    (hi : ∀ m, e.mat = some m → 0 < m.index l)
    (hm : ∀ m, e.mat = some m → m.mirror = true → n = 1 ∧ m.index l = 1) : Fair scipyNewton l n s e :=
  ⟨haxis, hn, hR, fun sh h => c19_newton sh 0 1 _ (hsh sh h).1 (by norm_num) one_pos
    (by simpa using (hsh sh h).2), fun sh h => (hsh sh h).1, hi, hm⟩

/-- C67 with the search of the code: the condition of the theorems of C67 holds for elements with aspheric surfaces too. -/
theorem c67_newton_element (l n s : ℝ) (e : Elem) (haxis : OnAxis s e.tf) (hn : 0 < n) (hR : e.radius.Open)
    (hsh : ∀ sh, e.shape = some sh → sh.paraxCurv ≠ none ∧
      (sh.aspherics = none → sh.curvature = 0 ∨ (sh.alternate = false ∧ 1 + sh.conic ≠ 0)))
    (hi : ∀ m, e.mat = some m → 0 < m.index l)
    (hm : ∀ m, e.mat = some m → m.mirror = true → n = 1 ∧ m.index l = 1) : Fine scipyNewton l n s e := by
  refine Fine.of haxis hn hR (fun sh h => ?_) (fun sh h => (hsh sh h).1) hi hm
  obtain ⟨h1, h2⟩ := hsh sh h
  obtain ⟨c, hc⟩ := Option.ne_none_iff_exists'.mp h1
  cases ha : sh.aspherics with
  | none =>
    refine (conic_hit _ sh 0 1 _ ha ?_ (by norm_num) one_pos ?_).close
    · exact (h2 ha).imp_right And.left
    · exact (h2 ha).imp_right (by simpa using And.right)
  | some l => exact newton_close (by norm_num) 4 sh l c _ ha hc

/-- A lens with an aspheric first surface and a plane image. -/
noncomputable def exAspheric : List Elem :=
  [{ tf := Transform.update 5 ⟨0, 0, 1⟩ 0, radius := .fin 5, material := some (some ⟨false, true, fun _ => 3 / 2⟩),
     shape := some ⟨1 / 30, -1 / 2, some [1 / 1000, -1 / 10000, 1 / 100000], true⟩ },
   { tf := Transform.update 2 ⟨0, 0, 1⟩ 0, radius := .fin 5, material := some (some ⟨false, true, fun _ => 1⟩),
     shape := some ⟨-1 / 30, 0, none, false⟩ }]

theorem exAspheric_fine : FineFrom scipyNewton 1 1 1 exAspheric := by
  have h1 : ∀ e : Elem, e.mat.any (·.mirror) = false → sideAfter 1 e = 1 := by
    intro e h; exact if_neg (by simp [h])
  refine ⟨c67_newton_element _ _ _ _ (onAxis_update 5 1 (by norm_num) (.inl rfl)) one_pos
      (show (5 : ℝ) ≠ 0 by norm_num) ?_ ?_ ?_, ?_, trivial⟩
  · intro sh h; cases h; exact ⟨by simp [paraxCurv], by simp⟩
  · intro m h; cases h; norm_num
  · intro m h; cases h; simp
  · rw [h1 _ (by simp [mat])]
    refine c67_newton_element _ _ _ _ (onAxis_update 2 1 (by norm_num) (.inl rfl)) (by norm_num [paraxN, index?, mat])
      (show (5 : ℝ) ≠ 0 by norm_num) ?_ ?_ ?_
    · intro sh h; cases h; exact ⟨by simp [paraxCurv], fun _ => .inr ⟨rfl, by norm_num⟩⟩
    · intro m h; cases h; norm_num
    · intro m h; cases h; simp

example := c19_system scipyNewton 1 1 1 true exAspheric _ _ exAspheric_fine.fair ex_near

end RayOpt
