import Verif.Props.LimitNewton
import Verif.Props.PolySeidel

/-!
C83 for planes with aspheric terms, with the Newton search that the code runs.
-/

namespace RayOpt.Poly

open Simplex Elem Shape Topology Filter V3 Asymptotics PTrace Sys

/-- The remainder of the tangent of a power. -/
theorem power_remainder (n : ℕ) : ∃ q : ℝ → ℝ → ℝ, Continuous (Function.uncurry q) ∧
    ∀ x y, y ^ (n + 1) - x ^ (n + 1) - ((n : ℝ) + 1) * x ^ n * (y - x) = q x y * (y - x) ^ 2 := by
  induction n with
  | zero => exact ⟨fun _ _ => 0, continuous_const, fun x y => by simp⟩
  | succ n ih =>
    obtain ⟨q, hq, h⟩ := ih
    refine ⟨fun x y => ((n : ℝ) + 1) * x ^ n + y * q x y, ?_, fun x y => ?_⟩
    · have h1 : Continuous fun z : ℝ × ℝ => ((n : ℝ) + 1) * z.1 ^ n + z.2 * Function.uncurry q z := by fun_prop
      exact h1
    · have := h x y
      push_cast
      linear_combination y * this

theorem sum_remainder (g : ℕ → ℝ) (N : ℕ) : ∃ q : ℝ → ℝ → ℝ, Continuous (Function.uncurry q) ∧
    ∀ x y, (∑ i ∈ Finset.range N, g i * y ^ (i + 1)) - (∑ i ∈ Finset.range N, g i * x ^ (i + 1))
      - (∑ i ∈ Finset.range N, ((i : ℝ) + 1) * g i * x ^ i) * (y - x) = q x y * (y - x) ^ 2 := by
  choose q hq h using power_remainder
  refine ⟨fun x y => ∑ i ∈ Finset.range N, g i * q i x y, ?_, fun x y => ?_⟩
  · have h1 : Continuous fun z : ℝ × ℝ => ∑ i ∈ Finset.range N, g i * Function.uncurry (q i) z :=
      continuous_finsetSum _ fun i _ => continuous_const.mul (hq i)
    exact h1
  · rw [Finset.sum_mul, Finset.sum_mul, ← Finset.sum_sub_distrib, ← Finset.sum_sub_distrib]
    refine Finset.sum_congr rfl fun i _ => ?_
    linear_combination g i * h i x y

theorem isO_of_deriv {f : ℝ → ℝ} {f' : ℝ} (h : HasDerivAt f f' 0) (h0 : f 0 = 0) : f =O[𝓝 0] fun t => t := by
  have := h.isBigO_sub
  simpa [h0] using this

/-- On a plane with aspheric terms the step is good to fifth order: what is left of the surface function is of order
six. -/
theorem newton_sharp {tol : ℝ} (htol : 0 < tol) (n : ℕ) (sh : Shape) (l : List ℝ) (c d : ℝ)
    (ha : sh.aspherics = some l) (hc : sh.paraxCurv = some c) (h0 : sh.curvature = 0) :
    SharpHit 6 (raphson tol (n + 1)) sh ⟨0, 0, 1⟩ d := by
  intro Y U Y' U' hY hU hunit
  obtain ⟨S, F, D, S', hSd, hS0, hSz, hF, hD, hD0, hT, hT0, hint, hR, hz⟩ :=
    newton_step_near htol n sh l c 0 1 d ha hc one_ne_zero hY hU
  have hP := hit_curve hY hU hSd hS0
  have hQ := hit_curve hY hU hT hT0
  obtain ⟨G, hG, -⟩ := sag_velocity hc hQ
  refine ⟨_, _, G, hint, hT, hT0, hG, ?_⟩
  obtain ⟨q, hq, hrem⟩ := sum_remainder (fun i => l.getD i 0) l.length
  set p : ℝ → ℝ := fun x => ∑ i ∈ Finset.range l.length, l.getD i 0 * x ^ (i + 1) with hp
  set p' : ℝ → ℝ := fun x => ∑ i ∈ Finset.range l.length, ((i : ℝ) + 1) * l.getD i 0 * x ^ i with hp'
  have hsag : ∀ ρ, sagFn sh ρ = p ρ := fun ρ => (sag_asphere h0 ha ρ).1
  have hnor : ∀ ρ, normFn sh ρ = -(2 * p' ρ) := fun ρ => by
    rw [(sag_asphere h0 ha ρ).2, hp', Finset.mul_sum]
    congr 1
    exact Finset.sum_congr rfl fun i _ => by ring
  set P : ℝ → V3 := fun t => Y t + S t • U t with hPdef
  set δ : ℝ → ℝ := fun t => F t / D t with hδ
  set Q : ℝ → V3 := fun t => Y t + (S t - δ t) • U t with hQdef
  set x : ℝ → ℝ := fun t => rsq (P t) with hx
  set y : ℝ → ℝ := fun t => rsq (Q t) with hy
  set k : ℝ → ℝ := fun t => (P t).x * (U t).x + (P t).y * (U t).y with hk
  set w : ℝ → ℝ := fun t => (U t).x * (U t).x + (U t).y * (U t).y with hw
  have oPx : (fun t => (P t).x) =O[𝓝 0] fun t => t := isO_of_deriv hP.x (by rw [hP.at0]; rfl)
  have oPy : (fun t => (P t).y) =O[𝓝 0] fun t => t := isO_of_deriv hP.y (by rw [hP.at0]; rfl)
  have oQx : (fun t => (Q t).x) =O[𝓝 0] fun t => t := isO_of_deriv hQ.x (by rw [hQ.at0]; rfl)
  have oQy : (fun t => (Q t).y) =O[𝓝 0] fun t => t := isO_of_deriv hQ.y (by rw [hQ.at0]; rfl)
  have oUx : (fun t => (U t).x) =O[𝓝 0] fun t => t := isO_of_deriv hU.x (by rw [hU.at0])
  have oUy : (fun t => (U t).y) =O[𝓝 0] fun t => t := isO_of_deriv hU.y (by rw [hU.at0])
  have sq : ∀ {a b a' b' : ℝ → ℝ}, (a =O[𝓝 0] fun t => t) → (b =O[𝓝 0] fun t => t) → (a' =O[𝓝 0] fun t => t) →
      (b' =O[𝓝 0] fun t => t) → (fun t => a t * a' t + b t * b' t) =O[𝓝 0] fun t : ℝ => t ^ 2 := by
    intro a b a' b' h1 h2 h3 h4
    exact ((h1.mul h3).add (h2.mul h4)).congr_right fun t => by ring
  have ox : x =O[𝓝 0] fun t => t ^ 2 := sq oPx oPy oPx oPy
  have oy : y =O[𝓝 0] fun t => t ^ 2 := sq oQx oQy oQx oQy
  have ok : k =O[𝓝 0] fun t => t ^ 2 := sq oPx oPy oUx oUy
  have ow : w =O[𝓝 0] fun t => t ^ 2 := sq oUx oUy oUx oUy
  have lim0 : ∀ {a : ℝ → ℝ}, (a =O[𝓝 0] fun t : ℝ => t ^ 2) → Tendsto a (𝓝 0) (𝓝 0) := by
    intro a h
    refine h.trans_tendsto ?_
    have : ContinuousAt (fun t : ℝ => t ^ 2) 0 := by fun_prop
    simpa using this.tendsto
  have bdd : ∀ {h : ℝ → ℝ}, Continuous h → (fun t => h (x t)) =O[𝓝 0] fun _ => (1 : ℝ) := fun hh =>
    ((hh.tendsto 0).comp (lim0 ox)).isBigO_one ℝ
  have cp' : Continuous p' := by fun_prop
  have op : (fun t => p (x t)) =O[𝓝 0] fun t => t ^ 2 := by
    have c1 : Continuous fun z : ℝ => ∑ i ∈ Finset.range l.length, l.getD i 0 * z ^ i := by fun_prop
    refine ((bdd c1).mul ox).congr (fun t => ?_) fun t => by ring
    rw [hp, Finset.sum_mul]
    exact Finset.sum_congr rfl fun i _ => by ring
  have oD : (fun t => (D t)⁻¹) =O[𝓝 0] fun _ => (1 : ℝ) :=
    (hD.inv₀ (by rw [hD0]; exact one_ne_zero)).tendsto.isBigO_one ℝ
  have hDne := hD.eventually_ne (y := 0) (by rw [hD0]; exact one_ne_zero)
  have hFp : ∀ᶠ t in 𝓝 0, p (x t) = -F t := by
    filter_upwards [hF, hSz] with t f z
    have f1 := z_of_sag f
    rw [z, hsag] at f1
    change p (rsq (Y t + S t • U t)) = -F t
    linear_combination -f1
  have oδ : δ =O[𝓝 0] fun t => t ^ 2 := by
    refine ((op.mul oD).neg_left.congr' ?_ (.of_forall fun t => mul_one _))
    filter_upwards [hFp] with t h
    rw [h, hδ]
    ring
  have hyx : ∀ t, y t - x t = -2 * δ t * k t + δ t ^ 2 * w t := by
    intro t
    simp only [hy, hx, hk, hw, hQdef, hPdef, rsq, add_x, add_y, smul_x, smul_y]
    ring
  have oyx : (fun t => y t - x t) =O[𝓝 0] fun t => t ^ 4 := by
    have h1 := ((oδ.mul ok).const_mul_left (-2)).congr_right (fun t => by ring : ∀ t : ℝ, t ^ 2 * t ^ 2 = t ^ 4)
    have h2 := (((oδ.mul oδ).mul ow).trans (g := fun t : ℝ => t ^ 2 * t ^ 2 * t ^ 2) (isBigO_refl _ _)).congr_right
      (fun t => by ring : ∀ t : ℝ, t ^ 2 * t ^ 2 * t ^ 2 = t ^ 6)
    have h3 := h2.trans (pow_isO (show 4 ≤ 6 by norm_num))
    refine (h1.add h3).congr_left fun t => ?_
    rw [hyx]
    ring
  have oq : (fun t => q (x t) (y t)) =O[𝓝 0] fun _ => (1 : ℝ) := by
    have h1 : Tendsto (fun t => (x t, y t)) (𝓝 0) (𝓝 (0, 0)) := (lim0 ox).prodMk_nhds (lim0 oy)
    exact ((hq.tendsto (0, 0)).comp h1).isBigO_one ℝ
  have h1 : (fun t => -(p' (x t) * (δ t * δ t * w t))) =O[𝓝 0] fun t => t ^ 6 :=
    ((bdd cp').mul ((oδ.mul oδ).mul ow)).neg_left.congr_right fun t => by ring
  have h2 : (fun t => -(q (x t) (y t) * ((y t - x t) * (y t - x t)))) =O[𝓝 0] fun t => t ^ 6 :=
    ((oq.mul (oyx.mul oyx)).neg_left.congr_right (fun t => by ring : ∀ t : ℝ, 1 * (t ^ 4 * t ^ 4) = t ^ 8)).trans
      (pow_isO (by norm_num))
  refine (h1.add h2).congr' ?_ (EventuallyEq.refl _ _)
  filter_upwards [hG, hFp, hSz, hDne, hR] with t g f z hne r
  obtain ⟨R, r1, r2⟩ := r
  have g1 := z_of_sag g
  rw [hsag] at g1
  have e1 : δ t * D t = F t := div_mul_cancel₀ _ hne
  have e2 : D t = (U t).z - 2 * p' (x t) * k t := by
    have r3 := normal_of_pos (p := P t) hc (by rw [h0]; norm_num)
    rw [show P t = Y t + S t • U t from rfl, r1] at r3
    rw [r2, Option.some.inj r3]
    change (P t).x * normFn sh (x t) * (U t).x + (P t).y * normFn sh (x t) * (U t).y + 1 * (U t).z = _
    rw [hnor]
    simp only [hk]
    ring
  have e3 : (Q t).z = -(δ t * (U t).z) := by
    simp only [hQdef, add_z, smul_z] at z ⊢
    linear_combination z
  have e4 := hrem (x t) (y t)
  change p (y t) - p (x t) - p' (x t) * (y t - x t) = _ at e4
  change (Q t).z = p (y t) + G t at g1
  rw [e3] at g1
  have e5 := hyx t
  linear_combination g1 + e4 + f + e1 - δ t * e2 + p' (x t) * e5

/-- C83 with the search of the code: up to truncation order three, the default of `PolyTrace`, the condition of
`c83_taylor` on elements holds with the Newton search that the code runs. -/
theorem c83_newton_element {m : ℕ} (hm : m ≤ 3) (l n s : ℝ) (e : Elem) (haxis : RayOpt.OnAxis s e.tf) (hn : 0 < n)
    (hR : e.radius.Open) (hp : Plain m e)
    (halt : ∀ sh, e.shape = some sh → sh.aspherics = none → sh.curvature = 0 ∨ sh.alternate = false)
    (hi : ∀ g, e.mat = some g → 0 < g.index l)
    (hmir : ∀ g, e.mat = some g → g.mirror = true → n = 1 ∧ g.index l = 1) : Fitted (2 * m) scipyNewton l n s e := by
  have hcon : ∀ sh, e.shape = some sh → sh.aspherics = none → sh.curvature = 0 ∨ (sh.alternate = false ∧ 1 + sh.conic ≠ 0) := by
    intro sh h h1
    rcases hp sh h with ⟨-, h2 | ⟨h2, -⟩⟩ | ⟨h2, -⟩
    · exact .inl h2
    · exact (halt sh h h1).imp_right fun h3 => ⟨h3, by rw [h2]; norm_num⟩
    · exact .inl h2
  have hpc : ∀ sh, e.shape = some sh → sh.paraxCurv ≠ none := by
    intro sh h
    rcases hp sh h with ⟨h1, -⟩ | ⟨-, -, a, as, h1, -⟩ <;> simp [paraxCurv, h1]
  have hax : ∀ sh, e.shape = some sh → sh.aspherics = none → AxialHit scipyNewton sh ⟨0, 0, 1⟩ e.tf.distance := by
    intro sh h h1
    refine conic_hit _ sh 0 1 _ h1 ?_ (by norm_num) one_pos ?_
    · exact (hcon sh h h1).imp_right And.left
    · exact (hcon sh h h1).imp_right (by simpa using And.right)
  refine ⟨c67_newton_element l n s e haxis hn hR (fun sh h => ⟨hpc sh h, hcon sh h⟩) hi hmir, hax, fun sh h => ?_⟩
  cases ha : sh.aspherics with
  | none => exact (hax sh h ha).sharp _
  | some as =>
    obtain ⟨c, hc⟩ := Option.ne_none_iff_exists'.mp (hpc sh h)
    have h0 : sh.curvature = 0 := by
      rcases hp sh h with ⟨h1, -⟩ | ⟨h1, -⟩
      · rw [ha] at h1; cases h1
      · exact h1
    intro Y U Y' U' hY hU hunit
    obtain ⟨T, T', G, h1, h2, h3, h4, h5⟩ := newton_sharp (tol := 1 / 10 ^ 7) (by norm_num) 4 sh as c _ ha hc h0 Y U Y' U' hY hU hunit
    exact ⟨T, T', G, h1, h2, h3, h4, h5.trans (pow_isO (by omega))⟩

/-- A corrector plate with aspheric terms on a sphere of glass, and a plane image. -/
noncomputable def exPlate : List Elem :=
  [{ tf := Transform.update 5 ⟨0, 0, 1⟩ 0, radius := .fin 5, material := some (some ⟨false, true, fun _ => 3 / 2⟩),
     shape := some ⟨0, 0, some [1 / 1000, -1 / 10000], true⟩ },
   { tf := Transform.update 2 ⟨0, 0, 1⟩ 0, radius := .fin 5, material := some (some ⟨false, true, fun _ => 1⟩),
     shape := some ⟨-1 / 30, 0, none, false⟩ }]

theorem exPlate_plain : ∀ e ∈ exPlate, Plain 3 e ∧ e.shape ≠ none := by
  intro e he
  simp only [exPlate, List.mem_cons, List.not_mem_nil, or_false] at he
  rcases he with rfl | rfl
  · refine ⟨fun sh h => ?_, by simp⟩
    cases h
    exact .inr ⟨rfl, by rw [Transform.update_distance]; norm_num, _, _, rfl, by simp⟩
  · refine ⟨fun sh h => ?_, by simp⟩
    cases h
    exact .inl ⟨rfl, .inr ⟨rfl, by rw [Transform.update_distance]; norm_num⟩⟩

theorem exPlate_sharp : FittedFrom (2 * 3) scipyNewton 1 1 1 exPlate := by
  have h1 : ∀ e : Elem, e.mat.any (·.mirror) = false → sideAfter 1 e = 1 := by
    intro e h; exact if_neg (by simp [h])
  have hp := exPlate_plain
  simp only [exPlate, List.forall_mem_cons] at hp
  refine ⟨c83_newton_element le_rfl _ _ _ _ (onAxis_update 5 1 (by norm_num) (.inl rfl)) one_pos
      (show (5 : ℝ) ≠ 0 by norm_num) hp.1.1 ?_ ?_ ?_, ?_, trivial⟩
  · intro sh h; cases h; simp
  · intro m h; cases h; norm_num
  · intro m h; cases h; simp
  · rw [h1 _ (by simp [mat])]
    refine c83_newton_element le_rfl _ _ _ _ (onAxis_update 2 1 (by norm_num) (.inl rfl))
      (by norm_num [paraxN, index?, mat]) (show (5 : ℝ) ≠ 0 by norm_num) hp.2.1.1 ?_ ?_ ?_
    · intro sh h; cases h; simp
    · intro m h; cases h; norm_num
    · intro m h; cases h; simp

example (w : StartRay) : ∃ tb abi, Ctx 3 3 tb abi ∧
    ∃ st, tracePoly abi 3 1 (startState 1 0) exPlate = some st ∧ ∃ (Y U : ℝ → V3) (y : ℝ → ℝ × ℝ),
      (∀ᶠ t in 𝓝 0, (rows scipyNewton 1 true exPlate ((w.scale t).launch 1 0))[1]?.map (rayOfRow exPlate[1])
        = some ⟨some (Y t), some (U t), st.n⟩) ∧
      (∀ t, rayPoint tb.jdx st.s st.t (w.scale t) = some (y t)) ∧
      (fun t => (Y t).x - (y t).1) =O[𝓝 0] fun t => t ^ 7 := by
  have hf : Fits 3 3 := ⟨by norm_num, by norm_num, by decide +kernel⟩
  obtain ⟨tb, abi, h, -⟩ := c45_three_variables 3 hf
  have K : Ctx 3 3 tb abi := ⟨hf, h⟩
  obtain ⟨st, h1, Y, U, y, v, z, o, h2, -, h3, -, -, -, h4, -⟩ :=
    c83_taylor K (by norm_num) scipyNewton 1 1 0 true exPlate exPlate_sharp exPlate_plain w 1 exPlate[1] rfl
  exact ⟨tb, abi, K, st, h1, Y, U, y, h2, h3, h4⟩

end RayOpt.Poly
