import Verif.Props.LimitSystem
import Verif.Model.Seidel
import Mathlib.Analysis.Asymptotics.Lemmas

/-! Expansions to third order of the real trace near the axis. -/

namespace RayOpt

open V3 Shape Filter Topology Asymptotics

/-- Specification: `f` is `a t + b t³` up to an error that is small compared with `t³`. -/
def Odd3 (f : ℝ → ℝ) (a b : ℝ) : Prop :=
  (fun t => f t - (a * t + b * t ^ 3)) =o[𝓝 0] fun t => t ^ 3

/-- Specification: `g` is `c + d t²` up to an error that is small compared with `t²`. -/
def Even2 (g : ℝ → ℝ) (c d : ℝ) : Prop :=
  (fun t => g t - (c + d * t ^ 2)) =o[𝓝 0] fun t => t ^ 2

theorem pow_isO {m n : ℕ} (h : n ≤ m) : (fun t : ℝ => t ^ m) =O[𝓝 0] fun t => t ^ n := by
  rcases h.eq_or_lt with rfl | h
  · exact isBigO_refl _ _
  · exact (isLittleO_pow_pow h).isBigO

namespace Even2

variable {f g : ℝ → ℝ} {a b c d : ℝ}

theorem congr (h : Even2 f a b) (ha : a = c) (hb : b = d) : Even2 f c d := ha ▸ hb ▸ h

theorem of_eventuallyEq (h : Even2 f a b) (e : f =ᶠ[𝓝 0] g) : Even2 g a b := by
  refine h.congr' ?_ (EventuallyEq.refl _ _)
  filter_upwards [e] with t ht
  rw [ht]

theorem const (a : ℝ) : Even2 (fun _ => a) a 0 := by
  unfold Even2
  simp only [zero_mul, add_zero, sub_self]
  exact isLittleO_zero _ _

theorem add (hf : Even2 f a b) (hg : Even2 g c d) : Even2 (fun t => f t + g t) (a + c) (b + d) := by
  refine (IsLittleO.add hf hg).congr_left fun t => ?_
  ring

theorem const_mul (k : ℝ) (hf : Even2 f a b) : Even2 (fun t => k * f t) (k * a) (k * b) := by
  refine (IsLittleO.const_mul_left hf k).congr_left fun t => ?_
  ring

theorem neg (hf : Even2 f a b) : Even2 (fun t => -f t) (-a) (-b) := by
  refine (hf.const_mul (-1)).congr (by ring) (by ring) |>.of_eventuallyEq (.of_forall fun t => ?_)
  simp

theorem sub (hf : Even2 f a b) (hg : Even2 g c d) : Even2 (fun t => f t - g t) (a - c) (b - d) := by
  refine (IsLittleO.sub hf hg).congr_left fun t => ?_
  ring

theorem tendsto (hf : Even2 f a b) : Tendsto f (𝓝 0) (𝓝 a) := by
  have h1 : Tendsto (fun t => f t - (a + b * t ^ 2)) (𝓝 0) (𝓝 0) := by
    refine IsBigO.trans_tendsto hf.isBigO ?_
    have : ContinuousAt (fun t : ℝ => t ^ 2) 0 := by fun_prop
    simpa [ContinuousAt] using this
  have h2 : Tendsto (fun t : ℝ => a + b * t ^ 2) (𝓝 0) (𝓝 a) := by
    have : ContinuousAt (fun t : ℝ => a + b * t ^ 2) 0 := by fun_prop
    simpa [ContinuousAt] using this
  simpa using h1.add h2

theorem isO_sub (hf : Even2 f a b) : (fun t => f t - a) =O[𝓝 0] fun t => t ^ 2 := by
  have h1 : (fun t => f t - (a + b * t ^ 2)) =O[𝓝 0] fun t => t ^ 2 := hf.isBigO
  have h2 : (fun t : ℝ => b * t ^ 2) =O[𝓝 0] fun t => t ^ 2 := isBigO_const_mul_self _ _ _
  refine (h1.add h2).congr_left fun t => ?_
  ring

theorem isO_one (hf : Even2 f a b) : f =O[𝓝 0] fun _ => (1 : ℝ) := hf.tendsto.isBigO_one ℝ

theorem mul (hf : Even2 f a b) (hg : Even2 g c d) :
    Even2 (fun t => f t * g t) (a * c) (a * d + b * c) := by
  have h1 : (fun t => (f t - (a + b * t ^ 2)) * g t) =o[𝓝 0] fun t => t ^ 2 :=
    (IsLittleO.mul_isBigO hf hg.isO_one).congr_right fun t => by ring
  have hO : (fun t : ℝ => a + b * t ^ 2) =O[𝓝 0] fun _ => (1 : ℝ) := by
    have : ContinuousAt (fun t : ℝ => a + b * t ^ 2) 0 := by fun_prop
    exact this.tendsto.isBigO_one ℝ
  have h2 : (fun t => (a + b * t ^ 2) * (g t - (c + d * t ^ 2))) =o[𝓝 0] fun t => t ^ 2 :=
    (hO.mul_isLittleO hg).congr_right fun t => by ring
  have h3 : (fun t : ℝ => b * d * t ^ 4) =o[𝓝 0] fun t => t ^ 2 :=
    (isLittleO_pow_pow (by norm_num : 2 < 4)).const_mul_left _
  refine ((h1.add h2).add h3).congr_left fun t => ?_
  ring

/-- Composition with a function that has a derivative. -/
theorem comp {φ : ℝ → ℝ} {φ' : ℝ} (hf : Even2 f a b) (hφ : HasDerivAt φ φ' a) :
    Even2 (fun t => φ (f t)) (φ a) (φ' * b) := by
  have h1 : (fun t => φ (f t) - φ a - (f t - a) * φ') =o[𝓝 0] fun t => f t - a := by
    have := (hasDerivAt_iff_isLittleO.mp hφ).comp_tendsto hf.tendsto
    simpa [Function.comp_def] using this
  have h2 := h1.trans_isBigO hf.isO_sub
  have h3 := IsLittleO.const_mul_left hf φ'
  refine (h2.add h3).congr_left fun t => ?_
  ring

theorem sqrt (hf : Even2 f a b) (ha : 0 < a) : Even2 (fun t => √(f t)) √a (b / (2 * √a)) :=
  (hf.comp (Real.hasDerivAt_sqrt ha.ne')).congr rfl (by ring)

theorem inv (hf : Even2 f a b) (ha : a ≠ 0) : Even2 (fun t => (f t)⁻¹) a⁻¹ (-b / a ^ 2) :=
  (hf.comp (hasDerivAt_inv ha)).congr rfl (by ring)

end Even2

namespace Odd3

variable {f g : ℝ → ℝ} {a b c d : ℝ}

theorem congr (h : Odd3 f a b) (ha : a = c) (hb : b = d) : Odd3 f c d := ha ▸ hb ▸ h

theorem of_eventuallyEq (h : Odd3 f a b) (e : f =ᶠ[𝓝 0] g) : Odd3 g a b := by
  refine h.congr' ?_ (EventuallyEq.refl _ _)
  filter_upwards [e] with t ht
  rw [ht]

theorem add (hf : Odd3 f a b) (hg : Odd3 g c d) : Odd3 (fun t => f t + g t) (a + c) (b + d) := by
  refine (IsLittleO.add hf hg).congr_left fun t => ?_
  ring

theorem sub (hf : Odd3 f a b) (hg : Odd3 g c d) : Odd3 (fun t => f t - g t) (a - c) (b - d) := by
  refine (IsLittleO.sub hf hg).congr_left fun t => ?_
  ring

theorem const_mul (k : ℝ) (hf : Odd3 f a b) : Odd3 (fun t => k * f t) (k * a) (k * b) := by
  refine (IsLittleO.const_mul_left hf k).congr_left fun t => ?_
  ring

theorem isO (hf : Odd3 f a b) : f =O[𝓝 0] fun t => t := by
  have h1 : (fun t => f t - (a * t + b * t ^ 3)) =O[𝓝 0] fun t => t := by
    refine hf.isBigO.trans ?_
    simpa using pow_isO (show 1 ≤ 3 by norm_num)
  have h2 : (fun t : ℝ => a * t + b * t ^ 3) =O[𝓝 0] fun t => t := by
    refine (isBigO_const_mul_self _ _ _).add (IsBigO.const_mul_left ?_ _)
    simpa using pow_isO (show 1 ≤ 3 by norm_num)
  refine (h1.add h2).congr_left fun t => ?_
  ring

theorem mul_even (hf : Odd3 f a b) (hg : Even2 g c d) :
    Odd3 (fun t => f t * g t) (a * c) (a * d + b * c) := by
  have h1 : (fun t => (f t - (a * t + b * t ^ 3)) * g t) =o[𝓝 0] fun t => t ^ 3 :=
    (IsLittleO.mul_isBigO hf hg.isO_one).congr_right fun t => by ring
  have hO : (fun t : ℝ => a * t + b * t ^ 3) =O[𝓝 0] fun t => t := by
    refine (isBigO_const_mul_self _ _ _).add (IsBigO.const_mul_left ?_ _)
    simpa using pow_isO (show 1 ≤ 3 by norm_num)
  have h2 : (fun t => (a * t + b * t ^ 3) * (g t - (c + d * t ^ 2))) =o[𝓝 0] fun t => t ^ 3 :=
    (hO.mul_isLittleO hg).congr_right fun t => by ring
  have h3 : (fun t : ℝ => b * d * t ^ 5) =o[𝓝 0] fun t => t ^ 3 :=
    (isLittleO_pow_pow (by norm_num : 3 < 5)).const_mul_left _
  refine ((h1.add h2).add h3).congr_left fun t => ?_
  ring

theorem hasDerivAt (hf : Odd3 f a b) (h0 : f 0 = 0) : HasDerivAt f a 0 := by
  rw [hasDerivAt_iff_isLittleO]
  have h1 : (fun t => f t - (a * t + b * t ^ 3)) =o[𝓝 0] fun t => t := by
    refine hf.trans_isBigO ?_
    simpa using pow_isO (show 1 ≤ 3 by norm_num)
  have h2 : (fun t : ℝ => b * t ^ 3) =o[𝓝 0] fun t => t := by
    have : (fun t : ℝ => t ^ 3) =o[𝓝 0] fun t => t ^ 1 := isLittleO_pow_pow (by norm_num)
    simpa using this.const_mul_left b
  refine ((h1.add h2).congr_left fun t => ?_).congr_right fun t => ?_
  · simp [h0]; ring
  · simp

end Odd3

/-- A product of two functions that vanish at zero, to second order. -/
theorem even_of_deriv {f g : ℝ → ℝ} {a c : ℝ} (hf : HasDerivAt f a 0) (hg : HasDerivAt g c 0)
    (f0 : f 0 = 0) (g0 : g 0 = 0) : Even2 (fun t => f t * g t) 0 (a * c) := by
  rw [hasDerivAt_iff_isLittleO] at hf hg
  simp only [f0, g0, sub_zero, smul_eq_mul] at hf hg
  have hgO : g =O[𝓝 0] fun t => t := by
    refine (hg.isBigO.add ((isBigO_const_mul_self c (fun t : ℝ => t) (𝓝 0)))).congr_left fun t => ?_
    ring
  have h1 : (fun t => (f t - t * a) * g t) =o[𝓝 0] fun t => t ^ 2 :=
    (hf.mul_isBigO hgO).congr_right fun t => by ring
  have h2 : (fun t => a * (t * (g t - t * c))) =o[𝓝 0] fun t => t ^ 2 := by
    refine IsLittleO.const_mul_left ?_ a
    exact ((isBigO_refl (fun t : ℝ => t) (𝓝 0)).mul_isLittleO hg).congr_right fun t => by ring
  refine (h1.add h2).congr_left fun t => ?_
  ring


/-! ### The surface near its vertex -/

/-- The sag of the surface at squared distance `ρ` from the axis. -/
noncomputable def sagFn (sh : Shape) (ρ : ℝ) : ℝ :=
  sh.curvature * ρ / (1 + √(1 - (1 + sh.conic) * sh.curvature ^ 2 * ρ))
    + aspSag ρ (sh.aspherics.getD [])

/-- The factor of the transverse part of the normal. -/
noncomputable def normFn (sh : Shape) (ρ : ℝ) : ℝ :=
  -(sh.curvature / √(1 - (1 + sh.conic) * sh.curvature ^ 2 * ρ)) - aspSlope ρ (sh.aspherics.getD [])

theorem z_of_sag {sh : Shape} {p : V3} {v : ℝ} (h : sh.surfaceSag p = some v) : p.z = sagFn sh (rsq p) + v := by
  unfold surfaceSag at h
  unfold sagFn
  by_cases h0 : sh.curvature = 0
  · cases ha : sh.aspherics with
    | none =>
      simp only [h0, ha, and_self, if_true, Option.some.injEq] at h
      simp [h0, h, aspSag]
    | some l =>
      simp only [h0, ha, reduceCtorEq, and_false, if_false, ne_eq, not_true_eq_false,
        Option.map_some, Option.some.injEq] at h
      simp only [h0, Option.getD_some]
      linear_combination h
  · simp only [h0, false_and, if_false, ne_eq, not_false_eq_true, if_true] at h
    cases ha : sh.aspherics with
    | none =>
      simp only [ha] at h
      split at h
      · cases h
      · simp only [Option.some.injEq] at h
        simp only [Option.getD_none, aspSag, List.foldr_nil]
        linear_combination h
    | some l =>
      simp only [ha] at h
      split at h
      · cases h
      · simp only [Option.map_some, Option.some.injEq] at h
        simp only [Option.getD_some]
        linear_combination h

theorem normal_of_pos {sh : Shape} {p : V3} {c : ℝ} (hc : sh.paraxCurv = some c)
    (hp : 0 < 1 - (1 + sh.conic) * sh.curvature ^ 2 * rsq p) :
    sh.surfaceNormal p = some ⟨p.x * normFn sh (rsq p), p.y * normFn sh (rsq p), 1⟩ := by
  unfold surfaceNormal normFn
  have hp' : ¬ (1 - (1 + sh.conic) * sh.curvature ^ 2 * rsq p ≤ 0) := not_le.mpr hp
  unfold paraxCurv at hc
  by_cases h0 : sh.curvature = 0
  · cases ha : sh.aspherics with
    | none => simp [h0, aspSlope]
    | some l =>
      cases l with
      | nil => simp [ha] at hc
      | cons a l => simp [h0]
  · cases ha : sh.aspherics with
    | none => simp [h0, hp', aspSlope]
    | some l => simp [h0, hp']

theorem aspSag_continuous (l : List ℝ) : ContinuousAt (fun ρ => aspSag ρ l) 0 := by
  unfold aspSag
  induction l with
  | nil => exact continuousAt_const
  | cons a l ih => exact (ih.add continuousAt_const).mul continuousAt_id

theorem aspSag_zero (l : List ℝ) : aspSag 0 l = 0 := by
  cases l <;> simp [aspSag]

theorem aspSag_deriv (a : ℝ) (l : List ℝ) : HasDerivAt (fun ρ => aspSag ρ (a :: l)) a 0 := by
  have h := hasDerivAt_mul_of_zero (f := fun ρ => aspSag ρ l + a) (h := fun ρ => ρ)
    ((aspSag_continuous l).add continuousAt_const) rfl (hasDerivAt_id 0)
  simp only [aspSag_zero, zero_add, mul_one] at h
  exact h

theorem slope_deriv (a b : ℝ) (l : List ℝ) :
    HasDerivAt (fun ρ => aspSlope ρ (a :: b :: l)) (4 * b) 0 := by
  have hc : ∀ l : List (ℝ × ℕ), ContinuousAt (fun ρ : ℝ =>
      l.foldr (fun ai d => d * ρ + 2 * ((ai.2 : ℝ) + 1) * ai.1) 0) 0 := by
    intro l
    induction l with
    | nil => exact continuousAt_const
    | cons a l ih => exact (ih.mul continuousAt_id).add continuousAt_const
  have h := hasDerivAt_mul_of_zero (f := fun ρ => (l.zipIdx 2).foldr (fun ai d => d * ρ
    + 2 * ((ai.2 : ℝ) + 1) * ai.1) 0 * ρ + 4 * b) (h := fun ρ => ρ) (((hc (l.zipIdx 2)).mul
    continuousAt_id).add continuousAt_const) rfl (hasDerivAt_id (0 : ℝ))
  have h2 := h.add_const (2 * a)
  refine (h2.congr_deriv (by simp)).congr_of_eventuallyEq (.of_forall fun ρ => ?_)
  simp only [aspSlope, List.zipIdx_cons, List.foldr_cons]
  push_cast
  ring

theorem slope_zero (a : ℝ) (l : List ℝ) : aspSlope 0 (a :: l) = 2 * a := by
  simp [aspSlope, List.zipIdx_cons]

theorem root_deriv (q : ℝ) : HasDerivAt (fun ρ : ℝ => √(1 - q * ρ)) (-q / 2) 0 := by
  have h := ((hasDerivAt_id (0 : ℝ)).const_mul q).const_sub 1
  have h2 := h.sqrt (by simp)
  refine h2.congr_deriv ?_
  simp

/-- The sag near the vertex. -/
theorem sagFn_deriv {sh : Shape} {C K : ℝ} (h : sh.figure = some (C, K)) :
    HasDerivAt (sagFn sh) (C / 2) 0 ∧ sagFn sh 0 = 0 := by
  refine ⟨?_, by simp [sagFn, aspSag_zero]⟩
  have h1 := ((hasDerivAt_id (0 : ℝ)).const_mul sh.curvature).div
    ((root_deriv ((1 + sh.conic) * sh.curvature ^ 2)).const_add 1) (by simp)
  have h1' : HasDerivAt (fun ρ : ℝ => sh.curvature * ρ
      / (1 + √(1 - (1 + sh.conic) * sh.curvature ^ 2 * ρ))) (sh.curvature / 2) 0 := by
    refine h1.congr_deriv ?_
    simp
    ring
  unfold sagFn
  unfold figure at h
  rcases ha : sh.aspherics with _ | _ | ⟨a, _ | ⟨b, l⟩⟩
  · simp only [ha, Option.some.injEq, Prod.mk.injEq] at h
    rw [← h.1]
    simpa [aspSag] using h1'
  · simp only [ha, Option.some.injEq, Prod.mk.injEq] at h
    rw [← h.1]
    simpa [aspSag] using h1'
  · simp [ha] at h
  · simp only [ha, Option.some.injEq, Prod.mk.injEq] at h
    refine (h1'.add (aspSag_deriv a (b :: l))).congr_deriv ?_
    rw [← h.1]; ring

/-- The normal near the vertex. -/
theorem normFn_deriv {sh : Shape} {C K : ℝ} (h : sh.figure = some (C, K)) :
    HasDerivAt (normFn sh) (-(C ^ 3 / 2 + 4 * K)) 0 ∧ normFn sh 0 = -C := by
  have h1 := ((hasDerivAt_const (0 : ℝ) sh.curvature).div
    (root_deriv ((1 + sh.conic) * sh.curvature ^ 2)) (by simp)).neg
  have h1' : HasDerivAt (fun ρ : ℝ => -(sh.curvature
      / √(1 - (1 + sh.conic) * sh.curvature ^ 2 * ρ))) (-((1 + sh.conic) * sh.curvature ^ 3 / 2)) 0 := by
    refine h1.congr_deriv ?_
    simp
    ring
  unfold normFn
  unfold figure at h
  rcases ha : sh.aspherics with _ | _ | ⟨a, _ | ⟨b, l⟩⟩
  · simp only [ha, Option.some.injEq, Prod.mk.injEq] at h
    rw [← h.1, ← h.2]
    refine ⟨?_, by simp [aspSlope]⟩
    simp only [Option.getD_none, aspSlope, List.zipIdx_nil, List.foldr_nil, sub_zero]
    refine h1'.congr_deriv ?_
    ring
  · simp only [ha, Option.some.injEq, Prod.mk.injEq] at h
    rw [← h.1, ← h.2]
    refine ⟨?_, by simp [aspSlope]⟩
    simp only [Option.getD_some, aspSlope, List.zipIdx_nil, List.foldr_nil, sub_zero]
    refine h1'.congr_deriv ?_
    ring
  · simp [ha] at h
  · simp only [ha, Option.some.injEq, Prod.mk.injEq] at h
    rw [← h.1, ← h.2]
    refine ⟨?_, by simp only [Option.getD_some, slope_zero]; simp; ring⟩
    refine (h1'.sub (slope_deriv a b l)).congr_deriv ?_
    ring

/-! ### Refraction of slopes -/

/-- The transverse components of a vector. -/
def tr (v : V3) : Fin 2 → ℝ := ![v.x, v.y]

/-- The scalar product of two transverse vectors. -/
def dot2 (a b : Fin 2 → ℝ) : ℝ := a 0 * b 0 + a 1 * b 1

/-- Refraction and reflection of slopes: with `W` the slopes of the ray and `N` those of the normal,
the slopes after are `(mu W + G N)/(mu + G)`. -/
theorem refract_slope {W N : ℝ → Fin 2 → ℝ} {w1 w3 n1 n3 : Fin 2 → ℝ} {mu σ : ℝ}
    (hmu : (0 < mu ∧ σ = 1) ∨ (mu = -1 ∧ σ = -1)) (hW : ∀ a, Odd3 (fun t => W t a) (w1 a) (w3 a))
    (hN : ∀ a, Odd3 (fun t => N t a) (n1 a) (n3 a)) :
    ∃ G : ℝ → ℝ, Even2 G (1 - mu) (mu * (mu - 1) * (dot2 w1 n1 - dot2 n1 n1)
        - (mu ^ 2 - 1) / 2 * (dot2 w1 w1 - dot2 n1 n1)) ∧
      ∀ᶠ t in 𝓝 0, ∀ z : ℝ, 0 < z → z ^ 2 * (1 + dot2 (W t) (W t)) = 1 →
        refractAt ⟨N t 0, N t 1, 1⟩ ⟨z * W t 0, z * W t 1, z⟩ mu
          = some ⟨σ * z * (mu * W t 0 + G t * N t 0), σ * z * (mu * W t 1 + G t * N t 1),
            σ * z * (mu + G t)⟩ := by
  have hd : ∀ {A B : ℝ → Fin 2 → ℝ} {a1 a3 b1 b3 : Fin 2 → ℝ},
      (∀ a, Odd3 (fun t => A t a) (a1 a) (a3 a)) → (∀ a, Odd3 (fun t => B t a) (b1 a) (b3 a)) →
      Even2 (fun t => dot2 (A t) (B t)) 0 (dot2 a1 b1) := by
    intro A B a1 a3 b1 b3 hA hB
    have : ∀ i, Even2 (fun t => A t i * B t i) 0 (a1 i * b1 i) := by
      intro i
      have h1 : (fun t => (A t i - (a1 i * t + a3 i * t ^ 3)) * B t i) =o[𝓝 0] fun t : ℝ => t ^ 2 := by
        refine ((IsLittleO.mul_isBigO (hA i) (hB i).isO).congr_right
          (g₂ := fun t : ℝ => t ^ 4) (fun t => by ring)).trans_isBigO (pow_isO (by norm_num))
      have h2 : (fun t => (a1 i * t + a3 i * t ^ 3) * (B t i - (b1 i * t + b3 i * t ^ 3)))
          =o[𝓝 0] fun t : ℝ => t ^ 2 := by
        have hO : (fun t : ℝ => a1 i * t + a3 i * t ^ 3) =O[𝓝 0] fun t => t := by
          refine (isBigO_const_mul_self _ _ _).add (IsBigO.const_mul_left ?_ _)
          simpa using pow_isO (show 1 ≤ 3 by norm_num)
        exact ((hO.mul_isLittleO (hB i)).congr_right
          (g₂ := fun t : ℝ => t ^ 4) (fun t => by ring)).trans_isBigO (pow_isO (by norm_num))
      have h3 : (fun t : ℝ => (a1 i * b3 i + a3 i * b1 i) * t ^ 4) =o[𝓝 0] fun t => t ^ 2 :=
        (isLittleO_pow_pow (by norm_num : 2 < 4)).const_mul_left _
      have h4 : (fun t : ℝ => (a3 i * b3 i) * t ^ 6) =o[𝓝 0] fun t => t ^ 2 :=
        (isLittleO_pow_pow (by norm_num : 2 < 6)).const_mul_left _
      refine (((h1.add h2).add h3).add h4).congr_left fun t => ?_
      ring
    refine ((this 0).add (this 1)).congr (by ring) rfl
  have hWW := hd hW hW
  have hWN := hd hW hN
  have hNN := hd hN hN
  -- the reciprocal of the squared length of the normal
  have hI : Even2 (fun t => (1 + dot2 (N t) (N t))⁻¹) 1 (-dot2 n1 n1) :=
    ((((Even2.const 1).add hNN).congr (add_zero 1) (zero_add _)).inv one_ne_zero).congr
      inv_one (by ring)
  have hA : Even2 (fun t => (1 + dot2 (W t) (N t)) * (1 + dot2 (N t) (N t))⁻¹) 1
      (dot2 w1 n1 - dot2 n1 n1) :=
    ((((Even2.const 1).add hWN).congr (add_zero 1) (zero_add _)).mul hI).congr (by ring) (by ring)
  have hnn : ∀ t, 0 < 1 + dot2 (N t) (N t) := by
    intro t; unfold dot2; nlinarith [sq_nonneg (N t 0), sq_nonneg (N t 1)]
  rcases hmu with ⟨hmu, rfl⟩ | ⟨rfl, rfl⟩
  · by_cases h1 : mu = 1
    · subst h1
      refine ⟨fun _ => 0, (Even2.const 0).congr (by ring) (by ring), .of_forall fun t z hz h => ?_⟩
      simp [refractAt]
    · set A : ℝ → ℝ := fun t => mu * ((1 + dot2 (W t) (N t)) * (1 + dot2 (N t) (N t))⁻¹) with hAdef
      set B : ℝ → ℝ := fun t => (mu ^ 2 - 1) * ((1 + dot2 (W t) (W t)) * (1 + dot2 (N t) (N t))⁻¹)
        with hBdef
      have hA' : Even2 A mu (mu * (dot2 w1 n1 - dot2 n1 n1)) := (hA.const_mul mu).congr (by ring) rfl
      have hB' : Even2 B (mu ^ 2 - 1) ((mu ^ 2 - 1) * (dot2 w1 w1 - dot2 n1 n1)) :=
        (((((Even2.const 1).add hWW).congr (add_zero 1) (zero_add _)).mul hI).const_mul
          (mu ^ 2 - 1)).congr (by ring) (by ring)
      have hD : Even2 (fun t => A t * A t - B t) 1 (2 * (mu * (mu * (dot2 w1 n1 - dot2 n1 n1)))
          - (mu ^ 2 - 1) * (dot2 w1 w1 - dot2 n1 n1)) :=
        ((hA'.mul hA').sub hB').congr (by ring) (by ring)
      refine ⟨fun t => -A t + √(A t * A t - B t), ?_, ?_⟩
      · refine (hA'.neg.add (hD.sqrt one_pos)).congr ?_ ?_
        · rw [Real.sqrt_one]; ring
        · rw [Real.sqrt_one]; ring
      · filter_upwards [hD.tendsto.eventually (lt_mem_nhds one_pos)] with t ht z hz hzz
        have hr := hnn t
        have hdot : (⟨N t 0, N t 1, 1⟩ : V3).dot ⟨N t 0, N t 1, 1⟩ = 1 + dot2 (N t) (N t) := by
          simp [V3.dot, dot2]; ring
        have hud : (⟨z * W t 0, z * W t 1, z⟩ : V3).dot ⟨N t 0, N t 1, 1⟩
            = z * (1 + dot2 (W t) (N t)) := by
          simp [V3.dot, dot2]; ring
        have ha : |mu| * (⟨z * W t 0, z * W t 1, z⟩ : V3).dot ⟨N t 0, N t 1, 1⟩
            / (⟨N t 0, N t 1, 1⟩ : V3).dot ⟨N t 0, N t 1, 1⟩ = z * A t := by
          rw [hdot, hud, abs_of_pos hmu, hAdef]; field_simp
        have hb : (mu ^ 2 - 1) / (⟨N t 0, N t 1, 1⟩ : V3).dot ⟨N t 0, N t 1, 1⟩ = z ^ 2 * B t := by
          rw [hdot, hBdef]
          field_simp
          linear_combination (1 - mu ^ 2) * hzz
        have hsq : (z * A t) ^ 2 - z ^ 2 * B t = z ^ 2 * (A t * A t - B t) := by ring
        rw [refractAt_generic h1 (by linarith)]
        refine ⟨by rw [hdot]; exact hr.ne', ?_, ?_⟩
        · rw [ha, hb, hsq]; positivity
        · rw [ha, hb, hsq, Real.sqrt_mul (by positivity), Real.sqrt_sq hz.le, sign_pos hmu,
            abs_of_pos hmu]
          ext <;> simp <;> ring
  · refine ⟨fun t => 2 * ((1 + dot2 (W t) (N t)) * (1 + dot2 (N t) (N t))⁻¹), ?_, ?_⟩
    · exact (hA.const_mul 2).congr (by ring) (by ring)
    · refine .of_forall fun t z hz hzz => ?_
      have hr := hnn t
      have hdot : (⟨N t 0, N t 1, 1⟩ : V3).dot ⟨N t 0, N t 1, 1⟩ = 1 + dot2 (N t) (N t) := by
        simp [V3.dot, dot2]; ring
      have hud : (⟨z * W t 0, z * W t 1, z⟩ : V3).dot ⟨N t 0, N t 1, 1⟩
          = z * (1 + dot2 (W t) (N t)) := by
        simp [V3.dot, dot2]; ring
      unfold refractAt
      rw [if_neg (by norm_num)]
      simp only [hdot, hud, hr.ne', if_false, if_true, abs_neg, abs_one, one_mul]
      congr 1
      ext <;> simp only [sub_x, sub_y, sub_z, smul_x, smul_y, smul_z] <;> field_simp <;> ring


/-- Refraction or reflection at a surface: slopes and heights in the vertex plane after, from those
before, to third order. -/
theorem third_local {sh : Shape} {C K : ℝ} (hfig : sh.figure = some (C, K))
    (hcur : sh.paraxCurv = some C) {mu σ : ℝ} (hmu : (0 < mu ∧ σ = 1) ∨ (mu = -1 ∧ σ = -1))
    {Q U : ℝ → V3} {Q' U' : V3} (hQ : HasD Q 0 Q') (hU : HasD U ⟨0, 0, 1⟩ U')
    (hunit : ∀ᶠ t in 𝓝 0, (U t).norm = 1) {F : ℝ → ℝ} (hsag : ∀ᶠ t in 𝓝 0, sh.surfaceSag (Q t) = some (F t))
    (hF : F =o[𝓝 0] fun t => t ^ 2)
    {p1 p3 w1 w3 : Fin 2 → ℝ}
    (hP : ∀ a, Odd3 (fun t => tr (Q t) a - (Q t).z * (tr (U t) a / (U t).z)) (p1 a) (p3 a))
    (hW : ∀ a, Odd3 (fun t => tr (U t) a / (U t).z) (w1 a) (w3 a)) :
    ∃ (U2 : ℝ → V3) (G2 : ℝ), G2 = mu * (mu - 1) * (-C * dot2 w1 p1 - C ^ 2 * dot2 p1 p1)
        - (mu ^ 2 - 1) / 2 * (dot2 w1 w1 - C ^ 2 * dot2 p1 p1) ∧
      (∀ᶠ t in 𝓝 0, ∃ R, sh.surfaceNormal (Q t) = some R ∧ refractAt R (U t) mu = some (U2 t)) ∧
      (∀ a, Odd3 (fun t => tr (U2 t) a / (U2 t).z) (mu * w1 a - (1 - mu) * C * p1 a)
        (mu * w3 a + (1 - mu) * (-C * (p3 a + C / 2 * dot2 p1 p1 * w1 a)
            - (C ^ 3 / 2 + 4 * K) * dot2 p1 p1 * p1 a)
          + G2 * (-C * p1 a - (mu * w1 a - (1 - mu) * C * p1 a)))) ∧
      ∀ a, Odd3 (fun t => tr (Q t) a - (Q t).z * (tr (U2 t) a / (U2 t).z)) (p1 a)
        (p3 a + C / 2 * dot2 p1 p1 * (w1 a - (mu * w1 a - (1 - mu) * C * p1 a))) := by
  have hQz : Q'.z = 0 := sag_limit_near hcur hQ hsag (deriv_of_little hF).2
  have hQ0 : ∀ a, tr (Q 0) a = 0 := by
    intro a; rw [hQ.at0]; fin_cases a <;> simp [tr]
  have hU0 : ∀ a, tr (U 0) a = 0 := by
    intro a; rw [hU.at0]; fin_cases a <;> simp [tr]
  have hQd : ∀ a, HasDerivAt (fun t => tr (Q t) a) (tr Q' a) 0 := by
    intro a; fin_cases a
    · simpa [tr] using hQ.x
    · simpa [tr] using hQ.y
  have hz0 : (Q 0).z = 0 := by rw [hQ.at0]; rfl
  -- the velocity of the intersection point
  have hQ' : ∀ a, tr Q' a = p1 a := by
    intro a
    have h1 := (hP a).hasDerivAt (by simp [hQ0, hz0])
    have h2 := (hQd a).sub (hQ.z.mul ((hW a).hasDerivAt (by simp [hU0])))
    have := h2.unique h1
    simpa [hQz, hz0] using this
  -- squared distance from the axis
  have hρ : Even2 (fun t => rsq (Q t)) 0 (dot2 p1 p1) := by
    have hx := even_of_deriv hQ.x hQ.x (by simpa [tr] using hQ0 0) (by simpa [tr] using hQ0 0)
    have hy := even_of_deriv hQ.y hQ.y (by simpa [tr] using hQ0 1) (by simpa [tr] using hQ0 1)
    refine (hx.add hy).congr (by ring) ?_
    have e0 := hQ' 0
    have e1 := hQ' 1
    simp only [tr, Matrix.cons_val_zero, Matrix.cons_val_one] at e0 e1
    rw [dot2, ← e0, ← e1]
  -- depth of the intersection point
  have hz : Even2 (fun t => (Q t).z) 0 (C / 2 * dot2 p1 p1) := by
    obtain ⟨hd, h0⟩ := sagFn_deriv hfig
    have hF' : Even2 F 0 0 := by unfold Even2; simpa using hF
    refine ((((hρ.comp hd).congr h0 rfl).add hF').congr (by ring) (by ring)).of_eventuallyEq ?_
    filter_upwards [hsag] with t ht
    exact (z_of_sag ht).symm
  -- the intersection point
  have hQo : ∀ a, Odd3 (fun t => tr (Q t) a) (p1 a) (p3 a + C / 2 * dot2 p1 p1 * w1 a) := by
    intro a
    refine (((hP a).add ((hW a).mul_even hz)).congr (by ring) (by ring)).of_eventuallyEq
      (.of_forall fun t => ?_)
    ring
  -- the normal
  obtain ⟨hnd, hn0⟩ := normFn_deriv hfig
  have hne : Even2 (fun t => normFn sh (rsq (Q t))) (-C) (-(C ^ 3 / 2 + 4 * K) * dot2 p1 p1) :=
    (hρ.comp hnd).congr hn0 rfl
  set N : ℝ → Fin 2 → ℝ := fun t a => tr (Q t) a * normFn sh (rsq (Q t)) with hNdef
  set W : ℝ → Fin 2 → ℝ := fun t a => tr (U t) a / (U t).z with hWdef
  have hN : ∀ a, Odd3 (fun t => N t a) (-C * p1 a) (-C * (p3 a + C / 2 * dot2 p1 p1 * w1 a)
      - (C ^ 3 / 2 + 4 * K) * dot2 p1 p1 * p1 a) := by
    intro a
    exact ((hQo a).mul_even hne).congr (by ring) (by ring)
  obtain ⟨G, hG, hGr⟩ := refract_slope hmu hW hN
  have hpos : ∀ᶠ t in 𝓝 0, 0 < 1 - (1 + sh.conic) * sh.curvature ^ 2 * rsq (Q t) := by
    have := (((Even2.const 1).sub (hρ.const_mul ((1 + sh.conic) * sh.curvature ^ 2))).tendsto)
    exact this.eventually (lt_mem_nhds (by norm_num))
  have hUz : ∀ᶠ t in 𝓝 0, 0 < (U t).z := by
    have h1 : ContinuousAt (fun t => (U t).z) 0 := hU.contZ
    exact h1.eventually (lt_mem_nhds (by show 0 < (U 0).z; rw [hU.at0]; norm_num))
  set U2 : ℝ → V3 := fun t => ⟨σ * (U t).z * (mu * W t 0 + G t * N t 0),
    σ * (U t).z * (mu * W t 1 + G t * N t 1), σ * (U t).z * (mu + G t)⟩ with hU2
  have hGt := hG.tendsto
  have hmG : ∀ᶠ t in 𝓝 0, 0 < mu + G t := by
    have : Tendsto (fun t => mu + G t) (𝓝 0) (𝓝 1) := by
      have := hGt.const_add mu
      simpa using this
    exact this.eventually (lt_mem_nhds one_pos)
  have hσ : σ ≠ 0 := by rcases hmu with ⟨_, rfl⟩ | ⟨_, rfl⟩ <;> norm_num
  have hsl : ∀ a, (fun t => (mu * W t a + G t * N t a) * (mu + G t)⁻¹)
      =ᶠ[𝓝 0] fun t => tr (U2 t) a / (U2 t).z := by
    intro a
    filter_upwards [hUz, hmG] with t h1 h2
    have h3 : σ * (U t).z ≠ 0 := mul_ne_zero hσ h1.ne'
    fin_cases a <;> simp only [tr, hU2, Fin.zero_eta, Fin.mk_one, Matrix.cons_val_zero,
      Matrix.cons_val_one] <;> rw [mul_div_mul_left _ _ h3, div_eq_mul_inv]
  have hW2 : ∀ a, Odd3 (fun t => tr (U2 t) a / (U2 t).z) (mu * w1 a - (1 - mu) * C * p1 a)
        (mu * w3 a + (1 - mu) * (-C * (p3 a + C / 2 * dot2 p1 p1 * w1 a)
            - (C ^ 3 / 2 + 4 * K) * dot2 p1 p1 * p1 a)
          + (mu * (mu - 1) * (-C * dot2 w1 p1 - C ^ 2 * dot2 p1 p1)
        - (mu ^ 2 - 1) / 2 * (dot2 w1 w1 - C ^ 2 * dot2 p1 p1)) * (-C * p1 a - (mu * w1 a - (1 - mu) * C * p1 a))) := by
    intro a
    have hI := (((Even2.const mu).add hG).congr (show mu + (1 - mu) = 1 by ring) (zero_add _)).inv
      one_ne_zero
    have h1 := (((hW a).const_mul mu).add ((hN a).mul_even hG)).mul_even hI
    refine (h1.congr ?_ ?_).of_eventuallyEq ?_
    · rw [inv_one]; ring
    · simp only [dot2]; ring
    · refine EventuallyEq.trans (.of_forall fun t => ?_) (hsl a)
      simp only [hWdef]
      ring
  refine ⟨U2, _, rfl, ?_, hW2, ?_⟩
  · filter_upwards [hpos, hUz, hGr, hunit] with t h1 h2 h3 h4
    have h5 := h3 (U t).z h2 (by
      have h6 := dot_self_of_norm h4
      simp only [V3.dot] at h6
      simp only [dot2, tr, Matrix.cons_val_zero, Matrix.cons_val_one]
      field_simp
      linear_combination h6)
    refine ⟨_, normal_of_pos hcur h1, ?_⟩
    have h7 : U t = ⟨(U t).z * W t 0, (U t).z * W t 1, (U t).z⟩ := by
      ext
      · simp [hWdef, tr, mul_div_cancel₀ _ h2.ne']
      · simp [hWdef, tr, mul_div_cancel₀ _ h2.ne']
      · rfl
    rw [h7]
    exact h5
  · intro a
    refine (((hQo a).sub ((hW2 a).mul_even hz)).congr (by ring) (by ring)).of_eventuallyEq
      (.of_forall fun t => ?_)
    ring

end RayOpt
