import Verif.Model.PolyNames
import Verif.Props.PolyTaylor
import Verif.Props.SeidelExamples

/-!
Property C90: the coefficients that `PolyTrace.seidel` names are the aberrations of that name: those of
third order are the sums of `ParaxialTrace.aberrations`, and all of them are the terms of the expansion of
Buchdahl.
-/

namespace RayOpt

open Filter Topology Asymptotics

theorem pow_coeff_zero {c : ℝ} {n : ℕ} (h : (fun t : ℝ => c * t ^ n) =o[𝓝 0] fun t => t ^ n) : c = 0 := by
  by_contra hc
  have h1 : (fun t : ℝ => t ^ n) =o[𝓝 0] fun t => t ^ n := (isLittleO_const_mul_left_iff hc).mp h
  refine isLittleO_irrefl ?_ h1
  have : ∀ᶠ t : ℝ in 𝓝[≠] 0, t ^ n ≠ 0 := by
    filter_upwards [eventually_mem_nhdsWithin] with t ht
    exact pow_ne_zero _ ht
  exact this.frequently.filter_mono nhdsWithin_le_nhds

theorem Odd3.unique {f : ℝ → ℝ} {a b c d : ℝ} (h1 : Odd3 f a b) (h2 : Odd3 f c d) : a = c ∧ b = d := by
  have h : (fun t : ℝ => (a - c) * t + (b - d) * t ^ 3) =o[𝓝 0] fun t => t ^ 3 := by
    refine (IsLittleO.sub h2 h1).congr_left fun t => ?_
    ring
  have ha : a - c = 0 := by
    refine pow_coeff_zero (n := 1) ?_
    have h3 : (fun t : ℝ => t ^ 3) =o[𝓝 0] fun t => t ^ 1 := isLittleO_pow_pow (by norm_num)
    refine ((h.trans h3).sub (h3.const_mul_left (b - d))).congr_left fun t => ?_
    ring
  refine ⟨sub_eq_zero.mp ha, sub_eq_zero.mp (pow_coeff_zero (n := 3) ?_)⟩
  refine h.congr_left fun t => ?_
  rw [ha]; ring

namespace Poly

open Simplex MvPolynomial Shape Elem Sys

variable {m : ℕ} {tb : Tables} {abi : ℕ → List (ℕ × ℕ)}

/-- The coefficients of the first four terms. -/
theorem toPoly_low (K : Ctx 3 m tb abi) (hm : 2 ≤ m) (b : Co) :
    TEq 2 (toPoly 3 tb.jdx b) (C (b 0) + C (b 1) * X 0 + C (b 2) * X 1 + C (b 3) * X 2) := by
  intro e he
  rw [coeff_toPoly K.good, if_pos (by omega)]
  have hidx : ∀ (i : ℕ) (p : List ℕ), (simplexIter 3 2)[i]? = some p → tb.idx p = i := fun i p h =>
    K.good.idx i p (simplexIter_prefix 2 m hm i h)
  simp only [coeff_add, coeff_C_mul, coeff_C, coeff_X]
  have hs : e 0 + e 1 + e 2 < 2 := by
    rw [Finsupp.degree_eq_sum, Fin.sum_univ_three] at he
    exact he
  have hcase : e = 0 ∨ e = Finsupp.single 0 1 ∨ e = Finsupp.single 1 1 ∨ e = Finsupp.single 2 1 := by
    have h3 : (e 0 = 0 ∧ e 1 = 0 ∧ e 2 = 0) ∨ (e 0 = 1 ∧ e 1 = 0 ∧ e 2 = 0) ∨
        (e 0 = 0 ∧ e 1 = 1 ∧ e 2 = 0) ∨ (e 0 = 0 ∧ e 1 = 0 ∧ e 2 = 1) := by omega
    rcases h3 with ⟨a, b, c⟩ | ⟨a, b, c⟩ | ⟨a, b, c⟩ | ⟨a, b, c⟩
    · left; ext i; fin_cases i <;> simp [a, b, c]
    · right; left; ext i; fin_cases i <;> simp [a, b, c]
    · right; right; left; ext i; fin_cases i <;> simp [a, b, c]
    · right; right; right; ext i; fin_cases i <;> simp [a, b, c]
  have hne : ∀ i : Fin 3, (0 : Fin 3 →₀ ℕ) ≠ Finsupp.single i 1 := by
    intro i h
    have := DFunLike.congr_fun h i
    simp at this
  rcases hcase with rfl | rfl | rfl | rfl
  · rw [hidx 0 (tuple 0) (by simp [tuple, List.ofFn_succ]; decide +kernel)]
    simp [(hne _).symm]
  · rw [hidx 1 _ (by simp [tuple, List.ofFn_succ]; decide +kernel)]
    simp [hne, Finsupp.single_left_inj]
  · rw [hidx 2 _ (by simp [tuple, List.ofFn_succ, Finsupp.single_apply]; decide +kernel)]
    simp [hne, Finsupp.single_left_inj]
  · rw [hidx 3 _ (by simp [tuple, List.ofFn_succ, Finsupp.single_apply]; decide +kernel)]
    simp [hne, Finsupp.single_left_inj]

/-- The first two orders of an evaluated polynomial. -/
theorem eval_low (K : Ctx 3 m tb abi) (hm : 2 ≤ m) (b : Co) (r p k : ℝ) :
    ∃ g : ℝ → ℝ, (∀ t, Simplex.eval tb.jdx b [t ^ 2 * r, t ^ 2 * p, t ^ 2 * k] = some (g t)) ∧
      Even2 g (b 0) (b 1 * r + b 2 * p + b 3 * k) := by
  refine ⟨fun t => ev ![r, p, k] t (toPoly 3 tb.jdx b), fun t => ?_, ?_⟩
  · have := eval_spec K.good hm b fun i => t ^ 2 * ![r, p, k] i
    simpa [List.ofFn_succ, ev] using this
  · have h := toPoly_low K hm b
    have h2 : TEq 2 (toPoly 3 tb.jdx b - (C (b 0) + C (b 1) * X 0 + C (b 2) * X 1 + C (b 3) * X 2)) 0 := by
      intro e he
      rw [coeff_sub, h e he, sub_self, coeff_zero]
    have h3 := (high_isO ![r, p, k] h2).trans_isLittleO
      (isLittleO_pow_pow (by norm_num : 2 < 2 * 2) : (fun t : ℝ => t ^ (2 * 2)) =o[𝓝 0] fun t => t ^ 2)
    refine h3.congr_left fun t => ?_
    simp only [ev, map_sub, map_add, map_mul, MvPolynomial.eval_C, MvPolynomial.eval_X]
    simp
    ring

/-- The first and third order of `evaluate`. -/
theorem evaluate_low (K : Ctx 3 m tb abi) (hm : 2 ≤ m) (S T : Co) (x a : ℝ × ℝ) :
    ∃ y : ℝ → ℝ × ℝ,
      (∀ t, evaluateST tb.jdx S T (t * x.1, t * x.2) (t * a.1, t * a.2) = some (y t)) ∧
      Odd3 (fun t => (y t).1) (S 0 * x.1 + T 0 * a.1)
        ((S 1 * (x.1 ^ 2 + x.2 ^ 2) + S 2 * (a.1 ^ 2 + a.2 ^ 2) + S 3 * (x.1 * a.1 + x.2 * a.2)) * x.1
        + (T 1 * (x.1 ^ 2 + x.2 ^ 2) + T 2 * (a.1 ^ 2 + a.2 ^ 2) + T 3 * (x.1 * a.1 + x.2 * a.2)) * a.1) ∧
      Odd3 (fun t => (y t).2) (S 0 * x.2 + T 0 * a.2)
        ((S 1 * (x.1 ^ 2 + x.2 ^ 2) + S 2 * (a.1 ^ 2 + a.2 ^ 2) + S 3 * (x.1 * a.1 + x.2 * a.2)) * x.2
        + (T 1 * (x.1 ^ 2 + x.2 ^ 2) + T 2 * (a.1 ^ 2 + a.2 ^ 2) + T 3 * (x.1 * a.1 + x.2 * a.2)) * a.2) := by
  obtain ⟨g, hg, hg2⟩ := eval_low K hm S (x.1 ^ 2 + x.2 ^ 2) (a.1 ^ 2 + a.2 ^ 2) (x.1 * a.1 + x.2 * a.2)
  obtain ⟨h, hh, hh2⟩ := eval_low K hm T (x.1 ^ 2 + x.2 ^ 2) (a.1 ^ 2 + a.2 ^ 2) (x.1 * a.1 + x.2 * a.2)
  have id1 : ∀ c : ℝ, Odd3 (fun t => t * c) c 0 := by
    intro c
    refine (isLittleO_zero (fun t : ℝ => t ^ 3) (𝓝 0)).congr_left fun t => ?_
    ring
  refine ⟨fun t => (g t * (t * x.1) + h t * (t * a.1), g t * (t * x.2) + h t * (t * a.2)), fun t => ?_, ?_, ?_⟩
  · have e : [(t * x.1) ^ 2 + (t * x.2) ^ 2, (t * a.1) ^ 2 + (t * a.2) ^ 2,
        t * x.1 * (t * a.1) + t * x.2 * (t * a.2)] = [t ^ 2 * (x.1 ^ 2 + x.2 ^ 2),
        t ^ 2 * (a.1 ^ 2 + a.2 ^ 2), t ^ 2 * (x.1 * a.1 + x.2 * a.2)] := by
      congr 1
      · ring
      · congr 1
        · ring
        · congr 1; ring
    simp only [evaluateST, e, hg, hh, Option.bind_some, Option.map_some]
  · refine ((((id1 x.1).mul_even hg2).add ((id1 a.1).mul_even hh2)).of_eventuallyEq
      (.of_forall fun t => ?_)).congr ?_ ?_
    · simp only; ring
    · ring
    · ring
  · refine ((((id1 x.2).mul_even hg2).add ((id1 a.2).mul_even hh2)).of_eventuallyEq
      (.of_forall fun t => ?_)).congr ?_ ?_
    · simp only; ring
    · ring
    · ring

/-- The rays of the polynomial trace as curves of real rays. -/
theorem launch_near (n0 pos : ℝ) (hn : 0 < n0) (w : StartRay) :
    Near3 1 n0 (fun t => (w.scale t).launch n0 pos)
      ![w.x.1 - pos * w.u.1, w.x.2 - pos * w.u.2] 0 ![n0 * w.u.1, n0 * w.u.2] 0 := by
  have h := near3_start n0 hn ![w.x.1 - pos * w.u.1, w.x.2 - pos * w.u.2] ![n0 * w.u.1, n0 * w.u.2]
  have e : (fun t => (w.scale t).launch n0 pos) = (fun t : ℝ => (⟨some ⟨![w.x.1 - pos * w.u.1, w.x.2 - pos * w.u.2] 0 * t,
      ![w.x.1 - pos * w.u.1, w.x.2 - pos * w.u.2] 1 * t, 0⟩,
      some ((√(1 + (![n0 * w.u.1, n0 * w.u.2] 0 / n0 * t) ^ 2 + (![n0 * w.u.1, n0 * w.u.2] 1 / n0 * t) ^ 2))⁻¹ •
        ⟨![n0 * w.u.1, n0 * w.u.2] 0 / n0 * t, ![n0 * w.u.1, n0 * w.u.2] 1 / n0 * t, 1⟩), n0⟩ : Ray)) := by
    funext t
    have h1 : ∀ x : ℝ, n0 * x / n0 * t = t * x := fun x => by field_simp
    simp only [StartRay.launch, StartRay.scale, Matrix.cons_val_zero, Matrix.cons_val_one, h1]
    congr 2
    · ext <;> simp <;> ring
    · ext <;> simp <;> ring
  rw [e]
  exact h

/-- A ray that meets a plane `Spheroid` is in its plane. -/
theorem step_flat {nwt : NewtonFn} {l : ℝ} {clp : Bool} {e : Elem} {sh : Shape} {r : Ray} {q : V3}
    (he : e.shape = some sh) (hc : sh.curvature = 0) (ha : sh.aspherics = none)
    (hq : (step nwt l clp e r).1.y = some q) : q.z = 0 := by
  simp only [step, Elem.propagate] at hq
  cases hy : r.y with
  | none => simp [hy, he] at hq
  | some y =>
    cases hu : r.u with
    | none => simp [hu, he] at hq
    | some u =>
      simp only [hy, hu, Option.map_some, Option.bind_some, Elem.intercept, he, Shape.intercept, ha,
        interceptConic, hc, if_true, interceptPlane] at hq
      split at hq
      · simp at hq
      · rename_i hz
        simp only [Option.map_some, Option.some.injEq] at hq
        rw [← hq]
        simp only [V3.add_z, V3.smul_z]
        field_simp
        ring

/-- The polynomial trace at a flat image: the first order is the paraxial image, the third the sum of the
coefficients of the paraxial trace. -/
theorem image_poly (K : Ctx 3 m tb abi) (hm : 2 ≤ m) {nwt : NewtonFn} {l pos : ℝ} {obj : Elem}
    {es : List Elem} {axis : Fin 2} {ws : List ℝ} {r0 : PRow} {prows : List PRow} {c : List Seidel}
    (hn : 0 < r0.n) (hg : FittedFrom (2 * m) nwt l r0.n 1 es) (hp : ∀ e ∈ es, Plain m e ∧ e.shape ≠ none)
    (ht : PTrace.trace (obj :: es) axis l r0 = some prows)
    (hc : PTrace.aberrations (obj :: es) ws prows = some c)
    (hobj : r0.y 0 = 0 ∨ r0.u 0 = 0) (hL : PTrace.lagrange r0 ≠ 0) {j : ℕ} {e : Elem} {sh : Shape}
    {b : PRow} (he : es[j]? = some e) (hb : prows[j + 1]? = some b) (himg : b.y 0 = 0)
    (hsh : e.shape = some sh) (hcv : sh.curvature = 0) (has : sh.aspherics = none) {st : PolyState}
    (hst : tracePoly abi m l (startState r0.n pos) (es.take (j + 1)) = some st) (w : StartRay)
    (ρ τ : Fin 2 → ℝ)
    (hy : ∀ i, ![w.x.1 - pos * w.u.1, w.x.2 - pos * w.u.2] i = ρ i * r0.y 0 + τ i * r0.y 1)
    (hu : ∀ i, ![r0.n * w.u.1, r0.n * w.u.2] i = ρ i * r0.u 0 + τ i * r0.u 1) (y : ℝ → ℝ × ℝ)
    (hyt : ∀ t, rayPoint tb.jdx st.s st.t (w.scale t) = some (y t)) :
    Odd3 (fun t => (y t).1) (τ 0 * b.y 1) (b.y 1 * blurSum c ρ τ (j + 1) 0) ∧
    Odd3 (fun t => (y t).2) (τ 1 * b.y 1) (b.y 1 * blurSum c ρ τ (j + 1) 1) := by
  obtain ⟨st', hst', Y, U, y', v, z, o, h1, h2, h3, -, -, -, h7, h8, -⟩ :=
    c83_taylor K hm nwt l r0.n pos false es hg hp w j e he
  obtain rfl : st = st' := Option.some.inj (hst.symm.trans hst')
  obtain rfl : y = y' := funext fun t => Option.some.inj ((hyt t).symm.trans (h3 t))
  have hnear := launch_near r0.n pos hn w
  rw [funext hy, funext hu] at hnear
  have hpo : PointObject r0 0 0 := hobj.imp (fun h => ⟨h, fun _ => rfl⟩) fun h => ⟨h, fun _ => rfl⟩
  obtain ⟨row, w1, w3, g1, Y2, U2, Y', U', g2, -, -, -, g6, -⟩ :=
    c67_image (clp := false) hg.fine ht hc hnear hpo hL he hb himg
  have hYY : ∀ᶠ t in 𝓝 0, Y2 t = Y t ∧ (Y t).z = 0 := by
    filter_upwards [h1, g2] with t a1 a2
    rw [g1 t, Option.map_some, Option.some.injEq, a2] at a1
    have a3 : Y2 t = Y t := Option.some.inj (congrArg Ray.y a1)
    refine ⟨a3, ?_⟩
    obtain ⟨n', s', hgood⟩ := hg.fine.good e (List.mem_of_getElem? he)
    obtain ⟨r', hr'⟩ := rows_from_step he (g1 t)
    have h8 : (rayOfRow e (row t)).y = some (Y2 t) := by rw [a2]
    simp only [rayOfRow, Option.map_eq_some_iff] at h8
    obtain ⟨q, hq, hYq⟩ := h8
    rw [hr'] at hq
    rw [← a3, ← hYq, hgood.axis.back]
    simp [V3.turn, step_flat hsh hcv has hq]
  have hsmall : (fun t : ℝ => t ^ (2 * m + 1)) =o[𝓝 0] fun t => t ^ 3 :=
    isLittleO_pow_pow (by omega)
  have key : ∀ (i : Fin 2) (f : ℝ → ℝ), (∀ t, tr (Y t) i = tr (Y t) i) →
      (fun t => tr (Y t) i - f t) =O[𝓝 0] (fun t => t ^ (2 * m + 1)) →
      Odd3 f (τ i * b.y 1) (b.y 1 * blurSum c ρ τ (j + 1) i) := by
    intro i f _ hf
    have h9 := (g6 i).of_eventuallyEq (g := fun t => tr (Y t) i) (by
      filter_upwards [hYY] with t ⟨a, b⟩
      rw [a, b]; ring)
    refine (IsLittleO.sub h9 (hf.trans_isLittleO hsmall)).congr_left fun t => ?_
    ring
  exact ⟨key 0 _ (fun _ => rfl) h7, key 1 _ (fun _ => rfl) h8⟩

/-- Specification: a coefficient of `ParaxialTrace.aberrations` added up over the elements to number `j`. -/
noncomputable def sumTo (c : List Seidel) (j : ℕ) (f : Seidel → ℝ) : ℝ := ((c.take (j + 1)).map f).sum

theorem blurSum_eq (c : List Seidel) (ρ τ : Fin 2 → ℝ) (j : ℕ) (i : Fin 2) :
    blurSum c ρ τ j i = sumTo c j (·.tsc) * dot2 ρ ρ * ρ i
      + sumTo c j (·.cc) * (2 * dot2 ρ τ * ρ i + dot2 ρ ρ * τ i) + 2 * sumTo c j (·.tac) * dot2 ρ τ * τ i
      + (sumTo c j (·.tac) + sumTo c j (·.tpc)) * dot2 τ τ * ρ i + sumTo c j (·.dc) * dot2 τ τ * τ i := by
  unfold blurSum sumTo
  induction c.take (j + 1) with
  | nil => simp
  | cons a l ih =>
    rw [List.map_cons, List.sum_cons, ih]
    simp only [List.map_cons, List.sum_cons, Seidel.blur]
    ring

/-- Specification: the terms of first and third order of the polynomials of an image with height `h`, in
normalised coordinates. -/
structure IsSeidel (c : List Seidel) (h : ℝ) (j : ℕ) (S T : Co) : Prop where
  focus : S 0 = 0
  magnification : T 0 = h
  spherical : S 1 = h * sumTo c j (·.tsc)
  coma : T 1 = h * sumTo c j (·.cc)
  coma' : S 3 = 2 * (h * sumTo c j (·.cc))
  astigmatism : T 3 = 2 * (h * sumTo c j (·.tac))
  field : S 2 = h * (sumTo c j (·.tac) + sumTo c j (·.tpc))
  distortion : T 2 = h * sumTo c j (·.dc)

theorem image_coeffs (K : Ctx 3 m tb abi) (hm : 2 ≤ m) {S T s' t' : Co} {c : List Seidel} {h : ℝ} {j : ℕ}
    {W : ℝ × ℝ → ℝ × ℝ → StartRay}
    (hW : ∀ xy ab t, (W xy ab).scale t = W (t * xy.1, t * xy.2) (t * ab.1, t * ab.2))
    (hev : ∀ xy ab, evaluateST tb.jdx S T xy ab = rayPoint tb.jdx s' t' (W xy ab))
    (hi : ∀ (xy ab : ℝ × ℝ) (y : ℝ → ℝ × ℝ),
      (∀ t, rayPoint tb.jdx s' t' ((W xy ab).scale t) = some (y t)) →
      Odd3 (fun t => (y t).1) (ab.1 * h) (h * blurSum c ![xy.1, xy.2] ![ab.1, ab.2] j 0) ∧
      Odd3 (fun t => (y t).2) (ab.2 * h) (h * blurSum c ![xy.1, xy.2] ![ab.1, ab.2] j 1)) :
    IsSeidel c h j S T := by
  have key : ∀ xy ab : ℝ × ℝ, ∀ i : Fin 2,
      S 0 * ![xy.1, xy.2] i + T 0 * ![ab.1, ab.2] i = ![ab.1, ab.2] i * h ∧
      (S 1 * (xy.1 ^ 2 + xy.2 ^ 2) + S 2 * (ab.1 ^ 2 + ab.2 ^ 2) + S 3 * (xy.1 * ab.1 + xy.2 * ab.2)) * ![xy.1, xy.2] i
        + (T 1 * (xy.1 ^ 2 + xy.2 ^ 2) + T 2 * (ab.1 ^ 2 + ab.2 ^ 2) + T 3 * (xy.1 * ab.1 + xy.2 * ab.2)) * ![ab.1, ab.2] i
      = h * blurSum c ![xy.1, xy.2] ![ab.1, ab.2] j i := by
    intro xy ab i
    obtain ⟨y, h1, h2, h3⟩ := evaluate_low K hm S T xy ab
    obtain ⟨g1, g2⟩ := hi xy ab y fun t => by rw [hW, ← hev]; exact h1 t
    fin_cases i
    · exact h2.unique g1
    · exact h3.unique g2
  simp only [blurSum_eq, dot2] at key
  have k1 := key (1, 0) (0, 0) 0
  have k2 := key (0, 0) (1, 0) 0
  have k3 := key (1, 0) (0, 1) 0
  have k4 := key (1, 0) (0, 1) 1
  have k5 := key (1, 0) (1, 0) 0
  have k6 := key (1, 0) (-1, 0) 0
  simp at k1 k2 k3 k4 k5 k6
  refine ⟨?_, ?_, ?_, ?_, ?_, ?_, ?_, ?_⟩
  · linarith [k1.1]
  · linarith [k2.1]
  · linarith [k1.2]
  · linarith [k4.2, k2.2]
  · linarith [k1.2, k2.2, k3.2, k4.2, k5.2, k6.2]
  · linarith [k1.2, k2.2, k3.2, k4.2, k5.2, k6.2]
  · linarith [k3.2, k1.2]
  · linarith [k2.2]

/-- C90: for a finite object and its image in a plane, the polynomials of `transform` have as coefficients
of third order the sums of the coefficients of `ParaxialTrace.aberrations`, times the image height. -/
theorem c90_finite (K : Ctx 3 m tb abi) (hm : 2 ≤ m) (hw : SmallMultinom 3 m) :
    ∃ N, ∀ fuel ≥ N, ∀ {nwt : NewtonFn} {l pos pr orad dist : ℝ} {flag : Bool} {obj : Elem}
    {es : List Elem} {axis : Fin 2} {ws : List ℝ} {n0 : ℝ} {prows : List PRow} {c : List Seidel}
    {j : ℕ} {e : Elem} {sh : Shape} {b : PRow} {st : PolyState},
    0 < n0 → FittedFrom (2 * m) nwt l n0 1 es → (∀ e ∈ es, Plain m e ∧ e.shape ≠ none) →
    pr ≠ 0 → orad ≠ 0 → dist ≠ 0 → (flag = true → |orad / dist| < |pr / dist|) →
    pos = startPlane flag (pr / dist) (orad / dist) dist →
    PTrace.trace (obj :: es) axis l ⟨n0, ![0, -orad], ![n0 * (pr / dist), n0 * (orad / dist)]⟩ = some prows →
    PTrace.aberrations (obj :: es) ws prows = some c →
    es[j]? = some e → prows[j + 1]? = some b → b.y 0 = 0 → e.shape = some sh → sh.curvature = 0 →
    sh.aspherics = none →
    tracePoly abi m l (startState n0 pos) (es.take (j + 1)) = some st →
    ∃ S T, transformST fuel tb (conjugateParams pr (pr / dist) (orad / dist) orad) st.s st.t = some (S, T) ∧
      IsSeidel c (b.y 1) (j + 1) S T := by
  obtain ⟨N, hN⟩ := c71_evaluate K.fits hm hw (simplexIdx_some K.idx).1
  refine ⟨N, fun fuel hf => ?_⟩
  intro nwt l pos pr orad dist flag obj es axis ws n0 prows c j e sh b st hn hg hp hpr hor hd hflag hpos
    ht hc he hb himg hsh hcv has hst
  obtain ⟨⟨S, T⟩, h1, -⟩ := hN fuel hf pr (pr / dist) (orad / dist) orad st.s st.t (0, 0) (0, 0)
  refine ⟨S, T, h1, image_coeffs K hm (s' := st.s) (t' := st.t)
    (W := evalRay pr (pr / dist) (orad / dist) orad) ?_ ?_ ?_⟩
  · intro xy ab t
    unfold evalRay
    split <;> simp only [StartRay.scale, StartRay.mk.injEq, Prod.mk.injEq] <;>
      refine ⟨⟨?_, ?_⟩, ?_, ?_⟩ <;> ring
  · intro xy ab
    obtain ⟨b', h1', h2, h3⟩ := hN fuel hf pr (pr / dist) (orad / dist) orad st.s st.t xy ab
    obtain rfl : (S, T) = b' := Option.some.inj (h1.symm.trans h1')
    unfold evalRay
    split
    · exact h3 ‹_›
    · exact h2 (not_lt.mp ‹_›)
  · intro xy ab y hy
    obtain ⟨⟨g1, g2⟩, g3, g4⟩ := c71_conjugates pr orad dist hd flag hflag xy ab rfl hpos
    set w := evalRay pr (pr / dist) (orad / dist) orad xy ab
    have hyr : ∀ i, ![w.x.1 - pos * w.u.1, w.x.2 - pos * w.u.2] i
        = ![xy.1, xy.2] i * ![0, -orad] 0 + ![ab.1, ab.2] i * ![0, -orad] 1 := by
      intro i
      fin_cases i <;> simp
      · linarith
      · linarith
    have hur : ∀ i, ![n0 * w.u.1, n0 * w.u.2] i = ![xy.1, xy.2] i * ![n0 * (pr / dist), n0 * (orad / dist)] 0
        + ![ab.1, ab.2] i * ![n0 * (pr / dist), n0 * (orad / dist)] 1 := by
      have e1 : w.u.1 = xy.1 * (pr / dist) + ab.1 * (orad / dist) := by
        field_simp; linarith
      have e2 : w.u.2 = xy.2 * (pr / dist) + ab.2 * (orad / dist) := by
        field_simp; linarith
      intro i
      fin_cases i <;> simp [e1, e2] <;> ring
    have hL : PTrace.lagrange ⟨n0, ![0, -orad], ![n0 * (pr / dist), n0 * (orad / dist)]⟩ ≠ 0 := by
      simp [PTrace.lagrange, hn.ne', hpr, hor, hd]
    have := image_poly K hm (r0 := ⟨n0, ![0, -orad], ![n0 * (pr / dist), n0 * (orad / dist)]⟩) hn hg hp ht hc
      (.inl rfl) hL he hb himg hsh hcv has hst w _ _ hyr hur y hy
    simpa using this

/-- C90: the same for an object at infinity, whose polynomials are not normalised: `pr` is the radius of the
pupil, `σ` the slope of the chief ray. -/
theorem c90_infinite (K : Ctx 3 m tb abi) (hm : 2 ≤ m) {nwt : NewtonFn} {l pos pr σ : ℝ} {obj : Elem}
    {es : List Elem} {axis : Fin 2} {ws : List ℝ} {n0 : ℝ} {prows : List PRow} {c : List Seidel}
    {j : ℕ} {e : Elem} {sh : Shape} {b : PRow} {st : PolyState}
    (hn : 0 < n0) (hg : FittedFrom (2 * m) nwt l n0 1 es) (hp : ∀ e ∈ es, Plain m e ∧ e.shape ≠ none)
    (hpr : pr ≠ 0) (hσ : σ ≠ 0)
    (ht : PTrace.trace (obj :: es) axis l ⟨n0, ![pr, -σ * pos], ![0, n0 * σ]⟩ = some prows)
    (hc : PTrace.aberrations (obj :: es) ws prows = some c) (he : es[j]? = some e)
    (hb : prows[j + 1]? = some b) (himg : b.y 0 = 0) (hsh : e.shape = some sh) (hcv : sh.curvature = 0)
    (has : sh.aspherics = none)
    (hst : tracePoly abi m l (startState n0 pos) (es.take (j + 1)) = some st) :
    st.s 0 = 0 ∧ st.t 0 * σ = b.y 1 ∧
    st.s 1 * pr ^ 3 = b.y 1 * sumTo c (j + 1) (·.tsc) ∧
    st.t 1 * (pr ^ 2 * σ) = b.y 1 * sumTo c (j + 1) (·.cc) ∧
    st.s 3 * (pr ^ 2 * σ) = 2 * (b.y 1 * sumTo c (j + 1) (·.cc)) ∧
    st.t 3 * (pr * σ ^ 2) = 2 * (b.y 1 * sumTo c (j + 1) (·.tac)) ∧
    st.s 2 * (pr * σ ^ 2) = b.y 1 * (sumTo c (j + 1) (·.tac) + sumTo c (j + 1) (·.tpc)) ∧
    st.t 2 * σ ^ 3 = b.y 1 * sumTo c (j + 1) (·.dc) := by
  have key : ∀ xy ab : ℝ × ℝ, ∀ i : Fin 2,
      st.s 0 * (pr * ![xy.1, xy.2] i) + st.t 0 * (σ * ![ab.1, ab.2] i) = ![ab.1, ab.2] i * b.y 1 ∧
      (st.s 1 * (pr ^ 2 * (xy.1 ^ 2 + xy.2 ^ 2)) + st.s 2 * (σ ^ 2 * (ab.1 ^ 2 + ab.2 ^ 2))
        + st.s 3 * (pr * σ * (xy.1 * ab.1 + xy.2 * ab.2))) * (pr * ![xy.1, xy.2] i)
      + (st.t 1 * (pr ^ 2 * (xy.1 ^ 2 + xy.2 ^ 2)) + st.t 2 * (σ ^ 2 * (ab.1 ^ 2 + ab.2 ^ 2))
        + st.t 3 * (pr * σ * (xy.1 * ab.1 + xy.2 * ab.2))) * (σ * ![ab.1, ab.2] i)
      = b.y 1 * blurSum c ![xy.1, xy.2] ![ab.1, ab.2] (j + 1) i := by
    intro xy ab i
    obtain ⟨y, h1, h2, h3⟩ := evaluate_low K hm st.s st.t (pr * xy.1, pr * xy.2) (σ * ab.1, σ * ab.2)
    have hL : PTrace.lagrange ⟨n0, ![pr, -σ * pos], ![0, n0 * σ]⟩ ≠ 0 := by
      simp [PTrace.lagrange, hn.ne', hpr, hσ]
    obtain ⟨g1, g2⟩ := image_poly K hm (r0 := ⟨n0, ![pr, -σ * pos], ![0, n0 * σ]⟩) hn hg hp ht hc (.inr rfl) hL
      he hb himg hsh hcv has hst ⟨(pr * xy.1, pr * xy.2), (σ * ab.1, σ * ab.2)⟩ ![xy.1, xy.2] ![ab.1, ab.2]
      (by intro i; fin_cases i <;> simp <;> ring) (by intro i; fin_cases i <;> simp <;> ring) y
      (fun t => h1 t)
    fin_cases i
    · obtain ⟨a1, a2⟩ := h2.unique g1
      simp only [Fin.zero_eta, Matrix.cons_val_zero] at a1 a2 ⊢
      refine ⟨by linarith, ?_⟩
      linear_combination a2
    · obtain ⟨a1, a2⟩ := h3.unique g2
      simp only [Fin.mk_one, Matrix.cons_val_one, Matrix.cons_val_zero] at a1 a2 ⊢
      refine ⟨by linarith, ?_⟩
      linear_combination a2
  simp only [blurSum_eq, dot2] at key
  have k1 := key (1, 0) (0, 0) 0
  have k2 := key (0, 0) (1, 0) 0
  have k3 := key (1, 0) (0, 1) 0
  have k4 := key (1, 0) (0, 1) 1
  have k5 := key (1, 0) (1, 0) 0
  have k6 := key (1, 0) (-1, 0) 0
  simp [hpr] at k1 k2 k3 k4 k5 k6
  refine ⟨k1.1, by linarith [k2.1], ?_, ?_, ?_, ?_, ?_, ?_⟩
  · linear_combination k1.2
  · linear_combination k4.2 - k2.2
  · linear_combination (k5.2 - k6.2) / 2 - k4.2
  · linear_combination (k5.2 + k6.2) / 2 - k3.2
  · linear_combination k3.2 - k1.2
  · linear_combination k2.2

/-- C90: `seidel` names them so: spherical aberration, coma, astigmatism, Petzval curvature and distortion
of third order, the signs of coma and distortion turned over. -/
theorem c90_names {c : List Seidel} {h : ℝ} {j : ℕ} {S T : Co} (H : IsSeidel c h j S T) {q : ℕ} (hq : 9 < q) :
    ∃ rest, seidel q S T = some (("s1", h * sumTo c j (·.tsc)) :: ("s2", -(h * sumTo c j (·.cc)))
      :: ("s3", h * sumTo c j (·.tac)) :: ("s4", h * sumTo c j (·.tpc))
      :: ("s5", -(h * sumTo c j (·.dc))) :: rest) := by
  rw [seidel, if_neg (by omega)]
  simp only [H.spherical, H.coma, H.astigmatism, H.field, H.distortion, Option.some.injEq, List.cons.injEq,
    Prod.mk.injEq, true_and]
  exact ⟨_, by ring, by ring, rfl⟩

theorem simplexIter_prefix3 (hm : 3 ≤ m) (i : ℕ) {p : List ℕ}
    (h : (simplexIter 3 3)[i]? = some p) : (simplexIter 3 m)[i]? = some p := by
  obtain ⟨n, rfl⟩ := Nat.exists_eq_add_of_le hm
  have e : simplexIter 3 (3 + n) = simplexIter 3 3 ++
      ((List.range n).map (3 + ·)).flatMap (fun i =>
        (simplexIter 2 (i + 1)).map fun j => (i - j.sum) :: j) := by
    simp only [simplexIter]
    rw [List.range_add, List.flatMap_append]
  rw [e, List.getElem?_append_left]
  · exact h
  · exact (List.getElem?_eq_some_iff.mp h).1

/-- The coefficients of the first ten terms. -/
theorem toPoly_low3 (K : Ctx 3 m tb abi) (hm : 3 ≤ m) (b : Co) :
    TEq 3 (toPoly 3 tb.jdx b) (toPoly 3 (simplexIter 3 3) b) := by
  obtain ⟨tb3, abi3, h3, -⟩ := c45_three_variables 3 ⟨by norm_num, by norm_num, by decide +kernel⟩
  have K3 : Ctx 3 3 tb3 abi3 := ⟨⟨by norm_num, by norm_num, by decide +kernel⟩, h3⟩
  intro e he
  rw [← K3.good.jdx, coeff_toPoly K.good, coeff_toPoly K3.good, if_pos (by omega), if_pos he]
  have hmem : tuple e ∈ simplexIter 3 3 := by
    rw [K3.good.mem, tuple_length, tuple_sum]; exact ⟨rfl, he⟩
  obtain ⟨i, hi⟩ := List.getElem?_of_mem hmem
  rw [K3.good.idx i _ hi, K.good.idx i _ (simplexIter_prefix3 hm i hi)]

theorem eval_toPoly3 (b : Co) (v : Fin 3 → ℝ) : MvPolynomial.eval v (toPoly 3 (simplexIter 3 3) b)
    = b 0 + b 1 * v 0 + b 2 * v 1 + b 3 * v 2 + b 4 * v 0 ^ 2 + b 5 * (v 0 * v 1) + b 6 * (v 0 * v 2)
      + b 7 * v 1 ^ 2 + b 8 * (v 1 * v 2) + b 9 * v 2 ^ 2 := by
  have e : simplexIter 3 3 = [[0, 0, 0], [1, 0, 0], [0, 1, 0], [0, 0, 1], [2, 0, 0], [1, 1, 0], [1, 0, 1],
    [0, 2, 0], [0, 1, 1], [0, 0, 2]] := by decide +kernel
  rw [e, toPoly]
  simp [Finset.sum_range_succ, MvPolynomial.eval_monomial, Finsupp.prod_fintype, Fin.prod_univ_three]

/-- The first three orders of an evaluated polynomial. -/
theorem eval_low3 (K : Ctx 3 m tb abi) (hm : 3 ≤ m) (b : Co) (r p k : ℝ) :
    ∃ g : ℝ → ℝ, (∀ t, Simplex.eval tb.jdx b [t ^ 2 * r, t ^ 2 * p, t ^ 2 * k] = some (g t)) ∧
      (fun t => g t - (b 0 + t ^ 2 * (b 1 * r + b 2 * p + b 3 * k) + t ^ 4 * (b 4 * r ^ 2 + b 5 * (r * p)
        + b 6 * (r * k) + b 7 * p ^ 2 + b 8 * (p * k) + b 9 * k ^ 2))) =O[𝓝 0] fun t => t ^ 6 := by
  refine ⟨fun t => ev ![r, p, k] t (toPoly 3 tb.jdx b), fun t => ?_, ?_⟩
  · have := eval_spec K.good (by omega) b fun i => t ^ 2 * ![r, p, k] i
    simpa [List.ofFn_succ, ev] using this
  · have h2 : TEq 3 (toPoly 3 tb.jdx b - toPoly 3 (simplexIter 3 3) b) 0 := by
      intro e he
      rw [coeff_sub, toPoly_low3 K hm b e he, sub_self, coeff_zero]
    refine (high_isO ![r, p, k] h2).congr_left fun t => ?_
    simp only [ev, map_sub, eval_toPoly3]
    simp
    ring

theorem isO_mul_id {f : ℝ → ℝ} (c : ℝ) {n : ℕ} (h : f =O[𝓝 0] fun t => t ^ n) :
    (fun t => f t * (t * c)) =O[𝓝 0] fun t => t ^ (n + 1) := by
  have h1 : (fun t : ℝ => t * c) =O[𝓝 0] fun t => t :=
    (isBigO_refl (fun t : ℝ => t) (𝓝 0)).mul (isBigO_const_const c one_ne_zero (𝓝 0)) |>.congr_right
      fun t => mul_one t
  refine (h.mul h1).congr_right fun t => ?_
  ring

/-- C90: all the named coefficients are those of the expansion of Buchdahl for a ray with the polar pupil
coordinates `ρ`, `θ` and the field `-h` along `y`; up to the sign of `m9` (see `c90_m9_violation`). The
relation of the two coma terms holds in the image of a point (`IsSeidel`). -/
theorem c90_expansion (K : Ctx 3 m tb abi) (hm : 3 ≤ m) {S T : Co} (hcoma : S 3 = 2 * T 1) (ρ θ h : ℝ) :
    ∃ σ1 σ2 σ3 σ4 σ5 μ1 μ2 μ3 μ4 μ5 μ6 μ7 μ8 μ9 μ10 μ11 μ12 : ℝ,
      seidel tb.jdx.length S T = some [("s1", σ1), ("s2", σ2), ("s3", σ3), ("s4", σ4), ("s5", σ5), ("m1", μ1),
        ("m2", μ2), ("m3", μ3), ("m4", μ4), ("m5", μ5), ("m6", μ6), ("m7", μ7), ("m8", μ8), ("m9", μ9),
        ("m10", μ10), ("m11", μ11), ("m12", μ12)] ∧
      ∃ y : ℝ → ℝ × ℝ,
        (∀ t, evaluateST tb.jdx S T (t * (ρ * Real.sin θ), t * (ρ * Real.cos θ)) (0, t * -h) = some (y t)) ∧
        (fun t => (y t).2 - (t * (S 0 * (ρ * Real.cos θ) - T 0 * h)
          + t ^ 3 * (σ1 * ρ ^ 3 * Real.cos θ + σ2 * (2 + Real.cos (2 * θ)) * ρ ^ 2 * h
            + (3 * σ3 + σ4) * ρ * h ^ 2 * Real.cos θ + σ5 * h ^ 3)
          + t ^ 5 * (μ1 * ρ ^ 5 * Real.cos θ + (μ2 + μ3 * Real.cos (2 * θ)) * ρ ^ 4 * h
            + (μ4 + μ6 * Real.cos θ ^ 2) * ρ ^ 3 * h ^ 2 * Real.cos θ
            + (μ7 + μ8 * Real.cos (2 * θ)) * ρ ^ 2 * h ^ 3 + μ10 * ρ * h ^ 4 * Real.cos θ + μ12 * h ^ 5)))
          =O[𝓝 0] (fun t => t ^ 7) ∧
        (fun t => (y t).1 - (t * (S 0 * (ρ * Real.sin θ))
          + t ^ 3 * (σ1 * ρ ^ 3 * Real.sin θ + σ2 * ρ ^ 2 * h * Real.sin (2 * θ)
            + (σ3 + σ4) * ρ * h ^ 2 * Real.sin θ)
          + t ^ 5 * (μ1 * ρ ^ 5 * Real.sin θ + μ3 * ρ ^ 4 * h * Real.sin (2 * θ)
            + (μ5 + μ6 * Real.cos θ ^ 2) * ρ ^ 3 * h ^ 2 * Real.sin θ
            + -μ9 * ρ ^ 2 * h ^ 3 * Real.sin (2 * θ) + μ11 * ρ * h ^ 4 * Real.sin θ)))
          =O[𝓝 0] (fun t => t ^ 7) := by
  have hq : 9 < tb.jdx.length := by
    rw [K.good.jdx]
    have := simplexIter_prefix3 hm 9 (p := [0, 0, 2]) (by decide +kernel)
    exact (List.getElem?_eq_some_iff.mp this).1
  refine ⟨_, _, _, _, _, _, _, _, _, _, _, _, _, _, _, _, _, by rw [seidel, if_neg (by omega)], ?_⟩
  obtain ⟨g, hg, hg2⟩ := eval_low3 K hm S (ρ ^ 2) (h ^ 2) (-(ρ * h * Real.cos θ))
  obtain ⟨f, hf, hf2⟩ := eval_low3 K hm T (ρ ^ 2) (h ^ 2) (-(ρ * h * Real.cos θ))
  have hsc := Real.sin_sq_add_cos_sq θ
  refine ⟨fun t => (g t * (t * (ρ * Real.sin θ)) + f t * 0, g t * (t * (ρ * Real.cos θ)) + f t * (t * -h)),
    fun t => ?_, ?_, ?_⟩
  · have e : [(t * (ρ * Real.sin θ)) ^ 2 + (t * (ρ * Real.cos θ)) ^ 2, (0 : ℝ) ^ 2 + (t * -h) ^ 2,
        t * (ρ * Real.sin θ) * 0 + t * (ρ * Real.cos θ) * (t * -h)] = [t ^ 2 * ρ ^ 2, t ^ 2 * h ^ 2,
        t ^ 2 * -(ρ * h * Real.cos θ)] := by
      congr 1
      · linear_combination t ^ 2 * ρ ^ 2 * hsc
      · congr 1
        · ring
        · congr 1; ring
    simp only [evaluateST, e, hg, hf, Option.bind_some, Option.map_some]
  · refine ((isO_mul_id (ρ * Real.cos θ) hg2).add (isO_mul_id (-h) hf2)).congr_left fun t => ?_
    rw [hcoma, Real.cos_two_mul]
    ring
  · refine (isO_mul_id (ρ * Real.sin θ) hg2).congr_left fun t => ?_
    rw [hcoma, Real.sin_two_mul]
    ring

/-- C90, violated: with the sign of `m9` as it is, the expansion holds only if the coefficient is zero. -/
theorem c90_m9_violation (K : Ctx 3 m tb abi) (hm : 3 ≤ m) {S T : Co} (hcoma : S 3 = 2 * T 1) (ρ θ h : ℝ)
    (hρ : ρ ≠ 0) (hh : h ≠ 0) (hθ : Real.sin (2 * θ) ≠ 0) {names : List (String × ℝ)}
    (hs : seidel tb.jdx.length S T = some names) {y : ℝ → ℝ × ℝ}
    (hy : ∀ t, evaluateST tb.jdx S T (t * (ρ * Real.sin θ), t * (ρ * Real.cos θ)) (0, t * -h) = some (y t))
    {σ1 σ2 σ3 σ4 μ1 μ3 μ5 μ6 μ9 μ11 : ℝ}
    (hn : ∀ p ∈ [("s1", σ1), ("s2", σ2), ("s3", σ3), ("s4", σ4), ("m1", μ1), ("m3", μ3), ("m5", μ5),
      ("m6", μ6), ("m9", μ9), ("m11", μ11)], p ∈ names) :
    (fun t => (y t).1 - (t * (S 0 * (ρ * Real.sin θ))
        + t ^ 3 * (σ1 * ρ ^ 3 * Real.sin θ + σ2 * ρ ^ 2 * h * Real.sin (2 * θ)
          + (σ3 + σ4) * ρ * h ^ 2 * Real.sin θ)
        + t ^ 5 * (μ1 * ρ ^ 5 * Real.sin θ + μ3 * ρ ^ 4 * h * Real.sin (2 * θ)
          + (μ5 + μ6 * Real.cos θ ^ 2) * ρ ^ 3 * h ^ 2 * Real.sin θ
          + μ9 * ρ ^ 2 * h ^ 3 * Real.sin (2 * θ) + μ11 * ρ * h ^ 4 * Real.sin θ)))
        =o[𝓝 0] (fun t => t ^ 5) ↔ S 8 = 0 := by
  obtain ⟨σ1', σ2', σ3', σ4', σ5', μ1', μ2', μ3', μ4', μ5', μ6', μ7', μ8', μ9', μ10', μ11', μ12', e1, y', e2,
    -, e4⟩ := c90_expansion K hm hcoma ρ θ h
  obtain rfl : y = y' := funext fun t => Option.some.inj ((hy t).symm.trans (e2 t))
  obtain rfl := Option.some.inj (hs.symm.trans e1)
  simp at hn
  obtain ⟨rfl, rfl, rfl, rfl, rfl, rfl, rfl, rfl, rfl, rfl⟩ := hn
  have hq : 9 < tb.jdx.length := by
    rw [K.good.jdx]
    have := simplexIter_prefix3 hm 9 (p := [0, 0, 2]) (by decide +kernel)
    exact (List.getElem?_eq_some_iff.mp this).1
  have e9 : μ9 = S 8 / 2 := by
    rw [seidel, if_neg (by omega)] at e1
    simp at e1
    exact e1.2.2.2.2.2.2.2.2.2.2.2.2.2.1.symm
  have e5 := e4.trans_isLittleO (isLittleO_pow_pow (by norm_num : 5 < 7) :
    (fun t : ℝ => t ^ 7) =o[𝓝 0] fun t => t ^ 5)
  constructor
  · intro h1
    have h2 : (fun t : ℝ => 2 * μ9 * ρ ^ 2 * h ^ 3 * Real.sin (2 * θ) * t ^ 5) =o[𝓝 0] fun t => t ^ 5 := by
      refine (IsLittleO.sub e5 h1).congr_left fun t => ?_
      ring
    have h3 := pow_coeff_zero h2
    rw [e9] at h3
    simpa [hρ, hh, hθ] using h3
  · intro h1
    rw [h1, zero_div] at e9
    rw [e9] at e5 ⊢
    simpa using e5

/-- C90: with fewer than ten coefficients (`kmax = 2`) `seidel` fails. -/
theorem c90_few (K : Ctx 3 2 tb abi) (S T : Co) : seidel tb.jdx.length S T = none := by
  rw [K.good.jdx, seidel, if_pos (by decide +kernel)]

/-- C90: `buchdahl` never returns: its list of names grows as long as it is read. -/
theorem c90_buchdahl_violation (fuel : ℕ) : extendSelf fuel 0 buchdahlStart = none := by
  have : ∀ (fuel i : ℕ) (n : List String), i < n.length → extendSelf fuel i n = none := by
    intro fuel
    induction fuel with
    | zero => intro i n h; rw [extendSelf, if_pos h]
    | succ k ih =>
      intro i n h
      rw [extendSelf, List.getElem?_eq_getElem h]
      exact ih _ _ (by simp; omega)
  exact this _ _ _ (by decide)

section
open Matrix

/-- One refracting sphere and a plane image in the glass. -/
noncomputable def exFlat : List Elem :=
  [{ tf := Transform.update 5 ⟨0, 0, 1⟩ 0, radius := .inf, material := some (some RayOpt.exGlass),
     shape := some ⟨1 / 10, 0, none, false⟩ },
   { tf := Transform.update 30 ⟨0, 0, 1⟩ 0, radius := .inf, material := none,
     shape := some ⟨0, 0, none, false⟩ }]

theorem exFlat_good (nwt : NewtonFn) : GoodFrom nwt 1 1 1 exFlat := by
  have h1 : ∀ e : Elem, e.mat.any (·.mirror) = false → sideAfter 1 e = 1 := by
    intro e h; exact if_neg (by simp [h])
  refine ⟨good_conic (.inl rfl) (by norm_num) one_pos trivial (by norm_num [RayOpt.exGlass])
    (by simp [RayOpt.exGlass]) (by norm_num), ?_, trivial⟩
  rw [h1 _ (by simp [mat, RayOpt.exGlass])]
  exact Good.of (onAxis_update 30 1 (by norm_num) (.inl rfl)) (by norm_num [paraxN, index?, mat, RayOpt.exGlass])
    trivial (fun sh h => by
      cases h; exact conic_hit nwt _ 0 1 _ rfl (.inr rfl) (by norm_num) one_pos (.inl rfl))
    (fun sh h => by cases h; simp [paraxCurv]) (by simp [mat]) (by simp [mat])

theorem exFlat_trace (σ : ℝ) (obj : Elem) (axis : Fin 2) :
    PTrace.trace (obj :: exFlat) axis 1 (exStart σ)
      = some [exStart σ, ⟨3 / 2, ![1, 5 * σ], ![-1 / 20, 3 / 4 * σ]⟩,
          ⟨3 / 2, ![0, 20 * σ], ![-1 / 20, 3 / 4 * σ]⟩] := by
  have hg := (exFlat_good (fun _ _ _ => none)).fine
  obtain ⟨prows, ht, hlen⟩ := good_trace (r0 := exStart σ) (.inl rfl) hg obj axis
  have hst := parax_steps (r0 := exStart σ) hg ht
  match prows, hlen with
  | [b1, b2], _ =>
    obtain ⟨n1, P1, hP1, hk1⟩ := hst 0 _ _ b1 rfl rfl rfl
    obtain ⟨n2, P2, hP2, hk2⟩ := hst 1 _ b1 b2 rfl rfl rfl
    have e1 : P1 = -1 / 20 := by
      simp [uprightPower, Shape.paraxCurv, Elem.mat, RayOpt.exGlass, exStart] at hP1
      rw [← hP1]; norm_num
    have e2 : P2 = 0 := by
      simp [uprightPower, Shape.paraxCurv, Elem.mat] at hP2
      exact hP2.symm
    have n1' : b1.n = 3 / 2 := by rw [n1]; simp [Elem.paraxN, Elem.index?, Elem.mat, RayOpt.exGlass]
    simp only [update_distance_z 5 (by norm_num), e1] at hk1
    simp only [update_distance_z 30 (by norm_num), e2, n1'] at hk2
    have r1 : b1 = ⟨3 / 2, ![1, 5 * σ], ![-1 / 20, 3 / 4 * σ]⟩ := by
      have y0 : b1.y 0 = 1 := by rw [(hk1 0).1]; simp [exStart]
      have y1 : b1.y 1 = 5 * σ := by rw [(hk1 1).1]; simp [exStart]
      exact prow_eq n1' y0 y1 (by rw [(hk1 0).2, y0]; simp [exStart])
        (by rw [(hk1 1).2, y1]; simp [exStart]; ring)
    have r2 : b2 = ⟨3 / 2, ![0, 20 * σ], ![-1 / 20, 3 / 4 * σ]⟩ :=
      prow_eq (by rw [n2]; simp [Elem.paraxN, Elem.index?, Elem.mat, n1']) (by rw [(hk2 0).1, r1]; norm_num)
        (by rw [(hk2 1).1, r1]; simp; ring) (by rw [(hk2 0).2, r1]; simp) (by rw [(hk2 1).2, r1]; simp)
    rw [ht, r1, r2]

theorem exFlat_aberrations (σ : ℝ) (hσ : σ ≠ 0) (obj : Elem) :
    PTrace.aberrations (obj :: exFlat) [9 / 10, 1, 11 / 10]
      [exStart σ, ⟨3 / 2, ![1, 5 * σ], ![-1 / 20, 3 / 4 * σ]⟩,
          ⟨3 / 2, ![0, 20 * σ], ![-1 / 20, 3 / 4 * σ]⟩]
      = some [⟨0, 0, 0, 0, 0, 0, 0⟩, exSeidel σ, ⟨0, 0, 0, 0, 0, 0, 0⟩] := by
  have hd : ∀ tf, Elem.dispersion ⟨tf, .inf, some ⟨1 / 10, 0, none, false⟩, some (some RayOpt.exGlass)⟩
      (9 / 10) (11 / 10) = 1 / 50 := by
    intro tf
    simp only [Elem.dispersion, Elem.mat, RayOpt.exGlass]
    norm_num
  simp only [PTrace.aberrations, ex_waves.1, ex_waves.2, Option.bind_some, List.tail_cons, exFlat,
    PTrace.aberrationsFrom, hd, exStart, exSingle_surface σ hσ, Option.map_some]
  simp [Elem.aberration, Shape.figure, Elem.mat, hσ]

/-- `c90_infinite` applied: the spherical aberration of the polynomials of that sphere. -/
example : ∃ tb abi, Ctx 3 3 tb abi ∧ ∃ st, tracePoly abi 3 1 (startState 1 0) exFlat = some st ∧
    st.s 0 = 0 ∧ st.s 1 = -1 / 450 ∧ st.t 1 = -1 / 30 ∧ st.t 3 = -1 := by
  have hf : Fits 3 3 := ⟨by norm_num, by norm_num, by decide +kernel⟩
  obtain ⟨tb, abi, h, -⟩ := c45_three_variables 3 hf
  have K : Ctx 3 3 tb abi := ⟨hf, h⟩
  have hp : ∀ e ∈ exFlat, Plain 3 e ∧ e.shape ≠ none := by
    intro e he
    simp only [exFlat, List.mem_cons, List.not_mem_nil, or_false] at he
    rcases he with rfl | rfl
    · exact ⟨fun sh hsh => by cases hsh; exact .inl ⟨rfl, .inr ⟨rfl, by
        rw [update_distance_z 5 (by norm_num)]; norm_num⟩⟩, by simp⟩
    · exact ⟨fun sh hsh => by cases hsh; exact .inl ⟨rfl, .inl rfl⟩, by simp⟩
  obtain ⟨st, hst, -⟩ := c83_taylor K (by norm_num) (fun _ _ _ => none) 1 1 0 true exFlat ((exFlat_good _).sharp _) hp
    ⟨(0, 0), (0, 0)⟩ 1 _ rfl
  have ht := exFlat_trace 1 ⟨Transform.update 0 ⟨0, 0, 1⟩ 0, .inf, none, none⟩ 0
  have e : exStart 1 = ⟨1, ![1, -1 * 0], ![0, 1 * 1]⟩ := by simp [exStart]
  have hab := exFlat_aberrations 1 one_ne_zero ⟨Transform.update 0 ⟨0, 0, 1⟩ 0, .inf, none, none⟩
  rw [e] at ht hab
  obtain ⟨h0, -, h1, h2, -, h3, -, -⟩ := c90_infinite K (by norm_num) (n0 := 1) (pos := 0) (pr := 1) (σ := 1) one_pos
    ((exFlat_good fun _ _ _ => none).sharp _) hp one_ne_zero one_ne_zero ht hab (j := 1) rfl rfl rfl rfl rfl rfl hst
  refine ⟨tb, abi, K, st, hst, h0, ?_, ?_, ?_⟩
  · simp [sumTo, exSeidel] at h1; rw [h1]; norm_num
  · simp [sumTo, exSeidel] at h2; rw [h2]; norm_num
  · simp [sumTo, exSeidel] at h3; rw [h3]; norm_num

/-- The same sphere imaging an object at a distance of 40. -/
noncomputable def exNear : List Elem :=
  [{ tf := Transform.update 40 ⟨0, 0, 1⟩ 0, radius := .inf, material := some (some RayOpt.exGlass),
     shape := some ⟨1 / 10, 0, none, false⟩ },
   { tf := Transform.update 60 ⟨0, 0, 1⟩ 0, radius := .inf, material := none,
     shape := some ⟨0, 0, none, false⟩ }]

theorem exNear_good (nwt : NewtonFn) : GoodFrom nwt 1 1 1 exNear := by
  have h1 : ∀ e : Elem, e.mat.any (·.mirror) = false → sideAfter 1 e = 1 := by
    intro e h; exact if_neg (by simp [h])
  refine ⟨good_conic (.inl rfl) (by norm_num) one_pos trivial (by norm_num [RayOpt.exGlass])
    (by simp [RayOpt.exGlass]) (by norm_num), ?_, trivial⟩
  rw [h1 _ (by simp [mat, RayOpt.exGlass])]
  exact Good.of (onAxis_update 60 1 (by norm_num) (.inl rfl)) (by norm_num [paraxN, index?, mat, RayOpt.exGlass])
    trivial (fun sh h => by
      cases h; exact conic_hit nwt _ 0 1 _ rfl (.inr rfl) (by norm_num) one_pos (.inl rfl))
    (fun sh h => by cases h; simp [paraxCurv]) (by simp [mat]) (by simp [mat])

theorem exNear_trace (obj : Elem) (axis : Fin 2) :
    PTrace.trace (obj :: exNear) axis 1 ⟨1, ![0, -2], ![1 * (1 / 40), 1 * (2 / 40)]⟩
      = some [⟨1, ![0, -2], ![1 * (1 / 40), 1 * (2 / 40)]⟩, ⟨3 / 2, ![1, 0], ![-1 / 40, 1 / 20]⟩,
          ⟨3 / 2, ![0, 2], ![-1 / 40, 1 / 20]⟩] := by
  have hg := (exNear_good (fun _ _ _ => none)).fine
  set r0 : PRow := ⟨1, ![0, -2], ![1 * (1 / 40), 1 * (2 / 40)]⟩ with hr0
  obtain ⟨prows, ht, hlen⟩ := good_trace (r0 := r0) (.inl rfl) hg obj axis
  have hst := parax_steps (r0 := r0) hg ht
  match prows, hlen with
  | [b1, b2], _ =>
    obtain ⟨n1, P1, hP1, hk1⟩ := hst 0 _ _ b1 rfl rfl rfl
    obtain ⟨n2, P2, hP2, hk2⟩ := hst 1 _ b1 b2 rfl rfl rfl
    have e1 : P1 = -1 / 20 := by
      simp [uprightPower, Shape.paraxCurv, Elem.mat, RayOpt.exGlass, hr0] at hP1
      rw [← hP1]; norm_num
    have e2 : P2 = 0 := by
      simp [uprightPower, Shape.paraxCurv, Elem.mat] at hP2
      exact hP2.symm
    have n1' : b1.n = 3 / 2 := by rw [n1]; simp [Elem.paraxN, Elem.index?, Elem.mat, RayOpt.exGlass]
    simp only [update_distance_z 40 (by norm_num), e1] at hk1
    simp only [update_distance_z 60 (by norm_num), e2, n1'] at hk2
    have r1 : b1 = ⟨3 / 2, ![1, 0], ![-1 / 40, 1 / 20]⟩ := by
      have y0 : b1.y 0 = 1 := by rw [(hk1 0).1]; norm_num [hr0]
      have y1 : b1.y 1 = 0 := by rw [(hk1 1).1]; norm_num [hr0]
      exact prow_eq n1' y0 y1 (by rw [(hk1 0).2, y0]; norm_num [hr0])
        (by rw [(hk1 1).2, y1]; norm_num [hr0])
    have r2 : b2 = ⟨3 / 2, ![0, 2], ![-1 / 40, 1 / 20]⟩ :=
      prow_eq (by rw [n2]; simp [Elem.paraxN, Elem.index?, Elem.mat, n1']) (by rw [(hk2 0).1, r1]; norm_num)
        (by rw [(hk2 1).1, r1]; norm_num) (by rw [(hk2 0).2, r1]; simp) (by rw [(hk2 1).2, r1]; simp)
    rw [ht, r1, r2]

/-- `c90_finite` applied: the named spherical aberration of that image. -/
example : ∃ tb abi, Ctx 3 3 tb abi ∧ ∃ fuel st, tracePoly abi 3 1 (startState 1 40) exNear = some st ∧
    ∃ S T, transformST fuel tb (conjugateParams 1 (1 / 40) (2 / 40) 2) st.s st.t = some (S, T) ∧
      S 0 = 0 ∧ T 0 = 2 ∧ ∃ rest, seidel 10 S T = some (("s1", -13 / 1152) :: rest) := by
  have hf : Fits 3 3 := ⟨by norm_num, by norm_num, by decide +kernel⟩
  obtain ⟨tb, abi, h, -⟩ := c45_three_variables 3 hf
  have K : Ctx 3 3 tb abi := ⟨hf, h⟩
  have hp : ∀ e ∈ exNear, Plain 3 e ∧ e.shape ≠ none := by
    intro e he
    simp only [exNear, List.mem_cons, List.not_mem_nil, or_false] at he
    rcases he with rfl | rfl
    · exact ⟨fun sh hsh => by cases hsh; exact .inl ⟨rfl, .inr ⟨rfl, by
        rw [update_distance_z 40 (by norm_num)]; norm_num⟩⟩, by simp⟩
    · exact ⟨fun sh hsh => by cases hsh; exact .inl ⟨rfl, .inl rfl⟩, by simp⟩
  obtain ⟨st, hst, -⟩ := c83_taylor K (by norm_num) (fun _ _ _ => none) 1 1 40 true exNear ((exNear_good _).sharp _) hp
    ⟨(0, 0), (0, 0)⟩ 1 _ rfl
  obtain ⟨N, hN⟩ := c90_finite K (by norm_num)
    (fun k h1 h2 => c59_order_13 k h1 (by omega))
  have hab : ∃ c1 c2 : Seidel, PTrace.aberrations (⟨Transform.update 0 ⟨0, 0, 1⟩ 0, .inf, none, none⟩ :: exNear)
      [9 / 10, 1, 11 / 10] [⟨1, ![0, -2], ![1 * (1 / 40), 1 * (2 / 40)]⟩, ⟨3 / 2, ![1, 0], ![-1 / 40, 1 / 20]⟩,
          ⟨3 / 2, ![0, 2], ![-1 / 40, 1 / 20]⟩] = some [⟨0, 0, 0, 0, 0, 0, 0⟩, c1, c2] ∧
      c1.tsc = -13 / 2304 ∧ c2.tsc = 0 := by
    simp only [PTrace.aberrations, ex_waves.1, ex_waves.2, Option.bind_some, List.tail_cons, exNear,
      PTrace.aberrationsFrom, Elem.aberration, Shape.figure, Elem.mat, RayOpt.exGlass]
    norm_num
    exact ⟨_, _, ⟨rfl, rfl⟩, rfl, rfl⟩
  obtain ⟨c1, c2, hab, t1, t2⟩ := hab
  obtain ⟨S, T, h1, h2⟩ := hN N le_rfl (n0 := 1) (pr := 1) (orad := 2) (dist := 40) (flag := false) (pos := 40) one_pos
    ((exNear_good fun _ _ _ => none).sharp _) hp one_ne_zero two_ne_zero (by norm_num) (by simp)
    (by rw [startPlane, if_neg]; norm_num [telecentric]) (exNear_trace _ 0) hab (j := 1) rfl rfl rfl rfl rfl
    rfl hst
  refine ⟨tb, abi, K, N, st, hst, S, T, h1, h2.focus, by simpa using h2.magnification, ?_⟩
  obtain ⟨rest, h3⟩ := c90_names h2 (q := 10) (by norm_num)
  have e : 2 * sumTo [⟨0, 0, 0, 0, 0, 0, 0⟩, c1, c2] (1 + 1) (·.tsc) = -13 / 1152 := by
    simp [sumTo, t1, t2]; norm_num
  change _ = some (("s1", 2 * sumTo _ _ _) :: _) at h3
  rw [e] at h3
  exact ⟨_, h3⟩

end

end Poly

end RayOpt
