import Verif.Lemmas.PolySurf
import Verif.Props.SimplexTransform
import Mathlib.Analysis.SpecialFunctions.Trigonometric.Bounds

/-!
C71: evaluating the polynomial trace in normalised field and pupil coordinates
(rayopt/poly_trace.py 64-138).
-/

namespace RayOpt.Poly

open Simplex MvPolynomial

section
variable {m : ℕ} {tb : Tables}

/-- Swapping the first two exponents of every term swaps the first two arguments. -/
theorem eval_swap (G : Good 3 m tb) (b : Co) (x y z : ℝ) {ii : ℕ → ℕ}
    (hii : ∀ l i j k, tb.jdx.getD l [] = [i, j, k] → ii l = tb.idx [j, i, k]) :
    MvPolynomial.eval ![x, y, z] (toPoly 3 tb.jdx fun l => b (ii l))
      = MvPolynomial.eval ![y, x, z] (toPoly 3 tb.jdx b) := by
  have hrow : ∀ l < tb.jdx.length, ∃ i j k, tb.jdx.getD l [] = [i, j, k] ∧ i + j + k < m ∧
      tb.idx [i, j, k] = l := by
    intro l hl
    obtain ⟨h1, h2, h3⟩ := G.row hl
    obtain ⟨i, j, k, hl3⟩ : ∃ i j k, tb.jdx.getD l [] = [i, j, k] :=
      List.length_eq_three.mp h1
    rw [hl3] at h2 h3
    refine ⟨i, j, k, hl3, ?_, h3⟩
    simp at h2
    omega
  have hback : ∀ i j k, i + j + k < m → tb.idx [i, j, k] < tb.jdx.length ∧
      tb.jdx.getD (tb.idx [i, j, k]) [] = [i, j, k] := by
    intro i j k h
    have hm : [i, j, k] ∈ simplexIter 3 m := by
      rw [G.mem]; simp; omega
    refine ⟨G.lt _ hm, ?_⟩
    rw [List.getD, G.get _ hm]; rfl
  unfold toPoly
  rw [map_sum, map_sum]
  refine Finset.sum_nbij' ii ii ?_ ?_ ?_ ?_ ?_
  · intro l hl
    obtain ⟨i, j, k, h1, h2, h3⟩ := hrow l (Finset.mem_range.mp hl)
    rw [hii l i j k h1]
    exact Finset.mem_range.mpr (hback j i k (by omega)).1
  · intro l hl
    obtain ⟨i, j, k, h1, h2, h3⟩ := hrow l (Finset.mem_range.mp hl)
    rw [hii l i j k h1]
    exact Finset.mem_range.mpr (hback j i k (by omega)).1
  · intro l hl
    obtain ⟨i, j, k, h1, h2, h3⟩ := hrow l (Finset.mem_range.mp hl)
    rw [hii l i j k h1, hii _ j i k (hback j i k (by omega)).2, h3]
  · intro l hl
    obtain ⟨i, j, k, h1, h2, h3⟩ := hrow l (Finset.mem_range.mp hl)
    rw [hii l i j k h1, hii _ j i k (hback j i k (by omega)).2, h3]
  · intro l hl
    obtain ⟨i, j, k, h1, h2, h3⟩ := hrow l (Finset.mem_range.mp hl)
    rw [hii l i j k h1, (hback j i k (by omega)).2, h1]
    simp only [eval_monomial]
    rw [Finsupp.prod_fintype _ _ (by simp), Finsupp.prod_fintype _ _ (by simp),
      Fin.prod_univ_three, Fin.prod_univ_three]
    simp only [expo_apply]
    simp
    rw [hii l i j k h1]
    ring

/-- The ray that belongs to pupil coordinates `xy` and field coordinates `ab`: transverse position and
slope. -/
structure StartRay where
  x : ℝ × ℝ
  u : ℝ × ℝ

/-- Squared height, squared slope, and their product. -/
def StartRay.vars (s : StartRay) : List ℝ :=
  [s.x.1 ^ 2 + s.x.2 ^ 2, s.u.1 ^ 2 + s.u.2 ^ 2, s.x.1 * s.u.1 + s.x.2 * s.u.2]

/-- `s(r, p, k) x + t(r, p, k) U` for that ray. -/
noncomputable def rayPoint (jdx : List (List ℕ)) (s t : Co) (w : StartRay) : Option (ℝ × ℝ) :=
  (Simplex.eval jdx s w.vars).bind fun sv => (Simplex.eval jdx t w.vars).map fun tv =>
    (sv * w.x.1 + tv * w.u.1, sv * w.x.2 + tv * w.u.2)

/-- C71: for a finite object, evaluating the transformed polynomials at normalised coordinates is
evaluating the traced ones at the ray with height `x = r·xy` and slope `U = a·xy + c·ab` (pupil radius,
pupil slope, object slope); if the pupil slope is the larger one, at the ray with height
`x = -radius·ab` and slope `U = objSlope·ab + pupilSlope·xy`. -/
theorem c71_evaluate (h : Fits 3 m) (hm : 2 ≤ m) (hw : SmallMultinom 3 m)
    (ht : simplexEnum 3 m = some tb) :
    ∃ N, ∀ fuel ≥ N, ∀ (pr ps os orad : ℝ) (s t : Co) (xy ab : ℝ × ℝ),
      ∃ b, transformST fuel tb (conjugateParams pr ps os orad) s t = some b ∧
        (|ps| ≤ |os| → evaluateST tb.jdx b.1 b.2 xy ab = rayPoint tb.jdx s t
          ⟨(pr * xy.1, pr * xy.2), (ps * xy.1 + os * ab.1, ps * xy.2 + os * ab.2)⟩) ∧
        (|os| < |ps| → evaluateST tb.jdx b.1 b.2 xy ab = rayPoint tb.jdx s t
          ⟨(-orad * ab.1, -orad * ab.2), (os * ab.1 + ps * xy.1, os * ab.2 + ps * xy.2)⟩) := by
  have G := enum_good h ht
  obtain ⟨N, hN⟩ := c59_substitution 3 m h hw tb ht
  refine ⟨N, fun fuel hf pr ps os orad s t xy ab => ?_⟩
  -- substitution as evaluation
  have key : ∀ (r a c : ℝ) (x : Co), ∃ y, transform fuel tb 3 (substMat r a c) x = some y ∧
      ∀ R P K : ℝ, MvPolynomial.eval ![R, P, K] (toPoly 3 tb.jdx y)
        = MvPolynomial.eval ![r ^ 2 * R, a ^ 2 * R + c ^ 2 * P + 2 * a * c * K,
          r * a * R + r * c * K] (toPoly 3 tb.jdx x) := by
    intro r a c x
    obtain ⟨y, h1, h2⟩ := hN fuel hf (substMat r a c) x
    refine ⟨y, h1, fun R P K => ?_⟩
    rw [h2]
    generalize toPoly 3 tb.jdx x = A
    induction A using MvPolynomial.induction_on with
    | C a => simp
    | add p q hp hq => simp only [map_add, hp, hq]
    | mul_X p k hp =>
      simp only [map_mul, hp]
      congr 1
      fin_cases k <;> simp [Fin.sum_univ_three, substMat]
  have lin : ∀ (α β : ℝ) (v : Fin 3 → ℝ), MvPolynomial.eval v (toPoly 3 tb.jdx (α • s + β • t))
      = α * MvPolynomial.eval v (toPoly 3 tb.jdx s) + β * MvPolynomial.eval v (toPoly 3 tb.jdx t) := by
    intro α β v
    have := toPoly_add 3 tb.jdx (α • s) (β • t)
    have h1 := toPoly_smul 3 tb.jdx α s
    have h2 := toPoly_smul 3 tb.jdx β t
    change toPoly 3 tb.jdx (α • s + β • t) = toPoly 3 tb.jdx (α • s) + toPoly 3 tb.jdx (β • t) at this
    change toPoly 3 tb.jdx (α • s) = _ at h1
    change toPoly 3 tb.jdx (β • t) = _ at h2
    rw [this, h1, h2]
    simp
  have linT : ∀ (β : ℝ) (v : Fin 3 → ℝ), MvPolynomial.eval v (toPoly 3 tb.jdx (β • t))
      = β * MvPolynomial.eval v (toPoly 3 tb.jdx t) := by
    intro β v
    have h2 := toPoly_smul 3 tb.jdx β t
    change toPoly 3 tb.jdx (β • t) = _ at h2
    rw [h2]
    simp
  have ev : ∀ (x : Co) (R P K : ℝ), Simplex.eval tb.jdx x [R, P, K]
      = some (MvPolynomial.eval ![R, P, K] (toPoly 3 tb.jdx x)) := by
    intro x R P K
    have := eval_spec G hm x ![R, P, K]
    simpa [List.ofFn_succ] using this
  by_cases hc : |os| < |ps|
  · have hpar : conjugateParams pr ps os orad = (-orad, os, ps, true) := by
      unfold conjugateParams; rw [if_pos hc]
    obtain ⟨b0, h1, h2⟩ := key (-orad) os ps ((-orad) • s + os • t)
    obtain ⟨b1, h3, h4⟩ := key (-orad) os ps (ps • t)
    rw [hpar]
    refine ⟨_, by
      unfold transformST
      simp only [h1, h3, Option.bind_some, Option.map_some, if_true]
      rfl,
      fun hcc => absurd hc (not_lt.mpr hcc), fun _ => ?_⟩
    unfold evaluateST rayPoint StartRay.vars
    simp only [ev, Option.bind_some, Option.map_some]
    rw [eval_swap G b1 _ _ _ (fun l i j k hl => by simp only [hl]),
      eval_swap G b0 _ _ _ (fun l i j k hl => by simp only [hl]), h2, h4, lin, linT]
    have e : ![(-orad) ^ 2 * (ab.1 ^ 2 + ab.2 ^ 2), os ^ 2 * (ab.1 ^ 2 + ab.2 ^ 2) +
        ps ^ 2 * (xy.1 ^ 2 + xy.2 ^ 2) + 2 * os * ps * (xy.1 * ab.1 + xy.2 * ab.2),
        -orad * os * (ab.1 ^ 2 + ab.2 ^ 2) + -orad * ps * (xy.1 * ab.1 + xy.2 * ab.2)]
        = ![(-orad * ab.1) ^ 2 + (-orad * ab.2) ^ 2,
          (os * ab.1 + ps * xy.1) ^ 2 + (os * ab.2 + ps * xy.2) ^ 2,
          -orad * ab.1 * (os * ab.1 + ps * xy.1) + -orad * ab.2 * (os * ab.2 + ps * xy.2)] := by
      congr 1
      · ring
      · congr 1
        · ring
        · congr 1; ring
    rw [e]
    congr 2 <;> ring
  · have hpar : conjugateParams pr ps os orad = (pr, ps, os, false) := by
      unfold conjugateParams; rw [if_neg hc]
    obtain ⟨b0, h1, h2⟩ := key pr ps os (pr • s + ps • t)
    obtain ⟨b1, h3, h4⟩ := key pr ps os (os • t)
    rw [hpar]
    refine ⟨(b0, b1), by
      unfold transformST
      simp only [h1, h3, Option.bind_some, Option.map_some, Bool.false_eq_true, if_false],
      fun _ => ?_, fun hcc => absurd hcc hc⟩
    unfold evaluateST rayPoint StartRay.vars
    simp only [ev, Option.bind_some, Option.map_some]
    rw [h2, h4, lin, linT]
    have e : ![pr ^ 2 * (xy.1 ^ 2 + xy.2 ^ 2), ps ^ 2 * (xy.1 ^ 2 + xy.2 ^ 2) +
        os ^ 2 * (ab.1 ^ 2 + ab.2 ^ 2) + 2 * ps * os * (xy.1 * ab.1 + xy.2 * ab.2),
        pr * ps * (xy.1 ^ 2 + xy.2 ^ 2) + pr * os * (xy.1 * ab.1 + xy.2 * ab.2)]
        = ![(pr * xy.1) ^ 2 + (pr * xy.2) ^ 2,
          (ps * xy.1 + os * ab.1) ^ 2 + (ps * xy.2 + os * ab.2) ^ 2,
          pr * xy.1 * (ps * xy.1 + os * ab.1) + pr * xy.2 * (ps * xy.2 + os * ab.2)] := by
      congr 1
      · ring
      · congr 1
        · ring
        · congr 1; ring
    rw [e]
    congr 2 <;> ring

end

/-- The ray evaluated by `PolyTrace.evaluate` at `xy`, `ab` for a finite object (see `c71_evaluate`). -/
noncomputable def evalRay (pr ps os orad : ℝ) (xy ab : ℝ × ℝ) : StartRay :=
  open Classical in
  if |os| < |ps| then
    ⟨(-orad * ab.1, -orad * ab.2), (os * ab.1 + ps * xy.1, os * ab.2 + ps * xy.2)⟩
  else ⟨(pr * xy.1, pr * xy.2), (ps * xy.1 + os * ab.1, ps * xy.2 + os * ab.2)⟩

/-- C71: with the slopes of a finite conjugate (radius over pupil distance), the ray starting in the
plane `pos` of `rays` leaves the object point `-radius·ab` and hits the pupil at `pupilRadius·xy`.
Guard: the `telecentric` flag is only set when the pupil slope is the larger one. -/
theorem c71_conjugates (pr orad dist : ℝ) (hd : dist ≠ 0) (flag : Bool)
    (hflag : flag = true → |orad / dist| < |pr / dist|) (xy ab : ℝ × ℝ) {w : StartRay}
    (hw : w = evalRay pr (pr / dist) (orad / dist) orad xy ab) {pos : ℝ}
    (hpos : pos = startPlane flag (pr / dist) (orad / dist) dist) :
    (w.x.1 + (0 - pos) * w.u.1 = -orad * ab.1 ∧ w.x.2 + (0 - pos) * w.u.2 = -orad * ab.2) ∧
    (w.x.1 + (dist - pos) * w.u.1 = pr * xy.1 ∧ w.x.2 + (dist - pos) * w.u.2 = pr * xy.2) := by
  by_cases hc : |orad / dist| < |pr / dist|
  · have hp : pos = 0 := by
      rw [hpos, startPlane]; exact if_pos (Or.inr hc)
    rw [hw, evalRay, if_pos hc, hp]
    refine ⟨⟨?_, ?_⟩, ?_, ?_⟩ <;> simp only <;> field_simp <;> ring
  · have hp : pos = dist := by
      rw [hpos, startPlane, if_neg]
      rintro (h | h)
      · exact hc (hflag h)
      · exact hc h
    rw [hw, evalRay, if_neg hc, hp]
    refine ⟨⟨?_, ?_⟩, ?_, ?_⟩ <;> simp only <;> field_simp <;> ring

/-- C71, violated when the pupil is marked telecentric although its slope is not the larger one:
`rays` starts in the object plane but `transform` still uses pupil coordinates, so the rays of one
field point leave different points of the object. -/
theorem c71_flag (pr orad dist : ℝ) (hpr : pr ≠ 0)
    (h : |pr / dist| ≤ |orad / dist|) (ab : ℝ × ℝ) :
    let pos := startPlane true (pr / dist) (orad / dist) dist
    let w := evalRay pr (pr / dist) (orad / dist) orad (1, 0) ab
    let w' := evalRay pr (pr / dist) (orad / dist) orad (0, 0) ab
    w.x.1 + (0 - pos) * w.u.1 ≠ w'.x.1 + (0 - pos) * w'.u.1 := by
  have hc : ¬ |orad / dist| < |pr / dist| := not_lt.mpr h
  simp only [startPlane, telecentric, evalRay, if_neg hc, true_or, if_true]
  simpa using hpr

/-- C71: for an object at infinity `evaluate` uses the height `pupilRadius·xy` and the slope
`angle·ab`. -/
theorem c71_infinite (jdx : List (List ℕ)) (s t : Co) (pr angle : ℝ) (xy ab : ℝ × ℝ) :
    evaluateInf jdx s t pr angle xy ab = rayPoint jdx s t
      ⟨(xy.1 * pr, xy.2 * pr), (ab.1 * angle, ab.2 * angle)⟩ := rfl

/-- C71, violated for objects at infinity: the slope used at full field is the angle, not its
tangent, which is the `slope` of the conjugate (rayopt/conjugates.py 200-202). -/
theorem c71_angle {m : ℕ} {tb : Tables} (h : Fits 3 m) (hm : 2 ≤ m) (ht : simplexEnum 3 m = some tb)
    (pr angle : ℝ) (h0 : 0 < angle) (h1 : angle < Real.pi / 2) :
    ∃ s t xy ab, evaluateInf tb.jdx s t pr angle xy ab ≠ rayPoint tb.jdx s t
      ⟨(xy.1 * pr, xy.2 * pr), (ab.1 * Real.tan angle, ab.2 * Real.tan angle)⟩ := by
  have G := enum_good h ht
  have ev : ∀ (x : Co) (R P K : ℝ), Simplex.eval tb.jdx x [R, P, K]
      = some (MvPolynomial.eval ![R, P, K] (toPoly 3 tb.jdx x)) := by
    intro x R P K
    have := eval_spec G hm x ![R, P, K]
    simpa [List.ofFn_succ] using this
  refine ⟨0, fun i => if i = 0 then 1 else 0, (0, 0), (1, 0), ?_⟩
  unfold evaluateInf evaluateST rayPoint StartRay.vars
  simp only [ev, Option.bind_some, Option.map_some, toPoly_one G, map_one]
  intro hc
  simp at hc
  exact (Real.lt_tan h0 h1).ne hc

/-- Seventh order: `m = 4` for degree three in the rotational invariants. -/
example : ∃ tb, Fits 3 4 ∧ SmallMultinom 3 4 ∧ simplexEnum 3 4 = some tb := by
  have hf : Fits 3 4 := ⟨by norm_num, by norm_num, by decide +kernel⟩
  obtain ⟨tb, ht, -⟩ := exists_enum hf
  exact ⟨tb, hf, fun k hk hs => c59_order_13 k hk (by omega), ht⟩

/-- A finite object of radius 2 seen through a pupil of radius 3 at distance 10. -/
example (xy ab : ℝ × ℝ) :
    (evalRay 3 (3 / 10) (2 / 10) 2 xy ab).x.1
      + (10 - startPlane false (3 / 10) (2 / 10) 10) * (evalRay 3 (3 / 10) (2 / 10) 2 xy ab).u.1
      = 3 * xy.1 :=
  (c71_conjugates 3 2 10 (by norm_num) false (by simp) xy ab rfl rfl).2.1

end RayOpt.Poly
