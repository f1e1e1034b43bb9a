import Verif.Lemmas.PolyTrace
import Mathlib.Algebra.Polynomial.Coeff

/-! Aspheric intercepts, the start of the poly trace, and coefficients along a line. -/

namespace RayOpt.Poly

open Simplex MvPolynomial

section
variable {d m : ℕ} {tb : Tables} {abi : ℕ → List (ℕ × ℕ)}

/-! ### Aspheric profile -/

theorem aspF_cls (K : Ctx d m tb abi) (sg : ℝ) (u : List ℝ) (r : Co) :
    cls d m tb (aspF abi sg u r)
      = ∑ i ∈ Finset.range u.length, κ (u.getD i 0 * sg) * cls d m tb r ^ (i + 1) := by
  induction u with
  | nil => simp [aspF, cls_zero]
  | cons a u ih =>
    have e : aspF abi sg (a :: u) r = mul abi (shift (aspF abi sg u r) (a * sg)) r := rfl
    rw [e, cls_mul K, cls_shift K, ih, List.length_cons, Finset.sum_range_succ', add_mul,
      Finset.sum_mul]
    congr 1
    · apply Finset.sum_congr rfl
      intro i _
      rw [List.getD_cons_succ, pow_succ (cls d m tb r) (i + 1)]; ring
    · simp

theorem aspFr_cls' (K : Ctx d m tb abi) (sg : ℝ) (u : List ℝ) (r : Co) (j : ℕ) :
    cls d m tb ((u.zipIdx j).foldr
        (fun ui dfr => shift (mul abi dfr r) (((ui.2 : ℝ) + 1) * ui.1 * sg)) 0)
      = ∑ i ∈ Finset.range u.length,
        κ (((i + j : ℕ) + 1) * u.getD i 0 * sg) * cls d m tb r ^ i := by
  induction u generalizing j with
  | nil => simp [cls_zero]
  | cons a u ih =>
    rw [List.zipIdx_cons, List.foldr_cons, cls_shift K, cls_mul K, ih, List.length_cons,
      Finset.sum_range_succ', Finset.sum_mul]
    congr 1
    · apply Finset.sum_congr rfl
      intro i _
      rw [List.getD_cons_succ, pow_succ (cls d m tb r) i, show i + 1 + j = i + (j + 1) by ring]
      ring
    · simp

theorem aspFr_cls (K : Ctx d m tb abi) (sg : ℝ) (u : List ℝ) (r : Co) :
    cls d m tb (aspFr abi sg u r)
      = ∑ i ∈ Finset.range u.length, κ (((i : ℝ) + 1) * u.getD i 0 * sg) * cls d m tb r ^ i := by
  have := aspFr_cls' K sg u r 0
  unfold aspFr
  rw [this]
  rfl

theorem aspF_const (K : Ctx d m tb abi) (sg : ℝ) (u : List ℝ) (r : Co) (hr : r 0 = 0) :
    aspF abi sg u r 0 = 0 := by
  cases u with
  | nil => rfl
  | cons a u =>
    change mul abi (shift (aspF abi sg u r) (a * sg)) r 0 = 0
    rw [mul_const K, hr, mul_zero]

theorem aspFr_const (K : Ctx d m tb abi) (sg a : ℝ) (u : List ℝ) (r : Co) (hr : r 0 = 0) :
    aspFr abi sg (a :: u) r 0 = a * sg := by
  unfold aspFr
  rw [List.zipIdx_cons, List.foldr_cons, shift_const, mul_const K, hr]
  simp

theorem aspLoop_const (K : Ctx d m tb abi) (sg : ℝ) (u : List ℝ) (r0 p k : Co) (hr : r0 0 = 0)
    (j : ℕ) :
    (aspLoop abi sg u r0 p k j).1 0 = 0 ∧ (aspLoop abi sg u r0 p k j).2 0 = 0 := by
  induction j with
  | zero => exact ⟨rfl, hr⟩
  | succ j ih =>
    refine ⟨aspF_const K _ _ _ ih.2, ?_⟩
    change (r0 + mul abi (aspF abi sg u (aspLoop abi sg u r0 p k j).2)
      ((2 : ℝ) • k + mul abi (aspF abi sg u (aspLoop abi sg u r0 p k j).2) p)) 0 = 0
    rw [Pi.add_apply, mul_const K, aspF_const K _ _ _ ih.2, hr]
    ring

theorem aspLoop_cls (K : Ctx d m tb abi) (sg : ℝ) (u : List ℝ) (r0 p k : Co) (j : ℕ) :
    cls d m tb (aspLoop abi sg u r0 p k j).2 = cls d m tb r0 +
      cls d m tb (aspLoop abi sg u r0 p k j).1 * (2 * cls d m tb k +
        cls d m tb (aspLoop abi sg u r0 p k j).1 * cls d m tb p) := by
  cases j with
  | zero => change cls d m tb r0 = cls d m tb r0 + cls d m tb 0 * _; rw [cls_zero]; ring
  | succ j =>
    change cls d m tb (r0 + mul abi (aspF abi sg u (aspLoop abi sg u r0 p k j).2)
      ((2 : ℝ) • k + mul abi (aspF abi sg u (aspLoop abi sg u r0 p k j).2) p)) = _
    rw [cls_add, cls_mul K, cls_add, cls_smul, cls_mul K, κ_ofNat]
    rfl

/-! ### Convergence of the fixed-point loop -/

theorem TEq.mono {A B : MvPolynomial (Fin d) ℝ} {i j : ℕ} (h : TEq j A B) (hij : i ≤ j) :
    TEq i A B := fun e he => h e (by omega)

theorem TEq.gain {A B D : MvPolynomial (Fin d) ℝ} {j : ℕ} (h : TEq j A B) (hD : coeff 0 D = 0) :
    TEq (j + 1) (A * D) (B * D) := by
  classical
  intro e he
  rw [coeff_mul, coeff_mul]
  apply Finset.sum_congr rfl
  intro x hx
  rw [Finset.mem_antidiagonal] at hx
  by_cases h2 : x.2 = 0
  · rw [h2, hD, mul_zero, mul_zero]
  · congr 1
    apply h
    have hd := congrArg Finsupp.degree hx
    rw [map_add] at hd
    have : x.2.degree ≠ 0 := by rwa [Ne, Finsupp.degree_eq_zero_iff]
    omega

theorem coeff_zero_toPoly (K : Ctx d m tb abi) (a : Co) : coeff 0 (toPoly d tb.jdx a) = a 0 := by
  have := coeff_toPoly_row K.good a K.good.length_pos
  rw [K.good.zero_row] at this
  have h0 : expo d (List.replicate d 0) = 0 := by ext k; simp
  rwa [h0] at this

/-- The profile as a polynomial. -/
noncomputable def prof (sg : ℝ) (u : List ℝ) (A : MvPolynomial (Fin d) ℝ) : MvPolynomial (Fin d) ℝ :=
  ∑ i ∈ Finset.range u.length, C (u.getD i 0 * sg) * A ^ (i + 1)

theorem prof_teq {A B : MvPolynomial (Fin d) ℝ} {j : ℕ} (sg : ℝ) (u : List ℝ) (h : TEq j A B) :
    TEq j (prof sg u A) (prof sg u B) :=
  TEq.sum _ fun i _ => (TEq.refl _).mul (h.pow (i + 1))

theorem prof_const {A : MvPolynomial (Fin d) ℝ} (sg : ℝ) (u : List ℝ) (h : coeff 0 A = 0) :
    coeff 0 (prof sg u A) = 0 := by
  have h1 : TEq 1 A 0 := by
    intro e he
    have : e = 0 := by rw [← Finsupp.degree_eq_zero_iff]; omega
    rw [this, h, coeff_zero]
  have h2 := prof_teq sg u h1 0 (by simp)
  rw [h2]
  unfold prof
  simp

theorem prof_toPoly (K : Ctx d m tb abi) (sg : ℝ) (u : List ℝ) (r : Co) :
    TEq m (toPoly d tb.jdx (aspF abi sg u r)) (prof sg u (toPoly d tb.jdx r)) := by
  rw [← mk_eq]
  have := aspF_cls K sg u r
  unfold cls at this
  rw [this]
  unfold prof κ
  rw [map_sum]
  simp

theorem aspLoop_gain (K : Ctx d m tb abi) (sg : ℝ) (u : List ℝ) (r0 p k : Co) (hr : r0 0 = 0)
    (hk : k 0 = 0) (hp : p 0 = 0) (j : ℕ) :
    TEq (min m (j + 2)) (toPoly d tb.jdx (aspLoop abi sg u r0 p k j).2)
      (toPoly d tb.jdx (aspLoop abi sg u r0 p k (j + 1)).2) := by
  have hK : coeff 0 (C 2 * toPoly d tb.jdx k) = 0 := by
    rw [coeff_C_mul, coeff_zero_toPoly K, hk, mul_zero]
  have hP : coeff 0 (toPoly d tb.jdx p) = 0 := by rw [coeff_zero_toPoly K, hp]
  have step : ∀ j, TEq m (toPoly d tb.jdx (aspLoop abi sg u r0 p k (j + 1)).2)
      (toPoly d tb.jdx r0 +
        (prof sg u (toPoly d tb.jdx (aspLoop abi sg u r0 p k j).2) * (C 2 * toPoly d tb.jdx k)
        + prof sg u (toPoly d tb.jdx (aspLoop abi sg u r0 p k j).2) ^ 2 * toPoly d tb.jdx p)) := by
    intro j
    rw [← mk_eq]
    have h1 := aspLoop_cls K sg u r0 p k (j + 1)
    have h2 : Ideal.Quotient.mk (high d m)
        (prof sg u (toPoly d tb.jdx (aspLoop abi sg u r0 p k j).2))
        = cls d m tb (aspLoop abi sg u r0 p k (j + 1)).1 :=
      (mk_eq.mpr (prof_toPoly K sg u _)).symm
    change cls d m tb (aspLoop abi sg u r0 p k (j + 1)).2 = _
    simp only [map_add, map_mul, map_pow, h2]
    rw [h1]
    change _ = cls d m tb r0 + (_ * (κ 2 * cls d m tb k) + _ ^ 2 * cls d m tb p)
    rw [κ_ofNat]
    ring
  have gain : ∀ i j, TEq i (toPoly d tb.jdx (aspLoop abi sg u r0 p k j).2)
      (toPoly d tb.jdx (aspLoop abi sg u r0 p k (j + 1)).2) →
      TEq (min m (i + 1)) (toPoly d tb.jdx (aspLoop abi sg u r0 p k (j + 1)).2)
        (toPoly d tb.jdx (aspLoop abi sg u r0 p k (j + 2)).2) := by
    intro i j h
    refine (TEq.mono (step j) (min_le_left _ _)).trans
      (TEq.trans ?_ (TEq.mono (step (j + 1)) (min_le_left _ _)).symm)
    refine TEq.mono ?_ (min_le_right _ _)
    have h' := prof_teq sg u h
    exact (TEq.refl _).add ((TEq.gain h' hK).add (TEq.gain (h'.pow 2) hP))
  induction j with
  | zero =>
    have h0 : TEq 1 (prof sg u (toPoly d tb.jdx r0)) 0 := by
      intro e he
      have : e = 0 := by rw [← Finsupp.degree_eq_zero_iff]; omega
      rw [this, coeff_zero]
      exact prof_const sg u (by rw [coeff_zero_toPoly K, hr])
    refine TEq.trans ?_ (TEq.mono (step 0) (min_le_left _ _)).symm
    refine TEq.mono ?_ (min_le_right _ _)
    have e1 := (TEq.gain h0 hK).add (TEq.gain (h0.pow 2) hP)
    have e2 := (TEq.refl (m := 2) (toPoly d tb.jdx r0)).add e1
    simp only [zero_mul, add_zero, ne_eq, OfNat.ofNat_ne_zero, not_false_eq_true, zero_pow] at e2
    exact e2.symm
  | succ j ih =>
    refine TEq.mono (gain _ j ih) ?_
    simp only [le_min_iff, min_le_iff]
    omega

/-- The loop has converged when the order does not exceed the number of coefficients plus one. -/
theorem aspLoop_fixed (K : Ctx d m tb abi) (sg a : ℝ) (u : List ℝ) (r0 p k : Co) (hr : r0 0 = 0)
    (hk : k 0 = 0) (hp : p 0 = 0) (hm : m ≤ u.length + 2) :
    cls d m tb (aspLoop abi sg (a :: u) r0 p k (u.length + 1)).1
      = ∑ i ∈ Finset.range (u.length + 1), κ ((a :: u).getD i 0 * sg) *
        cls d m tb (aspLoop abi sg (a :: u) r0 p k (u.length + 1)).2 ^ (i + 1) := by
  have h := aspLoop_gain K sg (a :: u) r0 p k hr hk hp u.length
  have h' := mk_eq.mpr (TEq.mono h (le_min le_rfl hm))
  change cls d m tb (aspF abi sg (a :: u) (aspLoop abi sg (a :: u) r0 p k u.length).2) = _
  rw [aspF_cls K]
  have h2 : cls d m tb (aspLoop abi sg (a :: u) r0 p k u.length).2
    = cls d m tb (aspLoop abi sg (a :: u) r0 p k (u.length + 1)).2 := h'
  rw [h2]
  rfl

/-! ### The intercept of a surface -/

/-- The surfaces whose normal the code keeps normalised: not both curved and aspheric. -/
def Simple (sh : Shape) (dz : ℝ) : Prop :=
  sh.curvature * Real.sign dz = 0 ∨ sh.aspherics = none ∨ sh.aspherics = some []

theorem intercept_const (K : Ctx d m tb abi) (sh : Shape) (dz : ℝ) {r p k : Co}
    (hr : r 0 = 0) (hp : p 0 = 0) (hk : k 0 = 0) :
    (interceptPoly abi m sh dz r p k).f 0 = 0 ∧ (interceptPoly abi m sh dz r p k).g 0 = 1 ∧
    2 * (interceptPoly abi m sh dz r p k).fr 0
      = (sh.curvature + 2 * ((sh.aspherics.getD []).getD 0 0)) * Real.sign dz := by
  set u := sh.curvature * Real.sign dz with hu
  set b := if u = 0 then planePoly r else spherePoly abi m u r p k with hb
  have hbs : b.f 0 = 0 ∧ b.g 0 = 1 ∧ 2 * b.fr 0 = u ∧ b.r 0 = 0 := by
    by_cases h : u = 0
    · rw [hb, if_pos h]
      exact ⟨rfl, by simp [planePoly, shift], by simp [planePoly, h], hr⟩
    · rw [hb, if_neg h]
      obtain ⟨h1, -, -, -, -⟩ := sphere_spec K h hr hp hk
      refine ⟨h1.f0, h1.g0, ?_, ?_⟩
      · have : (spherePoly abi m u r p k).fr
            = (1 / 2 * u) • pow abi m (spherePoly abi m u r p k).g (-1) := rfl
        rw [this, Pi.smul_apply, pow_const K _ h1.g0]
        simp
      · have h2 : (spherePoly abi m u r p k).r
            = mul abi (u • (spherePoly abi m u r p k).f)
              (shift (-(u • (spherePoly abi m u r p k).f)) 2) := by
          unfold spherePoly
          simp only [smul_smul, mul_one_div_cancel h, one_smul]
        rw [h2, mul_const K]
        simp [h1.f0]
  obtain ⟨b1, b2, b3, b4⟩ := hbs
  have e : interceptPoly abi m sh dz r p k = match sh.aspherics with
      | none => b
      | some [] => b
      | some (a0 :: as) =>
        ⟨(aspLoop abi (Real.sign dz) (a0 :: as) b.r p k (a0 :: as).length).2,
          b.f + (aspLoop abi (Real.sign dz) (a0 :: as) b.r p k (a0 :: as).length).1,
          b.fr + aspFr abi (Real.sign dz) (a0 :: as)
            (aspLoop abi (Real.sign dz) (a0 :: as) b.r p k (a0 :: as).length).2,
          pow abi m (shift (mul abi (mul abi ((4 : ℝ) •
            (aspLoop abi (Real.sign dz) (a0 :: as) b.r p k (a0 :: as).length).2)
            (aspFr abi (Real.sign dz) (a0 :: as)
            (aspLoop abi (Real.sign dz) (a0 :: as) b.r p k (a0 :: as).length).2))
            (aspFr abi (Real.sign dz) (a0 :: as)
            (aspLoop abi (Real.sign dz) (a0 :: as) b.r p k (a0 :: as).length).2)) 1) (-1 / 2)⟩ := rfl
  rw [e]
  clear_value b
  rcases h : sh.aspherics with _ | _ | ⟨a0, as⟩
  · exact ⟨b1, b2, by rw [b3, hu]; simp⟩
  · exact ⟨b1, b2, by rw [b3, hu]; simp⟩
  · obtain ⟨l1, l2⟩ := aspLoop_const K (Real.sign dz) (a0 :: as) b.r p k b4 (a0 :: as).length
    refine ⟨?_, ?_, ?_⟩
    · simp only [Pi.add_apply, b1, l1, add_zero]
    · simp only
      apply pow_const K
      rw [shift_const, mul_const K, mul_const K, Pi.smul_apply, l2]
      simp
    · simp only [Pi.add_apply, aspFr_const K _ _ _ _ l2, mul_add, b3, hu]
      simp
      ring

theorem intercept_good (K : Ctx d m tb abi) (sh : Shape) (dz : ℝ) (hs : Simple sh dz) {r p k : Co}
    (hr : r 0 = 0) (hp : p 0 = 0) (hk : k 0 = 0) :
    GoodIcpt d m tb (interceptPoly abi m sh dz r p k) r p k := by
  have hc := intercept_const K sh dz hr hp hk
  refine ⟨hc.1, hc.2.1, ?_⟩
  by_cases h : sh.curvature * Real.sign dz = 0
  · have e : interceptPoly abi m sh dz r p k = match sh.aspherics with
        | none => planePoly r
        | some [] => planePoly r
        | some (a0 :: as) =>
          ⟨(aspLoop abi (Real.sign dz) (a0 :: as) r p k (a0 :: as).length).2,
            0 + (aspLoop abi (Real.sign dz) (a0 :: as) r p k (a0 :: as).length).1,
            0 + aspFr abi (Real.sign dz) (a0 :: as)
              (aspLoop abi (Real.sign dz) (a0 :: as) r p k (a0 :: as).length).2,
            pow abi m (shift (mul abi (mul abi ((4 : ℝ) •
              (aspLoop abi (Real.sign dz) (a0 :: as) r p k (a0 :: as).length).2)
              (aspFr abi (Real.sign dz) (a0 :: as)
              (aspLoop abi (Real.sign dz) (a0 :: as) r p k (a0 :: as).length).2))
              (aspFr abi (Real.sign dz) (a0 :: as)
              (aspLoop abi (Real.sign dz) (a0 :: as) r p k (a0 :: as).length).2)) 1) (-1 / 2)⟩ := by
      unfold interceptPoly
      simp only [if_pos h]
      rfl
    rw [e]
    rcases hh : sh.aspherics with _ | _ | ⟨a0, as⟩
    · exact (plane_good K r p k).unit
    · exact (plane_good K r p k).unit
    · simp only [zero_add]
      have hl := aspLoop_cls K (Real.sign dz) (a0 :: as) r p k (a0 :: as).length
      have hl0 := (aspLoop_const K (Real.sign dz) (a0 :: as) r p k hr (a0 :: as).length).2
      rw [← hl]
      generalize (aspLoop abi (Real.sign dz) (a0 :: as) r p k (a0 :: as).length).2 = R at *
      generalize aspFr abi (Real.sign dz) (a0 :: as) R = D
      have h0 : (shift (mul abi (mul abi ((4 : ℝ) • R) D) D) 1) 0 = 1 := by
        rw [shift_const, mul_const K, mul_const K, Pi.smul_apply, hl0]; simp
      have := pow_isqrt K _ h0
      rw [cls_shift K, cls_mul K, cls_mul K, cls_smul, κ_one, κ_ofNat] at this
      linear_combination this
  · have h2 : sh.aspherics = none ∨ sh.aspherics = some [] := by
      rcases hs with hs | hs
      · exact absurd hs h
      · exact hs
    have e : interceptPoly abi m sh dz r p k
        = spherePoly abi m (sh.curvature * Real.sign dz) r p k := by
      unfold interceptPoly
      simp only [if_neg h]
      rcases h2 with h2 | h2 <;> rw [h2]
    rw [e]
    exact (sphere_spec K h hr hp hk).1.unit

theorem transfer_const (K : Ctx d m tb abi) (dz : ℝ) (st : PolyState) (hr : st.r 0 = 0)
    (hp : st.p 0 = 0) (hk : st.k 0 = 0) :
    (transferPoly abi dz st).2.1 0 = 0 ∧ (transferPoly abi dz st).2.2 0 = 0 := by
  constructor
  · change (st.r + mul abi (shift (-st.f) dz) ((2 : ℝ) • st.k + mul abi (shift (-st.f) dz) st.p)) 0 = 0
    rw [Pi.add_apply, mul_const K]
    simp [hr, hk, mul_const K, hp]
  · change (st.k + mul abi (shift (-st.f) dz) st.p) 0 = 0
    rw [Pi.add_apply, mul_const K, hk, hp]; ring

end

/-! ### Start -/

theorem simplexIter_prefix (d m : ℕ) (hm : 2 ≤ m) (i : ℕ) {p : List ℕ}
    (h : (simplexIter (d + 1) 2)[i]? = some p) : (simplexIter (d + 1) m)[i]? = some p := by
  obtain ⟨n, rfl⟩ := Nat.exists_eq_add_of_le hm
  have e : simplexIter (d + 1) (2 + n) = simplexIter (d + 1) 2 ++
      ((List.range n).map (2 + ·)).flatMap (fun i =>
        (simplexIter d (i + 1)).map fun j => (i - j.sum) :: j) := by
    simp only [simplexIter]
    rw [List.range_add, List.flatMap_append]
  rw [e, List.getElem?_append_left]
  · exact h
  · exact (List.getElem?_eq_some_iff.mp h).1

/-- The class of a variable. -/
noncomputable def var {m : ℕ} (i : Fin 3) : Q 3 m := Ideal.Quotient.mk _ (X i)

theorem cls_var {m : ℕ} {tb : Tables} {abi : ℕ → List (ℕ × ℕ)} (K : Ctx 3 m tb abi) (hm : 2 ≤ m)
    (i : Fin 3) : cls 3 m tb (Function.update 0 ((i : ℕ) + 1) 1) = var i := by
  have hrow : tb.jdx[(i : ℕ) + 1]? = some (tuple (Finsupp.single i 1)) := by
    rw [K.good.jdx]
    apply simplexIter_prefix 2 m hm
    have ht : tuple (Finsupp.single i 1)
        = [if i = 0 then 1 else 0, if i = 1 then 1 else 0, if i = 2 then 1 else 0] := by
      simp [tuple, List.ofFn_succ, Finsupp.single_apply]
    rw [ht]
    clear ht
    revert i
    decide +kernel
  obtain ⟨hlt, hget⟩ := List.getElem?_eq_some_iff.mp hrow
  unfold cls var
  congr 1
  unfold toPoly
  rw [Finset.sum_eq_single_of_mem _ (Finset.mem_range.mpr hlt)]
  · rw [List.getD_eq_getElem _ _ hlt, hget, expo_tuple]
    simp [X]
  · intro l _ hl
    simp [Function.update_of_ne hl]

/-! ### Coefficients along a line -/

/-- `X i ↦ T a_i`. -/
noncomputable def line (a : Fin 3 → ℝ) : MvPolynomial (Fin 3) ℝ →ₐ[ℝ] Polynomial ℝ :=
  aeval fun i => Polynomial.C (a i) * Polynomial.X

theorem line_coeff (a : Fin 3 → ℝ) (A : MvPolynomial (Fin 3) ℝ) (i : ℕ) :
    (line a A).coeff i = ∑ e ∈ A.support, if e.degree = i then coeff e A * ∏ j, a j ^ e j else 0 := by
  unfold line
  rw [aeval_def, eval₂_eq', Polynomial.finsetSum_coeff]
  apply Finset.sum_congr rfl
  intro e _
  have : ∏ j, (Polynomial.C (a j) * Polynomial.X) ^ e j
      = Polynomial.C (∏ j, a j ^ e j) * Polynomial.X ^ e.degree := by
    simp_rw [mul_pow, Finset.prod_mul_distrib, map_prod, map_pow]
    rw [Finset.prod_pow_eq_pow_sum, Finsupp.degree_eq_sum]
  rw [this, Polynomial.algebraMap_eq, ← mul_assoc, ← map_mul, Polynomial.coeff_C_mul_X_pow]
  by_cases h : e.degree = i
  · rw [if_pos h.symm, if_pos h]
  · rw [if_neg (fun hc => h hc.symm), if_neg h]

theorem line_teq {m : ℕ} (a : Fin 3 → ℝ) {A B : MvPolynomial (Fin 3) ℝ} (h : TEq m A B) {i : ℕ}
    (hi : i < m) : (line a A).coeff i = (line a B).coeff i := by
  have h0 : (line a (A - B)).coeff i = 0 := by
    rw [line_coeff]
    apply Finset.sum_eq_zero
    intro e _
    split_ifs with he
    · rw [coeff_sub, h e (by omega), sub_self, zero_mul]
    · rfl
  rw [map_sub, Polynomial.coeff_sub] at h0
  linarith

/-- Coefficient of `T^i`. -/
noncomputable def lc {m : ℕ} (a : Fin 3 → ℝ) (i : ℕ) (q : Q 3 m) : ℝ :=
  (line a q.out).coeff i

section
variable {m : ℕ} (a : Fin 3 → ℝ)

theorem lc_mk {i : ℕ} (hi : i < m) (A : MvPolynomial (Fin 3) ℝ) :
    lc a i (Ideal.Quotient.mk (high 3 m) A) = (line a A).coeff i := by
  unfold lc
  apply line_teq a _ hi
  rw [← mk_eq]
  exact Quotient.out_eq _

theorem lc_add {i : ℕ} (hi : i < m) (x y : Q 3 m) : lc a i (x + y) = lc a i x + lc a i y := by
  obtain ⟨A, rfl⟩ := Ideal.Quotient.mk_surjective x
  obtain ⟨B, rfl⟩ := Ideal.Quotient.mk_surjective y
  rw [← map_add, lc_mk a hi, lc_mk a hi, lc_mk a hi, map_add, Polynomial.coeff_add]

theorem lc_mul {i : ℕ} (hi : i < m) (x y : Q 3 m) :
    lc a i (x * y) = ∑ k ∈ Finset.range (i + 1), lc a k x * lc a (i - k) y := by
  obtain ⟨A, rfl⟩ := Ideal.Quotient.mk_surjective x
  obtain ⟨B, rfl⟩ := Ideal.Quotient.mk_surjective y
  rw [← map_mul, lc_mk a hi, map_mul, Polynomial.coeff_mul,
    Finset.Nat.sum_antidiagonal_eq_sum_range_succ_mk]
  apply Finset.sum_congr rfl
  intro k hk
  have := Finset.mem_range.mp hk
  rw [lc_mk a (by omega), lc_mk a (by omega)]

theorem lc_κ {i : ℕ} (hi : i < m) (c : ℝ) : lc a i (κ c : Q 3 m) = if i = 0 then c else 0 := by
  unfold κ
  rw [lc_mk a hi]
  unfold line
  rw [aeval_C, Polynomial.algebraMap_eq, Polynomial.coeff_C]

theorem lc_var {i : ℕ} (hi : i < m) (j : Fin 3) :
    lc a i (var j : Q 3 m) = if i = 1 then a j else 0 := by
  unfold var
  rw [lc_mk a hi]
  unfold line
  rw [aeval_X, Polynomial.coeff_C_mul, Polynomial.coeff_X]
  by_cases h : i = 1
  · simp [h]
  · rw [if_neg (fun hc => h hc.symm), if_neg h, mul_zero]

theorem lc_cls {tb : Tables} {abi : ℕ → List (ℕ × ℕ)} (K : Ctx 3 m tb abi) (x : Co) :
    lc a 0 (cls 3 m tb x) = x 0 := by
  unfold cls
  rw [lc_mk a K.good.mpos, ← coeff_zero_toPoly K x]
  generalize toPoly 3 tb.jdx x = P
  unfold line
  induction P using MvPolynomial.induction_on with
  | C c => simp
  | add p q hp hq => simp only [map_add, Polynomial.coeff_add, hp, hq, coeff_add]
  | mul_X p j hp => rw [coeff_mul_X', if_neg (by simp)]; simp

theorem lc_zero {i : ℕ} (hi : i < m) : lc a i (0 : Q 3 m) = 0 := by
  rw [← κ_zero, lc_κ a hi]; simp

theorem lc_one {i : ℕ} (hi : i < m) : lc a i (1 : Q 3 m) = if i = 0 then 1 else 0 := by
  rw [← κ_one, lc_κ a hi]

theorem lc_neg {i : ℕ} (hi : i < m) (x : Q 3 m) : lc a i (-x) = -lc a i x := by
  have := lc_add a hi x (-x)
  rw [add_neg_cancel, lc_zero a hi] at this
  linarith

theorem lc_sub {i : ℕ} (hi : i < m) (x y : Q 3 m) : lc a i (x - y) = lc a i x - lc a i y := by
  rw [sub_eq_add_neg, lc_add a hi, lc_neg a hi, sub_eq_add_neg]

theorem lc_mul_zero (hm : 0 < m) (x y : Q 3 m) : lc a 0 (x * y) = lc a 0 x * lc a 0 y := by
  rw [lc_mul a hm]; simp

theorem lc_mul_one (hm : 2 ≤ m) (x y : Q 3 m) :
    lc a 1 (x * y) = lc a 0 x * lc a 1 y + lc a 1 x * lc a 0 y := by
  rw [lc_mul a (by omega)]; simp [Finset.sum_range_succ]

theorem lc_mul_two (hm : 3 ≤ m) (x y : Q 3 m) :
    lc a 2 (x * y) = lc a 0 x * lc a 2 y + lc a 1 x * lc a 1 y + lc a 2 x * lc a 0 y := by
  rw [lc_mul a (by omega)]; simp [Finset.sum_range_succ]

/-- First-order terms of `p` after a surface, for a ray parallel to the axis. -/
theorem refract_lin {tb : Tables} {abi : ℕ → List (ℕ × ℕ)} (K : Ctx 3 m tb abi) (hm : 2 ≤ m)
    (ic : Icpt) (fd kt : Co) (n mu : ℝ) (st : PolyState) (hp : st.p 0 = 0) (kt0 : kt 0 = 0)
    (f0 : ic.f 0 = 0) (g0 : ic.g 0 = 1) (hp1 : lc a 1 (cls 3 m tb st.p) = 0)
    (hk1 : lc a 1 (cls 3 m tb kt) = 0) :
    lc a 1 (cls 3 m tb (refractPoly abi m ic fd kt n mu st).p)
      = -2 * (1 - mu) ^ 2 * lc a 1 (cls 3 m tb ic.g) := by
  have hm1 : 1 < m := by omega
  have hm0 : 0 < m := by omega
  set p1 := shift st.p 1 with hp1'
  set h := pow abi m p1 (-1 / 2) with hh
  set mun := mu • h with hmun
  set ct := mul abi (mul abi ic.g mun)
    (shift (mul abi ((-2 : ℝ) • (kt + mul abi ic.f st.p)) ic.fr) 1) with hct
  set W := pow abi m (shift (mul abi ct ct) (1 - mu ^ 2)) (1 / 2) with hW
  set gd := mul abi ic.g (W - ct) with hgd
  set n1i := pow abi m (mun + gd) (-1) with hn1i
  have e1 : (refractPoly abi m ic fd kt n mu st).p = shift (mul abi n1i n1i) (-1) := rfl
  rw [e1]
  clear e1
  clear_value n1i gd W ct mun h p1
  have p10 : p1 0 = 1 := by rw [hp1', shift_const, hp, zero_add]
  have h0 : h 0 = 1 := by rw [hh]; exact pow_const K _ p10 _
  have mun0 : mun 0 = mu := by rw [hmun]; simp [h0]
  have ct0 : ct 0 = mu := by
    rw [hct, mul_const K, mul_const K, shift_const, mul_const K, g0, mun0]
    simp [kt0, mul_const K, hp]
  have rad0 : (shift (mul abi ct ct) (1 - mu ^ 2)) 0 = 1 := by
    rw [shift_const, mul_const K, ct0]; ring
  have W0 : W 0 = 1 := by rw [hW]; exact pow_const K _ rad0 _
  have gd0 : gd 0 = 1 - mu := by
    rw [hgd, mul_const K, g0, Pi.sub_apply, W0, ct0]; ring
  have N0 : (mun + gd) 0 = 1 := by rw [Pi.add_apply, mun0, gd0]; ring
  have ni0 : n1i 0 = 1 := by rw [hn1i]; exact pow_const K _ N0 _
  have H1 : lc a 1 (cls 3 m tb h) = 0 := by
    have ch := pow_isqrt K p1 p10
    rw [← hh, hp1', cls_shift K] at ch
    have := congrArg (lc a 1) ch
    simp only [lc_mul_one a hm, lc_add a hm1, lc_add a hm0, lc_mul_zero a hm0, lc_cls a K, h0, hp,
      hp1, lc_κ a hm1, lc_κ a hm0, lc_one a hm1] at this
    simp at this
    linarith
  have M1 : lc a 1 (cls 3 m tb mun) = 0 := by
    rw [hmun, cls_smul, lc_mul_one a hm, H1, lc_κ a hm1]; simp
  have C1 : lc a 1 (cls 3 m tb ct) = mu * lc a 1 (cls 3 m tb ic.g) := by
    rw [hct, cls_mul K, cls_mul K, cls_shift K, cls_mul K, cls_smul, cls_add, cls_mul K]
    simp only [lc_mul_one a hm, lc_add a hm1, lc_add a hm0, lc_mul_zero a hm0, lc_cls a K, hp, hp1,
      hk1, kt0, f0, g0, lc_κ a hm1, lc_κ a hm0, mun0, M1]
    simp
    ring
  have W1 : lc a 1 (cls 3 m tb W) = mu * (mu * lc a 1 (cls 3 m tb ic.g)) := by
    have cW := pow_sqrt K _ rad0
    rw [← hW, cls_shift K, cls_mul K] at cW
    have := congrArg (lc a 1) cW
    simp only [lc_mul_one a hm, lc_add a hm1, lc_cls a K, W0, ct0, C1, lc_κ a hm1] at this
    simp at this
    linarith
  have G1 : lc a 1 (cls 3 m tb gd) = (1 - mu) ^ 2 * lc a 1 (cls 3 m tb ic.g) := by
    rw [hgd, cls_mul K, cls_sub, lc_mul_one a hm, lc_sub a hm1, lc_sub a hm0, W1, C1]
    simp only [lc_cls a K, g0, W0, ct0]
    ring
  have I1 : lc a 1 (cls 3 m tb n1i) = -((1 - mu) ^ 2 * lc a 1 (cls 3 m tb ic.g)) := by
    have cni := pow_inv K (mun + gd) N0
    rw [← hn1i] at cni
    have := congrArg (lc a 1) cni
    rw [lc_mul_one a hm, lc_cls a K, lc_cls a K, ni0, N0, cls_add, lc_add a hm1, M1, G1,
      lc_one a hm1] at this
    simp at this
    linarith
  rw [cls_shift K, cls_mul K, lc_add a hm1, lc_mul_one a hm, I1, lc_cls a K, ni0, lc_κ a hm1]
  simp
  ring

end

end RayOpt.Poly
