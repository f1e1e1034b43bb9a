import Verif.Props.GaussianModes

/-!
Property C62: what it means for a resonator to be stable.
-/

namespace RayOpt

open Matrix Parax Sys Gauss

/-- One more pass, for a matrix that does not mix the axes. -/
theorem pass_axis {M : PM} (h : isSimpleAstigmatic M) (w : PVec) (axis : Fin 2) :
    (M *ᵥ w) (.inl axis) = M (.inl axis) (.inl axis) * w (.inl axis) + M (.inl axis) (.inr axis) * w (.inr axis) ∧
    (M *ᵥ w) (.inr axis) = M (.inr axis) (.inl axis) * w (.inl axis) + M (.inr axis) (.inr axis) * w (.inr axis) := by
  obtain ⟨h1, h2, h3, h4, h5, h6, h7, h8⟩ := h
  fin_cases axis <;>
    simp [Matrix.mulVec, dotProduct, Fintype.sum_sum_type, Fin.sum_univ_two, h1, h2, h3, h4, h5, h6, h7, h8]

theorem pass_succ (M : PM) (v : PVec) (k : ℕ) : M ^ (k + 1) *ᵥ v = M *ᵥ (M ^ k *ᵥ v) := by
  rw [pow_succ', mulVec_mulVec]

/-- C62: along a stable axis no ray ever leaves the resonator: heights and angles after any number of passes stay below
a bound. -/
theorem c62_bounded (M : PM) (h : isSimpleAstigmatic M) (hp : isProper M) (axis : Fin 2) (hs : stable M axis)
    (v : PVec) : ∃ C, ∀ k : ℕ, |(M ^ k *ᵥ v) (.inl axis)| ≤ C ∧ |(M ^ k *ᵥ v) (.inr axis)| ≤ C := by
  have hdet := astig_det h hp axis
  have hpass := fun k => pass_axis h (M ^ k *ᵥ v) axis
  unfold stable halfTrace at hs
  generalize M (.inl axis) (.inl axis) = a at *
  generalize M (.inl axis) (.inr axis) = b at *
  generalize M (.inr axis) (.inl axis) = c at *
  generalize M (.inr axis) (.inr axis) = d at *
  have hg : 0 < 4 - (a + d) ^ 2 := by nlinarith
  -- a quadratic form that no pass changes
  have hQ : ∀ k : ℕ, c * (M ^ k *ᵥ v) (.inl axis) ^ 2 +
      (d - a) * (M ^ k *ᵥ v) (.inl axis) * (M ^ k *ᵥ v) (.inr axis) - b * (M ^ k *ᵥ v) (.inr axis) ^ 2 =
      c * v (.inl axis) ^ 2 + (d - a) * v (.inl axis) * v (.inr axis) - b * v (.inr axis) ^ 2 := by
    intro k
    induction k with
    | zero => simp
    | succ k ih =>
      rw [pass_succ, (hpass k).1, (hpass k).2, ← ih]
      generalize (M ^ k *ᵥ v) (.inl axis) = y
      generalize (M ^ k *ᵥ v) (.inr axis) = u
      linear_combination (c * y ^ 2 + (d - a) * y * u - b * u ^ 2) * hdet
  set Q := c * v (.inl axis) ^ 2 + (d - a) * v (.inl axis) * v (.inr axis) - b * v (.inr axis) ^ 2
  refine ⟨max (Real.sqrt (-(4 * b * Q) / (4 - (a + d) ^ 2))) (Real.sqrt (4 * c * Q / (4 - (a + d) ^ 2))), fun k => ?_⟩
  have hk := hQ k
  generalize (M ^ k *ᵥ v) (.inl axis) = y at hk ⊢
  generalize (M ^ k *ᵥ v) (.inr axis) = u at hk ⊢
  constructor
  · refine le_max_of_le_left (Real.abs_le_sqrt ?_)
    rw [le_div_iff₀ hg, ← hk]
    have : -(4 * b * (c * y ^ 2 + (d - a) * y * u - b * u ^ 2)) - y ^ 2 * (4 - (a + d) ^ 2) =
        (2 * b * u - (d - a) * y) ^ 2 := by linear_combination (4 * y ^ 2) * hdet
    nlinarith [sq_nonneg (2 * b * u - (d - a) * y)]
  · refine le_max_of_le_right (Real.abs_le_sqrt ?_)
    rw [le_div_iff₀ hg, ← hk]
    have : 4 * c * (c * y ^ 2 + (d - a) * y * u - b * u ^ 2) - u ^ 2 * (4 - (a + d) ^ 2) =
        (2 * c * y + (d - a) * u) ^ 2 := by linear_combination (4 * u ^ 2) * hdet
    nlinarith [sq_nonneg (2 * c * y + (d - a) * u)]

/-- The beam after `k` passes. -/
noncomputable def afterPasses (M : PM) (q : QM) (k : ℕ) : Option QM := (fun o => o.bind (gaussStep M))^[k] (some q)

/-- A beam as a pair of real rays, its real and its imaginary part. -/
noncomputable def rayOf (v w : PVec) (i : Fin 2 ⊕ Fin 2) : ℂ := ⟨v i, w i⟩

theorem after_passes {M : PM} (h : isSimpleAstigmatic M) (hp : isProper M) {x : Fin 2 → ℂ} (hx : ∀ i, (x i).im < 0)
    {v w : PVec} (hv : v = Sum.elim (fun _ => 1) (fun i => (x i).re)) (hw : w = Sum.elim (fun _ => 0) (fun i => (x i).im))
    (k : ℕ) :
    (∀ i, (M ^ k *ᵥ v) (.inl i) * (M ^ k *ᵥ w) (.inr i) - (M ^ k *ᵥ w) (.inl i) * (M ^ k *ᵥ v) (.inr i) = (x i).im) ∧
    (∀ i, rayOf (M ^ k *ᵥ v) (M ^ k *ᵥ w) (.inl i) ≠ 0) ∧
    afterPasses M !![x 0, 0; 0, x 1] k = some
      !![rayOf (M ^ k *ᵥ v) (M ^ k *ᵥ w) (.inr 0) / rayOf (M ^ k *ᵥ v) (M ^ k *ᵥ w) (.inl 0), 0;
        0, rayOf (M ^ k *ᵥ v) (M ^ k *ᵥ w) (.inr 1) / rayOf (M ^ k *ᵥ v) (M ^ k *ᵥ w) (.inl 1)] := by
  have hne : ∀ v w : PVec, (∀ i, v (.inl i) * w (.inr i) - w (.inl i) * v (.inr i) = (x i).im) →
      ∀ i, rayOf v w (.inl i) ≠ 0 := by
    intro v w hW i h0
    have h1 : v (.inl i) = 0 := congrArg Complex.re h0
    have h2 : w (.inl i) = 0 := congrArg Complex.im h0
    have := hW i
    rw [h1, h2] at this
    have := hx i
    linarith
  induction k with
  | zero =>
    have hW : ∀ i, v (.inl i) * w (.inr i) - w (.inl i) * v (.inr i) = (x i).im := by
      intro i; rw [hv, hw]; simp
    have hu : ∀ i, rayOf v w (.inr i) / rayOf v w (.inl i) = x i := by
      intro i
      have h1 : rayOf v w (.inr i) = x i := by rw [hv, hw]; exact Complex.ext rfl rfl
      have h2 : rayOf v w (.inl i) = 1 := by rw [hv, hw]; exact Complex.ext rfl rfl
      rw [h1, h2, div_one]
    rw [pow_zero, one_mulVec, one_mulVec]
    exact ⟨hW, hne v w hW, by rw [hu, hu]; rfl⟩
  | succ k ih =>
    obtain ⟨hW, hn, hA⟩ := ih
    have hpv := fun i => pass_axis h (M ^ k *ᵥ v) i
    have hpw := fun i => pass_axis h (M ^ k *ᵥ w) i
    rw [pass_succ, pass_succ]
    generalize M ^ k *ᵥ v = r at *
    generalize M ^ k *ᵥ w = s at *
    have hW' : ∀ i, (M *ᵥ r) (.inl i) * (M *ᵥ s) (.inr i) - (M *ᵥ s) (.inl i) * (M *ᵥ r) (.inr i) = (x i).im := by
      intro i
      rw [(hpv i).1, (hpv i).2, (hpw i).1, (hpw i).2]
      linear_combination hW i + (r (.inl i) * s (.inr i) - s (.inl i) * r (.inr i)) * astig_det h hp i
    have hn' := hne _ _ hW'
    have hl : ∀ i, rayOf (M *ᵥ r) (M *ᵥ s) (.inl i) =
        M (.inl i) (.inl i) * rayOf r s (.inl i) + M (.inl i) (.inr i) * rayOf r s (.inr i) := by
      intro i
      apply Complex.ext
      · simp [rayOf, (hpv i).1]
      · simp [rayOf, (hpw i).1]
    have hr : ∀ i, rayOf (M *ᵥ r) (M *ᵥ s) (.inr i) =
        M (.inr i) (.inl i) * rayOf r s (.inl i) + M (.inr i) (.inr i) * rayOf r s (.inr i) := by
      intro i
      apply Complex.ext
      · simp [rayOf, (hpv i).2]
      · simp [rayOf, (hpw i).2]
    refine ⟨hW', hn', ?_⟩
    have hden : ∀ i, (M (.inl i) (.inl i) : ℂ) + M (.inl i) (.inr i) * (rayOf r s (.inr i) / rayOf r s (.inl i)) =
        rayOf (M *ᵥ r) (M *ᵥ s) (.inl i) / rayOf r s (.inl i) := by
      intro i; rw [hl i]; field_simp [hn i]
    have hnum : ∀ i, (M (.inr i) (.inl i) : ℂ) + M (.inr i) (.inr i) * (rayOf r s (.inr i) / rayOf r s (.inl i)) =
        rayOf (M *ᵥ r) (M *ᵥ s) (.inr i) / rayOf r s (.inl i) := by
      intro i; rw [hr i]; field_simp [hn i]
    have hst := gaussStep_astig h (fun i => rayOf r s (.inr i) / rayOf r s (.inl i))
    simp only [hden, hnum] at hst
    rw [if_neg (mul_ne_zero (div_ne_zero (hn' 0) (hn 0)) (div_ne_zero (hn' 1) (hn 1))),
      div_div_div_cancel_right₀ (hn 0), div_div_div_cancel_right₀ (hn 1)] at hst
    unfold afterPasses at hA ⊢
    rw [Function.iterate_succ_apply', hA]
    exact hst

/-- The radius of the beam after any number of passes. -/
theorem after_spot {M : PM} (h : isSimpleAstigmatic M) (hp : isProper M) {x : Fin 2 → ℂ} (hx : ∀ i, (x i).im < 0)
    {v w : PVec} (hv : v = Sum.elim (fun _ => 1) (fun i => (x i).re)) (hw : w = Sum.elim (fun _ => 0) (fun i => (x i).im))
    {scale l : ℝ} (hsc : 0 < scale) (hl : 0 < l) (axis : Fin 2) (k : ℕ) :
    ∃ q, afterPasses M !![x 0, 0; 0, x 1] k = some q ∧
      0 < (M ^ k *ᵥ v) (.inl axis) ^ 2 + (M ^ k *ᵥ w) (.inl axis) ^ 2 ∧ spotRadius q scale l axis = some
      (Real.sqrt (l / (scale * Real.pi) *
        (((M ^ k *ᵥ v) (.inl axis) ^ 2 + (M ^ k *ᵥ w) (.inl axis) ^ 2) / -(x axis).im))) := by
  have hc : 0 < l / (scale * Real.pi) := by positivity
  obtain ⟨hW, hn, hq⟩ := after_passes h hp hx hv hw k
  generalize M ^ k *ᵥ v = v at *
  generalize M ^ k *ᵥ w = w at *
  have hN : 0 < v (.inl axis) ^ 2 + w (.inl axis) ^ 2 := by
    have := Complex.normSq_pos.mpr (hn axis)
    rw [Complex.normSq_apply] at this
    simpa [rayOf, pow_two] using this
  have him : (rayOf v w (.inr axis) / rayOf v w (.inl axis)).im =
      (x axis).im / (v (.inl axis) ^ 2 + w (.inl axis) ^ 2) := by
    rw [Complex.div_im, Complex.normSq_apply, ← hW axis]
    simp only [rayOf]
    rw [← sub_div]
    congr 1 <;> ring
  have hxa : 0 < -(x axis).im := by have := hx axis; linarith
  refine ⟨_, hq, hN, ?_⟩
  have hd : ∀ z : Fin 2 → ℂ, (!![z 0, 0; 0, z 1] : QM) axis axis = z axis := by
    intro z; fin_cases axis <;> simp
  unfold spotRadius
  simp only [hd (fun i => rayOf v w (.inr i) / rayOf v w (.inl i)), him]
  have hr : 0 < -((x axis).im / (v (.inl axis) ^ 2 + w (.inl axis) ^ 2)) := by
    rw [← neg_div]; exact div_pos hxa hN
  rw [if_neg (by rintro (h | h); exacts [hr.ne' h, absurd (div_pos hc hr) h.le.not_gt])]
  congr 2
  rw [← neg_div, div_eq_mul_inv (l / _), inv_div]

/-- C62: in a resonator that is stable along an axis, any beam aligned with the axes survives any number of passes, and its
radius along the axis stays below a bound. -/
theorem c62_beam (M : PM) (h : isSimpleAstigmatic M) (hp : isProper M) (axis : Fin 2) (hs : stable M axis)
    (x : Fin 2 → ℂ) (hx : ∀ i, (x i).im < 0) {scale l : ℝ} (hsc : 0 < scale) (hl : 0 < l) :
    ∃ C, ∀ k, ∃ q r, afterPasses M !![x 0, 0; 0, x 1] k = some q ∧ spotRadius q scale l axis = some r ∧ 0 < r ∧ r ≤ C := by
  obtain ⟨A, hA⟩ := c62_bounded M h hp axis hs (Sum.elim (fun _ => 1) (fun i => (x i).re))
  obtain ⟨B, hB⟩ := c62_bounded M h hp axis hs (Sum.elim (fun _ => 0) (fun i => (x i).im))
  have hc : 0 < l / (scale * Real.pi) := by positivity
  have hxa : 0 < -(x axis).im := by have := hx axis; linarith
  refine ⟨Real.sqrt (l / (scale * Real.pi) * ((A ^ 2 + B ^ 2) / -(x axis).im)), fun k => ?_⟩
  obtain ⟨q, hq, hN, hr⟩ := after_spot h hp hx rfl rfl hsc hl axis k
  refine ⟨q, _, hq, hr, Real.sqrt_pos.mpr (mul_pos hc (div_pos hN hxa)), ?_⟩
  refine Real.sqrt_le_sqrt (mul_le_mul_of_nonneg_left (div_le_div_of_nonneg_right ?_ hxa.le) hc.le)
  have h1 := sq_le_sq' (abs_le.mp (hA k).1).1 (abs_le.mp (hA k).1).2
  have h2 := sq_le_sq' (abs_le.mp (hB k).1).1 (abs_le.mp (hB k).1).2
  linarith

theorem growing_root {t : ℝ} (hs : 4 < t ^ 2) : ∃ g : ℝ, 1 < |g| ∧ g ^ 2 - t * g + 1 = 0 := by
  have hq := Real.sq_sqrt (show 0 ≤ t ^ 2 - 4 by linarith)
  set s := Real.sqrt (t ^ 2 - 4)
  by_cases h1 : 1 < |(t + s) / 2|
  · exact ⟨_, h1, by linear_combination hq / 4⟩
  · refine ⟨(t - s) / 2, ?_, by linear_combination hq / 4⟩
    by_contra h2
    rw [not_lt, ← sq_le_one_iff_abs_le_one] at h1 h2
    nlinarith

/-- C62: along an axis whose half trace exceeds one, and on which angles matter for the height after a pass, the radius of
every beam grows beyond any bound. -/
theorem c62_beam_escape (M : PM) (h : isSimpleAstigmatic M) (hp : isProper M) (axis : Fin 2)
    (hs : 1 < halfTrace M axis ^ 2) (hb : M (.inl axis) (.inr axis) ≠ 0)
    (x : Fin 2 → ℂ) (hx : ∀ i, (x i).im < 0) {scale l : ℝ} (hsc : 0 < scale) (hl : 0 < l) (C : ℝ) :
    ∃ k q r, afterPasses M !![x 0, 0; 0, x 1] k = some q ∧ spotRadius q scale l axis = some r ∧ C < r := by
  have hc : 0 < l / (scale * Real.pi) := by positivity
  have hxa : 0 < -(x axis).im := by have := hx axis; linarith
  have hgrow : ∀ D, ∃ k, D < |(M ^ k *ᵥ (Sum.elim (fun _ => 0) (fun i => (x i).im) : PVec)) (.inl axis)| := by
    by_contra hD
    push Not at hD
    obtain ⟨D, hD⟩ := hD
    generalize hw : (Sum.elim (fun _ => 0) (fun i => (x i).im) : PVec) = w at hD
    have hdet := astig_det h hp axis
    have hpass := fun k => pass_axis h (M ^ k *ᵥ w) axis
    unfold halfTrace at hs
    generalize M (.inl axis) (.inl axis) = a at *
    generalize M (.inl axis) (.inr axis) = b at *
    generalize M (.inr axis) (.inl axis) = c at *
    generalize M (.inr axis) (.inr axis) = d at *
    obtain ⟨g, hg, hr⟩ := growing_root (t := a + d) (by nlinarith)
    have hg0 : g ≠ 0 := by rintro rfl; norm_num at hr
    -- what is left of the ray once its shrinking part is taken away
    have hz : ∀ k, g * (M ^ (k + 1) *ᵥ w) (.inl axis) - (M ^ k *ᵥ w) (.inl axis) = g ^ (k + 1) * (b * (x axis).im) := by
      intro k
      induction k with
      | zero =>
        rw [pass_succ, (hpass 0).1, ← hw]
        simp
      | succ k ih =>
        rw [pow_succ' g, mul_assoc, ← ih, pass_succ M w (k + 1), (hpass (k + 1)).1]
        rw [pass_succ M w k, (hpass k).1, (hpass k).2]
        generalize (M ^ k *ᵥ w) (.inl axis) = y
        generalize (M ^ k *ᵥ w) (.inr axis) = u
        linear_combination (-(a * y + b * u)) * hr - g * y * hdet
    obtain ⟨k, hk⟩ := pow_unbounded_of_one_lt ((|g| * D + D) / |b * (x axis).im|) hg
    have hp' : 0 < |b * (x axis).im| := abs_pos.mpr (mul_ne_zero hb (hx axis).ne)
    rw [div_lt_iff₀ hp'] at hk
    have h1 : |g| ^ (k + 1) * |b * (x axis).im| ≤ |g| * D + D := by
      rw [← abs_pow, ← abs_mul, ← hz k]
      refine (abs_sub _ _).trans (add_le_add ?_ (hD k))
      rw [abs_mul]
      exact mul_le_mul_of_nonneg_left (hD (k + 1)) (abs_nonneg g)
    have h2 : |g| ^ k ≤ |g| ^ (k + 1) := pow_le_pow_right₀ hg.le (Nat.le_succ k)
    have := mul_le_mul_of_nonneg_right h2 hp'.le
    linarith
  obtain ⟨k, hk⟩ := hgrow (Real.sqrt (C ^ 2 * -(x axis).im / (l / (scale * Real.pi))))
  obtain ⟨q, hq, -, hr⟩ := after_spot h hp hx rfl rfl hsc hl axis k
  refine ⟨k, q, _, hq, hr, ?_⟩
  rw [Real.sqrt_lt' ((Real.sqrt_nonneg _).trans_lt hk), sq_abs, div_lt_iff₀ hc] at hk
  refine (le_abs_self C).trans_lt ?_
  apply Real.lt_sqrt_of_sq_lt
  rw [sq_abs, mul_div_assoc', lt_div_iff₀ hxa]
  nlinarith [mul_nonneg hc.le (sq_nonneg ((M ^ k *ᵥ (Sum.elim (fun _ => 1) (fun i => (x i).re) : PVec)) (.inl axis)))]

/-- C62: along an axis whose half trace exceeds one there is a ray that every pass stretches by the same factor, so that
it leaves the resonator. -/
theorem c62_escape (M : PM) (h : isSimpleAstigmatic M) (hp : isProper M) (axis : Fin 2) (hs : 1 < halfTrace M axis ^ 2) :
    ∃ (v : PVec) (g : ℝ), 1 < |g| ∧ (v (.inl axis) ≠ 0 ∨ v (.inr axis) ≠ 0) ∧
      ∀ k : ℕ, (M ^ k *ᵥ v) (.inl axis) = g ^ k * v (.inl axis) ∧ (M ^ k *ᵥ v) (.inr axis) = g ^ k * v (.inr axis) := by
  have hdet := astig_det h hp axis
  have hpass := fun (v : PVec) k => pass_axis h (M ^ k *ᵥ v) axis
  unfold halfTrace at hs
  generalize M (.inl axis) (.inl axis) = a at *
  generalize M (.inl axis) (.inr axis) = b at *
  generalize M (.inr axis) (.inl axis) = c at *
  generalize M (.inr axis) (.inr axis) = d at *
  obtain ⟨g, hg, hr⟩ := growing_root (t := a + d) (by nlinarith)
  obtain ⟨y, u, hyu, hy, hu⟩ : ∃ y u : ℝ, (y ≠ 0 ∨ u ≠ 0) ∧ a * y + b * u = g * y ∧ c * y + d * u = g * u := by
    by_cases hb : b = 0
    · by_cases hc : c = 0
      · subst hb hc
        have : (g - a) * (g - d) = 0 := by linear_combination hr + hdet
        rcases mul_eq_zero.mp this with h1 | h1
        · exact ⟨1, 0, .inl one_ne_zero, by linarith, by ring⟩
        · exact ⟨0, 1, .inr one_ne_zero, by ring, by linarith⟩
      · exact ⟨g - d, c, .inr hc, by linear_combination -hr - hdet, by ring⟩
    · exact ⟨b, g - a, .inl hb, by ring, by linear_combination -hr - hdet⟩
  refine ⟨Sum.elim (fun _ => y) (fun _ => u), g, hg, hyu, fun k => ?_⟩
  induction k with
  | zero => simp
  | succ k ih =>
    rw [pass_succ, (hpass _ k).1, (hpass _ k).2, ih.1, ih.2]
    simp only [Sum.elim_inl, Sum.elim_inr]
    constructor
    · linear_combination g ^ k * hy
    · linear_combination g ^ k * hu

/-- C62: in between, neither need hold.  A round trip that inverts every ray (the symmetric confocal resonator) keeps all
rays and is not called stable; free space is not called stable either, and there any ray at an angle leaves. -/
theorem c62_marginal : (isSimpleAstigmatic (-1) ∧ isProper (-1) ∧ (∀ i, ¬ stable (-1) i) ∧
      ∀ (v : PVec) (k : ℕ) (i : Fin 2 ⊕ Fin 2), |((-1 : PM) ^ k *ᵥ v) i| = |v i|) ∧
    ((∀ i, ¬ stable (transfer 1 1) i) ∧
      ∀ (v : PVec) (k : ℕ) (i : Fin 2), (transfer 1 1 ^ k *ᵥ v) (.inl i) = v (.inl i) + k * v (.inr i)) := by
  refine ⟨⟨by simp [isSimpleAstigmatic], ?_, fun i => by simp [stable, halfTrace], ?_⟩, fun i => ?_, ?_⟩
  · rw [← fromBlocks_one, fromBlocks_neg]
    simp [isProper]
  · intro v k i
    rcases neg_one_pow_eq_or PM k with h | h <;> simp [h, neg_mulVec]
  · fin_cases i <;> simp [stable, halfTrace, transfer]
  · intro v k i
    have hu : ∀ k : ℕ, (transfer 1 1 ^ k *ᵥ v) (.inr i) = v (.inr i) := by
      intro k
      induction k with
      | zero => simp
      | succ k ih =>
        rw [pass_succ, (pass_axis (by simp [isSimpleAstigmatic, transfer]) _ i).2, ih]
        fin_cases i <;> simp [transfer]
    induction k with
    | zero => simp
    | succ k ih =>
      rw [pass_succ, (pass_axis (by simp [isSimpleAstigmatic, transfer]) _ i).1, ih, hu]
      push_cast
      fin_cases i <;> simp [transfer] <;> ring

/-- A quarter turn is stable along both axes; a telescope that magnifies by two is not. -/
example : (isSimpleAstigmatic (fromBlocks 0 1 (-1) 0) ∧ isProper (fromBlocks 0 1 (-1) 0) ∧
      ∀ i, stable (fromBlocks 0 1 (-1) 0) i) ∧
    isSimpleAstigmatic (fromBlocks !![2, 0; 0, 2] 0 0 !![1 / 2, 0; 0, 1 / 2]) ∧
    isProper (fromBlocks !![2, 0; 0, 2] 0 0 !![1 / 2, 0; 0, 1 / 2]) ∧
    ∀ i, 1 < halfTrace (fromBlocks !![2, 0; 0, 2] 0 0 !![1 / 2, 0; 0, 1 / 2]) i ^ 2 := by
  refine ⟨⟨by simp [isSimpleAstigmatic], by simp [isProper], fun i => by simp [stable, halfTrace]⟩,
    by simp [isSimpleAstigmatic], ?_, fun i => ?_⟩
  · refine ⟨?_, by simp, by simp⟩
    ext i j; fin_cases i <;> fin_cases j <;> simp [vecMul, dotProduct, Fin.sum_univ_two]
  · fin_cases i <;> simp [halfTrace] <;> norm_num

/-- A beam in the quarter turn, a hundred passes later. -/
example : ∃ C, ∃ q r, afterPasses (fromBlocks 0 1 (-1) 0) !![1 - Complex.I, 0; 0, -2 * Complex.I] 100 = some q ∧
    spotRadius q 1 1 0 = some r ∧ 0 < r ∧ r ≤ C := by
  obtain ⟨C, hC⟩ := c62_beam (fromBlocks 0 1 (-1) 0) (by simp [isSimpleAstigmatic]) (by simp [isProper]) 0
    (by simp [stable, halfTrace]) ![1 - Complex.I, -2 * Complex.I] (by intro i; fin_cases i <;> simp) one_pos one_pos
  exact ⟨C, hC 100⟩

/-- A resonator with half trace 3/2, whose beams grow. -/
example : isSimpleAstigmatic (fromBlocks (2 : M2) 1 1 1) ∧ isProper (fromBlocks (2 : M2) 1 1 1) ∧
    ∀ i, 1 < halfTrace (fromBlocks (2 : M2) 1 1 1) i ^ 2 ∧ (fromBlocks (2 : M2) 1 1 1 : PM) (.inl i) (.inr i) ≠ 0 := by
  have h2 : (2 : M2) = !![2, 0; 0, 2] := by
    ext i j; fin_cases i <;> fin_cases j <;> simp [Matrix.ofNat_apply]
  rw [h2]
  refine ⟨by simp [isSimpleAstigmatic], ⟨?_, ?_, by simp⟩, fun i => ⟨?_, by simp⟩⟩
  · ext i j; fin_cases i <;> fin_cases j <;> norm_num
  · ext i j; fin_cases i <;> fin_cases j <;> simp
  · fin_cases i <;> simp [halfTrace] <;> norm_num

end RayOpt
