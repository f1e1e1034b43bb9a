import Verif.Model.Sums
import Mathlib.Tactic

/-!
C50: sums along lines, circles and rays conserve the total, and which pixels each bin collects.
-/

namespace RayOpt.Sums

/-- The total of an array. -/
def total (n m : ℕ) (f : ℕ → ℕ → ℝ) : ℝ := ∑ i ∈ Finset.range n, ∑ j ∈ Finset.range m, f i j

theorem mem_pixels {n m : ℕ} {p : ℕ × ℕ} : p ∈ pixels n m ↔ p.1 < n ∧ p.2 < m := by
  obtain ⟨i, j⟩ := p
  simp [pixels]

theorem sum_range_map {M : Type*} [AddCommMonoid M] (f : ℕ → M) (n : ℕ) :
    ((List.range n).map f).sum = ∑ i ∈ Finset.range n, f i := by
  induction n with
  | zero => simp
  | succ n ih => simp [List.range_succ, Finset.sum_range_succ, ih]

theorem sum_pixels (n m : ℕ) (w : ℕ × ℕ → ℝ) :
    ((pixels n m).map w).sum = ∑ i ∈ Finset.range n, ∑ j ∈ Finset.range m, w (i, j) := by
  rw [← sum_range_map]
  unfold pixels
  generalize List.range n = l
  induction l with
  | nil => rfl
  | cons i l ih =>
    simp only [List.flatMap_cons, List.map_append, List.sum_append, ih, List.map_cons,
      List.sum_cons, List.map_map]
    rw [← sum_range_map]
    rfl

theorem sum_filter_pixels (n m : ℕ) (w : ℕ × ℕ → ℝ) (q : ℕ × ℕ → Prop) [DecidablePred q] :
    (((pixels n m).filter fun p => q p).map w).sum =
      ∑ i ∈ Finset.range n, ∑ j ∈ Finset.range m, if q (i, j) then w (i, j) else 0 := by
  rw [← sum_pixels n m fun p => if q p then w p else 0]
  generalize pixels n m = l
  induction l with
  | nil => rfl
  | cons p l ih =>
    by_cases h : q p <;> simp [h, ih]

theorem le_binLength (k : List ℤ) (l : ℕ) : l ≤ binLength k l := by
  unfold binLength
  induction k generalizing l with
  | nil => exact le_rfl
  | cons a k ih => exact (le_max_left _ _).trans (ih _)

theorem lt_binLength (k : List ℤ) (l : ℕ) (a : ℤ) (h : a ∈ k) :
    a.toNat < binLength k l := by
  unfold binLength
  induction k generalizing l with
  | nil => cases h
  | cons b k ih =>
    rcases List.mem_cons.mp h with rfl | h
    · exact lt_of_lt_of_le (lt_of_lt_of_le (Nat.lt_succ_self _) (le_max_right _ _))
        (le_binLength k _)
    · exact ih _ h

theorem binLength_le (k : List ℤ) (l r : ℕ) (h : ∀ a ∈ k, a.toNat < r) (hl : l ≤ r) :
    binLength k l ≤ r := by
  unfold binLength
  induction k generalizing l with
  | nil => exact hl
  | cons b k ih =>
    exact ih _ (fun a ha => h a (List.mem_cons_of_mem _ ha))
      (max_le hl (h b List.mem_cons_self))

/-- What `bincount` returns when no bin is negative. -/
theorem bincount_some (k : ℕ × ℕ → ℤ) (w : ℕ × ℕ → ℝ) (ps : List (ℕ × ℕ)) (l : ℕ)
    (hk : ∀ p ∈ ps, 0 ≤ k p) : bincount k w ps l =
      some ((List.range (binLength (ps.map k) l)).map fun b : ℕ =>
        ((ps.filter fun p => k p = b).map w).sum) := by
  unfold bincount
  rw [if_neg]
  rintro ⟨p, hp, h⟩
  exact absurd (hk p hp) (not_le.mpr h)

theorem bincount_total (k : ℕ × ℕ → ℤ) (w : ℕ × ℕ → ℝ) (ps : List (ℕ × ℕ)) (r : ℕ)
    (hk : ∀ p ∈ ps, 0 ≤ k p) (hr : ∀ p ∈ ps, (k p).toNat < r) :
    ((List.range r).map fun b : ℕ => ((ps.filter fun p => k p = b).map w).sum).sum =
      (ps.map w).sum := by
  rw [sum_range_map]
  induction ps with
  | nil => simp
  | cons p ps ih =>
    have h0 := hk p List.mem_cons_self
    have h1 := hr p List.mem_cons_self
    have : ∀ b : ℕ, ((List.filter (fun p => decide (k p = b)) (p :: ps)).map w).sum =
        (if b = (k p).toNat then w p else 0) +
          ((List.filter (fun p => decide (k p = b)) ps).map w).sum := by
      intro b
      by_cases hb : k p = b
      · have : b = (k p).toNat := by omega
        simp [hb]
      · have : b ≠ (k p).toNat := by omega
        simp [hb, this]
    simp only [this, Finset.sum_add_distrib]
    rw [ih (fun q hq => hk q (List.mem_cons_of_mem _ hq))
      (fun q hq => hr q (List.mem_cons_of_mem _ hq))]
    simp [Finset.sum_ite_eq', h1]

/-- `bincount` without negative bins conserves the total. -/
theorem bincount_conserves (k : ℕ × ℕ → ℤ) (w : ℕ × ℕ → ℝ) (ps : List (ℕ × ℕ)) (l : ℕ)
    (hk : ∀ p ∈ ps, 0 ≤ k p) : ∃ r, bincount k w ps l = some r ∧ r.sum = (ps.map w).sum ∧
      l ≤ r.length := by
  refine ⟨_, bincount_some k w ps l hk, bincount_total k w ps _ hk fun p hp => ?_, ?_⟩
  · exact lt_binLength _ _ _ (List.mem_map_of_mem hp)
  · simpa using le_binLength _ _

theorem angleMin_le (n m : ℕ) (angle aspect b : ℝ) (p : ℕ × ℕ) (h1 : p.1 < n) (h2 : p.2 < m) :
    angleMin n m angle aspect b ≤ angleCoord angle aspect b p := by
  unfold angleMin angleCoord
  have e1 : (p.1 : ℝ) ≤ ((n - 1 : ℕ) : ℝ) := by exact_mod_cast Nat.le_sub_one_of_lt h1
  have e2 : (p.2 : ℝ) ≤ ((m - 1 : ℕ) : ℝ) := by exact_mod_cast Nat.le_sub_one_of_lt h2
  have p1 : (0 : ℝ) ≤ p.1 := Nat.cast_nonneg _
  have p2 : (0 : ℝ) ≤ p.2 := Nat.cast_nonneg _
  dsimp only
  generalize Real.cos angle * aspect / b = c
  generalize Real.sin angle / b = s
  generalize ((n - 1 : ℕ) : ℝ) = N at e1 ⊢
  generalize ((m - 1 : ℕ) : ℝ) = M at e2 ⊢
  generalize (p.1 : ℝ) = x at *
  generalize (p.2 : ℝ) = y at *
  simp only [Nat.cast_zero, mul_zero, sub_zero, zero_sub]
  rcases le_total 0 c with hc | hc <;> rcases le_total 0 s with hs | hs
  · exact (min_le_right _ _).trans ((min_le_left _ _).trans (by nlinarith))
  · exact (min_le_left _ _).trans ((min_le_left _ _).trans (by nlinarith))
  · exact (min_le_right _ _).trans ((min_le_right _ _).trans (by nlinarith))
  · exact (min_le_left _ _).trans ((min_le_right _ _).trans (by nlinarith))

theorem angleBin_nonneg (n m : ℕ) (angle aspect b : ℝ) (p : ℕ × ℕ) (hp : p ∈ pixels n m) :
    0 ≤ angleBin n m angle aspect b p := by
  obtain ⟨h1, h2⟩ := mem_pixels.mp hp
  have := angleMin_le n m angle aspect b p h1 h2
  exact Int.floor_nonneg.mpr (by linarith)

theorem total_flip (n m : ℕ) (f : ℕ → ℕ → ℝ) :
    ((pixels n m).map fun p => f (n - 1 - p.1) p.2).sum = total n m f := by
  rw [sum_pixels]
  exact Finset.sum_range_reflect (fun i => ∑ j ∈ Finset.range m, f i j) n

/-- C50: `angle_sum` conserves the total of the array for every shape, angle, aspect ratio and bin
size. -/
theorem c50_angle_total (n m : ℕ) (hn : n ≠ 0) (hm : m ≠ 0) (f : ℕ → ℕ → ℝ) (angle aspect : ℝ)
    (binsize : Option ℝ) (hb : binsize ≠ some 0)
    (hd : binsize = none → aspect ≠ 0 ∨ Real.sin angle ≠ 0) :
    ∃ r, angleSum n m f angle aspect binsize = some r ∧ r.sum = total n m f := by
  unfold angleSum
  simp only
  set b := binsize.getD (max |Real.cos angle * aspect| |Real.sin angle|) with hbd
  have hb0 : b ≠ 0 := by
    cases binsize with
    | some x => rw [hbd]; intro h; exact hb (congrArg some h)
    | none =>
      intro h
      rw [hbd, Option.getD_none] at h
      have h1 : |Real.sin angle| ≤ 0 := h ▸ le_max_right _ _
      have h2 : |Real.cos angle * aspect| ≤ 0 := h ▸ le_max_left _ _
      have h1 := abs_eq_zero.mp (le_antisymm h1 (abs_nonneg _))
      have h2 := abs_eq_zero.mp (le_antisymm h2 (abs_nonneg _))
      rcases hd rfl with h | h
      · rcases mul_eq_zero.mp h2 with h3 | h3
        · have := Real.sin_sq_add_cos_sq angle
          rw [h1, h3] at this
          norm_num at this
        · exact h h3
      · exact h h1
  rw [if_neg (by simp [hn, hm, hb0])]
  obtain ⟨r, h1, h2, -⟩ := bincount_conserves (angleBin n m angle aspect b)
    (fun p => f (n - 1 - p.1) p.2) (pixels n m) 0 fun p hp => angleBin_nonneg n m angle aspect b p hp
  exact ⟨r, h1, by rw [h2, total_flip]⟩

theorem trunc_of_nonneg {x : ℝ} (h : 0 ≤ x) : trunc x = ⌊x⌋ := if_pos h

/-- C50: `polar_sum` along circles conserves the total for every shape, centre, aspect ratio and
positive bin size. -/
theorem c50_azimuthal_total (n m : ℕ) (f : ℕ → ℕ → ℝ) (center : ℝ × ℝ) (aspect : ℝ)
    (binsize : Option ℝ) (hb : ∀ b ∈ binsize, 0 < b) (hd : binsize = none → 0 < aspect) :
    ∃ r, azimuthalSum n m f center aspect binsize = some r ∧ r.sum = total n m f := by
  unfold azimuthalSum
  simp only
  set b := binsize.getD (min 1 aspect) with hbd
  have hb0 : 0 < b := by
    cases binsize with
    | some x => exact hb x rfl
    | none => exact lt_min one_pos (hd rfl)
  rw [if_neg hb0.ne']
  obtain ⟨r, h1, h2, -⟩ := bincount_conserves (fun p => trunc (Real.sqrt ((p.2 - center.2) ^ 2 *
    aspect ^ 2 + (p.1 - center.1) ^ 2) / b)) (fun p => f p.1 p.2) (pixels n m) 0 fun p _ => by
      have : 0 ≤ Real.sqrt ((p.2 - center.2) ^ 2 * aspect ^ 2 + (p.1 - center.1) ^ 2) / b :=
        div_nonneg (Real.sqrt_nonneg _) hb0.le
      simp only [trunc_of_nonneg this]
      exact Int.floor_nonneg.mpr this
  exact ⟨r, h1, by rw [h2, sum_pixels]; rfl⟩

/-- C50: each bin of the sum along circles is the sum of the pixels of one ring. -/
theorem c50_azimuthal_bins (n m : ℕ) (f : ℕ → ℕ → ℝ) (center : ℝ × ℝ) (aspect b : ℝ) (hb : 0 < b)
    (r : List ℝ) (h : azimuthalSum n m f center aspect (some b) = some r) (k : ℕ) :
    r.getD k 0 = ∑ i ∈ Finset.range n, ∑ j ∈ Finset.range m,
      open Classical in
      if k * b ≤ Real.sqrt (((j - center.2) * aspect) ^ 2 + (i - center.1) ^ 2) ∧
        Real.sqrt (((j - center.2) * aspect) ^ 2 + (i - center.1) ^ 2) < (k + 1) * b
      then f i j else 0 := by
  unfold azimuthalSum at h
  simp only [Option.getD_some, if_neg hb.ne'] at h
  have hnn : ∀ p : ℕ × ℕ, 0 ≤ Real.sqrt ((p.2 - center.2) ^ 2 * aspect ^ 2 +
      (p.1 - center.1) ^ 2) / b := fun p => div_nonneg (Real.sqrt_nonneg _) hb.le
  rw [bincount_some _ _ _ _ fun p _ => by
    simp only [trunc_of_nonneg (hnn p)]; exact Int.floor_nonneg.mpr (hnn p)] at h
  cases h
  have hbin : ∀ p : ℕ × ℕ, (trunc (Real.sqrt ((p.2 - center.2) ^ 2 * aspect ^ 2 +
      (p.1 - center.1) ^ 2) / b) = (k : ℤ)) ↔
      (k * b ≤ Real.sqrt (((p.2 - center.2) * aspect) ^ 2 + (p.1 - center.1) ^ 2) ∧
        Real.sqrt (((p.2 - center.2) * aspect) ^ 2 + (p.1 - center.1) ^ 2) < (k + 1) * b) := by
    intro p
    rw [trunc_of_nonneg (hnn p), Int.floor_eq_iff, le_div_iff₀ hb, div_lt_iff₀ hb, mul_pow]
    simp
  rw [List.getD_eq_getElem?_getD, List.getElem?_map]
  by_cases hk : k < binLength ((pixels n m).map fun p => trunc (Real.sqrt ((p.2 - center.2) ^ 2 *
      aspect ^ 2 + (p.1 - center.1) ^ 2) / b)) 0
  · rw [List.getElem?_range hk]
    simp only [Option.map_some, Option.getD_some]
    rw [sum_filter_pixels]
    refine Finset.sum_congr rfl fun i _ => Finset.sum_congr rfl fun j _ => ?_
    exact if_congr (hbin (i, j)) rfl rfl
  · rw [List.getElem?_eq_none (by simpa using hk)]
    symm
    refine Finset.sum_eq_zero fun i hi => Finset.sum_eq_zero fun j hj => if_neg fun hc => hk ?_
    have h1 := (hbin (i, j)).mpr hc
    have := lt_binLength ((pixels n m).map fun p => trunc (Real.sqrt ((p.2 - center.2) ^ 2 *
      aspect ^ 2 + (p.1 - center.1) ^ 2) / b)) 0 _ (List.mem_map_of_mem (mem_pixels.mpr
        ⟨Finset.mem_range.mp hi, Finset.mem_range.mp hj⟩ : (i, j) ∈ pixels n m))
    rw [h1] at this
    simpa using this

/-- C50: what the bins of `angle_sum` collect.  Each pixel has a position along the axis at the given
angle, which points from the second index towards the first; bin `k` is the sum of the pixels whose
position is `k` bins, to within half a bin, above the smallest one. -/
theorem c50_angle_bins (n m : ℕ) (f : ℕ → ℕ → ℝ) (angle aspect b : ℝ) (hb : 0 < b) (r : List ℝ)
    (h : angleSum n m f angle aspect (some b) = some r) (s : ℕ → ℕ → ℝ)
    (hs : ∀ i j, s i j = Real.cos angle * (aspect * j) + Real.sin angle * i) :
    ∃ s0, (∀ i < n, ∀ j < m, s0 ≤ s i j) ∧ (∃ i < n, ∃ j < m, s i j = s0) ∧ ∀ k : ℕ,
      r.getD k 0 = ∑ i ∈ Finset.range n, ∑ j ∈ Finset.range m,
        open Classical in
        if (k - 1 / 2) * b ≤ s i j - s0 ∧ s i j - s0 < (k + 1 / 2) * b then f i j else 0 := by
  unfold angleSum at h
  simp only [Option.getD_some, hb.ne', or_false] at h
  split_ifs at h with h0
  obtain ⟨hn, hm⟩ := not_or.mp h0
  rw [bincount_some _ _ _ _ fun p hp => angleBin_nonneg n m angle aspect b p hp] at h
  cases h
  have hN : ((n - 1 : ℕ) : ℝ) = n - 1 := by rw [Nat.cast_sub (by omega)]; simp
  have hco : ∀ i j : ℕ, i < n → s (n - 1 - i) j =
      b * angleCoord angle aspect b (i, j) + Real.sin angle * (n - 1) := by
    intro i j hi
    rw [hs, angleCoord, Nat.cast_sub (by omega), hN]
    field_simp
    ring
  have hflip : ∀ i < n, n - 1 - (n - 1 - i) = i := fun i hi => by omega
  refine ⟨b * angleMin n m angle aspect b + Real.sin angle * (n - 1), ?_, ?_, ?_⟩
  · intro i hi j hj
    have := angleMin_le n m angle aspect b (n - 1 - i, j) (by simp only; omega) hj
    rw [← hflip i hi, hco _ _ (by omega)]
    nlinarith
  · have h4 : ∃ i < n, ∃ j < m, angleMin n m angle aspect b = angleCoord angle aspect b (i, j) := by
      unfold angleMin
      rcases min_choice (min (angleCoord angle aspect b (0, 0)) (angleCoord angle aspect b (0, m - 1)))
        (min (angleCoord angle aspect b (n - 1, 0)) (angleCoord angle aspect b (n - 1, m - 1)))
        with h | h <;> rw [h]
      · rcases min_choice (angleCoord angle aspect b (0, 0)) (angleCoord angle aspect b (0, m - 1))
          with h | h <;> rw [h]
        · exact ⟨0, by omega, 0, by omega, rfl⟩
        · exact ⟨0, by omega, m - 1, by omega, rfl⟩
      · rcases min_choice (angleCoord angle aspect b (n - 1, 0))
          (angleCoord angle aspect b (n - 1, m - 1)) with h | h <;> rw [h]
        · exact ⟨n - 1, by omega, 0, by omega, rfl⟩
        · exact ⟨n - 1, by omega, m - 1, by omega, rfl⟩
    obtain ⟨i, hi, j, hj, e⟩ := h4
    exact ⟨n - 1 - i, by omega, j, hj, by rw [hco i j hi, e]⟩
  · intro k
    have hbin : ∀ i j : ℕ, i < n → (angleBin n m angle aspect b (i, j) = (k : ℤ) ↔
        (k - 1 / 2) * b ≤ s (n - 1 - i) j -
          (b * angleMin n m angle aspect b + Real.sin angle * (n - 1)) ∧
        s (n - 1 - i) j - (b * angleMin n m angle aspect b + Real.sin angle * (n - 1)) <
          (k + 1 / 2) * b) := by
      intro i j hi
      rw [hco i j hi, angleBin, Int.floor_eq_iff]
      generalize angleCoord angle aspect b (i, j) = x
      generalize angleMin n m angle aspect b = y
      simp only [Int.cast_natCast]
      constructor
      · rintro ⟨h1, h2⟩
        constructor <;> nlinarith
      · rintro ⟨h1, h2⟩
        constructor
        · have : (k - 1 / 2) * b ≤ (x - y) * b := by linarith
          have := le_of_mul_le_mul_right this hb
          linarith
        · have : (x - y) * b < (k + 1 / 2) * b := by linarith
          have := lt_of_mul_lt_mul_right this hb.le
          linarith
    rw [← Finset.sum_range_reflect, List.getD_eq_getElem?_getD, List.getElem?_map]
    by_cases hk : k < binLength ((pixels n m).map (angleBin n m angle aspect b)) 0
    · rw [List.getElem?_range hk]
      simp only [Option.map_some, Option.getD_some]
      rw [sum_filter_pixels]
      refine Finset.sum_congr rfl fun i hi => Finset.sum_congr rfl fun j _ => ?_
      exact if_congr (hbin i j (Finset.mem_range.mp hi)) rfl rfl
    · rw [List.getElem?_eq_none (by simpa using hk)]
      symm
      refine Finset.sum_eq_zero fun i hi => Finset.sum_eq_zero fun j hj => if_neg fun hc => hk ?_
      have h1 := (hbin i j (Finset.mem_range.mp hi)).mpr hc
      have := lt_binLength ((pixels n m).map (angleBin n m angle aspect b)) 0 _
        (List.mem_map_of_mem (mem_pixels.mpr
          ⟨Finset.mem_range.mp hi, Finset.mem_range.mp hj⟩ : (i, j) ∈ pixels n m))
      rw [h1] at this
      simpa using this

/-- Three pixels in a row seen at 60°: they are half a pixel apart, so that the second one is already in
the next bin of one unit. -/
example : ∃ r, angleSum 1 3 (fun _ j => (j : ℝ) + 1) (Real.pi / 3) 1 (some 1) = some r ∧
    r.getD 0 0 = 1 ∧ r.getD 1 0 = 5 := by
  obtain ⟨r, h, -⟩ := c50_angle_total 1 3 (by simp) (by simp) (fun _ j => (j : ℝ) + 1) (Real.pi / 3) 1
    (some 1) (by simp) (by simp)
  obtain ⟨s0, h1, ⟨i, hi, j, hj, h2⟩, h3⟩ := c50_angle_bins 1 3 _ _ _ 1 one_pos r h _ fun _ _ => rfl
  have e : s0 = 0 := by
    have := h1 0 one_pos 0 (by simp)
    interval_cases i
    simp only [Real.cos_pi_div_three] at h2 this
    have hj0 : (0 : ℝ) ≤ j := Nat.cast_nonneg _
    refine le_antisymm (by simpa using this) ?_
    rw [← h2]
    simpa using hj0
  subst e
  refine ⟨r, h, ?_, ?_⟩ <;> rw [h3] <;>
    norm_num [Finset.sum_range_succ, Real.cos_pi_div_three]

/-! ### Sums along rays -/

/-- `wrap` conserves the total of two bins or more. -/
theorem wrap_total (r : List ℝ) (h : 2 ≤ r.length) :
    ∃ s, wrap r = some s ∧ s.sum = r.sum ∧ s.length + 1 = r.length := by
  match r, h with
  | a :: b :: l, _ =>
    refine ⟨(a + (b :: l).getLast (by simp)) :: (b :: l).dropLast, ?_, ?_, ?_⟩
    · simp [wrap, List.getLast?_eq_getLast_of_ne_nil]
    · have := congrArg List.sum (List.dropLast_append_getLast (l := b :: l) (by simp))
      rw [List.sum_append, List.sum_singleton] at this
      rw [List.sum_cons, List.sum_cons (a := a), ← this]
      ring
    · simp

theorem arctan2_mem (y x : ℝ) : 0 < arctan2 y x + Real.pi ∧ arctan2 y x + Real.pi ≤ 2 * Real.pi := by
  have := Complex.arg_mem_Ioc ⟨x, y⟩
  unfold arctan2
  constructor <;> linarith [this.1, this.2]

/-- The bins of the sum along rays. -/
theorem radial_bins (b : ℝ) (hb : 0 < b) (y x : ℝ) :
    0 ≤ trunc ((arctan2 y x + Real.pi) / b) ∧
      trunc ((arctan2 y x + Real.pi) / b) ≤ trunc (2 * Real.pi / b) := by
  obtain ⟨h1, h2⟩ := arctan2_mem y x
  have h3 : 0 ≤ (arctan2 y x + Real.pi) / b := div_nonneg h1.le hb.le
  have h4 : (arctan2 y x + Real.pi) / b ≤ 2 * Real.pi / b := by gcongr
  rw [trunc_of_nonneg h3, trunc_of_nonneg (h3.trans h4)]
  exact ⟨Int.floor_nonneg.mpr h3, Int.floor_mono h4⟩

/-- The sum along rays before the wrap. -/
theorem radial_some (n m : ℕ) (f : ℕ → ℕ → ℝ) (center : ℝ × ℝ) (aspect b : ℝ) (hb : 0 < b) :
    radialSum n m f center aspect (some b) =
      wrap ((List.range (⌊2 * Real.pi / b⌋.toNat + 1)).map fun k : ℕ =>
        (((pixels n m).filter fun p => trunc ((arctan2 (p.1 - center.1) ((p.2 - center.2) * aspect) +
          Real.pi) / b) = k).map fun p => f p.1 p.2).sum) := by
  unfold radialSum
  simp only [Option.getD_some, if_neg hb.ne']
  have h0 : 0 ≤ 2 * Real.pi / b := by positivity
  have h1 : 0 ≤ ⌊2 * Real.pi / b⌋ := Int.floor_nonneg.mpr h0
  simp only [trunc_of_nonneg h0]
  rw [if_neg (by omega), bincount_some _ _ _ _ fun p _ => (radial_bins b hb _ _).1]
  have hlen : binLength ((pixels n m).map fun p : ℕ × ℕ => trunc ((arctan2 (p.1 - center.1)
      ((p.2 - center.2) * aspect) + Real.pi) / b)) (⌊2 * Real.pi / b⌋ + 1).toNat =
      ⌊2 * Real.pi / b⌋.toNat + 1 := by
    rw [show (⌊2 * Real.pi / b⌋ + 1).toNat = ⌊2 * Real.pi / b⌋.toNat + 1 by omega]
    refine le_antisymm (binLength_le _ _ _ ?_ le_rfl) (le_binLength _ _)
    intro a ha
    obtain ⟨p, -, rfl⟩ := List.mem_map.mp ha
    obtain ⟨q1, q2⟩ := radial_bins b hb (p.1 - center.1) ((p.2 - center.2) * aspect)
    rw [trunc_of_nonneg h0] at q2
    omega
  rw [hlen, Option.bind_some, if_pos (by simp; omega)]

/-- C50: `polar_sum` along rays conserves the total for every shape, centre, aspect ratio and bin size
up to the full circle, and returns `⌊2π/binsize⌋` bins. -/
theorem c50_radial_total (n m : ℕ) (f : ℕ → ℕ → ℝ) (center : ℝ × ℝ) (aspect : ℝ)
    (binsize : Option ℝ) (hb : ∀ b ∈ binsize, 0 < b ∧ b ≤ 2 * Real.pi) :
    ∃ r, radialSum n m f center aspect binsize = some r ∧ r.sum = total n m f ∧
      r.length = ⌊2 * Real.pi / binsize.getD (2 * Real.pi / 100)⌋.toNat := by
  have hpi := Real.pi_pos
  have hred : radialSum n m f center aspect binsize =
      radialSum n m f center aspect (some (binsize.getD (2 * Real.pi / 100))) := by
    cases binsize <;> rfl
  rw [hred]
  have hb' : 0 < binsize.getD (2 * Real.pi / 100) ∧
      binsize.getD (2 * Real.pi / 100) ≤ 2 * Real.pi := by
    cases binsize with
    | none => constructor <;> simp only [Option.getD_none] <;> linarith
    | some x => exact hb x rfl
  generalize binsize.getD (2 * Real.pi / 100) = b at hb' ⊢
  rw [radial_some n m f center aspect b hb'.1]
  have h1 : 1 ≤ ⌊2 * Real.pi / b⌋ := by
    rw [Int.le_floor]
    rw [Int.cast_one, le_div_iff₀ hb'.1]
    linarith [hb'.2]
  obtain ⟨s, e1, e2, e3⟩ := wrap_total ((List.range (⌊2 * Real.pi / b⌋.toNat + 1)).map fun k : ℕ =>
    (((pixels n m).filter fun p => trunc ((arctan2 (p.1 - center.1) ((p.2 - center.2) * aspect) +
      Real.pi) / b) = k).map fun p => f p.1 p.2).sum) (by simp; omega)
  refine ⟨s, e1, ?_, ?_⟩
  · rw [e2, bincount_total, sum_pixels]
    · rfl
    · exact fun p _ => (radial_bins b hb'.1 _ _).1
    · intro p _
      obtain ⟨q1, q2⟩ := radial_bins b hb'.1 (p.1 - center.1) ((p.2 - center.2) * aspect)
      have h0 := hb'.1
      rw [trunc_of_nonneg (by positivity : 0 ≤ 2 * Real.pi / b)] at q2
      omega
  · simp only [List.length_map, List.length_range] at e3
    omega

/-- C50, violation: with a bin size above the full circle the sum along rays is empty: the total is
lost. -/
theorem c50_radial_large_violation (n m : ℕ) (f : ℕ → ℕ → ℝ) (center : ℝ × ℝ) (aspect b : ℝ)
    (hb : 2 * Real.pi < b) : radialSum n m f center aspect (some b) = some [] := by
  have hpi := Real.pi_pos
  have hb0 : 0 < b := by linarith
  have : ⌊2 * Real.pi / b⌋ = 0 := by
    rw [Int.floor_eq_iff]
    constructor
    · simp; positivity
    · rw [div_lt_iff₀ hb0]; simpa using hb
  rw [radial_some n m f center aspect b hb0, this]
  simp [wrap]

theorem wrap_range (g : ℕ → ℝ) (L : ℕ) (h : 1 ≤ L) :
    wrap ((List.range (L + 1)).map g) =
      some ((List.range L).map fun k => g k + if k = 0 then g L else 0) := by
  obtain ⟨l, rfl⟩ : ∃ l, L = l + 1 := ⟨L - 1, by omega⟩
  have h1 : (List.range (l + 1 + 1)).map g = (List.range (l + 1)).map g ++ [g (l + 1)] := by
    rw [List.range_succ, List.map_append]; rfl
  have h2 : ((List.range (l + 1)).map g ++ [g (l + 1)]).head? = some (g 0) := by
    rw [List.range_succ_eq_map]; rfl
  rw [h1, wrap, h2, List.getLast?_concat, Option.bind_some, Option.map_some,
    List.set_append_left _ _ (by simp), List.dropLast_concat, List.range_succ_eq_map]
  simp [List.map_map, Function.comp_def]

/-- C50: what the bins of the sum along rays collect: bin `k` the pixels at the azimuths from
`-π + k binsize` to `-π + (k + 1) binsize`, the first one also all those behind the last bin. -/
theorem c50_radial_bins (n m : ℕ) (f : ℕ → ℕ → ℝ) (center : ℝ × ℝ) (aspect b : ℝ) (hb : 0 < b)
    (hb2 : b ≤ 2 * Real.pi) (r : List ℝ) (h : radialSum n m f center aspect (some b) = some r)
    (k : ℕ) (hk : k < r.length) :
    r[k] = ∑ i ∈ Finset.range n, ∑ j ∈ Finset.range m,
      open Classical in
      let azimuth := Complex.arg ((j - center.2) * aspect + (i - center.1) * Complex.I)
      if (-Real.pi + k * b ≤ azimuth ∧ azimuth < -Real.pi + (k + 1) * b) ∨
        (k = 0 ∧ -Real.pi + r.length * b ≤ azimuth) then f i j else 0 := by
  obtain ⟨r', hr', -, hlen⟩ := c50_radial_total n m f center aspect (some b)
    (fun b' h' => by cases h'; exact ⟨hb, hb2⟩)
  obtain rfl : r = r' := Option.some.inj (h.symm.trans hr')
  have h0 : 0 ≤ 2 * Real.pi / b := by positivity
  have h1 : 1 ≤ ⌊2 * Real.pi / b⌋ := by
    rw [Int.le_floor, Int.cast_one, le_div_iff₀ hb]
    linarith
  rw [Option.getD_some] at hlen
  rw [radial_some n m f center aspect b hb, wrap_range _ _ (by omega), ← hlen] at h
  have h := Option.some.inj h
  have hk' := hk
  have hget : r[k]? = some r[k] := List.getElem?_eq_getElem hk'
  conv_lhs at hget => rw [← h]
  rw [List.getElem?_map, List.getElem?_range hk, Option.map_some, Option.some.injEq] at hget
  rw [← hget]
  have haz : ∀ i j : ℕ, arctan2 (i - center.1) ((j - center.2) * aspect) =
      Complex.arg ((j - center.2) * aspect + (i - center.1) * Complex.I) := by
    intro i j
    unfold arctan2
    congr 1
    apply Complex.ext <;> simp
  have hbin : ∀ (i j : ℕ) (q : ℕ), trunc ((arctan2 (i - center.1) ((j - center.2) * aspect) +
      Real.pi) / b) = (q : ℤ) ↔
      (-Real.pi + q * b ≤ Complex.arg ((j - center.2) * aspect + (i - center.1) * Complex.I) ∧
       Complex.arg ((j - center.2) * aspect + (i - center.1) * Complex.I) <
         -Real.pi + (q + 1) * b) := by
    intro i j q
    rw [← haz]
    have hp := (arctan2_mem (i - center.1) ((j - center.2) * aspect)).1
    rw [trunc_of_nonneg (div_nonneg hp.le hb.le), Int.floor_eq_iff, le_div_iff₀ hb, div_lt_iff₀ hb]
    simp only [Int.cast_natCast]
    constructor <;> rintro ⟨a1, a2⟩ <;> constructor <;> linarith
  have hlast : ∀ i j : ℕ, Complex.arg ((j - center.2) * aspect + (i - center.1) * Complex.I) <
      -Real.pi + (r.length + 1) * b := by
    intro i j
    have hp := Complex.arg_le_pi ((j - center.2) * aspect + (i - center.1) * Complex.I)
    have h2 := Int.lt_floor_add_one (2 * Real.pi / b)
    rw [div_lt_iff₀ hb] at h2
    have h3 : ((⌊2 * Real.pi / b⌋ : ℤ) : ℝ) = (r.length : ℝ) := by
      rw [hlen]
      have : ((⌊2 * Real.pi / b⌋.toNat : ℕ) : ℤ) = ⌊2 * Real.pi / b⌋ := by omega
      exact_mod_cast this.symm
    rw [h3] at h2
    linarith
  have e : ∀ q : ℕ, (((pixels n m).filter fun p => trunc ((arctan2 (p.1 - center.1)
      ((p.2 - center.2) * aspect) + Real.pi) / b) = q).map fun p => f p.1 p.2).sum =
      ∑ i ∈ Finset.range n, ∑ j ∈ Finset.range m, open Classical in
        if -Real.pi + q * b ≤ Complex.arg ((j - center.2) * aspect + (i - center.1) * Complex.I) ∧
          Complex.arg ((j - center.2) * aspect + (i - center.1) * Complex.I) <
          -Real.pi + (q + 1) * b then f i j else 0 := by
    intro q
    rw [sum_filter_pixels]
    exact Finset.sum_congr rfl fun i _ => Finset.sum_congr rfl fun j _ =>
      if_congr (hbin i j q) rfl rfl
  rw [e, e]
  by_cases hk0 : k = 0
  · rw [if_pos hk0, ← Finset.sum_add_distrib]
    refine Finset.sum_congr rfl fun i _ => ?_
    rw [← Finset.sum_add_distrib]
    refine Finset.sum_congr rfl fun j _ => ?_
    have hL : (1 : ℝ) ≤ r.length := by
      have : 1 ≤ r.length := by omega
      exact_mod_cast this
    have := hlast i j
    subst hk0
    simp only [this, and_true, true_and]
    by_cases c1 : -Real.pi + r.length * b ≤
        Complex.arg ((j - center.2) * aspect + (i - center.1) * Complex.I)
    · rw [if_pos c1, if_neg (by
        rintro ⟨-, c2⟩
        push_cast at c2
        nlinarith), if_pos (.inr c1), zero_add]
    · rw [if_neg c1, add_zero]
      exact if_congr (by simp [c1]) rfl rfl
  · rw [if_neg hk0, add_zero]
    refine Finset.sum_congr rfl fun i _ => Finset.sum_congr rfl fun j _ => ?_
    exact if_congr (by simp [hk0]) rfl rfl

/-- C50, violation: the documentation says that only the values at +π end up in the first bin.  With
a bin size that does not divide the circle, a value at another azimuth is counted there as well: here
one at 3/4 π, in bins of 4/5 π. -/
theorem c50_radial_partial_violation :
    radialSum 3 3 (fun i j => if i = 2 ∧ j = 0 then 1 else 0) (1, 1) 1 (some (4 / 5 * Real.pi)) =
      some [1, 0] := by
  have hpi := Real.pi_pos
  obtain ⟨r, hr, -, hlen⟩ := c50_radial_total 3 3 (fun i j => if i = 2 ∧ j = 0 then 1 else 0) (1, 1)
    1 (some (4 / 5 * Real.pi)) (fun b hb => by cases hb; constructor <;> linarith)
  have hfl : ⌊2 * Real.pi / (4 / 5 * Real.pi)⌋ = 2 := by
    have : 2 * Real.pi / (4 / 5 * Real.pi) = 5 / 2 := by field_simp; norm_num
    rw [this]; norm_num
  rw [Option.getD_some, hfl] at hlen
  change r.length = 2 at hlen
  have harg : Complex.arg (((0 : ℕ) - 1) * (1 : ℝ) + ((2 : ℕ) - 1) * Complex.I) =
      3 / 4 * Real.pi := by
    have h2 : (((0 : ℕ) - 1) * (1 : ℝ) + ((2 : ℕ) - 1) * Complex.I : ℂ) =
        (Real.sqrt 2 : ℝ) * (Real.cos (3 / 4 * Real.pi) + Real.sin (3 / 4 * Real.pi) * Complex.I) := by
      have hc : Real.cos (3 / 4 * Real.pi) = -(Real.sqrt 2 / 2) := by
        rw [show 3 / 4 * Real.pi = Real.pi - Real.pi / 4 by ring, Real.cos_pi_sub, Real.cos_pi_div_four]
      have hs : Real.sin (3 / 4 * Real.pi) = Real.sqrt 2 / 2 := by
        rw [show 3 / 4 * Real.pi = Real.pi - Real.pi / 4 by ring, Real.sin_pi_sub, Real.sin_pi_div_four]
      have h22 : Real.sqrt 2 * Real.sqrt 2 = 2 := Real.mul_self_sqrt (by norm_num)
      apply Complex.ext
      · simp [hc, hs]; nlinarith
      · simp [hc, hs]; nlinarith
    rw [h2, Complex.ofReal_cos, Complex.ofReal_sin,
      Complex.arg_mul_cos_add_sin_mul_I (by positivity) ⟨by linarith, by linarith⟩]
  have key : ∀ k (hk : k < r.length), r[k] = if k = 0 then 1 else 0 := by
    intro k hk
    rw [c50_radial_bins 3 3 _ (1, 1) 1 _ (by positivity) (by linarith) r hr k hk]
    rw [hlen] at hk ⊢
    simp only [Finset.sum_range_succ, Finset.sum_range_zero]
    norm_num at hk harg ⊢
    rw [harg]
    interval_cases k
    · rw [if_pos (.inr ⟨rfl, by norm_num; linarith⟩)]; rfl
    · rw [if_neg (by rintro (⟨-, h⟩ | ⟨h, -⟩) <;> [(norm_num at h; linarith); norm_num at h])]; rfl
  obtain ⟨a, c, rfl⟩ := List.length_eq_two.mp hlen
  have h0 := key 0 (by simp)
  have h1 := key 1 (by simp)
  simp only [List.getElem_cons_zero, List.getElem_cons_succ, if_true, one_ne_zero,
    if_false] at h0 h1
  rw [hr, h0, h1]

/-- C50, violation: the documentation measures azimuths towards the negative first axis.  A value on
this axis belongs to +π/2 then, the third of four bins after the first half turn; it is counted in the
bin of -π/2. -/
theorem c50_radial_direction_violation :
    radialSum 3 3 (fun i j => if i = 0 ∧ j = 1 then 1 else 0) (1, 1) 1 (some (Real.pi / 2)) =
      some [0, 1, 0, 0] := by
  have hpi := Real.pi_pos
  obtain ⟨r, hr, -, hlen⟩ := c50_radial_total 3 3 (fun i j => if i = 0 ∧ j = 1 then 1 else 0) (1, 1)
    1 (some (Real.pi / 2)) (fun b hb => by cases hb; constructor <;> linarith)
  have hfl : ⌊2 * Real.pi / (Real.pi / 2)⌋ = 4 := by
    have : 2 * Real.pi / (Real.pi / 2) = 4 := by field_simp; norm_num
    rw [this]; norm_num
  rw [Option.getD_some, hfl] at hlen
  change r.length = 4 at hlen
  have key : ∀ k (hk : k < r.length), r[k] = if k = 1 then 1 else 0 := by
    intro k hk
    rw [c50_radial_bins 3 3 _ (1, 1) 1 _ (by positivity) (by linarith) r hr k hk]
    rw [hlen] at hk ⊢
    simp only [Finset.sum_range_succ, Finset.sum_range_zero]
    norm_num
    interval_cases k
    · rw [if_neg]
      · rfl
      · rintro (⟨-, h⟩ | ⟨-, h⟩) <;> norm_num at h <;> linarith
    · rw [if_pos]
      · rfl
      · left; constructor <;> norm_num <;> linarith
    · rw [if_neg]
      · rfl
      · rintro (⟨h, -⟩ | ⟨h, -⟩) <;> norm_num at h <;> linarith
    · rw [if_neg]
      · rfl
      · rintro (⟨h, -⟩ | ⟨h, -⟩) <;> norm_num at h <;> linarith
  obtain ⟨a, b, c, d, rfl⟩ : ∃ a b c d, r = [a, b, c, d] := by
    match r, hlen with
    | [a, b, c, d], _ => exact ⟨a, b, c, d, rfl⟩
  have h0 := key 0 (by simp)
  have h1 := key 1 (by simp)
  have h2 := key 2 (by simp)
  have h3 := key 3 (by simp)
  norm_num at h0 h1 h2 h3
  rw [hr, h0, h1, h2, h3]

/-! ### Sums along the axes -/

theorem binLength_eq (k : List ℤ) (L : ℕ) (h : ∀ a ∈ k, a.toNat < L) (a : ℤ) (ha : a ∈ k)
    (hL : L ≤ a.toNat + 1) : binLength k 0 = L :=
  le_antisymm (binLength_le k 0 L h (Nat.zero_le _))
    (hL.trans (Nat.succ_le_of_lt (lt_binLength k 0 a ha)))

/-- `bincount` with the column as bin. -/
theorem bincount_columns (k : ℕ × ℕ → ℤ) (w : ℕ × ℕ → ℝ) (n m : ℕ) (g : ℕ → ℕ) (hn : n ≠ 0)
    (hg : ∀ j < m, g j < m) (hgg : ∀ j < m, g (g j) = j) (hm : m ≠ 0)
    (hk : ∀ p ∈ pixels n m, k p = g p.2) : bincount k w (pixels n m) 0 =
      some ((List.range m).map fun j => ∑ i ∈ Finset.range n, w (i, g j)) := by
  rw [bincount_some k w _ _ fun p hp => by rw [hk p hp]; exact Int.natCast_nonneg _]
  have hlen : binLength ((pixels n m).map k) 0 = m := by
    have hm1 : m - 1 < m := by omega
    have hmem : (0, g (m - 1)) ∈ pixels n m := mem_pixels.mpr ⟨by simp; omega, hg _ hm1⟩
    refine binLength_eq _ _ ?_ _ (List.mem_map_of_mem hmem) ?_
    · intro a ha
      obtain ⟨p, hp, rfl⟩ := List.mem_map.mp ha
      rw [hk p hp]
      exact hg _ (mem_pixels.mp hp).2
    · rw [hk _ hmem, hgg _ hm1]
      simp
      omega
  rw [hlen]
  congr 1
  refine List.map_congr_left fun b hb => ?_
  have hb := List.mem_range.mp hb
  rw [sum_filter_pixels]
  refine Finset.sum_congr rfl fun i hi => ?_
  rw [Finset.sum_eq_single (g b)]
  · rw [if_pos]
    rw [hk _ (mem_pixels.mpr ⟨Finset.mem_range.mp hi, hg b hb⟩)]
    exact_mod_cast hgg b hb
  · intro j hj hne
    rw [if_neg]
    rw [hk _ (mem_pixels.mpr ⟨Finset.mem_range.mp hi, Finset.mem_range.mp hj⟩)]
    intro h
    apply hne
    have h : g j = b := by exact_mod_cast h
    rw [← h, hgg j (Finset.mem_range.mp hj)]
  · intro h
    exact absurd (Finset.mem_range.mpr (hg b hb)) h

/-- `bincount` with the row as bin. -/
theorem bincount_rows (k : ℕ × ℕ → ℤ) (w : ℕ × ℕ → ℝ) (n m : ℕ) (g : ℕ → ℕ) (hn : n ≠ 0)
    (hg : ∀ j < n, g j < n) (hgg : ∀ j < n, g (g j) = j) (hm : m ≠ 0)
    (hk : ∀ p ∈ pixels n m, k p = g p.1) : bincount k w (pixels n m) 0 =
      some ((List.range n).map fun i => ∑ j ∈ Finset.range m, w (g i, j)) := by
  rw [bincount_some k w _ _ fun p hp => by rw [hk p hp]; exact Int.natCast_nonneg _]
  have hlen : binLength ((pixels n m).map k) 0 = n := by
    have hm1 : n - 1 < n := by omega
    have hmem : (g (n - 1), 0) ∈ pixels n m := mem_pixels.mpr ⟨hg _ hm1, by simp; omega⟩
    refine binLength_eq _ _ ?_ _ (List.mem_map_of_mem hmem) ?_
    · intro a ha
      obtain ⟨p, hp, rfl⟩ := List.mem_map.mp ha
      rw [hk p hp]
      exact hg _ (mem_pixels.mp hp).1
    · rw [hk _ hmem, hgg _ hm1]
      simp
      omega
  rw [hlen]
  congr 1
  refine List.map_congr_left fun b hb => ?_
  have hb := List.mem_range.mp hb
  rw [sum_filter_pixels, Finset.sum_eq_single (g b)]
  · refine Finset.sum_congr rfl fun j hj => ?_
    rw [if_pos]
    rw [hk _ (mem_pixels.mpr ⟨hg b hb, Finset.mem_range.mp hj⟩)]
    exact_mod_cast hgg b hb
  · intro i hi hne
    refine Finset.sum_eq_zero fun j hj => if_neg ?_
    rw [hk _ (mem_pixels.mpr ⟨Finset.mem_range.mp hi, Finset.mem_range.mp hj⟩)]
    intro h
    apply hne
    have h : g i = b := by exact_mod_cast h
    rw [← h, hgg i (Finset.mem_range.mp hi)]
  · intro h
    exact absurd (Finset.mem_range.mpr (hg b hb)) h

/-- C50: the documented special cases of `angle_sum`: at the angles 0 and π the sums of the columns, in
reversed order at π; at π/2 and 3π/2 the sums of the rows, in reversed order at 3π/2. -/
theorem c50_angle_axes (n m : ℕ) (hn : n ≠ 0) (hm : m ≠ 0) (f : ℕ → ℕ → ℝ) (aspect : ℝ)
    (ha : 0 < aspect) :
    angleSum n m f 0 aspect none =
      some ((List.range m).map fun j => ∑ i ∈ Finset.range n, f i j) ∧
    angleSum n m f Real.pi aspect none =
      some ((List.range m).map fun j => ∑ i ∈ Finset.range n, f i (m - 1 - j)) ∧
    angleSum n m f (Real.pi / 2) aspect none =
      some ((List.range n).map fun i => ∑ j ∈ Finset.range m, f i j) ∧
    angleSum n m f (3 * Real.pi / 2) aspect none =
      some ((List.range n).map fun i => ∑ j ∈ Finset.range m, f (n - 1 - i) j) := by
  have ha' : |aspect| = aspect := abs_of_pos ha
  have hs3 : Real.sin (3 * Real.pi / 2) = -1 := by
    rw [show 3 * Real.pi / 2 = Real.pi / 2 + Real.pi by ring, Real.sin_add_pi, Real.sin_pi_div_two]
  have hc3 : Real.cos (3 * Real.pi / 2) = 0 := by
    rw [show 3 * Real.pi / 2 = Real.pi / 2 + Real.pi by ring, Real.cos_add_pi, Real.cos_pi_div_two,
      neg_zero]
  have hfl : ∀ x : ℕ, ⌊(x : ℝ) + 1 / 2⌋ = (x : ℤ) := by
    intro x
    rw [Int.floor_eq_iff]
    constructor <;> push_cast <;> linarith
  have hfl2 : ∀ x y : ℕ, x < y → ⌊-(x : ℝ) - (-((y - 1 : ℕ) : ℝ) - 1 / 2)⌋ =
      ((y - 1 - x : ℕ) : ℤ) := by
    intro x y h
    rw [← hfl, Nat.cast_sub (by omega : x ≤ y - 1)]
    congr 1
    ring
  refine ⟨?_, ?_, ?_, ?_⟩
  · unfold angleSum
    simp only [Real.cos_zero, Real.sin_zero, one_mul, abs_zero, ha', Option.getD_none,
      max_eq_left ha.le]
    rw [if_neg (by simp [hn, hm, ha.ne']), bincount_columns _ _ n m id hn (fun _ h => h)
      (fun _ _ => rfl) hm]
    · congr 1
      refine List.map_congr_left fun j _ => ?_
      exact Finset.sum_range_reflect (fun i => f i j) n
    · intro p _
      simp only [angleBin, angleMin, angleCoord, Real.cos_zero, Real.sin_zero, one_mul,
        div_self ha.ne', zero_div, zero_mul, sub_zero, Nat.cast_zero, min_self, id]
      rw [min_eq_left (Nat.cast_nonneg _), ← hfl]
      congr 1
      ring
  · unfold angleSum
    simp only [Real.cos_pi, Real.sin_pi, neg_mul, abs_neg, one_mul, abs_zero, ha', Option.getD_none,
      max_eq_left ha.le]
    rw [if_neg (by simp [hn, hm, ha.ne']), bincount_columns _ _ n m (fun j => m - 1 - j) hn
      (fun _ h => by omega) (fun _ h => by omega) hm]
    · congr 1
      refine List.map_congr_left fun j _ => ?_
      exact Finset.sum_range_reflect (fun i => f i (m - 1 - j)) n
    · intro p hp
      simp only [angleBin, angleMin, angleCoord, Real.cos_pi, Real.sin_pi, neg_mul, one_mul, neg_div,
        div_self ha.ne', zero_div, zero_mul, sub_zero, Nat.cast_zero, min_self, neg_zero]
      rw [min_eq_right (neg_nonpos.mpr (Nat.cast_nonneg _)), ← hfl2 _ _ (mem_pixels.mp hp).2]
  · unfold angleSum
    simp only [Real.cos_pi_div_two, Real.sin_pi_div_two, zero_mul, abs_zero, abs_one,
      Option.getD_none, max_eq_right zero_le_one]
    rw [if_neg (by simp [hn, hm]), bincount_rows _ _ n m (fun j => n - 1 - j) hn
      (fun _ h => by omega) (fun _ h => by omega) hm]
    · congr 1
      refine List.map_congr_left fun i hi => ?_
      have := List.mem_range.mp hi
      dsimp only
      rw [show n - 1 - (n - 1 - i) = i by omega]
    · intro p hp
      simp only [angleBin, angleMin, angleCoord, Real.cos_pi_div_two, Real.sin_pi_div_two, one_mul,
        div_one, zero_mul, zero_sub, Nat.cast_zero, min_self, neg_zero]
      rw [min_eq_right (neg_nonpos.mpr (Nat.cast_nonneg _)), ← hfl2 _ _ (mem_pixels.mp hp).1]
  · unfold angleSum
    simp only [hc3, hs3, zero_mul, abs_zero, abs_neg, abs_one,
      Option.getD_none, max_eq_right zero_le_one]
    rw [if_neg (by simp [hn, hm]), bincount_rows _ _ n m id hn (fun _ h => h)
      (fun _ _ => rfl) hm]
    · rfl
    · intro p _
      simp only [angleBin, angleMin, angleCoord, hc3, hs3, one_mul, neg_mul,
        div_one, zero_mul, zero_sub, Nat.cast_zero, min_self, neg_zero, neg_neg, id]
      rw [min_eq_left (Nat.cast_nonneg _), ← hfl]
      congr 1
      ring

/-- C50: for angles from 0 to π/2 the value at `[0, 0]` ends up in the first bin and the value at
`[-1, -1]` in the last one, as documented. -/
theorem c50_angle_ends (n m : ℕ) (hn : n ≠ 0) (hm : m ≠ 0) (angle aspect b : ℝ) (ha : 0 ≤ aspect)
    (hb : 0 < b) (h0 : 0 ≤ angle) (h1 : angle ≤ Real.pi / 2) :
    (∃ r, angleSum n m (fun i j => if i = 0 ∧ j = 0 then 1 else 0) angle aspect (some b) = some r ∧
      r.head? = some 1) ∧
    (∃ r, angleSum n m (fun i j => if i = n - 1 ∧ j = m - 1 then 1 else 0) angle aspect (some b) =
      some r ∧ r.getLast? = some 1) := by
  have hpi := Real.pi_pos
  have hc : 0 ≤ Real.cos angle * aspect / b :=
    div_nonneg (mul_nonneg (Real.cos_nonneg_of_mem_Icc ⟨by linarith, h1⟩) ha) hb.le
  have hs : 0 ≤ Real.sin angle / b :=
    div_nonneg (Real.sin_nonneg_of_nonneg_of_le_pi h0 (by linarith)) hb.le
  have hmin : angleMin n m angle aspect b = angleCoord angle aspect b (n - 1, 0) := by
    have hM : (0 : ℝ) ≤ ((m - 1 : ℕ) : ℝ) := Nat.cast_nonneg _
    have hN : (0 : ℝ) ≤ ((n - 1 : ℕ) : ℝ) := Nat.cast_nonneg _
    refine le_antisymm ((min_le_right _ _).trans (min_le_left _ _)) ?_
    simp only [angleMin, angleCoord, le_min_iff, Nat.cast_zero, mul_zero, sub_zero, zero_sub]
    refine ⟨⟨?_, ?_⟩, le_rfl, ?_⟩ <;> nlinarith [mul_nonneg hc hM, mul_nonneg hs hN]
  have hbin0 : angleBin n m angle aspect b (n - 1, 0) = 0 := by
    rw [angleBin, hmin]
    norm_num
  have hmax : ∀ p ∈ pixels n m, angleBin n m angle aspect b p ≤
      angleBin n m angle aspect b (0, m - 1) := by
    intro p hp
    obtain ⟨p1, p2⟩ := mem_pixels.mp hp
    refine Int.floor_mono (sub_le_sub_right ?_ _)
    simp only [angleCoord, Nat.cast_zero, mul_zero, sub_zero]
    have e2 : (p.2 : ℝ) ≤ ((m - 1 : ℕ) : ℝ) := by exact_mod_cast Nat.le_sub_one_of_lt p2
    have := mul_le_mul_of_nonneg_left e2 hc
    have := mul_nonneg hs (Nat.cast_nonneg (α := ℝ) p.1)
    linarith
  have hnn := angleBin_nonneg n m angle aspect b
  have hlast : (0, m - 1) ∈ pixels n m := mem_pixels.mpr ⟨by simp; omega, by simp; omega⟩
  have hfirst : (n - 1, 0) ∈ pixels n m := mem_pixels.mpr ⟨by simp; omega, by simp; omega⟩
  have hlen : binLength ((pixels n m).map (angleBin n m angle aspect b)) 0 =
      (angleBin n m angle aspect b (0, m - 1)).toNat + 1 := by
    refine binLength_eq _ _ ?_ _ (List.mem_map_of_mem hlast) le_rfl
    intro a ha
    obtain ⟨p, hp, rfl⟩ := List.mem_map.mp ha
    have := hmax p hp
    omega
  have single : ∀ (q : ℕ × ℕ) (hq : q ∈ pixels n m) (k : ℤ), angleBin n m angle aspect b q = k →
      (((pixels n m).filter fun p => angleBin n m angle aspect b p = k).map fun p =>
        if n - 1 - p.1 = n - 1 - q.1 ∧ p.2 = q.2 then (1 : ℝ) else 0).sum = 1 := by
    intro q hq k hk
    obtain ⟨q1, q2⟩ := mem_pixels.mp hq
    rw [sum_filter_pixels, Finset.sum_eq_single q.1, Finset.sum_eq_single q.2]
    · rw [if_pos hk, if_pos ⟨rfl, rfl⟩]
    · intro j _ hne
      simp [hne]
    · intro h; exact absurd (Finset.mem_range.mpr q2) h
    · intro i hi hne
      have hi := Finset.mem_range.mp hi
      refine Finset.sum_eq_zero fun j _ => ?_
      have : ¬ (n - 1 - i = n - 1 - q.1) := by omega
      simp [this]
    · intro h; exact absurd (Finset.mem_range.mpr q1) h
  unfold angleSum
  simp only [Option.getD_some]
  rw [if_neg (by simp [hn, hm, hb.ne']), if_neg (by simp [hn, hm, hb.ne']),
    bincount_some _ _ _ _ hnn, bincount_some _ _ _ _ hnn, hlen]
  refine ⟨⟨_, rfl, ?_⟩, ⟨_, rfl, ?_⟩⟩
  · rw [List.range_succ_eq_map, List.map_cons, List.head?_cons]
    have := single (n - 1, 0) hfirst 0 hbin0
    simp only [Nat.sub_self] at this
    exact congrArg some this
  · rw [List.range_succ, List.map_append, List.map_cons, List.map_nil, List.getLast?_concat]
    have := single (0, m - 1) hlast ((angleBin n m angle aspect b (0, m - 1)).toNat : ℤ)
      (by have := hnn _ hlast; omega)
    simp only [Nat.sub_zero] at this
    exact congrArg some this

/-- The 3x3 array of the documentation along the antidiagonals. -/
example : ∃ r, angleSum 3 3 (fun i j => 3 * i + j) (Real.pi / 4) 1 none = some r ∧ r.sum = 36 := by
  obtain ⟨r, h1, h2⟩ := c50_angle_total 3 3 (by norm_num) (by norm_num) (fun i j => 3 * i + j)
    (Real.pi / 4) 1 none (by simp) (fun _ => .inl one_ne_zero)
  refine ⟨r, h1, h2.trans ?_⟩
  norm_num [total, Finset.sum_range_succ]

/-- The total of the example of the documentation. -/
example : ∃ r, radialSum 3 3 (fun i j => 3 * i + j + 1) (1, 1) 1 none = some r ∧ r.sum = 45 ∧
    r.length = 100 := by
  obtain ⟨r, h1, h2, h3⟩ := c50_radial_total 3 3 (fun i j => 3 * i + j + 1) (1, 1) 1 none (by simp)
  refine ⟨r, h1, h2.trans ?_, h3.trans ?_⟩
  · norm_num [total, Finset.sum_range_succ]
  · have hpi := Real.pi_pos
    have : 2 * Real.pi / (2 * Real.pi / 100) = 100 := by field_simp
    rw [Option.getD_none, this]
    norm_num
    rfl

example : ∃ r, azimuthalSum 3 3 (fun i j => 3 * i + j + 1) (1, 1) 1 (some 1) = some r ∧
    r.sum = 45 := by
  obtain ⟨r, h1, h2⟩ := c50_azimuthal_total 3 3 (fun i j => 3 * i + j + 1) (1, 1) 1 (some 1)
    (by simp) (by simp)
  refine ⟨r, h1, h2.trans ?_⟩
  norm_num [total, Finset.sum_range_succ]

end RayOpt.Sums
