import Verif.Model.CompiledInverse
import Verif.Props.CompiledEigen

/-!
C108: `inverse_matrix` of the compiled extension.
-/

namespace RayOpt.Compiled

open RayOpt Matrix

theorem isZero_iff (x : ℝ) : IsZero x ↔ |x| < 1 / 2 ^ 50 := by
  unfold IsZero tfEps
  rw [abs_lt]
  exact ⟨fun h => ⟨h.2, h.1⟩, fun h => ⟨h.2, h.1⟩⟩

theorem not_isZero {x : ℝ} (h : ¬ IsZero x) : x ≠ 0 := by
  rintro rfl
  apply h
  rw [isZero_iff]
  norm_num

open Classical in
theorem inverse_one (M : Matrix (Fin 1) (Fin 1) ℝ) : inverseMatrix 1 M =
    if IsZero (M 0 0) then .error .value else .ok (.mat !![1 / M 0 0]) := rfl

theorem inverse_two (M : Matrix (Fin 2) (Fin 2) ℝ) : inverseMatrix 2 M =
    (invert22 M).elim (.error .value) fun m => .ok (.mat m) := rfl

theorem inverse_three (M : Matrix (Fin 3) (Fin 3) ℝ) : inverseMatrix 3 M =
    (invert33 M).elim (.error .value) fun m => .ok (.mat m) := rfl

theorem inverse_four (M : Matrix (Fin 4) (Fin 4) ℝ) : inverseMatrix 4 M =
    (invert44 M).elim (.error .value) fun m => .ok (.mat m) := rfl

theorem inverse_more (n : ℕ) (h : 5 ≤ n) (M : Matrix (Fin n) (Fin n) ℝ) : inverseMatrix n M =
    (invertLU n (entries M)).elim (.error .value) fun r =>
      .ok (r.elim .infinite fun m => .mat (Matrix.of fun i j => m i j)) := by
  obtain ⟨m, rfl⟩ : ∃ m, n = m + 5 := ⟨n - 5, by omega⟩
  rfl

/-- Up to four rows: a matrix is refused exactly if its determinant is less than 2^-50, and otherwise its inverse is
returned. -/
theorem c108_four (n : ℕ) (h1 : 1 ≤ n) (h4 : n ≤ 4) (M : Matrix (Fin n) (Fin n) ℝ) :
    (|M.det| < 1 / 2 ^ 50 → inverseMatrix n M = .error .value) ∧
    (¬ |M.det| < 1 / 2 ^ 50 → ∃ R, inverseMatrix n M = .ok (.mat R) ∧ M * R = 1 ∧ R * M = 1) := by
  have key : ∀ R, M * R = 1 → M * R = 1 ∧ R * M = 1 := fun R h => ⟨h, mul_eq_one_comm.mp h⟩
  rcases (by omega : n = 1 ∨ n = 2 ∨ n = 3 ∨ n = 4) with rfl | rfl | rfl | rfl
  · rw [det_fin_one, inverse_one]
    constructor
    · intro h
      rw [if_pos ((isZero_iff _).mpr h)]
    · intro h
      rw [← isZero_iff] at h
      rw [if_neg h]
      have h0 := not_isZero h
      refine ⟨_, rfl, key _ ?_⟩
      ext i j
      fin_cases i; fin_cases j
      simp [Matrix.mul_apply, h0]
  · rw [det_fin_two, inverse_two]
    unfold invert22
    dsimp only
    obtain ⟨D, hD⟩ : ∃ D, M 0 0 * M 1 1 - M 0 1 * M 1 0 = D := ⟨_, rfl⟩
    rw [hD]
    constructor
    · intro h
      rw [if_pos ((isZero_iff _).mpr h)]
      rfl
    · intro h
      rw [← isZero_iff] at h
      rw [if_neg h]
      have h0 := not_isZero h
      refine ⟨_, rfl, key _ ?_⟩
      ext i j
      fin_cases i <;> fin_cases j <;> simp [Matrix.mul_apply, Fin.sum_univ_two] <;> field_simp <;>
        first | ring1 | linear_combination hD
  · have hd : M.det = M 0 0 * (M 2 2 * M 1 1 - M 2 1 * M 1 2) + M 1 0 * (M 2 1 * M 0 2 - M 2 2 * M 0 1) +
        M 2 0 * (M 1 2 * M 0 1 - M 1 1 * M 0 2) := by rw [det_fin_three]; ring
    rw [hd, inverse_three]
    unfold invert33
    dsimp only
    obtain ⟨D, hD⟩ : ∃ D, M 0 0 * (M 2 2 * M 1 1 - M 2 1 * M 1 2) + M 1 0 * (M 2 1 * M 0 2 - M 2 2 * M 0 1) +
        M 2 0 * (M 1 2 * M 0 1 - M 1 1 * M 0 2) = D := ⟨_, rfl⟩
    rw [hD]
    constructor
    · intro h
      rw [if_pos ((isZero_iff _).mpr h)]
      rfl
    · intro h
      rw [← isZero_iff] at h
      rw [if_neg h]
      have h0 := not_isZero h
      have h1 : D * (1 / D) = 1 := mul_one_div_cancel h0
      refine ⟨_, rfl, key _ ?_⟩
      generalize 1 / D = d at *
      ext i j
      fin_cases i <;> fin_cases j <;> simp [Matrix.mul_apply, Fin.sum_univ_three] <;>
        first | ring1 | linear_combination d * hD + h1
  · rw [inverse_four]
    unfold invert44
    dsimp only
    obtain ⟨D, hD⟩ : ∃ D, M 0 0 * (M 2 2 * M 3 3 * M 1 1 + M 3 2 * M 1 3 * M 2 1 + M 1 2 * M 2 3 * M 3 1 -
        (M 3 2 * M 2 3 * M 1 1 + M 1 2 * M 3 3 * M 2 1 + M 2 2 * M 1 3 * M 3 1)) +
        M 1 0 * (M 3 2 * M 2 3 * M 0 1 + M 0 2 * M 3 3 * M 2 1 + M 2 2 * M 0 3 * M 3 1 -
        (M 2 2 * M 3 3 * M 0 1 + M 3 2 * M 0 3 * M 2 1 + M 0 2 * M 2 3 * M 3 1)) +
        M 2 0 * (M 1 2 * M 3 3 * M 0 1 + M 3 2 * M 0 3 * M 1 1 + M 0 2 * M 1 3 * M 3 1 -
        (M 3 2 * M 1 3 * M 0 1 + M 0 2 * M 3 3 * M 1 1 + M 1 2 * M 0 3 * M 3 1)) +
        M 3 0 * (M 2 2 * M 1 3 * M 0 1 + M 0 2 * M 2 3 * M 1 1 + M 1 2 * M 0 3 * M 2 1 -
        (M 1 2 * M 2 3 * M 0 1 + M 2 2 * M 0 3 * M 1 1 + M 0 2 * M 1 3 * M 2 1)) = D := ⟨_, rfl⟩
    have hd : M.det = D := by
      rw [← hD, det_succ_row_zero]
      simp [Fin.sum_univ_succ, det_fin_three, Fin.succAbove]
      ring
    rw [hd, hD]
    constructor
    · intro h
      rw [if_pos ((isZero_iff _).mpr h)]
      rfl
    · intro h
      rw [← isZero_iff] at h
      rw [if_neg h]
      have h0 := not_isZero h
      have h1 : D * (1 / D) = 1 := mul_one_div_cancel h0
      refine ⟨_, rfl, key _ ?_⟩
      generalize 1 / D = d at *
      ext i j
      fin_cases i <;> fin_cases j <;> simp [Matrix.mul_apply, Fin.sum_univ_four] <;>
        first | ring1 | linear_combination d * hD + h1

/-- A turn by a right angle about the third axis, with a translation. -/
example : ∃ R, inverseMatrix 4 !![0, -1, 0, 5; 1, 0, 0, 6; 0, 0, 1, 7; 0, 0, 0, 1] = .ok (.mat R) ∧
    !![0, -1, 0, 5; 1, 0, 0, 6; 0, 0, 1, 7; 0, 0, 0, 1] * R = 1 := by
  obtain ⟨R, h1, h2, -⟩ := (c108_four 4 (by norm_num) le_rfl !![0, -1, 0, 5; 1, 0, 0, 6; 0, 0, 1, 7; 0, 0, 0, 1]).2 (by
    rw [det_succ_row_zero]
    simp [Fin.sum_univ_succ, det_fin_three, Fin.succAbove]
    norm_num)
  exact ⟨R, h1, h2⟩

/-- What the forward solution keeps: the lines of the matrix in their new order are the product of the two factors, the
second as far as it has got. -/
def Factors (A M : ℕ → ℕ → ℝ) (seq : ℕ → ℕ) (k : ℕ) : Prop :=
  ∀ i j, A (seq i) j = (∑ m ∈ Finset.range (min i k), M i m * if j < m then 0 else M m j) +
    if j < min i k then 0 else M i j

theorem pivotRow_spec (n k : ℕ) (M : ℕ → ℕ → ℝ) (hk : k < n) : k ≤ pivotRow n k M ∧ pivotRow n k M < n ∧
    ∀ i, k ≤ i → i < n → |M i k| ≤ |M (pivotRow n k M) k| := by
  have key : ∀ l : List ℕ, ∀ s : ℝ × ℕ, s.1 = |M s.2 k| → k ≤ s.2 → s.2 < n → (∀ i ∈ l, k ≤ i ∧ i < n) →
      let r := l.foldl (fun s i => if s.1 < |M i k| then (|M i k|, i) else s) s
      r.1 = |M r.2 k| ∧ k ≤ r.2 ∧ r.2 < n ∧ s.1 ≤ r.1 ∧ ∀ i ∈ l, |M i k| ≤ r.1 := by
    intro l
    induction l with
    | nil => intro s h0 h1 h2 _; exact ⟨h0, h1, h2, le_rfl, by simp⟩
    | cons a l ih =>
      intro s h0 h1 h2 h3
      rw [List.foldl_cons]
      have ha := h3 a (by simp)
      have hl : ∀ i ∈ l, k ≤ i ∧ i < n := fun i hi => h3 i (by simp [hi])
      by_cases hc : s.1 < |M a k|
      · rw [if_pos hc]
        obtain ⟨r0, r1, r2, r3, r4⟩ := ih (|M a k|, a) rfl ha.1 ha.2 hl
        refine ⟨r0, r1, r2, le_trans hc.le r3, fun i hi => ?_⟩
        rcases List.mem_cons.mp hi with rfl | hi
        · exact r3
        · exact r4 i hi
      · rw [if_neg hc]
        obtain ⟨r0, r1, r2, r3, r4⟩ := ih s h0 h1 h2 hl
        refine ⟨r0, r1, r2, r3, fun i hi => ?_⟩
        rcases List.mem_cons.mp hi with rfl | hi
        · exact le_trans (not_lt.mp hc) r3
        · exact r4 i hi
  obtain ⟨r0, r1, r2, r3, r4⟩ := key (List.range' (k + 1) (n - (k + 1))) (|M k k|, k) rfl le_rfl hk fun i hi => by
    rw [List.mem_range'_1] at hi; omega
  unfold pivotRow
  refine ⟨r1, r2, fun i hi hn => ?_⟩
  rw [← r0]
  rcases eq_or_lt_of_le hi with rfl | hi
  · exact r3
  · exact r4 i (by rw [List.mem_range'_1]; omega)

theorem swap_lt {k p i : ℕ} (hp : k ≤ p) (hi : i < k) : Equiv.swap k p i = i :=
  Equiv.swap_apply_of_ne_of_ne (by omega) (by omega)

theorem swap_ge {k p i : ℕ} (hp : k ≤ p) (hi : k ≤ i) : k ≤ Equiv.swap k p i := by
  rw [Equiv.swap_apply_def]
  split_ifs <;> omega

theorem swap_bound {n k p : ℕ} (hk : k < n) (hp : p < n) (i : ℕ) : Equiv.swap k p i < n ↔ i < n := by
  rw [Equiv.swap_apply_def]
  split_ifs <;> omega

theorem factors_swap {A M : ℕ → ℕ → ℝ} {seq : ℕ → ℕ} {k p : ℕ} (hp : k ≤ p) (h : Factors A M seq k) :
    Factors A (fun i => M (Equiv.swap k p i)) (fun i => seq (Equiv.swap k p i)) k := by
  intro i j
  dsimp only
  rw [h]
  have hm : min (Equiv.swap k p i) k = min i k := by
    rcases lt_or_ge i k with hi | hi
    · rw [swap_lt hp hi]
    · rw [min_eq_right hi, min_eq_right (swap_ge hp hi)]
  rw [hm]
  congr 1
  refine Finset.sum_congr rfl fun m hm => ?_
  rw [Finset.mem_range] at hm
  rw [swap_lt hp (by omega : m < k)]

theorem factors_eliminate {A M : ℕ → ℕ → ℝ} {seq : ℕ → ℕ} {k : ℕ} (h0 : M k k ≠ 0) (h : Factors A M seq k) :
    Factors A (eliminate k M) seq (k + 1) := by
  have hrow : ∀ i j, i ≤ k → eliminate k M i j = M i j := fun i j hi => by unfold eliminate; rw [if_pos (.inl hi)]
  have hcol : ∀ i j, j < k → eliminate k M i j = M i j := fun i j hj => by unfold eliminate; rw [if_pos (.inr hj)]
  intro i j
  rw [h i j]
  rcases le_or_gt i k with hi | hi
  · rw [min_eq_left hi, min_eq_left (by omega : i ≤ k + 1), hrow i j hi]
    congr 1
    refine Finset.sum_congr rfl fun m hm => ?_
    rw [Finset.mem_range] at hm
    rw [hrow i m hi, hrow m j (by omega)]
  · rw [min_eq_right hi.le, min_eq_right (by omega : k + 1 ≤ i), Finset.sum_range_succ]
    have hs : (∑ m ∈ Finset.range k, eliminate k M i m * if j < m then 0 else eliminate k M m j) =
        ∑ m ∈ Finset.range k, M i m * if j < m then 0 else M m j := by
      refine Finset.sum_congr rfl fun m hm => ?_
      rw [Finset.mem_range] at hm
      rw [hcol i m hm, hrow m j hm.le]
    rw [hs, add_assoc]
    congr 1
    rw [hrow k j le_rfl]
    have hik : eliminate k M i k = M i k / M k k := by
      unfold eliminate; rw [if_neg (by omega), if_pos rfl]
    rw [hik]
    rcases lt_trichotomy j k with hj | rfl | hj
    · rw [if_pos hj, if_pos hj, if_pos (by omega : j < k + 1)]; ring
    · rw [if_neg (lt_irrefl _), if_neg (lt_irrefl _), if_pos (by omega : j < j + 1)]; field_simp; ring
    · rw [if_neg (by omega), if_neg (by omega), if_neg (by omega)]
      have : eliminate k M i j = M i j - M i k / M k k * M k j := by
        unfold eliminate; rw [if_neg (by omega), if_neg (by omega)]
      rw [this]; ring

/-- What holds after `k` turns. -/
structure Held (n : ℕ) (A : ℕ → ℕ → ℝ) (k : ℕ) (w : Work) : Prop where
  factors : Factors A w.1 w.2 k
  perm : ∃ s : Equiv.Perm ℕ, w.2 = s ∧ ∀ i, s i < n ↔ i < n
  pivot : ∀ i < k, 1 / 10 ^ 14 ≤ |w.1 i i|
  small : ∀ i m, i < n → m < min i k → |w.1 i m| ≤ 1

theorem held_swap {n k p : ℕ} {A : ℕ → ℕ → ℝ} {w : Work} (hk : k < n) (hp : k ≤ p) (hn : p < n) (h : Held n A k w) :
    Held n A k (fun i => w.1 (Equiv.swap k p i), fun i => w.2 (Equiv.swap k p i)) where
  factors := factors_swap hp h.factors
  perm := by
    obtain ⟨s, hs, hs'⟩ := h.perm
    refine ⟨(Equiv.swap k p).trans s, ?_, fun i => ?_⟩
    · funext i; simp [hs]
    · rw [Equiv.trans_apply, hs', swap_bound hk hn]
  pivot := fun i hi => by
    dsimp only
    rw [swap_lt hp hi]
    exact h.pivot i hi
  small := fun i m hi hm => by
    dsimp only
    refine h.small _ m ((swap_bound hk hn i).mpr hi) ?_
    rcases lt_or_ge i k with hik | hik
    · rw [swap_lt hp hik]; exact hm
    · rw [min_eq_right (swap_ge hp hik)]
      rw [min_eq_right hik] at hm
      exact hm

/-- If a turn fails, the column it is at is small. -/
theorem step_error {n k : ℕ} {A : ℕ → ℕ → ℝ} {w v : Work} (hk : k < n) (h : Held n A k w) (hs : step n k w = .error v) :
    Held n A k v ∧ ∀ i, k ≤ i → i < n → |v.1 i k| < 1 / 10 ^ 14 := by
  obtain ⟨h1, h2, h3⟩ := pivotRow_spec n k w.1 hk
  unfold step at hs
  dsimp only at hs
  split_ifs at hs with hc
  rw [Except.error.injEq] at hs
  subst hs
  refine ⟨held_swap hk h1 h2 h, fun i hi hn => ?_⟩
  rw [Equiv.swap_apply_left, pivotTolerance] at hc
  exact lt_of_le_of_lt (h3 _ (swap_ge h1 hi) ((swap_bound hk h2 i).mpr hn)) hc

theorem step_ok {n k : ℕ} {A : ℕ → ℕ → ℝ} {w v : Work} (hk : k < n) (h : Held n A k w) (hs : step n k w = .ok v) :
    Held n A (k + 1) v := by
  obtain ⟨h1, h2, h3⟩ := pivotRow_spec n k w.1 hk
  unfold step at hs
  dsimp only at hs
  split_ifs at hs with hc
  rw [Except.ok.injEq] at hs
  subst hs
  have h4 := held_swap hk h1 h2 h
  have hmax : ∀ i, k ≤ i → i < n → |w.1 (Equiv.swap k (pivotRow n k w.1) i) k| ≤
      |w.1 (Equiv.swap k (pivotRow n k w.1) k) k| := by
    intro i hi hn
    rw [Equiv.swap_apply_left]
    exact h3 _ (swap_ge h1 hi) ((swap_bound hk h2 i).mpr hn)
  generalize pivotRow n k w.1 = p at *
  obtain ⟨M, hM⟩ : ∃ M : ℕ → ℕ → ℝ, (fun i => w.1 (Equiv.swap k p i)) = M := ⟨_, rfl⟩
  have hM' : ∀ i j, w.1 (Equiv.swap k p i) j = M i j := fun i j => by rw [← hM]
  rw [hM] at h4 ⊢
  simp only [hM'] at hc hmax
  rw [pivotTolerance, not_lt] at hc
  have h0 : M k k ≠ 0 := by
    intro h0
    rw [h0] at hc
    norm_num at hc
  refine ⟨factors_eliminate h0 h4.factors, h4.perm, fun i hi => ?_, fun i m hi hm => ?_⟩
  · have : eliminate k M i i = M i i := by unfold eliminate; rw [if_pos (.inl (by omega))]
    dsimp only
    rw [this]
    rcases eq_or_lt_of_le (Nat.lt_succ_iff.mp hi) with rfl | hi
    · exact hc
    · exact h4.pivot i hi
  · dsimp only
    rcases le_or_gt i k with hik | hik
    · have : eliminate k M i m = M i m := by unfold eliminate; rw [if_pos (.inl hik)]
      rw [this]
      exact h4.small i m hi (by omega)
    · rcases eq_or_lt_of_le (by omega : m ≤ k) with rfl | hmk
      · have : eliminate m M i m = M i m / M m m := by unfold eliminate; rw [if_neg (by omega), if_pos rfl]
        rw [this, abs_div, div_le_one (abs_pos.mpr h0)]
        exact hmax i hik.le hi
      · have : eliminate k M i m = M i m := by unfold eliminate; rw [if_pos (.inr hmk)]
        rw [this]
        exact h4.small i m hi (by omega)

theorem forward_spec (n : ℕ) (A : ℕ → ℕ → ℝ) : ∀ k, k ≤ n → (∀ v, forward n k (A, id) = .ok v → Held n A k v) ∧
    ∀ v, forward n k (A, id) = .error v → ∃ m < k, Held n A m v ∧ ∀ i, m ≤ i → i < n → |v.1 i m| < 1 / 10 ^ 14 := by
  intro k
  induction k with
  | zero =>
    intro _
    constructor
    · intro v hv
      rw [forward, Except.ok.injEq] at hv
      subst hv
      exact ⟨fun i j => by simp, ⟨Equiv.refl ℕ, rfl, fun i => Iff.rfl⟩, by simp, by simp⟩
    · intro v hv
      simp [forward] at hv
  | succ k ih =>
    intro hk
    obtain ⟨h1, h2⟩ := ih (by omega)
    rw [forward]
    rcases hf : forward n k (A, id) with w | w
    · constructor
      · intro v hv
        simp [Except.bind] at hv
      · intro v hv
        simp only [Except.bind, Except.error.injEq] at hv
        subst hv
        obtain ⟨m, hm, h⟩ := h2 w hf
        exact ⟨m, by omega, h⟩
    · have hw := h1 w hf
      constructor
      · intro v hv
        exact step_ok (by omega) hw hv
      · intro v hv
        exact ⟨k, by omega, step_error (by omega) hw hv⟩

theorem factors_apply {n k i : ℕ} {A M : ℕ → ℕ → ℝ} {seq : ℕ → ℕ} (h : Factors A M seq k) (x : ℕ → ℝ) :
    ∑ j ∈ Finset.range n, A (seq i) j * x j =
      (∑ m ∈ Finset.range (min i k), M i m * ∑ j ∈ Finset.range n, (if j < m then 0 else M m j) * x j) +
        ∑ j ∈ Finset.range n, (if j < min i k then 0 else M i j) * x j := by
  simp only [h i, add_mul, Finset.sum_mul, Finset.mul_sum, Finset.sum_add_distrib]
  congr 1
  rw [Finset.sum_comm]
  exact Finset.sum_congr rfl fun m _ => Finset.sum_congr rfl fun j _ => by ring

/-- A column that is zero from the diagonal on makes the matrix singular. -/
theorem factors_singular {n k : ℕ} {A M : ℕ → ℕ → ℝ} {seq : ℕ → ℕ} (hk : k < n) (h : Factors A M seq k)
    (hp : ∀ i < k, M i i ≠ 0) (hz : ∀ i, k ≤ i → i < n → M i k = 0) :
    ∃ x : ℕ → ℝ, x k = 1 ∧ ∀ i < n, ∑ j ∈ Finset.range n, A (seq i) j * x j = 0 := by
  have key : ∀ t, t ≤ k → ∃ x : ℕ → ℝ, x k = 1 ∧ (∀ j, k < j → x j = 0) ∧ ∀ i < k, k - t ≤ i →
      ∑ j ∈ Finset.Ico i (k + 1), M i j * x j = 0 := by
    intro t
    induction t with
    | zero =>
      intro _
      exact ⟨fun j => if j = k then 1 else 0, by simp, fun j hj => if_neg (by omega), fun i hi hi' => absurd hi (by omega)⟩
    | succ t ih =>
      intro ht
      obtain ⟨x, h1, h2, h3⟩ := ih (by omega)
      obtain ⟨r, hr⟩ : ∃ r, r = k - (t + 1) := ⟨_, rfl⟩
      have hu : ∀ i, r < i → ∑ j ∈ Finset.Ico i (k + 1), M i j *
          Function.update x r (-(∑ j ∈ Finset.Ico (r + 1) (k + 1), M r j * x j) / M r r) j =
          ∑ j ∈ Finset.Ico i (k + 1), M i j * x j := by
        intro i hi
        refine Finset.sum_congr rfl fun j hj => ?_
        rw [Finset.mem_Ico] at hj
        rw [Function.update_of_ne (by omega)]
      refine ⟨Function.update x r (-(∑ j ∈ Finset.Ico (r + 1) (k + 1), M r j * x j) / M r r), ?_, fun j hj => ?_,
        fun i hi hi' => ?_⟩
      · rw [Function.update_of_ne (by omega)]; exact h1
      · rw [Function.update_of_ne (by omega)]; exact h2 j hj
      · rcases eq_or_lt_of_le (by omega : r ≤ i) with rfl | hri
        · rw [Finset.sum_eq_sum_Ico_succ_bot (by omega), Function.update_self]
          have hs : ∑ j ∈ Finset.Ico (r + 1) (k + 1), M r j *
              Function.update x r (-(∑ j ∈ Finset.Ico (r + 1) (k + 1), M r j * x j) / M r r) j =
              ∑ j ∈ Finset.Ico (r + 1) (k + 1), M r j * x j := by
            refine Finset.sum_congr rfl fun j hj => ?_
            rw [Finset.mem_Ico] at hj
            rw [Function.update_of_ne (by omega)]
          rw [hs]
          have := hp r hi
          field_simp
          ring
        · rw [hu i hri]
          exact h3 i hi (by omega)
  obtain ⟨x, h1, h2, h3⟩ := key k le_rfl
  refine ⟨x, h1, fun i hi => ?_⟩
  have hrow : ∀ r m, m ≤ k → (∑ j ∈ Finset.range n, (if j < m then 0 else M r j) * x j) =
      ∑ j ∈ Finset.Ico m (k + 1), M r j * x j := by
    intro r m hm
    rw [← Finset.sum_subset (s₁ := Finset.Ico m (k + 1))]
    · refine Finset.sum_congr rfl fun j hj => ?_
      rw [Finset.mem_Ico] at hj
      rw [if_neg (by omega)]
    · intro j hj
      rw [Finset.mem_Ico] at hj
      rw [Finset.mem_range]
      omega
    · intro j _ hj
      rw [Finset.mem_Ico] at hj
      by_cases hjm : j < m
      · rw [if_pos hjm, zero_mul]
      · rw [h2 j (by omega), mul_zero]
  rw [factors_apply h]
  have hz' : ∑ m ∈ Finset.range (min i k), M i m * ∑ j ∈ Finset.range n, (if j < m then 0 else M m j) * x j = 0 := by
    refine Finset.sum_eq_zero fun m hm => ?_
    rw [Finset.mem_range] at hm
    rw [hrow m m (by omega), h3 m (by omega) (by omega), mul_zero]
  rw [hz', hrow i _ (min_le_right _ _), zero_add]
  rcases lt_or_ge i k with hik | hik
  · rw [min_eq_left hik.le]
    exact h3 i hik (by omega)
  · rw [min_eq_right hik, Finset.sum_eq_sum_Ico_succ_bot (by omega), Finset.Ico_self, Finset.sum_empty, hz i hik hi]
    ring

theorem inverseSeq_spec (n : ℕ) (s : Equiv.Perm ℕ) : ∀ i < n, inverseSeq n s (s i) = i := by
  unfold inverseSeq
  induction n with
  | zero => intro i hi; omega
  | succ n ih =>
    intro i hi
    rw [List.range_succ, List.foldl_append, List.foldl_cons, List.foldl_nil]
    rcases eq_or_lt_of_le (Nat.lt_succ_iff.mp hi) with rfl | hi
    · rw [Function.update_self]
    · rw [Function.update_of_ne (fun h => by have := s.injective h; omega)]
      exact ih i hi

theorem down_spec (M : ℕ → ℕ → ℝ) (is : ℕ) (x : ℕ → ℝ) (h0 : ∀ j < is, x j = 0) : ∀ k,
    (∀ j, k < j → down M is k x j = x j) ∧ (∀ j < is, down M is k x j = 0) ∧
    ∀ j ≤ k, down M is k x j + ∑ m ∈ Finset.range j, M j m * down M is k x m = x j := by
  intro k
  induction k with
  | zero =>
    refine ⟨fun j _ => rfl, h0, fun j hj => ?_⟩
    obtain rfl : j = 0 := by omega
    simp [down]
  | succ k ih =>
    obtain ⟨h1, h2, h3⟩ := ih
    rw [down]
    generalize hy : down M is k x = y at *
    have hs : ∑ j ∈ Finset.Ico is (k + 1), M (k + 1) j * y j = ∑ j ∈ Finset.range (k + 1), M (k + 1) j * y j := by
      refine Finset.sum_subset (fun j hj => ?_) fun j hj hj' => ?_
      · rw [Finset.mem_Ico] at hj; rw [Finset.mem_range]; omega
      · rw [Finset.mem_range] at hj
        rw [Finset.mem_Ico] at hj'
        rw [h2 j (by omega), mul_zero]
    rw [hs]
    refine ⟨fun j hj => ?_, fun j hj => ?_, fun j hj => ?_⟩
    · rw [Function.update_of_ne (by omega)]
      exact h1 j (by omega)
    · by_cases hjk : j = k + 1
      · subst hjk
        rw [Function.update_self, h2 _ hj, Finset.sum_eq_zero, sub_zero]
        intro m hm
        rw [Finset.mem_range] at hm
        rw [h2 m (by omega), mul_zero]
      · rw [Function.update_of_ne hjk]
        exact h2 j hj
    · have hsum : ∀ r ≤ k + 1, ∀ v, ∑ m ∈ Finset.range r, M r m * Function.update y (k + 1) v m =
          ∑ m ∈ Finset.range r, M r m * y m := by
        intro r hr v
        refine Finset.sum_congr rfl fun m hm => ?_
        rw [Finset.mem_range] at hm
        rw [Function.update_of_ne (by omega)]
      rw [hsum j hj]
      by_cases hjk : j = k + 1
      · subst hjk
        rw [Function.update_self, h1 _ (by omega)]
        ring
      · rw [Function.update_of_ne hjk]
        exact h3 j (by omega)

theorem up_spec (n : ℕ) (M : ℕ → ℕ → ℝ) (y : ℕ → ℝ) (hne : ∀ k < n, M k k ≠ 0) : ∀ m ≤ n,
    (∀ j < n - m, up n M m y j = y j) ∧
    ∀ j, n - m ≤ j → j < n → ∑ i ∈ Finset.Ico j n, M j i * up n M m y i = y j := by
  intro m
  induction m with
  | zero => exact fun _ => ⟨fun j _ => rfl, fun j h1 h2 => by omega⟩
  | succ m ih =>
    intro hm
    obtain ⟨h1, h2⟩ := ih (by omega)
    rw [up]
    generalize up n M m y = x at *
    obtain ⟨k, hk⟩ : ∃ k, n - 1 - m = k := ⟨_, rfl⟩
    rw [hk]
    have hsum : ∀ r v j, k < r → ∑ i ∈ Finset.Ico r n, M j i * Function.update x k v i =
        ∑ i ∈ Finset.Ico r n, M j i * x i := by
      intro r v j hr
      refine Finset.sum_congr rfl fun i hi => ?_
      rw [Finset.mem_Ico] at hi
      rw [Function.update_of_ne (by omega)]
    refine ⟨fun j hj => ?_, fun j hj hn => ?_⟩
    · rw [Function.update_of_ne (by omega)]
      exact h1 j (by omega)
    · rcases eq_or_lt_of_le (by omega : k ≤ j) with rfl | hkj
      · rw [Finset.sum_eq_sum_Ico_succ_bot hn, hsum _ _ _ (by omega), Function.update_self, h1 k (by omega)]
        have := hne k hn
        field_simp
        ring
      · rw [hsum _ _ _ hkj]
        exact h2 j (by omega) hn

theorem held_pivot {n k : ℕ} {A : ℕ → ℕ → ℝ} {w : Work} (h : Held n A k w) : ∀ i < k, w.1 i i ≠ 0 := by
  intro i hi h0
  have := h.pivot i hi
  rw [h0] at this
  norm_num at this

/-- The columns found by substitution. -/
theorem held_solve {n : ℕ} {A M : ℕ → ℕ → ℝ} {seq : ℕ → ℕ} (h : Held n A (n - 1) (M, seq))
    (h0 : M (n - 1) (n - 1) ≠ 0) (i c : ℕ) (hi : i < n) (hc : c < n) :
    ∑ j ∈ Finset.range n, A i j *
      up n M n (down M (inverseSeq n seq c) (n - 1) fun j => if seq j = c then 1 else 0) j = if i = c then 1 else 0 := by
  obtain ⟨s, hs, hs'⟩ := h.perm
  dsimp only at hs
  obtain ⟨r, rfl⟩ : ∃ r, s r = i := ⟨s.symm i, s.apply_symm_apply i⟩
  obtain ⟨q, rfl⟩ : ∃ q, s q = c := ⟨s.symm c, s.apply_symm_apply c⟩
  rw [hs'] at hi hc
  have hne : ∀ k < n, M k k ≠ 0 := by
    intro k hk
    rcases eq_or_lt_of_le (by omega : k ≤ n - 1) with rfl | hk
    · exact h0
    · exact held_pivot h k hk
  subst hs
  rw [inverseSeq_spec n s q hc]
  obtain ⟨-, -, hd⟩ := down_spec M q (fun j => if s j = s q then 1 else 0)
    (fun j hj => if_neg fun he => by have := s.injective he; omega) (n - 1)
  generalize down M q (n - 1) (fun j => if s j = s q then 1 else 0) = y at *
  obtain ⟨-, hu⟩ := up_spec n M y hne n le_rfl
  generalize up n M n y = x at *
  have hrow : ∀ m, m < n → (∑ j ∈ Finset.range n, (if j < m then 0 else M m j) * x j) = y m := by
    intro m hm
    rw [← hu m (by omega) hm, ← Finset.sum_subset (s₁ := Finset.Ico m n)]
    · refine Finset.sum_congr rfl fun j hj => ?_
      rw [Finset.mem_Ico] at hj
      rw [if_neg (by omega)]
    · intro j hj
      rw [Finset.mem_Ico] at hj
      rw [Finset.mem_range]
      omega
    · intro j hj hj'
      rw [Finset.mem_Ico] at hj'
      rw [Finset.mem_range] at hj
      rw [if_pos (by omega), zero_mul]
  rw [factors_apply h.factors]
  dsimp only
  rw [min_eq_left (by omega : r ≤ n - 1), hrow r hi, ← hd r (by omega), add_comm]
  congr 1
  refine Finset.sum_congr rfl fun m hm => ?_
  rw [Finset.mem_range] at hm
  rw [hrow m (by omega)]

theorem entries_apply {n : ℕ} (A : Matrix (Fin n) (Fin n) ℝ) (i j : Fin n) : entries A i j = A i j := by
  unfold entries
  rw [dif_pos ⟨i.isLt, j.isLt⟩]

/-- Five or more rows: whatever matrix of numbers is returned is the inverse. -/
theorem c108_inverse (n : ℕ) (h5 : 5 ≤ n) (A R : Matrix (Fin n) (Fin n) ℝ) (h : inverseMatrix n A = .ok (.mat R)) :
    A * R = 1 ∧ R * A = 1 := by
  have key : A * R = 1 := by
    rw [inverse_more n h5, invertLU] at h
    rcases hf : forward n (n - 1) (entries A, id) with w | ⟨M, seq⟩
    · rw [hf] at h
      simp at h
    · rw [hf] at h
      dsimp only at h
      split_ifs at h with h0
      · simp at h
      · simp only [Option.elim_some, Except.ok.injEq, Inv.mat.injEq] at h
        subst h
        have hh := (forward_spec n (entries A) (n - 1) (by omega)).1 _ hf
        ext i c
        have hs := held_solve hh h0 i c i.isLt c.isLt
        rw [Finset.sum_range] at hs
        rw [Matrix.mul_apply, Matrix.one_apply]
        simp only [entries_apply, Fin.val_inj] at hs
        simpa [Matrix.of_apply] using hs
  exact ⟨key, mul_eq_one_comm.mp key⟩

theorem singular_of {n : ℕ} (A : Matrix (Fin n) (Fin n) ℝ) (B : ℕ → ℕ → ℝ) (hB : ∀ i j : Fin n, B i j = A i j)
    (s : Equiv.Perm ℕ) (hs : ∀ i, s i < n ↔ i < n) (x : ℕ → ℝ) (k : ℕ) (hk : k < n) (h1 : x k = 1)
    (h : ∀ i < n, ∑ j ∈ Finset.range n, B (s i) j * x j = 0) : A.det = 0 := by
  rw [← Matrix.exists_mulVec_eq_zero_iff]
  refine ⟨fun j => x j, fun h0 => ?_, ?_⟩
  · have := congrFun h0 ⟨k, hk⟩
    simp [h1] at this
  · ext i
    obtain ⟨r, hr⟩ : ∃ r, s r = i := ⟨s.symm i, s.apply_symm_apply i⟩
    have hr' : r < n := by rw [← hs, hr]; exact i.isLt
    have := h r hr'
    rw [hr, Finset.sum_range] at this
    simp only [hB] at this
    simpa [Matrix.mulVec, dotProduct] using this

/-- An array without finite entries is returned only for singular matrices. -/
theorem c108_infinite (n : ℕ) (h5 : 5 ≤ n) (A : Matrix (Fin n) (Fin n) ℝ) (h : inverseMatrix n A = .ok .infinite) :
    A.det = 0 := by
  rw [inverse_more n h5, invertLU] at h
  rcases hf : forward n (n - 1) (entries A, id) with w | ⟨M, seq⟩
  · rw [hf] at h
    simp at h
  · rw [hf] at h
    dsimp only at h
    split_ifs at h with h0
    · have hh := (forward_spec n (entries A) (n - 1) (by omega)).1 _ hf
      obtain ⟨s, hs, hs'⟩ := hh.perm
      obtain ⟨x, h1, hx⟩ := factors_singular (n := n) (by omega : n - 1 < n) hh.factors (held_pivot hh) fun i hi hn => by
        obtain rfl : i = n - 1 := by omega
        exact h0
      dsimp only at hs
      subst hs
      exact singular_of A (entries A) (entries_apply A) s hs' x (n - 1) (by omega) h1 hx
    · simp at h

/-- A matrix is refused only if a singular one is near it: all entries differ by less than 10^-14. -/
theorem c108_refused (n : ℕ) (h5 : 5 ≤ n) (A : Matrix (Fin n) (Fin n) ℝ) (e : Err) (h : inverseMatrix n A = .error e) :
    e = .value ∧ ∃ B : Matrix (Fin n) (Fin n) ℝ, B.det = 0 ∧ ∀ i j, |A i j - B i j| < 1 / 10 ^ 14 := by
  rw [inverse_more n h5, invertLU] at h
  rcases hf : forward n (n - 1) (entries A, id) with w | ⟨M, seq⟩
  · rw [hf] at h
    simp only [Option.elim_none, Except.error.injEq] at h
    refine ⟨h.symm, ?_⟩
    obtain ⟨k, hk, hh, hsm⟩ := (forward_spec n (entries A) (n - 1) (by omega)).2 _ hf
    obtain ⟨M, seq⟩ := w
    obtain ⟨s, hs, hs'⟩ := hh.perm
    have hfac := hh.factors
    have hpiv := held_pivot hh
    dsimp only at hs hsm hfac hpiv
    subst hs
    obtain ⟨B, hB⟩ : ∃ B : ℕ → ℕ → ℝ, ∀ i j, B (s i) j = entries A (s i) j - if j = k ∧ k ≤ i then M i k else 0 :=
      ⟨fun i j => entries A i j - if j = k ∧ k ≤ s.symm i then M (s.symm i) k else 0, fun i j => by simp⟩
    have hfB : Factors B (fun i j => if j = k ∧ k ≤ i then 0 else M i j) s k := by
      intro i j
      rw [hB, hfac i j]
      have hsum : (∑ m ∈ Finset.range (min i k), (if m = k ∧ k ≤ i then 0 else M i m) *
          if j < m then 0 else if j = k ∧ k ≤ m then 0 else M m j) =
          ∑ m ∈ Finset.range (min i k), M i m * if j < m then 0 else M m j := by
        refine Finset.sum_congr rfl fun m hm => ?_
        rw [Finset.mem_range] at hm
        rw [if_neg (by omega : ¬ (m = k ∧ k ≤ i)), if_neg (by omega : ¬ (j = k ∧ k ≤ m))]
      rw [hsum, add_sub_assoc]
      congr 1
      dsimp only
      by_cases hc : j = k ∧ k ≤ i
      · rw [if_pos hc, if_pos hc, if_neg (by omega), if_neg (by omega), hc.1, sub_self]
      · rw [if_neg hc, if_neg hc, sub_zero]
    obtain ⟨x, h1, hx⟩ := factors_singular (n := n) (by omega : k < n) hfB
      (fun i hi => by rw [if_neg (by omega)]; exact hpiv i hi) fun i hi hn => if_pos ⟨rfl, hi⟩
    refine ⟨Matrix.of fun i j => B i j, singular_of _ B (fun i j => rfl) s hs' x k (by omega) h1 hx, fun i j => ?_⟩
    obtain ⟨r, hr⟩ : ∃ r, s r = i := ⟨s.symm i, s.apply_symm_apply i⟩
    have hr' : r < n := by rw [← hs', hr]; exact i.isLt
    have := hB r j
    rw [hr, entries_apply] at this
    rw [Matrix.of_apply, this, sub_sub_cancel]
    split_ifs with hc
    · exact hsm r hc.2 hr'
    · norm_num
  · rw [hf] at h
    dsimp only at h
    split_ifs at h <;> simp at h

/-- So a matrix from which every singular matrix differs somewhere by 10^-14 or more gets its inverse. -/
theorem c108_returns (n : ℕ) (h5 : 5 ≤ n) (A : Matrix (Fin n) (Fin n) ℝ)
    (hA : ∀ B : Matrix (Fin n) (Fin n) ℝ, B.det = 0 → ∃ i j, 1 / 10 ^ 14 ≤ |A i j - B i j|) :
    ∃ R, inverseMatrix n A = .ok (.mat R) ∧ A * R = 1 ∧ R * A = 1 := by
  rcases h : inverseMatrix n A with e | R
  · obtain ⟨-, B, hB, hs⟩ := c108_refused n h5 A e h
    obtain ⟨i, j, hij⟩ := hA B hB
    exact absurd (hs i j) (not_lt.mpr hij)
  · cases R with
    | mat R => exact ⟨R, rfl, c108_inverse n h5 A R h⟩
    | infinite =>
      obtain ⟨i, j, hij⟩ := hA A (c108_infinite n h5 A h)
      rw [sub_self, abs_zero] at hij
      norm_num at hij

theorem pivotRow_self (n k : ℕ) (M : ℕ → ℕ → ℝ) (h : ∀ i, k < i → |M i k| ≤ |M k k|) : pivotRow n k M = k := by
  have key : ∀ l : List ℕ, (∀ i ∈ l, k < i) →
      l.foldl (fun s i => if s.1 < |M i k| then (|M i k|, i) else s) (|M k k|, k) = (|M k k|, k) := by
    intro l
    induction l with
    | nil => intro _; rfl
    | cons a l ih =>
      intro hl
      rw [List.foldl_cons, if_neg (not_lt.mpr (h a (hl a (by simp))))]
      exact ih fun i hi => hl i (by simp [hi])
  unfold pivotRow
  rw [key _ fun i hi => by rw [List.mem_range'_1] at hi; omega]

/-- A diagonal matrix stays as it is up to the first small entry. -/
theorem step_diagonal (n k : ℕ) (d : ℕ → ℝ) : step n k (fun i j => if i = j then d i else 0, id) =
    if |d k| < 1 / 10 ^ 14 then .error (fun i j => if i = j then d i else 0, id)
    else .ok (fun i j => if i = j then d i else 0, id) := by
  have hp : pivotRow n k (fun i j => if i = j then d i else 0) = k := by
    refine pivotRow_self n k _ fun i hi => ?_
    rw [if_neg (by omega), abs_zero]
    exact abs_nonneg _
  unfold step
  dsimp only
  rw [hp, Equiv.swap_self]
  change (if |if k = k then d k else 0| < pivotTolerance then Except.error (fun i j => if i = j then d i else 0, id)
    else Except.ok (eliminate k fun i j => if i = j then d i else 0, id)) = _
  have he : eliminate k (fun i j => if i = j then d i else 0) = fun i j => if i = j then d i else 0 := by
    funext j i
    unfold eliminate
    dsimp only
    by_cases h1 : j ≤ k ∨ i < k
    · rw [if_pos h1]
    · rw [if_neg h1, if_neg (by omega : ¬ j = k)]
      by_cases h2 : i = k
      · rw [if_pos h2, zero_div, if_neg (by omega)]
      · rw [if_neg h2, zero_div, zero_mul, sub_zero]
  rw [he, if_pos rfl, pivotTolerance]

theorem forward_diagonal (n : ℕ) (d : ℕ → ℝ) (k : ℕ) (h : ∀ i < k, 1 / 10 ^ 14 ≤ |d i|) :
    forward n k (fun i j => if i = j then d i else 0, id) = .ok (fun i j => if i = j then d i else 0, id) := by
  induction k with
  | zero => rfl
  | succ k ih =>
    rw [forward, ih fun i hi => h i (by omega)]
    change step n k _ = _
    rw [step_diagonal, if_neg (not_lt.mpr (h k (by omega)))]

theorem entries_diagonal {n : ℕ} (d : ℕ → ℝ) (hd : ∀ i, n ≤ i → d i = 0) :
    entries (Matrix.diagonal fun i : Fin n => d i) = fun i j => if i = j then d i else 0 := by
  funext i j
  unfold entries
  by_cases h : i < n ∧ j < n
  · rw [dif_pos h, Matrix.diagonal_apply]
    simp only [Fin.mk.injEq]
  · rw [dif_neg h]
    by_cases hij : i = j
    · rw [if_pos hij, hd i (by omega)]
    · rw [if_neg hij]

/-- The matrix of ones on the diagonal but for the last, five rows or more, is singular; an array without finite entries is
returned for it. -/
theorem c108_infinite_violation (n : ℕ) (h5 : 5 ≤ n) :
    (Matrix.diagonal fun i : Fin n => if (i : ℕ) < n - 1 then (1 : ℝ) else 0).det = 0 ∧
    inverseMatrix n (Matrix.diagonal fun i : Fin n => if (i : ℕ) < n - 1 then (1 : ℝ) else 0) = .ok .infinite := by
  have h : inverseMatrix n (Matrix.diagonal fun i : Fin n => if (i : ℕ) < n - 1 then (1 : ℝ) else 0) = .ok .infinite := by
    rw [inverse_more n h5, invertLU,
      entries_diagonal (fun i => if i < n - 1 then 1 else 0) fun i hi => if_neg (by omega),
      forward_diagonal n _ _ fun i hi => by rw [if_pos hi]; norm_num]
    simp
  exact ⟨c108_infinite n h5 _ h, h⟩

/-- Matrices that have an inverse are refused because their entries are small: a ten-thousandth of the identity with four rows,
10^-15 times the identity with five or more. -/
theorem c108_small_violation : inverseMatrix 4 ((1 / 10 ^ 4 : ℝ) • (1 : Matrix (Fin 4) (Fin 4) ℝ)) = .error .value ∧
    ((1 / 10 ^ 4 : ℝ) • (1 : Matrix (Fin 4) (Fin 4) ℝ)) * ((10 ^ 4 : ℝ) • (1 : Matrix (Fin 4) (Fin 4) ℝ)) = 1 ∧
    ∀ n ≥ 5, inverseMatrix n ((1 / 10 ^ 15 : ℝ) • (1 : Matrix (Fin n) (Fin n) ℝ)) = .error .value ∧
      ((1 / 10 ^ 15 : ℝ) • (1 : Matrix (Fin n) (Fin n) ℝ)) * ((10 ^ 15 : ℝ) • (1 : Matrix (Fin n) (Fin n) ℝ)) = 1 := by
  have hm : ∀ (n : ℕ) (c d : ℝ), c * d = 1 →
      (c • (1 : Matrix (Fin n) (Fin n) ℝ)) * (d • (1 : Matrix (Fin n) (Fin n) ℝ)) = 1 := by
    intro n c d h
    rw [smul_mul_smul_comm, h, one_smul, mul_one]
  refine ⟨(c108_four 4 (by norm_num) le_rfl _).1 ?_, hm _ _ _ (by norm_num), fun n h5 => ⟨?_, hm _ _ _ (by norm_num)⟩⟩
  · rw [Matrix.det_smul, det_one, Fintype.card_fin]
    norm_num [abs_lt]
  · have he : ((1 / 10 ^ 15 : ℝ) • (1 : Matrix (Fin n) (Fin n) ℝ)) =
        Matrix.diagonal fun i : Fin n => if (i : ℕ) < n then 1 / 10 ^ 15 else 0 := by
      ext i j
      simp [Matrix.diagonal_apply, Matrix.one_apply]
    rw [he, inverse_more n h5, invertLU,
      entries_diagonal (fun i => if i < n then 1 / 10 ^ 15 else 0) fun i hi => if_neg (by omega)]
    have hf : ∀ k, ∃ w, forward n (k + 1) (fun i j => if i = j then if i < n then 1 / 10 ^ 15 else 0 else 0, id) =
        .error w := by
      intro k
      induction k with
      | zero =>
        rw [forward, forward]
        change ∃ w, step n 0 _ = _
        rw [step_diagonal n 0 fun i => if i < n then 1 / 10 ^ 15 else 0, if_pos]
        · exact ⟨_, rfl⟩
        · rw [if_pos (by omega)]
          norm_num [abs_lt]
      | succ k ih =>
        obtain ⟨w, hw⟩ := ih
        rw [forward, hw]
        exact ⟨w, rfl⟩
    obtain ⟨w, hw⟩ := hf (n - 2)
    rw [show n - 2 + 1 = n - 1 by omega] at hw
    rw [hw]
    rfl

/-- The argument keeps its entries if it is an array itself or has at most four rows. -/
theorem c108_memory (n : ℕ) (identical : Bool) (A : ℕ → ℕ → ℝ) (h : identical = true ∨ n ≤ 4) :
    inverseMemory n identical A = A := by
  unfold inverseMemory
  rw [if_neg]
  rintro ⟨h1, h2⟩
  rcases h with h | h
  · rw [h] at h2; simp at h2
  · omega

/-- Otherwise the memory it lends is overwritten: no entry greater than one stays below the diagonal of the first column. -/
theorem c108_memory_violation (n : ℕ) (h5 : 5 ≤ n) (A : ℕ → ℕ → ℝ) (i : ℕ) (h0 : 0 < i) (hi : i < n) (h1 : 1 < |A i 0|) :
    inverseMemory n false A i 0 ≠ A i 0 := by
  intro h
  unfold inverseMemory at h
  rw [if_pos ⟨h5, rfl⟩] at h
  have hs := forward_spec n A (n - 1) (by omega)
  rcases hf : forward n (n - 1) (A, id) with w | w
  · rw [hf] at h
    dsimp only at h
    obtain ⟨m, hm, hh, hsm⟩ := hs.2 w hf
    rcases Nat.eq_zero_or_pos m with rfl | hm0
    · have := hsm i (by omega) hi
      rw [h] at this
      norm_num at this
      linarith
    · have := hh.small i 0 hi (by omega)
      rw [h] at this
      linarith
  · rw [hf] at h
    dsimp only at h
    have := (hs.1 w hf).small i 0 hi (by omega)
    rw [h] at this
    linarith

/-- The diagonal matrix of 1, 2, 3, 4, 5 is inverted. -/
example : ∃ R, inverseMatrix 5 (Matrix.diagonal fun i : Fin 5 => ((i : ℕ) + 1 : ℝ)) = .ok (.mat R) ∧
    (Matrix.diagonal fun i : Fin 5 => ((i : ℕ) + 1 : ℝ)) * R = 1 := by
  have he : (Matrix.diagonal fun i : Fin 5 => ((i : ℕ) + 1 : ℝ)) =
      Matrix.diagonal fun i : Fin 5 => if (i : ℕ) < 5 then ((i : ℕ) + 1 : ℝ) else 0 := by
    congr 1
    funext i
    rw [if_pos i.isLt]
  have h : ∃ R, inverseMatrix 5 (Matrix.diagonal fun i : Fin 5 => ((i : ℕ) + 1 : ℝ)) = .ok (.mat R) := by
    rw [he, inverse_more 5 le_rfl, invertLU, entries_diagonal (fun i => if i < 5 then ((i : ℕ) + 1 : ℝ) else 0)
      fun i hi => if_neg (by omega), forward_diagonal 5 _ _ fun i hi => by
        rw [if_pos (by omega), abs_of_nonneg (by positivity)]
        have : (0 : ℝ) ≤ i := by positivity
        norm_num
        linarith]
    dsimp only
    rw [if_neg (by norm_num)]
    exact ⟨_, rfl⟩
  obtain ⟨R, h⟩ := h
  exact ⟨R, h, (c108_inverse 5 le_rfl _ _ h).1⟩

end RayOpt.Compiled
