import Verif.Model.Simplex
import Mathlib.Data.List.Nodup
import Mathlib.Algebra.BigOperators.Intervals
import Mathlib.Data.Nat.Choose.Sum
import Mathlib.Data.Nat.Choose.Multinomial
import Mathlib.Tactic

/-! Enumeration of exponent tuples. -/

namespace RayOpt.Simplex

theorem mem_simplexIter : ∀ (d m : ℕ) (p : List ℕ),
    p ∈ simplexIter d m ↔ p.length = d ∧ (d = 0 ∨ p.sum < m) := by
  intro d
  induction d with
  | zero => intro m p; simp [simplexIter]
  | succ d ih =>
    intro m p
    simp only [simplexIter, List.mem_flatMap, List.mem_range, List.mem_map, ih]
    constructor
    · rintro ⟨i, hi, j, ⟨hj, hs⟩, rfl⟩
      have : j.sum ≤ i := by
        rcases hs with h | h
        · subst h; rw [List.length_eq_zero_iff.mp hj]; simp
        · omega
      simp; omega
    · rintro ⟨hl, hs⟩
      cases p with
      | nil => simp at hl
      | cons a j =>
        simp at hl hs
        exact ⟨a + j.sum, hs, j, ⟨hl, Or.inr (by omega)⟩, by simp⟩

theorem nodup_simplexIter : ∀ d m : ℕ, (simplexIter d m).Nodup := by
  intro d
  induction d with
  | zero => intro m; simp [simplexIter]
  | succ d ih =>
    intro m
    simp only [simplexIter]
    rw [List.nodup_flatMap]
    constructor
    · intro i _
      apply List.Nodup.map_on _ (ih _)
      intro x _ y _ h
      simp at h
      exact h.2
    · apply List.Pairwise.imp_of_mem _ List.nodup_range
      intro a b _ _ hab
      simp only [Function.onFun]
      rw [List.disjoint_left]
      intro x hx hy
      simp only [List.mem_map, mem_simplexIter] at hx hy
      obtain ⟨j, ⟨hj, hs⟩, rfl⟩ := hx
      obtain ⟨k, ⟨hk, ht⟩, h⟩ := hy
      simp at h
      obtain ⟨h1, rfl⟩ := h
      have e1 : k.sum ≤ a := by
        rcases hs with h | h
        · subst h; rw [List.length_eq_zero_iff.mp hj]; simp
        · omega
      have e2 : k.sum ≤ b := by
        rcases ht with h | h
        · subst h; rw [List.length_eq_zero_iff.mp hk]; simp
        · omega
      omega

theorem length_simplexIter : ∀ d m : ℕ, (simplexIter d m).length = (m + d - 1).choose d := by
  intro d
  induction d with
  | zero => intro m; simp [simplexIter]
  | succ d ih =>
    intro m
    simp only [simplexIter, List.length_flatMap, List.length_map, ih]
    induction m with
    | zero => simp
    | succ m ihm =>
      rw [List.range_succ, List.map_append, List.sum_append, ihm]
      simp only [List.map_cons, List.map_nil, List.sum_cons, List.sum_nil, add_zero]
      have e1 : m + (d + 1) - 1 = m + d := by omega
      have e2 : m + 1 + d - 1 = m + d := by omega
      have e3 : m + 1 + (d + 1) - 1 = m + d + 1 := by omega
      rw [e1, e2, e3, Nat.choose_succ_succ]
      ring

theorem simplexSize_eq (d m : ℕ) : simplexSize d m = (m + d - 1).choose d := by
  have key : ∀ d, (List.range d).foldl
      (fun (np : ℕ × ℕ) i => (np.1 * (m + i), np.2 * (i + 1))) (1, 1)
      = (m.ascFactorial d, d.factorial) := by
    intro d
    induction d with
    | zero => simp
    | succ d ih =>
      rw [List.range_succ, List.foldl_append, ih]
      simp [Nat.ascFactorial_succ, Nat.factorial_succ]
      constructor <;> ring
  unfold simplexSize
  rw [key]
  simp only
  cases m with
  | zero =>
    cases d with
    | zero => simp
    | succ d =>
      have : Nat.ascFactorial 0 (d + 1) = 0 := Nat.zero_ascFactorial d
      simp [this]
  | succ m =>
    rw [Nat.ascFactorial_eq_factorial_mul_choose, Nat.mul_div_cancel_left _ (Nat.factorial_pos d)]
    congr 1; omega

/-- The first tuple is zero and every later one has larger or equal degree. -/
theorem simplexIter_ne_nil {d m : ℕ} (h : 0 < m) : simplexIter d m ≠ [] := by
  intro h0
  have := (mem_simplexIter d m (List.replicate d 0)).mpr ⟨by simp, Or.inr (by simpa using h)⟩
  rw [h0] at this
  simp at this

theorem simplexIter_head : ∀ {d m : ℕ}, 0 < m →
    (simplexIter d m)[0]? = some (List.replicate d 0) := by
  intro d
  induction d with
  | zero => intro m _; simp [simplexIter]
  | succ d ih =>
    intro m hm
    obtain ⟨m, rfl⟩ := Nat.exists_eq_succ_of_ne_zero hm.ne'
    simp only [simplexIter, Nat.succ_eq_add_one, List.range_succ_eq_map, List.flatMap_cons]
    rw [List.getElem?_append_left, List.getElem?_map, ih (by omega)]
    · simp [List.replicate_succ]
    · simpa using List.length_pos_iff.mpr (simplexIter_ne_nil (by omega))

theorem simplexIter_last : ∀ {d m : ℕ}, 0 < m →
    (simplexIter (d + 1) m).getLast? = some (List.replicate d 0 ++ [m - 1]) := by
  intro d
  induction d with
  | zero =>
    intro m hm
    obtain ⟨m, rfl⟩ := Nat.exists_eq_succ_of_ne_zero hm.ne'
    simp [simplexIter, List.range_succ]
  | succ d ih =>
    intro m hm
    obtain ⟨m, rfl⟩ := Nat.exists_eq_succ_of_ne_zero hm.ne'
    rw [simplexIter, Nat.succ_eq_add_one, List.range_succ, List.flatMap_append, List.getLast?_append]
    simp only [List.flatMap_cons, List.flatMap_nil, List.append_nil, List.getLast?_map]
    rw [ih (by omega)]
    simp [List.replicate_succ]

theorem simplexIter_sorted : ∀ (d m : ℕ), (simplexIter d m).Pairwise (fun p q => p.sum ≤ q.sum) := by
  intro d
  cases d with
  | zero => intro m; simp [simplexIter]
  | succ d =>
    intro m
    rw [simplexIter, List.pairwise_flatMap]
    have hsum : ∀ i, ∀ x ∈ (simplexIter d (i + 1)).map (fun j => (i - j.sum) :: j), x.sum = i := by
      intro i x hx
      simp only [List.mem_map, mem_simplexIter] at hx
      obtain ⟨j, ⟨hj, hs⟩, rfl⟩ := hx
      have e1 : j.sum ≤ i := by
        rcases hs with h | h
        · subst h; rw [List.length_eq_zero_iff.mp hj]; simp
        · omega
      simp; omega
    constructor
    · intro i _
      apply List.pairwise_of_forall_mem_list
      intro x hx y hy
      rw [hsum i x hx, hsum i y hy]
    · apply List.Pairwise.imp_of_mem _ (List.pairwise_lt_range (n := m))
      intro a b _ _ hab x hx y hy
      rw [hsum a x hx, hsum b y hy]
      exact hab.le

/-! ### The tables -/

theorem foldl_update_not_mem {α : Type*} [DecidableEq α] (g : ℕ → ℕ) (l : List α) (f : α → ℕ)
    (s : ℕ) (x : α) (hx : x ∉ l) :
    (l.zipIdx s).foldl (fun f ij => Function.update f ij.1 (g ij.2)) f x = f x := by
  induction l generalizing f s with
  | nil => simp
  | cons a l ih =>
    simp only [List.mem_cons, not_or] at hx
    rw [List.zipIdx_cons, List.foldl_cons, ih _ _ hx.2, Function.update_of_ne hx.1]

theorem foldl_update_zipIdx {α : Type*} [DecidableEq α] (g : ℕ → ℕ) (l : List α) (hl : l.Nodup)
    (f : α → ℕ) (s j : ℕ) (x : α) (hx : l[j]? = some x) :
    (l.zipIdx s).foldl (fun f ij => Function.update f ij.1 (g ij.2)) f x = g (s + j) := by
  induction l generalizing f s j with
  | nil => simp at hx
  | cons a l ih =>
    rw [List.nodup_cons] at hl
    rw [List.zipIdx_cons, List.foldl_cons]
    cases j with
    | zero =>
      simp at hx
      subst hx
      rw [foldl_update_not_mem _ _ _ _ _ hl.1]
      simp
    | succ j =>
      rw [ih hl.2 _ _ j (by simpa using hx)]
      congr 1; omega

/-- The tables fit `uint16`. -/
def Fits (d m : ℕ) : Prop := 1 ≤ d ∧ 1 ≤ m ∧ (m + d - 1).choose d ≤ 65536

theorem Fits.m_le {d m : ℕ} (h : Fits d m) : m ≤ 65536 := by
  obtain ⟨h1, h2, h3⟩ := h
  refine le_trans ?_ h3
  obtain ⟨d, rfl⟩ := Nat.exists_eq_succ_of_ne_zero (show d ≠ 0 by omega)
  obtain ⟨m, rfl⟩ := Nat.exists_eq_succ_of_ne_zero (show m ≠ 0 by omega)
  have : m.succ + d.succ - 1 = m + d.succ := by simp; omega
  rw [this, ← Nat.choose_symm_add]
  clear h1 h2 h3 this
  induction d with
  | zero => simp
  | succ d ih =>
    refine ih.trans ?_
    rw [show m + (d + 1).succ = (m + d.succ) + 1 by simp; omega]
    exact Nat.choose_le_succ _ _

theorem exists_enum {d m : ℕ} (h : Fits d m) :
    ∃ t, simplexEnum d m = some t ∧ t.jdx = simplexIter d m ∧
      (∀ j p, (simplexIter d m)[j]? = some p → t.idx p = j) ∧
      (∀ p, p ∈ simplexIter d m → t.idx p < t.jdx.length ∧ t.jdx[t.idx p]? = some p) := by
  have hm := h.m_le
  obtain ⟨h1, h2, h3⟩ := h
  have hne := simplexIter_ne_nil (d := d) h2
  have hj : (simplexIter d m).map (fun i => i.map u16) = simplexIter d m := by
    conv_rhs => rw [← List.map_id (simplexIter d m)]
    apply List.map_congr_left
    intro p hp
    rw [mem_simplexIter] at hp
    have hs : p.sum < m := by omega
    conv_rhs => rw [id, ← List.map_id p]
    apply List.map_congr_left
    intro x hx
    have : x ≤ p.sum := List.single_le_sum (by simp) x hx
    simp [u16]; omega
  have hlen : (simplexIter d m).length ≤ 65536 := by rw [length_simplexIter]; exact h3
  have hi : ∀ j p, (simplexIter d m)[j]? = some p →
      ((simplexIter d m).zipIdx.foldl (fun f ij => Function.update f ij.1 (u16 ij.2))
        fun _ => 0) p = j := by
    intro j p hp
    rw [foldl_update_zipIdx u16 _ (nodup_simplexIter d m) _ _ j p hp]
    obtain ⟨hlt, hpe⟩ := List.getElem?_eq_some_iff.mp hp
    simp [u16]; omega
  refine ⟨⟨_, _⟩, by
    unfold simplexEnum
    simp only
    rw [if_neg hne, if_neg (by rw [length_simplexIter, simplexSize_eq]; simp)], hj, hi, ?_⟩
  · intro p hp
    obtain ⟨j, hlt, hpe⟩ := List.mem_iff_getElem.mp hp
    have hq : (simplexIter d m)[j]? = some p := by rw [List.getElem?_eq_getElem hlt, hpe]
    simp only [hj]
    rw [hi j p hq]
    exact ⟨hlt, hq⟩

end RayOpt.Simplex
