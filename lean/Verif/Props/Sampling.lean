import Verif.Model.Sampling
import Mathlib.Tactic.LinearCombination
import Mathlib.Tactic.Positivity
import Mathlib.Tactic.Linarith
import Mathlib.Tactic.FieldSimp
import Mathlib.Tactic.IntervalCases
import Mathlib.Analysis.Real.Pi.Bounds

/-!
Properties C36 and C64: pupil sampling.
-/

namespace RayOpt

namespace Sampling

theorem linspace_getElem? (a b : ℝ) (num i : ℕ) (h : i < num) :
    (linspace a b num)[i]? = some (a + i * ((b - a) / (num - 1 : ℕ))) := by
  simp [linspace, h]

theorem mem_linspace {a b : ℝ} (hab : a ≤ b) {num : ℕ} {x : ℝ} (h : x ∈ linspace a b num) :
    a ≤ x ∧ x ≤ b := by
  simp only [linspace, List.mem_map, List.mem_range] at h
  obtain ⟨i, hi, rfl⟩ := h
  have h0 : 0 ≤ b - a := by linarith
  have hle : (i : ℝ) ≤ (num - 1 : ℕ) := by exact_mod_cast (by omega : i ≤ num - 1)
  constructor
  · have : 0 ≤ (i : ℝ) * ((b - a) / (num - 1 : ℕ)) := by positivity
    linarith
  · rcases Nat.eq_zero_or_pos (num - 1) with h1 | h1
    · rw [h1]; simp; linarith
    · have hp : (0 : ℝ) < (num - 1 : ℕ) := by exact_mod_cast h1
      have : (i : ℝ) * ((b - a) / (num - 1 : ℕ)) ≤ (num - 1 : ℕ) * ((b - a) / (num - 1 : ℕ)) :=
        mul_le_mul_of_nonneg_right hle (by positivity)
      have e : ((num - 1 : ℕ) : ℝ) * ((b - a) / (num - 1 : ℕ)) = b - a := by field_simp
      linarith

/-- What the random numbers and quadrature nodes are assumed to be: `np.random.rand` gives numbers
in `[0, 1)`, and the nodes lie in `[-1, 1]`. -/
def Distribution.Ok : Distribution → Prop
  | .random rphi => ∀ t ∈ rphi, 0 ≤ t.1 ∧ t.1 < 1
  | .quadrature x _ => ∀ t ∈ x, -1 ≤ t ∧ t ≤ 1
  | _ => True

theorem sq_le_one_of {x : ℝ} (h : -1 ≤ x ∧ x ≤ 1) : x ^ 2 ≤ 1 := by nlinarith [h.1, h.2]

theorem mem_circle {x w : List ℝ} {t : ℝ × ℝ × ℝ} (h : t ∈ intervalToCircle x w) :
    ∃ y ∈ x, t.1 = Real.sqrt ((y + 1) / 2) := by
  unfold intervalToCircle at h
  cases x with
  | nil => simp at h
  | cons x0 xs =>
    cases w with
    | nil => simp at h
    | cons w0 ws =>
      simp only [List.map_cons] at h
      split_ifs at h with h0
      · simp only [List.mem_cons, List.mem_flatMap, List.mem_map] at h
        rcases h with rfl | ⟨⟨r, v⟩, hrv, p, _, rfl⟩
        · exact ⟨x0, by simp, rfl⟩
        · obtain ⟨y, hy, rfl⟩ := List.mem_map.mp (List.of_mem_zip hrv).1
          exact ⟨y, by simp [hy], rfl⟩
      · simp only [List.mem_flatMap, List.mem_map] at h
        obtain ⟨⟨r, v⟩, hrv, p, _, rfl⟩ := h
        have := (List.of_mem_zip hrv).1
        rw [← List.map_cons (f := fun x => Real.sqrt ((x + 1) / 2))] at this
        obtain ⟨y, hy, rfl⟩ := List.mem_map.mp this
        exact ⟨y, hy, rfl⟩

/-- The points of a line of `m + 1` points from `a` to `1`. -/
def OnLine (a : ℝ) (m : ℕ) (t : ℝ) : Prop := ∃ k : ℕ, k ≤ m ∧ t = a + (1 - a) * k / m

/-- The points each distribution is made of: lines with equal spacing, grids within the disc, rings. -/
def Distribution.Points (n : ℕ) : Distribution → Set (ℝ × ℝ)
  | .halfMeridional => {p | p.1 = 0 ∧ OnLine 0 (n - 1) p.2}
  | .meridional => {p | p.1 = 0 ∧ OnLine (-1) (2 * (n / 2)) p.2}
  | .sagittal => {p | p.2 = 0 ∧ OnLine (-1) (2 * (n / 2)) p.1}
  | .cross => {p | p.1 = 0 ∧ OnLine (-1) (2 * (n / 4)) p.2 ∨ p.2 = 0 ∧ OnLine (-1) (2 * (n / 4)) p.1}
  | .tee => {p | p.1 = 0 ∧ OnLine (-1) (2 * ((n - 2) / 3)) p.2 ∨ p.2 = 0 ∧ OnLine 0 ((n - 2) / 3) p.1}
  | .random rphi => {p | p = 0 ∨ ∃ r φ, (r, φ) ∈ rphi ∧ p.1 = √r * Real.cos (2 * Real.pi * φ) ∧
      p.2 = √r * Real.sin (2 * Real.pi * φ)}
  | .square => {p | p = 0 ∨ p.1 ^ 2 + p.2 ^ 2 ≤ 1 ∧ ∃ m : ℕ, (m + 1 : ℝ) ^ 2 ≤ 4 * n / Real.pi ∧
      4 * n / Real.pi < (m + 2 : ℝ) ^ 2 ∧ OnLine (-1) m p.1 ∧ OnLine (-1) m p.2}
  | .triangular => {p | p = 0 ∨ p.1 ^ 2 + p.2 ^ 2 ≤ 1 ∧ ∃ m j : ℕ, (m + 1 : ℝ) ^ 2 ≤ 4 * n / Real.pi ∧
      4 * n / Real.pi < (m + 2 : ℝ) ^ 2 ∧ j ≤ m ∧ p.2 = -1 + 2 * j / m ∧
      OnLine (-1) m (if j % 2 = 1 then p.1 - 2 / (m + 1) else p.1)}
  | .hexapolar => {p | p = 0 ∨ ∃ m i k : ℕ, 3 * m * (m + 1) + 1 ≤ n ∧ n < 3 * (m + 1) * (m + 2) + 1 ∧
      1 ≤ i ∧ i ≤ m ∧ k < 6 * i ∧ p.1 = i / m * Real.sin (2 * Real.pi * k / (6 * i)) ∧
      p.2 = i / m * Real.cos (2 * Real.pi * k / (6 * i))}
  | .quadrature x w => {p | ∃ t v, (t, v) ∈ x.zip w ∧ ∃ k < x.length,
      p.1 = √((t + 1) / 2) * Real.cos (Real.pi * ((k + 1 / 2) / x.length - 1 / 2)) ∧
      p.2 = √((t + 1) / 2) * Real.sin (Real.pi * ((k + 1 / 2) / x.length - 1 / 2))}

theorem mem_linspace_iff (a t : ℝ) (m : ℕ) : t ∈ linspace a 1 (m + 1) ↔ OnLine a m t := by
  simp only [linspace, List.mem_map, List.mem_range, OnLine, Nat.add_sub_cancel]
  constructor
  · rintro ⟨k, hk, rfl⟩
    exact ⟨k, by omega, by ring⟩
  · rintro ⟨k, hk, rfl⟩
    exact ⟨k, by omega, by ring⟩

theorem grid_size (n : ℕ) (hn : 2 ≤ n) : ∃ m : ℕ, ⌊Real.sqrt (n * 4 / Real.pi)⌋₊ = m + 1 ∧
    ∀ m' : ℕ, ((m' + 1 : ℝ) ^ 2 ≤ 4 * n / Real.pi ∧ 4 * n / Real.pi < (m' + 2 : ℝ) ^ 2) ↔ m' = m := by
  have hpi := Real.pi_pos
  have h4 := Real.pi_le_four
  have h2 : (2 : ℝ) ≤ n := by exact_mod_cast hn
  have e : (n : ℝ) * 4 / Real.pi = 4 * n / Real.pi := by ring
  rw [e]
  have h1 : 1 ≤ 4 * n / Real.pi := by rw [le_div_iff₀ hpi]; linarith
  have key : ∀ m' : ℕ, ((m' + 1 : ℝ) ^ 2 ≤ 4 * n / Real.pi ∧ 4 * n / Real.pi < (m' + 2 : ℝ) ^ 2) ↔
      ⌊Real.sqrt (4 * n / Real.pi)⌋₊ = m' + 1 := by
    intro m'
    rw [Nat.floor_eq_iff (Real.sqrt_nonneg _), Real.le_sqrt (by positivity) (by positivity),
      Real.sqrt_lt' (by positivity)]
    push_cast
    rw [show (m' : ℝ) + 1 + 1 = m' + 2 by ring]
  have hpos : 1 ≤ ⌊Real.sqrt (4 * n / Real.pi)⌋₊ := by
    rw [Nat.one_le_floor_iff, Real.one_le_sqrt]; exact h1
  obtain ⟨m, hm⟩ : ∃ m, ⌊Real.sqrt (4 * n / Real.pi)⌋₊ = m + 1 :=
    ⟨⌊Real.sqrt (4 * n / Real.pi)⌋₊ - 1, by omega⟩
  refine ⟨m, hm, fun m' => ?_⟩
  rw [key, hm]
  omega

/-- C36: every sampling point lies in the unit disc, for every distribution and ray count. -/
theorem c36_disc (d : Distribution) (hd : d.Ok) (n : ℕ) :
    ∀ p ∈ (pupilDistribution d n).2, p.1 ^ 2 + p.2 ^ 2 ≤ 1 := by
  intro p hp
  unfold pupilDistribution at hp
  by_cases h1 : n = 1
  · simp only [if_pos h1, List.mem_singleton] at hp
    subst hp; norm_num
  rw [if_neg h1] at hp
  have trig : ∀ r a : ℝ, r ^ 2 ≤ 1 → (r * Real.cos a) ^ 2 + (r * Real.sin a) ^ 2 ≤ 1 := by
    intro r a h
    calc _ = r ^ 2 := by linear_combination r ^ 2 * Real.sin_sq_add_cos_sq a
      _ ≤ 1 := h
  cases d with
  | halfMeridional =>
    obtain ⟨y, hy, rfl⟩ := List.mem_map.mp hp
    obtain ⟨a, b⟩ := mem_linspace zero_le_one hy
    simpa using sq_le_one_of ⟨by linarith, b⟩
  | meridional =>
    obtain ⟨y, hy, rfl⟩ := List.mem_map.mp hp
    simpa using sq_le_one_of (mem_linspace (by norm_num) hy)
  | sagittal =>
    obtain ⟨y, hy, rfl⟩ := List.mem_map.mp hp
    simpa using sq_le_one_of (mem_linspace (by norm_num) hy)
  | cross =>
    rcases List.mem_append.mp hp with hp | hp <;> obtain ⟨y, hy, rfl⟩ := List.mem_map.mp hp
    · simpa using sq_le_one_of (mem_linspace (by norm_num) hy)
    · simpa using sq_le_one_of (mem_linspace (by norm_num) hy)
  | tee =>
    rcases List.mem_append.mp hp with hp | hp <;> obtain ⟨y, hy, rfl⟩ := List.mem_map.mp hp
    · simpa using sq_le_one_of (mem_linspace (by norm_num) hy)
    · obtain ⟨a, b⟩ := mem_linspace zero_le_one hy
      simpa using sq_le_one_of ⟨by linarith, b⟩
  | random rphi =>
    rcases List.mem_cons.mp hp with rfl | hp
    · norm_num
    · obtain ⟨t, ht, rfl⟩ := List.mem_map.mp hp
      obtain ⟨a, b⟩ := hd t ht
      exact trig _ _ (by rw [Real.sq_sqrt a]; exact b.le)
  | square =>
    rcases List.mem_cons.mp hp with rfl | hp
    · norm_num
    · simpa [clip] using (List.mem_filter.mp hp).2
  | triangular =>
    rcases List.mem_cons.mp hp with rfl | hp
    · norm_num
    · simpa [clip] using (List.mem_filter.mp hp).2
  | hexapolar =>
    rcases List.mem_cons.mp hp with rfl | hp
    · norm_num
    · simp only [List.mem_flatMap, List.mem_map, List.mem_range] at hp
      obtain ⟨i, hi, k, hk, rfl⟩ := hp
      generalize ⌊Real.sqrt (n / 3 - 1 / 12) - 1 / 2⌋₊ = N at *
      generalize 2 * Real.pi * (k : ℝ) / (6 * (i + 1) : ℕ) = a
      have hN : (0 : ℝ) < N := by exact_mod_cast (by omega : 0 < N)
      have hle : ((i + 1 : ℕ) : ℝ) / N ≤ 1 := by
        rw [div_le_one hN]; exact_mod_cast hi
      have h0 : (0 : ℝ) ≤ ((i + 1 : ℕ) : ℝ) / N := by positivity
      have := trig (((i + 1 : ℕ) : ℝ) / N) a (sq_le_one_of ⟨by linarith, hle⟩)
      calc _ = _ := by ring
        _ ≤ 1 := this
  | quadrature x w =>
    obtain ⟨t, ht, rfl⟩ := List.mem_map.mp hp
    obtain ⟨y, hy, e⟩ := mem_circle ht
    obtain ⟨a, b⟩ := hd y hy
    exact trig _ _ (by rw [e, Real.sq_sqrt (by linarith)]; linarith)

/-- The distributions for which the reference index is right. -/
def Distribution.RefOk (n : ℕ) : Distribution → Prop
  | .meridional => n = 1
  | .cross => n = 1 ∨ 4 ≤ n
  | .quadrature x w => x.head? = some (-1) ∧ w ≠ []
  | _ => True

/-- C36: the reference index addresses the ray through the pupil centre. -/
theorem c36_reference (d : Distribution) (n : ℕ) (hn : 1 ≤ n) (hd : d.RefOk n) :
    (pupilDistribution d n).2[(pupilDistribution d n).1]? = some (0, 0) := by
  unfold pupilDistribution
  by_cases h1 : n = 1
  · simp [h1]
  rw [if_neg h1]
  cases d with
  | halfMeridional => simp [linspace_getElem? 0 1 n 0 (by omega)]
  | meridional => exact absurd hd h1
  | sagittal =>
    simp only [List.getElem?_map]
    rw [linspace_getElem? _ _ _ _ (by omega)]
    have h2 : n - n % 2 = 2 * (n / 2) := by omega
    have h3 : (n / 2 : ℕ) ≠ 0 := by omega
    have h4 : ((n / 2 : ℕ) : ℝ) ≠ 0 := by exact_mod_cast h3
    rw [h2]
    simp only [Nat.mul_div_cancel_left _ (by norm_num : 0 < 2), Option.map_some, Nat.add_sub_cancel,
      Nat.cast_mul, Nat.cast_ofNat]
    congr 2
    field_simp
    norm_num
  | cross =>
    have h5 : 4 ≤ n := hd.resolve_left h1
    have h2 : n - n % 4 = 4 * (n / 4) := by omega
    have h3 : (n / 4 : ℕ) ≠ 0 := by omega
    have h4 : ((n / 4 : ℕ) : ℝ) ≠ 0 := by exact_mod_cast h3
    rw [h2]
    have h6 : 4 * (n / 4) / 4 = n / 4 := by omega
    have h7 : 4 * (n / 4) / 2 = 2 * (n / 4) := by omega
    simp only [h6, h7]
    rw [List.getElem?_append_left (by simp [linspace]; omega), List.getElem?_map,
      linspace_getElem? _ _ _ _ (by omega)]
    simp only [Option.map_some, Nat.add_sub_cancel, Nat.cast_mul, Nat.cast_ofNat]
    congr 2
    field_simp
    norm_num
  | tee =>
    simp only
    rw [List.getElem?_append_right (by simp [linspace])]
    simp [linspace]
  | random => simp
  | square => simp
  | triangular => simp
  | hexapolar => simp
  | quadrature x w =>
    obtain ⟨h1, h2⟩ := hd
    cases x with
    | nil => simp at h1
    | cons x0 xs =>
      cases w with
      | nil => exact absurd rfl h2
      | cons w0 ws =>
        simp only [List.head?_cons, Option.some.injEq] at h1
        subst h1
        simp [intervalToCircle]

/-- C36, violation: the reference of the meridional distribution is the edge ray. -/
theorem c36_meridional_violation (n : ℕ) (hn : 2 ≤ n) :
    (pupilDistribution .meridional n).2[(pupilDistribution .meridional n).1]? = some (0, -1) := by
  unfold pupilDistribution
  rw [if_neg (by omega)]
  simp [linspace_getElem? (-1) 1 _ 0 (Nat.succ_pos _)]

/-- C36, violation: with two or three rays the cross has no centre ray at all. -/
theorem c36_cross_violation (n : ℕ) (hn : n = 2 ∨ n = 3) :
    (0, 0) ∉ (pupilDistribution .cross n).2 := by
  rcases hn with rfl | rfl <;> simp [pupilDistribution, linspace]

theorem rings (n : ℕ) (hn : 2 ≤ n) : let m := ⌊Real.sqrt (n / 3 - 1 / 12) - 1 / 2⌋₊
    3 * m * (m + 1) + 1 ≤ n ∧ n < 3 * (m + 1) * (m + 2) + 1 := by
  intro m
  have hn2 : (2 : ℝ) ≤ n := by exact_mod_cast hn
  have hpos : (0 : ℝ) ≤ n / 3 - 1 / 12 := by linarith
  have hs := Real.sq_sqrt hpos
  have hs0 := Real.sqrt_nonneg ((n : ℝ) / 3 - 1 / 12)
  have hge : 0 ≤ Real.sqrt (n / 3 - 1 / 12) - 1 / 2 := by nlinarith
  have a : (m : ℝ) ≤ _ := Nat.floor_le hge
  have b : _ < (m : ℝ) + 1 := Nat.lt_floor_add_one (Real.sqrt (n / 3 - 1 / 12) - 1 / 2)
  clear_value m
  generalize Real.sqrt ((n : ℝ) / 3 - 1 / 12) = s at *
  have hm : (0 : ℝ) ≤ m := Nat.cast_nonneg m
  constructor
  · have : ((3 * m * (m + 1) + 1 : ℕ) : ℝ) ≤ n := by push_cast; nlinarith
    exact_mod_cast this
  · have : (n : ℝ) < ((3 * (m + 1) * (m + 2) + 1 : ℕ) : ℝ) := by push_cast; nlinarith
    exact_mod_cast this

/-- C36: the hexapolar grid has `3 m (m+1) + 1` points, where `m` is the largest number of rings for
which this does not exceed the number of rays asked for. -/
theorem c36_hexapolar (n : ℕ) (hn : 1 ≤ n) : ∃ m,
    (pupilDistribution .hexapolar n).2.length = 3 * m * (m + 1) + 1 ∧
    3 * m * (m + 1) + 1 ≤ n ∧ n < 3 * (m + 1) * (m + 2) + 1 := by
  by_cases h1 : n = 1
  · subst h1; exact ⟨0, by simp [pupilDistribution], by norm_num, by norm_num⟩
  refine ⟨⌊Real.sqrt (n / 3 - 1 / 12) - 1 / 2⌋₊, ?_, ?_⟩
  · unfold pupilDistribution
    rw [if_neg h1]
    simp only [List.length_cons, List.length_flatMap, List.length_map, List.length_range]
    generalize ⌊Real.sqrt (n / 3 - 1 / 12) - 1 / 2⌋₊ = m
    congr 1
    induction m with
    | zero => simp
    | succ m ih => rw [List.range_succ]; simp [ih]; ring
  · exact rings n (by omega)

/-- C36: the points of every distribution with two or more rays. -/
theorem c36_points (d : Distribution) (n : ℕ) (hn : 2 ≤ n) (p : ℝ × ℝ) :
    p ∈ (pupilDistribution d n).2 ↔ p ∈ d.Points n := by
  obtain ⟨u, v⟩ := p
  unfold pupilDistribution
  rw [if_neg (by omega)]
  have e2 : n - n % 2 = 2 * (n / 2) := by omega
  have e4 : (n - n % 4) / 2 = 2 * (n / 4) := by omega
  cases d with
  | halfMeridional =>
    obtain ⟨k, rfl⟩ : ∃ k, n = k + 1 := ⟨n - 1, by omega⟩
    simp only [List.mem_map, mem_linspace_iff, Distribution.Points, Set.mem_setOf_eq, Prod.mk.injEq,
      Nat.add_sub_cancel]
    exact ⟨fun ⟨y, hy, h1, h2⟩ => ⟨h1.symm, h2 ▸ hy⟩, fun ⟨h1, h2⟩ => ⟨v, h2, h1.symm, rfl⟩⟩
  | meridional =>
    simp only [List.mem_map, e2, mem_linspace_iff, Distribution.Points, Set.mem_setOf_eq, Prod.mk.injEq]
    exact ⟨fun ⟨y, hy, h1, h2⟩ => ⟨h1.symm, h2 ▸ hy⟩, fun ⟨h1, h2⟩ => ⟨v, h2, h1.symm, rfl⟩⟩
  | sagittal =>
    simp only [List.mem_map, e2, mem_linspace_iff, Distribution.Points, Set.mem_setOf_eq, Prod.mk.injEq]
    exact ⟨fun ⟨y, hy, h1, h2⟩ => ⟨h2.symm, h1 ▸ hy⟩, fun ⟨h1, h2⟩ => ⟨u, h2, rfl, h1.symm⟩⟩
  | cross =>
    simp only [List.mem_append, List.mem_map, e4, mem_linspace_iff, Distribution.Points,
      Set.mem_setOf_eq, Prod.mk.injEq]
    exact or_congr
      ⟨fun ⟨y, hy, h1, h2⟩ => ⟨h1.symm, h2 ▸ hy⟩, fun ⟨h1, h2⟩ => ⟨v, h2, h1.symm, rfl⟩⟩
      ⟨fun ⟨y, hy, h1, h2⟩ => ⟨h2.symm, h1 ▸ hy⟩, fun ⟨h1, h2⟩ => ⟨u, h2, rfl, h1.symm⟩⟩
  | tee =>
    simp only [List.mem_append, List.mem_map, mem_linspace_iff, Distribution.Points,
      Set.mem_setOf_eq, Prod.mk.injEq]
    exact or_congr
      ⟨fun ⟨y, hy, h1, h2⟩ => ⟨h1.symm, h2 ▸ hy⟩, fun ⟨h1, h2⟩ => ⟨v, h2, h1.symm, rfl⟩⟩
      ⟨fun ⟨y, hy, h1, h2⟩ => ⟨h2.symm, h1 ▸ hy⟩, fun ⟨h1, h2⟩ => ⟨u, h2, rfl, h1.symm⟩⟩
  | random rphi =>
    simp only [List.mem_cons, List.mem_map, Distribution.Points, Set.mem_setOf_eq, Prod.mk.injEq,
      Prod.exists]
    refine or_congr (by rw [Prod.ext_iff]; rfl) ?_
    exact ⟨fun ⟨r, φ, h, h1, h2⟩ => ⟨r, φ, h, h1.symm, h2.symm⟩,
      fun ⟨r, φ, h, h1, h2⟩ => ⟨r, φ, h, h1.symm, h2.symm⟩⟩
  | square =>
    obtain ⟨m, hm, hu⟩ := grid_size n hn
    simp only [hm, gridAxis, clip, List.mem_cons, List.mem_filter, List.mem_flatMap, List.mem_map,
      mem_linspace_iff, Distribution.Points, Set.mem_setOf_eq, Prod.mk.injEq, decide_eq_true_eq]
    refine or_congr (by rw [Prod.ext_iff]; rfl) ?_
    constructor
    · rintro ⟨⟨x, hx, y, hy, rfl, rfl⟩, h⟩
      have := (hu m).mpr rfl
      exact ⟨h, m, this.1, this.2, hx, hy⟩
    · rintro ⟨h, m', h1, h2, hx, hy⟩
      obtain rfl := (hu m').mp ⟨h1, h2⟩
      exact ⟨⟨u, hx, v, hy, rfl, rfl⟩, h⟩
  | triangular =>
    obtain ⟨m, hm, hu⟩ := grid_size n hn
    have hz : ∀ y : ℝ × ℕ, y ∈ (gridAxis (m + 1)).zip (List.range (m + 1)) ↔
        y.2 ≤ m ∧ y.1 = -1 + 2 * y.2 / m := by
      rintro ⟨y, j⟩
      rw [gridAxis, linspace, ← List.map_id (List.range (m + 1)), List.map_map, List.zip_map']
      simp only [List.mem_map, List.mem_range, Prod.mk.injEq, Function.comp_apply, id,
        Nat.add_sub_cancel]
      constructor
      · rintro ⟨k, hk, rfl, rfl⟩
        exact ⟨by omega, by ring⟩
      · rintro ⟨h1, rfl⟩
        exact ⟨j, by omega, by ring, rfl⟩
    simp only [hm, clip, List.mem_cons, List.mem_filter, List.mem_flatMap, List.mem_map, hz,
      Distribution.Points, Set.mem_setOf_eq, Prod.mk.injEq, decide_eq_true_eq, Prod.exists]
    simp only [gridAxis, mem_linspace_iff]
    refine or_congr (by rw [Prod.ext_iff]; rfl) ?_
    constructor
    · rintro ⟨⟨x, hx, y, j, ⟨hj, hy⟩, rfl, rfl⟩, h⟩
      have := (hu m).mpr rfl
      refine ⟨h, m, j, this.1, this.2, hj, hy, ?_⟩
      rcases Nat.mod_two_eq_zero_or_one j with e | e
      · simp [e, hx]
      · simp [e, hx]
    · rintro ⟨h, m', j, h1, h2, hj, hy, hx⟩
      obtain rfl := (hu m').mp ⟨h1, h2⟩
      refine ⟨⟨_, hx, v, j, ⟨hj, hy⟩, ?_, rfl⟩, h⟩
      rcases Nat.mod_two_eq_zero_or_one j with e | e
      · simp [e]
      · simp [e]
  | hexapolar =>
    obtain ⟨m, hm, hu⟩ : ∃ m, ⌊Real.sqrt (n / 3 - 1 / 12) - 1 / 2⌋₊ = m ∧
        ∀ m' : ℕ, (3 * m' * (m' + 1) + 1 ≤ n ∧ n < 3 * (m' + 1) * (m' + 2) + 1) ↔ m' = m := by
      have h := rings n hn
      refine ⟨_, rfl, fun m' => ⟨fun h' => ?_, fun h' => h' ▸ h⟩⟩
      generalize ⌊Real.sqrt (n / 3 - 1 / 12) - 1 / 2⌋₊ = m at h
      rcases lt_trichotomy m' m with hl | he | hl
      · nlinarith [h.1, h'.2, Nat.succ_le_of_lt hl]
      · exact he
      · nlinarith [h.2, h'.1, Nat.succ_le_of_lt hl]
    simp only [hm, List.mem_cons, List.mem_flatMap, List.mem_map, List.mem_range,
      Distribution.Points, Set.mem_setOf_eq, Prod.mk.injEq]
    refine or_congr (by rw [Prod.ext_iff]; rfl) ?_
    have := (hu m).mpr rfl
    constructor
    · rintro ⟨i, hi, k, hk, rfl, rfl⟩
      refine ⟨m, i + 1, k, this.1, this.2, by omega, by omega, hk, ?_, ?_⟩ <;> push_cast <;> ring
    · rintro ⟨m', i, k, h1, h2, hi, him, hk, h3, h4⟩
      obtain rfl := (hu m').mp ⟨h1, h2⟩
      obtain ⟨i, rfl⟩ : ∃ i', i = i' + 1 := ⟨i - 1, by omega⟩
      push_cast at h3 h4
      refine ⟨i, by omega, k, hk, ?_, ?_⟩
      · rw [h3]; push_cast; ring
      · rw [h4]; push_cast; ring
  | quadrature x w =>
    have hz : ∀ (xs ws : List ℝ) (q : ℝ × ℝ), q ∈ (xs.map fun x => √((x + 1) / 2)).zip ws ↔
        ∃ t v, (t, v) ∈ xs.zip ws ∧ q = (√((t + 1) / 2), v) := by
      intro xs ws q
      rw [List.zip_map_left, List.mem_map]
      constructor
      · rintro ⟨⟨t, v⟩, h, rfl⟩; exact ⟨t, v, h, rfl⟩
      · rintro ⟨t, v, h, rfl⟩; exact ⟨(t, v), h, rfl⟩
    simp only [List.mem_map, Distribution.Points, Set.mem_setOf_eq, intervalToCircle]
    rcases x with _ | ⟨x0, xs⟩
    · simp
    rcases w with _ | ⟨w0, ws⟩
    · simp
    simp only [List.map_cons]
    have hgen : ∀ t v, (t, v) ∈ (x0 :: xs).zip (w0 :: ws) ↔ (t = x0 ∧ v = w0) ∨ (t, v) ∈ xs.zip ws := by
      intro t v; simp
    split_ifs with h0
    · constructor
      · rintro ⟨t, ht, h⟩
        rw [List.mem_cons] at ht
        rcases ht with rfl | ht
        · refine ⟨x0, w0, (hgen _ _).mpr (Or.inl ⟨rfl, rfl⟩), 0, by simp, ?_⟩
          simp only [Prod.mk.injEq] at h
          rw [h0] at h ⊢
          simp at h ⊢
          exact ⟨h.1.symm, h.2.symm⟩
        · obtain ⟨q, hq, ht⟩ := List.mem_flatMap.mp ht
          obtain ⟨t', v', hm, rfl⟩ := (hz _ _ _).mp hq
          simp only [List.mem_map, List.mem_range] at ht
          obtain ⟨a, ⟨k, hk, rfl⟩, rfl⟩ := ht
          simp only [Prod.mk.injEq] at h
          exact ⟨t', v', (hgen _ _).mpr (Or.inr hm), k, hk, h.1.symm, h.2.symm⟩
      · rintro ⟨t, v, hm, k, hk, h1, h2⟩
        rcases (hgen _ _).mp hm with ⟨rfl, rfl⟩ | hm
        · refine ⟨_, List.mem_cons_self, ?_⟩
          rw [h0] at h1 h2 ⊢
          simp at h1 h2 ⊢
          exact ⟨h1.symm, h2.symm⟩
        · refine ⟨_, List.mem_cons_of_mem _ (List.mem_flatMap.mpr ⟨_, (hz _ _ _).mpr ⟨t, v, hm, rfl⟩,
            List.mem_map.mpr ⟨_, List.mem_map.mpr ⟨k, List.mem_range.mpr hk, rfl⟩, rfl⟩⟩), ?_⟩
          simp only [Prod.mk.injEq]
          exact ⟨h1.symm, h2.symm⟩
    · constructor
      · rintro ⟨t, ht, h⟩
        obtain ⟨q, hq, ht⟩ := List.mem_flatMap.mp ht
        rw [← List.map_cons (f := fun x => √((x + 1) / 2))] at hq
        obtain ⟨t', v', hm, rfl⟩ := (hz _ _ _).mp hq
        simp only [List.mem_map, List.mem_range] at ht
        obtain ⟨a, ⟨k, hk, rfl⟩, rfl⟩ := ht
        simp only [Prod.mk.injEq] at h
        exact ⟨t', v', hm, k, hk, h.1.symm, h.2.symm⟩
      · rintro ⟨t, v, hm, k, hk, h1, h2⟩
        refine ⟨_, List.mem_flatMap.mpr ⟨(√((t + 1) / 2), v), ?_,
            List.mem_map.mpr ⟨_, List.mem_map.mpr ⟨k, List.mem_range.mpr hk, rfl⟩, rfl⟩⟩, ?_⟩
        · rw [← List.map_cons (f := fun x => √((x + 1) / 2))]
          exact (hz _ _ _).mpr ⟨t, v, hm, rfl⟩
        · simp only [Prod.mk.injEq]
          exact ⟨h1.symm, h2.symm⟩

/-- C36: how many points the lines, crosses and random samples have. -/
theorem c36_count (n : ℕ) (hn : 2 ≤ n) :
    (pupilDistribution .halfMeridional n).2.length = n ∧
    (pupilDistribution .meridional n).2.length = 2 * (n / 2) + 1 ∧
    (pupilDistribution .sagittal n).2.length = 2 * (n / 2) + 1 ∧
    (pupilDistribution .cross n).2.length = 4 * (n / 4) + 2 ∧
    (pupilDistribution .tee n).2.length = 3 * ((n - 2) / 3) + 2 ∧
    (∀ rphi, (pupilDistribution (.random rphi) n).2.length = rphi.length + 1) := by
  have h1 : n ≠ 1 := by omega
  refine ⟨?_, ?_, ?_, ?_, ?_, ?_⟩ <;>
    simp only [pupilDistribution, h1, if_false, linspace, List.length_map, List.length_append,
      List.length_range, List.length_cons] <;> first | omega | exact fun _ => trivial | rfl

/-- C36, violation: the triangular grid is not regular.  With eight rays its rows are `y = -1, 0, 1`
with spacing one, and `(0, 1)` is not above the middle of its neighbours `(-1/3, 0)` and `(2/3, 0)`. -/
theorem c36_triangular_violation (p : ℝ × ℝ) : p ∈ (pupilDistribution .triangular 8).2 ↔
    p = (0, 0) ∨ p = (0, -1) ∨ p = (0, 1) ∨ p = (-1 / 3, 0) ∨ p = (2 / 3, 0) := by
  have hpi := Real.pi_pos
  have h4 : Real.pi < 32 / 9 := by linarith [Real.pi_lt_d2]
  have h2 := Real.pi_gt_three
  obtain ⟨x, y⟩ := p
  rw [c36_points _ _ (by norm_num)]
  simp only [Distribution.Points, Set.mem_setOf_eq, Prod.mk.injEq, OnLine]
  have hm : ∀ m : ℕ, (m + 1 : ℝ) ^ 2 ≤ 4 * (8 : ℕ) / Real.pi → 4 * (8 : ℕ) / Real.pi < (m + 2 : ℝ) ^ 2 →
      m = 2 := by
    intro m a b
    rw [le_div_iff₀ hpi] at a
    rw [div_lt_iff₀ hpi] at b
    push_cast at a b
    have : m ≤ 2 := by
      by_contra hc
      have h3 : (3 : ℝ) ≤ m := by exact_mod_cast (by omega : 3 ≤ m)
      nlinarith
    have : 2 ≤ m := by
      by_contra hc
      have h3 : (m : ℝ) ≤ 1 := by exact_mod_cast (by omega : m ≤ 1)
      have h0 : (0 : ℝ) ≤ m := by positivity
      nlinarith
    omega
  constructor
  · rintro (h | ⟨hd, m, j, a, b, hj, rfl, k, hk, hx⟩)
    · left; exact ⟨congrArg Prod.fst h, congrArg Prod.snd h⟩
    · obtain rfl := hm m a b
      clear a b hm
      have hx' : x = (if j % 2 = 1 then 2 / 3 else 0) + (-1 + k) := by
        split_ifs at hx ⊢ <;> push_cast at hx <;> linarith
      clear hx
      subst hx'
      interval_cases j <;> interval_cases k <;> first | (exfalso; norm_num at hd; done) | norm_num
  · have ha : ((2 : ℕ) + 1 : ℝ) ^ 2 ≤ 4 * (8 : ℕ) / Real.pi := by
      rw [le_div_iff₀ hpi]; norm_num; linarith
    have hb : 4 * (8 : ℕ) / Real.pi < ((2 : ℕ) + 2 : ℝ) ^ 2 := by
      rw [div_lt_iff₀ hpi]; norm_num; linarith
    rintro (⟨rfl, rfl⟩ | ⟨rfl, rfl⟩ | ⟨rfl, rfl⟩ | ⟨rfl, rfl⟩ | ⟨rfl, rfl⟩)
    · exact Or.inl rfl
    · exact Or.inr ⟨by norm_num, 2, 0, ha, hb, by norm_num, by norm_num, 1, by norm_num, by norm_num⟩
    · exact Or.inr ⟨by norm_num, 2, 2, ha, hb, by norm_num, by norm_num, 1, by norm_num, by norm_num⟩
    · exact Or.inr ⟨by norm_num, 2, 1, ha, hb, by norm_num, by norm_num, 0, by norm_num, by norm_num⟩
    · exact Or.inr ⟨by norm_num, 2, 1, ha, hb, by norm_num, by norm_num, 1, by norm_num, by norm_num⟩

example : (Distribution.quadrature [-1, 1 / 3] [1 / 2, 3 / 2]).Ok ∧
    (Distribution.quadrature [-1, 1 / 3] [1 / 2, 3 / 2]).RefOk 3 ∧
    (Distribution.random [(1 / 2, 1 / 3)]).Ok := by
  simp [Distribution.Ok, Distribution.RefOk]; norm_num

/-! ## C64: quadrature on the disc -/

theorem sum_spread (F : ℝ → ℝ) (p : List ℝ) (m : ℕ) (hm : p.length = m) (h0 : m ≠ 0) (r : ℝ)
    (w : ℝ) : ((p.map fun p => ((r, p, w / m / 2) : ℝ × ℝ × ℝ)).map fun t => t.2.2 * F t.1).sum
      = w / 2 * F r := by
  have : (m : ℝ) ≠ 0 := by exact_mod_cast h0
  simp [Function.comp_def, hm]
  field_simp

theorem sum_flat (F : ℝ → ℝ) (p : List ℝ) (m : ℕ) (hm : p.length = m) (h0 : m ≠ 0)
    (l : List (ℝ × ℝ)) :
    ((l.flatMap fun rw => p.map fun p => ((rw.1, p, rw.2 / m / 2) : ℝ × ℝ × ℝ)).map
      fun t => t.2.2 * F t.1).sum = (l.map fun rw => rw.2 / 2 * F rw.1).sum := by
  induction l with
  | nil => simp
  | cons a l ih =>
    rw [List.flatMap_cons, List.map_append, List.sum_append, ih, sum_spread F p m hm h0]
    simp

/-- C64: the disc rule gives a rotationally symmetric integrand the value of the interval rule after
the substitution `x = 2 r² - 1`, whether or not the first node is the disc centre.  So a rule that is
exact on `[-1, 1]` for polynomials of degree `k` averages polynomials of degree `k` in `r²` exactly
over the disc. -/
theorem c64_radial (x w : List ℝ) (h : x.length = w.length) (F : ℝ → ℝ) :
    ((intervalToCircle x w).map fun t => t.2.2 * F t.1).sum =
      ((x.zip w).map fun xw => xw.2 / 2 * F (Real.sqrt ((xw.1 + 1) / 2))).sum := by
  have hz : ∀ (xs ws : List ℝ),
      (((xs.map fun x => Real.sqrt ((x + 1) / 2)).zip ws).map fun rw => rw.2 / 2 * F rw.1)
        = (xs.zip ws).map fun xw => xw.2 / 2 * F (Real.sqrt ((xw.1 + 1) / 2)) := by
    intro xs
    induction xs with
    | nil => simp
    | cons a xs ih =>
      intro ws
      cases ws with
      | nil => simp
      | cons b ws => simp only [List.map_cons, List.zip_cons_cons, ih]
  unfold intervalToCircle
  cases x with
  | nil => simp
  | cons x0 xs =>
    cases w with
    | nil => simp at h
    | cons w0 ws =>
      simp only [List.map_cons]
      split_ifs with h0
      · rw [List.map_cons, List.sum_cons, sum_flat F _ _ (by simp) (by simp), hz]
        simp
      · rw [sum_flat F _ _ (by simp) (by simp),
          ← List.map_cons (f := fun x => Real.sqrt ((x + 1) / 2)), hz]

/-- C64: the weights sum to one, as asserted by the code, exactly if the interval weights sum to
two. -/
theorem c64_weights (x w : List ℝ) (h : x.length = w.length) :
    weightSum (intervalToCircle x w) = w.sum / 2 := by
  have := c64_radial x w h fun _ => 1
  simp only [mul_one] at this
  rw [weightSum, this]
  clear this
  induction x generalizing w with
  | nil => cases w with
    | nil => simp
    | cons => simp at h
  | cons a x ih => cases w with
    | nil => simp at h
    | cons b w =>
      simp only [List.length_cons, Nat.add_right_cancel_iff] at h
      rw [List.zip_cons_cons, List.map_cons, List.sum_cons, ih w h, List.sum_cons]; ring

/-- C64: the number of points: `n²` without and `(n-1)² + (n-1) + 1` with a centre node. -/
theorem c64_count (x w : List ℝ) (h : x.length = w.length) (hx : ∀ t ∈ x, -1 ≤ t) :
    (intervalToCircle x w).length =
      if x.head? = some (-1) then x.length * (x.length - 1) + 1 else x.length ^ 2 := by
  have hf : ∀ (l : List (ℝ × ℝ)) (p : List ℝ) (m : ℝ), (l.flatMap fun rw : ℝ × ℝ => p.map fun p =>
      ((rw.1, p, rw.2 / m / 2) : ℝ × ℝ × ℝ)).length = l.length * p.length := by
    intro l p m
    simp [List.length_flatMap]
  unfold intervalToCircle
  cases x with
  | nil => simp
  | cons x0 xs =>
    cases w with
    | nil => simp at h
    | cons w0 ws =>
      simp only [List.length_cons, Nat.add_right_cancel_iff] at h
      have hx0 := hx x0 (by simp)
      simp only [List.map_cons]
      have e : Real.sqrt ((x0 + 1) / 2) = 0 ↔ x0 = -1 := by
        rw [Real.sqrt_eq_zero (by linarith)]
        constructor <;> intro h <;> linarith
      by_cases h0 : x0 = -1
      · rw [if_pos (e.mpr h0), if_pos (by simp [h0]), List.length_cons, hf]
        simp [h, mul_comm]
      · rw [if_neg (fun h => h0 (e.mp h)), if_neg (by simpa using h0), hf]
        simp [h]; ring

example : (2 : ℕ) = [1 / 2, 3 / 2].length ∧ ([1 / 2, 3 / 2] : List ℝ).sum = 2 := by
  constructor
  · rfl
  · norm_num

end Sampling

end RayOpt
