import Verif.Model.Solve
import Verif.Lemmas.Trace
import Mathlib.Tactic

/-!
Properties C30, C31: the one-dimensional solvers of ray aiming.
-/

namespace RayOpt

open Solve

/-! ## C30 -/

/-- What an outcome of the bracketing solver may be. -/
def BrentOk (merit : ℝ → Option ℝ) (tol : ℝ) : Outcome (ℝ × ℝ) → Prop
  | .accept x => ∃ f, merit x = some f ∧ |f| ≤ tol
  | .call (a, b) => ∃ fa fb, merit a = some fa ∧ merit b = some fb ∧ fa < -tol ∧ tol < fb
  | .fail _ => True

theorem bracket_spec (merit : ℝ → Option ℝ) (tol : ℝ) (k : ℕ) (a b : ℝ) :
    (∀ x, bracket merit tol k a b = .accept x → ∃ f, merit x = some f ∧ |f| ≤ tol) ∧
    ∀ a' b' last, bracket merit tol k a b = .found a' b' last →
      (∃ fb, merit b' = some fb ∧ tol < fb) ∧
      (a' = a ∨ ∃ fa, merit a' = some fa ∧ fa < -tol) := by
  induction k generalizing a b with
  | zero => simp [bracket]
  | succ k ih =>
    unfold bracket
    cases hb : merit b with
    | none => exact ih a (b / 2)
    | some fb =>
      simp only
      split
      · rename_i h
        constructor
        · intro x hx; cases hx; exact ⟨fb, hb, h⟩
        · intro a' b' last h; cases h
      · rename_i h
        rw [not_le] at h
        split
        · rename_i hneg
          obtain ⟨h1, h2⟩ := ih b (b * (1 - fb))
          refine ⟨h1, fun a' b' last hf => ?_⟩
          obtain ⟨h3, h4⟩ := h2 a' b' last hf
          refine ⟨h3, ?_⟩
          rcases h4 with rfl | h4
          · right
            rw [abs_of_neg hneg] at h
            exact ⟨fb, hb, by linarith⟩
          · exact .inr h4
        · rename_i hneg
          constructor
          · intro x hx; cases hx
          · intro a' b' last hf
            cases hf
            rw [not_lt] at hneg
            rw [abs_of_nonneg hneg] at h
            exact ⟨⟨fb, hb, h⟩, .inl rfl⟩

/-- C30: whatever the merit function, the start, the tolerance and the iteration limit,
`solve_brentq` accepts only points with `|merit| ≤ tol` and calls the root finder only with a
bracket whose ends have merits below `-tol` and above `tol`. -/
theorem c30_outcome (merit : ℝ → Option ℝ) (a b tol : ℝ) (maxiter : ℕ) :
    BrentOk merit tol (Solve.brentq merit a b tol maxiter) := by
  unfold Solve.brentq
  obtain ⟨h1, h2⟩ := bracket_spec merit tol maxiter a b
  split
  · trivial
  · cases hb : bracket merit tol maxiter a b with
    | accept x => exact h1 x hb
    | exhausted => trivial
    | found a' b' last =>
      obtain ⟨⟨fb, hfb, hb1⟩, _⟩ := h2 a' b' last hb
      cases last with
      | true => trivial
      | false =>
        simp only [Bool.false_eq_true, if_false]
        cases ha : merit a' with
        | none => trivial
        | some fa =>
          simp only
          split
          · rename_i h; exact ⟨fa, ha, h⟩
          · rename_i h
            rw [not_le] at h
            split
            · rename_i hneg
              rw [abs_of_neg hneg] at h
              exact ⟨fa, fb, ha, hfb, by linarith, hb1⟩
            · trivial

/-- C30: if the merit function is a continuous number on the bracket, it has a root inside. -/
theorem c30_root (g : ℝ → ℝ) (hg : Continuous g) (a b tol : ℝ) (htol : 0 ≤ tol) (maxiter : ℕ)
    (a' b' : ℝ) (h : Solve.brentq (fun x => some (g x)) a b tol maxiter = .call (a', b')) :
    ∃ x ∈ Set.uIcc a' b', g x = 0 := by
  have := c30_outcome (fun x => some (g x)) a b tol maxiter
  rw [h] at this
  obtain ⟨fa, fb, h1, h2, h3, h4⟩ := this
  cases h1; cases h2
  have hmem : (0 : ℝ) ∈ Set.uIcc (g a') (g b') := by
    rw [Set.mem_uIcc]; left; constructor <;> linarith
  obtain ⟨x, hx, h0⟩ := intermediate_value_uIcc (hg.continuousOn (s := Set.uIcc a' b')) hmem
  exact ⟨x, hx, h0⟩

/-- The bracket of the loop is made of positive parameters. -/
theorem bracket_pos (merit : ℝ → Option ℝ) (tol : ℝ) (k : ℕ) (a b : ℝ) (ha : 0 ≤ a) (hb : 0 < b) :
    (∀ x, bracket merit tol k a b = .accept x → 0 < x) ∧
    ∀ a' b' last, bracket merit tol k a b = .found a' b' last → 0 ≤ a' ∧ 0 < b' := by
  induction k generalizing a b with
  | zero => simp [bracket]
  | succ k ih =>
    unfold bracket
    cases hm : merit b with
    | none => exact ih a (b / 2) ha (by linarith)
    | some fb =>
      simp only
      split
      · exact ⟨fun x hx => by cases hx; exact hb, fun a' b' last h => (by cases h)⟩
      · split
        · rename_i hneg
          exact ih b (b * (1 - fb)) hb.le (by nlinarith)
        · exact ⟨fun x hx => (by cases hx), fun a' b' last h => by cases h; exact ⟨ha, hb⟩⟩

/-- C30: from a nonnegative and a positive start the solver never leaves the positive side. -/
theorem c30_positive (merit : ℝ → Option ℝ) (a b tol : ℝ) (maxiter : ℕ) (ha : 0 ≤ a)
    (hb : 0 < b) :
    (∀ x, Solve.brentq merit a b tol maxiter = .accept x → 0 ≤ x) ∧
    ∀ a' b', Solve.brentq merit a b tol maxiter = .call (a', b') → 0 ≤ a' ∧ 0 < b' := by
  obtain ⟨h1, h2⟩ := bracket_pos merit tol maxiter a b ha hb
  unfold Solve.brentq
  split
  · exact ⟨fun x h => (by cases h), fun _ _ h => (by cases h)⟩
  · cases hbr : bracket merit tol maxiter a b with
    | accept x => exact ⟨fun x' h => by cases h; exact (h1 x hbr).le, fun _ _ h => (by cases h)⟩
    | exhausted => exact ⟨fun x h => (by cases h), fun _ _ h => (by cases h)⟩
    | found a' b' last =>
      obtain ⟨p1, p2⟩ := h2 a' b' last hbr
      cases last with
      | true => exact ⟨fun x h => (by cases h), fun _ _ h => (by cases h)⟩
      | false =>
        simp only [Bool.false_eq_true, if_false]
        cases hm : merit a' with
        | none => exact ⟨fun x h => (by cases h), fun _ _ h => (by cases h)⟩
        | some fa =>
          simp only
          split
          · exact ⟨fun x h => by cases h; exact p1, fun _ _ h => (by cases h)⟩
          · split
            · exact ⟨fun x h => (by cases h), fun _ _ h => by cases h; exact ⟨p1, p2⟩⟩
            · exact ⟨fun x h => (by cases h), fun _ _ h => (by cases h)⟩

/-- The outcome is not an exception. -/
def Solve.Outcome.Succeeds {α : Type*} : Outcome α → Prop
  | .fail _ => False
  | _ => True

/-- The merit of an ideal system: the ray height at the stop is proportional to the parameter, with
the rim reached at `R`. -/
noncomputable def idealMerit (R : ℝ) (b : ℝ) : Option ℝ := some (b ^ 2 / R ^ 2 - 1)

theorem bracket_ideal_near (R tol : ℝ) (hR : 0 < R) (k : ℕ) (a b : ℝ) (h : 7 / 10 * R ≤ b) :
    (∃ x, bracket (idealMerit R) tol (k + 3) a b = .accept x) ∨
    ∃ a' b', bracket (idealMerit R) tol (k + 3) a b = .found a' b' false := by
  rw [bracket]
  simp only [idealMerit]
  split
  · exact .inl ⟨_, rfl⟩
  · split
    · rename_i hneg
      set x := b / R with hx
      have hbx : b = x * R := by rw [hx]; field_simp
      have hx7 : 7 / 10 ≤ x := by rw [hx, le_div_iff₀ hR]; exact h
      have hf : b ^ 2 / R ^ 2 - 1 = x ^ 2 - 1 := by rw [hx]; field_simp
      rw [hf] at hneg ⊢
      have hx1 : x < 1 := by nlinarith
      have hge : R ≤ b * (1 - (x ^ 2 - 1)) := by
        rw [hbx]
        have : 1 ≤ x * (1 - (x ^ 2 - 1)) := by
          nlinarith [mul_nonneg (sub_nonneg.mpr hx1.le)
            (show (0 : ℝ) ≤ x ^ 2 + x - 1 by nlinarith)]
        nlinarith
      have hge' : 0 ≤ (b * (1 - (x ^ 2 - 1))) ^ 2 / R ^ 2 - 1 := by
        rw [sub_nonneg, le_div_iff₀ (by positivity), one_mul]
        exact pow_le_pow_left₀ hR.le hge 2
      rw [bracket]
      simp only [idealMerit]
      split
      · exact .inl ⟨_, rfl⟩
      · rw [if_neg (not_lt.mpr hge')]
        right
        exact ⟨_, _, rfl⟩
    · exact .inr ⟨_, _, rfl⟩

theorem bracket_ideal (R tol : ℝ) (hR : 0 < R) (j : ℕ) (k : ℕ) (hk : j + 3 ≤ k)
    (a b : ℝ) (hb : 0 < b) (h : 7 / 10 * R ≤ b * (3 / 2) ^ j) :
    (∃ x, bracket (idealMerit R) tol k a b = .accept x) ∨
    ∃ a' b', bracket (idealMerit R) tol k a b = .found a' b' false := by
  induction j generalizing k a b with
  | zero =>
    obtain ⟨k, rfl⟩ : ∃ m, k = m + 3 := ⟨k - 3, by omega⟩
    rw [pow_zero, mul_one] at h
    exact bracket_ideal_near R tol hR k a b h
  | succ j ih =>
    by_cases hbig : 7 / 10 * R ≤ b
    · obtain ⟨k, rfl⟩ : ∃ m, k = m + 3 := ⟨k - 3, by omega⟩
      exact bracket_ideal_near R tol hR k a b hbig
    · obtain ⟨k, rfl⟩ : ∃ m, k = m + 1 := ⟨k - 1, by omega⟩
      rw [not_le] at hbig
      have hsmall : b ^ 2 / R ^ 2 ≤ 1 / 2 := by
        rw [div_le_iff₀ (by positivity)]
        nlinarith
      rw [bracket]
      simp only [idealMerit]
      split
      · exact .inl ⟨_, rfl⟩
      · rw [if_pos (by linarith)]
        have hfac : 3 / 2 ≤ 1 - (b ^ 2 / R ^ 2 - 1) := by linarith
        refine ih k (by omega) b _ (by nlinarith) ?_
        calc 7 / 10 * R ≤ b * (3 / 2) ^ (j + 1) := h
          _ = b * (3 / 2) * (3 / 2) ^ j := by ring
          _ ≤ b * (1 - (b ^ 2 / R ^ 2 - 1)) * (3 / 2) ^ j := by gcongr

/-- C30, completeness for an ideal system: from the start `(0, b)` the solver reaches a point or a
bracket if the iteration limit allows the guess to grow by 3/2 per iteration to the rim. -/
theorem c30_ideal (R b tol : ℝ) (hR : 0 < R) (hb : 0 < b) (htol : 0 ≤ tol) (maxiter j : ℕ)
    (hj : j + 3 ≤ maxiter) (h : 7 / 10 * R ≤ b * (3 / 2) ^ j) :
    (Solve.brentq (idealMerit R) 0 b tol maxiter).Succeeds := by
  unfold Solve.brentq
  rw [if_neg (by omega)]
  obtain ⟨-, h2⟩ := bracket_spec (idealMerit R) tol maxiter 0 b
  rcases bracket_ideal R tol hR j maxiter hj 0 b hb h with ⟨x, hx⟩ | ⟨a', b', hx⟩
  · rw [hx]; trivial
  · rw [hx]
    obtain ⟨_, ha⟩ := h2 a' b' false hx
    simp only [Bool.false_eq_true, if_false]
    rcases ha with rfl | ⟨fa, hfa, hneg⟩
    · simp only [idealMerit]
      split
      · trivial
      · rw [if_pos (by norm_num)]; trivial
    · rw [hfa]
      simp only
      split
      · trivial
      · rw [if_pos (by linarith)]; trivial

/-- C30, violation: the exhaustion test also fires when the bracket was found in the last
iteration: with one iteration a valid bracket is rejected, with two it is used. -/
theorem c30_last_iteration (merit : ℝ → Option ℝ) (a b tol fa fb : ℝ) (htol : 0 ≤ tol)
    (ha : merit a = some fa) (hb : merit b = some fb) (h1 : fa < -tol) (h2 : tol < fb) :
    Solve.brentq merit a b tol 1 = .fail .noStart ∧
    Solve.brentq merit a b tol 2 = .call (a, b) ∧ Solve.brentq merit a b tol 0 = .fail .unbound := by
  have e1 : ¬|fb| ≤ tol := by rw [abs_of_nonneg (by linarith)]; linarith
  have e2 : ¬fb < 0 := by linarith
  have e3 : ¬|fa| ≤ tol := by rw [abs_of_neg (by linarith)]; linarith
  have e4 : fa < 0 := by linarith
  refine ⟨?_, ?_, rfl⟩ <;> simp [Solve.brentq, bracket, ha, hb, e1, e2, e3, e4]

/-- A merit function that is continuous with a root at 5/4 and traces up to 3/2. -/
noncomputable def cycleMerit (b : ℝ) : Option ℝ := if b ≤ 3 / 2 then some (4 * (b - 5 / 4)) else none

/-- C30, violation: halving after a failed ray forgets the last good point, so the search can cycle
for ever: from `(0, 1)` it alternates between 1 and 2 and raises for every iteration limit, though
`(1, 3/2)` is a bracket. -/
theorem c30_cycle (tol : ℝ) (htol : tol < 1) (maxiter : ℕ) (hm : 0 < maxiter) :
    Solve.brentq cycleMerit 0 1 tol maxiter = .fail .noStart ∧
    cycleMerit 1 = some (-1) ∧ cycleMerit (3 / 2) = some 1 := by
  have v1 : cycleMerit 1 = some (-1) := by norm_num [cycleMerit]
  have v2 : cycleMerit 2 = none := by norm_num [cycleMerit]
  have key : ∀ k a, bracket cycleMerit tol k a 1 = .exhausted ∧
      bracket cycleMerit tol k a 2 = .exhausted := by
    intro k
    induction k with
    | zero => intro a; exact ⟨rfl, rfl⟩
    | succ k ih =>
      intro a
      constructor
      · unfold bracket
        rw [v1]
        have h1 : ¬|(-1 : ℝ)| ≤ tol := by norm_num; exact htol
        simp only [h1, if_false]
        rw [if_pos (by norm_num)]
        norm_num
        exact (ih 1).2
      · unfold bracket
        rw [v2]
        simp only
        norm_num
        exact (ih a).1
  refine ⟨?_, v1, by norm_num [cycleMerit]⟩
  unfold Solve.brentq
  rw [if_neg (by omega), (key maxiter 0).1]

/-! ## C31 -/

theorem mem_probes (maxiter : ℕ) (j : ℤ) (hj0 : j ≠ 0) (hlt : j.natAbs < maxiter) :
    (j : ℝ) ∈ probes maxiter := by
  have hpos : 0 < j.natAbs := Int.natAbs_pos.mpr hj0
  unfold probes
  rw [List.mem_flatMap]
  refine ⟨j.natAbs - 1, by rw [List.mem_range]; omega, ?_⟩
  have hc : ((j.natAbs - 1 : ℕ) : ℝ) + 1 = |(j : ℝ)| := by
    rw [Nat.cast_sub hpos]; simp
  rw [hc]
  simp only [List.mem_cons, List.not_mem_nil, or_false]
  rcases abs_choice (j : ℝ) with h | h
  · exact .inr h.symm
  · left; rw [h, neg_neg]

/-- The points probed by `find_start`, in the order of the specification. -/
theorem findStart_eq (merit : ℝ → Option ℝ) (a0 : ℝ) (maxiter : ℕ) :
    (∀ x f, findStart merit a0 maxiter = some (x, f) → merit x = some f) ∧
    (findStart merit a0 maxiter = none ↔
      ∀ j : ℤ, j = 0 ∨ j.natAbs < maxiter → merit (a0 + j) = none) := by
  constructor
  · intro x f h
    unfold findStart at h
    cases h0 : merit a0 with
    | some f0 => rw [h0] at h; cases h; exact h0
    | none =>
      rw [h0] at h
      obtain ⟨ai, _, hai⟩ := List.exists_of_findSome?_eq_some h
      rw [Option.map_eq_some_iff] at hai
      obtain ⟨fi, hfi, heq⟩ := hai
      cases heq
      exact hfi
  · unfold findStart
    cases h0 : merit a0 with
    | some f0 =>
      simp only [reduceCtorEq, false_iff, not_forall]
      exact ⟨0, .inl rfl, by simp [h0]⟩
    | none =>
      simp only
      rw [List.findSome?_eq_none_iff]
      constructor
      · intro h j hj
        by_cases hj0 : j = 0
        · subst hj0; simpa using h0
        · have hmem := mem_probes maxiter j hj0 (hj.resolve_left hj0)
          have := h _ hmem
          simpa using this
      · intro h ai hai
        unfold probes at hai
        rw [List.mem_flatMap] at hai
        obtain ⟨i, hi, hai⟩ := hai
        rw [List.mem_range] at hi
        simp only [List.mem_cons, List.not_mem_nil, or_false] at hai
        rcases hai with rfl | rfl
        · have := h (-((i : ℤ) + 1)) (.inr (by omega))
          push_cast at this
          rw [this]; rfl
        · have := h ((i : ℤ) + 1) (.inr (by omega))
          push_cast at this
          rw [this]; rfl

/-- C31: `solve_newton` accepts only a point with `|merit| ≤ tol`, starts Newton's method only at a
point that traces (with a merit above the tolerance), and raises only if the start and all points at
integer distances below the iteration limit fail to trace. -/
theorem c31_outcome (merit : ℝ → Option ℝ) (a tol : ℝ) (maxiter : ℕ) :
    (∀ x, Solve.newton merit a tol maxiter = .accept x → ∃ f, merit x = some f ∧ |f| ≤ tol) ∧
    (∀ x, Solve.newton merit a tol maxiter = .call x → ∃ f, merit x = some f ∧ tol < |f|) ∧
    (∀ e, Solve.newton merit a tol maxiter = .fail e ↔ e = .noStart ∧
      ∀ j : ℤ, j = 0 ∨ j.natAbs < maxiter → merit (a + j) = none) := by
  obtain ⟨h1, h2⟩ := findStart_eq merit a maxiter
  unfold Solve.newton
  cases hf : findStart merit a maxiter with
  | none =>
    have := h2.mp hf
    refine ⟨fun x h => (by cases h), fun x h => (by cases h), fun e => ⟨fun h => ?_, fun h => ?_⟩⟩
    · cases h; exact ⟨rfl, this⟩
    · rw [h.1]
  | some q =>
    obtain ⟨x0, f0⟩ := q
    have hm := h1 x0 f0 hf
    have hn : ¬∀ j : ℤ, j = 0 ∨ j.natAbs < maxiter → merit (a + j) = none := by
      rw [← h2, hf]; simp
    simp only
    split
    · rename_i hgt
      exact ⟨fun x h => (by cases h), fun x h => by cases h; exact ⟨f0, hm, hgt⟩,
        fun e => ⟨fun h => (by cases h), fun h => absurd h.2 hn⟩⟩
    · rename_i hgt
      exact ⟨fun x h => by cases h; exact ⟨f0, hm, not_lt.mp hgt⟩, fun x h => (by cases h),
        fun e => ⟨fun h => (by cases h), fun h => absurd h.2 hn⟩⟩

theorem findSome_first {α β : Type*} (f : α → Option β) (l : List α) (y : β)
    (h : l.findSome? f = some y) :
    ∃ l1 x l2, l = l1 ++ x :: l2 ∧ f x = some y ∧ ∀ z ∈ l1, f z = none := by
  induction l with
  | nil => simp at h
  | cons x xs ih =>
    rw [List.findSome?_cons] at h
    cases hx : f x with
    | some v =>
      rw [hx] at h
      simp only [Option.some.injEq] at h
      subst h
      exact ⟨[], x, xs, rfl, hx, by simp⟩
    | none =>
      rw [hx] at h
      obtain ⟨l1, x', l2, h1, h2, h3⟩ := ih h
      refine ⟨x :: l1, x', l2, by rw [h1]; rfl, h2, ?_⟩
      intro z hz
      rcases List.mem_cons.mp hz with rfl | hz
      · exact hx
      · exact h3 z hz

/-- The order of the probes: by distance, the negative one first. -/
theorem probes_sorted (maxiter : ℕ) :
    (probes maxiter).Pairwise fun x y => |x| < |y| ∨ |x| = |y| ∧ x < y := by
  unfold probes
  rw [List.pairwise_flatMap]
  constructor
  · intro i _
    rw [List.pairwise_pair]
    right
    constructor
    · rw [abs_neg]
    · have : (0 : ℝ) ≤ i := Nat.cast_nonneg i
      linarith
  · refine List.pairwise_lt_range.imp ?_
    intro i j hij x hx y hy
    left
    have hi : (0 : ℝ) ≤ i := Nat.cast_nonneg i
    have hj : (0 : ℝ) ≤ j := Nat.cast_nonneg j
    have hx' : |x| = i + 1 := by
      simp only [List.mem_cons, List.not_mem_nil, or_false] at hx
      rcases hx with rfl | rfl
      · rw [abs_neg, abs_of_pos (by linarith)]
      · rw [abs_of_pos (by linarith)]
    have hy' : |y| = j + 1 := by
      simp only [List.mem_cons, List.not_mem_nil, or_false] at hy
      rcases hy with rfl | rfl
      · rw [abs_neg, abs_of_pos (by linarith)]
      · rw [abs_of_pos (by linarith)]
    rw [hx', hy']
    have : (i : ℝ) < j := Nat.cast_lt.mpr hij
    linarith

/-- C31: the start found is the nearest one at an integer distance, and of two at the same distance
the lower one. -/
theorem c31_nearest (merit : ℝ → Option ℝ) (a0 : ℝ) (maxiter : ℕ) (x f : ℝ)
    (h : findStart merit a0 maxiter = some (x, f)) :
    (∃ j : ℤ, x = a0 + j ∧ (j = 0 ∨ j.natAbs < maxiter)) ∧
    ∀ j : ℤ, (j = 0 ∨ j.natAbs < maxiter) → merit (a0 + j) ≠ none →
      |x - a0| < |(j : ℝ)| ∨ |x - a0| = |(j : ℝ)| ∧ x - a0 ≤ j := by
  unfold findStart at h
  cases h0 : merit a0 with
  | some f0 =>
    rw [h0] at h
    cases h
    refine ⟨⟨0, by simp, .inl rfl⟩, fun j _ _ => ?_⟩
    simp only [sub_self, abs_zero]
    by_cases hj : j = 0
    · right; simp [hj]
    · left; simpa using hj
  | none =>
    rw [h0] at h
    simp only at h
    obtain ⟨l1, ai, l2, hl, hai, hpre⟩ := findSome_first _ _ _ h
    rw [Option.map_eq_some_iff] at hai
    obtain ⟨fi, hfi, heq⟩ := hai
    cases heq
    have hmem : ai ∈ probes maxiter := by rw [hl]; simp
    constructor
    · unfold probes at hmem
      rw [List.mem_flatMap] at hmem
      obtain ⟨i, hi, hai⟩ := hmem
      rw [List.mem_range] at hi
      simp only [List.mem_cons, List.not_mem_nil, or_false] at hai
      rcases hai with rfl | rfl
      · exact ⟨-((i : ℤ) + 1), by push_cast; ring, .inr (by omega)⟩
      · exact ⟨(i : ℤ) + 1, by push_cast; ring, .inr (by omega)⟩
    · intro j hj hne
      have hs := probes_sorted maxiter
      have hj0 : j ≠ 0 := by
        rintro rfl
        exact hne (by simpa using h0)
      have hjm := mem_probes maxiter j hj0 (hj.resolve_left hj0)
      rw [hl] at hs hjm
      rw [List.pairwise_append] at hs
      have hx : a0 + ai - a0 = ai := by ring
      rw [hx]
      rcases List.mem_append.mp hjm with h1 | h1
      · exfalso
        apply hne
        have := hpre _ h1
        simpa using this
      · rcases List.mem_cons.mp h1 with h1 | h1
        · right; rw [← h1]; exact ⟨rfl, le_refl _⟩
        · have := List.rel_of_pairwise_cons hs.2.1 h1
          rcases this with h | ⟨h, h'⟩
          · exact .inl h
          · exact .inr ⟨h, h'.le⟩

/-! ## Examples -/

/-- The hypotheses of `c30_ideal` with the defaults of the code: a guess 1000 times too small. -/
example : (Solve.brentq (idealMerit 1000) 0 1 (1 / 1000) 30).Succeeds :=
  c30_ideal 1000 1 (1 / 1000) (by norm_num) one_pos (by norm_num) 30 20 (by norm_num)
    (by norm_num)

/-- A bracket handed to the root finder. -/
example : Solve.brentq (fun x => some (x ^ 2 - 2)) 0 1 (1 / 1000) 30 = .call (1, 2) := by
  have h : bracket (fun x => some (x ^ 2 - 2)) (1 / 1000) (28 + 1 + 1) 0 1 = .found 1 2 false := by
    have h2 : bracket (fun x => some (x ^ 2 - 2)) (1 / 1000) (28 + 1) 1 2 = .found 1 2 false := by
      rw [bracket]
      norm_num
    rw [bracket]
    norm_num
    exact h2
  unfold Solve.brentq
  rw [if_neg (by norm_num), h]
  norm_num

/-- The search for a start that traces: 0, -1, 1 fail, -2 traces. -/
example : findStart (fun x => if |x| ≤ 1 then none else some x) 0 30 = some (-2, -2) := by
  have h0 : ∀ x : ℝ, |x| ≤ 1 → (if |x| ≤ 1 then none else some x : Option ℝ) = none :=
    fun x h => if_pos h
  have e : probes 30 = -1 :: 1 :: -2 :: ((probes 30).drop 3) := by
    simp only [probes, show (30 - 1 : ℕ) = 27 + 1 + 1 from rfl, List.range_succ_eq_map]
    norm_num
  unfold findStart
  beta_reduce
  rw [h0 0 (by norm_num)]
  simp only
  rw [e, List.findSome?_cons, List.findSome?_cons, List.findSome?_cons]
  norm_num

end RayOpt
