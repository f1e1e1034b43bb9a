import Verif.Model.Optimize
import Verif.Props.Cache
import Mathlib.Tactic

/-!
# C56: the optimiser's functions describe the operands

Statements about rayopt/optimize.py.
-/

namespace RayOpt.Optimize

variable {S : Type*}

/-- `g(v[i])` of the enumerated functions is `g` of the value of its own operand. -/
theorem mem_concat (f : Operand S → List (List ℝ → List ℝ)) (ops : List (Operand S)) (s : S) (y : ℝ) :
    y ∈ concat (enumerate f 0 ops) (values ops s) ↔ ∃ o ∈ ops, ∃ g ∈ f o, y ∈ g (o.get s) := by
  have key : ∀ (ops : List (Operand S)) (pre : List (List ℝ)),
      y ∈ concat (enumerate f pre.length ops) (pre ++ values ops s) ↔
        ∃ o ∈ ops, ∃ g ∈ f o, y ∈ g (o.get s) := by
    intro ops
    induction ops with
    | nil => intro pre; simp [enumerate, concat]
    | cons o os ih =>
      intro pre
      have h := ih (pre ++ [o.get s])
      simp only [List.length_append, List.length_cons, List.length_nil, zero_add,
        List.append_assoc, List.singleton_append] at h
      have hv : values (o :: os) s = o.get s :: values os s := rfl
      rw [hv]
      simp only [concat, enumerate, List.flatMap_append, List.mem_append] at h ⊢
      rw [h]
      simp [List.mem_flatMap, List.mem_map]
  simpa using key ops []

/-- The constraints of a problem, as `minimize` reads them: equalities vanish, inequalities are not
negative. -/
def Feasible (p : Problem) (v : List (List ℝ)) : Prop :=
  (∀ f, p.eq = some f → ∀ y ∈ f v, y = 0) ∧ (∀ f, p.ineq = some f → ∀ y ∈ f v, 0 ≤ y)

/-- All values of the operands, less the offset, lie between `min` and `max`. -/
def InBounds (ops : List (Operand S)) (s : S) : Prop :=
  ∀ o ∈ ops, ∀ x ∈ o.get s, (∀ a, o.min = some a → a ≤ x - o.offset) ∧
    (∀ b, o.max = some b → x - o.offset ≤ b)

theorem enumerate_isEmpty (f : Operand S → List (List ℝ → List ℝ)) (i : ℕ) (ops : List (Operand S)) :
    (enumerate f i ops).isEmpty = true ↔ ∀ o ∈ ops, f o = [] := by
  induction ops generalizing i with
  | nil => simp [enumerate]
  | cons o os ih =>
    have := ih (i + 1)
    simp only [List.isEmpty_iff] at *
    simp [enumerate, this]

theorem problem_some {vars : List (Variable S)} {ops : List (Operand S)} {s : S} {p : Problem}
    (h : problem vars ops s = some p) :
    (vars ≠ [] ∧ ops ≠ [] ∧ ∃ o ∈ ops, o.objective ≠ []) ∧
    p.x0 = vars.map (fun v => v.get s / v.scale) ∧ p.x1 = vars.map (fun v => v.init / v.scale) ∧
    p.bounds = vars.map (fun v => (v.lower.map (· / v.scale), v.upper.map (· / v.scale))) ∧
    p.fn = (fun v => ((concat (enumerate Operand.objective 0 ops) v).map (· ^ 2)).sum) ∧
    p.eq = (if (enumerate Operand.equality 0 ops).isEmpty then none
      else some (concat (enumerate Operand.equality 0 ops))) ∧
    p.ineq = (if (enumerate Operand.inequality 0 ops).isEmpty then none
      else some (concat (enumerate Operand.inequality 0 ops))) := by
  unfold problem at h
  by_cases h1 : vars.isEmpty
  · simp [h1] at h
  by_cases h2 : ops.isEmpty
  · simp [h1, h2] at h
  by_cases h3 : (enumerate Operand.objective 0 ops).isEmpty
  · simp [h1, h2, h3] at h
  simp only [h1, h2, h3, Bool.false_eq_true, if_false] at h
  have h := Option.some.inj h
  subst h
  refine ⟨⟨?_, ?_, ?_⟩, rfl, rfl, rfl, rfl, rfl, rfl⟩
  · rintro rfl; simp at h1
  · rintro rfl; simp at h2
  · rw [enumerate_isEmpty] at h3
    push Not at h3
    exact h3

/-- The constraints handed to the optimiser hold exactly if all values are within their bounds and,
in addition, the values of operands with equal bounds are equal to the offset. -/
theorem c56_feasible (vars : List (Variable S)) (ops : List (Operand S)) (s0 s : S) (p : Problem)
    (hp : problem vars ops s0 = some p) :
    Feasible p (values ops s) ↔ InBounds ops s ∧
      ∀ o ∈ ops, ∀ a, o.min = some a → o.max = some a → ∀ x ∈ o.get s, x = o.offset := by
  obtain ⟨-, -, -, -, -, he, hi⟩ := problem_some hp
  have he' : (∀ f, p.eq = some f → ∀ y ∈ f (values ops s), y = 0) ↔
      ∀ o ∈ ops, ∀ g ∈ o.equality, ∀ y ∈ g (o.get s), y = 0 := by
    rw [he]
    by_cases h : (enumerate Operand.equality 0 ops).isEmpty
    · rw [if_pos h]
      rw [enumerate_isEmpty] at h
      constructor
      · intro _ o ho g hg; rw [h o ho] at hg; simp at hg
      · intro _ f hf; simp at hf
    · rw [if_neg h]
      simp only [Option.some.injEq, forall_eq', mem_concat]
      constructor
      · intro h2 o ho g hg y hy; exact h2 y ⟨o, ho, g, hg, hy⟩
      · rintro h2 y ⟨o, ho, g, hg, hy⟩; exact h2 o ho g hg y hy
  have hi' : (∀ f, p.ineq = some f → ∀ y ∈ f (values ops s), 0 ≤ y) ↔
      ∀ o ∈ ops, ∀ g ∈ o.inequality, ∀ y ∈ g (o.get s), 0 ≤ y := by
    rw [hi]
    by_cases h : (enumerate Operand.inequality 0 ops).isEmpty
    · rw [if_pos h]
      rw [enumerate_isEmpty] at h
      constructor
      · intro _ o ho g hg; rw [h o ho] at hg; simp at hg
      · intro _ f hf; simp at hf
    · rw [if_neg h]
      simp only [Option.some.injEq, forall_eq', mem_concat]
      constructor
      · intro h2 o ho g hg y hy; exact h2 y ⟨o, ho, g, hg, hy⟩
      · rintro h2 y ⟨o, ho, g, hg, hy⟩; exact h2 o ho g hg y hy
  unfold Feasible InBounds
  rw [he', hi']
  constructor
  · rintro ⟨h1, h2⟩
    refine ⟨fun o ho x hx => ⟨fun a ha => ?_, fun b hb => ?_⟩, fun o ho a ha hb x hx => ?_⟩
    · have := h2 o ho (fun v => v.map fun x => x - o.offset - a) (by simp [Operand.inequality, ha])
        (x - o.offset - a) (List.mem_map.mpr ⟨x, hx, rfl⟩)
      linarith
    · have := h2 o ho (fun v => v.map fun x => b - (x - o.offset)) (by simp [Operand.inequality, hb])
        (b - (x - o.offset)) (List.mem_map.mpr ⟨x, hx, rfl⟩)
      linarith
    · have := h1 o ho (fun v => v.map fun x => x - o.offset) (by simp [Operand.equality, ha, hb])
        (x - o.offset) (List.mem_map.mpr ⟨x, hx, rfl⟩)
      linarith
  · rintro ⟨h1, h2⟩
    constructor
    · intro o ho g hg y hy
      unfold Operand.equality at hg
      split at hg
      · next h =>
        obtain ⟨a, ha⟩ := Option.ne_none_iff_exists'.mp h.1
        have hb : o.max = some a := by rw [← h.2, ha]
        simp only [List.mem_singleton] at hg
        subst hg
        obtain ⟨x, hx, rfl⟩ := List.mem_map.mp hy
        rw [h2 o ho a ha hb x hx]; ring
      · simp at hg
    · intro o ho g hg y hy
      unfold Operand.inequality at hg
      rcases List.mem_append.mp hg with hg | hg
      · cases ha : o.min with
        | none => rw [ha] at hg; simp at hg
        | some a =>
          rw [ha] at hg
          simp only [List.mem_singleton] at hg
          subst hg
          obtain ⟨x, hx, rfl⟩ := List.mem_map.mp hy
          have := (h1 o ho x hx).1 a ha
          linarith
      · cases hb : o.max with
        | none => rw [hb] at hg; simp at hg
        | some b =>
          rw [hb] at hg
          simp only [List.mem_singleton] at hg
          subst hg
          obtain ⟨x, hx, rfl⟩ := List.mem_map.mp hy
          have := (h1 o ho x hx).2 b hb
          linarith

/-- A point is feasible exactly if all values are within their bounds, provided that operands with
equal bounds have them at zero. -/
theorem c56_bounds (vars : List (Variable S)) (ops : List (Operand S)) (s0 s : S) (p : Problem)
    (hp : problem vars ops s0 = some p)
    (h0 : ∀ o ∈ ops, ∀ a, o.min = some a → o.max = some a → a = 0) :
    Feasible p (values ops s) ↔ InBounds ops s := by
  rw [c56_feasible vars ops s0 s p hp]
  constructor
  · exact fun h => h.1
  · refine fun h => ⟨h, fun o ho a ha hb x hx => ?_⟩
    obtain ⟨h1, h2⟩ := h o ho x hx
    have := h1 a ha; have := h2 a hb; have := h0 o ho a ha hb
    linarith

/-- Without it nothing is feasible: the equality drops the value of the bound, so that it and the
two inequalities exclude each other. -/
theorem c56_equality_violation (vars : List (Variable S)) (ops : List (Operand S)) (s0 s : S)
    (p : Problem) (hp : problem vars ops s0 = some p) (o : Operand S) (ho : o ∈ ops) (a : ℝ)
    (ha : a ≠ 0) (h1 : o.min = some a) (h2 : o.max = some a) (hv : o.get s ≠ []) :
    ¬ Feasible p (values ops s) := by
  rw [c56_feasible vars ops s0 s p hp]
  rintro ⟨hb, he⟩
  obtain ⟨x, hx⟩ := List.exists_mem_of_ne_nil _ hv
  have e := he o ho a h1 h2 x hx
  obtain ⟨h3, h4⟩ := hb o ho x hx
  have := h3 a h1; have := h4 a h2
  apply ha; rw [e] at *; linarith

/-- The problem exists exactly if there are variables, operands and at least one non-zero weight. -/
theorem c56_defined (vars : List (Variable S)) (ops : List (Operand S)) (s : S) :
    (problem vars ops s).isSome = true ↔
      vars ≠ [] ∧ ∃ o ∈ ops, ∃ w, o.weight = some w ∧ w ≠ 0 := by
  have hob : ∀ o : Operand S, o.objective ≠ [] ↔ ∃ w, o.weight = some w ∧ w ≠ 0 := by
    intro o
    unfold Operand.objective
    cases o.weight with
    | none => simp
    | some w => by_cases h : w = 0 <;> simp [h]
  constructor
  · intro h
    obtain ⟨p, hp⟩ := Option.isSome_iff_exists.mp h
    obtain ⟨⟨h1, -, o, ho, h3⟩, -⟩ := problem_some hp
    exact ⟨h1, o, ho, (hob o).mp h3⟩
  · rintro ⟨h1, o, ho, h2⟩
    have h3 : ¬ (enumerate Operand.objective 0 ops).isEmpty = true := by
      rw [enumerate_isEmpty]
      intro h; exact (hob o).mpr h2 (h o ho)
    have h4 : ¬ ops.isEmpty = true := by
      intro h; rw [List.isEmpty_iff] at h; rw [h] at ho; simp at ho
    have h5 : ¬ vars.isEmpty = true := by
      intro h; rw [List.isEmpty_iff] at h; exact h1 h
    unfold problem
    rw [if_neg h5, if_neg h4, if_neg h3]
    rfl

/-- The objective is the sum over the operands of the weighted squared distances to the offsets;
operands without a weight do not count. -/
theorem c56_objective (vars : List (Variable S)) (ops : List (Operand S)) (s0 s : S) (p : Problem)
    (hp : problem vars ops s0 = some p) :
    p.fn (values ops s) =
      (ops.map fun o => (o.weight.getD 0) ^ 2 *
        ((o.get s).map fun x => (x - o.offset) ^ 2).sum).sum := by
  obtain ⟨-, -, -, -, hf, -, -⟩ := problem_some hp
  rw [hf]
  have key : ∀ (ops : List (Operand S)) (pre : List (List ℝ)),
      ((concat (enumerate Operand.objective pre.length ops) (pre ++ values ops s)).map (· ^ 2)).sum =
      (ops.map fun o => (o.weight.getD 0) ^ 2 *
        ((o.get s).map fun x => (x - o.offset) ^ 2).sum).sum := by
    intro ops
    induction ops with
    | nil => intro pre; simp [enumerate, concat]
    | cons o os ih =>
      intro pre
      have h := ih (pre ++ [o.get s])
      simp only [List.length_append, List.length_cons, List.length_nil, zero_add,
        List.append_assoc, List.singleton_append] at h
      have hv : values (o :: os) s = o.get s :: values os s := rfl
      rw [hv]
      simp only [concat, enumerate, List.flatMap_append, List.map_append, List.sum_append] at h ⊢
      rw [h, List.map_cons, List.sum_cons]
      congr 1
      unfold Operand.objective
      cases hw : o.weight with
      | none => simp
      | some w =>
        by_cases h0 : w = 0
        · simp [h0]
        · simp only [h0, if_false, List.map_cons, List.map_nil, List.flatMap_cons, List.flatMap_nil,
            List.append_nil, Option.getD_some]
          rw [List.getElem?_append_right (le_refl _)]
          simp only [Nat.sub_self, List.getElem?_cons_zero, Option.getD_some, List.map_map]
          generalize o.get s = l
          induction l with
          | nil => simp
          | cons x l ih2 =>
            simp only [List.map_cons, List.sum_cons, Function.comp] at ih2 ⊢
            rw [ih2]; ring
  simpa using key ops []

/-- The objective vanishes exactly if every weighted operand is at its offset. -/
theorem c56_objective_zero (vars : List (Variable S)) (ops : List (Operand S)) (s0 s : S)
    (p : Problem) (hp : problem vars ops s0 = some p) :
    0 ≤ p.fn (values ops s) ∧ (p.fn (values ops s) = 0 ↔
      ∀ o ∈ ops, o.weight.getD 0 ≠ 0 → ∀ x ∈ o.get s, x = o.offset) := by
  rw [c56_objective vars ops s0 s p hp]
  have hin : ∀ o : Operand S, 0 ≤ ((o.get s).map fun x => (x - o.offset) ^ 2).sum := by
    intro o; apply List.sum_nonneg; intro y hy
    obtain ⟨x, -, rfl⟩ := List.mem_map.mp hy; positivity
  have hz : ∀ (l : List ℝ) (c : ℝ), (l.map fun x => (x - c) ^ 2).sum = 0 ↔ ∀ x ∈ l, x = c := by
    intro l c
    induction l with
    | nil => simp
    | cons a l ih =>
      have h1 : 0 ≤ (l.map fun x => (x - c) ^ 2).sum := by
        apply List.sum_nonneg; intro y hy
        obtain ⟨x, -, rfl⟩ := List.mem_map.mp hy; positivity
      have h2 := sq_nonneg (a - c)
      simp only [List.map_cons, List.sum_cons, List.forall_mem_cons]
      rw [← ih]
      constructor
      · intro h
        have h3 : (a - c) ^ 2 = 0 := by linarith
        have h4 := pow_eq_zero_iff (two_ne_zero) |>.mp h3
        exact ⟨by linarith, by linarith⟩
      · rintro ⟨rfl, h⟩; rw [h]; ring
  constructor
  · apply List.sum_nonneg; intro y hy
    obtain ⟨o, -, rfl⟩ := List.mem_map.mp hy
    have := hin o; positivity
  · clear hp
    induction ops with
    | nil => simp
    | cons o os ih =>
      have h1 : 0 ≤ (os.map fun o => (o.weight.getD 0) ^ 2 *
          ((o.get s).map fun x => (x - o.offset) ^ 2).sum).sum := by
        apply List.sum_nonneg; intro y hy
        obtain ⟨o, -, rfl⟩ := List.mem_map.mp hy
        have := hin o; positivity
      have h2 : 0 ≤ (o.weight.getD 0) ^ 2 * ((o.get s).map fun x => (x - o.offset) ^ 2).sum := by
        have := hin o; positivity
      simp only [List.map_cons, List.sum_cons, List.forall_mem_cons]
      rw [← ih]
      constructor
      · intro h
        refine ⟨fun hw => ?_, by linarith⟩
        have h3 : (o.weight.getD 0) ^ 2 * ((o.get s).map fun x => (x - o.offset) ^ 2).sum = 0 := by
          linarith
        rcases mul_eq_zero.mp h3 with h4 | h4
        · exact absurd (pow_eq_zero_iff two_ne_zero |>.mp h4) hw
        · exact (hz _ _).mp h4
      · rintro ⟨h3, h4⟩
        rw [h4, add_zero]
        by_cases hw : o.weight.getD 0 = 0
        · rw [hw]; ring
        · rw [(hz _ _).mpr (h3 hw), mul_zero]

/-! ## Variables -/

/-- With a positive scale the scaled point is within the scaled bounds exactly if the variable is
within its bounds. -/
theorem c56_variable_bounds (v : Variable S) (hs : 0 < v.scale) (x : ℝ) :
    ((∀ a, v.lower.map (· / v.scale) = some a → a ≤ x) ∧
      (∀ b, v.upper.map (· / v.scale) = some b → x ≤ b)) ↔
    (∀ a, v.lower = some a → a ≤ x * v.scale) ∧ (∀ b, v.upper = some b → x * v.scale ≤ b) := by
  constructor
  · rintro ⟨h1, h2⟩
    refine ⟨fun a ha => ?_, fun b hb => ?_⟩
    · have := h1 (a / v.scale) (by simp [ha])
      exact (div_le_iff₀ hs).mp this
    · have := h2 (b / v.scale) (by simp [hb])
      exact (le_div_iff₀ hs).mp this
  · rintro ⟨h1, h2⟩
    refine ⟨fun a ha => ?_, fun b hb => ?_⟩
    · obtain ⟨a', ha', rfl⟩ := Option.map_eq_some_iff.mp ha
      exact (div_le_iff₀ hs).mpr (h1 a' ha')
    · obtain ⟨b', hb', rfl⟩ := Option.map_eq_some_iff.mp hb
      exact (le_div_iff₀ hs).mpr (h2 b' hb')

/-- A negative scale turns the bounds around: no point satisfies them. -/
theorem c56_negative_scale_violation (v : Variable S) (hs : v.scale < 0) (a b : ℝ)
    (ha : v.lower = some a) (hb : v.upper = some b) (hab : a < b) (x : ℝ) :
    ¬ ((∀ a, v.lower.map (· / v.scale) = some a → a ≤ x) ∧
      (∀ b, v.upper.map (· / v.scale) = some b → x ≤ b)) := by
  rintro ⟨h1, h2⟩
  have h3 := h1 (a / v.scale) (by simp [ha])
  have h4 := h2 (b / v.scale) (by simp [hb])
  have h5 : b / v.scale < a / v.scale := (div_lt_div_right_of_neg hs).mpr hab
  linarith

/-- The default scale is positive for proper bounds and needs both of them. -/
theorem c56_scale (lower upper : Option ℝ) :
    (∀ a b, lower = some a → upper = some b → a < b → ∃ s, mkScale lower upper none = some s ∧
      0 < s ∧ a / s + 1 = b / s) ∧
    (lower = none ∨ upper = none → mkScale lower upper none = none) := by
  constructor
  · rintro a b rfl rfl h
    have h1 : b - a ≠ 0 := by linarith
    refine ⟨b - a, rfl, by linarith, ?_⟩
    field_simp; ring
  · rintro (rfl | rfl)
    · rfl
    · cases lower <;> rfl

/-- The variables are independent: writing one leaves the others and reading it gives the value. -/
structure Independent (vars : List (Variable S)) : Prop where
  same : ∀ v ∈ vars, ∀ a s, v.get (v.set a s) = a
  other : vars.Pairwise fun v w => ∀ a s, v.get (w.set a s) = v.get s

theorem foldl_get {vars : List (Variable S)} (h : Independent vars) :
    ∀ (xs : List ℝ) (s : S), xs.length = vars.length → ∀ (i : ℕ) (v : Variable S) (a : ℝ),
      vars[i]? = some v → xs[i]? = some a → v.get (up vars xs s) = a * v.scale := by
  induction vars with
  | nil => intro xs s _ i v a hv; simp at hv
  | cons w vars ih =>
    have hi : Independent vars := ⟨fun v hv => h.same v (List.mem_cons_of_mem _ hv),
      (List.pairwise_cons.mp h.other).2⟩
    intro xs s hl i v a hv ha
    cases xs with
    | nil => simp at hl
    | cons x xs =>
      have hu : up (w :: vars) (x :: xs) s = up vars xs (w.set (x * w.scale) s) := by
        simp [up]
      rw [hu]
      cases i with
      | zero =>
        simp only [List.getElem?_cons_zero, Option.some.injEq] at hv ha
        subst hv ha
        -- later writes do not change it
        have hk : ∀ (vs : List (Variable S)) (ys : List ℝ) (s : S),
            (∀ v ∈ vs, ∀ a s, w.get (v.set a s) = w.get s) → w.get (up vs ys s) = w.get s := by
          intro vs
          induction vs with
          | nil => intro ys s _; cases ys <;> simp [up]
          | cons u us ihu =>
            intro ys s hy
            cases ys with
            | nil => simp [up]
            | cons y ys =>
              have : up (u :: us) (y :: ys) s = up us ys (u.set (y * u.scale) s) := by simp [up]
              rw [this, ihu ys _ (fun v hv => hy v (List.mem_cons_of_mem _ hv)),
                hy u (List.mem_cons_self ..)]
        rw [hk vars xs _ (List.pairwise_cons.mp h.other).1, h.same w (List.mem_cons_self ..)]
      | succ i =>
        simp only [List.getElem?_cons_succ] at hv ha
        exact ih hi xs _ (by simpa using hl) i v a hv ha

/-- `r.reject()` gives every variable the value it had when `optimize` was called. -/
theorem c56_reject (vars : List (Variable S)) (ops : List (Operand S)) (s0 s1 : S) (p : Problem)
    (hp : problem vars ops s0 = some p) (hv : Independent vars) (hs : ∀ v ∈ vars, v.scale ≠ 0) :
    ∀ v ∈ vars, v.get (up vars p.x0 s1) = v.get s0 := by
  obtain ⟨-, hx, -⟩ := problem_some hp
  intro v hm
  obtain ⟨i, hi⟩ := List.getElem?_of_mem hm
  have h := foldl_get hv p.x0 s1 (by rw [hx]; simp) i v (v.get s0 / v.scale) hi
    (by rw [hx]; simp [hi])
  rw [h]
  have := hs v hm
  field_simp

/-- `r.accept()` gives every variable the value found, `x[i]` times its scale. -/
theorem c56_accept (vars : List (Variable S)) (hv : Independent vars) (x : List ℝ)
    (hx : x.length = vars.length) (s : S) (i : ℕ) (v : Variable S) (a : ℝ)
    (h1 : vars[i]? = some v) (h2 : x[i]? = some a) : v.get (up vars x s) = a * v.scale :=
  foldl_get hv x s hx i v a h1 h2

/-! ## Evaluations -/

/-- Whatever the optimiser asks, and in whatever order, the answers are the values of the operands
at the points asked, if these do not depend on what was set before. -/
theorem c56_values (vars : List (Variable S)) (ops : List (Operand S)) (V : List ℝ → List (List ℝ))
    (hV : ∀ x s, values ops (up vars x s) = V x) (xs : List (List ℝ)) (s : S) :
    (evals vars ops xs (s, [])).1 = xs.map V := by
  classical
  have key : ∀ (xs : List (List ℝ)) (s : S) (c : List (List ℝ × List (List ℝ))),
      (∀ kv ∈ c, kv.2 = V kv.1) → (c.map Prod.fst).Nodup → c.length ≤ vars.length + 1 →
      (evals vars ops xs (s, c)).1 = xs.map V := by
    intro xs
    induction xs with
    | nil => intro s c _ _ _; rfl
    | cons x xs ih =>
      intro s c h1 h2 h3
      have hf : (fun x => values ops (up vars x s)) = V := funext fun x => hV x s
      obtain ⟨e1, e2, e3, e4⟩ := Cache.lru_spec (vars.length + 1) V c x h1 h2 h3
      simp only [evals, ex, hf, List.map_cons]
      have hc : ∀ (inst : DecidableEq (List ℝ)), @Cache.lru _ _ inst (vars.length + 1) V c x =
          Cache.lru (vars.length + 1) V c x := by
        intro inst; congr
      rw [hc]
      rw [e1, ih _ _ e2 e3 e4]
  exact key xs s [] (by simp) (by simp) (by simp)

/-- So constraints and objective at the points asked are those of the system set to these points. -/
theorem c56_run (vars : List (Variable S)) (ops : List (Operand S)) (V : List ℝ → List (List ℝ))
    (hV : ∀ x s, values ops (up vars x s) = V x) (xs : List (List ℝ)) (s0 s s' : S) (p : Problem)
    (hp : problem vars ops s0 = some p)
    (h0 : ∀ o ∈ ops, ∀ a, o.min = some a → o.max = some a → a = 0) (k : ℕ) (x : List ℝ)
    (hk : xs[k]? = some x) :
    ∃ v, (evals vars ops xs (s, [])).1[k]? = some v ∧
      (Feasible p v ↔ InBounds ops (up vars x s')) ∧
      p.fn v = (ops.map fun o => (o.weight.getD 0) ^ 2 *
        ((o.get (up vars x s')).map fun y => (y - o.offset) ^ 2).sum).sum := by
  refine ⟨V x, by rw [c56_values vars ops V hV]; simp [hk], ?_, ?_⟩
  · rw [← hV x s']; exact c56_bounds vars ops s0 _ p hp h0
  · rw [← hV x s']; exact c56_objective vars ops s0 _ p hp

/-- The memoisation leaves the system where the last new point put it: after evaluating 1, 2 and
again 1, the system is at 2. -/
theorem c56_stale_violation :
    let v : Variable ℝ := ⟨id, fun a _ => a, none, none, 1, 0⟩
    let o : Operand ℝ := ⟨fun s => [s], some 1, 0, none, none⟩
    let r := evals [v] [o] [[1], [2], [1]] (0, [])
    r.1 = [[[1]], [[2]], [[1]]] ∧ r.2.1 = 2 := by
  intro v o r
  simp [r, evals, ex, Cache.lru, values, up, v, o]

example : Independent [(⟨fun s => s.1, fun a s => (a, s.2), some 0, some 2, 2, 1⟩ : Variable (ℝ × ℝ)),
    ⟨fun s => s.2, fun a s => (s.1, a), none, none, 1, 0⟩] := by
  refine ⟨?_, ?_⟩
  · intro v hv; simp at hv; rcases hv with rfl | rfl <;> simp
  · simp

example : (problem [(⟨id, fun a _ => a, some 0, some 2, 2, 1⟩ : Variable ℝ)]
    [⟨fun s => [s, 2 * s], some 3, 1, some (-1), some 1⟩] 0).isSome = true := by
  rw [c56_defined]; exact ⟨by simp, _, List.mem_singleton.mpr rfl, 3, rfl, by norm_num⟩

end RayOpt.Optimize
