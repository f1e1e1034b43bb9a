import Verif.Props.Convex
import Verif.Props.LimitSystem
import Verif.Props.FirstOrderExamples

/-!
C86, second part: the outlines drawn by `System.surfaces_cut`.
-/

namespace RayOpt

open Sys

theorem mem_linspace {a b x : ℝ} {n : ℕ} (hab : a ≤ b) (h : x ∈ linspace a b n) : a ≤ x ∧ x ≤ b := by
  simp only [linspace, List.mem_map, List.mem_range] at h
  obtain ⟨i, hi, rfl⟩ := h
  have hd : (0 : ℝ) ≤ (b - a) / ((n - 1 : ℕ) : ℝ) := div_nonneg (by linarith) (Nat.cast_nonneg _)
  refine ⟨by nlinarith [(Nat.cast_nonneg i : (0 : ℝ) ≤ i)], ?_⟩
  rcases Nat.eq_zero_or_pos (n - 1) with h0 | h0
  · have : i = 0 := by omega
    subst this; simp [hab]
  · have hn : (0 : ℝ) < ((n - 1 : ℕ) : ℝ) := by exact_mod_cast h0
    have hin : (i : ℝ) ≤ ((n - 1 : ℕ) : ℝ) := by exact_mod_cast (by omega : i ≤ n - 1)
    calc a + i * ((b - a) / ((n - 1 : ℕ) : ℝ))
        ≤ a + ((n - 1 : ℕ) : ℝ) * ((b - a) / ((n - 1 : ℕ) : ℝ)) := by gcongr
      _ = b := by field_simp; ring

theorem mapM_getD {α β : Type} (d : β) {f : α → Option β} :
    ∀ {l : List α} {r : List β}, l.mapM f = some r →
      r = l.map (fun a => (f a).getD d) ∧ ∀ a ∈ l, ∃ b, f a = some b
  | [], r, h => by cases h; simp
  | a :: l, r, h => by
    rw [List.mapM_cons] at h
    simp only [Option.bind_eq_bind, Option.bind_eq_some_iff, Option.pure_def] at h
    obtain ⟨b, hb, bs, hbs, h⟩ := h
    cases h
    obtain ⟨h1, h2⟩ := mapM_getD d hbs
    refine ⟨by rw [List.map_cons, hb, ← h1]; rfl, fun x hx => ?_⟩
    rcases List.mem_cons.mp hx with rfl | hx
    · exact ⟨b, hb⟩
    · exact h2 x hx

theorem sag_cutPoint (sh : Shape) (axis : Fin 2) (a z : ℝ) :
    sh.surfaceSag (Elem.cutPoint axis a z)
      = (sh.surfaceSag (Elem.cutPoint axis a 0)).map (· + z) := by
  have hr : Shape.rsq (Elem.cutPoint axis a z) = Shape.rsq (Elem.cutPoint axis a 0) := by
    unfold Elem.cutPoint; split <;> rfl
  have hz : ∀ z, (Elem.cutPoint axis a z).z = z := fun z => by unfold Elem.cutPoint; split <;> rfl
  unfold Shape.surfaceSag
  simp only [hr, hz]
  split
  · simp
  · next hh =>
    split
    · next ha =>
      by_cases hc : sh.curvature = 0
      · exact absurd ⟨hc, ha⟩ hh
      · simp only [ne_eq, hc, not_false_eq_true, if_true]
        split
        · rfl
        · simp; ring
    · by_cases hc : sh.curvature = 0
      · simp [hc]; ring
      · simp only [ne_eq, hc, not_false_eq_true, if_true]
        split
        · rfl
        · simp; ring

/-- C86: an element without surface or without material is cut to a straight line through its vertex from
the lower to the upper rim. -/
theorem c86_cut_flat {e : Elem} {r : ℝ} (hr : e.radius = .fin r) (hm : e.shape = none ∨ e.mat = none)
    (axis : Fin 2) (n : ℕ) : ∃ p q : V3, e.surfaceCut axis n = some [p, q] ∧
    (if axis = 0 then p = ⟨-r, 0, 0⟩ ∧ q = ⟨r, 0, 0⟩ else p = ⟨0, -r, 0⟩ ∧ q = ⟨0, r, 0⟩) := by
  refine ⟨Elem.cutPoint axis (-r) 0, Elem.cutPoint axis r 0, ?_, ?_⟩
  · unfold Elem.surfaceCut
    rw [hr]
    cases h1 : e.shape with
    | none => rfl
    | some sh =>
      cases h2 : e.mat with
      | none => rfl
      | some m => rw [h1, h2] at hm; simp at hm
  · unfold Elem.cutPoint
    split <;> exact ⟨rfl, rfl⟩

/-- Such an element: a stop. -/
example : (⟨Transform.init 0 V3.ez 0 none, .fin 1, none, none⟩ : Elem).radius = .fin 1 ∧
    (⟨Transform.init 0 V3.ez 0 none, .fin 1, none, none⟩ : Elem).shape = none := ⟨rfl, rfl⟩

/-- C86, cut: the points of the cut of a surface lie on the surface, in the plane of the axis and
inside of the aperture, and run from the lower to the upper rim. -/
theorem c86_cut {e : Elem} {sh : Shape} {m : Material} {r : ℝ} (hs : e.shape = some sh)
    (hm : e.mat = some m) (hr : e.radius = .fin r) (h0 : 0 ≤ r) (axis : Fin 2) {n : ℕ}
    {ps : List V3} (h : e.surfaceCut axis n = some ps) :
    ps.length = n ∧
    (∀ p ∈ ps, sh.surfaceSag p = some 0 ∧ (if axis = 0 then p.y else p.x) = 0 ∧
      Elem.inside e.radius p) ∧
    (2 ≤ n → (∃ p, ps.head? = some p ∧ (if axis = 0 then p.x else p.y) = -r) ∧
      ∃ p, ps.getLast? = some p ∧ (if axis = 0 then p.x else p.y) = r) := by
  unfold Elem.surfaceCut at h
  rw [hr, hs, hm] at h
  dsimp only at h
  obtain ⟨h1, h2⟩ := mapM_getD 0 h
  have hsag : ∀ a ∈ linspace (-r) r n, ∃ s, sh.surfaceSag (Elem.cutPoint axis a 0) = some s := by
    intro a ha
    obtain ⟨b, hb⟩ := h2 a ha
    rw [Option.map_eq_some_iff] at hb
    exact ⟨hb.choose, hb.choose_spec.1⟩
  have hcoord : ∀ a z : ℝ, (if axis = 0 then (Elem.cutPoint axis a z).x
      else (Elem.cutPoint axis a z).y) = a := by
    intro a z; unfold Elem.cutPoint; split <;> rfl
  have hval : ∀ a ∈ linspace (-r) r n, ∃ s,
      ((sh.surfaceSag (Elem.cutPoint axis a 0)).map fun s => Elem.cutPoint axis a (-s)).getD 0
        = Elem.cutPoint axis a (-s) ∧ sh.surfaceSag (Elem.cutPoint axis a 0) = some s := by
    intro a ha
    obtain ⟨s, hs⟩ := hsag a ha
    exact ⟨s, by rw [hs]; rfl, hs⟩
  have hlen : (linspace (-r) r n).length = n := by simp [linspace]
  refine ⟨by rw [h1, List.length_map, hlen], ?_, fun hn => ⟨?_, ?_⟩⟩
  · intro p hp
    rw [h1, List.mem_map] at hp
    obtain ⟨a, ha, rfl⟩ := hp
    obtain ⟨s, e1, e2⟩ := hval a ha
    rw [e1]
    obtain ⟨l1, l2⟩ := mem_linspace (by linarith) ha
    refine ⟨by rw [sag_cutPoint, e2]; simp, by unfold Elem.cutPoint; split <;> rfl, ?_⟩
    rw [hr]
    have : a ^ 2 ≤ r ^ 2 := sq_le_sq' l1 l2
    unfold Elem.cutPoint
    split <;> simp [Elem.inside, this]
  · have hh : (linspace (-r) r n).head? = some (-r) := by
      obtain ⟨k, rfl⟩ : ∃ k, n = k + 1 := ⟨n - 1, by omega⟩
      simp [linspace, List.range_succ_eq_map]
    obtain ⟨s, e1, -⟩ := hval _ (List.mem_of_head? hh)
    refine ⟨_, by rw [h1, List.head?_map, hh, Option.map_some, e1], hcoord _ _⟩
  · have hh : (linspace (-r) r n).getLast? = some r := by
      obtain ⟨k, rfl⟩ : ∃ k, n = k + 2 := ⟨n - 2, by omega⟩
      simp only [linspace, List.range_succ, List.map_append, List.map_cons, List.map_nil,
        List.getLast?_append, List.getLast?_singleton, Option.some_or]
      have : ((k + 2 - 1 : ℕ) : ℝ) = (k : ℝ) + 1 := by simp
      rw [this]
      have h1 : (k : ℝ) + 1 ≠ 0 := by positivity
      congr 1
      push_cast
      field_simp
      ring
    obtain ⟨s, e1, -⟩ := hval _ (List.mem_of_getLast? hh)
    refine ⟨_, by rw [h1, List.getLast?_map, hh, Option.map_some, e1], hcoord _ _⟩

/-- C86, closed outlines: the outline of a piece of glass runs along its first surface, over the upper
rim back along the second surface and over the lower rim to its start.  The rims consist of one
segment parallel and one perpendicular to the axis and pass through the corner at the larger of both
heights. -/
theorem c86_closed {p c o : List Pt} (h : closeOutline p c = some o) :
    ∃ p0 p1 c0 c1 cu cl : Pt, p.head? = some p0 ∧ p.getLast? = some p1 ∧ c.head? = some c0 ∧
      c.getLast? = some c1 ∧ o = p ++ cu :: (c.reverse ++ [cl, p0]) ∧
      o.head? = o.getLast? ∧
      cu.1 = max p1.1 c1.1 ∧ (cu.1 = p1.1 → cu.1 ≠ c1.1 → cu.2 = c1.2) ∧
      (cu.1 = c1.1 → cu.1 ≠ p1.1 → cu.2 = p1.2) ∧ (cu.2 = p1.2 ∨ cu.2 = c1.2) ∧
      cl.1 = min p0.1 c0.1 ∧ (cl.1 = p0.1 → cl.1 ≠ c0.1 → cl.2 = c0.2) ∧
      (cl.1 = c0.1 → cl.1 ≠ p0.1 → cl.2 = p0.2) ∧ (cl.2 = p0.2 ∨ cl.2 = c0.2) := by
  unfold closeOutline at h
  split at h
  · next p0 p1 c0 c1 h1 h2 h3 h4 =>
    cases h
    refine ⟨p0, p1, c0, c1, if c1.1 > p1.1 then (c1.1, p1.2) else (p1.1, c1.2),
      if c0.1 < p0.1 then (c0.1, p0.2) else (p0.1, c0.2), h1, h2, h3, h4, by simp,
      ?_, ?_, ?_, ?_, ?_, ?_, ?_, ?_, ?_⟩
    · have : p ≠ [] := by rintro rfl; cases h1
      rw [List.getLast?_append, List.getLast?_singleton, Option.some_or]
      simp only [List.append_assoc]
      rw [List.head?_append, h1, Option.some_or]
    all_goals split
    all_goals simp_all
    all_goals linarith
  · cases h

theorem closeOutline_subset {p c o : List Pt} (h : closeOutline p c = some o) : p ⊆ o ∧ c ⊆ o := by
  obtain ⟨_, _, _, _, _, _, -, -, -, -, rfl, -⟩ := c86_closed h
  refine ⟨fun x hx => by simp [hx], fun x hx => by simp [hx]⟩

abbrev Item := Option Material × List Pt

theorem outlines_drawn : ∀ {items : List Item} {pend : Option (List Pt)} {os : List (List Pt)},
    outlinesFrom pend items = some os →
    (∀ p, pend = some p → ∃ o ∈ os, p ⊆ o) ∧ ∀ x ∈ items, ∃ o ∈ os, x.2 ⊆ o
  | [], pend, os, h => by
    simp only [outlinesFrom, Option.some.injEq] at h
    subst h
    exact ⟨fun p hp => ⟨p, by simp [hp], fun _ h => h⟩, by simp⟩
  | (none, c) :: es, pend, os, h => by
    simp only [outlinesFrom, Option.map_eq_some_iff] at h
    obtain ⟨os', h', rfl⟩ := h
    obtain ⟨h1, h2⟩ := outlines_drawn h'
    refine ⟨fun p hp => ?_, fun x hx => ?_⟩
    · obtain ⟨o, ho, hs⟩ := h1 p hp
      exact ⟨o, by simp [ho], hs⟩
    · rcases List.mem_cons.mp hx with rfl | hx
      · exact ⟨c, by simp, fun _ h => h⟩
      · obtain ⟨o, ho, hs⟩ := h2 x hx
        exact ⟨o, by simp [ho], hs⟩
  | (some m, c) :: es, pend, os, h => by
    simp only [outlinesFrom, Option.map_eq_some_iff, Option.bind_eq_some_iff] at h
    obtain ⟨o1, ho1, os', h', rfl⟩ := h
    obtain ⟨h1, h2⟩ := outlines_drawn h'
    have hrest : ∀ x ∈ es, ∃ o ∈ o1 ++ os', x.2 ⊆ o := fun x hx => by
      obtain ⟨o, ho, hs⟩ := h2 x hx
      exact ⟨o, by simp [ho], hs⟩
    match pend with
    | some p =>
      simp only [Option.map_eq_some_iff] at ho1
      obtain ⟨o, ho, rfl⟩ := ho1
      obtain ⟨hp, hc⟩ := closeOutline_subset ho
      refine ⟨fun q hq => by cases hq; exact ⟨o, by simp, hp⟩, fun x hx => ?_⟩
      rcases List.mem_cons.mp hx with rfl | hx
      · exact ⟨o, by simp, hc⟩
      · exact hrest x hx
    | none =>
      simp only [Option.some.injEq] at ho1
      refine ⟨fun q hq => (Option.some_ne_none q hq.symm).elim, fun x hx => ?_⟩
      rcases List.mem_cons.mp hx with rfl | hx
      · by_cases hsm : (!m.solid || m.mirror) = true
        · rw [if_pos hsm] at ho1
          exact ⟨c, by simp [← ho1], fun _ h => h⟩
        · have hsol : m.solid = true := by
            cases hs : m.solid with
            | true => rfl
            | false => simp [hs] at hsm
          obtain ⟨o, ho, hs⟩ := h1 c (by simp [hsol])
          exact ⟨o, by simp [ho], hs⟩
      · exact hrest x hx

theorem outlines_mid {c : List Pt} {m : Material} {post : List Item} :
    ∀ {mid : List Item} {p : List Pt} {os : List (List Pt)}, (∀ x ∈ mid, x.1 = none) →
      outlinesFrom (some p) (mid ++ (some m, c) :: post) = some os →
      ∃ o ∈ os, closeOutline p c = some o
  | [], p, os, _, h => by
    simp only [List.nil_append, outlinesFrom, Option.map_eq_some_iff, Option.bind_eq_some_iff] at h
    obtain ⟨o1, ⟨o, ho, rfl⟩, os', h', rfl⟩ := h
    exact ⟨o, by simp, ho⟩
  | (x, d) :: mid, p, os, hx, h => by
    have hxn : x = none := hx (x, d) (by simp)
    subst hxn
    simp only [List.cons_append, outlinesFrom, Option.map_eq_some_iff] at h
    obtain ⟨os', h', rfl⟩ := h
    obtain ⟨o, ho, hc⟩ := outlines_mid (fun y hy => hx y (by simp [hy])) h'
    exact ⟨o, by simp [ho], hc⟩

theorem outlines_glass {m m' : Material} (hm : m.solid = true) {p c : List Pt} {mid post : List Item}
    (hmid : ∀ x ∈ mid, x.1 = none) :
    ∀ {pre : List Item} {pend : Option (List Pt)} {os : List (List Pt)},
      outlinesFrom pend (pre ++ (some m, p) :: (mid ++ (some m', c) :: post)) = some os →
      ∃ o ∈ os, closeOutline p c = some o
  | [], pend, os, h => by
    simp only [List.nil_append, outlinesFrom, Option.map_eq_some_iff, Option.bind_eq_some_iff, hm,
      Bool.true_or, if_true] at h
    obtain ⟨o1, -, os', h', rfl⟩ := h
    obtain ⟨o, ho, hc⟩ := outlines_mid hmid h'
    exact ⟨o, by simp [ho], hc⟩
  | (none, d) :: pre, pend, os, h => by
    simp only [List.cons_append, outlinesFrom, Option.map_eq_some_iff] at h
    obtain ⟨os', h', rfl⟩ := h
    obtain ⟨o, ho, hc⟩ := outlines_glass hm hmid h'
    exact ⟨o, by simp [ho], hc⟩
  | (some n, d) :: pre, pend, os, h => by
    simp only [List.cons_append, outlinesFrom, Option.map_eq_some_iff, Option.bind_eq_some_iff] at h
    obtain ⟨o1, -, os', h', rfl⟩ := h
    obtain ⟨o, ho, hc⟩ := outlines_glass hm hmid h'
    exact ⟨o, by simp [ho], hc⟩

/-- `o` is a closed outline between two successive surfaces of a list, the first of glass or a mirror
behind glass. -/
def ClosedIn (items : List Item) (o : List Pt) : Prop :=
  ∃ pre m p mid m' c post, items = pre ++ (some m, p) :: (mid ++ (some m', c) :: post) ∧
    (∀ x ∈ mid, x.1 = none) ∧ (m.solid = true ∨ m.mirror = true) ∧ closeOutline p c = some o

theorem ClosedIn.cons {items : List Item} {o : List Pt} (x : Item) (h : ClosedIn items o) :
    ClosedIn (x :: items) o := by
  obtain ⟨pre, m, p, mid, m', c, post, rfl, h⟩ := h
  exact ⟨x :: pre, m, p, mid, m', c, post, rfl, h⟩

theorem outlines_sound : ∀ {items : List Item} {pend : Option (List Pt)} {os : List (List Pt)},
    outlinesFrom pend items = some os → ∀ o ∈ os,
      pend = some o ∨ (∃ x ∈ items, o = x.2) ∨ ClosedIn items o ∨
      ∃ p mid m' c post, pend = some p ∧ items = mid ++ (some m', c) :: post ∧
        (∀ x ∈ mid, x.1 = none) ∧ closeOutline p c = some o
  | [], pend, os, h, o, ho => by
    simp only [outlinesFrom, Option.some.injEq] at h
    subst h
    left; simpa using ho
  | (none, c) :: es, pend, os, h, o, ho => by
    simp only [outlinesFrom, Option.map_eq_some_iff] at h
    obtain ⟨os', h', rfl⟩ := h
    rcases List.mem_cons.mp ho with rfl | ho
    · right; left; exact ⟨_, List.mem_cons_self, rfl⟩
    · rcases outlines_sound h' o ho with h1 | ⟨x, hx, rfl⟩ | h1 | ⟨p, mid, m', d, post, h1, rfl, h3, h4⟩
      · exact Or.inl h1
      · exact Or.inr (Or.inl ⟨x, by simp [hx], rfl⟩)
      · exact Or.inr (Or.inr (Or.inl (h1.cons _)))
      · refine Or.inr (Or.inr (Or.inr ⟨p, (none, c) :: mid, m', d, post, h1, rfl, ?_, h4⟩))
        intro x hx
        rcases List.mem_cons.mp hx with rfl | hx
        · rfl
        · exact h3 x hx
  | (some m, c) :: es, pend, os, h, o, ho => by
    simp only [outlinesFrom, Option.map_eq_some_iff, Option.bind_eq_some_iff] at h
    obtain ⟨o1, ho1, os', h', rfl⟩ := h
    rcases List.mem_append.mp ho with hin | hin
    · match pend with
      | some p =>
        simp only [Option.map_eq_some_iff] at ho1
        obtain ⟨o', ho', rfl⟩ := ho1
        rw [List.mem_singleton] at hin
        subst hin
        exact Or.inr (Or.inr (Or.inr ⟨p, [], m, c, es, rfl, rfl, by simp, ho'⟩))
      | none =>
        simp only [Option.some.injEq] at ho1
        subst ho1
        split at hin
        · rw [List.mem_singleton] at hin
          exact Or.inr (Or.inl ⟨_, List.mem_cons_self, hin⟩)
        · simp at hin
    · have hp : ∀ q, (if m.solid || pend.isSome && m.mirror then some c else none) = some q →
          q = c ∧ (m.solid = true ∨ m.mirror = true) := by
        intro q hq
        split at hq
        · next hh =>
          cases hq
          refine ⟨rfl, ?_⟩
          rw [Bool.or_eq_true, Bool.and_eq_true] at hh
          exact hh.imp_right And.right
        · cases hq
      rcases outlines_sound h' o hin with h1 | ⟨x, hx, rfl⟩ | h1 | ⟨p, mid, m', d, post, h1, rfl, h3, h4⟩
      · obtain ⟨rfl, -⟩ := hp o h1
        exact Or.inr (Or.inl ⟨_, List.mem_cons_self, rfl⟩)
      · exact Or.inr (Or.inl ⟨x, by simp [hx], rfl⟩)
      · exact Or.inr (Or.inr (Or.inl (h1.cons _)))
      · obtain ⟨rfl, hm⟩ := hp p h1
        exact Or.inr (Or.inr (Or.inl ⟨[], m, p, mid, m', d, post, rfl, h3, hm, h4⟩))

section
variable {sys : List Elem} {axis : Fin 2} {n : ℕ} {os : List (List Pt)}

theorem surfacesCut_items (h : surfacesCut sys axis n = some os) :
    outlinesFrom none (((origins sys).zip sys).map fun oe =>
      (oe.2.mat, (cutAt axis n oe.1 oe.2).getD [])) = some os ∧
    ∀ oe ∈ (origins sys).zip sys, ∃ c, cutAt axis n oe.1 oe.2 = some c := by
  unfold surfacesCut at h
  rw [Option.bind_eq_some_iff] at h
  obtain ⟨items, hi, h⟩ := h
  obtain ⟨h1, h2⟩ := mapM_getD (none, []) hi
  have h3 : ∀ oe ∈ (origins sys).zip sys, ∃ c, cutAt axis n oe.1 oe.2 = some c := by
    intro oe hoe
    obtain ⟨b, hb⟩ := h2 oe hoe
    rw [Option.map_eq_some_iff] at hb
    exact ⟨hb.choose, hb.choose_spec.1⟩
  refine ⟨?_, h3⟩
  rw [h1] at h
  rw [← h]
  congr 1
  apply List.map_congr_left
  intro oe hoe
  obtain ⟨c, hc⟩ := h3 oe hoe
  simp [hc]

/-- C86, drawing: every element of the system is drawn, at its place, as part of an outline. -/
theorem c86_drawn (h : surfacesCut sys axis n = some os) {pos : V3} {e : Elem}
    (he : (pos, e) ∈ (origins sys).zip sys) :
    ∃ c, cutAt axis n pos e = some c ∧ ∃ o ∈ os, c ⊆ o := by
  obtain ⟨h1, h2⟩ := surfacesCut_items h
  obtain ⟨c, hc⟩ := h2 _ he
  obtain ⟨o, ho, hs⟩ := (outlines_drawn h1).2 _ (List.mem_map_of_mem he)
  exact ⟨c, hc, o, ho, by simpa [hc] using hs⟩

/-- C86, drawing: the outline between a surface with glass behind it and the next surface is drawn
closed; elements without material between them do not matter. -/
theorem c86_glass (h : surfacesCut sys axis n = some os) {pre mid post : List (V3 × Elem)}
    {pos pos' : V3} {e e' : Elem} {m m' : Material}
    (hsys : (origins sys).zip sys = pre ++ (pos, e) :: (mid ++ (pos', e') :: post))
    (hm : e.mat = some m) (hsol : m.solid = true) (hmid : ∀ x ∈ mid, x.2.mat = none)
    (hm' : e'.mat = some m') : ∃ p c o, cutAt axis n pos e = some p ∧ cutAt axis n pos' e' = some c ∧
      closeOutline p c = some o ∧ o ∈ os := by
  obtain ⟨h1, h2⟩ := surfacesCut_items h
  obtain ⟨p, hp⟩ := h2 (pos, e) (by simp [hsys])
  obtain ⟨c, hc⟩ := h2 (pos', e') (by simp [hsys])
  rw [hsys] at h1
  simp only [List.map_append, List.map_cons, hp, hc, hm, hm', Option.getD_some] at h1
  obtain ⟨o, ho, hcl⟩ := outlines_glass hsol (fun x hx => by
    obtain ⟨y, hy, rfl⟩ := List.mem_map.mp hx
    exact hmid y hy) h1
  exact ⟨p, c, o, hp, hc, hcl, ho⟩

/-- C86, drawing: nothing else is drawn. Every outline is the cut of one element or closes the space
between two successive surfaces, the first of which is followed by glass or is a mirror. -/
theorem c86_sound (h : surfacesCut sys axis n = some os) {o : List Pt} (ho : o ∈ os) :
    (∃ x ∈ (origins sys).zip sys, cutAt axis n x.1 x.2 = some o) ∨
    ∃ pre x mid y post, ∃ (m m' : Material) (p c : List Pt),
      (origins sys).zip sys = pre ++ x :: (mid ++ y :: post) ∧
      x.2.mat = some m ∧ (m.solid = true ∨ m.mirror = true) ∧ (∀ z ∈ mid, z.2.mat = none) ∧
      y.2.mat = some m' ∧ cutAt axis n x.1 x.2 = some p ∧ cutAt axis n y.1 y.2 = some c ∧
      closeOutline p c = some o := by
  obtain ⟨h1, h2⟩ := surfacesCut_items h
  rcases outlines_sound h1 o ho with h3 | ⟨x, hx, rfl⟩ | ⟨pre, m, p, mid, m', c, post, heq, h3, h4, h5⟩ |
    ⟨_, _, _, _, _, h3, _⟩
  · cases h3
  · rw [List.mem_map] at hx
    obtain ⟨y, hy, rfl⟩ := hx
    obtain ⟨c, hc⟩ := h2 y hy
    exact Or.inl ⟨y, hy, by simp [hc]⟩
  · right
    obtain ⟨pre', rest, e1, rfl, e2⟩ := List.map_eq_append_iff.mp heq
    obtain ⟨x, rest', rfl, hx, e3⟩ := List.map_eq_cons_iff.mp e2
    obtain ⟨mid', rest'', rfl, rfl, e4⟩ := List.map_eq_append_iff.mp e3
    obtain ⟨y, post', rfl, hy, rfl⟩ := List.map_eq_cons_iff.mp e4
    obtain ⟨p', hp'⟩ := h2 x (by simp [e1])
    obtain ⟨c', hc'⟩ := h2 y (by simp [e1])
    simp only [hp', hc', Option.getD_some, Prod.mk.injEq] at hx hy
    obtain ⟨hx1, rfl⟩ := hx
    obtain ⟨hy1, rfl⟩ := hy
    refine ⟨pre', x, mid', y, post', m, m', p', c', e1, hx1, h4, ?_, hy1, hp', hc', h5⟩
    intro z hz
    exact h3 _ (List.mem_map_of_mem hz)
  · cases h3

end

open DrawEx

/-- A plane plate with a smaller second surface: the outline is closed over the corners at the height
of the first surface. -/
example : closeOutline [(-2, 0), (2, 0)] [(-1, 1), (1, 1)]
    = some [(-2, 0), (2, 0), (2, 1), (1, 1), (-1, 1), (-2, 1), (-2, 0)] := by
  simp [closeOutline]

/-- The drawing of such a plate: the closed outline and the pending cut of nothing. -/
example : surfacesCut [surf 0 2 (some glass), surf 0 1 (some air)] 1 2
    = some [[(-2, 1), (2, 1), (2, 2), (1, 2), (-1, 2), (-2, 2), (-2, 1)]] := by
  have ho := onAxis_update 1 1 zero_le_one (Or.inl rfl)
  have hd : (Transform.update 1 ⟨0, 0, 1⟩ 0).distance = 1 := by
    have := init_distance (d := 1) zero_le_one
    exact this
  have ht : tf 1 = Transform.update 1 ⟨0, 0, 1⟩ 0 := rfl
  have hoff : (tf 1).offset = ⟨0, 0, 1⟩ := by rw [ht, ho.off, hd]; simp
  have hfr : (tf 1).fromNormal = fun v => v := by
    funext v; rw [ht, ho.back]; ext <;> simp [V3.turn]
  simp [surfacesCut, origins, cutAt, Elem.surfaceCut, surf, Elem.mat, linspace, hoff, hfr,
    outlinesFrom, List.range_succ, Elem.cutPoint, Shape.surfaceSag, toPt, glass, air, closeOutline]
  norm_num

end RayOpt
