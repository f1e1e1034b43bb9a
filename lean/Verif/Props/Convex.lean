import Verif.Model.Drawing
import Mathlib.Tactic

/-!
C86, first part: `System.resize_convex`.
-/

namespace RayOpt

open Sys

/-- Comparison of radii. -/
def Radius.Le : Radius → Radius → Prop
  | _, .inf => True
  | .inf, .fin _ => False
  | .fin a, .fin b => a ≤ b

namespace Radius

theorem Le.refl (a : Radius) : a.Le a := by cases a <;> simp [Le]

theorem Le.trans {a b c : Radius} (h : a.Le b) (h' : b.Le c) : a.Le c := by
  cases a <;> cases b <;> cases c <;> simp_all [Le]
  exact h.trans h'

theorem le_max_left (a b : Radius) : a.Le (a.max b) := by
  cases a <;> cases b <;> simp [Le, Radius.max]

theorem le_max_right (a b : Radius) : b.Le (a.max b) := by
  cases a <;> cases b <;> simp [Le, Radius.max]

theorem max_eq (a b : Radius) : a.max b = a ∨ a.max b = b := by
  cases a <;> cases b <;> simp [Radius.max, le_total]

end Radius

/-- The surfaces `p` and `q` of a list of elements close a piece of glass (or what the code takes for
it): both are interfaces and neither first nor last, `q` is the first interface after `p`, and the
space after `p` is not filled with a gas. -/
def Closing (sys : List Elem) (p q : ℕ) : Prop :=
  1 ≤ p ∧ p < q ∧ q + 1 < sys.length ∧
  (∃ e, sys[p]? = some e ∧ e.material ≠ none ∧ (e.mat = none ∨ ∃ m, e.mat = some m ∧ m.solid = true)) ∧
  (∃ e, sys[q]? = some e ∧ e.material ≠ none) ∧
  ∀ k, p < k → k < q → ∀ e, sys[k]? = some e → e.material = none

/-- The elements with new radii. -/
def withRad (sys : List Elem) (f : ℕ → Radius) : List Elem :=
  sys.mapIdx fun k e => { e with radius := f k }

theorem withRad_get (sys : List Elem) (f : ℕ → Radius) (k : ℕ) :
    (withRad sys f)[k]? = sys[k]?.map fun e => { e with radius := f k } := by
  simp [withRad]

theorem withRad_set (sys : List Elem) (f : ℕ → Radius) (i : ℕ) (e : Elem) (h : sys[i]? = some e)
    (r : Radius) : (withRad sys f).set i { e with radius := r } = withRad sys (Function.update f i r) := by
  apply List.ext_getElem?
  intro k
  rw [withRad_get, List.getElem?_set]
  have hl : i < (withRad sys f).length := by
    simp only [withRad, List.length_mapIdx]
    exact (List.getElem?_eq_some_iff.mp h).1
  by_cases hk : i = k
  · subst hk; simp [h, hl]
  · rw [if_neg hk, withRad_get, Function.update_of_ne (Ne.symm hk)]

/-- The radii the elements have. -/
def radOf (sys : List Elem) (k : ℕ) : Radius := match sys[k]? with
  | none => .inf
  | some e => e.radius

theorem withRad_radOf (sys : List Elem) : withRad sys (radOf sys) = sys := by
  apply List.ext_getElem?
  intro k
  rw [withRad_get, radOf]
  cases sys[k]? <;> rfl

theorem opens_iff (e : Elem) :
    e.opens = true ↔ (e.mat = none ∨ ∃ m, e.mat = some m ∧ m.solid = true) := by
  unfold Elem.opens; cases e.mat <;> simp

/-- Invariant of the loop of `resize_convex` before the element at `i`. -/
structure ConvexInv (sys : List Elem) (f : ℕ → Radius) (pend : Option (ℕ × ℝ)) (i : ℕ) : Prop where
  zero : f 0 = radOf sys 0
  later : ∀ k, i ≤ k → f k = radOf sys k
  grow : ∀ k, (radOf sys k).Le (f k)
  old : ∀ k, k < sys.length → ∃ j, j < sys.length ∧ f k = radOf sys j
  last : ∀ p c, pend = some (p, c) → ∃ e, 1 ≤ p ∧ p < i ∧ sys[p]? = some e ∧ e.material ≠ none ∧
    e.opens = true ∧ c = e.curv ∧ ∀ k, p < k → k < i → ∀ e, sys[k]? = some e → e.material = none
  shut : pend = none → ∀ p, 1 ≤ p → p < i → (∀ k, p < k → k < i → ∀ e, sys[k]? = some e →
    e.material = none) → ∀ e, sys[p]? = some e → e.material ≠ none → e.opens = false
  back : ∀ p q, Closing sys p q → q < i → ∀ e, sys[q]? = some e → e.curv ≤ 0 → (f p).Le (f q)
  front : ∀ p q, Closing sys p q → q < i → ∀ e e', sys[p]? = some e → sys[q]? = some e' →
    0 < e.curv → (e'.curv ≤ 0 ∨ ∀ k, k < i → ¬Closing sys q k) → (f q).Le (f p)

theorem closing_unique {sys : List Elem} {p p' q : ℕ} (h : Closing sys p q) (h' : Closing sys p' q) :
    p = p' := by
  obtain ⟨-, h2, -, ⟨e, he, hm, -⟩, -, h6⟩ := h
  obtain ⟨-, h2', -, ⟨e', he', hm', -⟩, -, h6'⟩ := h'
  rcases lt_trichotomy p p' with hlt | rfl | hlt
  · exact absurd (h6 p' hlt h2' e' he') hm'
  · rfl
  · exact absurd (h6' p hlt h2 e he) hm

theorem convexStep_inv (sys : List Elem) (f : ℕ → Radius) (pend : Option (ℕ × ℝ)) (i : ℕ) (hi : 1 ≤ i)
    (hl : i + 1 < sys.length) (h : ConvexInv sys f pend i) :
    ∃ f' pend', convexStep (withRad sys f, pend) i = (withRad sys f', pend') ∧
      ConvexInv sys f' pend' (i + 1) := by
  obtain ⟨el, hel⟩ : ∃ el, sys[i]? = some el := ⟨sys[i], by simp⟩
  have hfi : f i = el.radius := by rw [h.later i le_rfl, radOf, hel]
  have hgi : (withRad sys f)[i]? = some el := by
    rw [withRad_get, hel, Option.map_some, hfi]
  unfold convexStep
  simp only [hgi]
  by_cases hm : el.material = none
  · rw [if_pos hm]
    have hstep : ∀ p, (∀ k, p < k → k < i → ∀ e, sys[k]? = some e → e.material = none) →
        ∀ k, p < k → k < i + 1 → ∀ e, sys[k]? = some e → e.material = none := by
      intro p hp k hk hki e he
      rcases Nat.lt_succ_iff_lt_or_eq.mp hki with hlt | rfl
      · exact hp k hk hlt e he
      · rw [hel] at he; cases he; exact hm
    refine ⟨f, pend, rfl, h.zero, fun k hk => h.later k (by omega), h.grow, h.old, ?_, ?_, ?_, ?_⟩
    · intro p c hp
      obtain ⟨e, h1, h2, h3, h4, h5, h6, h7⟩ := h.last p c hp
      exact ⟨e, h1, by omega, h3, h4, h5, h6, hstep p h7⟩
    · intro hn p h1 h2 h3 e he hem
      rcases Nat.lt_succ_iff_lt_or_eq.mp h2 with hlt | rfl
      · exact h.shut hn p h1 hlt (fun k hk hki => h3 k hk (by omega)) e he hem
      · rw [hel] at he; cases he; exact absurd hm hem
    · intro p q hc hq e he hcu
      have : q ≠ i := by
        rintro rfl
        obtain ⟨-, -, -, -, ⟨e', he', hm'⟩, -⟩ := hc
        rw [hel] at he'; cases he'; exact hm' hm
      exact h.back p q hc (by omega) e he hcu
    · intro p q hc hq e e' he he' hcu hor
      have : q ≠ i := by
        rintro rfl
        obtain ⟨-, -, -, -, ⟨e', he', hm'⟩, -⟩ := hc
        rw [hel] at he'; cases he'; exact hm' hm
      exact h.front p q hc (by omega) e e' he he' hcu (hor.imp_right fun hk k hki => hk k (by omega))
  · rw [if_neg hm]
    -- the part about `pend` is common
    have hpend : ∀ p c, (if el.opens = true then some (i, el.curv) else Option.none) = some (p, c) →
        ∃ e, 1 ≤ p ∧ p < i + 1 ∧ sys[p]? = some e ∧ e.material ≠ none ∧ e.opens = true ∧ c = e.curv ∧
          ∀ k, p < k → k < i + 1 → ∀ e, sys[k]? = some e → e.material = none := by
      intro p c hp
      split at hp
      · next ho => cases hp; exact ⟨el, hi, by omega, hel, hm, ho, rfl, fun k hk hki => by omega⟩
      · cases hp
    have hnone : (if el.opens = true then some (i, el.curv) else Option.none) = none →
        ∀ p, 1 ≤ p → p < i + 1 → (∀ k, p < k → k < i + 1 → ∀ e, sys[k]? = some e →
          e.material = none) → ∀ e, sys[p]? = some e → e.material ≠ none → e.opens = false := by
      intro hn p h1 h2 h3 e he hem
      split at hn
      · cases hn
      · next ho =>
        rcases Nat.lt_succ_iff_lt_or_eq.mp h2 with hlt | rfl
        · exact absurd (h3 i hlt (by omega) el hel) hm
        · rw [hel] at he; cases he; simpa using ho
    match hpd : pend with
    | none =>
      refine ⟨f, _, rfl, h.zero, fun k hk => h.later k (by omega), h.grow, h.old, hpend, hnone, ?_, ?_⟩
      all_goals
        intro p q hc hq
        have hqi : q ≠ i := by
          rintro rfl
          obtain ⟨h1, h2, -, ⟨e, he, hem, ho⟩, -, h6⟩ := hc
          have := h.shut rfl p h1 h2 h6 e he hem
          rw [(opens_iff e).mpr ho] at this
          cases this
      · exact h.back p q hc (by omega)
      · intro e e' he he' hcu hor
        exact h.front p q hc (by omega) e e' he he' hcu (hor.imp_right fun hk k hki => hk k (by omega))
    | some (p, c0) =>
      obtain ⟨pe, h1, h2, hpe, hpm, hpo, rfl, h7⟩ := h.last p c0 rfl
      have hgp : (withRad sys f)[p]? = some { pe with radius := f p } := by rw [withRad_get, hpe]; rfl
      have hcl : Closing sys p i :=
        ⟨h1, h2, hl, ⟨pe, hpe, hpm, (opens_iff pe).mp hpo⟩, ⟨el, hel, hm⟩, h7⟩
      set R := Radius.max el.radius (f p) with hR
      let f1 := if el.curv ≤ 0 then Function.update f i R else f
      let f2 := if pe.curv > 0 then Function.update f1 p R else f1
      have hs1 : (if el.curv ≤ 0 then (withRad sys f).set i { el with radius := R } else withRad sys f)
          = withRad sys f1 := by
        simp only [f1]
        split
        · rw [withRad_set _ _ _ _ hel]
        · rfl
      have hs2 : (if pe.curv > 0 then (withRad sys f1).set p { pe with radius := R }
          else withRad sys f1) = withRad sys f2 := by
        simp only [f2]
        split
        · rw [withRad_set _ _ _ _ hpe]
        · rfl
      have hne : p ≠ i := by omega
      have hf2k : ∀ k, k ≠ p → k ≠ i → f2 k = f k := by
        intro k hkp hki
        simp only [f2, f1]
        split <;> split <;> simp [Function.update_of_ne, hkp, hki]
      have hf2i : f2 i = if el.curv ≤ 0 then R else el.radius := by
        simp only [f2, f1]
        split <;> split <;> simp [hne.symm, hfi]
      have hf2p : f2 p = if pe.curv > 0 then R else f p := by
        simp only [f2, f1]
        split <;> split <;> simp [hne]
      have hri : el.radius.Le R := Radius.le_max_left _ _
      have hrp : (f p).Le R := Radius.le_max_right _ _
      have hil : i < sys.length := by omega
      have hRold : ∃ j, j < sys.length ∧ R = radOf sys j := by
        rcases Radius.max_eq el.radius (f p) with hh | hh
        · exact ⟨i, hil, by rw [hR, hh, ← hfi, h.later i le_rfl]⟩
        · obtain ⟨j, hj, e⟩ := h.old p (by omega)
          exact ⟨j, hj, by rw [hR, hh, e]⟩
      refine ⟨f2, _, ?_, ?_, ?_, ?_, ?_, hpend, hnone, ?_, ?_⟩
      · simp only [hgp, hs1, ← hR]
        rw [hs2]
      · rw [hf2k 0 (by omega) (by omega)]; exact h.zero
      · intro k hk
        rw [hf2k k (by omega) (by omega)]; exact h.later k (by omega)
      · intro k
        by_cases hkp : k = p
        · subst hkp
          rw [hf2p]
          split
          · exact (h.grow k).trans hrp
          · exact h.grow k
        · by_cases hki : k = i
          · subst hki
            rw [hf2i, ← h.later k le_rfl, hfi]
            split
            · exact hri
            · exact Radius.Le.refl _
          · rw [hf2k k hkp hki]; exact h.grow k
      · intro k hk
        by_cases hkp : k = p
        · subst hkp
          rw [hf2p]
          split
          · exact hRold
          · exact h.old k hk
        · by_cases hki : k = i
          · subst hki
            rw [hf2i]
            split
            · exact hRold
            · exact ⟨k, hk, by rw [← hfi, h.later k le_rfl]⟩
          · rw [hf2k k hkp hki]; exact h.old k hk
      · intro a q hc hq e he hcu
        by_cases hqi : q = i
        · subst hqi
          rw [hel] at he; cases he
          rw [closing_unique hc hcl, hf2i, if_pos hcu, hf2p]
          split
          · exact Radius.Le.refl _
          · exact hrp
        · have hqlt : q < i := by omega
          have hap : a ≠ p := by
            rintro rfl
            obtain ⟨-, hlt, -, -, ⟨e', he', hm'⟩, -⟩ := hc
            exact hm' (h7 q hlt hqlt e' he')
          have hai : a ≠ i := by have := hc.2.1; omega
          rw [hf2k a hap hai]
          have hb := h.back a q hc hqlt e he hcu
          by_cases hqp : q = p
          · subst hqp
            rw [hpe] at he; cases he
            rw [hf2p, if_neg (not_lt.mpr hcu)]
            exact hb
          · rw [hf2k q hqp hqi]; exact hb
      · intro a q hc hq e e' he he' hcu hor
        by_cases hqi : q = i
        · subst hqi
          have hap := closing_unique hc hcl
          subst hap
          rw [hpe] at he; cases he
          rw [hf2i, hf2p, if_pos hcu]
          split
          · exact Radius.Le.refl _
          · exact hri
        · have hqlt : q < i := by omega
          have hap : a ≠ p := by
            rintro rfl
            obtain ⟨-, hlt, -, -, ⟨e', he', hm'⟩, -⟩ := hc
            exact hm' (h7 q hlt hqlt e' he')
          have hai : a ≠ i := by have := hc.2.1; omega
          rw [hf2k a hap hai]
          by_cases hqp : q = p
          · subst hqp
            rcases hor with hcq | hno
            · rw [hpe] at he'; cases he'
              rw [hf2p, if_neg (not_lt.mpr hcq)]
              exact h.front a q hc hqlt e pe he hpe hcu (Or.inl hcq)
            · exact absurd hcl (hno i (by omega))
          · rw [hf2k q hqp hqi]
            exact h.front a q hc hqlt e e' he he' hcu
              (hor.imp_right fun hk k hki => hk k (by omega))

theorem convexInv_start (sys : List Elem) : ConvexInv sys (radOf sys) none 1 := by
  refine ⟨rfl, fun _ _ => rfl, fun k => Radius.Le.refl _, fun k hk => ⟨k, hk, rfl⟩, ?_, ?_, ?_, ?_⟩
  · intro p c h; cases h
  · intro _ p h1 h2; omega
  · intro p q hc hq; have := hc.2.1; omega
  · intro p q hc hq; have := hc.2.1; omega

theorem resizeConvex_inv (sys : List Elem) : ∃ f pend, resizeConvex sys = withRad sys f ∧
    ConvexInv sys f pend (1 + (sys.length - 2)) := by
  have key : ∀ n, n ≤ sys.length - 2 → ∃ f pend,
      (List.range' 1 n).foldl convexStep (sys, none) = (withRad sys f, pend) ∧
      ConvexInv sys f pend (1 + n) := by
    intro n
    induction n with
    | zero =>
      intro _
      exact ⟨radOf sys, none, by rw [withRad_radOf]; rfl, convexInv_start sys⟩
    | succ n ih =>
      intro hn
      obtain ⟨f, pend, he, hinv⟩ := ih (by omega)
      obtain ⟨f', pend', hs, hinv'⟩ := convexStep_inv sys f pend (1 + n) (by omega) (by omega) hinv
      refine ⟨f', pend', ?_, by rwa [Nat.add_assoc] at hinv'⟩
      rw [List.range'_1_concat, List.foldl_append, he, List.foldl_cons, hs, List.foldl_nil]
  obtain ⟨f, pend, he, hinv⟩ := key _ le_rfl
  exact ⟨f, pend, by unfold resizeConvex; rw [he], hinv⟩

/-- C86: `resize_convex` changes nothing but radii; it makes no element smaller and gives each the
radius of some element of the system; object and image keep theirs. -/
theorem c86_grow (sys : List Elem) : (resizeConvex sys).length = sys.length ∧
    (∀ (k : ℕ) (e : Elem), sys[k]? = some e → ∃ r, (resizeConvex sys)[k]? = some { e with radius := r } ∧
      e.radius.Le r ∧ ∃ e' ∈ sys, r = e'.radius) ∧
    (resizeConvex sys)[0]? = sys[0]? ∧
    (resizeConvex sys)[sys.length - 1]? = sys[sys.length - 1]? := by
  obtain ⟨f, pend, he, hinv⟩ := resizeConvex_inv sys
  rw [he]
  have hsame : ∀ k, f k = radOf sys k → (withRad sys f)[k]? = sys[k]? := by
    intro k hk
    rw [withRad_get, hk, radOf]
    cases sys[k]? <;> rfl
  refine ⟨by simp [withRad], fun k e hk => ⟨f k, by rw [withRad_get, hk]; rfl, ?_, ?_⟩,
    hsame 0 hinv.zero, ?_⟩
  · have := hinv.grow k
    rwa [radOf, hk] at this
  · obtain ⟨j, hj, e'⟩ := hinv.old k (List.getElem?_eq_some_iff.mp hk).1
    refine ⟨sys[j], List.getElem_mem hj, ?_⟩
    rw [e', radOf, List.getElem?_eq_getElem hj]
  · by_cases h2 : 2 ≤ sys.length
    · exact hsame _ (hinv.later _ (by omega))
    · have : sys.length - 1 = 0 := by omega
      rw [this]; exact hsame 0 hinv.zero

/-- C86, second surface: where two surfaces close a piece of glass, the second one is afterwards at
least as large as the first if it is convex or plane. -/
theorem c86_back (sys : List Elem) {p q : ℕ} (h : Closing sys p q) {e a b : Elem}
    (he : sys[q]? = some e) (hc : e.curv ≤ 0) (ha : (resizeConvex sys)[p]? = some a)
    (hb : (resizeConvex sys)[q]? = some b) : a.radius.Le b.radius := by
  obtain ⟨f, pend, heq, hinv⟩ := resizeConvex_inv sys
  rw [heq, withRad_get] at ha hb
  have := hinv.back p q h (by have := h.2.2.1; omega) e he hc
  simp only [Option.map_eq_some_iff] at ha hb
  obtain ⟨_, -, rfl⟩ := ha
  obtain ⟨_, -, rfl⟩ := hb
  exact this

/-- C86, first surface: it is afterwards at least as large as the second if it is convex, unless the
second one is cemented to another piece of glass and convex towards it. -/
theorem c86_front (sys : List Elem) {p q : ℕ} (h : Closing sys p q) {e e' a b : Elem}
    (he : sys[p]? = some e) (he' : sys[q]? = some e') (hc : 0 < e.curv)
    (hor : e'.curv ≤ 0 ∨ ∀ k, ¬Closing sys q k) (ha : (resizeConvex sys)[p]? = some a)
    (hb : (resizeConvex sys)[q]? = some b) : b.radius.Le a.radius := by
  obtain ⟨f, pend, heq, hinv⟩ := resizeConvex_inv sys
  rw [heq, withRad_get] at ha hb
  have := hinv.front p q h (by have := h.2.2.1; omega) e e' he he' hc
    (hor.imp_right fun hk k _ => hk k)
  simp only [Option.map_eq_some_iff] at ha hb
  obtain ⟨_, -, rfl⟩ := ha
  obtain ⟨_, -, rfl⟩ := hb
  exact this

namespace DrawEx

noncomputable def tf (d : ℝ) : Transform := Transform.init d V3.ez 0 none
noncomputable def glass : Material := ⟨false, true, fun _ => 3 / 2⟩
noncomputable def air : Material := ⟨false, false, fun _ => 1⟩
/-- A surface. -/
noncomputable def surf (c r : ℝ) (m : Option Material) : Elem :=
  ⟨tf 1, .fin r, some ⟨c, 0, none, false⟩, some m⟩
/-- Object or image. -/
noncomputable def plane : Elem := ⟨tf 1, .fin 1, none, none⟩

end DrawEx

open DrawEx

/-- A biconvex lens whose second surface is larger: the first one becomes as large. -/
example : resizeConvex [plane, surf (1/10) 2 (some glass), surf (-1/10) 3 (some air), plane]
    = [plane, surf (1/10) 3 (some glass), surf (-1/10) 3 (some air), plane] := by
  simp [resizeConvex, convexStep, plane, surf, Elem.curv, Elem.opens, Elem.mat, Radius.max, glass, air,
    List.range']
  norm_num

/-- The hypotheses of `c86_back` and `c86_front` hold for that lens. -/
example : Closing [plane, surf (1/10) 2 (some glass), surf (-1/10) 3 (some air), plane] 1 2 := by
  refine ⟨by norm_num, by norm_num, by norm_num, ⟨_, rfl, by simp [surf], Or.inr ⟨glass, rfl, rfl⟩⟩,
    ⟨_, rfl, by simp [surf]⟩, fun k h1 h2 => by omega⟩

/-- C86, violation: in a cemented group whose first two surfaces are convex towards the object the
first one stays smaller than the second when the third is larger. -/
theorem c86_cement_violation :
    let sys := [plane, surf (1/10) 2 (some glass), surf (1/20) 2 (some glass), surf 0 3 (some air), plane]
    Closing sys 1 2 ∧ (resizeConvex sys)[1]? = some (surf (1/10) 2 (some glass)) ∧
      (resizeConvex sys)[2]? = some (surf (1/20) 3 (some glass)) := by
  refine ⟨⟨by norm_num, by norm_num, by norm_num, ⟨_, rfl, by simp [surf], Or.inr ⟨glass, rfl, rfl⟩⟩,
    ⟨_, rfl, by simp [surf]⟩, fun k h1 h2 => by omega⟩, ?_, ?_⟩ <;>
  · simp [resizeConvex, convexStep, plane, surf, Elem.curv, Elem.opens, Elem.mat, Radius.max, glass, air,
      List.range']
    try norm_num

/-- C86, violation: a stop (an element without material) between two surfaces of a lens is enlarged to
the size of the surface before it. -/
theorem c86_stop_violation :
    let sys := [plane, surf (1/10) 3 (some glass), surf 0 1 none, surf (-1/10) 3 (some air), plane]
    (resizeConvex sys)[2]? = some (surf 0 3 none) := by
  simp [resizeConvex, convexStep, plane, surf, Elem.curv, Elem.opens, Elem.mat, Radius.max, glass, air,
    List.range']

/-- C86, violation: a hemisphere followed by a larger plane gets a radius at which it has no surface:
its edge sag is NaN. -/
theorem c86_rim_violation :
    let sys := [plane, surf 1 1 (some glass), surf 0 2 (some air), plane]
    ∃ e e', sys[1]? = some e ∧ (resizeConvex sys)[1]? = some e' ∧
      (∃ sh, e.shape = some sh ∧ sh.edgeSag e.radius ≠ none) ∧
      (∃ sh, e'.shape = some sh ∧ sh.edgeSag e'.radius = none) := by
  refine ⟨surf 1 1 (some glass), surf 1 2 (some glass), rfl, ?_, ⟨_, rfl, ?_⟩, ⟨_, rfl, ?_⟩⟩
  · simp [resizeConvex, convexStep, plane, surf, Elem.curv, Elem.opens, Elem.mat, Radius.max, glass, air,
      List.range']
  · simp [surf, Shape.edgeSag, Shape.surfaceSag, Shape.rsq]
  · simp [surf, Shape.edgeSag, Shape.surfaceSag, Shape.rsq]; norm_num

end RayOpt
