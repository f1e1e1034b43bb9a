import Verif.Model.GlassFile
import Verif.Props.Parse
import Mathlib.Tactic

/-!
# C81: glass catalogues are read as written

Statements about `agf_read`, `agf_to_material` (rayopt/zemax.py), `glc_read`, `glc_to_material`
(rayopt/oslo.py), rayopt/codev.py and rayopt/rii.py.
-/

namespace RayOpt.GlassFile

open RayOpt.Parse (Text Err Num strip tokens last last_nil last_cons runL runL_field runL_total
  runL_append_ok runL_cons_ok Word)
open RayOpt.Glass (Formula agfFormula glcFormula riiFormula)

variable (env : Env)

/-! ## Catalogues of Zemax -/

/-- The text before the first blank. -/
def keyword (line : Text) : Text := line.takeWhile (· ≠ ' ')

/-- The text after the first blank. -/
def arguments (line : Text) : Text := (line.dropWhile (· ≠ ' ')).drop 1

/-- Blank lines, lines that start with an exclamation mark and comments of the catalogue. -/
def Skipped (line : Text) : Prop :=
  strip line = [] ∨ line.head? = some '!' ∨ (' ' ∈ line ∧ keyword line = ['C', 'C'])

open Classical in
/-- The other lines. -/
noncomputable def kept (lines : List Text) : List Text := lines.filter fun l => ¬ Skipped l

def gcOf (l : Text) : Option Text := if keyword l = ['G', 'C'] then some (arguments l) else none

def edOf (l : Text) : Option (Option Num × Option Num) :=
  if keyword l = ['E', 'D'] then
    match tokens (arguments l) with
    | a0 :: _ :: a2 :: _ => some (env.float a0, env.float a2)
    | _ => none
  else none

/-- An entry and its lines: a line `NM` and further lines up to the next one. -/
def IsGroup (g : List Text) (e : Entry) : Prop :=
  ∃ h t, g = h :: t ∧ keyword h = ['N', 'M'] ∧ (∀ l ∈ t, keyword l ≠ ['N', 'M']) ∧
    e.data = g.flatten ∧
    (∃ a0 a1 a2 a3 a4 rest, tokens (arguments h) = a0 :: a1 :: a2 :: a3 :: a4 :: rest ∧
      e.name = a0 ∧ e.nd = env.float a3 ∧ e.vd = env.float a4 ∧ e.code = a2 ∧
      e.status = (rest[1]?).bind env.int) ∧
    e.comment = last gcOf t ∧ (e.tce, e.density) = (last (edOf env) t).getD (none, none)

/-- What a line must be like to be read. -/
def Good (l : Text) : Prop :=
  ' ' ∈ l ∧ (keyword l = ['N', 'M'] → 5 ≤ (tokens (arguments l)).length) ∧
    (keyword l = ['E', 'D'] → 3 ≤ (tokens (arguments l)).length)

theorem of_iff (t : Text) : (Cmd.of t = .nm ↔ t = ['N', 'M']) ∧ (Cmd.of t = .gc ↔ t = ['G', 'C']) ∧
    (Cmd.of t = .ed ↔ t = ['E', 'D']) ∧ (Cmd.of t = .cc ↔ t = ['C', 'C']) ∧
    (Cmd.of t = .cd ↔ t = ['C', 'D']) ∧ (Cmd.of t = .ld ↔ t = ['L', 'D']) ∧
    (Cmd.of t = .od ↔ t = ['O', 'D']) ∧ (Cmd.of t = .td ↔ t = ['T', 'D']) ∧
    (Cmd.of t = .it ↔ t = ['I', 'T']) := by
  unfold Cmd.of
  split_ifs <;> simp_all

theorem last_snoc {L α : Type} (f : L → Option α) (ls : List L) (l : L) :
    last f (ls ++ [l]) = (f l).or (last f ls) := by
  unfold last
  rw [List.filterMap_append]
  cases h : f l with
  | none => simp [h]
  | some x => simp [h]

theorem long5 (l : List Text) (h : 5 ≤ l.length) :
    ∃ a0 a1 a2 a3 a4 rest, l = a0 :: a1 :: a2 :: a3 :: a4 :: rest := by
  match l, h with
  | a0 :: a1 :: a2 :: a3 :: a4 :: rest, _ => exact ⟨a0, a1, a2, a3, a4, rest, rfl⟩

theorem long3 (l : List Text) (h : 3 ≤ l.length) :
    ∃ a0 a1 a2 rest, l = a0 :: a1 :: a2 :: rest := by
  match l, h with
  | a0 :: a1 :: a2 :: rest, _ => exact ⟨a0, a1, a2, rest, rfl⟩

theorem agfStep_skip (s : AgfState) (line : Text) (h : Skipped line) :
    agfStep env s line = .ok s := by
  unfold agfStep
  by_cases h1 : strip line = []
  · rw [if_pos h1]
  by_cases h2 : line.head? = some '!'
  · rw [if_neg h1, if_pos h2]
  obtain ⟨h3, h4⟩ : ' ' ∈ line ∧ keyword line = ['C', 'C'] := by
    rcases h with h | h | h
    · exact absurd h h1
    · exact absurd h h2
    · exact h
  rw [if_neg h1, if_neg h2, splitLine, if_pos h3]
  have : Cmd.of (line.takeWhile (· ≠ ' ')) = .cc := (of_iff _).2.2.2.1.mpr h4
  simp only [Except.bind, this]

/-- A line that is not skipped: what it needs and what it does. -/
theorem agfStep_kept (s : AgfState) (line : Text) (h : ¬ Skipped line) :
    agfStep env s line =
      if ' ' ∈ line then
        match Cmd.of (keyword line) with
        | .cc => .ok s
        | .nm => (agfEntry env line (arguments line)).map fun e => ⟨s.done ++ s.cur.toList, some e⟩
        | .gc => match s.cur with
          | none => .error .unbound
          | some e => .ok { s with cur := some { e with comment := some (arguments line), data := e.data ++ line } }
        | .ed => match tokens (arguments line) with
          | [] => .error .index
          | a0 :: rest => match s.cur with
            | none => .error .unbound
            | some e => match rest with
              | _ :: a2 :: _ => .ok { s with cur := some { e with
                  tce := env.float a0, density := env.float a2, data := e.data ++ line } }
              | _ => .error .index
        | _ => match s.cur with
          | none => .error .unbound
          | some e => .ok { s with cur := some { e with data := e.data ++ line } }
      else .error .value := by
  unfold agfStep
  rw [if_neg (fun h1 => h (Or.inl h1)), if_neg (fun h1 => h (Or.inr (Or.inl h1))), splitLine]
  by_cases hb : ' ' ∈ line
  · rw [if_pos hb, if_pos hb]; rfl
  · rw [if_neg hb, if_neg hb]; rfl

/-- The state stands for the lines read so far. -/
def Rep (K : List Text) (s : AgfState) : Prop :=
  ∃ gs, List.Forall₂ (IsGroup env) gs s.done ∧
    match s.cur with
    | none => gs = [] ∧ K = []
    | some e => ∃ g, IsGroup env g e ∧ K = gs.flatten ++ g

theorem rep_step (K : List Text) (s s' : AgfState) (line : Text) (hk : ¬ Skipped line)
    (hr : Rep env K s) (h : agfStep env s line = .ok s') : Rep env (K ++ [line]) s' := by
  rw [agfStep_kept env s line hk] at h
  split at h
  swap
  · simp at h
  next hb =>
  obtain ⟨gs, hgs, hcur⟩ := hr
  -- adding a line to the current entry
  have add : ∀ (e e' : Entry), s.cur = some e → keyword line ≠ ['N', 'M'] →
      e'.data = e.data ++ line → e'.name = e.name → e'.nd = e.nd → e'.vd = e.vd →
      e'.code = e.code → e'.status = e.status →
      e'.comment = (gcOf line).or e.comment →
      (e'.tce, e'.density) = (edOf env line).getD (e.tce, e.density) →
      Rep env (K ++ [line]) { s with cur := some e' } := by
    intro e e' he hn hd h1 h2 h3 h4 h5 h6 h7
    rw [he] at hcur
    obtain ⟨g, ⟨hh, t, rfl, hh1, hh2, hh3, hh4, hh5, hh6⟩, hK⟩ := hcur
    refine ⟨gs, hgs, hh :: t ++ [line], ⟨hh, t ++ [line], rfl, hh1, ?_, ?_, ?_, ?_, ?_⟩, ?_⟩
    · intro l hl
      rcases List.mem_append.mp hl with hl | hl
      · exact hh2 l hl
      · rw [List.mem_singleton.mp hl]; exact hn
    · rw [hd, hh3]; simp
    · obtain ⟨a0, a1, a2, a3, a4, rest, q0, q1, q2, q3, q4, q5⟩ := hh4
      exact ⟨a0, a1, a2, a3, a4, rest, q0, by rw [h1, q1], by rw [h2, q2], by rw [h3, q3],
        by rw [h4, q4], by rw [h5, q5]⟩
    · rw [h6, hh5, last_snoc]
    · rw [h7, last_snoc, hh6]
      cases edOf env line <;> rfl
    · rw [hK]; simp
  obtain ⟨o1, o2, o3, o4, -⟩ := of_iff (keyword line)
  split at h
  · next hc => exact absurd (Or.inr (Or.inr ⟨hb, o4.mp hc⟩)) hk
  · next hc =>
    -- a new entry
    obtain ⟨e, he, rfl⟩ := RayOpt.Parse.map_ok.mp h
    unfold agfEntry at he
    split at he
    · next a0 a1 a2 a3 a4 rest ht =>
      have he := Except.ok.inj he
      have hg : IsGroup env [line] e := by
        refine ⟨line, [], rfl, o1.mp hc, by simp, ?_, ⟨a0, a1, a2, a3, a4, rest, ht, ?_⟩, ?_, ?_⟩
          <;> subst he <;> simp [last_nil]
      cases hcu : s.cur with
      | none =>
        rw [hcu] at hcur
        obtain ⟨rfl, rfl⟩ := hcur
        simp only [Option.toList_none, List.append_nil]
        exact ⟨[], hgs, [line], hg, by simp⟩
      | some e0 =>
        rw [hcu] at hcur
        obtain ⟨g, hg0, hK⟩ := hcur
        refine ⟨gs ++ [g], ?_, [line], hg, by rw [hK]; simp⟩
        exact List.rel_append hgs (List.Forall₂.cons hg0 List.Forall₂.nil)
    · simp at he
  · next hc =>
    have hgc := o2.mp hc
    have hned : keyword line ≠ ['E', 'D'] := by rw [hgc]; decide
    have hnm : keyword line ≠ ['N', 'M'] := by rw [hgc]; decide
    split at h
    · simp at h
    · next e he =>
      have h := Except.ok.inj h
      subst h
      refine add e _ he hnm rfl rfl rfl rfl rfl rfl ?_ ?_
      · simp [gcOf, hgc]
      · simp [edOf, hned]
  · next hc =>
    have hed := o3.mp hc
    have hngc : keyword line ≠ ['G', 'C'] := by rw [hed]; decide
    have hnm : keyword line ≠ ['N', 'M'] := by rw [hed]; decide
    split at h
    · simp at h
    · next a0 rest ht =>
      split at h
      · simp at h
      · next e he =>
        split at h
        · next a1 a2 r =>
          have h := Except.ok.inj h
          subst h
          refine add e _ he hnm rfl rfl rfl rfl rfl rfl ?_ ?_
          · simp [gcOf, hngc]
          · simp [edOf, hed, ht]
        · simp at h
  · next n1 n2 n3 n4 =>
    have hngc : keyword line ≠ ['G', 'C'] := fun hh => n3 (o2.mpr hh)
    have hned : keyword line ≠ ['E', 'D'] := fun hh => n4 (o3.mpr hh)
    have hnm : keyword line ≠ ['N', 'M'] := fun hh => n2 (o1.mpr hh)
    split at h
    · simp at h
    · next e he =>
      have h := Except.ok.inj h
      subst h
      refine add e _ he hnm rfl rfl rfl rfl rfl rfl ?_ ?_
      · simp [gcOf, hngc]
      · simp [edOf, hned]

theorem agfRun_eq (ls : List Text) (s : AgfState) : agfRun env ls s = runL (agfStep env) ls s := by
  induction ls generalizing s with
  | nil => rfl
  | cons l ls ih =>
    simp only [agfRun, runL]
    congr 1
    funext s; exact ih s

theorem rep_run (ls : List Text) (K : List Text) (s s' : AgfState) (hr : Rep env K s)
    (h : agfRun env ls s = .ok s') : Rep env (K ++ kept ls) s' := by
  rw [agfRun_eq] at h
  induction ls generalizing K s with
  | nil =>
    have := Except.ok.inj h
    subst this
    simpa [kept] using hr
  | cons l ls ih =>
    obtain ⟨t, h1, h2⟩ := (runL_cons_ok _ l ls s s').mp h
    by_cases hk : Skipped l
    · rw [agfStep_skip env s l hk] at h1
      have := Except.ok.inj h1
      subst this
      have := ih K s hr h2
      simpa [kept, hk] using this
    · have := ih (K ++ [l]) t (rep_step env K s t l hk hr h1) h2
      simpa [kept, hk] using this

/-- C81: the lines of a catalogue that was read, without those that are skipped, fall into groups that
begin with a line `NM`; there is one entry for each, with the text of all its lines and the values of
its lines. -/
theorem c81_agf_read (lines : List Text) (es : List Entry) (h : agfRead env lines = .ok es) :
    ∃ groups, kept lines = groups.flatten ∧ List.Forall₂ (IsGroup env) groups es := by
  obtain ⟨s, hs, rfl⟩ := RayOpt.Parse.map_ok.mp h
  have hr := rep_run env lines [] {} s ⟨[], List.Forall₂.nil, rfl, rfl⟩ hs
  rw [List.nil_append] at hr
  obtain ⟨gs, hgs, hcur⟩ := hr
  cases hc : s.cur with
  | none =>
    rw [hc] at hcur
    obtain ⟨rfl, hK⟩ := hcur
    exact ⟨[], by simpa using hK, by simpa using hgs⟩
  | some e =>
    rw [hc] at hcur
    obtain ⟨g, hg, hK⟩ := hcur
    exact ⟨gs ++ [g], by rw [hK]; simp,
      List.rel_append hgs (List.Forall₂.cons hg List.Forall₂.nil)⟩

/-- C81: no text is lost or added and there are as many entries as lines `NM`. -/
theorem c81_agf_conserved (lines : List Text) (es : List Entry) (h : agfRead env lines = .ok es) :
    (es.map Entry.data).flatten = (kept lines).flatten ∧
    es.length = (kept lines).countP (fun l => keyword l = ['N', 'M']) := by
  obtain ⟨gs, h1, h2⟩ := c81_agf_read env lines es h
  rw [h1]
  clear h h1
  induction h2 with
  | nil => simp
  | cons hg _ ih =>
    obtain ⟨hh, t, rfl, q1, q2, q3, -⟩ := hg
    constructor
    · simp [ih.1, q3]
    · rw [List.flatten_cons, List.countP_append, ← ih.2, List.length_cons,
        List.countP_cons_of_pos (by simpa using q1)]
      have : t.countP (fun l => keyword l = ['N', 'M']) = 0 := by
        rw [List.countP_eq_zero]; intro l hl; simpa using q2 l hl
      rw [this]; ring

theorem agfStep_total (s : AgfState) (line : Text) (hk : ¬ Skipped line) :
    (∃ s', agfStep env s line = .ok s') ↔
      Good line ∧ (s.cur = none → keyword line = ['N', 'M']) := by
  rw [agfStep_kept env s line hk]
  unfold Good
  by_cases hb : ' ' ∈ line
  swap
  · rw [if_neg hb]; simp [hb]
  rw [if_pos hb]
  obtain ⟨o1, o2, o3, o4, -⟩ := of_iff (keyword line)
  split
  · next hc => exact absurd (Or.inr (Or.inr ⟨hb, o4.mp hc⟩)) hk
  · next hc =>
    have hnm := o1.mp hc
    have hed : keyword line ≠ ['E', 'D'] := by rw [hnm]; decide
    constructor
    · rintro ⟨s', h⟩
      obtain ⟨e, he, -⟩ := RayOpt.Parse.map_ok.mp h
      unfold agfEntry at he
      split at he
      · next ht => exact ⟨⟨hb, fun _ => by rw [ht]; simp, fun hx => absurd hx hed⟩, fun _ => hnm⟩
      · simp at he
    · rintro ⟨⟨-, h1, -⟩, -⟩
      obtain ⟨a0, a1, a2, a3, a4, rest, ht⟩ := long5 _ (h1 hnm)
      simp [agfEntry, ht, Except.map]
  · next hc =>
    have hgc := o2.mp hc
    have hned : keyword line ≠ ['E', 'D'] := by rw [hgc]; decide
    have hnm : keyword line ≠ ['N', 'M'] := by rw [hgc]; decide
    cases s.cur <;> simp [hb, hned, hnm]
  · next hc =>
    have hed := o3.mp hc
    have hnm : keyword line ≠ ['N', 'M'] := by rw [hed]; decide
    cases ht : tokens (arguments line) with
    | nil => simp [hed]
    | cons a0 rest =>
      cases hcu : s.cur with
      | none => simp [hed]
      | some e =>
        match rest with
        | [] => simp [hed]
        | [a] => simp [hed]
        | _ :: _ :: _ => simp [hb, hed]
  · next n1 n2 n3 n4 =>
    have hned : keyword line ≠ ['E', 'D'] := fun hh => n4 (o3.mpr hh)
    have hnm : keyword line ≠ ['N', 'M'] := fun hh => n2 (o1.mpr hh)
    cases s.cur <;> simp [hb, hned, hnm]

theorem agfStep_cur (s s' : AgfState) (line : Text) (hk : ¬ Skipped line)
    (h : agfStep env s line = .ok s') : s'.cur ≠ none := by
  rw [agfStep_kept env s line hk] at h
  split at h
  swap
  · simp at h
  next hb =>
  split at h
  · next hc => exact absurd (Or.inr (Or.inr ⟨hb, (of_iff _).2.2.2.1.mp hc⟩)) hk
  · obtain ⟨e, -, rfl⟩ := RayOpt.Parse.map_ok.mp h; simp
  · split at h
    · simp at h
    · rw [← Except.ok.inj h]; simp
  · split at h
    · simp at h
    · split at h
      · simp at h
      · split at h
        · rw [← Except.ok.inj h]; simp
        · simp at h
  · split at h
    · simp at h
    · rw [← Except.ok.inj h]; simp

/-- C81: a catalogue is read if and only if the first of its lines that are not skipped is a line `NM`
and each of them has a blank and, for `NM` and `ED`, at least five and three words. -/
theorem c81_agf_total (lines : List Text) :
    (∃ es, agfRead env lines = .ok es) ↔
      (∀ l ∈ kept lines, Good l) ∧ (∀ l ∈ (kept lines).head?, keyword l = ['N', 'M']) := by
  have key : ∀ (lines : List Text) (s : AgfState), (∃ s', runL (agfStep env) lines s = .ok s') ↔
      (∀ l ∈ kept lines, Good l) ∧
      (s.cur = none → ∀ l ∈ (kept lines).head?, keyword l = ['N', 'M']) := by
    intro lines
    induction lines with
    | nil => intro s; simp [runL, kept]
    | cons l ls ih =>
      intro s
      by_cases hk : Skipped l
      · have : kept (l :: ls) = kept ls := by simp [kept, hk]
        rw [this, ← ih s]
        simp only [runL_cons_ok, agfStep_skip env s l hk]
        constructor
        · rintro ⟨s', t, h1, h2⟩; rw [← Except.ok.inj h1] at h2; exact ⟨s', h2⟩
        · rintro ⟨s', h2⟩; exact ⟨s', s, rfl, h2⟩
      · have hkept : kept (l :: ls) = l :: kept ls := by simp [kept, hk]
        rw [hkept]
        simp only [List.head?_cons, Option.mem_some_iff, forall_eq', List.forall_mem_cons,
          runL_cons_ok]
        have ht := agfStep_total env s l hk
        constructor
        · rintro ⟨s', t, h1, h2⟩
          obtain ⟨g1, g2⟩ := ht.mp ⟨t, h1⟩
          exact ⟨⟨g1, ((ih t).mp ⟨s', h2⟩).1⟩, g2⟩
        · rintro ⟨⟨g1, g2⟩, g3⟩
          obtain ⟨t, h1⟩ := ht.mpr ⟨g1, g3⟩
          obtain ⟨s', h2⟩ := (ih t).mpr ⟨g2, fun hn => absurd hn (agfStep_cur env s t l hk h1)⟩
          exact ⟨s', t, h1, h2⟩
  have := key lines {}
  constructor
  · rintro ⟨es, h⟩
    obtain ⟨s, hs, -⟩ := RayOpt.Parse.map_ok.mp h
    rw [agfRun_eq] at hs
    obtain ⟨h1, h2⟩ := this.mp ⟨s, hs⟩
    exact ⟨h1, h2 rfl⟩
  · rintro ⟨h1, h2⟩
    obtain ⟨s, hs⟩ := this.mpr ⟨h1, fun _ => h2⟩
    exact ⟨s.done ++ s.cur.toList, RayOpt.Parse.map_ok.mpr ⟨s, by rw [agfRun_eq]; exact hs, rfl⟩⟩

/-! ## Materials of Zemax -/

/-- The lines of a text. -/
def dataLines (dat : Text) : List (Cmd × Text) :=
  ((dat.splitOn '\n').filter (· ≠ [])).map matLine

def nmOf (l : Cmd × Text) : Option (Text × Text) :=
  if l.1 = .nm then match tokens l.2 with
    | a0 :: _ :: a2 :: _ => some (a0, a2)
    | _ => none
  else none

def edMat (l : Cmd × Text) : Option (Option Num × Option Num × Option Num) :=
  if l.1 = .ed then match tokens l.2 with
    | a :: b :: c :: _ => some (env.float a, env.float b, env.float c)
    | _ => none
  else none

def cdOf (l : Cmd × Text) : Option (List (Option Num)) :=
  if l.1 = .cd then some ((tokens l.2).map env.float) else none

def gcMat (l : Cmd × Text) : Option Text := if l.1 = .gc then some (strip l.2) else none

/-- The integer part of a finite number: the largest integer in size that does not exceed the number
in size and does not have the opposite sign. -/
def IntegerPart (x : Num) (n : ℤ) : Prop :=
  ∃ y : ℝ, x = .fin y ∧ |(n : ℝ)| ≤ |y| ∧ |y| < |(n : ℝ)| + 1 ∧ 0 ≤ n * y

theorem truncate_iff (x : Num) (n : ℤ) : truncate x = .ok n ↔ IntegerPart x n := by
  unfold truncate IntegerPart
  cases x with
  | nan => simp
  | inf => simp
  | neginf => simp
  | fin y =>
    simp only [Except.ok.injEq, Num.fin.injEq]
    constructor
    · rintro rfl
      refine ⟨y, rfl, ?_⟩
      split
      · next h =>
        have h0 : (0 : ℝ) ≤ ⌊y⌋ := by exact_mod_cast Int.floor_nonneg.mpr h
        rw [abs_of_nonneg h, abs_of_nonneg h0]
        exact ⟨Int.floor_le y, Int.lt_floor_add_one y, mul_nonneg h0 h⟩
      · next h =>
        have h := (not_le.mp h).le
        have h0 : (⌈y⌉ : ℝ) ≤ 0 := by exact_mod_cast Int.ceil_le.mpr (by simpa using h)
        rw [abs_of_nonpos h, abs_of_nonpos h0]
        have h1 := Int.le_ceil y
        have h2 := Int.ceil_lt_add_one y
        exact ⟨by linarith, by linarith, mul_nonneg_of_nonpos_of_nonpos h0 h⟩
    · rintro ⟨_, rfl, h1, h2, h3⟩
      split
      · next h =>
        rw [abs_of_nonneg h] at h1 h2
        rw [Int.floor_eq_iff]
        rcases le_or_gt 0 (n : ℝ) with hn | hn
        · rw [abs_of_nonneg hn] at h1 h2
          exact ⟨h1, h2⟩
        · rw [abs_of_neg hn] at h1 h2
          exfalso
          have : y = 0 := le_antisymm (by nlinarith) h
          linarith
      · next h =>
        have h := not_le.mp h
        rw [abs_of_neg h] at h1 h2
        rw [Int.ceil_eq_iff]
        rcases le_or_gt (n : ℝ) 0 with hn | hn
        · rw [abs_of_nonpos hn] at h1 h2
          exact ⟨by linarith, by linarith⟩
        · exfalso
          nlinarith

/-- The formula of a line `NM`: the integer part of its second word counts the formulas. -/
def NmFormula (l : Cmd × Text) (f : Option Formula) : Prop :=
  ∃ a0 a1 rest x n, tokens l.2 = a0 :: a1 :: rest ∧ env.float a1 = some x ∧ IntegerPart x n ∧
    agfFormula n = some f

theorem matRun_eq (ls : List (Cmd × Text)) (g : Mat) :
    matRun env ls g = runL (matStep env) ls g := by
  induction ls generalizing g with
  | nil => rfl
  | cons l ls ih =>
    simp only [matRun, runL]
    congr 1
    funext s; exact ih s

/-- What one line assigns. -/
theorem matStep_ok (g g' : Mat) (l : Cmd × Text) (h : matStep env g l = .ok g') :
    g'.coefficients = (cdOf env l).getD g.coefficients ∧
    g'.name = ((nmOf l).map (some ·.1)).getD g.name ∧
    g'.glasscode = ((nmOf l).map (env.float ·.2)).getD g.glasscode ∧
    (g'.alpham3070, g'.alpha20300, g'.density) =
      (edMat env l).getD (g.alpham3070, g.alpha20300, g.density) ∧
    g'.comment = ((gcMat l).map some).getD g.comment ∧
    (l.1 = .nm → ∃ f, g'.typ = some f ∧ NmFormula env l f) ∧ (l.1 ≠ .nm → g'.typ = g.typ) ∧
    (l.1 = .ld → ∃ c d r, l.2 = c :: d :: r ∧ g'.lambdaMin = env.float [c] ∧
      g'.lambdaMax = env.float [d]) ∧
    (l.1 = .od → ∃ c r, l.2 = c :: r ∧ g'.price = env.float [c] ∧
      g'.chemical = r.map fun x => env.float [x]) := by
  obtain ⟨c, a⟩ := l
  cases c
  case nm =>
    simp only [matStep] at h
    split at h
    · next a0 a1 rest ht =>
      split at h
      · simp at h
      · next x hx =>
        obtain ⟨n, hn, h⟩ := RayOpt.Parse.bind_ok.mp h
        split at h
        · simp at h
        · next f hf =>
          cases rest with
          | nil => simp at h
          | cons a2 r =>
            rw [← Except.ok.inj h]
            have hnm : NmFormula env (Cmd.nm, a) f := ⟨a0, a1, a2 :: r, x, n, ht, hx,
              (truncate_iff x n).mp hn, hf⟩
            simp [cdOf, nmOf, edMat, gcMat, ht, hnm]
    · simp at h
  case ed =>
    simp only [matStep] at h
    split at h
    · next x y z r ht =>
      rw [← Except.ok.inj h]
      match hl : tokens a, ht with
      | t1 :: t2 :: t3 :: tr, ht =>
        simp only [List.map_cons, List.cons.injEq] at ht
        simp [cdOf, nmOf, edMat, gcMat, hl, ht]
    · simp at h
  case td =>
    simp only [matStep] at h
    split at h
    · simp at h
    · rw [← Except.ok.inj h]; simp [cdOf, nmOf, edMat, gcMat]
  case od =>
    simp only [matStep] at h
    split at h
    · simp at h
    · rw [← Except.ok.inj h]; simp [cdOf, nmOf, edMat, gcMat]
  case ld =>
    simp only [matStep] at h
    split at h
    · rw [← Except.ok.inj h]; simp [cdOf, nmOf, edMat, gcMat]
    · simp at h
  case it =>
    simp only [matStep] at h
    split at h
    · rw [← Except.ok.inj h]; simp [cdOf, nmOf, edMat, gcMat]
    · simp at h
  all_goals
    simp only [matStep] at h
    rw [← Except.ok.inj h]
    simp [cdOf, nmOf, edMat, gcMat]

/-- C81: coefficients, name, glass code, expansion, density and comment are those of the last line of
their kind. -/
theorem c81_agf_material (dat : Text) (g : Mat) (h : agfToMaterial env dat = .ok g) :
    g.coefficients = (last (cdOf env) (dataLines dat)).getD [] ∧
    g.name = (last nmOf (dataLines dat)).map Prod.fst ∧
    g.glasscode = (last nmOf (dataLines dat)).bind (fun p => env.float p.2) ∧
    (g.alpham3070, g.alpha20300, g.density) =
      (last (edMat env) (dataLines dat)).getD (none, none, none) ∧
    g.comment = last gcMat (dataLines dat) := by
  unfold agfToMaterial at h
  rw [matRun_eq] at h
  have e : ((dat.splitOn '\n').filter (· ≠ [])).map matLine = dataLines dat := rfl
  rw [e] at h
  generalize dataLines dat = ls at h ⊢
  have hm := fun {α : Type} (q : Mat → α) (f : Cmd × Text → Option α)
    (hq : ∀ l s s', matStep env s l = .ok s' → q s' = (f l).getD (q s)) =>
    runL_field (matStep env) q f (fun _ => True) (fun l s s' _ => hq l s s') ls {} g (by simp) h
  refine ⟨?_, ?_, ?_, ?_, ?_⟩
  · exact hm Mat.coefficients (cdOf env) fun l s s' hs => (matStep_ok env s s' l hs).1
  · have := hm Mat.name (fun l => (nmOf l).map (some ·.1)) fun l s s' hs =>
      (matStep_ok env s s' l hs).2.1
    rw [this, RayOpt.Parse.last_map nmOf (fun p => some p.1)]
    cases last nmOf ls <;> rfl
  · have := hm Mat.glasscode (fun l => (nmOf l).map (env.float ·.2)) fun l s s' hs =>
      (matStep_ok env s s' l hs).2.2.1
    rw [this, RayOpt.Parse.last_map nmOf (fun p => env.float p.2)]
    cases last nmOf ls <;> rfl
  · exact hm (fun g => (g.alpham3070, g.alpha20300, g.density)) (edMat env) fun l s s' hs =>
      (matStep_ok env s s' l hs).2.2.2.1
  · have := hm Mat.comment (fun l => (gcMat l).map some) fun l s s' hs =>
      (matStep_ok env s s' l hs).2.2.2.2.1
    rw [this, RayOpt.Parse.last_map gcMat some]
    cases last gcMat ls <;> rfl

/-- C81: the formula is that of the last line `NM`. -/
theorem c81_agf_formula (dat : Text) (g : Mat) (h : agfToMaterial env dat = .ok g)
    (pre post : List (Cmd × Text)) (l : Cmd × Text) (hl : dataLines dat = pre ++ l :: post)
    (hnm : l.1 = .nm) (hpost : ∀ x ∈ post, x.1 ≠ .nm) :
    ∃ f, g.typ = some f ∧ NmFormula env l f := by
  unfold agfToMaterial at h
  rw [matRun_eq] at h
  have e : ((dat.splitOn '\n').filter (· ≠ [])).map matLine = dataLines dat := rfl
  rw [e, hl] at h
  obtain ⟨s1, -, h⟩ := (runL_append_ok _ _ _ _ _).mp h
  obtain ⟨s2, h2, h⟩ := (runL_cons_ok _ _ _ _ _).mp h
  obtain ⟨f, hf, hn⟩ := (matStep_ok env s1 s2 l h2).2.2.2.2.2.1 hnm
  refine ⟨f, ?_, hn⟩
  rw [← hf]
  have := runL_field (matStep env) Mat.typ (fun _ => none) (fun l => l.1 ≠ .nm)
    (fun l s s' hg hs => (matStep_ok env s s' l hs).2.2.2.2.2.2.1 hg) post s2 g hpost h
  rw [this]
  have : last (fun _ : Cmd × Text => (none : Option (Option (Option Formula)))) post = none := by
    simp [last]
  rw [this]; rfl

/-- C81, violation: wavelength limits are read from the first two characters of the line and not from
its words. -/
theorem c81_ld_violation (dat : Text) (g : Mat) (h : agfToMaterial env dat = .ok g)
    (pre : List (Cmd × Text)) (l : Cmd × Text) (hl : dataLines dat = pre ++ [l])
    (hld : l.1 = .ld) :
    ∃ c d r, l.2 = c :: d :: r ∧ g.lambdaMin = env.float [c] ∧ g.lambdaMax = env.float [d] := by
  unfold agfToMaterial at h
  rw [matRun_eq] at h
  have e : ((dat.splitOn '\n').filter (· ≠ [])).map matLine = dataLines dat := rfl
  rw [e, hl] at h
  obtain ⟨s1, -, h⟩ := (runL_append_ok _ _ _ _ _).mp h
  obtain ⟨s2, h2, h⟩ := (runL_cons_ok _ _ _ _ _).mp h
  rw [← Except.ok.inj h]
  exact (matStep_ok env s1 s2 l h2).2.2.2.2.2.2.2.1 hld

/-- A line as in the catalogues: from 0.3 to 2.5 micrometres. The limits become the number 0 and
`None`. -/
theorem c81_ld_example (hdot : env.float ['.'] = none) :
    ∃ g, agfToMaterial env ['L', 'D', ' ', '0', '.', '3', ' ', '2', '.', '5', '\n'] = .ok g ∧
      g.lambdaMin = env.float ['0'] ∧ g.lambdaMax = none := by
  refine ⟨_, rfl, rfl, hdot⟩

/-- C81, violation: prices and chemical properties are single characters as well. -/
theorem c81_od_violation (dat : Text) (g : Mat) (h : agfToMaterial env dat = .ok g)
    (pre : List (Cmd × Text)) (l : Cmd × Text) (hl : dataLines dat = pre ++ [l])
    (hld : l.1 = .od) :
    ∃ c r, l.2 = c :: r ∧ g.price = env.float [c] ∧ g.chemical = r.map fun x => env.float [x] := by
  unfold agfToMaterial at h
  rw [matRun_eq] at h
  have e : ((dat.splitOn '\n').filter (· ≠ [])).map matLine = dataLines dat := rfl
  rw [e, hl] at h
  obtain ⟨s1, -, h⟩ := (runL_append_ok _ _ _ _ _).mp h
  obtain ⟨s2, h2, h⟩ := (runL_cons_ok _ _ _ _ _).mp h
  rw [← Except.ok.inj h]
  exact (matStep_ok env s1 s2 l h2).2.2.2.2.2.2.2.2 hld

def tdOf (l : Cmd × Text) : Option (List (Option Num)) :=
  if l.1 = .td then some ((tokens l.2).map env.float) else none

def itOf (l : Cmd × Text) : Option ((Option Num × List (Option Num)) × Option Num) :=
  if l.1 = .it then match (tokens l.2).map env.float with
    | a :: b :: rest => some ((a, rest), b)
    | _ => none
  else none

/-- C81: the thermal data are those of the last line `TD`, split into three, two and further numbers;
the transmissions are those of all lines `IT` in order. -/
theorem c81_agf_thermal (dat : Text) (g : Mat) (h : agfToMaterial env dat = .ok g) :
    g.thermal = (last (tdOf env) (dataLines dat)).map
      (fun s => (s.take 3, (s.drop 3).take 2, s.drop 5)) ∧
    g.transmission = (dataLines dat).filterMap (itOf env) := by
  unfold agfToMaterial at h
  rw [matRun_eq] at h
  have e : ((dat.splitOn '\n').filter (· ≠ [])).map matLine = dataLines dat := rfl
  rw [e] at h
  generalize dataLines dat = ls at h ⊢
  have step : ∀ (l : Cmd × Text) (s s' : Mat), matStep env s l = .ok s' →
      s'.thermal = ((tdOf env l).map
        (fun s => some (s.take 3, (s.drop 3).take 2, s.drop 5))).getD s.thermal ∧
      s'.transmission = s.transmission ++ (itOf env l).toList := by
    rintro ⟨c, a⟩ s s' hs
    cases c
    case nm =>
      simp only [matStep] at hs
      split at hs
      · split at hs
        · simp at hs
        · obtain ⟨n, -, hs⟩ := RayOpt.Parse.bind_ok.mp hs
          split at hs
          · simp at hs
          · split at hs
            · simp at hs
            · rw [← Except.ok.inj hs]; simp [tdOf, itOf]
      · simp at hs
    case td =>
      simp only [matStep] at hs
      split at hs
      · simp at hs
      · rw [← Except.ok.inj hs]; simp [tdOf, itOf]
    case it =>
      simp only [matStep] at hs
      split at hs
      · next x y r ht => rw [← Except.ok.inj hs]; simp [tdOf, itOf, ht]
      · simp at hs
    case ed | od | ld =>
      simp only [matStep] at hs
      split at hs
      all_goals first
        | simp at hs; done
        | (rw [← Except.ok.inj hs]; simp [tdOf, itOf])
    all_goals
      simp only [matStep] at hs
      rw [← Except.ok.inj hs]
      simp [tdOf, itOf]
  constructor
  · have := runL_field (matStep env) Mat.thermal (fun l => (tdOf env l).map
      (fun s => some (s.take 3, (s.drop 3).take 2, s.drop 5))) (fun _ => True)
      (fun l s s' _ hs => (step l s s' hs).1) ls {} g (by simp) h
    rw [this, RayOpt.Parse.last_map (tdOf env) (fun s => some (s.take 3, (s.drop 3).take 2, s.drop 5))]
    cases last (tdOf env) ls <;> rfl
  · have key : ∀ (ls : List (Cmd × Text)) (s s' : Mat), runL (matStep env) ls s = .ok s' →
        s'.transmission = s.transmission ++ ls.filterMap (itOf env) := by
      intro ls
      induction ls with
      | nil => intro s s' hs; rw [← Except.ok.inj hs]; simp
      | cons l ls ih =>
        intro s s' hs
        obtain ⟨u, h1, h2⟩ := (runL_cons_ok _ _ _ _ _).mp hs
        rw [ih u s' h2, (step l s u h1).2, List.append_assoc]
        congr 1
        cases hi : itOf env l <;> simp [hi]
    simpa using key ls {} g h

/-- What a line must be like for a material. -/
def MatGood (l : Cmd × Text) : Prop :=
  match l.1 with
  | .nm => 3 ≤ (tokens l.2).length ∧ ∃ f, NmFormula env l f
  | .ed => 3 ≤ (tokens l.2).length
  | .td => (tokens l.2).length ≤ 7
  | .od => l.2 ≠ []
  | .ld => 2 ≤ l.2.length
  | .it => 2 ≤ (tokens l.2).length
  | _ => True

/-- C81: a material is made if and only if every line of a known kind has its words, with a known
formula. -/
theorem c81_agf_material_total (dat : Text) :
    (∃ g, agfToMaterial env dat = .ok g) ↔ ∀ l ∈ dataLines dat, MatGood env l := by
  unfold agfToMaterial
  have e : ((dat.splitOn '\n').filter (· ≠ [])).map matLine = dataLines dat := rfl
  simp only [matRun_eq]
  rw [e]
  apply runL_total
  rintro ⟨c, a⟩ s
  cases c
  case nm =>
    simp only [matStep, MatGood]
    constructor
    · rintro ⟨g, hs⟩
      split at hs
      · next a0 a1 rest ht =>
        split at hs
        · simp at hs
        · next x hx =>
          obtain ⟨n, hn, hs⟩ := RayOpt.Parse.bind_ok.mp hs
          split at hs
          · simp at hs
          · next f hf =>
            cases rest with
            | nil => simp at hs
            | cons a2 r =>
              exact ⟨by rw [ht]; simp, f, a0, a1, a2 :: r, x, n, ht, hx, (truncate_iff x n).mp hn, hf⟩
      · simp at hs
    · rintro ⟨h3, f, a0, a1, rest, x, n, ht, hx, hn, hf⟩
      rw [← truncate_iff] at hn
      simp only at ht
      obtain ⟨b0, b1, b2, r, hb⟩ := long3 _ h3
      rw [ht] at hb
      obtain ⟨rfl, rfl, rfl⟩ := by simpa using hb
      simp [ht, hx, hn, hf, Except.bind]
  case ed =>
    simp only [matStep, MatGood]
    rcases tokens a with _ | ⟨x, _ | ⟨y, _ | ⟨z, r⟩⟩⟩ <;> simp
  case td =>
    simp only [matStep, MatGood, List.length_map]
    by_cases h7 : 7 < (tokens a).length
    · simp [h7]
    · simp [h7]; omega
  case od => cases a <;> simp [matStep, MatGood]
  case ld => rcases a with _ | ⟨x, _ | ⟨y, r⟩⟩ <;> simp [matStep, MatGood]
  case it =>
    simp only [matStep, MatGood]
    rcases tokens a with _ | ⟨x, _ | ⟨y, r⟩⟩ <;> simp
  all_goals simp [matStep, MatGood]

/-! ### Entry and material -/

theorem splitOnP_snoc (p : Char → Bool) (t : Text) (c : Char) (hc : p c = true) :
    (t ++ [c]).splitOnP p = t.splitOnP p ++ [[]] := by
  induction t with
  | nil => simp [List.splitOnP_cons_eq_if_modifyHead, hc]
  | cons x t ih =>
    rw [List.cons_append, List.splitOnP_cons_eq_if_modifyHead, List.splitOnP_cons_eq_if_modifyHead, ih]
    by_cases hx : p x = true
    · simp [hx]
    · rw [if_neg hx, if_neg hx]
      have := List.splitOnP_ne_nil p t
      obtain ⟨a, b, hab⟩ := List.exists_cons_of_ne_nil this
      rw [hab]; rfl

theorem tokens_snoc (t : Text) (c : Char) (hc : RayOpt.Parse.isSpace c = true) :
    tokens (t ++ [c]) = tokens t := by
  unfold tokens
  rw [splitOnP_snoc _ t c hc]
  simp

theorem splitOn_lines (bs : List Text) (h : ∀ b ∈ bs, '\n' ∉ b) :
    ((bs.map (· ++ ['\n'])).flatten).splitOn '\n' = bs ++ [[]] := by
  induction bs with
  | nil => simp [List.splitOn]
  | cons b bs ih =>
    simp only [List.map_cons, List.flatten_cons]
    unfold List.splitOn at ih ⊢
    rw [List.append_assoc, List.singleton_append,
      List.splitOnP_append_cons_of_forall_mem (p := (· == '\n')) (xs := b)
        (fun c hc => by
          have : c ≠ '\n' := fun e => h b List.mem_cons_self (e ▸ hc)
          simpa using this) '\n' (by simp) _,
      ih fun x hx => h x (List.mem_cons_of_mem _ hx)]
    rfl

/-- A line as in the catalogues: a command of two letters, a blank, the arguments, the end. -/
def Regular (line : Text) : Prop :=
  ∃ c d body, line = c :: d :: ' ' :: (body ++ ['\n']) ∧ c ≠ ' ' ∧ d ≠ ' ' ∧
    '\n' ∉ (c :: d :: ' ' :: body)

theorem regular_read {line : Text} (h : Regular line) :
    ∃ b, line = b ++ ['\n'] ∧ '\n' ∉ b ∧ b ≠ [] ∧ (matLine b).1 = Cmd.of (keyword line) ∧
      tokens (matLine b).2 = tokens (arguments line) := by
  obtain ⟨c, d, body, rfl, hc, hd, hn⟩ := h
  refine ⟨c :: d :: ' ' :: body, rfl, hn, by simp, ?_, ?_⟩
  · simp [matLine, keyword, hc, hd]
  · have : arguments (c :: d :: ' ' :: (body ++ ['\n'])) = body ++ ['\n'] := by
      simp [arguments, hc, hd]
    rw [this, tokens_snoc _ _ (by decide)]
    rfl

/-- C81: the material made from an entry of a catalogue of regular lines has the name, the code, the
expansion and the density of the entry. -/
theorem c81_agf_entry (lines : List Text) (hr : ∀ l ∈ kept lines, Regular l) (es : List Entry)
    (h : agfRead env lines = .ok es) (e : Entry) (he : e ∈ es) (m : Mat)
    (hm : agfToMaterial env e.data = .ok m) :
    m.name = some e.name ∧ m.glasscode = env.float e.code ∧ m.alpham3070 = e.tce ∧
      m.density = e.density := by
  obtain ⟨gs, hgs, hall⟩ := c81_agf_read env lines es h
  -- the group of the entry
  obtain ⟨g, hg, hge⟩ : ∃ g ∈ gs, IsGroup env g e := by
    clear hgs h
    induction hall with
    | nil => simp at he
    | cons h1 _ ih =>
      rcases List.mem_cons.mp he with rfl | he
      · exact ⟨_, List.mem_cons_self, h1⟩
      · obtain ⟨g, hg, hge⟩ := ih he
        exact ⟨g, List.mem_cons_of_mem _ hg, hge⟩
  have hreg : ∀ l ∈ g, Regular l := fun l hl =>
    hr l (by rw [hgs]; exact List.mem_flatten.mpr ⟨g, hg, hl⟩)
  obtain ⟨hh, t, rfl, q1, q2, q3, ⟨a0, a1, a2, a3, a4, rest, q4, q5, -, -, q6, -⟩, -, q7⟩ := hge
  -- the lines of the text
  have hbs : ∀ (ls : List Text), (∀ l ∈ ls, Regular l) → ∃ bs : List Text,
      ls = bs.map (· ++ ['\n']) ∧ (∀ b ∈ bs, '\n' ∉ b ∧ b ≠ []) ∧
      List.Forall₂ (fun l b => (matLine b).1 = Cmd.of (keyword l) ∧
        tokens (matLine b).2 = tokens (arguments l)) ls bs := by
    intro ls
    induction ls with
    | nil => intro _; exact ⟨[], rfl, by simp, List.Forall₂.nil⟩
    | cons l ls ih =>
      intro hl
      obtain ⟨bs, b1, b2, b3⟩ := ih fun x hx => hl x (List.mem_cons_of_mem _ hx)
      obtain ⟨b, c1, c2, c3, c4, c5⟩ := regular_read (hl l List.mem_cons_self)
      refine ⟨b :: bs, by rw [b1, c1]; rfl, ?_, List.Forall₂.cons ⟨c4, c5⟩ b3⟩
      intro x hx
      rcases List.mem_cons.mp hx with rfl | hx
      · exact ⟨c2, c3⟩
      · exact b2 x hx
  obtain ⟨bs, b1, b2, b3⟩ := hbs _ hreg
  have hdl : dataLines e.data = bs.map matLine := by
    unfold dataLines
    rw [q3, b1, splitOn_lines bs fun b hb => (b2 b hb).1]
    congr 1
    rw [List.filter_append, List.filter_eq_self.mpr (fun b hb => by simpa using (b2 b hb).2)]
    simp
  obtain ⟨-, m1, m2, m3, -⟩ := c81_agf_material env e.data m hm
  rw [hdl] at m1 m2 m3
  cases b3 with
  | cons hb0 hbt =>
    next b0 bt =>
    have hn : last nmOf ((b0 :: bt).map matLine) = some (a0, a2) := by
      have h1 : last nmOf (bt.map matLine) = none := by
        unfold last
        rw [List.getLast?_eq_none_iff, List.filterMap_eq_nil_iff]
        intro x hx
        obtain ⟨b, hb, rfl⟩ := List.mem_map.mp hx
        have : (matLine b).1 ≠ .nm := by
          clear m1 m2 m3 hdl b1 b2 q3 q7 hreg hg hm hx
          induction hbt with
          | nil => simp at hb
          | cons hy _ ih =>
            rcases List.mem_cons.mp hb with rfl | hb
            · rw [hy.1]
              intro hc
              exact q2 _ List.mem_cons_self ((of_iff _).1.mp hc)
            · exact ih (fun l hl => q2 l (List.mem_cons_of_mem _ hl)) hb
        simp [nmOf, this]
      rw [List.map_cons, last_cons, h1]
      have h2 : (matLine b0).1 = .nm := by rw [hb0.1]; exact (of_iff _).1.mpr q1
      simp [nmOf, h2, hb0.2, q4]
    have hd : (last (edMat env) ((b0 :: bt).map matLine)).map (fun p => (p.1, p.2.2)) =
        last (edOf env) t := by
      have h0 : edMat env (matLine b0) = none := by
        have h2 : (matLine b0).1 = .nm := by rw [hb0.1]; exact (of_iff _).1.mpr q1
        simp [edMat, h2]
      rw [List.map_cons, last_cons, h0, Option.or_none]
      clear m1 m2 m3 hdl b1 b2 q3 q7 hreg hg hm hn q2
      induction hbt with
      | nil => rfl
      | @cons l b ls bs hx _ ih =>
        rw [List.map_cons, last_cons, last_cons, ← ih]
        have : (edMat env (matLine b)).map (fun p => (p.1, p.2.2)) = edOf env l := by
          unfold edMat edOf
          by_cases hc : keyword l = ['E', 'D']
          · have h2 : (matLine b).1 = .ed := by rw [hx.1]; exact (of_iff _).2.2.1.mpr hc
            rw [if_pos h2, if_pos hc, hx.2]
            rcases tokens (arguments l) with _ | ⟨x, _ | ⟨y, _ | ⟨z, r⟩⟩⟩ <;> rfl
          · have h2 : (matLine b).1 ≠ .ed := by
              rw [hx.1]; exact fun hh => hc ((of_iff _).2.2.1.mp hh)
            rw [if_neg h2, if_neg hc]; rfl
        rw [← this]
        cases last (edMat env) (bs.map matLine) <;> rfl
    rw [hn] at m1 m2
    refine ⟨by rw [m1, q5]; rfl, by rw [m2, q6]; rfl, ?_⟩
    rw [← hd] at q7
    cases hl : last (edMat env) ((b0 :: bt).map matLine) with
    | none =>
      rw [hl] at m3 q7
      simp only [Option.getD_none, Prod.mk.injEq, Option.map_none] at m3 q7
      rw [m3.1, m3.2.2, q7.1, q7.2]; exact ⟨rfl, rfl⟩
    | some p =>
      rw [hl] at m3 q7
      obtain ⟨p1, p2, p3⟩ := p
      simp only [Option.getD_some, Prod.mk.injEq, Option.map_some] at m3 q7
      rw [m3.1, m3.2.2, q7.1, q7.2]; exact ⟨rfl, rfl⟩

/-! ## Catalogues of OSLO -/

theorem tokens_dropWhile (t : Text) : tokens (t.dropWhile RayOpt.Parse.isSpace) = tokens t := by
  induction t with
  | nil => rfl
  | cons c t ih =>
    by_cases hc : RayOpt.Parse.isSpace c = true
    · rw [List.dropWhile_cons_of_pos hc, ih, RayOpt.Parse.tokens_space c t hc]
    · rw [List.dropWhile_cons_of_neg hc]

theorem tokens_strip (t : Text) : tokens (strip t) = tokens t := by
  unfold strip
  rw [← tokens_dropWhile t]
  generalize t.dropWhile RayOpt.Parse.isSpace = u
  induction u using List.reverseRecOn with
  | nil => rfl
  | append_singleton u c ih =>
    rw [List.reverse_append, List.reverse_singleton, List.singleton_append]
    by_cases hc : RayOpt.Parse.isSpace c = true
    · rw [List.dropWhile_cons_of_pos hc, ih, tokens_snoc u c hc]
    · rw [List.dropWhile_cons_of_neg hc]; simp

/-- An entry and its line. -/
def GlcLine (l : Text) (e : Entry) : Prop :=
  ∃ a b c d rest, tokens l = a :: b :: c :: d :: rest ∧ e.name = a ∧ e.nd = env.float b ∧
    e.vd = env.float c ∧ e.density = env.float d ∧ e.data = strip l

/-- C81: a catalogue of OSLO has one entry for each line that is not blank, with its values and its
text. -/
theorem c81_glc_read (h : Text) (ls : List Text) (name : Text) (v : Num) (es : List Entry)
    (hr : glcRead env (h :: ls) = .ok (name, v, es)) :
    (∃ ver num rest, tokens h = ver :: num :: name :: rest ∧ env.float ver = some v) ∧
    List.Forall₂ (GlcLine env) (ls.filter fun l => tokens l ≠ []) es := by
  simp only [glcRead] at hr
  split at hr
  · next ver num nm rest ht =>
    split at hr
    · simp at hr
    · next x hx =>
      obtain ⟨es', h1, h2⟩ := RayOpt.Parse.map_ok.mp hr
      simp only [Prod.mk.injEq] at h2
      obtain ⟨rfl, rfl, rfl⟩ := h2
      refine ⟨⟨ver, num, rest, ht, hx⟩, ?_⟩
      clear hr ht hx
      induction ls generalizing es' with
      | nil => rw [← Except.ok.inj h1]; exact List.Forall₂.nil
      | cons l ls ih =>
        obtain ⟨e, h3, h4⟩ := RayOpt.Parse.bind_ok.mp h1
        obtain ⟨es1, h5, rfl⟩ := RayOpt.Parse.map_ok.mp h4
        have := ih es1 h5
        unfold glcEntry at h3
        rw [tokens_strip] at h3
        split at h3
        · next ht =>
          rw [← Except.ok.inj h3]
          simpa [ht] using this
        · next a b c d r ht =>
          rw [← Except.ok.inj h3, List.filter_cons_of_pos (by simp [ht])]
          exact List.Forall₂.cons ⟨a, b, c, d, r, ht, rfl, rfl, rfl, rfl, rfl⟩ this
        · simp at h3
  · simp at hr

/-- C81: it is read if and only if the first line has three words of which the first is a number, and
each other line is blank or has four words. -/
theorem c81_glc_total (h : Text) (ls : List Text) :
    (∃ r, glcRead env (h :: ls) = .ok r) ↔
      (3 ≤ (tokens h).length ∧ ∃ ver ∈ (tokens h).head?, (env.float ver).isSome = true) ∧
      ∀ l ∈ ls, tokens l = [] ∨ 4 ≤ (tokens l).length := by
  have hent : (∃ es, glcEntries env ls = .ok es) ↔
      ∀ l ∈ ls, tokens l = [] ∨ 4 ≤ (tokens l).length := by
    induction ls with
    | nil => simp [glcEntries]
    | cons l ls ih =>
      rw [List.forall_mem_cons, ← ih]
      have h0 : (∃ e, glcEntry env l = .ok e) ↔ (tokens l = [] ∨ 4 ≤ (tokens l).length) := by
        unfold glcEntry
        rw [tokens_strip]
        rcases tokens l with _ | ⟨a, _ | ⟨b, _ | ⟨c, _ | ⟨d, r⟩⟩⟩⟩ <;> simp
      rw [← h0]
      simp only [glcEntries, RayOpt.Parse.bind_ok, RayOpt.Parse.map_ok]
      constructor
      · rintro ⟨es, e, h1, es1, h2, -⟩; exact ⟨⟨e, h1⟩, es1, h2⟩
      · rintro ⟨⟨e, h1⟩, es1, h2⟩; exact ⟨_, e, h1, es1, h2, rfl⟩
  rw [← hent]
  simp only [glcRead]
  rcases tokens h with _ | ⟨a, _ | ⟨b, _ | ⟨c, r⟩⟩⟩
  · simp
  · simp
  · simp
  · cases hf : env.float a with
    | none => simp [hf]
    | some x =>
      simp only [hf, RayOpt.Parse.map_ok]
      constructor
      · rintro ⟨r, es, h1, -⟩; exact ⟨⟨by simp, a, rfl, by rw [hf]; rfl⟩, es, h1⟩
      · rintro ⟨-, es, h1⟩; exact ⟨_, es, h1, rfl⟩

/-- C81: the material made from an entry of OSLO has its name and density; after eight more words come
the number of the formula, the number of coefficients and the coefficients. -/
theorem c81_glc_material (l : Text) (e : Entry) (he : GlcLine env l e) (m : Mat)
    (hm : glcToMaterial env e.data = .ok m) :
    m.name = some e.name ∧ m.density = e.density ∧
    ∃ a num rest k, (tokens l).drop 12 = a :: num :: rest ∧ env.int a = some k ∧
      m.typ = some (glcFormula k) ∧
      (∀ n : ℕ, env.int num = some n → m.coefficients = (rest.take n).map env.float) ∧
      (env.int num = none → m.coefficients = rest.map env.float) := by
  obtain ⟨a, b, c, d, rest, ht, h1, h2, h3, h4, h5⟩ := he
  unfold glcToMaterial at hm
  rw [h5, tokens_strip, tokens_strip, ht] at hm
  simp only at hm
  split at hm
  · next a' num r hd =>
    split at hm
    · simp at hm
    · next k hk =>
      rw [← Except.ok.inj hm]
      refine ⟨by rw [h1], by rw [h4], a', num, r, k, by rw [ht]; simpa using hd, hk, rfl, ?_, ?_⟩
      · intro n hn; simp [hn, sliceTo]
      · intro hn; simp [hn, sliceTo]
  · simp at hm

/-! ## CODE V and refractiveindex.info -/

/-- Specification: the dispersion formulas of the equations of CODE V. -/
def codevTable : List (String × Formula) := [("Standard Sellmeier", .sellmeier),
  ("Glass Manufacturer Sellmeier", .sellmeierSquaredOffset), ("Laurent", .schott),
  ("Glass Manufacturer Laurent", .schott), ("Herzberger", .herzberger), ("Cauchy", .conrady)]

/-- C81: the formula is the one of the equation; other equations are rejected. -/
theorem c81_codev_formula (g : CodevGlass) :
    (∀ m, codevToMaterial env g = .ok m → ∃ t f, (t, f) ∈ codevTable ∧ g.equation = t.toList ∧
      m.typ = some (some f)) ∧
    (g.equation ∉ codevTable.map (fun p => p.1.toList) → codevToMaterial env g = .error .key) := by
  have key : codevFormula g.equation =
      (codevTable.map fun p => (p.1.toList, p.2)).lookup g.equation := by
    simp only [codevTable, List.map_cons, List.map_nil, List.lookup_cons, codevFormula, List.lookup_nil,
      beq_eq_decide]
    split_ifs <;> simp_all
  constructor
  · intro m hm
    unfold codevToMaterial at hm
    split at hm
    · simp at hm
    · next f hf =>
      obtain ⟨c, hc, rfl⟩ := RayOpt.Parse.map_ok.mp hm
      rw [key] at hf
      obtain ⟨l1, l2, hl, -⟩ := List.lookup_eq_some_iff.mp hf
      have h1 : (g.equation, f) ∈ codevTable.map fun p => (p.1.toList, p.2) := by rw [hl]; simp
      rw [List.mem_map] at h1
      obtain ⟨⟨t, f'⟩, h2, h3⟩ := h1
      simp only [Prod.mk.injEq] at h3
      exact ⟨t, f', h2, h3.1.symm, by rw [h3.2]⟩
  · intro h
    unfold codevToMaterial
    rw [key, List.lookup_eq_none_iff.mpr]
    intro p hp
    rw [List.mem_map] at hp
    obtain ⟨q, hq, rfl⟩ := hp
    rw [bne_iff_ne]
    intro h1
    exact h (List.mem_map.mpr ⟨q, hq, h1.symm⟩)

/-- A glass with the formula of Laurent. -/
example : ∃ m, codevToMaterial env ⟨"SCBK7".toList, "517642".toList, "0".toList, "Laurent".toList, []⟩ = .ok m ∧
    m.typ = some (some .schott) := ⟨_, rfl, rfl⟩

/-- C81: the material of CODE V has the name of its entry, if the identifier of the catalogue has two
characters. -/
theorem c81_codev (id : Text) (g : CodevGlass) (e : Entry) (m : Mat)
    (he : codevEntry env id g = .ok e) (hm : codevToMaterial env g = .ok m) :
    (id.length = 2 → m.name = some e.name) ∧ g.glassName = id ++ e.name ∧
    m.coefficients = g.coefficients.map env.float := by
  unfold codevEntry at he
  split at he
  swap
  · simp at he
  next hp =>
  split at he
  · simp at he
  rw [← Except.ok.inj he]
  unfold codevToMaterial at hm
  split at hm
  · simp at hm
  · next f hf =>
    obtain ⟨c, hc, rfl⟩ := RayOpt.Parse.map_ok.mp hm
    refine ⟨fun hl => by simp [hl], ?_, ?_⟩
    · exact List.prefix_iff_eq_append.mp hp |>.symm
    · simp only
      clear hm
      generalize g.coefficients = ts at hc
      induction ts generalizing c with
      | nil => rw [← Except.ok.inj hc]; rfl
      | cons t ts ih =>
        simp only [floats] at hc
        split at hc
        · simp at hc
        · next x hx =>
          obtain ⟨c', h1, rfl⟩ := RayOpt.Parse.map_ok.mp hc
          rw [ih c' h1, List.map_cons, hx]

/-- C81, violation: for other identifiers the names differ, unless nothing is left of both. -/
theorem c81_codev_violation (id : Text) (g : CodevGlass) (e : Entry) (m : Mat)
    (he : codevEntry env id g = .ok e) (hm : codevToMaterial env g = .ok m) (hid : id.length ≠ 2)
    (hne : e.name ≠ []) : m.name ≠ some e.name := by
  obtain ⟨-, h1, -⟩ := c81_codev env id g e m he hm
  unfold codevToMaterial at hm
  split at hm
  · simp at hm
  · obtain ⟨c, -, rfl⟩ := RayOpt.Parse.map_ok.mp hm
    simp only [ne_eq, Option.some.injEq]
    intro h
    have h2 := congrArg List.length h
    rw [h1, List.length_drop, List.length_append] at h2
    have : 0 < e.name.length := List.length_pos_iff.mpr hne
    omega

def riiOf : RiiData → Option (Option Formula × List (Option Num) × List (Option Num))
  | .formula n range c => some (riiFormula n, (tokens range).map env.float,
      (tokens c).map env.float)
  | _ => none

/-- C81: a material of refractiveindex.info has the formula, the range and the coefficients of its last
formula and the name of its entry. -/
theorem c81_rii (book page : Text) (ds : List RiiData) (m : Mat)
    (h : riiToMaterial env book page ds = .ok m) :
    m.name = some (riiName book page) ∧
    ∀ f r c, last (riiOf env) ds = some (f, r, c) →
      (∃ f', f = some f' ∧ m.typ = some (some f')) ∧ r = [m.lambdaMin, m.lambdaMax] ∧
        m.coefficients = c := by
  have he : ∀ ds g, riiRun env ds g = runL (riiStep env) ds g := by
    intro ds
    induction ds with
    | nil => intro g; rfl
    | cons d ds ih =>
      intro g
      simp only [riiRun, runL]
      congr 1
      funext s; exact ih s
  unfold riiToMaterial at h
  rw [he] at h
  have step : ∀ (d : RiiData) (s s' : Mat), riiStep env s d = .ok s' → s'.name = s.name ∧
      (s'.typ, [s'.lambdaMin, s'.lambdaMax], s'.coefficients) = ((riiOf env d).map
        (fun x => (some x.1, x.2))).getD (s.typ, [s.lambdaMin, s.lambdaMax], s.coefficients) ∧
      (∀ x, riiOf env d = some x → x.1.isSome = true) := by
    intro d s s' hs
    cases d with
    | formula n range c =>
      simp only [riiStep] at hs
      split at hs
      · simp at hs
      · next f hf =>
        split at hs
        · next a b ht =>
          rw [← Except.ok.inj hs]
          simp [riiOf, hf, ht]
        · simp at hs
    | tabulatedK _ => rw [← Except.ok.inj hs]; simp [riiOf]
    | other => rw [← Except.ok.inj hs]; simp [riiOf]
  constructor
  · have := runL_field (riiStep env) Mat.name (fun _ => none) (fun _ => True)
      (fun d s s' _ hs => (step d s s' hs).1) ds _ m (by simp) h
    rw [this]; simp [last]
  · intro f r c hl
    have h1 := runL_field (riiStep env)
      (fun s => (s.typ, [s.lambdaMin, s.lambdaMax], s.coefficients))
      (fun d => (riiOf env d).map (fun x => (some x.1, x.2))) (fun _ => True)
      (fun d s s' _ hs => (step d s s' hs).2.1) ds _ m (by simp) h
    rw [RayOpt.Parse.last_map (riiOf env) (fun x => (some x.1, x.2)), hl] at h1
    simp only [Option.map_some, Option.getD_some, Prod.mk.injEq] at h1
    -- the last formula is one of those that were read
    have h2 : f.isSome = true := by
      have hm : (f, r, c) ∈ ds.filterMap (riiOf env) := List.mem_of_getLast? hl
      obtain ⟨d, hd, hx⟩ := List.mem_filterMap.mp hm
      clear h1 hl hm
      obtain ⟨s, t, hst⟩ := List.append_of_mem hd
      rw [hst] at h
      obtain ⟨u, -, h⟩ := (runL_append_ok _ _ _ _ _).mp h
      obtain ⟨w, hw, -⟩ := (runL_cons_ok _ _ _ _ _).mp h
      exact (step d u w hw).2.2 _ hx
    obtain ⟨f', rfl⟩ := Option.isSome_iff_exists.mp h2
    exact ⟨⟨f', rfl, h1.1⟩, h1.2.1.symm, h1.2.2⟩

/-! ## Examples -/

/-- A catalogue with a comment and two glasses. -/
example : ((agfRead ⟨fun _ => none, fun _ => none⟩ ["CC a comment\n".toList, "! hidden\n".toList,
    "NM N-BK7 2 517642 1.5168 64.17 0 1\n".toList, "CD 1.0 0.006\n".toList,
    "NM F2 1 620364 1.62 36.37\n".toList]).toOption.map (·.map Entry.name)) =
    some ["N-BK7".toList, "F2".toList] := by decide +kernel

example : Regular "NM F2 1 620364 1.62 36.37\n".toList :=
  ⟨'N', 'M', "F2 1 620364 1.62 36.37".toList, by decide +kernel, by decide, by decide,
    by decide +kernel⟩

example (hf : ∀ t, env.float t = some (.fin 1)) : ∃ m, agfToMaterial env
    "NM F2 1 620364 1.62 36.37\nCD 1.0 0.006\n".toList = .ok m ∧ m.coefficients.length = 2 := by
  have ht : (∃ g, agfToMaterial env "NM F2 1 620364 1.62 36.37\nCD 1.0 0.006\n".toList = .ok g) := by
    rw [c81_agf_material_total]
    have hd : dataLines "NM F2 1 620364 1.62 36.37\nCD 1.0 0.006\n".toList =
        [(.nm, "F2 1 620364 1.62 36.37".toList), (.cd, "1.0 0.006".toList)] := by decide +kernel
    rw [hd]
    intro l hl
    simp only [List.mem_cons, List.not_mem_nil, or_false] at hl
    rcases hl with rfl | rfl
    · refine ⟨by decide +kernel, some .schott, "F2".toList, "1".toList,
        ["620364".toList, "1.62".toList, "36.37".toList], .fin 1, 1, by decide +kernel, hf _, ?_, rfl⟩
      exact ⟨1, rfl, by simp⟩
    · trivial
  obtain ⟨g, hg⟩ := ht
  refine ⟨g, hg, ?_⟩
  rw [(c81_agf_material env _ g hg).1]
  have hd : dataLines "NM F2 1 620364 1.62 36.37\nCD 1.0 0.006\n".toList =
      [(.nm, "F2 1 620364 1.62 36.37".toList), (.cd, "1.0 0.006".toList)] := by decide +kernel
  rw [hd]
  have : (tokens "1.0 0.006".toList).length = 2 := by decide +kernel
  simpa [last, cdOf] using this

end RayOpt.GlassFile
