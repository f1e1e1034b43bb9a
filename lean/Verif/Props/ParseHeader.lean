import Verif.Props.ParseOslo

/-!
C60: what the readers take from the lines that do not describe a surface: the unit of length, the name of
the lens and the wavelengths; and the coatings.
-/

namespace RayOpt.Parse

variable {M : Type} (env : Env M)

/-! ### Quotation marks -/

/-- Specification: `t` is `a` without the quotation marks around it. -/
def Unquoted (a t : Text) : Prop :=
  (∃ m k : ℕ, a = List.replicate m '"' ++ t ++ List.replicate k '"') ∧
    t.head? ≠ some '"' ∧ t.getLast? ≠ some '"'

theorem dropWhile_quote (a : Text) : ∃ m : ℕ,
    a = List.replicate m '"' ++ a.dropWhile (· = '"') ∧ (a.dropWhile (· = '"')).head? ≠ some '"' := by
  induction a with
  | nil => exact ⟨0, rfl, by simp⟩
  | cons c a ih =>
    by_cases hc : c = '"'
    · obtain ⟨m, h1, h2⟩ := ih
      refine ⟨m + 1, ?_, ?_⟩
      · rw [List.dropWhile_cons_of_pos (by simpa using hc), List.replicate_succ, List.cons_append, ← h1, hc]
      · rwa [List.dropWhile_cons_of_pos (by simpa using hc)]
    · refine ⟨0, ?_, ?_⟩
      · rw [List.dropWhile_cons_of_neg (by simpa using hc)]; rfl
      · rw [List.dropWhile_cons_of_neg (by simpa using hc)]
        simpa using hc

theorem unquote_unquoted (a : Text) : Unquoted a (unquote a) := by
  obtain ⟨m, h1, h2⟩ := dropWhile_quote a
  obtain ⟨k, h3, h4⟩ := dropWhile_quote (a.dropWhile (· = '"')).reverse
  have h5 : a.dropWhile (· = '"') = unquote a ++ List.replicate k '"' := by
    unfold unquote
    have := congrArg List.reverse h3
    rw [List.reverse_reverse, List.reverse_append, List.reverse_replicate] at this
    exact this
  refine ⟨⟨m, k, by rw [List.append_assoc, ← h5]; exact h1⟩, ?_, ?_⟩
  · intro h
    apply h2
    rw [h5]
    cases hu : unquote a with
    | nil => rw [hu] at h; simp at h
    | cons c l => rw [hu] at h; simpa using h
  · unfold unquote
    rw [List.getLast?_reverse]
    exact h4

/-- The text without quotation marks is the only one. -/
theorem Unquoted.unique {a t t' : Text} (h : Unquoted a t) (h' : Unquoted a t') : t = t' := by
  have left : ∀ (m m' : ℕ) (b b' : Text), List.replicate m '"' ++ b = List.replicate m' '"' ++ b' →
      b.head? ≠ some '"' → b'.head? ≠ some '"' → b = b' := by
    intro m
    induction m with
    | zero =>
      intro m' b b' e h1 h2
      cases m' with
      | zero => simpa using e
      | succ m' =>
        rw [List.replicate_zero, List.nil_append] at e
        rw [e] at h1
        simp [List.replicate_succ] at h1
    | succ m ih =>
      intro m' b b' e h1 h2
      cases m' with
      | zero =>
        rw [List.replicate_zero, List.nil_append] at e
        rw [← e] at h2
        simp [List.replicate_succ] at h2
      | succ m' =>
        rw [List.replicate_succ, List.replicate_succ, List.cons_append, List.cons_append] at e
        exact ih m' b b' (List.cons.inj e).2 h1 h2
  obtain ⟨⟨m, k, e⟩, h1, h2⟩ := h
  obtain ⟨⟨m', k', e'⟩, h1', h2'⟩ := h'
  rw [e, List.append_assoc, List.append_assoc] at e'
  -- an empty text leaves only marks
  have side : ∀ (t : Text) (k : ℕ), t.head? ≠ some '"' → t ≠ [] →
      (t ++ List.replicate k '"').head? ≠ some '"' := by
    intro t k h hne
    rw [List.head?_append_of_ne_nil _ hne]; exact h
  have count : ∀ (t : Text) (m k j : ℕ), List.replicate j '"' = List.replicate m '"' ++ (t ++ List.replicate k '"') →
      t.head? ≠ some '"' → t = [] := by
    intro t m k j e h
    cases t with
    | nil => rfl
    | cons c t =>
      have : c ∈ List.replicate j '"' := by rw [e]; simp
      rw [List.eq_of_mem_replicate this] at h
      simp at h
  by_cases ht : t = []
  · subst ht
    have : List.replicate (m + k) '"' = List.replicate m' '"' ++ (t' ++ List.replicate k' '"') := by
      rw [List.replicate_add]; simpa using e'
    exact (count t' m' k' _ this h1').symm
  · by_cases ht' : t' = []
    · subst ht'
      have : List.replicate (m' + k') '"' = List.replicate m '"' ++ (t ++ List.replicate k '"') := by
        rw [List.replicate_add]; simpa using e'.symm
      exact count t m k _ this h1
    · have e1 := left m m' _ _ e' (side t k h1 ht) (side t' k' h1' ht')
      have e2 := congrArg List.reverse e1
      rw [List.reverse_append, List.reverse_append, List.reverse_replicate, List.reverse_replicate] at e2
      have := left k k' _ _ e2 (by rwa [List.head?_reverse]) (by rwa [List.head?_reverse])
      exact List.reverse_injective this

/-! ### Zemax -/

/-- The unit of a line, in metres. -/
noncomputable def zUnit (l : ZLine) : Option ℝ :=
  if l.1 = .unit then
    match (tokens l.2).head? with
    | some t => if t = "MM".toList then some 0.001
        else if t = "IN".toList ∨ t = "INCH".toList then some 0.0254 else none
    | none => none
  else none

/-- A number of micrometres in metres. -/
noncomputable def micro : Num → Num
  | .fin x => .fin (x / 1000000)
  | x => x

/-- The wavelengths of a line: all its numbers, given in micrometres. -/
noncomputable def zWaves (l : ZLine) : Option (List Num) :=
  if l.1 = .wavl then ((tokens l.2).mapM env.float).map (·.map micro) else none

/-- The name of a line. -/
def zName (l : ZLine) : Option Text := if l.1 = .name then some l.2 else none

theorem allFloats_ok (ts : List Text) (xs : List Num) (h : allFloats env ts = .ok xs) :
    ts.mapM env.float = some xs := by
  induction ts generalizing xs with
  | nil => cases h; rfl
  | cons t ts ih =>
    obtain ⟨x, h1, h⟩ := bind_ok.mp h
    obtain ⟨ys, h2, rfl⟩ := map_ok.mp h
    rw [toFloat_ok] at h1
    rw [List.mapM_cons, h1, ih ys h2]
    rfl

theorem units_ok (t : Text) (x : ℝ) (h : units t = .ok x) :
    (if t = "MM".toList then some (0.001 : ℝ)
      else if t = "IN".toList ∨ t = "INCH".toList then some 0.0254 else none) = some x := by
  unfold units at h
  have e1 : "MM".toList = ['M', 'M'] := by decide
  have e2 : "IN".toList = ['I', 'N'] := by decide
  have e3 : "INCH".toList = ['I', 'N', 'C', 'H'] := by decide
  rw [e1, e2, e3]
  split_ifs at h with h1 h2
  · cases h; rw [if_pos h1]; norm_num
  · cases h; rw [if_neg h1, if_pos h2.symm]; norm_num

theorem zmxStep_header (s s' : ZState M) (l : ZLine) (h : zmxStep env s l.1 l.2 = .ok s') :
    s'.scale = (zUnit l).getD s.scale ∧ s'.description = ((zName l).map unquote).getD s.description ∧
    s'.wavelengths = ((zWaves env l).map some).getD s.wavelengths := by
  obtain ⟨c, a⟩ := l
  cases c
  case unit =>
    obtain ⟨t, h1, h⟩ := bind_ok.mp h
    obtain ⟨x, h2, rfl⟩ := map_ok.mp h
    rw [first_ok] at h1
    refine ⟨?_, rfl, rfl⟩
    unfold zUnit
    simp only [if_true, h1]
    rw [units_ok t x h2]
    rfl
  case name => cases h; exact ⟨rfl, rfl, rfl⟩
  case surf => cases h; exact ⟨rfl, rfl, rfl⟩
  case stop => cases h; exact ⟨rfl, rfl, rfl⟩
  case other => cases h; exact ⟨rfl, rfl, rfl⟩
  case wavl =>
    obtain ⟨xs, h1, rfl⟩ := map_ok.mp h
    refine ⟨rfl, rfl, ?_⟩
    unfold zWaves
    rw [if_pos rfl, allFloats_ok env _ _ h1]
    have : Num.scale (1 / 1000000) = micro := by
      funext x
      cases x with
      | fin x => simp only [Num.scale, micro]; congr 1; ring
      | inf => simp [Num.scale, micro]
      | neginf => simp [Num.scale, micro]
      | nan => rfl
    rw [this]; rfl
  case parm =>
    simp only [zmxStep] at h
    split at h
    · obtain ⟨i, -, h⟩ := bind_ok.mp h
      obtain ⟨j, -, h⟩ := map_ok.mp h
      split_ifs at h <;> subst h <;> exact ⟨rfl, rfl, rfl⟩
    · cases h
  all_goals
    obtain ⟨x, -, rfl⟩ := map_ok.mp h
    exact ⟨rfl, rfl, rfl⟩

/-- C60: the unit of length, the name and the wavelengths of a Zemax file are those of the last line of
their kind, wherever it is; without one they are millimetres, no name and the default wavelengths. -/
theorem c60_zmx_header (data : Text) (sys : Sys M) (h : zmx env data = .ok sys) :
    sys.scale = (last zUnit (zLines data)).getD 0.001 ∧
    (∀ a, last zName (zLines data) = some a → Unquoted a sys.description) ∧
    (last zName (zLines data) = none → sys.description = []) ∧
    sys.wavelengths = last (zWaves env) (zLines data) := by
  obtain ⟨s', hrun, rfl⟩ := map_ok.mp h
  change zmxRun env (zLines data) _ = _ at hrun
  rw [zmxRun_eq] at hrun
  have key := fun {α : Type} (g : ZState M → α) (f : ZLine → Option α) hstep =>
    runL_field (fun s l => zmxStep env s l.1 l.2) g f (fun _ => True) hstep (zLines data) _ s'
      (fun _ _ => trivial) hrun
  have hd := key (fun s => s.description) (fun l => (zName l).map unquote)
    fun l s s' _ h => (zmxStep_header env s s' l h).2.1
  rw [last_map] at hd
  refine ⟨?_, ?_, ?_, ?_⟩
  · rw [key (fun s => s.scale) zUnit fun l s s' _ h => (zmxStep_header env s s' l h).1]
    simp only [zmxInit]
    congr 1; norm_num
  · intro a ha
    rw [hd, ha]
    exact unquote_unquoted a
  · intro ha
    rw [hd, ha]; rfl
  · rw [key (fun s => s.wavelengths) (fun l => (zWaves env l).map some)
      fun l s s' _ h => (zmxStep_header env s s' l h).2.2, last_map]
    cases last (zWaves env) (zLines data) <;> rfl

/-- A file with a name, a unit and wavelengths. -/
def headSample : List (ℕ × Text × Text) :=
  [(0, ['N', 'A', 'M', 'E'], ['"', 'A', ' ', 'B', '"']), (0, ['U', 'N', 'I', 'T'], ['I', 'N', ' ', 'X']),
   (0, ['W', 'A', 'V', 'L'], ['5', ' ', '5'])]

example : ∃ sys, zmx testEnv (headSample.flatMap fun l => lineText l.1 l.2.1 l.2.2 ++ ['\n']) = .ok sys ∧
    sys.scale = 0.0254 ∧ sys.description = ['A', ' ', 'B'] ∧
    sys.wavelengths = some [.fin (5 / 1000000), .fin (5 / 1000000)] := by
  have hl := c60_zmx_text headSample (by unfold Word; decide)
  have hx : tokens ['I', 'N', ' ', 'X'] = [['I', 'N'], ['X']] := by decide
  have h5 : tokens ['5', ' ', '5'] = [['5'], ['5']] := by decide
  have hrun : ∃ sys, zmx testEnv (headSample.flatMap fun l => lineText l.1 l.2.1 l.2.2 ++ ['\n']) = .ok sys := by
    refine map_total.mpr ?_
    change ∃ s, zmxRun testEnv (zLines _) _ = .ok s
    rw [show zLines _ = _ from hl]
    simp [headSample, zmxRun, zmxStep, ZCmd.of, first, Except.bind, Except.map, testEnv, hx, h5, units, allFloats,
      toFloat]
  obtain ⟨sys, hsys⟩ := hrun
  obtain ⟨h1, h2, -, h3⟩ := c60_zmx_header testEnv _ sys hsys
  rw [show zLines _ = _ from hl] at h1 h2 h3
  refine ⟨sys, hsys, ?_, ?_, ?_⟩
  · rw [h1]
    simp [last, headSample, zUnit, ZCmd.of, hx]
  · refine (h2 ['"', 'A', ' ', 'B', '"'] (by simp [last, headSample, zName, ZCmd.of])).unique ?_
    exact ⟨⟨1, 1, rfl⟩, by decide, by decide⟩
  · rw [h3]
    simp [last, headSample, zWaves, ZCmd.of, h5, testEnv, micro]

/-! ### OSLO -/

/-- The unit of a line, in metres; it is given in millimetres. -/
noncomputable def lUnit (l : LLine) : Option Num :=
  if l.1 = .uni then (l.2.head?.bind env.float).map fun x => match x with
    | .fin x => .fin (x / 1000)
    | x => x
  else none

/-- The words of a line with a name. -/
def lName (l : LLine) : Option (List Text) := if l.1 = .len then some l.2 else none

theorem lenStep_header (s s' : LState M) (l : LLine) (h : lenStep env s l.1 l.2 = .ok s') :
    s'.scale = (lUnit env l).getD s.scale ∧
    s'.description = ((lName l).map fun args =>
      unquote (joinWords ((args.take (args.length - 2)).drop 1))).getD s.description := by
  obtain ⟨c, a⟩ := l
  cases c
  case len => cases h; exact ⟨rfl, rfl⟩
  case air => cases h; exact ⟨rfl, rfl⟩
  case ast => cases h; exact ⟨rfl, rfl⟩
  case nxt => cases h; exact ⟨rfl, rfl⟩
  case other => cases h; exact ⟨rfl, rfl⟩
  case uni =>
    obtain ⟨t, h1, h⟩ := bind_ok.mp h
    obtain ⟨x, h2, rfl⟩ := map_ok.mp h
    rw [first_ok] at h1
    rw [toFloat_ok] at h2
    refine ⟨?_, rfl⟩
    unfold lUnit
    simp only [if_true] at h1 ⊢
    rw [h1, Option.bind_some, h2]
    cases x with
    | fin x => simp only [Num.scale, Option.map_some, Option.getD_some]; congr 1; ring
    | inf => simp [Num.scale]
    | neginf => simp [Num.scale]
    | nan => rfl
  case ap =>
    obtain ⟨t, -, h⟩ := bind_ok.mp h
    obtain ⟨u, -, h⟩ := bind_ok.mp h
    obtain ⟨x, -, rfl⟩ := map_ok.mp h
    exact ⟨rfl, rfl⟩
  all_goals
    obtain ⟨t, -, h⟩ := bind_ok.mp h
    obtain ⟨x, -, rfl⟩ := map_ok.mp h
    exact ⟨rfl, rfl⟩

/-- C60: the unit of an OSLO file is that of the last `UNI` line (millimetres without one), and the name
is made of the words of the last `LEN` line between its first and its last two, with single blanks and
without the quotation marks around them. -/
theorem c60_len_header (dat : Text) (els : List (Surf M)) (scale : Num) (desc : Text)
    (h : len env dat = .ok (els, scale, desc)) :
    scale = (last (lUnit env) (lLines dat)).getD (.fin 0.001) ∧
    (∀ a ws x y, last lName (lLines dat) = some (a :: (ws ++ [x, y])) →
      Unquoted (List.intercalate [' '] ws) desc) ∧
    (∀ args, last lName (lLines dat) = some args → args.length < 4 → desc = []) ∧
    (last lName (lLines dat) = none → desc = []) := by
  obtain ⟨s', hrun, hs'⟩ := map_ok.mp h
  cases hs'
  change lenRun env (lLines dat) _ = _ at hrun
  rw [lenRun_eq] at hrun
  have key := fun {α : Type} (g : LState M → α) (f : LLine → Option α) hstep =>
    runL_field (fun s l => lenStep env s l.1 l.2) g f (fun _ => True) hstep (lLines dat) _ s'
      (fun _ _ => trivial) hrun
  have hd := key (fun s => s.description) (fun l => (lName l).map fun args =>
      unquote (joinWords ((args.take (args.length - 2)).drop 1)))
    fun l s s' _ h => (lenStep_header env s s' l h).2
  rw [last_map] at hd
  refine ⟨?_, ?_, ?_, ?_⟩
  · rw [key (fun s => s.scale) (lUnit env) fun l s s' _ h => (lenStep_header env s s' l h).1]
    simp only [lenInit]
    congr 2; norm_num
  · intro a ws x y ha
    rw [hd, ha]
    have : ((a :: (ws ++ [x, y])).take ((a :: (ws ++ [x, y])).length - 2)).drop 1 = ws := by
      have e : (a :: (ws ++ [x, y])).length - 2 = ws.length + 1 := by simp
      rw [e, List.take_succ_cons, List.drop_succ_cons, List.drop_zero, List.take_left']
      rfl
    simp only [Option.map_some, Option.getD_some, this]
    exact unquote_unquoted _
  · intro args ha hlen
    rw [hd, ha]
    have : (args.take (args.length - 2)).drop 1 = [] := by
      apply List.drop_eq_nil_of_le
      rw [List.length_take]; omega
    simp only [Option.map_some, Option.getD_some, this]
    rfl
  · intro ha
    rw [hd, ha]; rfl

/-- `LEN NEW "A B" 5 5`, `UNI 5`. -/
def lenHeadSample : List (Text × List Text) :=
  [(['L', 'E', 'N'], [['N', 'E', 'W'], ['"', 'A'], ['B', '"'], ['5'], ['5']]), (['U', 'N', 'I'], [['5']]),
   (['E', 'N', 'D'], [])]

example : ∃ els, len testEnv (lenHeadSample.flatMap fun c => joinWords (c.1 :: c.2) ++ ['\n']) =
    .ok (els, .fin 0.005, ['A', ' ', 'B']) := by
  have hl := c60_len_text lenHeadSample (by unfold Word; decide)
  have hrun : ∃ r, len testEnv (lenHeadSample.flatMap fun c => joinWords (c.1 :: c.2) ++ ['\n']) =
      .ok r := by
    rw [c60_len_total, hl]
    simp [lenHeadSample, LCmd.of, LGood, testEnv]
  obtain ⟨⟨els, scale, desc⟩, hr⟩ := hrun
  obtain ⟨h1, h2, -, -⟩ := c60_len_header testEnv _ els scale desc hr
  rw [hl] at h1 h2
  have e1 : scale = .fin 0.005 := by
    rw [h1]
    simp [last, lenHeadSample, lUnit, LCmd.of, testEnv]
    norm_num
  have e2 : desc = ['A', ' ', 'B'] := by
    refine (h2 ['N', 'E', 'W'] [['"', 'A'], ['B', '"']] ['5'] ['5']
      (by simp [last, lenHeadSample, lName, LCmd.of])).unique ?_
    exact ⟨⟨1, 1, by decide⟩, by decide, by decide⟩
  exact ⟨els, by rw [hr, e1, e2]⟩

end RayOpt.Parse
