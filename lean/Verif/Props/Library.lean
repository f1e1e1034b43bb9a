import Verif.Model.Library
import Mathlib.Tactic

/-!
# C55: the library

Statements about rayopt/library.py and rayopt/library_items.py.
-/

namespace RayOpt.Library

/-! ## Readers by extension -/

/-- At most one registered extension fits a file, so that the order of registration is irrelevant. -/
theorem c55_parser_unique (path : Name) (kv kv' : Name × Kind) (h : kv ∈ parsers)
    (h' : kv' ∈ parsers) (hs : kv.1 <:+ path) (hs' : kv'.1 <:+ path) : kv = kv' := by
  have key : ∀ a ∈ parsers, ∀ b ∈ parsers, a.1 <:+ b.1 → a = b := by decide +kernel
  rcases List.suffix_or_suffix_of_suffix hs hs' with h1 | h1
  · exact key _ h _ h' h1
  · exact (key _ h' _ h h1).symm

theorem c55_parser (path : Name) (k : Kind) :
    kindOf path = some k ↔ ∃ e, (e, k) ∈ parsers ∧ e <:+ path.map Char.toLower := by
  unfold kindOf findParser
  constructor
  · intro h
    obtain ⟨⟨e, k'⟩, h1, h2⟩ := Option.map_eq_some_iff.mp h
    simp only at h2
    subst h2
    exact ⟨e, List.mem_of_find?_eq_some h1, by simpa using List.find?_some h1⟩
  · rintro ⟨e, h1, h2⟩
    have h3 : (parsers.find? fun kv => kv.1.isSuffixOf (path.map Char.toLower)).isSome = true := by
      rw [List.find?_isSome]; exact ⟨_, h1, by simpa using h2⟩
    obtain ⟨kv, h4⟩ := Option.isSome_iff_exists.mp h3
    have h5 : kv = (e, k) := c55_parser_unique _ _ _ (List.mem_of_find?_eq_some h4) h1
      (by simpa using List.find?_some h4) h2
    rw [h4, h5]; rfl

/-- C55: the readers by the end of the file name in lower case. -/
theorem c55_extensions (path low : Name) (hl : low = path.map Char.toLower) :
    (kindOf path = some .dir ↔ ".dir".toList <:+ low) ∧
    (kindOf path = some .glc ↔ ".glc".toList <:+ low) ∧
    (kindOf path = some .zmf ↔ ".zmf".toList <:+ low) ∧
    (kindOf path = some .agf ↔ ".agf".toList <:+ low) ∧
    (kindOf path = some .yml ↔ "library.yml".toList <:+ low) ∧
    (kindOf path = some .xml ↔ ".xml".toList <:+ low) := by
  subst hl
  refine ⟨?_, ?_, ?_, ?_, ?_, ?_⟩ <;> rw [c55_parser] <;> simp [parsers]

/-- The extension is recognised in any case. -/
example : kindOf "/home/x/SCHOTT.AGF".toList = some .agf := by decide +kernel
example : kindOf "/x/Library.yml".toList = some .yml := by decide +kernel
example : kindOf "/x/other.yml".toList = none := by decide +kernel

/-! ## Loading -/

/-- Between calls nothing is pending and every recorded file has a reader, a date and, unless it is
an index of shelves, a size. -/
structure Inv (s : State) : Prop where
  clean : s.working = s.committed
  known : ∀ c ∈ s.working, ∀ p, c.file = some p → (kindOf p).isSome = true
  dated : ∀ c ∈ s.working, c.file.isSome = true → c.date.isSome = true

theorem inv_empty : Inv ⟨[], []⟩ := ⟨rfl, by simp, by simp⟩

theorem readCats_file {k : Kind} {path : Name} {f : File} {c : Cat} (h : c ∈ readCats k path f) :
    (c.file = none ∨ c.file = some path) ∧ (c.file.isSome = true → c.date = some f.mtime) := by
  cases k <;> simp only [readCats, List.mem_cons, List.mem_map, List.not_mem_nil, or_false] at h
  all_goals first
    | (subst h; simp)
    | skip
  rcases h with rfl | ⟨sh, -, rfl⟩ <;> simp

theorem findFile_some {path : Name} {w : List Cat} {c : Cat} (h : findFile path w = some c) :
    c ∈ w ∧ c.file = some path :=
  ⟨List.mem_of_find?_eq_some h, by simpa using List.find?_some h⟩

theorem deleteFirst_none {path : Name} {w : List Cat} (h : findFile path w = none) :
    deleteFirst path w = w := by
  unfold deleteFirst findFile at *
  rw [List.find?_eq_none] at h
  exact List.eraseP_of_forall_not h

/-- What `load` can do to a clean library: keep it, or commit it without the first record of the
file and with the catalogues of its reader. -/
theorem load_cases (fs : FS) (m : Mode) (path : Name) (s : State) (hi : Inv s) :
    ((load fs m path s).1 = s) ∨
    ∃ k f, kindOf path = some k ∧ fs path = some f ∧ f.fails = false ∧
      (load fs m path s).2 = none ∧
      ∃ w, (w = s.working ∧ (m = .other ∨ findFile path s.working = none) ∨
        w = deleteFirst path s.working ∧ (m = .reload ∨ m = .refresh)) ∧
      (load fs m path s).1 = ⟨w ++ readCats k path f, w ++ readCats k path f⟩ := by
  have hs : s = ⟨s.committed, s.committed⟩ := by
    have := hi.clean
    cases s; simp only at this; simp [this]
  -- parsing, once the session is prepared
  have go : ∀ s1 : State, s1.committed = s.committed →
      (kindOf path = none → s1 = s) → prepare fs m path s = .ok (some s1) →
      (load fs m path s).1 = s ∨ ∃ k f, kindOf path = some k ∧ fs path = some f ∧
        f.fails = false ∧ (load fs m path s).2 = none ∧
        (load fs m path s).1 = ⟨s1.working ++ readCats k path f, s1.working ++ readCats k path f⟩ := by
    intro s1 h1 h2 h3
    unfold load
    rw [h3]
    simp only [parse]
    cases hk : kindOf path with
    | none => left; exact h2 hk
    | some k =>
      cases hf : fs path with
      | none =>
        left
        simp only [State.rollback, h1]
        exact hs.symm
      | some f =>
        cases hb : f.fails with
        | true =>
          left
          simp only [State.rollback, h1, hb, if_true]
          exact hs.symm
        | false =>
          right
          exact ⟨k, f, rfl, rfl, hb, by simp [hb], by simp [hb, State.commit]⟩
  have hkn : ∀ c, findFile path s.working = some c → kindOf path ≠ none := by
    intro c hc hn
    have := hi.known c (findFile_some hc).1 path (findFile_some hc).2
    rw [hn] at this; simp at this
  cases m with
  | other =>
    rcases go s rfl (fun _ => rfl) rfl with h | ⟨k, f, a, b, c, d, e⟩
    · exact Or.inl h
    · exact Or.inr ⟨k, f, a, b, c, d, s.working, Or.inl ⟨rfl, Or.inl rfl⟩, e⟩
  | reload =>
    cases hc : findFile path s.working with
    | none =>
      rcases go s rfl (fun _ => rfl) (by simp only [prepare, hc]) with h | ⟨k, f, a, b, c, d, e⟩
      · exact Or.inl h
      · exact Or.inr ⟨k, f, a, b, c, d, s.working, Or.inl ⟨rfl, Or.inr rfl⟩, e⟩
    | some c =>
      rcases go { s with working := deleteFirst path s.working } rfl
        (fun h => absurd h (hkn c hc)) (by simp only [prepare, hc]) with h | ⟨k, f, a, b, c, d, e⟩
      · exact Or.inl h
      · exact Or.inr ⟨k, f, a, b, c, d, _, Or.inr ⟨rfl, Or.inl rfl⟩, e⟩
  | refresh =>
    cases hc : findFile path s.working with
    | none =>
      rcases go s rfl (fun _ => rfl) (by simp only [prepare, hc]) with h | ⟨k, f, a, b, c, d, e⟩
      · exact Or.inl h
      · exact Or.inr ⟨k, f, a, b, c, d, s.working, Or.inl ⟨rfl, Or.inr rfl⟩, e⟩
    | some c =>
      cases hf : fs path with
      | none => left; simp [load, prepare, hc, hf]
      | some f =>
        cases hd : c.date with
        | none => left; simp [load, prepare, hc, hf, hd]
        | some d =>
          by_cases hcond : f.mtime ≤ d ∨ some f.size = c.size
          · left
            have : prepare fs .refresh path s = .ok none := by
              simp only [prepare, hc, hf, hd]; exact if_pos hcond
            simp only [load, this]
          · have : prepare fs .refresh path s =
                .ok (some { s with working := deleteFirst path s.working }) := by
              simp only [prepare, hc, hf, hd]; exact if_neg hcond
            rcases go { s with working := deleteFirst path s.working } rfl
              (fun h => absurd h (hkn c hc)) this with h | ⟨k, f', a, b, c, d, e⟩
            · exact Or.inl h
            · rw [hf] at b
              exact Or.inr ⟨k, f', a, b, c, d, _, Or.inr ⟨rfl, Or.inr rfl⟩, e⟩

theorem mem_deleteFirst {path : Name} {w : List Cat} {c : Cat} (h : c ∈ deleteFirst path w) :
    c ∈ w := List.mem_of_mem_eraseP h

/-- Loads keep the library clean. -/
theorem inv_load (fs : FS) (m : Mode) (path : Name) (s : State) (hi : Inv s) :
    Inv (load fs m path s).1 := by
  rcases load_cases fs m path s hi with h | ⟨k, f, hk, hf, -, -, w, hw, h⟩
  · rw [h]; exact hi
  · rw [h]
    have hsub : ∀ c ∈ w, c ∈ s.working := by
      rcases hw with ⟨rfl, -⟩ | ⟨rfl, -⟩
      · exact fun c h => h
      · exact fun c h => mem_deleteFirst h
    refine ⟨rfl, fun c hc p hp => ?_, fun c hc hs => ?_⟩
    · rcases List.mem_append.mp hc with hc | hc
      · exact hi.known c (hsub c hc) p hp
      · rcases (readCats_file hc).1 with h1 | h1
        · rw [h1] at hp; simp at hp
        · rw [h1] at hp; rw [← Option.some.inj hp, hk]; rfl
    · rcases List.mem_append.mp hc with hc | hc
      · exact hi.dated c (hsub c hc) hs
      · rw [(readCats_file hc).2 hs]; rfl

/-- After any history of loads nothing is pending. -/
theorem c55_clean (h : List (FS × Mode × Name)) (s : State) (hi : Inv s) : Inv (history h s) := by
  induction h generalizing s with
  | nil => exact hi
  | cons x h ih => obtain ⟨fs, m, p⟩ := x; exact ih _ (inv_load fs m p s hi)

/-- A load that raises leaves the library as it was. -/
theorem c55_failed (fs : FS) (m : Mode) (path : Name) (s : State) (hi : Inv s) (e : Err)
    (he : (load fs m path s).2 = some e) : (load fs m path s).1 = s := by
  rcases load_cases fs m path s hi with h | ⟨k, f, -, -, -, h, -⟩
  · exact h
  · rw [h] at he; simp at he

/-- A load that changes the library adds all that the reader found in the file, at the end, and
removes at most one record, one of that file. -/
theorem c55_success (fs : FS) (m : Mode) (path : Name) (s : State) (hi : Inv s)
    (hne : (load fs m path s).1 ≠ s) :
    ∃ k f w, kindOf path = some k ∧ fs path = some f ∧ f.fails = false ∧
      (load fs m path s).1.committed = w ++ readCats k path f ∧
      (w = s.committed ∨ ∃ a c b, s.committed = a ++ c :: b ∧ w = a ++ b ∧
        c.file = some path ∧ ∀ x ∈ a, x.file ≠ some path) := by
  rcases load_cases fs m path s hi with h | ⟨k, f, hk, hf, hb, -, w, hw, h⟩
  · exact absurd h hne
  · refine ⟨k, f, w, hk, hf, hb, by rw [h], ?_⟩
    rw [← hi.clean]
    rcases hw with ⟨rfl, -⟩ | ⟨rfl, -⟩
    · exact Or.inl rfl
    · by_cases hx : ∃ c ∈ s.working, decide (c.file = some path) = true
      · obtain ⟨c, hc, hp⟩ := hx
        obtain ⟨d, a, b, h1, h2, h3, h4⟩ :=
          List.exists_of_eraseP (p := fun c : Cat => decide (c.file = some path)) hc hp
        refine Or.inr ⟨a, d, b, h3, h4, by simpa using h2, fun x hx => ?_⟩
        simpa using h1 x hx
      · left
        apply List.eraseP_of_forall_not
        intro c hc hp; exact hx ⟨c, hc, hp⟩

/-- Whenever the process is killed during a load, the library found afterwards is that before or that
after the load. -/
theorem c55_crash (fs : FS) (m : Mode) (path : Name) (s : State) (hi : Inv s) (t : State)
    (ht : t ∈ loadTrace fs m path s) : t.crash = s ∨ t.crash = (load fs m path s).1 := by
  have hs : s.crash = s := by
    have := hi.clean
    cases s; simp only at this; simp [State.crash, this]
  have hl : (load fs m path s).1.crash = (load fs m path s).1 := by
    have := (inv_load fs m path s hi).clean
    generalize (load fs m path s).1 = u at *
    cases u; simp only at this; simp [State.crash, this]
  have hc : ∀ s1, prepare fs m path s = .ok (some s1) → s1.committed = s.committed := by
    intro s1 h
    cases m with
    | other => simp only [prepare, Except.ok.injEq, Option.some.injEq] at h; rw [← h]
    | reload =>
      simp only [prepare] at h
      split at h <;> simp only [Except.ok.injEq, Option.some.injEq] at h <;> rw [← h]
    | refresh =>
      simp only [prepare] at h
      split at h
      · simp only [Except.ok.injEq, Option.some.injEq] at h; rw [← h]
      · split at h
        · simp at h
        · split at h
          · simp at h
          · split at h
            · simp at h
            · simp only [Except.ok.injEq, Option.some.injEq] at h; rw [← h]
  have hcr : ∀ t : State, t.committed = s.committed → t.crash = s := by
    intro t h; rw [← hs]; simp [State.crash, h]
  unfold loadTrace at ht
  split at ht
  · simp only [List.mem_singleton] at ht; subst ht; exact Or.inl hs
  · simp only [List.mem_singleton] at ht; subst ht; exact Or.inl hs
  · next s1 h1 =>
    have h2 := hc s1 h1
    split at ht
    · simp only [List.mem_cons, List.not_mem_nil, or_false] at ht
      rcases ht with rfl | rfl
      · exact Or.inl hs
      · exact Or.inl (hcr _ h2)
    · simp only [List.cons_append, List.mem_cons, List.mem_append, List.mem_map, List.not_mem_nil,
        or_false] at ht
      rcases ht with rfl | ⟨p, -, rfl⟩ | rfl
      · exact Or.inl hs
      · exact Or.inl (hcr _ h2)
      · exact Or.inr hl

/-! ## One catalogue for one file -/

/-- The readers that record their file in a single catalogue. -/
def Kind.single : Kind → Bool
  | .zmf | .agf | .xml => true
  | _ => false

def filesOf (path : Name) (w : List Cat) : List Cat := w.filter fun c => decide (c.file = some path)

theorem filesOf_append (path : Name) (a b : List Cat) :
    filesOf path (a ++ b) = filesOf path a ++ filesOf path b := List.filter_append ..

theorem filesOf_deleteFirst (path : Name) (w : List Cat) :
    filesOf path (deleteFirst path w) = (filesOf path w).tail := by
  induction w with
  | nil => rfl
  | cons c w ih =>
    by_cases h : c.file = some path
    · simp [deleteFirst, filesOf, h]
    · simp only [deleteFirst, filesOf] at ih ⊢
      rw [List.eraseP_cons_of_neg (by simpa using h)]
      rw [List.filter_cons_of_neg (by simpa using h), List.filter_cons_of_neg (by simpa using h), ih]

theorem filesOf_deleteFirst_ne (path p : Name) (hp : p ≠ path) (w : List Cat) :
    filesOf p (deleteFirst path w) = filesOf p w := by
  induction w with
  | nil => rfl
  | cons c w ih =>
    by_cases h : c.file = some path
    · have h2 : ¬ c.file = some p := by rw [h]; simpa using fun e => hp e.symm
      simp [deleteFirst, filesOf, h, Ne.symm hp]
    · simp only [deleteFirst, filesOf] at ih ⊢
      rw [List.eraseP_cons_of_neg (by simpa using h)]
      by_cases h2 : c.file = some p
      · rw [List.filter_cons_of_pos (by simpa using h2), List.filter_cons_of_pos (by simpa using h2),
          ih]
      · rw [List.filter_cons_of_neg (by simpa using h2), List.filter_cons_of_neg (by simpa using h2),
          ih]

theorem filesOf_readCats_ne {k : Kind} {path p : Name} (hp : p ≠ path) (f : File) :
    filesOf p (readCats k path f) = [] := by
  unfold filesOf
  rw [List.filter_eq_nil_iff]
  intro c hc
  rcases (readCats_file hc).1 with h | h
  · simp [h]
  · simp [h, Ne.symm hp]

theorem findFile_none_iff (path : Name) (w : List Cat) :
    findFile path w = none ↔ filesOf path w = [] := by
  simp [findFile, filesOf, List.find?_eq_none, List.filter_eq_nil_iff]

/-- Loads of another file do not touch the records of this one. -/
theorem c55_other_files (fs : FS) (m : Mode) (path p : Name) (hp : p ≠ path) (s : State)
    (hi : Inv s) : filesOf p (load fs m path s).1.working = filesOf p s.working := by
  rcases load_cases fs m path s hi with h | ⟨k, f, -, -, -, -, w, hw, h⟩
  · rw [h]
  · rw [h, filesOf_append, filesOf_readCats_ne hp, List.append_nil]
    rcases hw with ⟨rfl, -⟩ | ⟨rfl, -⟩
    · rfl
    · exact filesOf_deleteFirst_ne _ _ hp _

/-- However often files are loaded, refreshed and changed, there is at most one catalogue for a file
of Zemax or CODE V, and none of its entries is duplicated. -/
theorem c55_one_catalogue (h : List (FS × Mode × Name)) (hm : ∀ x ∈ h, x.2.1 ≠ .other) (s : State)
    (hi : Inv s) (path : Name) (k : Kind) (hk : kindOf path = some k) (hs : k.single = true)
    (h1 : (filesOf path s.working).length ≤ 1) :
    (filesOf path (history h s).working).length ≤ 1 := by
  induction h generalizing s with
  | nil => exact h1
  | cons x h ih =>
    obtain ⟨fs, m, p⟩ := x
    refine ih (fun x hx => hm x (List.mem_cons_of_mem _ hx)) _ (inv_load fs m p s hi) ?_
    by_cases hp : path = p
    · subst hp
      have hm' := hm _ (List.mem_cons_self ..)
      rcases load_cases fs m path s hi with h2 | ⟨k', f, hk', -, -, -, w, hw, h2⟩
      · rw [h2]; exact h1
      · rw [h2, filesOf_append, List.length_append]
        rw [hk] at hk'
        have := Option.some.inj hk'
        subst this
        have h3 : (filesOf path (readCats k path f)).length = 1 := by
          cases k <;> simp_all [Kind.single, readCats, filesOf]
        have h4 : (filesOf path w).length = 0 := by
          rcases hw with ⟨rfl, ho | hn⟩ | ⟨rfl, -⟩
          · exact absurd ho hm'
          · rw [(findFile_none_iff path _).mp hn]; rfl
          · rw [filesOf_deleteFirst, List.length_tail]; omega
        rw [h3, h4]
    · rw [c55_other_files fs m p path hp s hi]; exact h1

/-- A reload of a readable file gives exactly its current entries. -/
theorem c55_reload (fs : FS) (s : State) (path : Name) (k : Kind) (f : File)
    (hk : kindOf path = some k) (hs : k.single = true) (hf : fs path = some f)
    (hb : f.fails = false) (h1 : (filesOf path s.working).length ≤ 1) :
    (load fs .reload path s).2 = none ∧
    filesOf path (load fs .reload path s).1.committed =
      [⟨f.name, k.source, some path, some f.mtime, some f.size, f.items⟩] := by
  have hr : filesOf path (readCats k path f) =
      [⟨f.name, k.source, some path, some f.mtime, some f.size, f.items⟩] := by
    cases k <;> simp_all [Kind.single, readCats, filesOf]
  have hp : parse fs path = some (readCats k path f, none) := by
    simp [parse, hk, hf, hb]
  cases hc : findFile path s.working with
  | none =>
    simp only [load, prepare, hc, hp, State.commit, true_and]
    rw [filesOf_append, (findFile_none_iff path _).mp hc, hr]; rfl
  | some c =>
    simp only [load, prepare, hc, hp, State.commit, true_and]
    rw [filesOf_append, filesOf_deleteFirst, hr]
    have : (filesOf path s.working).tail = [] := by
      rw [← List.length_eq_zero_iff, List.length_tail]; omega
    rw [this]; rfl

/-- A refresh gives exactly the current entries, if a file that has changed since is newer and has
another size. -/
theorem c55_refresh (fs : FS) (s : State) (hi : Inv s) (path : Name) (k : Kind) (f : File)
    (hk : kindOf path = some k) (hs : k.single = true) (hf : fs path = some f)
    (hb : f.fails = false) (h1 : (filesOf path s.working).length ≤ 1)
    (hch : ∀ c ∈ filesOf path s.working, ∀ d, c.date = some d →
      c = ⟨f.name, k.source, some path, some f.mtime, some f.size, f.items⟩ ∨
      (d < f.mtime ∧ c.size ≠ some f.size)) :
    (load fs .refresh path s).2 = none ∧
    filesOf path (load fs .refresh path s).1.committed =
      [⟨f.name, k.source, some path, some f.mtime, some f.size, f.items⟩] := by
  have hr : filesOf path (readCats k path f) =
      [⟨f.name, k.source, some path, some f.mtime, some f.size, f.items⟩] := by
    cases k <;> simp_all [Kind.single, readCats, filesOf]
  have hp : parse fs path = some (readCats k path f, none) := by
    simp [parse, hk, hf, hb]
  cases hc : findFile path s.working with
  | none =>
    simp only [load, prepare, hc, hp, State.commit, true_and]
    rw [filesOf_append, (findFile_none_iff path _).mp hc, hr]; rfl
  | some c =>
    obtain ⟨hcm, hcf⟩ := findFile_some hc
    have hd := hi.dated c hcm (by rw [hcf]; rfl)
    obtain ⟨d, hd⟩ := Option.isSome_iff_exists.mp hd
    have hcm' : c ∈ filesOf path s.working := by simp [filesOf, hcm, hcf]
    have ht : (filesOf path s.working).tail = [] := by
      rw [← List.length_eq_zero_iff, List.length_tail]; omega
    by_cases hcond : f.mtime ≤ d ∨ some f.size = c.size
    · have : prepare fs .refresh path s = .ok none := by
        simp only [prepare, hc, hf, hd]; exact if_pos hcond
      simp only [load, this, true_and]
      rw [← hi.clean]
      rcases hch c hcm' d hd with h2 | ⟨h2, h3⟩
      · rw [← h2]
        match hl : filesOf path s.working, h1, hcm' with
        | [x], _, hx => simp only [List.mem_singleton] at hx; rw [hx]
      · rcases hcond with h4 | h4
        · exact absurd h2 (not_lt.mpr h4)
        · exact absurd h4.symm h3
    · have : prepare fs .refresh path s =
          .ok (some { s with working := deleteFirst path s.working }) := by
        simp only [prepare, hc, hf, hd]; exact if_neg hcond
      simp only [load, this, hp, State.commit, true_and]
      rw [filesOf_append, filesOf_deleteFirst, hr, ht]; rfl

/-- A refresh of an unchanged file changes nothing. -/
theorem c55_refresh_unchanged (fs : FS) (s : State) (path : Name) (f : File) (c : Cat)
    (hf : fs path = some f) (hc : findFile path s.working = some c)
    (hd : c.date = some f.mtime) : load fs .refresh path s = (s, none) := by
  have : prepare fs .refresh path s = .ok none := by
    simp only [prepare, hc, hf, hd]; exact if_pos (Or.inl le_rfl)
  simp only [load, this]

/-- But a file that was rewritten with the same length is not read again, however new it is. -/
theorem c55_same_size_violation (fs : FS) (s : State) (path : Name) (f : File) (c : Cat) (d : ℝ)
    (hf : fs path = some f) (hc : findFile path s.working = some c) (hd : c.date = some d)
    (hsz : c.size = some f.size) : load fs .refresh path s = (s, none) := by
  have : prepare fs .refresh path s = .ok none := by
    simp only [prepare, hc, hf, hd]; exact if_pos (Or.inr hsz.symm)
  simp only [load, this]

example : ∃ (fs : FS) (s : State) (f : File) (c : Cat), Inv s ∧
    fs "a.agf".toList = some f ∧ findFile "a.agf".toList s.working = some c ∧
    c.date = some 1 ∧ f.mtime = 2 ∧ c.size = some f.size ∧ c.items ≠ f.items := by
  let c : Cat := ⟨['a'], [], some "a.agf".toList, some 1, some 5, []⟩
  let f : File := ⟨2, 5, ['a'], [⟨.material, ['b'], []⟩], [], false⟩
  refine ⟨fun _ => some f, ⟨[c], [c]⟩, f, c, ⟨rfl, ?_, ?_⟩, rfl, ?_, rfl, rfl, rfl, by simp [c, f]⟩
  · intro x hx p hp
    simp only [List.mem_singleton] at hx
    subst hx
    simp only [c, Option.some.injEq] at hp
    subst hp
    decide +kernel
  · intro x hx _
    simp only [List.mem_singleton] at hx
    subst hx; rfl
  · simp [findFile, c]

/-- OSLO catalogues are never recognised as loaded: each load adds them once more. -/
theorem c55_oslo_violation (fs : FS) (path : Name) (k : Kind) (f : File) (m : Mode)
    (hk : kindOf path = some k) (hd : k = .dir ∨ k = .glc) (hf : fs path = some f)
    (hb : f.fails = false) (n : ℕ) :
    (history (List.replicate n (fs, m, path)) ⟨[], []⟩).committed =
      List.replicate n ⟨f.name, k.source, none, none, none, f.items⟩ := by
  have key : ∀ (n j : ℕ) (s : State), s.committed = s.working →
      s.working = List.replicate j ⟨f.name, k.source, none, none, none, f.items⟩ →
      (history (List.replicate n (fs, m, path)) s).committed =
        List.replicate (j + n) ⟨f.name, k.source, none, none, none, f.items⟩ := by
    intro n
    induction n with
    | zero => intro j s h1 h2; simp [history, h1, h2]
    | succ n ih =>
      intro j s h1 h2
      have hp : parse fs path =
          some ([⟨f.name, k.source, none, none, none, f.items⟩], none) := by
        rcases hd with rfl | rfl <;> simp [parse, hk, hf, hb, readCats]
      have hfind : findFile path s.working = none := by
        rw [h2]; simp [findFile]
      have hl : (load fs m path s).1 = State.commit { s with working := s.working ++
          [⟨f.name, k.source, none, none, none, f.items⟩] } := by
        cases m <;> simp [load, prepare, hfind, hp]
      rw [List.replicate_succ, history, hl, ih (j + 1)]
      · congr 1; omega
      · rfl
      · simp only [State.commit, h2]; rw [← List.replicate_succ']
  simpa using key n 0 ⟨[], []⟩ rfl rfl

/-- Reloading the index of refractiveindex.info removes one of its catalogues and adds all of them
again: after `n + 1` loads there are `n + 1` times as many shelves, less one record for each load. -/
theorem c55_shelves_violation (fs : FS) (path : Name) (f : File) (hk : kindOf path = some .yml)
    (hf : fs path = some f) (hb : f.fails = false) (n : ℕ) :
    (history (List.replicate (n + 1) (fs, .reload, path)) ⟨[], []⟩).committed.length =
      (n + 1) * f.shelves.length + 1 := by
  have hp : parse fs path = some (readCats .yml path f, none) := by
    simp [parse, hk, hf, hb]
  have hall : ∀ c ∈ readCats .yml path f, c.file = some path := by
    intro c hc
    simp only [readCats, List.mem_cons, List.mem_map] at hc
    rcases hc with rfl | ⟨sh, -, rfl⟩ <;> rfl
  have hlen : (readCats .yml path f).length = f.shelves.length + 1 := by simp [readCats]
  have key : ∀ (n : ℕ) (s : State), s.committed = s.working → s.working ≠ [] →
      (∀ c ∈ s.working, c.file = some path) →
      (history (List.replicate n (fs, .reload, path)) s).committed.length =
        s.working.length + n * f.shelves.length := by
    intro n
    induction n with
    | zero => intro s h1 _ _; simp [history, h1]
    | succ n ih =>
      intro s h1 h2 h3
      obtain ⟨c, w, hw⟩ := List.exists_cons_of_ne_nil h2
      have hc : c.file = some path := h3 c (by rw [hw]; exact List.mem_cons_self ..)
      have hfind : findFile path s.working = some c := by rw [hw]; simp [findFile, hc]
      have hdel : deleteFirst path s.working = w := by rw [hw]; simp [deleteFirst, hc]
      have hl : (load fs .reload path s).1 = ⟨w ++ readCats .yml path f, w ++ readCats .yml path f⟩ := by
        simp [load, prepare, hfind, hp, hdel, State.commit]
      rw [List.replicate_succ, history, hl, ih _ rfl]
      · simp only [List.length_append, hlen, hw, List.length_cons]; ring
      · simp [readCats]
      · intro x hx
        rcases List.mem_append.mp hx with hx | hx
        · exact h3 x (by rw [hw]; exact List.mem_cons_of_mem _ hx)
        · exact hall x hx
  have hl : (load fs .reload path ⟨[], []⟩).1 = ⟨readCats .yml path f, readCats .yml path f⟩ := by
    simp [load, prepare, findFile, hp, State.commit]
  rw [List.replicate_succ, history, hl, key n _ rfl (by simp [readCats]) hall, hlen]
  ring

/-- Three loads of one glass catalogue of OSLO: three catalogues. -/
example (f : File) (hb : f.fails = false) :
    (history (List.replicate 3 ((fun _ => some f), .refresh, "a.glc".toList)) ⟨[], []⟩).committed.length
      = 3 := by
  rw [c55_oslo_violation (fun _ => some f) "a.glc".toList .glc f .refresh (by decide +kernel)
    (Or.inr rfl) rfl hb 3]
  rfl

/-- Loading, changing and refreshing a glass catalogue of Zemax leaves one record. -/
example (f g : File) :
    (filesOf "a.agf".toList (history [((fun _ => some f), .refresh, "a.agf".toList),
      ((fun _ => some g), .refresh, "a.agf".toList), ((fun _ => some g), .reload, "a.agf".toList)]
      ⟨[], []⟩).working).length ≤ 1 :=
  c55_one_catalogue _ (by simp) _ inv_empty _ .agf (by decide +kernel) rfl (by simp [filesOf])

/-- Catalogues carry the name of the program their file is from, by which `get` and `get_all` can choose. -/
theorem c55_source (k : Kind) (path : Name) (f : File) (c : Cat) (hc : c ∈ readCats k path f) :
    (k = .dir ∨ k = .glc → c.source = "oslo".toList) ∧ (k = .zmf ∨ k = .agf → c.source = "zemax".toList) ∧
    (k = .yml → c.source = "rii".toList) ∧ (k = .xml → c.source = "codev".toList) := by
  have h : c.source = k.source := by
    cases k <;> simp only [readCats, List.mem_cons, List.mem_map, List.not_mem_nil, or_false] at hc
    case yml =>
      rcases hc with rfl | ⟨_, -, rfl⟩ <;> rfl
    all_goals
      subst hc
      rfl
  rw [h]
  cases k <;> decide +kernel

/-- `load_all` loads every readable file, whatever the other files are. -/
theorem c55_load_all (fs : FS) (m : Mode) (ps : List Name) (s : State) (hi : Inv s) (path : Name)
    (hpm : path ∈ ps) (k : Kind) (f : File) (hk : kindOf path = some k) (hs : k.single = true)
    (hf : fs path = some f) (hb : f.fails = false) (h0 : filesOf path s.working = []) :
    (⟨f.name, k.source, some path, some f.mtime, some f.size, f.items⟩ : Cat) ∈
      (loadAll fs m ps s).committed := by
  have hc0 : (⟨f.name, k.source, some path, some f.mtime, some f.size, f.items⟩ : Cat) ∈
      readCats k path f := by
    cases k <;> simp_all [Kind.single, readCats]
  have hce : readCats k path f =
      [⟨f.name, k.source, some path, some f.mtime, some f.size, f.items⟩] := by
    cases k <;> simp_all [Kind.single, readCats]
  have hp : parse fs path = some (readCats k path f, none) := by
    simp [parse, hk, hf, hb]
  -- once all records are current they stay so
  have key : ∀ (ps : List Name) (s : State), Inv s →
      (∀ c ∈ filesOf path s.working,
        c = ⟨f.name, k.source, some path, some f.mtime, some f.size, f.items⟩) →
      (path ∈ ps ∨ filesOf path s.working ≠ []) →
      (⟨f.name, k.source, some path, some f.mtime, some f.size, f.items⟩ : Cat) ∈
        filesOf path (loadAll fs m ps s).working ∧ Inv (loadAll fs m ps s) := by
    intro ps
    induction ps with
    | nil =>
      intro s hi h1 h2
      rcases h2 with h2 | h2
      · simp at h2
      · obtain ⟨c, hc⟩ := List.exists_mem_of_ne_nil _ h2
        refine ⟨?_, hi⟩
        have := h1 c hc
        rw [this] at hc; exact hc
    | cons p ps ih =>
      intro s hi h1 h2
      simp only [loadAll]
      by_cases hpp : path = p
      · subst hpp
        have hmain : (∀ c ∈ filesOf path (load fs m path s).1.working,
            c = ⟨f.name, k.source, some path, some f.mtime, some f.size, f.items⟩) ∧
            filesOf path (load fs m path s).1.working ≠ [] := by
          cases hfc : findFile path s.working with
          | none =>
            have hl : (load fs m path s).1.working = s.working ++ readCats k path f := by
              cases m <;> simp [load, prepare, hfc, hp, State.commit]
            rw [hl, filesOf_append, (findFile_none_iff path _).mp hfc, hce]
            simp [filesOf]
          | some c =>
            have hfc' := hfc
            rw [findFile] at hfc'
            obtain ⟨hcm, hcf⟩ := findFile_some hfc
            have hcm' : c ∈ filesOf path s.working := by simp [filesOf, hcm, hcf]
            have hne : filesOf path s.working ≠ [] := List.ne_nil_of_mem hcm'
            cases m with
            | other =>
              have hl : (load fs .other path s).1.working = s.working ++ readCats k path f := by
                simp [load, prepare, hp, State.commit]
              rw [hl, filesOf_append]
              refine ⟨fun x hx => ?_, by simp [hne]⟩
              rcases List.mem_append.mp hx with hx | hx
              · exact h1 x hx
              · rw [hce] at hx
                have := List.mem_of_mem_filter hx
                simpa using this
            | reload =>
              have hl : (load fs .reload path s).1.working =
                  deleteFirst path s.working ++ readCats k path f := by
                simp [load, prepare, hfc, hp, State.commit]
              rw [hl, filesOf_append, filesOf_deleteFirst]
              refine ⟨fun x hx => ?_, by rw [hce]; simp [filesOf]⟩
              rcases List.mem_append.mp hx with hx | hx
              · exact h1 x (List.mem_of_mem_tail hx)
              · rw [hce] at hx
                have := List.mem_of_mem_filter hx
                simpa using this
            | refresh =>
              have hd : c.date = some f.mtime := by rw [h1 c hcm']
              rw [c55_refresh_unchanged fs s path f c hf hfc hd]
              exact ⟨h1, hne⟩
        exact ih _ (inv_load fs m path s hi) hmain.1 (Or.inr hmain.2)
      · refine ih _ (inv_load fs m p s hi) ?_ ?_
        · rw [c55_other_files fs m p path hpp s hi]; exact h1
        · rw [c55_other_files fs m p path hpp s hi]
          rcases h2 with h2 | h2
          · rcases List.mem_cons.mp h2 with h3 | h3
            · exact absurd h3 hpp
            · exact Or.inl h3
          · exact Or.inr h2
  obtain ⟨h1, h2⟩ := key ps s hi (by rw [h0]; simp) (Or.inl hpm)
  rw [← h2.clean]
  exact List.mem_of_mem_filter h1

/-! ## Queries -/

/-- What the caller asks for. -/
def Wanted (t : Typ) (name catalog source : Option Name) (r : Cat × Item) : Prop :=
  r.2.typ = t ∧ (∀ n, name = some n → fold r.2.name = fold n) ∧
    (∀ n, catalog = some n → fold r.1.name = fold n) ∧ (∀ n, source = some n → r.1.source = n)

theorem mem_matching (w : List Cat) (t : Typ) (name catalog source : Option Name) (r : Cat × Item) :
    r ∈ matching w t name catalog source ↔
      (r.1 ∈ w ∧ r.2 ∈ r.1.items) ∧ Wanted t name catalog source r := by
  obtain ⟨c, i⟩ := r
  unfold matching Wanted rows
  cases name <;> cases catalog <;> cases source <;>
    simp [List.mem_filter, List.mem_flatMap, and_assoc, and_comm, and_left_comm]

/-- `get_all` raises KeyError exactly if there is no such entry; otherwise it gives all of them, each
once, ordered by name without regard to case. -/
theorem c55_get_all (w : List Cat) (t : Typ) (name catalog source : Option Name) :
    (getAll w t name catalog source = .error .key ∧
      ∀ c ∈ w, ∀ i ∈ c.items, ¬ Wanted t name catalog source (c, i)) ∨
    ∃ l, getAll w t name catalog source = .ok l ∧ l ≠ [] ∧
      l.Perm (matching w t name catalog source) ∧
      (∀ r, r ∈ l ↔ (r.1 ∈ w ∧ r.2 ∈ r.1.items) ∧ Wanted t name catalog source r) ∧
      l.Pairwise fun a b => fold a.2.name ≤ fold b.2.name := by
  have hperm := List.mergeSort_perm (matching w t name catalog source)
    (fun a b => decide (fold a.2.name ≤ fold b.2.name))
  have hsort := List.pairwise_mergeSort (le := fun a b : Cat × Item =>
      decide (fold a.2.name ≤ fold b.2.name))
    (by intro a b c h1 h2; simp only [decide_eq_true_eq] at *; exact List.le_trans h1 h2)
    (by intro a b; simp only [Bool.or_eq_true, decide_eq_true_eq]; exact List.le_total _ _)
    (matching w t name catalog source)
  generalize hl : (matching w t name catalog source).mergeSort
    (fun a b => decide (fold a.2.name ≤ fold b.2.name)) = l at hperm hsort
  by_cases he : l = []
  · left
    subst he
    refine ⟨by simp [getAll, hl], fun c hc i hi hw => ?_⟩
    have := (mem_matching w t name catalog source (c, i)).mpr ⟨⟨hc, hi⟩, hw⟩
    rw [← hperm.mem_iff] at this
    simp at this
  · right
    refine ⟨l, ?_, he, hperm, fun r => ?_, ?_⟩
    · simp [getAll, hl, he]
    · rw [hperm.mem_iff]; exact mem_matching w t name catalog source r
    · simpa using hsort

/-- `get` returns an entry as wanted exactly if there is one, the first by name. -/
theorem c55_get (w : List Cat) (t : Typ) (name catalog source : Option Name) :
    (∀ r, get w t name catalog source = .ok r →
      r.1 ∈ w ∧ r.2 ∈ r.1.items ∧ Wanted t name catalog source r ∧
      ∀ c ∈ w, ∀ i ∈ c.items, Wanted t name catalog source (c, i) → fold r.2.name ≤ fold i.name) ∧
    ((∃ r, get w t name catalog source = .ok r) ↔
      ∃ c ∈ w, ∃ i ∈ c.items, Wanted t name catalog source (c, i)) ∧
    ((∀ c ∈ w, ∀ i ∈ c.items, ¬ Wanted t name catalog source (c, i)) →
      get w t name catalog source = .error .key) := by
  rcases c55_get_all w t name catalog source with ⟨h1, h2⟩ | ⟨l, h1, h2, -, h3, h4⟩
  · refine ⟨fun r hr => ?_, ⟨?_, ?_⟩, fun _ => ?_⟩
    · simp [get, h1] at hr
    · rintro ⟨r, hr⟩; simp [get, h1] at hr
    · rintro ⟨c, hc, i, hi, hw⟩; exact absurd hw (h2 c hc i hi)
    · simp [get, h1]
  · obtain ⟨r, l', rfl⟩ := List.exists_cons_of_ne_nil h2
    have hg : get w t name catalog source = .ok r := by simp [get, h1]
    have hr := (h3 r).mp (List.mem_cons_self ..)
    refine ⟨fun x hx => ?_, ⟨fun _ => ?_, fun _ => ⟨r, hg⟩⟩, fun hn => ?_⟩
    · rw [hg] at hx
      have := Except.ok.inj hx
      subst this
      refine ⟨hr.1.1, hr.1.2, hr.2, fun c hc i hi hw => ?_⟩
      have hm := (h3 (c, i)).mpr ⟨⟨hc, hi⟩, hw⟩
      rcases List.mem_cons.mp hm with h5 | h5
      · rw [← h5]; exact List.le_refl _
      · exact (List.pairwise_cons.mp h4).1 _ h5
    · exact ⟨r.1, hr.1.1, r.2, hr.1.2, hr.2⟩
    · exact absurd hr.2 (hn _ hr.1.1 _ hr.1.2)

/-- Every entry of a file that was loaded is found, under its name in any case. -/
theorem c55_loaded_found (fs : FS) (m : Mode) (ps : List Name) (s : State) (hi : Inv s) (path : Name)
    (hpm : path ∈ ps) (k : Kind) (f : File) (hk : kindOf path = some k) (hs : k.single = true)
    (hf : fs path = some f) (hb : f.fails = false) (h0 : filesOf path s.working = [])
    (i : Item) (him : i ∈ f.items) (n : Name) (hn : fold n = fold i.name) :
    ∃ r, get (loadAll fs m ps s).committed i.typ (some n) none none = .ok r ∧
      fold r.2.name = fold n ∧ r.2.typ = i.typ := by
  have hc := c55_load_all fs m ps s hi path hpm k f hk hs hf hb h0
  obtain ⟨g1, g2, -⟩ := c55_get (loadAll fs m ps s).committed i.typ (some n) none none
  have : Wanted i.typ (some n) none none
      ((⟨f.name, k.source, some path, some f.mtime, some f.size, f.items⟩ : Cat), i) := by
    refine ⟨rfl, fun x hx => ?_, by simp, by simp⟩
    rw [← Option.some.inj hx, hn]
  obtain ⟨r, hr⟩ := g2.mpr ⟨_, hc, i, him, this⟩
  obtain ⟨-, -, hw, -⟩ := g1 r hr
  exact ⟨r, hr, hw.2.1 n rfl, hw.1⟩

/-! ## Entries -/

/-- An entry is parsed once: the second time the same object is returned without the reader. -/
theorem c55_parse_once {Obj : Type*} (table table' : Name → Option (Name → Except Err Obj))
    (sc : Name → Obj → Obj) (e e' : Entry Obj) (o : Obj) (h : e.parse table sc = .ok (o, e')) :
    e'.parse table' sc = .ok (o, e') ∧
      (e.obj = none → ∃ p o', table e.format = some p ∧ p e.data = .ok o' ∧ o = sc e.catalog o') := by
  unfold Entry.parse at h
  split at h
  · next o' ho =>
    simp only [Except.ok.injEq, Prod.mk.injEq] at h
    obtain ⟨rfl, rfl⟩ := h
    exact ⟨by simp [Entry.parse, ho], fun hn => by rw [hn] at ho; simp at ho⟩
  · next ho =>
    split at h
    · simp at h
    · next p hp =>
      split at h
      · simp at h
      · next o' ho' =>
        simp only [Except.ok.injEq, Prod.mk.injEq] at h
        obtain ⟨rfl, rfl⟩ := h
        exact ⟨by simp [Entry.parse], fun _ => ⟨p, o', hp, ho', rfl⟩⟩

/-- A library with one material; it is found in any case and the other type is not. -/
example : (get [⟨['s'], ['z'], none, none, none, [⟨.material, ['B', 'K', '7'], []⟩]⟩]
    .material (some ['b', 'k', '7']) none none).toOption.isSome = true := by decide +kernel

end RayOpt.Library
