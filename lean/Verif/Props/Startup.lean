import Verif.Model.Startup
import Mathlib.Tactic

/-!
C100: opening the library.
-/

namespace RayOpt.Startup

variable {B : Type}

theorem main_ne_dir (p : Places) : p.main ≠ p.dir := by
  intro h
  have := congrArg List.length h
  simp [Places.main, Places.dir] at this

/-- C100: a database of the user is used and nothing is written, whatever else exists. -/
theorem c100_kept (p : Places) (fs : FS B) (h : fs.exists p.main) :
    findDb p fs = (some p.main, fs) := by
  unfold findDb
  rw [if_pos h]

/-- C100: what `find_db` does to the file system at all: no file other than that of the user changes, no
existing one changes, no directory disappears, and the file of the user, if it is new, is a copy of the
packaged one or, without that, of the one beside the source. -/
theorem c100_effect (p : Places) (fs : FS B) :
    (∀ q x, fs.file q = some x → (findDb p fs).2.file q = some x) ∧
    (∀ q, q ≠ p.main → (findDb p fs).2.file q = fs.file q) ∧
    (∀ q, fs.dir q → (findDb p fs).2.dir q) ∧
    (∀ q, (findDb p fs).2.dir q → fs.dir q ∨ q <+: p.dir) ∧
    (∀ x, (findDb p fs).2.file p.main = some x → fs.file p.main = some x ∨
      (fs.exists p.resource ∧ fs.file p.resource = some x) ∨
      (¬ fs.exists p.resource ∧ fs.file p.source = some x)) := by
  by_cases h : fs.exists p.main
  · rw [c100_kept p fs h]
    exact ⟨fun q x hx => hx, fun q _ => rfl, fun q hq => hq, fun q hq => .inl hq,
      fun x hx => .inl hx⟩
  · have hm : fs.file p.main = none := by
      unfold FS.exists at h
      cases hf : fs.file p.main with
      | none => rfl
      | some x => rw [hf] at h; simp at h
    obtain ⟨fs', hfs', hfile, hd1, hd2⟩ : ∃ fs', (if fs.exists p.dir then fs else fs.makedirs p.dir) = fs' ∧
        fs'.file = fs.file ∧ (∀ q, fs.dir q → fs'.dir q) ∧
        (∀ q, fs'.dir q → fs.dir q ∨ q <+: p.dir) := by
      refine ⟨_, rfl, ?_, ?_, ?_⟩
      · split_ifs <;> rfl
      · intro q hq; split_ifs
        · exact hq
        · simp [FS.makedirs, hq]
      · intro q hq; split_ifs at hq
        · exact .inl hq
        · simpa [FS.makedirs] using hq
    obtain ⟨base, hbase⟩ : ∃ base, (if fs.exists p.resource then p.resource else p.source) = base :=
      ⟨_, rfl⟩
    have hx : ∀ x, fs.file base = some x → (fs.exists p.resource ∧ fs.file p.resource = some x) ∨
        (¬ fs.exists p.resource ∧ fs.file p.source = some x) := by
      intro x hx
      by_cases hr : fs.exists p.resource
      · rw [if_pos hr] at hbase; subst hbase; exact .inl ⟨hr, hx⟩
      · rw [if_neg hr] at hbase; subst hbase; exact .inr ⟨hr, hx⟩
    unfold findDb
    rw [if_neg h]
    simp only [hfs', hbase, FS.copy, hfile]
    cases hb : fs.file base with
    | none =>
      simp only [Option.map_none, hfile]
      exact ⟨fun q x hq => hq, fun q _ => trivial, hd1, hd2, fun x hq => .inl hq⟩
    | some y =>
      simp only [Option.map_some]
      refine ⟨fun q x hq => ?_, fun q hq => if_neg hq, hd1, hd2, fun x hq => ?_⟩
      · by_cases hqm : q = p.main
        · rw [hqm, hm] at hq; cases hq
        · rw [if_neg hqm]; exact hq
      · rw [if_pos trivial] at hq
        cases hq
        exact .inr (hx y hb)

/-- C100: `find_db` succeeds exactly if the user has a database or there is one to copy: the file of the
package, or, if there is nothing at that path, the one beside the source. -/
theorem c100_found (p : Places) (fs : FS B) :
    (findDb p fs).1 = (if fs.exists p.main ∨ (fs.file p.resource).isSome ∨
      (¬ fs.exists p.resource ∧ (fs.file p.source).isSome) then some p.main else none) ∧
    ((findDb p fs).1 ≠ none → (findDb p fs).2.exists p.main) := by
  by_cases h : fs.exists p.main
  · rw [c100_kept p fs h, if_pos (.inl h)]
    exact ⟨rfl, fun _ => h⟩
  · have hfile : (if fs.exists p.dir then fs else fs.makedirs p.dir).file = fs.file := by
      split_ifs <;> rfl
    unfold findDb
    rw [if_neg h]
    simp only [FS.copy, hfile]
    by_cases hr : fs.exists p.resource
    · simp only [hr, if_true, h, not_true, false_and, or_false]
      cases hb : fs.file p.resource with
      | none => simp
      | some y => simp [FS.exists]
    · have hrn : fs.file p.resource = none := by
        unfold FS.exists at hr
        cases hf : fs.file p.resource with
        | none => rfl
        | some x => rw [hf] at hr; simp at hr
      simp only [hr, h, hrn, Bool.false_eq_true, if_false]
      cases hb : fs.file p.source with
      | none => simp
      | some y => simp [FS.exists]

/-- C100: looking for the database again finds the same one and writes nothing, even if the packaged
file has been replaced in between. -/
theorem c100_again (p : Places) (fs : FS B) (hok : (findDb p fs).1 ≠ none) (fs' : FS B)
    (hsame : fs'.file p.main = (findDb p fs).2.file p.main)
    (hdir : fs'.dir p.main = (findDb p fs).2.dir p.main) :
    findDb p fs' = (some p.main, fs') := by
  apply c100_kept
  have := (c100_found p fs).2 hok
  unfold FS.exists at this ⊢
  rw [hsame, hdir]
  exact this

/-- A first start: the packaged database is copied. -/
example : ∃ (p : Places) (fs : FS ℕ), ¬ fs.exists p.main ∧ (findDb p fs).1 = some p.main ∧
    (findDb p fs).2.file p.main = some 7 ∧ (findDb p fs).1 ≠ none :=
  ⟨⟨["home"], ["share", "library.sqlite"], ["src", "library.sqlite"]⟩,
    ⟨fun q => if q = ["share", "library.sqlite"] then some 7 else none, fun q => q = ["home"]⟩,
    by decide, by decide, by decide, by decide⟩

/-- C100: the file that is opened is `rayopt/library.sqlite` in the directory of the user, and only
that file and directories on the way to it are made. -/
theorem c100_place (p : Places) (fs : FS B) :
    (∀ q, (findDb p fs).1 = some q → q = p.user ++ ["rayopt", "library.sqlite"]) ∧
    (∀ q, (findDb p fs).2.file q ≠ fs.file q → q = p.user ++ ["rayopt", "library.sqlite"]) ∧
    (∀ q, (findDb p fs).2.dir q → fs.dir q ∨ q <+: p.user ++ ["rayopt"]) := by
  have hm : p.main = p.user ++ ["rayopt", "library.sqlite"] := by simp [Places.main, Places.dir]
  refine ⟨fun q hq => ?_, fun q hq => ?_, (c100_effect p fs).2.2.2.1⟩
  · rw [(c100_found p fs).1] at hq
    split_ifs at hq
    rw [← hm]
    exact (Option.some.inj hq).symm
  · rw [← hm]
    by_contra h
    exact hq ((c100_effect p fs).2.1 q h)

/-- C100: all calls of `Library.one`, whatever their arguments and whatever libraries are opened besides,
give the same instance: that of the first such call. -/
theorem c100_singleton (found : String) (l : List (Bool × Option String)) (c : Class) :
    (∀ a, c.one = some a → ∀ b ∈ (c.run found l).1, b.1 = true → b.2 = a) ∧
    (c.one = none → ∀ b ∈ (c.run found l).1, b.1 = true →
      ∃ db, l.find? (fun x => x.1) = some (true, db) ∧ b.2 = db.getD found) ∧
    (∀ a, c.one = some a → (c.run found l).2.one = some a) := by
  induction l generalizing c with
  | nil => simp [Class.run]
  | cons x l ih =>
    obtain ⟨b, db⟩ := x
    refine ⟨fun a ha y hy hb => ?_, fun hn y hy hb => ?_, fun a ha => ?_⟩
    · cases b with
      | true =>
        simp only [Class.run, Class.theOne, ha, if_true, List.mem_cons] at hy
        rcases hy with rfl | hy
        · rfl
        · exact (ih c).1 a ha y hy hb
      | false =>
        simp only [Class.run, Bool.false_eq_true, if_false, List.mem_cons] at hy
        rcases hy with rfl | hy
        · cases hb
        · exact (ih _).1 a (by simp [Class.new, ha]) y hy hb
    · cases b with
      | true =>
        refine ⟨db, by simp, ?_⟩
        simp only [Class.run, Class.theOne, hn, if_true, List.mem_cons] at hy
        rcases hy with rfl | hy
        · rfl
        · exact (ih _).1 _ rfl y hy hb
      | false =>
        simp only [Class.run, Bool.false_eq_true, if_false, List.mem_cons] at hy
        rcases hy with rfl | hy
        · cases hb
        · obtain ⟨db', h1, h2⟩ := (ih _).2.1 (by simp [Class.new, hn]) y hy hb
          exact ⟨db', by simpa using h1, h2⟩
    · cases b with
      | true => simp only [Class.run, Class.theOne, ha, if_true]; exact (ih _).2.2 a ha
      | false =>
        simp only [Class.run, Bool.false_eq_true, if_false]
        exact (ih _).2.2 a (by simp [Class.new, ha])

/-- C100: calls of `Library.one` alone open one database, and none of them warns; a library opened after
that directly warns and is another instance. -/
theorem c100_opened (found : String) (dbs : List (Option String)) (hd : dbs ≠ []) (db : Option String) :
    let r := (Class.mk none [] 0).run found (dbs.map fun d => (true, d))
    r.2.opened = [(dbs.head hd).getD found] ∧ r.2.warnings = 0 ∧
    (r.2.new found db).2.warnings = 1 ∧
    (r.2.new found db).2.opened = [(dbs.head hd).getD found, db.getD found] := by
  have key : ∀ (l : List (Option String)) (a : String) (o : List String) (w : ℕ),
      ((Class.mk (some a) o w).run found (l.map fun d => (true, d))).2 = ⟨some a, o, w⟩ := by
    intro l a o w
    induction l with
    | nil => rfl
    | cons d l ih => simpa [Class.run, Class.theOne] using ih
  cases dbs with
  | nil => exact absurd rfl hd
  | cons d l =>
    have : ((Class.mk none [] 0).run found ((d :: l).map fun d => (true, d))).2
        = ⟨some (d.getD found), [d.getD found], 0⟩ := by
      simpa [Class.run, Class.theOne, Class.new] using key l (d.getD found) [d.getD found] 0
    simp only [this]
    simp [Class.new]

end RayOpt.Startup
