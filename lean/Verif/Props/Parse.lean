import Verif.Model.Parse
import Verif.Model.Serial
import Mathlib.Tactic

/-!
C60: readers of prescriptions make one element per surface record, with the values of its own record and
the thickness of the record before.
-/

namespace RayOpt.Parse

/-! ### Runs -/

section Run

variable {S L α : Type} (step : S → L → Except Err S)

/-- A run over lines. -/
def runL : List L → S → Except Err S
  | [], s => .ok s
  | l :: ls, s => (step s l).bind (runL ls)

theorem runL_cons_ok (l : L) (ls : List L) (s s' : S) :
    runL step (l :: ls) s = .ok s' ↔ ∃ t, step s l = .ok t ∧ runL step ls t = .ok s' := by
  change (step s l).bind (runL step ls) = _ ↔ _
  cases step s l with
  | error e => simp [Except.bind]
  | ok t => simp [Except.bind]

theorem runL_append_ok (a b : List L) (s s' : S) :
    runL step (a ++ b) s = .ok s' ↔ ∃ t, runL step a s = .ok t ∧ runL step b t = .ok s' := by
  induction a generalizing s with
  | nil => simp [runL]
  | cons l a ih =>
    rw [List.cons_append, runL_cons_ok]
    constructor
    · rintro ⟨t, h1, h2⟩
      obtain ⟨u, h3, h4⟩ := (ih t).mp h2
      exact ⟨u, (runL_cons_ok step l a s u).mpr ⟨t, h1, h3⟩, h4⟩
    · rintro ⟨u, h1, h2⟩
      obtain ⟨t, h3, h4⟩ := (runL_cons_ok step l a s u).mp h1
      exact ⟨t, h3, (ih t).mpr ⟨u, h4, h2⟩⟩

/-- The value of the last line that has one. -/
def last (f : L → Option α) (ls : List L) : Option α := (ls.filterMap f).getLast?

theorem last_nil (f : L → Option α) : last f [] = none := rfl

theorem last_cons (f : L → Option α) (l : L) (ls : List L) :
    last f (l :: ls) = (last f ls).or (f l) := by
  unfold last
  cases h : f l with
  | none => simp [h]
  | some x =>
    simp only [List.filterMap_cons, h, List.getLast?_cons]
    cases (ls.filterMap f).getLast? <;> rfl

theorem runL_field (g : S → α) (f : L → Option α) (good : L → Prop)
    (h : ∀ l s s', good l → step s l = .ok s' → g s' = (f l).getD (g s))
    (ls : List L) (s s' : S) (hl : ∀ l ∈ ls, good l) (hr : runL step ls s = .ok s') :
    g s' = (last f ls).getD (g s) := by
  induction ls generalizing s with
  | nil =>
    obtain rfl : s = s' := Except.ok.inj hr
    rfl
  | cons l ls ih =>
    obtain ⟨t, h1, h2⟩ := (runL_cons_ok step l ls s s').mp hr
    rw [ih t (fun x hx => hl x (List.mem_cons_of_mem _ hx)) h2, h l s t (hl l List.mem_cons_self) h1,
      last_cons]
    cases last f ls <;> rfl

theorem runL_inv (P : S → S → Prop) (h0 : ∀ s, P s s) (htr : ∀ a b c, P a b → P b c → P a c)
    (good : L → Prop) (h : ∀ l s s', good l → step s l = .ok s' → P s s')
    (ls : List L) (s s' : S) (hl : ∀ l ∈ ls, good l) (hr : runL step ls s = .ok s') : P s s' := by
  induction ls generalizing s with
  | nil =>
    obtain rfl : s = s' := Except.ok.inj hr
    exact h0 s
  | cons l ls ih =>
    obtain ⟨t, h1, h2⟩ := (runL_cons_ok step l ls s s').mp hr
    exact htr _ _ _ (h l s t (hl l List.mem_cons_self) h1)
      (ih t (fun x hx => hl x (List.mem_cons_of_mem _ hx)) h2)

/-- If every line succeeds or fails by itself, the run succeeds if and only if every line does. -/
theorem runL_total (good : L → Prop) (h : ∀ l s, (∃ s', step s l = .ok s') ↔ good l) (ls : List L)
    (s : S) : (∃ s', runL step ls s = .ok s') ↔ ∀ l ∈ ls, good l := by
  induction ls generalizing s with
  | nil => exact ⟨fun _ => by simp, fun _ => ⟨s, rfl⟩⟩
  | cons l ls ih =>
    constructor
    · rintro ⟨s', hs⟩
      obtain ⟨t, h1, h2⟩ := (runL_cons_ok step l ls s s').mp hs
      have := (ih t).mp ⟨s', h2⟩
      intro x hx
      rcases List.mem_cons.mp hx with rfl | hx
      · exact (h _ _).mp ⟨t, h1⟩
      · exact this x hx
    · intro hg
      obtain ⟨t, h1⟩ := (h l s).mpr (hg l List.mem_cons_self)
      obtain ⟨s', h2⟩ := (ih t).mpr fun x hx => hg x (List.mem_cons_of_mem _ hx)
      exact ⟨s', (runL_cons_ok step l ls s s').mpr ⟨t, h1, h2⟩⟩

end Run

theorem map_ok {α β : Type} {f : α → β} {x : Except Err α} {b : β} :
    x.map f = .ok b ↔ ∃ a, x = .ok a ∧ f a = b := by
  cases x <;> simp [Except.map]

theorem bind_ok {α β : Type} {f : α → Except Err β} {x : Except Err α} {b : β} :
    x.bind f = .ok b ↔ ∃ a, x = .ok a ∧ f a = .ok b := by
  cases x <;> simp [Except.bind]

theorem first_ok {l : List Text} {t : Text} : first l = .ok t ↔ l.head? = some t := by
  cases l <;> simp [first]

variable {M : Type} (env : Env M)

theorem toFloat_ok {t : Text} {x : Num} : toFloat env t = .ok x ↔ env.float t = some x := by
  unfold toFloat
  cases env.float t <;> simp

theorem toInt_ok {t : Text} {x : ℤ} : toInt env t = .ok x ↔ env.int t = some x := by
  unfold toInt
  cases env.int t <;> simp

theorem firstFloat_ok {t : Text} {x : Num} :
    firstFloat env t = .ok x ↔ (tokens t).head?.bind env.float = some x := by
  unfold firstFloat
  rw [bind_ok]
  simp only [first_ok, toFloat_ok]
  cases (tokens t).head? <;> simp

/-! ### Zemax -/

/-- A line: command and arguments. -/
abbrev ZLine := ZCmd × Text

theorem zmxRun_eq (ls : List ZLine) (s : ZState M) :
    zmxRun env ls s = runL (fun s l => zmxStep env s l.1 l.2) ls s := by
  induction ls generalizing s with
  | nil => rfl
  | cons l ls ih =>
    unfold zmxRun runL
    congr 1
    funext t
    exact ih t

/-- The number of a line with the given command: its first argument. -/
def zNum (c : ZCmd) (l : ZLine) : Option Num :=
  if l.1 = c then (tokens l.2).head?.bind env.float else none

/-- The thickness of a line. -/
def zThick (l : ZLine) : Option Num := if l.1 = .disz then env.float l.2 else none

/-- The material of a line: that of the name, or for unknown names that of the two numbers. -/
def zMat (l : ZLine) : Option M :=
  if l.1 = .glas then
    (tokens l.2).head?.bind fun name =>
      match env.make name with
      | .ok m => some m
      | .error _ => (((tokens l.2)[3]?).bind env.float).bind fun n =>
          (((tokens l.2)[4]?).bind env.float).bind fun v => (env.pair n v).toOption
  else none

/-- The aspheric coefficient of order `2i + 2` in a line. -/
def zCoef (i : ℕ) (l : ZLine) : Option (Option Num) :=
  if l.1 = .parm then
    match tokens l.2 with
    | [a, b] => if env.int a = some (i + 1 : ℤ) then (env.float b).map some else none
    | _ => none
  else none

/-- The aspheric coefficient `i` of an element. -/
def Surf.coef (e : Surf M) (i : ℕ) : Option Num := ((e.aspherics.getD [])[i]?).getD (some (.fin 0))

theorem glas_material {args : List Text} {old r : Option M} (h : glas env args old = .ok r) :
    r = (args.head?.bind fun name =>
      match env.make name with
      | .ok m => some m
      | .error _ => ((args[3]?).bind env.float).bind fun n =>
          ((args[4]?).bind env.float).bind fun v => (env.pair n v).toOption).or old := by
  unfold glas at h
  obtain ⟨name, hn, h⟩ := bind_ok.mp h
  rw [first_ok] at hn
  rw [hn]
  simp only [Option.bind_some]
  cases hm : env.make name with
  | ok m =>
    rw [hm] at h
    exact (Except.ok.inj h).symm
  | error e =>
    rw [hm] at h
    cases e with
    | key =>
      simp only at h ⊢
      generalize (args[3]?).bind env.float = a3 at h ⊢
      generalize (args[4]?).bind env.float = a4 at h ⊢
      cases a3 with
      | none => simpa using h.symm
      | some n =>
        cases a4 with
        | none => simpa using h.symm
        | some v =>
          simp only [Option.bind_some] at h ⊢
          cases hp : env.pair n v with
          | ok m =>
            rw [hp] at h
            exact (Except.ok.inj h).symm
          | error e' =>
            rw [hp] at h
            exact (Except.ok.inj h).symm
    | _ => simp at h

/-- Everything a line other than `SURF` does. -/
theorem zmxStep_spec (s s' : ZState M) (l : ZLine) (hl : l.1 ≠ .surf)
    (h : zmxStep env s l.1 l.2 = .ok s') :
    s'.done = s.done ∧ s'.cur.distance = s.cur.distance ∧ s'.next = (zThick env l).getD s.next ∧
    s'.cur.curvature = (zNum env .curv l).getD s.cur.curvature ∧
    s'.cur.radius = (zNum env .diam l).getD s.cur.radius ∧
    s'.cur.conic = ((zNum env .coni l).map some).getD s.cur.conic ∧
    s'.cur.material = ((zMat env l).map some).getD s.cur.material ∧
    s'.cur.stop = (if l.1 = .stop then some true else none).getD s.cur.stop ∧
    s'.cur.coating = ((if l.1 = .coat then (tokens l.2).head? else none).map some).getD
      s.cur.coating := by
  obtain ⟨c, args⟩ := l
  simp only at h hl
  cases c with
  | surf => exact absurd rfl hl
  | parm =>
    unfold zmxStep at h
    simp only at h
    generalize tokens args = t at h
    match t, h with
    | [i, j], h =>
      obtain ⟨i', hi, h⟩ := bind_ok.mp h
      obtain ⟨j', hj, h⟩ := map_ok.mp h
      split at h
      · subst h; simp [zThick, zNum, zMat]
      · subst h; simp [zThick, zNum, zMat]
    | [], h => simp at h
    | [_], h => simp at h
    | _ :: _ :: _ :: _, h => simp at h
  | glas =>
    obtain ⟨m, hm, rfl⟩ := map_ok.mp h
    have := glas_material env hm
    subst this
    simp only [zThick, zNum, zMat, if_true, reduceCtorEq, if_false, Option.getD_none,
      Option.map_none, true_and, and_true]
    generalize ((tokens args).head?.bind _) = x
    cases x <;> rfl
  | unit =>
    obtain ⟨t, -, h⟩ := bind_ok.mp h
    obtain ⟨x, -, rfl⟩ := map_ok.mp h
    simp [zThick, zNum, zMat]
  | name => cases h; simp [zThick, zNum, zMat]
  | stop => cases h; simp [zThick, zNum, zMat]
  | other => cases h; simp [zThick, zNum, zMat]
  | curv =>
    obtain ⟨x, hx, rfl⟩ := map_ok.mp h
    rw [firstFloat_ok] at hx
    simp [zThick, zNum, zMat, hx]
  | diam =>
    obtain ⟨x, hx, rfl⟩ := map_ok.mp h
    rw [firstFloat_ok] at hx
    simp [zThick, zNum, zMat, hx]
  | coni =>
    obtain ⟨x, hx, rfl⟩ := map_ok.mp h
    rw [firstFloat_ok] at hx
    simp [zThick, zNum, zMat, hx]
  | disz =>
    obtain ⟨x, hx, rfl⟩ := map_ok.mp h
    rw [toFloat_ok] at hx
    simp [zThick, zNum, zMat, hx]
  | wavl =>
    obtain ⟨x, hx, rfl⟩ := map_ok.mp h
    simp [zThick, zNum, zMat]
  | coat =>
    obtain ⟨x, hx, rfl⟩ := map_ok.mp h
    rw [first_ok] at hx
    simp [zThick, zNum, zMat, hx]

theorem setAspheric_coef (a : Option (List (Option Num))) (k i : ℕ) (x : Num) :
    ((setAspheric a k x)[i]?).getD (some (.fin 0)) =
      if i = k then some x else ((a.getD [])[i]?).getD (some (.fin 0)) := by
  unfold setAspheric
  generalize a.getD [] = l
  simp only
  by_cases hik : i = k
  · subst hik
    rw [if_pos rfl, List.getElem?_set_self (by simp; omega)]
    rfl
  · rw [if_neg hik, List.getElem?_set_ne (fun h => hik h.symm)]
    by_cases hi : i < l.length
    · rw [List.getElem?_append_left hi]
    · rw [List.getElem?_append_right (by omega), List.getElem?_replicate,
        List.getElem?_eq_none (by omega : l.length ≤ i)]
      split <;> rfl

theorem zmxStep_coef (i : ℕ) (s s' : ZState M) (l : ZLine) (hl : l.1 ≠ .surf)
    (h : zmxStep env s l.1 l.2 = .ok s') :
    s'.cur.coef i = (zCoef env i l).getD (s.cur.coef i) := by
  obtain ⟨c, args⟩ := l
  simp only at h hl
  by_cases hp : c = .parm
  · subst hp
    unfold zmxStep at h
    unfold zCoef
    simp only [if_true] at h ⊢
    generalize tokens args = t at h
    match t, h with
    | [a, b], h =>
      obtain ⟨i', hi, h⟩ := bind_ok.mp h
      obtain ⟨j', hj, h⟩ := map_ok.mp h
      rw [toInt_ok] at hi
      rw [toFloat_ok] at hj
      simp only [hi, hj, Option.some.injEq, Option.map_some]
      split at h
      · rename_i hneg
        subst h
        rw [if_neg (by omega)]
        rfl
      · rename_i hneg
        subst h
        unfold Surf.coef
        simp only [Option.getD_some]
        rw [setAspheric_coef]
        by_cases hii : i' = i + 1
        · rw [if_pos (by omega), if_pos hii]
          rfl
        · rw [if_neg (by omega), if_neg hii]
          rfl
    | [], h => simp at h
    | [_], h => simp at h
    | _ :: _ :: _ :: _, h => simp at h
  · have hz : zCoef env i (c, args) = none := by simp [zCoef, hp]
    rw [hz]
    have : s'.cur.aspherics = s.cur.aspherics := by
      cases c with
      | surf => exact absurd rfl hl
      | parm => exact absurd rfl hp
      | unit =>
        obtain ⟨t, -, h⟩ := bind_ok.mp h
        obtain ⟨x, -, rfl⟩ := map_ok.mp h
        rfl
      | name => cases h; rfl
      | stop => cases h; rfl
      | other => cases h; rfl
      | _ =>
        obtain ⟨x, -, rfl⟩ := map_ok.mp h
        rfl
    unfold Surf.coef
    rw [this]
    rfl

/-- The number of surface records. -/
def surfs (ls : List ZLine) : ℕ := ls.countP fun l => l.1 = .surf

theorem zmxRun_done (ls : List ZLine) (s s' : ZState M) (h : zmxRun env ls s = .ok s') :
    ∃ t, s'.done = s.done ++ t ∧ t.length = surfs ls := by
  induction ls generalizing s with
  | nil =>
    obtain rfl : s = s' := Except.ok.inj h
    exact ⟨[], by simp, rfl⟩
  | cons l ls ih =>
    obtain ⟨u, h1, h2⟩ := bind_ok.mp h
    obtain ⟨t, ht, hlen⟩ := ih u h2
    by_cases hl : l.1 = .surf
    · rw [hl] at h1
      cases h1
      exact ⟨s.cur :: t, by rw [ht]; simp, by simp [surfs, hl] at hlen ⊢; exact hlen⟩
    · have := (zmxStep_spec env s u l hl h1).1
      exact ⟨t, by rw [ht, this], by simp [surfs, hl] at hlen ⊢; exact hlen⟩

/-- What the reader knows of an element from the lines of its record. -/
structure ZElem (block : List ZLine) (distance : Num) (e : Surf M) : Prop where
  distance : e.distance = distance
  curvature : e.curvature = (last (zNum env .curv) block).getD (.fin 0)
  radius : e.radius = (last (zNum env .diam) block).getD .inf
  conic : e.conic = some ((last (zNum env .coni) block).getD (.fin 0))
  material : e.material = some ((last (zMat env) block).getD env.air)
  aspherics : ∀ i, e.coef i = (last (zCoef env i) block).getD (some (.fin 0))
  stop : e.stop = true ↔ ∃ l ∈ block, l.1 = .stop
  coating : e.coating = last (fun l => if l.1 = .coat then (tokens l.2).head? else none) block

theorem last_map {L α β : Type} (f : L → Option α) (g : α → β) (ls : List L) :
    last (fun l => (f l).map g) ls = (last f ls).map g := by
  induction ls with
  | nil => rfl
  | cons l ls ih =>
    rw [last_cons, last_cons, ih]
    cases last f ls <;> rfl

theorem zmx_block (s s' : ZState M) (block : List ZLine) (hb : ∀ l ∈ block, l.1 ≠ .surf)
    (hs : s.cur = { distance := s.cur.distance, material := some env.air })
    (h : zmxRun env block s = .ok s') :
    s'.done = s.done ∧ s'.next = (last (zThick env) block).getD s.next ∧
      ZElem env block s.cur.distance s'.cur := by
  rw [zmxRun_eq] at h
  have key := fun {α : Type} (g : ZState M → α) (f : ZLine → Option α) hstep =>
    runL_field (fun s l => zmxStep env s l.1 l.2) g f (fun l => l.1 ≠ .surf) hstep block s s' hb h
  refine ⟨?_, ?_, ?_, ?_, ?_, ?_, ?_, ?_, ?_, ?_⟩
  · exact runL_inv (fun s l => zmxStep env s l.1 l.2) (fun a b : ZState M => b.done = a.done)
      (fun _ => rfl) (fun a b c h1 h2 => h2.trans h1) (fun l => l.1 ≠ .surf)
      (fun l s s' hl h => (zmxStep_spec env s s' l hl h).1) block s s' hb h
  · exact key (fun s => s.next) (zThick env) fun l s s' hl h => (zmxStep_spec env s s' l hl h).2.2.1
  · exact runL_inv (fun s l => zmxStep env s l.1 l.2)
      (fun a b : ZState M => b.cur.distance = a.cur.distance)
      (fun _ => rfl) (fun a b c h1 h2 => h2.trans h1) (fun l => l.1 ≠ .surf)
      (fun l s s' hl h => (zmxStep_spec env s s' l hl h).2.1) block s s' hb h
  · rw [key (fun s => s.cur.curvature) (zNum env .curv)
      fun l s s' hl h => (zmxStep_spec env s s' l hl h).2.2.2.1, hs]
  · rw [key (fun s => s.cur.radius) (zNum env .diam)
      fun l s s' hl h => (zmxStep_spec env s s' l hl h).2.2.2.2.1, hs]
  · rw [key (fun s => s.cur.conic) (fun l => (zNum env .coni l).map some)
      fun l s s' hl h => (zmxStep_spec env s s' l hl h).2.2.2.2.2.1, hs, last_map]
    cases last (zNum env .coni) block <;> rfl
  · rw [key (fun s => s.cur.material) (fun l => (zMat env l).map some)
      fun l s s' hl h => (zmxStep_spec env s s' l hl h).2.2.2.2.2.2.1, hs, last_map]
    cases last (zMat env) block <;> rfl
  · intro i
    rw [key (fun s => s.cur.coef i) (zCoef env i)
      fun l s s' hl h => zmxStep_coef env i s s' l hl h, hs]
    rfl
  · rw [key (fun s => s.cur.stop) (fun l => if l.1 = .stop then some true else none)
      fun l s s' hl h => (zmxStep_spec env s s' l hl h).2.2.2.2.2.2.2.1, hs]
    clear hb hs h key
    induction block with
    | nil => simp [last]
    | cons l ls ih =>
      rw [last_cons]
      cases hlast : last (fun l : ZLine => if l.1 = .stop then some true else none) ls with
      | some b =>
        rw [hlast] at ih
        have hb : b = true := by
          have hmem := List.mem_of_getLast? hlast
          obtain ⟨l', -, h'⟩ := List.mem_filterMap.mp hmem
          split at h' <;> simp_all
        subst hb
        simp only [Option.getD_some, true_iff] at ih
        obtain ⟨l', h1, h2⟩ := ih
        simp only [Option.or, Option.getD_some, true_iff]
        exact ⟨l', List.mem_cons_of_mem _ h1, h2⟩
      | none =>
        rw [hlast] at ih
        simp only [Option.getD_none, Bool.false_eq_true, false_iff] at ih
        by_cases hl : l.1 = .stop
        · simp [Option.or, hl]
        · simp only [Option.or, hl, if_false, Option.getD_none, Bool.false_eq_true, false_iff]
          rintro ⟨l', h1, h2⟩
          rcases List.mem_cons.mp h1 with rfl | h1
          · exact hl h2
          · exact ih ⟨l', h1, h2⟩
  · rw [key (fun s => s.cur.coating)
      (fun l => (if l.1 = .coat then (tokens l.2).head? else none).map some)
      fun l s s' hl h => (zmxStep_spec env s s' l hl h).2.2.2.2.2.2.2.2, hs, last_map]
    generalize last _ block = x
    cases x <;> rfl

/-- The lines of a text. -/
def zLines (data : Text) : List ZLine := (data.splitOn '\n').filterMap zmxLine

/-- C60: every surface record of a Zemax file gives one element: its curvature, radius, conic constant,
glass and aspheric coefficients are the last ones of the record, the distance is the last thickness given
in the records before. -/
theorem c60_zmx (data : Text) (sys : Sys M) (pre block post : List ZLine) (a : Text)
    (hd : zLines data = pre ++ (.surf, a) :: (block ++ post)) (hb : ∀ l ∈ block, l.1 ≠ .surf)
    (hp : ∀ l ∈ post.head?, l.1 = .surf) (h : zmx env data = .ok sys) :
    ∃ e, sys.elements[surfs pre + 1]? = some e ∧
      ZElem env block ((last (zThick env) pre).getD (.fin 0)) e := by
  obtain ⟨s', hrun, rfl⟩ := map_ok.mp h
  change zmxRun env (zLines data) _ = _ at hrun
  rw [hd, zmxRun_eq] at hrun
  obtain ⟨s1, h1, hrun⟩ := (runL_append_ok _ _ _ _ _).mp hrun
  obtain ⟨s2, h2, hrun⟩ := (runL_cons_ok _ _ _ _ _).mp hrun
  obtain ⟨s3, h3, h4⟩ := (runL_append_ok _ _ _ _ _).mp hrun
  rw [← zmxRun_eq] at h1 h3 h4
  cases h2
  obtain ⟨t, ht, htl⟩ := zmxRun_done env pre _ _ h1
  obtain ⟨hd3, -, he⟩ := zmx_block env _ s3 block hb rfl h3
  have hnext : s1.next = (last (zThick env) pre).getD (.fin 0) := by
    rw [zmxRun_eq] at h1
    refine runL_field (fun s l => zmxStep env s l.1 l.2) (fun s : ZState M => s.next) (zThick env)
      (fun _ => True) (fun l s s' _ h => ?_) pre _ _ (fun _ _ => trivial) h1
    by_cases hl : l.1 = .surf
    · rw [hl] at h
      cases h
      simp [zThick, hl]
    · exact (zmxStep_spec env s s' l hl h).2.2.1
  refine ⟨s3.cur, ?_, by rw [← hnext]; exact he⟩
  have hlen : (s1.done ++ [s1.cur]).length = surfs pre + 1 := by
    rw [ht, ← htl]
    simp [zmxInit]
  have hfin : ∃ u, s'.done ++ [s'.cur] = (s1.done ++ [s1.cur]) ++ (s3.cur :: u) := by
    cases post with
    | nil =>
      obtain rfl : s3 = s' := Except.ok.inj h4
      exact ⟨[], by rw [hd3]⟩
    | cons l post =>
      obtain ⟨s4, h5, h6⟩ := bind_ok.mp h4
      have hl : l.1 = .surf := hp l rfl
      rw [hl] at h5
      cases h5
      obtain ⟨u, hu, -⟩ := zmxRun_done env post _ _ h6
      exact ⟨u ++ [s'.cur], by rw [hu, hd3]; simp⟩
  obtain ⟨u, hu⟩ := hfin
  simp only
  rw [hu, List.getElem?_append_right (by omega), hlen]
  simp

/-- C60 does not hold as stated for Zemax files: there is one element more than surface records, made of
the lines before the first record. -/
theorem c60_zmx_extra_violation (data : Text) (sys : Sys M) (h : zmx env data = .ok sys) :
    sys.elements.length = surfs (zLines data) + 1 := by
  obtain ⟨s', hrun, rfl⟩ := map_ok.mp h
  obtain ⟨t, ht, htl⟩ := zmxRun_done env _ _ _ hrun
  simp only [List.length_append, List.length_singleton, ht, htl]
  simp [zmxInit, zLines]

/-- The extra element: before the first surface record. -/
theorem c60_zmx_first (data : Text) (sys : Sys M) (block post : List ZLine)
    (hd : zLines data = block ++ post) (hb : ∀ l ∈ block, l.1 ≠ .surf)
    (hp : ∀ l ∈ post.head?, l.1 = .surf) (h : zmx env data = .ok sys) :
    ∃ e, sys.elements[0]? = some e ∧ ZElem env block (.fin 0) e := by
  obtain ⟨s', hrun, rfl⟩ := map_ok.mp h
  change zmxRun env (zLines data) _ = _ at hrun
  rw [hd, zmxRun_eq] at hrun
  obtain ⟨s3, h3, h4⟩ := (runL_append_ok _ _ _ _ _).mp hrun
  rw [← zmxRun_eq] at h3 h4
  obtain ⟨hd3, -, he⟩ := zmx_block env _ s3 block hb rfl h3
  refine ⟨s3.cur, ?_, he⟩
  cases post with
  | nil =>
    obtain rfl : s3 = s' := Except.ok.inj h4
    simp only
    rw [hd3]
    rfl
  | cons l post =>
    obtain ⟨s4, h5, h6⟩ := bind_ok.mp h4
    have hl : l.1 = .surf := hp l rfl
    rw [hl] at h5
    cases h5
    obtain ⟨u, hu, -⟩ := zmxRun_done env post _ _ h6
    simp only
    rw [hu, hd3]
    rfl

/-- C60: the stop given in a Zemax file does not become the stop of the system. -/
theorem c60_zmx_stop_violation (data : Text) (sys : Sys M) (h : zmx env data = .ok sys) :
    sys.stop = 1 := by
  obtain ⟨s', -, rfl⟩ := map_ok.mp h
  rfl

/-- A line without errors. -/
def ZGood (l : ZLine) : Prop :=
  match l.1 with
  | .unit => (tokens l.2).head? = some "MM".toList ∨ (tokens l.2).head? = some "IN".toList ∨
      (tokens l.2).head? = some "INCH".toList
  | .curv | .diam | .coni => ∃ t, (tokens l.2).head? = some t ∧ env.float t ≠ none
  | .disz => env.float l.2 ≠ none
  | .glas => ∃ t, (tokens l.2).head? = some t ∧
      ((∃ m, env.make t = .ok m) ∨ env.make t = .error .key)
  | .wavl => ∀ t ∈ tokens l.2, env.float t ≠ none
  | .coat => tokens l.2 ≠ []
  | .parm => ∃ a b, tokens l.2 = [a, b] ∧ env.int a ≠ none ∧ env.float b ≠ none
  | _ => True

theorem allFloats_total (l : List Text) :
    (∃ r, allFloats env l = .ok r) ↔ ∀ t ∈ l, env.float t ≠ none := by
  induction l with
  | nil => simp [allFloats]
  | cons t l ih =>
    unfold allFloats
    constructor
    · rintro ⟨r, h⟩
      obtain ⟨x, hx, h⟩ := bind_ok.mp h
      obtain ⟨y, hy, -⟩ := map_ok.mp h
      rw [toFloat_ok] at hx
      intro u hu
      rcases List.mem_cons.mp hu with rfl | hu
      · rw [hx]; simp
      · exact ih.mp ⟨y, hy⟩ u hu
    · intro h
      obtain ⟨x, hx⟩ := Option.ne_none_iff_exists'.mp (h t List.mem_cons_self)
      obtain ⟨y, hy⟩ := ih.mpr fun u hu => h u (List.mem_cons_of_mem _ hu)
      exact ⟨x :: y, bind_ok.mpr ⟨x, (toFloat_ok env).mpr hx, map_ok.mpr ⟨y, hy, rfl⟩⟩⟩

theorem firstFloat_total (args : Text) : (∃ x, firstFloat env args = .ok x) ↔
    ∃ t, (tokens args).head? = some t ∧ env.float t ≠ none := by
  simp only [firstFloat_ok, Option.bind_eq_some_iff]
  constructor
  · rintro ⟨x, t, h1, h2⟩
    exact ⟨t, h1, by rw [h2]; simp⟩
  · rintro ⟨t, h1, h2⟩
    obtain ⟨x, hx⟩ := Option.ne_none_iff_exists'.mp h2
    exact ⟨x, t, h1, hx⟩

theorem map_total {α β : Type} {f : α → β} {x : Except Err α} :
    (∃ b, x.map f = .ok b) ↔ ∃ a, x = .ok a := by
  cases x <;> simp [Except.map]

theorem zmxStep_total (l : ZLine) (s : ZState M) :
    (∃ s', zmxStep env s l.1 l.2 = .ok s') ↔ ZGood env l := by
  obtain ⟨c, args⟩ := l
  cases c with
  | surf => simp [zmxStep, ZGood]
  | name => simp [zmxStep, ZGood]
  | stop => simp [zmxStep, ZGood]
  | other => simp [zmxStep, ZGood]
  | curv => exact map_total.trans (firstFloat_total env args)
  | diam => exact map_total.trans (firstFloat_total env args)
  | coni => exact map_total.trans (firstFloat_total env args)
  | wavl => exact map_total.trans (allFloats_total env (tokens args))
  | disz =>
    refine map_total.trans ?_
    simp only [toFloat_ok, ZGood]
    exact Option.ne_none_iff_exists'.symm
  | coat =>
    refine map_total.trans ?_
    simp only [first_ok, ZGood]
    cases tokens args <;> simp
  | unit =>
    simp only [zmxStep, ZGood]
    cases h : tokens args with
    | nil => simp [first, Except.bind]
    | cons t l =>
      simp only [first, Except.bind, List.head?_cons, Option.some.injEq]
      refine map_total.trans ?_
      unfold units
      by_cases h1 : t = ['M', 'M']
      · simp [h1]
      · by_cases h2 : t = ['I', 'N', 'C', 'H']
        · simp [h2]
        · by_cases h3 : t = ['I', 'N']
          · simp [h3]
          · simp [h1, h2, h3]
  | glas =>
    refine map_total.trans ?_
    unfold glas ZGood
    simp only
    generalize tokens args = l
    cases l with
    | nil => simp [first, Except.bind]
    | cons t l =>
      simp only [first, Except.bind, List.head?_cons, Option.some.injEq, exists_eq_left']
      cases hm : env.make t with
      | ok m => simp
      | error e =>
        cases e with
        | key =>
          simp only
          constructor
          · simp
          · intro _
            split
            · split <;> exact ⟨_, rfl⟩
            · exact ⟨_, rfl⟩
        | _ => simp
  | parm =>
    unfold ZGood zmxStep
    simp only
    generalize tokens args = l
    match l with
    | [] => simp
    | [_] => simp
    | _ :: _ :: _ :: _ => simp
    | [a, b] =>
      simp only [List.cons.injEq, and_true]
      constructor
      · rintro ⟨s', h⟩
        obtain ⟨i, hi, h⟩ := bind_ok.mp h
        obtain ⟨x, hx, -⟩ := map_ok.mp h
        rw [toInt_ok] at hi
        rw [toFloat_ok] at hx
        exact ⟨a, b, ⟨rfl, rfl⟩, by rw [hi]; simp, by rw [hx]; simp⟩
      · rintro ⟨a', b', ⟨rfl, rfl⟩, ha, hb⟩
        obtain ⟨i, hi⟩ := Option.ne_none_iff_exists'.mp ha
        obtain ⟨x, hx⟩ := Option.ne_none_iff_exists'.mp hb
        exact ⟨_, bind_ok.mpr ⟨i, (toInt_ok env).mpr hi, map_ok.mpr ⟨x, (toFloat_ok env).mpr hx, rfl⟩⟩⟩

/-- C60: a Zemax file is read without an exception if and only if every line is well formed by itself. -/
theorem c60_zmx_total (data : Text) :
    (∃ sys, zmx env data = .ok sys) ↔ ∀ l ∈ zLines data, ZGood env l := by
  unfold zmx
  refine map_total.trans ?_
  simp only [zmxRun_eq]
  exact runL_total _ (ZGood env) (fun l s => zmxStep_total env l s) _ _

/-! ### Texts -/

theorem isSpace_blank : isSpace ' ' = true := by decide

theorem dropWhile_spaces (a t : Text) (ha : ∀ c ∈ a, isSpace c = true)
    (ht : ∀ c ∈ t.head?, isSpace c = false) : (a ++ t).dropWhile isSpace = t := by
  induction a with
  | nil =>
    cases t with
    | nil => rfl
    | cons c t =>
      have := ht c rfl
      simp [this]
  | cons c a ih =>
    rw [List.cons_append, List.dropWhile_cons_of_pos (ha c List.mem_cons_self)]
    exact ih fun x hx => ha x (List.mem_cons_of_mem _ hx)

theorem strip_eq (a t b : Text) (ha : ∀ c ∈ a, isSpace c = true) (hb : ∀ c ∈ b, isSpace c = true)
    (h1 : ∀ c ∈ t.head?, isSpace c = false) (h2 : ∀ c ∈ t.getLast?, isSpace c = false) :
    strip (a ++ t ++ b) = t := by
  unfold strip
  rw [List.append_assoc]
  by_cases ht : t = []
  · subst ht
    have h3 : (a ++ ([] ++ b)).dropWhile isSpace = [] := by
      have := dropWhile_spaces (a ++ b) [] (by
        intro c hc
        rcases List.mem_append.mp hc with h | h
        exacts [ha c h, hb c h]) (by simp)
      simpa using this
    rw [h3]
    rfl
  · rw [dropWhile_spaces a (t ++ b) ha (by
      rw [List.head?_append_of_ne_nil _ ht]
      exact h1), List.reverse_append, dropWhile_spaces b.reverse t.reverse
        (fun c hc => hb c (List.mem_reverse.mp hc)) (by rw [List.head?_reverse]; exact h2),
      List.reverse_reverse]

/-- A word: not empty, without blanks. -/
def Word (t : Text) : Prop := t ≠ [] ∧ ∀ c ∈ t, isSpace c = false

theorem Word.head {t : Text} (h : Word t) : ∀ c ∈ t.head?, isSpace c = false :=
  fun c hc => h.2 c (List.mem_of_mem_head? hc)

theorem tokens_word (t : Text) (h : Word t) : tokens t = [t] := by
  unfold tokens
  rw [List.splitOnP_eq_singleton h.2]
  simp [h.1]

theorem tokens_space (c : Char) (t : Text) (hc : isSpace c = true) : tokens (c :: t) = tokens t := by
  unfold tokens
  have := List.splitOnP_append_cons_of_forall_mem (p := isSpace) (xs := []) (by simp) c hc t
  rw [List.nil_append] at this
  rw [this]
  simp

theorem tokens_cons (w : Text) (c : Char) (t : Text) (h : Word w) (hc : isSpace c = true) :
    tokens (w ++ c :: t) = w :: tokens t := by
  unfold tokens
  rw [List.splitOnP_append_cons_of_forall_mem h.2 c hc]
  simp [h.1]

theorem tokens_joinWords (ws : List Text) (h : ∀ w ∈ ws, Word w) : tokens (joinWords ws) = ws := by
  induction ws with
  | nil => rfl
  | cons w ws ih =>
    cases ws with
    | nil => simpa [joinWords] using tokens_word w (h w List.mem_cons_self)
    | cons v ws =>
      have : joinWords (w :: v :: ws) = w ++ ' ' :: joinWords (v :: ws) := by
        simp [joinWords, List.intercalate_cons_cons]
      rw [this, tokens_cons w ' ' _ (h w List.mem_cons_self) isSpace_blank,
        ih fun x hx => h x (List.mem_cons_of_mem _ hx)]

/-- The ASCII characters Python counts as white space. -/
def whiteSpace : List Char := [' ', '\t', '\n', '\x0b', '\x0c', '\r', '\x1c', '\x1d', '\x1e', '\x1f']

theorem isSpace_iff (c : Char) : isSpace c = true ↔ c ∈ whiteSpace := by
  have h : ∀ a b : Char, a = b ↔ a.toNat = b.toNat :=
    fun a b => ⟨fun e => by rw [e], fun e => Char.ext (UInt32.toNat_inj.mp e)⟩
  simp only [isSpace, whiteSpace, List.mem_cons, List.not_mem_nil, or_false, h, decide_eq_true_eq,
    show ' '.toNat = 32 from rfl, show '\t'.toNat = 9 from rfl, show '\n'.toNat = 10 from rfl,
    show '\x0b'.toNat = 11 from rfl, show '\x0c'.toNat = 12 from rfl, show '\r'.toNat = 13 from rfl,
    show '\x1c'.toNat = 28 from rfl, show '\x1d'.toNat = 29 from rfl, show '\x1e'.toNat = 30 from rfl,
    show '\x1f'.toNat = 31 from rfl]
  omega

theorem tokens_gap (g t : Text) (hg : ∀ c ∈ g, c ∈ whiteSpace) : tokens (g ++ t) = tokens t := by
  induction g with
  | nil => rfl
  | cons c g ih =>
    rw [List.cons_append, tokens_space c _ ((isSpace_iff c).mpr (hg c (by simp))),
      ih fun x hx => hg x (by simp [hx])]

/-- C60: the words of a line are what lies between its white space, of whatever kind and length. -/
theorem c60_words (lead : Text) (ws : List (Text × Text)) (hlead : ∀ c ∈ lead, c ∈ whiteSpace)
    (hw : ∀ w ∈ ws, w.1 ≠ [] ∧ ∀ c ∈ w.1, c ∉ whiteSpace)
    (hg : ∀ w ∈ ws, w.2 ≠ [] ∧ ∀ c ∈ w.2, c ∈ whiteSpace) (tail : Text)
    (htail : ∀ c ∈ tail, c ∉ whiteSpace) :
    tokens (lead ++ (ws.flatMap fun w => w.1 ++ w.2) ++ tail) =
      ws.map Prod.fst ++ if tail = [] then [] else [tail] := by
  have hword : ∀ t : Text, t ≠ [] → (∀ c ∈ t, c ∉ whiteSpace) → Word t := fun t h1 h2 =>
    ⟨h1, fun c hc => by
      have := h2 c hc
      rwa [← isSpace_iff, Bool.not_eq_true] at this⟩
  rw [List.append_assoc, tokens_gap lead _ hlead]
  induction ws with
  | nil =>
    by_cases h : tail = []
    · subst h; rfl
    · simpa [h] using tokens_word tail (hword tail h htail)
  | cons w ws ih =>
    obtain ⟨w1, g⟩ := w
    obtain ⟨a1, a2⟩ := hw _ List.mem_cons_self
    obtain ⟨b1, b2⟩ := hg _ List.mem_cons_self
    cases g with
    | nil => exact absurd rfl b1
    | cons c g =>
      have ih' := ih (fun x hx => hw x (List.mem_cons_of_mem _ hx))
        (fun x hx => hg x (List.mem_cons_of_mem _ hx))
      simp only [List.flatMap_cons, List.append_assoc, List.cons_append, List.map_cons]
      rw [tokens_cons w1 c _ (hword w1 a1 a2) ((isSpace_iff c).mpr (b2 c (by simp))),
        tokens_gap g _ fun x hx => b2 x (by simp [hx]), ih']

example : tokens "\tCURV \t 0.5\r\n0".toList = ["CURV".toList, "0.5".toList, "0".toList] :=
  c60_words ['\t'] [("CURV".toList, " \t ".toList), ("0.5".toList, "\r\n".toList)]
    (by decide) (by decide) (by decide) ['0'] (by decide)

/-- A line of a file: some blanks, the command, a blank and the arguments. -/
def lineText (indent : ℕ) (cmd args : Text) : Text :=
  List.replicate indent ' ' ++ cmd ++ ' ' :: args

theorem word_line {t : Text} (h : Word t) : '\n' ∉ t := fun hc => by
  have := h.2 _ hc
  exact absurd this (by decide)

/-- C60: a line is read as its command and its arguments, whatever the indentation and the line end. -/
theorem c60_zmx_line (indent : ℕ) (cmd args : Text) (cr : Text) (hc : Word cmd)
    (ha : args ≠ [] ∧ ∀ c ∈ args.getLast?, isSpace c = false) (hcr : ∀ c ∈ cr, isSpace c = true) :
    zmxLine (lineText indent cmd args ++ cr) = some (ZCmd.of cmd, args) := by
  have hs : strip (lineText indent cmd args ++ cr) = cmd ++ ' ' :: args := by
    have := strip_eq (List.replicate indent ' ') (cmd ++ ' ' :: args) cr
      (fun c hc => by rw [(List.mem_replicate.mp hc).2]; decide) hcr
      (by rw [List.head?_append_of_ne_nil _ hc.1]; exact hc.head)
      (by
        rw [List.getLast?_append_of_ne_nil _ (by simp), List.getLast?_cons]
        intro c h
        obtain ⟨x, hx⟩ := Option.ne_none_iff_exists'.mp
          (fun hn => ha.1 (List.getLast?_eq_none_iff.mp hn))
        rw [hx] at h
        exact ha.2 c (by rw [hx]; simpa using h))
    simpa [lineText, List.append_assoc] using this
  have hne : ∀ c ∈ cmd, decide (c ≠ ' ') = true := by
    intro c h
    have := hc.2 c h
    rw [decide_eq_true_iff]
    rintro rfl
    exact absurd this (by decide)
  unfold zmxLine
  rw [hs, if_neg (by simp)]
  rw [List.takeWhile_append_of_pos hne, List.dropWhile_append_of_pos hne]
  simp

/-- C60: the lines of a text made of lines. -/
theorem c60_zmx_text (ls : List (ℕ × Text × Text)) (h : ∀ l ∈ ls, Word l.2.1 ∧
    (l.2.2 ≠ [] ∧ ∀ c ∈ l.2.2.getLast?, isSpace c = false) ∧ '\n' ∉ l.2.2) :
    zLines (ls.flatMap fun l => lineText l.1 l.2.1 l.2.2 ++ ['\n']) =
      ls.map fun l => (ZCmd.of l.2.1, l.2.2) := by
  induction ls with
  | nil => decide
  | cons l ls ih =>
    have hl := h l List.mem_cons_self
    have hn : '\n' ∉ lineText l.1 l.2.1 l.2.2 := by
      have h1 := word_line hl.1
      have h2 := hl.2.2
      simp [lineText, h1, h2]
    unfold zLines at ih ⊢
    rw [List.flatMap_cons, List.append_assoc, List.singleton_append,
      List.splitOn_append_cons_self_of_not_mem hn, List.filterMap_cons]
    have := c60_zmx_line l.1 l.2.1 l.2.2 [] hl.1 hl.2.1 (by simp)
    rw [List.append_nil] at this
    rw [this, ih fun x hx => h x (List.mem_cons_of_mem _ hx)]
    rfl

/-! ### A whole Zemax prescription -/

/-- A surface record as it is written: thickness after the surface, curvature, conic constant, radius and
glass. -/
structure Rec where
  thickness : Text
  curvature : Text
  conic : Text
  radius : Text
  glass : Text

/-- The values of a record. -/
structure Val (M : Type) where
  thickness : Num
  curvature : Num
  conic : Num
  radius : Num
  glass : M

/-- The record is made of words, and these are read as the values. -/
structure Rec.Reads (r : Rec) (v : Val M) : Prop where
  words : Word r.thickness ∧ Word r.curvature ∧ Word r.conic ∧ Word r.radius ∧ Word r.glass
  thickness : env.float r.thickness = some v.thickness
  curvature : env.float r.curvature = some v.curvature
  conic : env.float r.conic = some v.conic
  radius : env.float r.radius = some v.radius
  glass : env.make r.glass = .ok v.glass

/-- The lines of a record: indentation, command, arguments. -/
def Rec.lines (r : Rec) : List (ℕ × Text × Text) :=
  [(0, ['S', 'U', 'R', 'F'], ['1']), (2, ['C', 'U', 'R', 'V'], r.curvature), (2, ['C', 'O', 'N', 'I'], r.conic),
   (2, ['D', 'I', 'S', 'Z'], r.thickness), (2, ['G', 'L', 'A', 'S'], r.glass), (2, ['D', 'I', 'A', 'M'], r.radius)]

/-- The file of some records. -/
def zmxFile (rs : List Rec) : Text :=
  (rs.flatMap Rec.lines).flatMap fun l => lineText l.1 l.2.1 l.2.2 ++ ['\n']

/-- One element per record, at the distance given by the record before. -/
def elementsOf : Num → List (Val M) → List (Surf M)
  | _, [] => []
  | d, v :: vs =>
    { distance := d
      curvature := v.curvature
      conic := some v.conic
      radius := v.radius
      material := some v.glass } :: elementsOf v.thickness vs

theorem rec_run (r : Rec) (v : Val M) (hr : r.Reads env v) (s : ZState M) :
    zmxRun env (r.lines.map fun l => (ZCmd.of l.2.1, l.2.2)) s =
      .ok { s with
        done := s.done ++ [s.cur]
        cur := { distance := s.next, curvature := v.curvature, conic := some v.conic,
                 radius := v.radius, material := some v.glass }
        next := v.thickness } := by
  obtain ⟨h1, h2, h3, h4, h5⟩ := hr.words
  have e1 : ZCmd.of ['S', 'U', 'R', 'F'] = .surf := by decide
  have e2 : ZCmd.of ['C', 'U', 'R', 'V'] = .curv := by decide
  have e3 : ZCmd.of ['C', 'O', 'N', 'I'] = .coni := by decide
  have e4 : ZCmd.of ['D', 'I', 'S', 'Z'] = .disz := by decide
  have e5 : ZCmd.of ['G', 'L', 'A', 'S'] = .glas := by decide
  have e6 : ZCmd.of ['D', 'I', 'A', 'M'] = .diam := by decide
  unfold Rec.lines
  simp only [List.map_cons, List.map_nil, e1, e2, e3, e4, e5, e6]
  simp only [zmxRun, zmxStep, firstFloat, tokens_word _ h2, tokens_word _ h3, tokens_word _ h4,
    tokens_word _ h5, first, Except.bind, Except.map, toFloat, hr.thickness, hr.curvature, hr.conic,
    hr.radius, glas, hr.glass]

theorem recs_run (rs : List Rec) (vs : List (Val M)) (hr : List.Forall₂ (Rec.Reads env) rs vs)
    (s : ZState M) : ∃ s', zmxRun env ((rs.flatMap Rec.lines).map fun l => (ZCmd.of l.2.1, l.2.2)) s =
      .ok s' ∧ s'.done ++ [s'.cur] = s.done ++ s.cur :: elementsOf s.next vs := by
  induction hr generalizing s with
  | nil => exact ⟨s, rfl, rfl⟩
  | cons h hs ih =>
    rename_i r v rs vs
    obtain ⟨s', h1, h2⟩ := ih { s with
        done := s.done ++ [s.cur]
        cur := { distance := s.next, curvature := v.curvature, conic := some v.conic,
                 radius := v.radius, material := some v.glass }
        next := v.thickness }
    refine ⟨s', ?_, ?_⟩
    · rw [List.flatMap_cons, List.map_append, zmxRun_eq, runL_append_ok]
      refine ⟨_, by rw [← zmxRun_eq]; exact rec_run env r v h s, ?_⟩
      rw [← zmxRun_eq]
      exact h1
    · rw [h2]
      simp [elementsOf]

theorem forall_reads {α β : Type} {P : α → β → Prop} {as : List α} {bs : List β}
    (h : List.Forall₂ P as bs) (a : α) (ha : a ∈ as) : ∃ b, P a b := by
  induction h with
  | nil => simp at ha
  | cons h hs ih =>
    rcases List.mem_cons.mp ha with rfl | ha
    · exact ⟨_, h⟩
    · exact ih ha

/-- C60: the file of a prescription is read as one element per record, after the extra first one. -/
theorem c60_zmx_file (rs : List Rec) (vs : List (Val M)) (hr : List.Forall₂ (Rec.Reads env) rs vs) :
    ∃ sys, zmx env (zmxFile rs) = .ok sys ∧
      sys.elements = { material := some env.air } :: elementsOf (.fin 0) vs := by
  obtain ⟨s', h1, h2⟩ := recs_run env rs vs hr (zmxInit env)
  refine ⟨_, map_ok.mpr ⟨s', ?_, rfl⟩, ?_⟩
  · rw [← h1]
    have hw : ∀ t, Word t → (t ≠ [] ∧ ∀ c ∈ t.getLast?, isSpace c = false) ∧ '\n' ∉ t := by
      intro t ht
      exact ⟨⟨ht.1, fun c hc => ht.2 c (List.mem_of_mem_getLast? hc)⟩, word_line ht⟩
    have := c60_zmx_text (rs.flatMap Rec.lines) (by
      intro l hl
      obtain ⟨r, hr', hl⟩ := List.mem_flatMap.mp hl
      have hreads := forall_reads hr r hr'
      obtain ⟨v, hv⟩ := hreads
      obtain ⟨w1, w2, w3, w4, w5⟩ := hv.words
      have hS : Word ['S', 'U', 'R', 'F'] := by unfold Word; decide
      have hC : Word ['C', 'U', 'R', 'V'] := by unfold Word; decide
      have hK : Word ['C', 'O', 'N', 'I'] := by unfold Word; decide
      have hT : Word ['D', 'I', 'S', 'Z'] := by unfold Word; decide
      have hG : Word ['G', 'L', 'A', 'S'] := by unfold Word; decide
      have hD : Word ['D', 'I', 'A', 'M'] := by unfold Word; decide
      simp only [Rec.lines, List.mem_cons, List.not_mem_nil, or_false] at hl
      rcases hl with rfl | rfl | rfl | rfl | rfl | rfl
      · exact ⟨hS, hw _ (by unfold Word; decide)⟩
      · exact ⟨hC, hw _ w2⟩
      · exact ⟨hK, hw _ w3⟩
      · exact ⟨hT, hw _ w1⟩
      · exact ⟨hG, hw _ w5⟩
      · exact ⟨hD, hw _ w4⟩)
    change zmxRun env (zLines (zmxFile rs)) _ = _
    rw [show zLines (zmxFile rs) = _ from this]
  · simpa [zmxInit] using h2

/-- The environment of the package: materials as in `Serial`. -/
noncomputable def realEnv (float : Text → Option Num) (int : Text → Option ℤ)
    (floatR : Text → Option ℝ) (lib : Serial.Lib) : Env Serial.Mat where
  float := float
  int := int
  make t := match Serial.Mat.makeText floatR lib t with
    | .ok m => .ok m
    | .error .key => .error .key
    | .error _ => .error .other
  pair n v := match n, v with
    | .fin n, .fin v => match Serial.Mat.make floatR lib (.tuple n v) with
      | .ok (some m) => .ok m
      | .ok none => .error .other
      | .error _ => .error .type
    | _, _ => .error .type
  air := ⟨"air".toList, some "basic".toList, false, false,
    .coefficients "gas" [0.05792105, 0.00167917, 238.0185, 57.362]⟩

/-- C60: a glass that is not in the library is dropped, although its index and Abbe number are given in
the same line: the element keeps its material, which is air. -/
theorem c60_zmx_glass_violation (float : Text → Option Num) (int : Text → Option ℤ)
    (floatR : Text → Option ℝ) (lib : Serial.Lib) (s s' : ZState Serial.Mat) (args name : Text)
    (hn : (tokens args).head? = some name)
    (hm : Serial.Mat.makeText floatR lib name = .error .key)
    (h : zmxStep (realEnv float int floatR lib) s .glas args = .ok s') :
    s'.cur.material = s.cur.material := by
  have := (zmxStep_spec _ s s' (.glas, args) (by simp) h).2.2.2.2.2.2.1
  rw [this]
  have hz : zMat (realEnv float int floatR lib) (.glas, args) = none := by
    unfold zMat
    simp only [if_true, hn, Option.bind_some]
    have : (realEnv float int floatR lib).make name = .error .key := by simp [realEnv, hm]
    rw [this]
    simp only
    have hpair : ∀ n v, ((realEnv float int floatR lib).pair n v).toOption = none := by
      intro n v
      cases n <;> cases v <;> rfl
    simp [hpair]
  rw [hz]
  rfl

/-! ### An example -/

/-- Numbers and names for the examples. -/
noncomputable def testEnv : Env ℕ where
  float t := if t = ['0', '.', '0', '2'] then some (.fin (1 / 50))
    else if t = ['5'] then some (.fin 5)
    else if t = ['0'] then some (.fin 0)
    else if t = ['1', '2', '0'] then some (.fin 120)
    else if t = ['I', 'N', 'F', 'I', 'N', 'I', 'T', 'Y'] then some .inf
    else none
  int t := if t = ['4'] then some 4 else none
  make t := if t = ['B', 'K', '7'] then .ok 7 else if t = ['A', 'I', 'R'] then .ok 0 else .error .key
  pair _ _ := .error .type
  air := 0

/-- A singlet: object at infinity, two surfaces, image. -/
def singlet : List Rec :=
  [⟨['I', 'N', 'F', 'I', 'N', 'I', 'T', 'Y'], ['0'], ['0'], ['5'], ['A', 'I', 'R']⟩,
   ⟨['5'], ['0', '.', '0', '2'], ['0'], ['5'], ['B', 'K', '7']⟩,
   ⟨['1', '2', '0'], ['0'], ['0'], ['5'], ['A', 'I', 'R']⟩]

theorem singlet_reads : List.Forall₂ (Rec.Reads testEnv) singlet
    [⟨.inf, .fin 0, .fin 0, .fin 5, 0⟩, ⟨.fin 5, .fin (1 / 50), .fin 0, .fin 5, 7⟩,
     ⟨.fin 120, .fin 0, .fin 0, .fin 5, 0⟩] := by
  have hw : ∀ t ∈ [['I', 'N', 'F', 'I', 'N', 'I', 'T', 'Y'], ['0'], ['5'], ['A', 'I', 'R'], ['0', '.', '0', '2'],
      ['B', 'K', '7'], ['1', '2', '0']], Word t := by unfold Word; decide
  refine .cons ?_ (.cons ?_ (.cons ?_ .nil))
  · exact ⟨⟨hw _ (by simp), hw _ (by simp), hw _ (by simp), hw _ (by simp), hw _ (by simp)⟩,
      by simp [testEnv], by simp [testEnv], by simp [testEnv], by simp [testEnv], by simp [testEnv]⟩
  · exact ⟨⟨hw _ (by simp), hw _ (by simp), hw _ (by simp), hw _ (by simp), hw _ (by simp)⟩,
      by simp [testEnv], by simp [testEnv], by simp [testEnv], by simp [testEnv], by simp [testEnv]⟩
  · exact ⟨⟨hw _ (by simp), hw _ (by simp), hw _ (by simp), hw _ (by simp), hw _ (by simp)⟩,
      by simp [testEnv], by simp [testEnv], by simp [testEnv], by simp [testEnv], by simp [testEnv]⟩

example : ∃ sys, zmx testEnv (zmxFile singlet) = .ok sys ∧ sys.elements.length = 4 ∧
    (sys.elements.map fun e => e.distance) = [.fin 0, .fin 0, .inf, .fin 5] := by
  obtain ⟨sys, h1, h2⟩ := c60_zmx_file testEnv singlet _ singlet_reads
  refine ⟨sys, h1, ?_, ?_⟩ <;> rw [h2] <;> rfl

end RayOpt.Parse
