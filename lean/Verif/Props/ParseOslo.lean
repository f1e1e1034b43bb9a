import Verif.Props.Parse

/-!
C60 for the two OSLO formats.
-/

namespace RayOpt.Parse

variable {M : Type} (env : Env M) (glassMap : Text → Text)

/-! ### Catalogue lenses -/

/-- A command with its arguments. -/
abbrev OLine := OCmd × List Text

theorem olcRun_eq (ls : List OLine) (s : OState M) :
    olcRun env glassMap ls s = runL (fun s l => olcStep env glassMap s l.1 l.2) ls s := by
  induction ls generalizing s with
  | nil => rfl
  | cons l ls ih =>
    unfold olcRun runL
    congr 1
    funext t
    exact ih t

open Classical in
/-- The curvature of a radius: zero for the radius zero or a text that is no number. -/
noncomputable def curvatureSpec : Option Num → Num
  | some (.fin r) => if r = 0 then .fin 0 else .fin (1 / r)
  | some .nan => .nan
  | _ => .fin 0

theorem curvatureOf_spec (r : Option Num) : curvatureOf r = curvatureSpec r := by
  unfold curvatureOf curvatureSpec
  cases r with
  | none => rfl
  | some x =>
    cases x with
    | fin x =>
      by_cases h : x = 0
      · have h' : (Num.fin x).isZero := h
        simp [h]
        exact fun h0 => absurd rfl h0
      · have h' : ¬(Num.fin x).isZero := h
        simp [h, h', Num.inv]
    | inf => simp [Num.isZero, Num.inv]
    | neginf => simp [Num.isZero, Num.inv]
    | nan => simp [Num.isZero, Num.inv]

/-- The curvature of a line. -/
noncomputable def oCurv (l : OLine) : Option Num :=
  if l.1 = .rd then l.2.head?.map fun t => curvatureSpec (env.float t) else none

/-- The conic constant of a line. -/
def oConic (l : OLine) : Option (Option Num) :=
  if l.1 = .cc then l.2.head?.map env.float else none

/-- The thickness of a line: zero if it is no number. -/
def oThick (l : OLine) : Option Num :=
  if l.1 = .th then l.2.head?.map fun t => (env.float t).getD (.fin 0) else none

/-- The material of a line: air for unknown glasses. -/
def oMat (l : OLine) : Option M :=
  if l.1 = .gla then
    l.2.head?.bind fun t =>
      match env.make (glassMap (t.map Char.toUpper)) with
      | .ok m => some m
      | .error .key => some env.air
      | .error _ => none
  else none

/-- The aspheric coefficient `i` in a line: `ASP` sets all to zero, `AS1`, `AS2`, ... one of them. -/
def oCoef (i : ℕ) (l : OLine) : Option (Option Num) :=
  match l.1 with
  | .asp => some (some (.fin 0))
  | .asN (some d) => if i = d.toNat - 48 + 1 then l.2.head?.map env.float else none
  | _ => none

theorem olcStep_spec (s s' : OState M) (l : OLine) (hl : l.1 ≠ .nxt)
    (h : olcStep env glassMap s l.1 l.2 = .ok s') :
    s'.done = s.done ∧ s'.cur.distance = s.cur.distance ∧
    s'.th = ((oThick env l).map some).getD s.th ∧
    s'.cur.curvature = (oCurv env l).getD s.cur.curvature ∧
    s'.cur.radius = s.cur.radius ∧
    s'.cur.conic = (oConic env l).getD s.cur.conic ∧
    s'.cur.material = ((oMat env glassMap l).map some).getD s.cur.material ∧
    ∀ i, s'.cur.coef i = (oCoef env i l).getD (s.cur.coef i) := by
  obtain ⟨c, args⟩ := l
  simp only at h hl
  cases c with
  | nxt => exact absurd rfl hl
  | skip => cases h; simp [oThick, oCurv, oConic, oMat, oCoef]
  | other => cases h; simp [oThick, oCurv, oConic, oMat, oCoef]
  | rd =>
    obtain ⟨t, ht, rfl⟩ := map_ok.mp h
    rw [first_ok] at ht
    simp [oThick, oCurv, oConic, oMat, oCoef, ht, curvatureOf_spec, Surf.coef]
  | th =>
    obtain ⟨t, ht, rfl⟩ := map_ok.mp h
    rw [first_ok] at ht
    simp [oThick, oCurv, oConic, oMat, oCoef, ht]
  | cc =>
    obtain ⟨t, ht, rfl⟩ := map_ok.mp h
    rw [first_ok] at ht
    simp [oThick, oCurv, oConic, oMat, oCoef, ht, Surf.coef]
  | gla =>
    obtain ⟨t, ht, h⟩ := bind_ok.mp h
    obtain ⟨m, hm, rfl⟩ := map_ok.mp h
    rw [first_ok] at ht
    have hz : oMat env glassMap (.gla, args) = some m := by
      unfold oMat
      simp only [if_true, ht, Option.bind_some]
      unfold glaOlc at hm
      cases hk : env.make (glassMap (t.map Char.toUpper)) with
      | ok m' => rw [hk] at hm; cases hm; rfl
      | error e =>
        rw [hk] at hm
        cases e with
        | key => cases hm; rfl
        | _ => cases hm
    rw [hz]
    simp [oThick, oCurv, oConic, oCoef, Surf.coef]
  | asp =>
    obtain ⟨t, ht, h⟩ := bind_ok.mp h
    split at h
    · obtain ⟨n, hn, h⟩ := bind_ok.mp h
      obtain ⟨k, hk, rfl⟩ := map_ok.mp h
      simp only [oThick, oCurv, oConic, oMat, oCoef, reduceCtorEq, if_false, Option.map_none,
        Option.getD_none, Option.getD_some, true_and]
      intro i
      unfold Surf.coef
      simp only [Option.getD_some, List.getElem?_replicate]
      split <;> rfl
    · cases h
  | asN d =>
    unfold olcStep at h
    cases d with
    | none => cases h
    | some d =>
      simp only at h
      split at h
      · obtain ⟨t, ht, h⟩ := bind_ok.mp h
        obtain ⟨e, he, rfl⟩ := map_ok.mp h
        rw [first_ok] at ht
        unfold assignAspheric at he
        cases ha : s.cur.aspherics with
        | none => rw [ha] at he; cases he
        | some a =>
          rw [ha] at he
          simp only at he
          split at he
          · rename_i hlt
            cases he
            simp only [oThick, oCurv, oConic, oMat, oCoef, reduceCtorEq, if_false, Option.map_none,
              Option.getD_none, true_and]
            intro i
            unfold Surf.coef
            simp only [Option.getD_some, ha, ht, Option.map_some]
            by_cases hi : i = d.toNat - 48 + 1
            · subst hi
              rw [if_pos rfl, List.getElem?_set_self hlt]
              rfl
            · rw [if_neg hi, List.getElem?_set_ne (fun h => hi h.symm)]
              rfl
          · cases he
      · cases h

/-- The number of surfaces that are finished. -/
def nexts (ls : List OLine) : ℕ := ls.countP fun l => l.1 = .nxt

theorem olcRun_done (ls : List OLine) (s s' : OState M) (h : olcRun env glassMap ls s = .ok s') :
    ∃ t, s'.done = s.done ++ t ∧ t.length = nexts ls := by
  induction ls generalizing s with
  | nil =>
    obtain rfl : s = s' := Except.ok.inj h
    exact ⟨[], by simp, rfl⟩
  | cons l ls ih =>
    obtain ⟨u, h1, h2⟩ := bind_ok.mp h
    obtain ⟨t, ht, hlen⟩ := ih u h2
    by_cases hl : l.1 = .nxt
    · rw [hl] at h1
      unfold olcStep at h1
      simp only at h1
      cases hth : s.th with
      | none => rw [hth] at h1; cases h1
      | some th =>
        rw [hth] at h1
        cases h1
        exact ⟨s.cur :: t, by rw [ht]; simp, by simp [nexts, hl] at hlen ⊢; exact hlen⟩
    · have := (olcStep_spec env glassMap s u l hl h1).1
      exact ⟨t, by rw [ht, this], by simp [nexts, hl] at hlen ⊢; exact hlen⟩

/-- What the reader knows of an element from the lines of its record. -/
structure OElem (block : List OLine) (distance : Num) (material : Option M) (e : Surf M) : Prop where
  distance : e.distance = distance
  curvature : e.curvature = (last (oCurv env) block).getD (.fin 0)
  conic : e.conic = (last (oConic env) block).getD (some (.fin 0))
  material : e.material = ((last (oMat env glassMap) block).map some).getD material
  radius : e.radius = .inf
  aspherics : ∀ i, e.coef i = (last (oCoef env i) block).getD (some (.fin 0))

theorem olc_block (s s' : OState M) (block : List OLine) (hb : ∀ l ∈ block, l.1 ≠ .nxt)
    (hs : s.cur = { distance := s.cur.distance, material := s.cur.material })
    (h : olcRun env glassMap block s = .ok s') :
    s'.done = s.done ∧ OElem env glassMap block s.cur.distance s.cur.material s'.cur := by
  rw [olcRun_eq] at h
  have key := fun {α : Type} (g : OState M → α) (f : OLine → Option α) hstep =>
    runL_field (fun s l => olcStep env glassMap s l.1 l.2) g f (fun l => l.1 ≠ .nxt) hstep block s s'
      hb h
  have inv := fun {α : Type} (g : OState M → α) hstep =>
    runL_inv (fun s l => olcStep env glassMap s l.1 l.2) (fun a b : OState M => g b = g a)
      (fun _ => rfl) (fun a b c h1 h2 => h2.trans h1) (fun l : OLine => l.1 ≠ .nxt) hstep block s s'
      hb h
  refine ⟨?_, ?_, ?_, ?_, ?_, ?_, ?_⟩
  · exact inv (fun s => s.done) fun l s s' hl h => (olcStep_spec env glassMap s s' l hl h).1
  · exact inv (fun s => s.cur.distance) fun l s s' hl h =>
      (olcStep_spec env glassMap s s' l hl h).2.1
  · rw [key (fun s => s.cur.curvature) (oCurv env)
      fun l s s' hl h => (olcStep_spec env glassMap s s' l hl h).2.2.2.1, hs]
  · rw [key (fun s => s.cur.conic) (oConic env)
      fun l s s' hl h => (olcStep_spec env glassMap s s' l hl h).2.2.2.2.2.1, hs]
  · rw [key (fun s => s.cur.material) (fun l => (oMat env glassMap l).map some)
      fun l s s' hl h => (olcStep_spec env glassMap s s' l hl h).2.2.2.2.2.2.1, last_map]
  · have := inv (fun s => s.cur.radius) fun l s s' hl h =>
      (olcStep_spec env glassMap s s' l hl h).2.2.2.2.1
    rw [this, hs]
  · intro i
    rw [key (fun s => s.cur.coef i) (oCoef env i)
      fun l s s' hl h => (olcStep_spec env glassMap s s' l hl h).2.2.2.2.2.2.2 i, hs]
    rfl

/-- The commands of a text. -/
def oLines (dat : Text) : List OLine := (dat.splitOn ';').filterMap olcCommand

theorem olc_after (post : List OLine) (s3 s' : OState M) (hp : ∀ l ∈ post.head?, l.1 = .nxt)
    (h4 : olcRun env glassMap post s3 = .ok s') :
    ∃ u, s'.done ++ [s'.cur] = s3.done ++ (s3.cur :: u) := by
  cases post with
  | nil =>
    obtain rfl : s3 = s' := Except.ok.inj h4
    exact ⟨[], rfl⟩
  | cons l post =>
    obtain ⟨s4, h5, h6⟩ := bind_ok.mp h4
    have hl : l.1 = .nxt := hp l rfl
    rw [hl] at h5
    unfold olcStep at h5
    simp only at h5
    cases hth : s3.th with
    | none => rw [hth] at h5; cases h5
    | some th =>
      rw [hth] at h5
      cases h5
      obtain ⟨u, hu, -⟩ := olcRun_done env glassMap post _ _ h6
      exact ⟨u ++ [s'.cur], by rw [hu]; simp⟩

/-- C60: every record of an OSLO catalogue lens gives one element with the values of the record, at the
distance given by the last thickness of the records before. -/
theorem c60_olc (dat : Text) (sys : Sys M) (pre block post : List OLine) (a : List Text)
    (hd : oLines dat = pre ++ (.nxt, a) :: (block ++ post)) (hb : ∀ l ∈ block, l.1 ≠ .nxt)
    (hp : ∀ l ∈ post.head?, l.1 = .nxt) (h : olc env glassMap dat = .ok sys) :
    ∃ e d, sys.elements[nexts pre + 1]? = some e ∧ last (oThick env) pre = some d ∧
      OElem env glassMap block d (some env.air) e := by
  obtain ⟨s', hrun, rfl⟩ := map_ok.mp h
  change olcRun env glassMap (oLines dat) _ = _ at hrun
  rw [hd, olcRun_eq] at hrun
  obtain ⟨s1, h1, hrun⟩ := (runL_append_ok _ _ _ _ _).mp hrun
  obtain ⟨s2, h2, hrun⟩ := (runL_cons_ok _ _ _ _ _).mp hrun
  obtain ⟨s3, h3, h4⟩ := (runL_append_ok _ _ _ _ _).mp hrun
  have hth : s1.th = last (oThick env) pre := by
    have := runL_field (fun s l => olcStep env glassMap s l.1 l.2) (fun s : OState M => s.th)
      (fun l => (oThick env l).map some) (fun _ => True) (fun l s s' _ h => ?_) pre _ _
      (fun _ _ => trivial) h1
    · rw [last_map] at this
      rw [this]
      cases last (oThick env) pre <;> rfl
    · by_cases hl : l.1 = .nxt
      · rw [hl] at h
        unfold olcStep at h
        simp only at h
        cases hth : s.th with
        | none => rw [hth] at h; cases h
        | some th =>
          rw [hth] at h
          cases h
          simp [oThick, hl]
      · exact (olcStep_spec env glassMap s s' l hl h).2.2.1
  rw [← olcRun_eq] at h1 h3 h4
  unfold olcStep at h2
  simp only at h2
  cases hd1 : s1.th with
  | none => rw [hd1] at h2; cases h2
  | some d =>
    rw [hd1] at h2
    cases h2
    obtain ⟨t, ht, htl⟩ := olcRun_done env glassMap pre _ _ h1
    obtain ⟨hd3, he⟩ := olc_block env glassMap _ s3 block hb rfl h3
    refine ⟨s3.cur, d, ?_, by rw [← hth, hd1], he⟩
    have hlen : (s1.done ++ [s1.cur]).length = nexts pre + 1 := by
      rw [ht, ← htl]
      simp
    obtain ⟨u, hu⟩ := olc_after env glassMap post s3 s' hp h4
    simp only
    rw [hu, hd3, List.getElem?_append_right (by simp only; omega)]
    simp only [hlen]
    simp

/-- C60: the first element comes from the commands before the first `NXT`; it has no material unless one
is given. -/
theorem c60_olc_first (dat : Text) (sys : Sys M) (block post : List OLine)
    (hd : oLines dat = block ++ post) (hb : ∀ l ∈ block, l.1 ≠ .nxt)
    (hp : ∀ l ∈ post.head?, l.1 = .nxt) (h : olc env glassMap dat = .ok sys) :
    ∃ e, sys.elements[0]? = some e ∧ OElem env glassMap block (.fin 0) none e := by
  obtain ⟨s', hrun, rfl⟩ := map_ok.mp h
  change olcRun env glassMap (oLines dat) _ = _ at hrun
  rw [hd, olcRun_eq] at hrun
  obtain ⟨s3, h3, h4⟩ := (runL_append_ok _ _ _ _ _).mp hrun
  rw [← olcRun_eq] at h3 h4
  obtain ⟨hd3, he⟩ := olc_block env glassMap _ s3 block hb rfl h3
  refine ⟨s3.cur, ?_, he⟩
  obtain ⟨u, hu⟩ := olc_after env glassMap post s3 s' hp h4
  simp only
  rw [hu, hd3]
  rfl

/-- C60: one element per record. -/
theorem c60_olc_count (dat : Text) (sys : Sys M) (h : olc env glassMap dat = .ok sys) :
    sys.elements.length = nexts (oLines dat) + 1 := by
  obtain ⟨s', hrun, rfl⟩ := map_ok.mp h
  obtain ⟨t, ht, htl⟩ := olcRun_done env glassMap _ _ _ hrun
  simp only [List.length_append, List.length_singleton, ht, htl]
  simp [oLines]

theorem runL_error {S L : Type} (step : S → L → Except Err S) (a b : List L) (l : L) (s t : S)
    (e : Err) (h1 : runL step a s = .ok t) (h2 : step t l = .error e) :
    runL step (a ++ l :: b) s = .error e := by
  induction a generalizing s with
  | nil =>
    obtain rfl : s = t := Except.ok.inj h1
    change (step s l).bind _ = _
    rw [h2]
    rfl
  | cons x a ih =>
    obtain ⟨u, h3, h4⟩ := (runL_cons_ok _ _ _ _ _).mp h1
    rw [List.cons_append]
    change (step s x).bind _ = _
    rw [h3]
    exact ih u h4

/-- C60: a record without a thickness before it raises an exception instead of using zero. -/
theorem c60_olc_unbound_violation (dat : Text) (pre post : List OLine) (a : List Text) (s1 : OState M)
    (hd : oLines dat = pre ++ (.nxt, a) :: post)
    (h1 : olcRun env glassMap pre ⟨[], {}, none⟩ = .ok s1) (hn : ∀ l ∈ pre, l.1 ≠ .th)
    (hx : ∀ l ∈ pre, l.1 ≠ .nxt) : olc env glassMap dat = .error .unbound := by
  have hth : s1.th = none := by
    rw [olcRun_eq] at h1
    refine runL_inv (fun s l => olcStep env glassMap s l.1 l.2) (fun a b : OState M => b.th = a.th)
      (fun _ => rfl) (fun a b c h1 h2 => h2.trans h1) (fun l => l.1 ≠ .th ∧ l.1 ≠ .nxt)
      (fun l s s' hl h => ?_) pre _ _ (fun l hl => ⟨hn l hl, hx l hl⟩) h1
    rw [(olcStep_spec env glassMap s s' l hl.2 h).2.2.1]
    simp [oThick, hl.1]
  unfold olc
  have : olcRun env glassMap ((dat.splitOn ';').filterMap olcCommand) ⟨[], {}, none⟩ =
      .error .unbound := by
    change olcRun env glassMap (oLines dat) _ = _
    rw [hd, olcRun_eq]
    refine runL_error _ pre post _ _ s1 _ (by rw [← olcRun_eq]; exact h1) ?_
    simp [olcStep, hth]
  rw [this]
  rfl

/-- C60: the command of an aperture stop, `AST`, is taken for an aspheric coefficient and raises
`ValueError`. -/
theorem c60_olc_stop_violation (s : OState M) (args : List Text) :
    OCmd.of ['A', 'S', 'T'] = .asN (some 'T') ∧
      olcStep env glassMap s (.asN (some 'T')) args = .error .value := by
  refine ⟨by decide, ?_⟩
  have : ('T' : Char).isDigit = false := by decide
  simp [olcStep, this]

/-- C60: the commands of a text made of commands of words. -/
theorem c60_olc_text (cs : List (Text × List Text))
    (h : ∀ c ∈ cs, ∀ w ∈ c.1 :: c.2, Word w ∧ ';' ∉ w) :
    oLines (cs.flatMap fun c => joinWords (c.1 :: c.2) ++ [';']) =
      cs.map fun c => (OCmd.of c.1, c.2) := by
  induction cs with
  | nil => decide
  | cons c cs ih =>
    have hc := h c List.mem_cons_self
    have hn : ';' ∉ joinWords (c.1 :: c.2) := by
      generalize c.1 :: c.2 = ws at hc
      induction ws with
      | nil => simp [joinWords]
      | cons w ws ihw =>
        have h1 := (hc w List.mem_cons_self).2
        have h2 := ihw fun x hx => hc x (List.mem_cons_of_mem _ hx)
        cases ws with
        | nil => simpa [joinWords] using h1
        | cons v ws =>
          have : joinWords (w :: v :: ws) = w ++ ' ' :: joinWords (v :: ws) := by
            simp [joinWords, List.intercalate_cons_cons]
          rw [this]
          simp [h1, h2]
    unfold oLines at ih ⊢
    rw [List.flatMap_cons, List.append_assoc, List.singleton_append,
      List.splitOn_append_cons_self_of_not_mem hn, List.filterMap_cons]
    have : olcCommand (joinWords (c.1 :: c.2)) = some (OCmd.of c.1, c.2) := by
      unfold olcCommand
      rw [tokens_joinWords _ fun w hw => (hc w hw).1]
    rw [this, ih fun x hx => h x (List.mem_cons_of_mem _ hx)]
    rfl

/-! ### Lens files -/

/-- A line of words. -/
abbrev LLine := LCmd × List Text

theorem lenRun_eq (ls : List LLine) (s : LState M) :
    lenRun env ls s = runL (fun s l => lenStep env s l.1 l.2) ls s := by
  induction ls generalizing s with
  | nil => rfl
  | cons l ls ih =>
    unfold lenRun runL
    congr 1
    funext t
    exact ih t

/-- The curvature of a line. -/
noncomputable def lCurv (l : LLine) : Option Num :=
  if l.1 = .rd then (l.2.head?.bind env.float).map fun r => curvatureSpec (some r) else none

/-- The radius of a line, after an optional `CHK`. -/
def lRadius (l : LLine) : Option Num :=
  if l.1 = .ap then
    (if l.2.head? = some ['C', 'H', 'K'] then l.2[1]? else l.2.head?).bind env.float
  else none

/-- The material of a line. -/
def lMat (l : LLine) : Option M :=
  match l.1 with
  | .air => some env.air
  | .gla => l.2.head?.bind fun t => (env.make t).toOption
  | _ => none

open Classical in
/-- The thickness of a line; what is longer than 100 is infinite. -/
noncomputable def lThick (l : LLine) : Option Num :=
  if l.1 = .th then (l.2.head?.bind env.float).map fun x =>
    match x with
    | .fin x => if 100 < x then .inf else .fin x
    | x => x
  else none

theorem lenStep_spec (s s' : LState M) (l : LLine) (hl : l.1 ≠ .nxt)
    (h : lenStep env s l.1 l.2 = .ok s') :
    s'.done = s.done ∧ s'.cur.distance = s.cur.distance ∧ s'.th = (lThick env l).getD s.th ∧
    s'.cur.curvature = (lCurv env l).getD s.cur.curvature ∧
    s'.cur.radius = (lRadius env l).getD s.cur.radius ∧
    s'.cur.material = ((lMat env l).map some).getD s.cur.material ∧
    s'.cur.conic = s.cur.conic ∧ s'.cur.aspherics = s.cur.aspherics := by
  obtain ⟨c, args⟩ := l
  simp only at h hl
  cases c with
  | nxt => exact absurd rfl hl
  | len => cases h; simp [lThick, lCurv, lRadius, lMat]
  | other => cases h; simp [lThick, lCurv, lRadius, lMat]
  | ast => cases h; simp [lThick, lCurv, lRadius, lMat]
  | air => cases h; simp [lThick, lCurv, lRadius, lMat]
  | uni =>
    obtain ⟨t, ht, h⟩ := bind_ok.mp h
    obtain ⟨x, hx, rfl⟩ := map_ok.mp h
    simp [lThick, lCurv, lRadius, lMat]
  | th =>
    obtain ⟨t, ht, h⟩ := bind_ok.mp h
    obtain ⟨x, hx, rfl⟩ := map_ok.mp h
    rw [first_ok] at ht
    rw [toFloat_ok] at hx
    simp only [lThick, lCurv, lRadius, lMat, ht, hx, if_true, reduceCtorEq, if_false,
      Option.getD_none, Option.map_none, Option.bind_some, Option.map_some, Option.getD_some,
      true_and, and_true, clampTh]
    cases x with
    | fin x =>
      by_cases h' : 100 < x
      · rw [if_pos (show (Num.fin x).large from h')]
        exact (if_pos h').symm
      · rw [if_neg (show ¬(Num.fin x).large from h')]
        exact (if_neg h').symm
    | inf => simp [Num.large]
    | neginf => simp [Num.large]
    | nan => simp [Num.large]
  | ap =>
    obtain ⟨t, ht, h⟩ := bind_ok.mp h
    obtain ⟨u, hu, h⟩ := bind_ok.mp h
    obtain ⟨x, hx, rfl⟩ := map_ok.mp h
    rw [first_ok] at ht hu
    rw [toFloat_ok] at hx
    simp only [lThick, lCurv, lRadius, lMat, if_true, reduceCtorEq, if_false,
      Option.getD_none, Option.map_none, true_and, and_true]
    by_cases hc : t = ['C', 'H', 'K']
    · rw [if_pos hc] at hu
      rw [if_pos (by rw [ht, hc])]
      rw [List.head?_drop] at hu
      rw [hu]
      simp [hx]
    · rw [if_neg hc] at hu
      rw [if_neg (by rw [ht]; simpa using hc), hu]
      simp [hx]
  | gla =>
    obtain ⟨t, ht, h⟩ := bind_ok.mp h
    obtain ⟨m, hm, rfl⟩ := map_ok.mp h
    rw [first_ok] at ht
    simp [lThick, lCurv, lRadius, lMat, ht, hm, Except.toOption]
  | rd =>
    obtain ⟨t, ht, h⟩ := bind_ok.mp h
    obtain ⟨x, hx, rfl⟩ := map_ok.mp h
    rw [first_ok] at ht
    obtain ⟨r, hr, hx⟩ := bind_ok.mp hx
    rw [toFloat_ok] at hr
    have : x = curvatureSpec (some r) := by
      unfold curvatureSpec
      cases r with
      | fin r =>
        simp only [Num.inv] at hx ⊢
        by_cases h0 : r = 0
        · rw [if_pos h0] at hx; cases hx
        · rw [if_neg h0] at hx
          rw [if_neg h0]
          exact (Except.ok.inj hx).symm
      | _ => exact (Except.ok.inj hx).symm
    subst this
    simp [lThick, lCurv, lRadius, lMat, ht, hr]

/-- The number of surfaces. -/
def ends (ls : List LLine) : ℕ := ls.countP fun l => l.1 = .nxt

theorem lenRun_done (ls : List LLine) (s s' : LState M) (h : lenRun env ls s = .ok s') :
    ∃ t, s'.done = s.done ++ t ∧ t.length = ends ls := by
  induction ls generalizing s with
  | nil =>
    obtain rfl : s = s' := Except.ok.inj h
    exact ⟨[], by simp, rfl⟩
  | cons l ls ih =>
    obtain ⟨u, h1, h2⟩ := bind_ok.mp h
    obtain ⟨t, ht, hlen⟩ := ih u h2
    by_cases hl : l.1 = .nxt
    · rw [hl] at h1
      cases h1
      exact ⟨s.cur :: t, by rw [ht]; simp, by simp [ends, hl] at hlen ⊢; exact hlen⟩
    · have := (lenStep_spec env s u l hl h1).1
      exact ⟨t, by rw [ht, this], by simp [ends, hl] at hlen ⊢; exact hlen⟩

/-- What the reader knows of an element from the lines of its record. -/
structure LElem (block : List LLine) (distance : Num) (e : Surf M) : Prop where
  distance : e.distance = distance
  curvature : e.curvature = (last (lCurv env) block).getD (.fin 0)
  radius : e.radius = (last (lRadius env) block).getD .inf
  material : e.material = last (lMat env) block
  conic : e.conic = some (.fin 0)
  aspherics : e.aspherics = none

theorem len_block (s s' : LState M) (block : List LLine) (hb : ∀ l ∈ block, l.1 ≠ .nxt)
    (hs : s.cur = { distance := s.cur.distance }) (h : lenRun env block s = .ok s') :
    s'.done = s.done ∧ LElem env block s.cur.distance s'.cur := by
  rw [lenRun_eq] at h
  have key := fun {α : Type} (g : LState M → α) (f : LLine → Option α) hstep =>
    runL_field (fun s l => lenStep env s l.1 l.2) g f (fun l => l.1 ≠ .nxt) hstep block s s'
      hb h
  have inv := fun {α : Type} (g : LState M → α) hstep =>
    runL_inv (fun s l => lenStep env s l.1 l.2) (fun a b : LState M => g b = g a)
      (fun _ => rfl) (fun a b c h1 h2 => h2.trans h1) (fun l : LLine => l.1 ≠ .nxt) hstep block s s'
      hb h
  refine ⟨?_, ?_, ?_, ?_, ?_, ?_, ?_⟩
  · exact inv (fun s => s.done) fun l s s' hl h => (lenStep_spec env s s' l hl h).1
  · exact inv (fun s => s.cur.distance) fun l s s' hl h => (lenStep_spec env s s' l hl h).2.1
  · rw [key (fun s => s.cur.curvature) (lCurv env)
      fun l s s' hl h => (lenStep_spec env s s' l hl h).2.2.2.1, hs]
  · rw [key (fun s => s.cur.radius) (lRadius env)
      fun l s s' hl h => (lenStep_spec env s s' l hl h).2.2.2.2.1, hs]
  · rw [key (fun s => s.cur.material) (fun l => (lMat env l).map some)
      fun l s s' hl h => (lenStep_spec env s s' l hl h).2.2.2.2.2.1, last_map, hs]
    cases last (lMat env) block <;> rfl
  · have := inv (fun s => s.cur.conic) fun l s s' hl h =>
      (lenStep_spec env s s' l hl h).2.2.2.2.2.2.1
    rw [this, hs]
  · have := inv (fun s => s.cur.aspherics) fun l s s' hl h =>
      (lenStep_spec env s s' l hl h).2.2.2.2.2.2.2
    rw [this, hs]

/-- The lines of a text. -/
def lLines (dat : Text) : List LLine := (dat.splitOn '\n').filterMap lenLine

/-- C60: every record of an OSLO file that is finished by `NXT` or `END` gives one element with the
values of the record, at the distance given by the last thickness of the records before. -/
theorem c60_len (dat : Text) (els : List (Surf M)) (scale : Num) (desc : Text)
    (pre block post : List LLine) (a b : List Text)
    (hd : lLines dat = pre ++ (.nxt, a) :: (block ++ (.nxt, b) :: post))
    (hb : ∀ l ∈ block, l.1 ≠ .nxt) (h : len env dat = .ok (els, scale, desc)) :
    ∃ e, els[ends pre + 1]? = some e ∧
      LElem env block ((last (lThick env) pre).getD (.fin 0)) e := by
  obtain ⟨s', hrun, hs'⟩ := map_ok.mp h
  cases hs'
  change lenRun env (lLines dat) _ = _ at hrun
  rw [hd, lenRun_eq] at hrun
  obtain ⟨s1, h1, hrun⟩ := (runL_append_ok _ _ _ _ _).mp hrun
  obtain ⟨s2, h2, hrun⟩ := (runL_cons_ok _ _ _ _ _).mp hrun
  obtain ⟨s3, h3, h4⟩ := (runL_append_ok _ _ _ _ _).mp hrun
  obtain ⟨s4, h5, h6⟩ := (runL_cons_ok _ _ _ _ _).mp h4
  have hth : s1.th = (last (lThick env) pre).getD (.fin 0) := by
    refine runL_field (fun s l => lenStep env s l.1 l.2) (fun s : LState M => s.th) (lThick env)
      (fun _ => True) (fun l s s' _ h => ?_) pre _ _ (fun _ _ => trivial) h1
    by_cases hl : l.1 = .nxt
    · rw [hl] at h
      cases h
      simp [lThick, hl]
    · exact (lenStep_spec env s s' l hl h).2.2.1
  rw [← lenRun_eq] at h1 h3 h6
  cases h2
  cases h5
  obtain ⟨t, ht, htl⟩ := lenRun_done env pre _ _ h1
  obtain ⟨hd3, he⟩ := len_block env _ s3 block hb rfl h3
  obtain ⟨u, hu, -⟩ := lenRun_done env post _ _ h6
  refine ⟨s3.cur, ?_, by rw [← hth]; exact he⟩
  have hlen : (s1.done ++ [s1.cur]).length = ends pre + 1 := by
    rw [ht, ← htl]
    simp [lenInit]
  rw [hu, hd3, List.append_assoc, List.getElem?_append_right (by simp only at hlen ⊢; omega)]
  simp only [hlen]
  simp

/-- C60: the first element of an OSLO file. -/
theorem c60_len_first (dat : Text) (els : List (Surf M)) (scale : Num) (desc : Text)
    (block post : List LLine) (b : List Text) (hd : lLines dat = block ++ (.nxt, b) :: post)
    (hb : ∀ l ∈ block, l.1 ≠ .nxt) (h : len env dat = .ok (els, scale, desc)) :
    ∃ e, els[0]? = some e ∧ LElem env block (.fin 0) e := by
  obtain ⟨s', hrun, hs'⟩ := map_ok.mp h
  cases hs'
  change lenRun env (lLines dat) _ = _ at hrun
  rw [hd, lenRun_eq] at hrun
  obtain ⟨s3, h3, h4⟩ := (runL_append_ok _ _ _ _ _).mp hrun
  obtain ⟨s4, h5, h6⟩ := (runL_cons_ok _ _ _ _ _).mp h4
  rw [← lenRun_eq] at h3 h6
  cases h5
  obtain ⟨hd3, he⟩ := len_block env _ s3 block hb rfl h3
  obtain ⟨u, hu, -⟩ := lenRun_done env post _ _ h6
  exact ⟨s3.cur, by rw [hu, hd3]; rfl, he⟩

/-- C60: one element per `NXT` or `END`. -/
theorem c60_len_count (dat : Text) (els : List (Surf M)) (scale : Num) (desc : Text)
    (h : len env dat = .ok (els, scale, desc)) : els.length = ends (lLines dat) := by
  obtain ⟨s', hrun, hs'⟩ := map_ok.mp h
  cases hs'
  obtain ⟨t, ht, htl⟩ := lenRun_done env _ _ _ hrun
  rw [ht, List.length_append, htl]
  simp [lenInit, lLines]

/-- A line without errors. -/
def LGood (l : LLine) : Prop :=
  match l.1 with
  | .uni | .th => ∃ t, l.2.head? = some t ∧ env.float t ≠ none
  | .rd => ∃ t x, l.2.head? = some t ∧ env.float t = some x ∧ x ≠ .fin 0
  | .ap => ∃ t u x, l.2.head? = some t ∧ env.float u = some x ∧
      (t ≠ ['C', 'H', 'K'] ∧ u = t ∨ t = ['C', 'H', 'K'] ∧ l.2[1]? = some u)
  | .gla => ∃ t m, l.2.head? = some t ∧ env.make t = .ok m
  | _ => True

theorem bind_total {α β : Type} {f : α → Except Err β} {x : Except Err α} :
    (∃ b, x.bind f = .ok b) ↔ ∃ a, x = .ok a ∧ ∃ b, f a = .ok b := by
  cases x <;> simp [Except.bind]

theorem toFloat_total {t : Text} : (∃ x, toFloat env t = .ok x) ↔ env.float t ≠ none := by
  simp only [toFloat_ok]
  exact Option.ne_none_iff_exists'.symm

theorem lenStep_total (l : LLine) (s : LState M) :
    (∃ s', lenStep env s l.1 l.2 = .ok s') ↔ LGood env l := by
  obtain ⟨c, args⟩ := l
  cases c with
  | nxt => simp [lenStep, LGood]
  | len => simp [lenStep, LGood]
  | other => simp [lenStep, LGood]
  | ast => simp [lenStep, LGood]
  | air => simp [lenStep, LGood]
  | uni =>
    refine bind_total.trans ?_
    simp only [map_total, toFloat_total, first_ok, LGood]
  | th =>
    refine bind_total.trans ?_
    simp only [map_total, toFloat_total, first_ok, LGood]
  | gla =>
    refine bind_total.trans ?_
    simp only [map_total, first_ok, LGood, exists_and_left]
  | rd =>
    refine bind_total.trans ?_
    simp only [map_total, first_ok, LGood, exists_and_left, invFloat, bind_total, toFloat_ok]
    refine exists_congr fun t => and_congr_right fun _ => exists_congr fun x =>
      and_congr_right fun _ => ?_
    cases x with
    | fin x =>
      by_cases h : x = 0
      · simp [Num.inv, h]
      · simp [Num.inv, h]
    | _ => simp [Num.inv]
  | ap =>
    refine bind_total.trans ?_
    simp only [map_total, first_ok, LGood, exists_and_left, bind_total, toFloat_ok]
    refine exists_congr fun t => and_congr_right fun ht => ?_
    by_cases hc : t = ['C', 'H', 'K']
    · simp only [hc, if_true, List.head?_drop, ne_eq, not_true_eq_false, false_and, true_and,
        false_or]
      constructor
      · rintro ⟨u, h1, x, h2⟩
        exact ⟨u, x, h2, h1⟩
      · rintro ⟨u, x, h2, h1⟩
        exact ⟨u, h1, x, h2⟩
    · simp only [hc, if_false, ht, ne_eq, not_false_eq_true, true_and, false_and, or_false]
      constructor
      · rintro ⟨u, h1, x, h2⟩
        exact ⟨u, x, h2, (Option.some.inj h1).symm⟩
      · rintro ⟨u, x, h2, rfl⟩
        exact ⟨u, rfl, x, h2⟩

/-- C60: an OSLO file is read without an exception if and only if every line is well formed by itself;
radii must not be zero and glasses must be known. -/
theorem c60_len_total (dat : Text) :
    (∃ r, len env dat = .ok r) ↔ ∀ l ∈ lLines dat, LGood env l := by
  unfold len
  refine map_total.trans ?_
  simp only [lenRun_eq]
  exact runL_total _ (LGood env) (fun l s => lenStep_total env l s) _ _

/-- C60: the lines of a text made of lines of words. -/
theorem c60_len_text (cs : List (Text × List Text)) (h : ∀ c ∈ cs, ∀ w ∈ c.1 :: c.2, Word w) :
    lLines (cs.flatMap fun c => joinWords (c.1 :: c.2) ++ ['\n']) =
      cs.map fun c => (LCmd.of c.1, c.2) := by
  induction cs with
  | nil => decide
  | cons c cs ih =>
    have hc := h c List.mem_cons_self
    have hn : '\n' ∉ joinWords (c.1 :: c.2) := by
      generalize c.1 :: c.2 = ws at hc
      induction ws with
      | nil => simp [joinWords]
      | cons w ws ihw =>
        have h1 := word_line (hc w List.mem_cons_self)
        have h2 := ihw fun x hx => hc x (List.mem_cons_of_mem _ hx)
        cases ws with
        | nil => simpa [joinWords] using h1
        | cons v ws =>
          have : joinWords (w :: v :: ws) = w ++ ' ' :: joinWords (v :: ws) := by
            simp [joinWords, List.intercalate_cons_cons]
          rw [this]
          simp [h1, h2]
    unfold lLines at ih ⊢
    rw [List.flatMap_cons, List.append_assoc, List.singleton_append,
      List.splitOn_append_cons_self_of_not_mem hn, List.filterMap_cons]
    have : lenLine (joinWords (c.1 :: c.2)) = some (LCmd.of c.1, c.2) := by
      unfold lenLine
      rw [tokens_joinWords _ hc]
    rw [this, ih fun x hx => h x (List.mem_cons_of_mem _ hx)]
    rfl

/-- The commands of a catalogue lens: `RD 5; TH 5; GLA BK7; NXT; RD 0; TH 5; NXT`. -/
def olcSample : List (Text × List Text) :=
  [(['R', 'D'], [['5']]), (['T', 'H'], [['5']]), (['G', 'L', 'A'], [['B', 'K', '7']]),
   (['N', 'X', 'T'], []), (['R', 'D'], [['0']]), (['T', 'H'], [['0']]), (['N', 'X', 'T'], [])]

example : ∃ sys, olc testEnv id (olcSample.flatMap fun c => joinWords (c.1 :: c.2) ++ [';']) = .ok sys ∧
    sys.elements.length = 3 ∧ ∃ e, sys.elements[1]? = some e ∧ e.distance = .fin 5 ∧
      e.curvature = .fin 0 := by
  have hl := c60_olc_text olcSample (by unfold Word; decide)
  have hrun : ∃ sys, olc testEnv id (olcSample.flatMap fun c => joinWords (c.1 :: c.2) ++ [';']) =
      .ok sys := by
    unfold olc
    refine map_total.mpr ?_
    change ∃ s, olcRun testEnv id (oLines _) _ = .ok s
    rw [hl]
    have hb : (['B', 'K', '7'] : Text).map Char.toUpper = ['B', 'K', '7'] := by decide
    simp [olcSample, olcRun, olcStep, OCmd.of, first, Except.bind, Except.map, testEnv, glaOlc, hb]
  obtain ⟨sys, hsys⟩ := hrun
  refine ⟨sys, hsys, ?_, ?_⟩
  · rw [c60_olc_count testEnv id _ sys hsys, hl]
    decide
  · obtain ⟨e, d, h1, h2, h3⟩ := c60_olc testEnv id _ sys
      [(.rd, [['5']]), (.th, [['5']]), (.gla, [['B', 'K', '7']])]
      [(.rd, [['0']]), (.th, [['0']])] [(.nxt, [])] [] (by rw [hl]; decide) (by decide)
      (by simp) hsys
    refine ⟨e, h1, ?_, ?_⟩
    · rw [h3.distance]
      have : some d = some (.fin 5) := by
        rw [← h2]
        simp [last, oThick, testEnv]
      exact Option.some.inj this
    · rw [h3.curvature]
      simp [last, oCurv, testEnv, curvatureSpec]

/-- The lines of a lens file. -/
def lenSample : List (Text × List Text) :=
  [(['T', 'H'], [['1', '2', '0']]), (['N', 'X', 'T'], []), (['R', 'D'], [['5']]),
   (['A', 'P'], [['C', 'H', 'K'], ['5']]), (['T', 'H'], [['5']]), (['E', 'N', 'D'], [])]

/-- C60: in OSLO files every thickness above 100 is made infinite: an object 120 in front of the lens is
lost. -/
theorem c60_len_far_violation : ∃ els scale desc e,
    len testEnv (lenSample.flatMap fun c => joinWords (c.1 :: c.2) ++ ['\n']) =
      .ok (els, scale, desc) ∧ testEnv.float ['1', '2', '0'] = some (.fin 120) ∧
      els.length = 2 ∧ els[1]? = some e ∧ e.distance = .inf ∧ e.curvature = .fin (1 / 5) ∧
      e.radius = .fin 5 := by
  have hl := c60_len_text lenSample (by unfold Word; decide)
  have hrun : ∃ r, len testEnv (lenSample.flatMap fun c => joinWords (c.1 :: c.2) ++ ['\n']) =
      .ok r := by
    rw [c60_len_total, hl]
    simp [lenSample, LCmd.of, LGood, testEnv]
  obtain ⟨⟨els, scale, desc⟩, hr⟩ := hrun
  obtain ⟨e, h1, h2⟩ := c60_len testEnv _ els scale desc [(.th, [['1', '2', '0']])]
    [(.rd, [['5']]), (.ap, [['C', 'H', 'K'], ['5']]), (.th, [['5']])] [] [] [] (by rw [hl]; decide)
    (by decide) hr
  refine ⟨els, scale, desc, e, hr, by simp [testEnv], ?_, h1, ?_, ?_, ?_⟩
  · rw [c60_len_count testEnv _ _ _ _ hr, hl]
    decide
  · rw [h2.distance]
    have hf : testEnv.float ['1', '2', '0'] = some (.fin 120) := by simp [testEnv]
    norm_num [last, lThick, hf]
  · rw [h2.curvature]
    simp [last, lCurv, testEnv, curvatureSpec]
  · rw [h2.radius]
    simp [last, lRadius, testEnv]

/-- C60: a plane surface given by a radius zero makes the OSLO reader raise `ZeroDivisionError`. -/
theorem c60_len_plane_violation (s : LState M) (t : Text) (l : List Text)
    (h : env.float t = some (.fin 0)) : lenStep env s .rd (t :: l) = .error .zeroDivision := by
  simp [lenStep, first, Except.bind, invFloat, toFloat, h, Num.inv, Except.map]

end RayOpt.Parse
