import Verif.Model.Serial
import Verif.Lemmas.Symmetry
import Mathlib.Tactic

/-!
C53: the registry of types.  C73: `Material.make`.  C80: systems and their parts survive the round trip
through dictionaries, up to what the dictionaries leave out.
-/

namespace RayOpt.Serial

/-! ### The registry -/

section registry

variable {C : Type*}

theorem find_append (k : String × String) (t t' : Types C) :
    find k (t ++ t') = (find k t).or (find k t') := by
  induction t with
  | nil => rfl
  | cons p t ih =>
    obtain ⟨j, c⟩ := p
    simp only [List.cons_append, find]
    split
    · rfl
    · exact ih

theorem register_ok {t t' : Types C} {b : String} {c : ClassDef C} (h : register t b c = .ok t') :
    find (b, c.type) t = none ∧ t' = t ++ [((b, c.type), c.cls)] := by
  unfold register at h
  split at h
  · cases h
  · rename_i hn
    cases h
    exact ⟨hn, rfl⟩

theorem registerAll_cons {t t' : Types C} {b : String} {c : ClassDef C} {l : List (String × ClassDef C)}
    (h : registerAll t ((b, c) :: l) = .ok t') :
    ∃ t1, register t b c = .ok t1 ∧ registerAll t1 l = .ok t' := by
  unfold registerAll at h
  cases hr : register t b c with
  | error e => rw [hr] at h; cases h
  | ok t1 => rw [hr] at h; exact ⟨t1, rfl, h⟩

/-- C53: a registration never replaces a class that has been registered before. -/
theorem c53_kept (t t' : Types C) (l : List (String × ClassDef C)) (h : registerAll t l = .ok t')
    (k : String × String) (c : C) (hk : find k t = some c) : find k t' = some c := by
  induction l generalizing t with
  | nil => cases h; exact hk
  | cons p l ih =>
    obtain ⟨b, d⟩ := p
    obtain ⟨t1, h1, h2⟩ := registerAll_cons h
    obtain ⟨-, rfl⟩ := register_ok h1
    exact ih _ h2 (by rw [find_append, hk]; rfl)

/-- C53: after any history of registrations each registered class is found under its base class and
type: the `_type` of the class, or its name in lower case. -/
theorem c53_registered (t t' : Types C) (l : List (String × ClassDef C)) (h : registerAll t l = .ok t')
    (b : String) (c : ClassDef C) (hc : (b, c) ∈ l) : find (b, c.type) t' = some c.cls := by
  induction l generalizing t with
  | nil => cases hc
  | cons p l ih =>
    obtain ⟨b', d⟩ := p
    obtain ⟨t1, h1, h2⟩ := registerAll_cons h
    rcases List.mem_cons.mp hc with h3 | h3
    · cases h3
      obtain ⟨hn, rfl⟩ := register_ok h1
      refine c53_kept _ _ _ h2 _ _ ?_
      rw [find_append, hn]
      simp [find]
    · exact ih _ h2 h3

/-- C53: nothing else is found. -/
theorem c53_only (t t' : Types C) (l : List (String × ClassDef C)) (h : registerAll t l = .ok t')
    (k : String × String) (c : C) (hk : find k t' = some c) :
    find k t = some c ∨ ∃ d, (k.1, d) ∈ l ∧ d.type = k.2 ∧ d.cls = c := by
  induction l generalizing t with
  | nil => cases h; exact Or.inl hk
  | cons p l ih =>
    obtain ⟨b, d⟩ := p
    obtain ⟨t1, h1, h2⟩ := registerAll_cons h
    obtain ⟨hn, rfl⟩ := register_ok h1
    rcases ih _ h2 with h3 | ⟨e, he, h4⟩
    · rw [find_append] at h3
      cases hf : find k t with
      | some x => rw [hf] at h3; exact Or.inl h3
      | none =>
        rw [hf] at h3
        simp only [Option.none_or, find] at h3
        split at h3
        · rename_i hkk
          right
          refine ⟨d, ?_, ?_, Option.some.inj h3⟩
          · rw [← hkk]; exact List.mem_cons_self
          · rw [← hkk]
        · cases h3
    · exact Or.inr ⟨e, List.mem_cons_of_mem _ he, h4⟩

/-- C53: a second class with the same base class and type is refused with an `AssertionError`, and a new
type is always accepted. -/
theorem c53_conflict (t : Types C) (b : String) (c : ClassDef C) :
    ((find (b, c.type) t).isSome → register t b c = .error .assertion) ∧
    ((find (b, c.type) t).isNone → ∃ t', register t b c = .ok t') := by
  unfold register
  cases find (b, c.type) t <;> simp

/-- C53: the type of a class. -/
theorem c53_type (cls : C) (name typ : String) (inh : Option String) :
    (ClassDef.mk cls name (some typ) inh).type = typ ∧
    (ClassDef.mk cls name none none).type = name.toLower ∧
    (ClassDef.mk cls name none (some typ)).type = typ := ⟨rfl, rfl, rfl⟩

/-- C53, violation: a subclass of a registered class that sets no `_type` of its own inherits that of the
registered class: it cannot be registered, although its name is new. -/
theorem c53_inherited_violation (t t' : Types C) (b : String) (c : ClassDef C)
    (h : register t b c = .ok t') (sub : C) (name : String) :
    register t' b ⟨sub, name, none, some c.type⟩ = .error .assertion := by
  obtain ⟨hn, rfl⟩ := register_ok h
  refine (c53_conflict _ b _).1 ?_
  change (find (b, c.type) _).isSome
  rw [find_append, hn]
  simp [find]

/-- C53: `make` uses the class registered for the type of the dictionary and hands it all the other
entries. -/
theorem c53_select (t : Types C) (b dflt typ : String) (d : Dict) (h : get .type d = some (.str typ)) :
    select t b dflt d = match find (b, typ) t with
      | some c => .ok (c, d.filter fun p => p.1 ≠ .type)
      | none => .error .key := by
  unfold select
  rw [h]
  rfl

/-- C53: a dictionary without a type gives the default type of the base class. -/
theorem c53_default (t : Types C) (b dflt : String) (d : Dict) (h : get .type d = none) :
    select t b dflt d = match find (b, dflt) t with
      | some c => .ok (c, d.filter fun p => p.1 ≠ .type)
      | none => .error .key := by
  unfold select
  rw [h]
  rfl

/-- C53: an unknown type is a `KeyError`. -/
theorem c53_unknown (t : Types C) (b dflt typ : String) (d : Dict)
    (h : get .type d = some (.str typ)) (hu : find (b, typ) t = none) :
    select t b dflt d = .error .key := by
  rw [c53_select t b dflt typ d h, hu]

end registry

/-- C53: the registrations of the package succeed and give this table. -/
theorem c53_import : registerAll [] registrations = .ok types := by
  have h : "Spheroid".toLower = "spheroid" := by decide +kernel
  simp [registerAll, registrations, register, find, ClassDef.type, Except.bind, types, h]

/-- C53: every registered class is selected by its type among the subclasses of its base, and by no other
type. -/
theorem c53_table (b typ : String) :
    find (b, typ) types =
      if b = "Pupil" then
        if typ = "na" then some (.pupil .na) else if typ = "slope" then some (.pupil .slope)
        else if typ = "radius" then some (.pupil .radius)
        else if typ = "fno" then some (.pupil .fno) else none
      else if b = "Conjugate" then
        if typ = "finite" then some .finite else if typ = "infinite" then some .infinite else none
      else if b = "Element" ∧ typ = "spheroid" then some .spheroid else none := by
  simp only [types, find, Prod.mk.injEq]
  by_cases h1 : b = "Pupil"
  · subst h1
    simp [eq_comm]
  · by_cases h2 : b = "Conjugate"
    · subst h2
      simp [eq_comm]
    · have h1' : ¬"Pupil" = b := fun h => h1 h.symm
      have h2' : ¬"Conjugate" = b := fun h => h2 h.symm
      simp [h1, h2, h1', h2', eq_comm]

example : select types "Pupil" "radius" [(.type, .str "na"), (.na, .num 1)] =
    .ok (.pupil .na, [(.na, .num 1)]) := by
  rw [c53_select types "Pupil" "radius" "na" _ rfl, c53_table]
  simp

example : select types "Conjugate" "infinite" [(.type, .str "toroid")] = .error .key :=
  c53_unknown types _ _ "toroid" _ rfl (by rw [c53_table]; simp)

/-! ### Dictionaries -/

theorem get_append (k : Key) (a b : Dict) : get k (a ++ b) = (get k a).or (get k b) := by
  induction a with
  | nil => rfl
  | cons p a ih =>
    obtain ⟨j, v⟩ := p
    simp only [List.cons_append, get]
    split
    · rfl
    · exact ih

theorem get_ite (k : Key) (c : Prop) [Decidable c] (a b : Dict) :
    get k (if c then a else b) = if c then get k a else get k b := by split <;> rfl

theorem get_erase (k j : Key) (d : Dict) :
    get k (erase j d) = if k = j then none else get k d := by
  induction d with
  | nil => simp [erase, get]
  | cons p d ih =>
    obtain ⟨i, v⟩ := p
    unfold erase at ih ⊢
    by_cases hij : i = j
    · subst hij
      rw [List.filter_cons_of_neg (by simp), ih]
      simp only [get]
      by_cases hk : k = i
      · simp [hk]
      · have : ¬i = k := fun h => hk h.symm
        simp [hk, this]
    · rw [List.filter_cons_of_pos (by simpa using hij)]
      simp only [get]
      by_cases hk : i = k
      · subst hk
        simp [hij]
      · rw [if_neg hk, if_neg hk, ih]

theorem accepts_append (n : List Key) (a b : Dict) :
    accepts n (a ++ b) ↔ accepts n a ∧ accepts n b := by
  simp only [accepts, List.mem_append]
  exact ⟨fun h => ⟨fun p hp => h p (Or.inl hp), fun p hp => h p (Or.inr hp)⟩,
    fun h p hp => hp.elim (h.1 p) (h.2 p)⟩

theorem accepts_ite (n : List Key) (c : Prop) [Decidable c] (a b : Dict) :
    accepts n (if c then a else b) ↔ if c then accepts n a else accepts n b := by split <;> rfl

theorem accepts_erase (n : List Key) (j : Key) (d : Dict) :
    accepts n (erase j d) ↔ accepts (j :: n) d := by
  simp only [accepts, erase, List.mem_filter, List.mem_cons]
  constructor
  · intro h p hp
    by_cases hj : p.1 = j
    · exact Or.inl hj
    · exact Or.inr (h p ⟨hp, by simpa using hj⟩)
  · intro h p hp
    exact (h p hp.1).resolve_left (by simpa using hp.2)

theorem getNum_of {d : Dict} {k : Key} {x y : ℝ} {c : Prop} [Decidable c] (hc : c ↔ x = y)
    (h : get k d = if c then none else some (.num x)) : getNum d k y = .ok x := by
  unfold getNum
  rw [h]
  by_cases hx : x = y
  · rw [if_pos (hc.mpr hx)]; simp [hx]
  · rw [if_neg (by simpa [hc] using hx)]

theorem getStr_of {d : Dict} {k : Key} {x y : String} {c : Prop} [Decidable c] (hc : c ↔ x = y)
    (h : get k d = if c then none else some (.str x)) : getStr d k y = .ok x := by
  unfold getStr
  rw [h]
  by_cases hx : x = y
  · rw [if_pos (hc.mpr hx)]; simp [hx]
  · rw [if_neg (by simpa [hc] using hx)]

theorem getFalse_of {d : Dict} {k : Key} {b : Bool}
    (h : get k d = if b = true then some (.bool true) else none) : getBool d k false = .ok b := by
  unfold getBool
  rw [h]
  cases b <;> rfl

theorem getTrue_of {d : Dict} {k : Key} {b : Bool}
    (h : get k d = if b = true then none else some (.bool false)) : getBool d k true = .ok b := by
  unfold getBool
  rw [h]
  cases b <;> rfl

/-! ### Pupils -/

theorem nameDict_none (a b : String) : nameDict a b none = if a ≠ b then [(.type, .str a)] else [] := by
  simp [nameDict]

theorem pupil_get (p : Pupil) (hn : p.nickname = none) :
    get .type p.dict = (if p.kind = .radius then none else some (.str p.kind.type)) ∧
    get p.kind.key p.dict = some (.num p.value) ∧
    get .distance p.dict = some (.num p.distance) ∧
    get .updateDistance p.dict = (if p.updateDistance = true then none else some (.bool false)) ∧
    get .updateRadius p.dict = (if p.updateRadius = true then some (.bool true) else none) ∧
    get .aim p.dict = (if p.aim = true then some (.bool true) else none) ∧
    get .telecentric p.dict = (if p.telecentric = true then some (.bool true) else none) ∧
    get .refractiveIndex p.dict = (if p.index = 1 then none else some (.num p.index)) ∧
    get .projection p.dict =
      (if p.projection = "rectilinear" then none else some (.str p.projection)) ∧
    accepts [.type, p.kind.key, .distance, .updateDistance, .updateRadius, .aim, .telecentric,
      .refractiveIndex, .projection] p.dict := by
  obtain ⟨kind, value, distance, ud, ur, aim, tc, index, proj, nick⟩ := p
  cases hn
  cases kind <;>
  · simp only [Pupil.dict, nameDict_none, PKind.key, PKind.type, get_append, get_ite, get,
      accepts_append, accepts_ite]
    refine ⟨?_, ?_, ?_, ?_, ?_, ?_, ?_, ?_, ?_, ?_⟩ <;>
      simp [accepts]

theorem find_pupil (k : PKind) : find ("Pupil", k.type) types = some (.pupil k) := by
  rw [c53_table]
  cases k <;> simp [PKind.type]

theorem select_of {b dflt typ : String} {d : Dict} {c : Cls} {p : Prop} [Decidable p]
    (hp : p → typ = dflt) (h : get .type d = if p then none else some (.str typ))
    (hf : find (b, typ) types = some c) : select types b dflt d = .ok (c, erase .type d) := by
  unfold select
  rw [h]
  by_cases hq : p
  · rw [if_pos hq]
    simp only [Option.getD_none]
    rw [← hp hq, hf]
  · rw [if_neg hq]
    simp only [Option.getD_some]
    rw [hf]

/-- What `Pupil.init` gives for the dictionary of a pupil, with or without its type. -/
theorem init_pupil (p : Pupil) (hn : p.nickname = none) :
    Pupil.init p.kind (erase .type p.dict) = .ok p := by
  obtain ⟨-, h1, h2, h3, h4, h5, h6, h7, h8, h9⟩ := pupil_get p hn
  have hk : p.kind.key ≠ .type := by cases p.kind <;> simp [PKind.key]
  unfold Pupil.init
  rw [if_pos ((accepts_erase _ _ _).mpr h9)]
  have e : ∀ k, k ≠ Key.type → get k (erase .type p.dict) = get k p.dict := fun k hk => by
    rw [get_erase, if_neg hk]
  have g1 : needNum (erase .type p.dict) p.kind.key = .ok p.value := by
    unfold needNum; rw [e _ hk, h1]
  have g2 : getNum (erase .type p.dict) .distance 1 = .ok p.distance := by
    unfold getNum; rw [e _ (by simp), h2]
  have g3 := getTrue_of (d := erase .type p.dict) ((e _ (by simp)).trans h3)
  have g4 := getFalse_of (d := erase .type p.dict) ((e _ (by simp)).trans h4)
  have g5 := getFalse_of (d := erase .type p.dict) ((e _ (by simp)).trans h5)
  have g6 := getFalse_of (d := erase .type p.dict) ((e _ (by simp)).trans h6)
  have g7 := getNum_of (d := erase .type p.dict) Iff.rfl ((e _ (by simp)).trans h7)
  have g8 := getStr_of (d := erase .type p.dict) Iff.rfl ((e _ (by simp)).trans h8)
  rw [g1, g2, g3, g4, g5, g6, g7, g8]
  obtain ⟨kind, value, distance, ud, ur, aim, tc, index, proj, nick⟩ := p
  cases hn
  rfl

/-- C80: a pupil without a nickname is made again from its dictionary, with all its attributes. -/
theorem c80_pupil (p : Pupil) (hn : p.nickname = none) : Pupil.make p.dict = .ok p := by
  unfold Pupil.make
  rw [select_of (p := p.kind = .radius) (fun h => by rw [h]; rfl) (pupil_get p hn).1
    (find_pupil p.kind)]
  exact init_pupil p hn

theorem nameDict_some (a b n : String) (h : n ≠ "") :
    nameDict a b (some n) = (if a ≠ b then [(.type, .str a)] else []) ++ [(.nickname, .str n)] := by
  simp [nameDict, h]

theorem not_accepts {names : List Key} {d : Dict} {k : Key} {v : Val} (hk : k ∉ names)
    (h : get k d = some v) : ¬accepts names d := by
  induction d with
  | nil => simp [get] at h
  | cons p d ih =>
    obtain ⟨j, w⟩ := p
    intro ha
    simp only [get] at h
    split at h
    · rename_i hj
      exact hk (hj ▸ ha (j, w) List.mem_cons_self)
    · exact ih h fun q hq => ha q (List.mem_cons_of_mem _ hq)

/-- C80, violation: a pupil with a nickname writes a dictionary that cannot be read: no constructor has
an argument `nickname`. -/
theorem c80_pupil_nickname_violation (p : Pupil) (n : String) (hn : p.nickname = some n)
    (h0 : n ≠ "") : Pupil.make p.dict = .error .type := by
  have ht : get .type p.dict = if p.kind = .radius then none else some (.str p.kind.type) := by
    obtain ⟨kind, value, distance, ud, ur, aim, tc, index, proj, nick⟩ := p
    cases hn
    cases kind <;>
    · simp only [Pupil.dict, nameDict_some _ _ n h0, PKind.key, PKind.type, get_append, get_ite, get]
      simp
  have hg : get .nickname p.dict = some (.str n) := by
    obtain ⟨kind, value, distance, ud, ur, aim, tc, index, proj, nick⟩ := p
    cases hn
    cases kind <;>
    · simp only [Pupil.dict, nameDict_some _ _ n h0, PKind.key, PKind.type, get_append, get_ite, get]
      simp
  unfold Pupil.make
  rw [select_of (p := p.kind = .radius) (fun h => by rw [h]; rfl) ht (find_pupil p.kind)]
  unfold Pupil.init
  simp only
  rw [if_neg]
  refine not_accepts (k := .nickname) (v := .str n) ?_ (by rw [get_erase, if_neg (by simp), hg])
  cases p.kind <;> simp [PKind.key]

example : Pupil.make (Pupil.dict ⟨.fno, 4, 20, false, true, true, false, 1.5, "stereographic", none⟩) =
    .ok ⟨.fno, 4, 20, false, true, true, false, 1.5, "stereographic", none⟩ := c80_pupil _ rfl

/-! ### Conjugates -/

theorem conj_get (c : Conj) (hn : c.nickname = none) :
    get .type c.dict =
      (if c.finite = false then none else some (.str (if c.finite then "finite" else "infinite"))) ∧
    get .pupil c.dict = some (.dict c.pupil.dict) ∧
    get .projection c.dict =
      (if c.projection = "rectilinear" then none else some (.str c.projection)) ∧
    get .updateRadius c.dict = none ∧ get .angleDeg c.dict = none ∧
    get (if c.finite then .radius else .angle) c.dict =
      (if c.size = 0 then none else some (.num c.size)) ∧
    accepts [.type, if c.finite then .radius else .angle, .pupil, .projection] c.dict := by
  obtain ⟨finite, size, pupil, proj, upd, nick⟩ := c
  cases hn
  cases finite <;>
  · simp only [Conj.dict, nameDict_none, get_append, get_ite, get, accepts_append, accepts_ite]
    refine ⟨?_, ?_, ?_, ?_, ?_, ?_, ?_⟩ <;>
      simp [accepts]

theorem accepts_mono {a b : List Key} {d : Dict} (h : accepts a d) (hab : ∀ k ∈ a, k ∈ b) :
    accepts b d := fun p hp => hab _ (h p hp)

theorem find_conj (b : Bool) : find ("Conjugate", if b then "finite" else "infinite") types =
    some (if b then .finite else .infinite) := by
  rw [c53_table]
  cases b <;> simp

/-- C80: a conjugate is made again from its dictionary with all its attributes, except for
`update_radius`, which the dictionary leaves out. -/
theorem c80_conjugate (c : Conj) (hn : c.nickname = none) (hp : c.pupil.nickname = none) :
    Conj.make c.dict = .ok { c with updateRadius := false } := by
  obtain ⟨h0, h1, h2, h3, h4, h5, h6⟩ := conj_get c hn
  have e : ∀ k, k ≠ Key.type → get k (erase .type c.dict) = get k c.dict := fun k hk => by
    rw [get_erase, if_neg hk]
  have g1 : getPupil (erase .type c.dict) = .ok c.pupil := by
    unfold getPupil
    rw [e _ (by simp), h1]
    exact c80_pupil c.pupil hp
  have g2 := getStr_of (d := erase .type c.dict) Iff.rfl ((e _ (by simp)).trans h2)
  have g3 : getBool (erase .type c.dict) .updateRadius false = .ok false := by
    unfold getBool; rw [e _ (by simp), h3]
  have g4 : optNum (erase .type c.dict) .angleDeg = .ok none := by
    unfold optNum; rw [e _ (by simp), h4]
  have g5 := getNum_of (d := erase .type c.dict) (y := 0) Iff.rfl
    ((e _ (by cases c.finite <;> simp)).trans h5)
  unfold Conj.make
  rw [select_of (p := c.finite = false) (fun h => by rw [h]; rfl) h0 (find_conj c.finite)]
  obtain ⟨finite, size, pupil, proj, upd, nick⟩ := c
  cases hn
  cases finite
  · simp only [Bool.false_eq_true, if_false] at g5 h6 ⊢
    unfold Conj.initInfinite
    rw [if_pos ((accepts_erase _ _ _).mpr (accepts_mono h6 (by simp))), g1, g2, g3, g4, g5]
    rfl
  · simp only [if_true] at g5 h6 ⊢
    unfold Conj.initFinite
    rw [if_pos ((accepts_erase _ _ _).mpr (accepts_mono h6 (by simp))), g1, g2, g3, g5]
    rfl

/-- C80, violation: the image conjugate that `System` makes by default follows the paraxial image size
(`update_radius`); after a round trip it does not. -/
theorem c80_update_violation : defaultImage.updateRadius = true ∧
    ∃ c, Conj.make defaultImage.dict = .ok c ∧ c.updateRadius = false :=
  ⟨rfl, _, c80_conjugate defaultImage rfl rfl, rfl⟩

/-- C53: an object made from the dictionary of another has the same class. -/
theorem c53_roundtrip (p : Pupil) (c : Conj) (h1 : p.nickname = none) (h2 : c.nickname = none)
    (h3 : c.pupil.nickname = none) :
    (∃ q, Pupil.make p.dict = .ok q ∧ q.kind = p.kind) ∧
    ∃ q, Conj.make c.dict = .ok q ∧ q.finite = c.finite ∧ q.pupil.kind = c.pupil.kind :=
  ⟨⟨_, c80_pupil p h1, rfl⟩, _, c80_conjugate c h2 h3, rfl, rfl⟩

theorem get_map (f : Key → Val → Val) (k : Key) (d : Dict) :
    get k (d.map fun p => (p.1, f p.1 p.2)) = (get k d).map (f k) := by
  induction d with
  | nil => rfl
  | cons p d ih =>
    obtain ⟨j, v⟩ := p
    simp only [List.map_cons, get]
    split
    · rename_i h; subst h; rfl
    · exact ih

theorem accepts_map (f : Key → Val → Val) (n : List Key) (d : Dict) :
    accepts n (d.map fun p => (p.1, f p.1 p.2)) ↔ accepts n d := by
  simp only [accepts, List.mem_map]
  constructor
  · intro h p hp
    exact h (p.1, f p.1 p.2) ⟨p, hp, rfl⟩
  · rintro h p ⟨q, hq, rfl⟩
    exact h q hq

/-- C53, violation: `make` takes the type out of the dictionary it is given.  The same dictionary used a
second time gives an infinite conjugate where the first was finite, and a `TypeError` if it has a
radius. -/
theorem c53_twice_violation (c : Conj) (hf : c.finite = true) (hn : c.nickname = none)
    (hp : c.pupil.nickname = none) (hk : c.pupil.kind = .radius) :
    (∃ q, Conj.make c.dict = .ok q ∧ q.finite = true) ∧
    (c.size = 0 → ∃ q, Conj.make (Conj.consumed c.dict) = .ok q ∧ q.finite = false) ∧
    (c.size ≠ 0 → Conj.make (Conj.consumed c.dict) = .error .type) := by
  obtain ⟨h0, h1, h2, h3, h4, h5, h6⟩ := conj_get c hn
  rw [hf, if_pos rfl] at h5 h6
  have e : ∀ k, k ≠ Key.type → k ≠ .pupil → get k (erase .type (Conj.consumed c.dict)) =
      get k c.dict := fun k hk hk' => by
    rw [get_erase, if_neg hk, Conj.consumed, get_map, get_erase, if_neg hk]
    have : popped k = id := by
      funext v
      cases k <;> simp_all [popped]
    rw [this, Option.map_id]
    rfl
  have h7 : get .type (Conj.consumed c.dict) = none := by
    rw [Conj.consumed, get_map, get_erase, if_pos rfl]
    rfl
  have hsel : select types "Conjugate" "infinite" (Conj.consumed c.dict) =
      .ok (.infinite, erase .type (Conj.consumed c.dict)) := by
    rw [c53_default _ _ _ _ h7, c53_table]
    simp [erase]
  refine ⟨⟨_, c80_conjugate c hn hp, hf⟩, fun hs => ?_, fun hs => ?_⟩
  · have g1 : getPupil (erase .type (Conj.consumed c.dict)) = .ok c.pupil := by
      unfold getPupil
      rw [get_erase, if_neg (by simp), Conj.consumed, get_map, get_erase, if_neg (by simp), h1]
      simp only [Option.map_some, popped]
      unfold Pupil.make
      rw [c53_default _ _ _ _ (by rw [get_erase, if_pos rfl]), c53_table]
      simp only [if_true, String.reduceEq, if_false]
      rw [← hk]
      have : (List.filter (fun p => decide (p.1 ≠ Key.type)) (erase .type c.pupil.dict)) =
          erase .type c.pupil.dict := by
        simp [erase]
      rw [this]
      exact init_pupil c.pupil hp
    have g2 := getStr_of (d := erase .type (Conj.consumed c.dict)) Iff.rfl
      ((e _ (by simp) (by simp)).trans h2)
    have g3 : getBool (erase .type (Conj.consumed c.dict)) .updateRadius false = .ok false := by
      unfold getBool; rw [e _ (by simp) (by simp), h3]
    have g4 : optNum (erase .type (Conj.consumed c.dict)) .angleDeg = .ok none := by
      unfold optNum; rw [e _ (by simp) (by simp), h4]
    have hac : accepts [.type, .pupil, .projection] c.dict := by
      obtain ⟨finite, size, pupil, proj, upd, nick⟩ := c
      cases hn
      cases hf
      simp only at hs
      subst hs
      simp only [Conj.dict, nameDict_none, accepts_append, accepts_ite]
      simp [accepts]
    have h8 : get .angle c.dict = none := by
      by_contra hne
      obtain ⟨v, hv⟩ := Option.ne_none_iff_exists'.mp hne
      exact not_accepts (by simp) hv hac
    have g5 : getNum (erase .type (Conj.consumed c.dict)) .angle 0 = .ok 0 := by
      unfold getNum; rw [e _ (by simp) (by simp), h8]
    unfold Conj.make
    rw [hsel]
    simp only
    unfold Conj.initInfinite
    rw [if_pos, g1, g2, g3, g4, g5]
    · exact ⟨_, rfl, rfl⟩
    · rw [accepts_erase, Conj.consumed, accepts_map, accepts_erase]
      exact accepts_mono hac (by simp)
  · unfold Conj.make
    rw [hsel]
    simp only
    unfold Conj.initInfinite
    rw [if_neg]
    refine not_accepts (k := .radius) (v := .num c.size) (by simp) ?_
    rw [e _ (by simp) (by simp), h5, if_neg hs]

example : (∃ q, Conj.make (Conj.dict ⟨true, 0, defaultPupil, "rectilinear", false, none⟩) = .ok q ∧
      q.finite = true) ∧
    ∃ q, Conj.make (Conj.consumed (Conj.dict ⟨true, 0, defaultPupil, "rectilinear", false, none⟩)) =
      .ok q ∧ q.finite = false :=
  let h := c53_twice_violation ⟨true, 0, defaultPupil, "rectilinear", false, none⟩ rfl rfl rfl rfl
  ⟨h.1, h.2.1 rfl⟩

/-! ### Materials -/

section material

variable (float : Text → Option ℝ) (lib : Lib)

/-- C73: `None`, a material and a number. -/
theorem c73_direct (m : Mat) (x : ℝ) :
    Mat.make float lib .null = .ok none ∧ Mat.make float lib (.mat m) = .ok (some m) ∧
    ∃ r, Mat.make float lib (.float x) = .ok (some r) ∧ r.data = .model x ∧ r.mirror = false ∧
      r.solid = true ∧ r.catalog = none := ⟨rfl, rfl, _, rfl, rfl, rfl, rfl, rfl⟩

theorem splitOn_no {t : Text} (h : '/' ∉ t) : t.splitOn '/' = [t] := by
  have := List.splitOn_intercalate '/' (ls := [t]) (by simpa using h) (by simp)
  simpa [List.intercalate] using this

theorem splitOn_two {a b : Text} (ha : '/' ∉ a) (hb : '/' ∉ b) :
    (a ++ '/' :: b).splitOn '/' = [a, b] := by
  have := List.splitOn_intercalate '/' (ls := [a, b]) (by
    intro l hl
    rcases List.mem_cons.mp hl with rfl | hl
    · exact ha
    · rw [List.mem_singleton.mp hl]; exact hb) (by simp)
  simpa [List.intercalate] using this

theorem splitOn_three {a b c : Text} (ha : '/' ∉ a) (hb : '/' ∉ b) (hc : '/' ∉ c) :
    (a ++ '/' :: (b ++ '/' :: c)).splitOn '/' = [a, b, c] := by
  have := List.splitOn_intercalate '/' (ls := [a, b, c]) (by
    intro l hl
    simp only [List.mem_cons, List.not_mem_nil, or_false] at hl
    rcases hl with rfl | rfl | rfl <;> assumption) (by simp)
  simpa [List.intercalate] using this

/-- C73: two numbers separated by a slash are index and Abbe number. -/
theorem c73_abbe (a b : Text) (n v : ℝ) (ha : '/' ∉ a) (hb : '/' ∉ b) (hn : float a = some n)
    (hv : float b = some v) :
    ∃ m, Mat.make float lib (.text (a ++ '/' :: b)) = .ok (some m) ∧ m.data = .abbe n (some v) ∧
      m.mirror = false ∧ m.solid = true := by
  refine ⟨⟨['-'], none, true, false, .abbe n (some v)⟩, ?_, rfl, rfl, rfl⟩
  simp only [Mat.make, Mat.makeText, fromString, splitOn_two ha hb, List.map_cons, hn, hv, List.map_nil]
  rfl

theorem lower_slash {t : Text} (h : '/' ∉ t) : '/' ∉ t.map Char.toLower := by
  intro hm
  obtain ⟨c, hc, hl⟩ := List.mem_map.mp hm
  have : c = '/' := by
    unfold Char.toLower at hl
    split at hl
    · rename_i hr
      exfalso
      have h1 := congrArg Char.val hl
      simp only at h1
      have h2 := hr.1
      have h3 := hr.2
      have h4 : ('/' : Char).val = 47 := rfl
      rw [h4] at h1
      have h5 := congrArg UInt32.toNat h1
      rw [UInt32.toNat_add] at h5
      have h6 : c.val.toNat ≤ 90 := by simpa using UInt32.le_iff_toNat_le.mp h3
      have h7 : 65 ≤ c.val.toNat := by simpa using UInt32.le_iff_toNat_le.mp h2
      have h8 : (32 : UInt32).toNat = 32 := rfl
      have h9 : (47 : UInt32).toNat = 47 := rfl
      rw [h9] at h5
      have h10 : ((c.val.toNat + 32) % 2 ^ 32) = 47 := h5
      rw [Nat.mod_eq_of_lt (by omega)] at h10
      omega
    · exact hl
  exact h (this ▸ hc)

theorem fromString_one {t : Text} (h : '/' ∉ t) : fromString float t = none := by
  unfold fromString
  rw [splitOn_no h]
  simp

theorem fromString_two {a b : Text} (ha : '/' ∉ a) (hb : '/' ∉ b)
    (h : float a = none ∨ float b = none) : fromString float (a ++ '/' :: b) = none := by
  unfold fromString
  rw [splitOn_two ha hb]
  rcases h with h | h
  · simp only [List.map_cons, h]
  · simp only [List.map_cons, h, List.map_nil]
    cases float a <;> rfl

theorem fromString_three {a b c : Text} (ha : '/' ∉ a) (hb : '/' ∉ b) (hc : '/' ∉ c) :
    fromString float (a ++ '/' :: (b ++ '/' :: c)) = none := by
  unfold fromString
  rw [splitOn_three ha hb hc]
  simp only [List.map_cons]
  cases float a <;> cases float b <;> rfl

theorem makeText_one {t : Text} (h : '/' ∉ t) : Mat.makeText float lib t =
    (basic.find? fun m => m.name = t.map Char.toLower).elim
        (lib (t.map Char.toLower) none none) .ok := by
  unfold Mat.makeText
  rw [fromString_one float h, splitOn_no (lower_slash h)]
  simp

theorem makeText_two {a b : Text} (ha : '/' ∉ a) (hb : '/' ∉ b)
    (h : float a = none ∨ float b = none) : Mat.makeText float lib (a ++ '/' :: b) =
    if a.map Char.toLower = "basic".toList then
      (basic.find? fun m => m.name = b.map Char.toLower).elim
        (lib (b.map Char.toLower) (some (a.map Char.toLower)) none) .ok
    else lib (b.map Char.toLower) (some (a.map Char.toLower)) none := by
  have hm : (a ++ '/' :: b).map Char.toLower = a.map Char.toLower ++ '/' :: b.map Char.toLower := by
    simp
  unfold Mat.makeText
  rw [fromString_two float ha hb h, hm, splitOn_two (lower_slash ha) (lower_slash hb)]
  simp

theorem makeText_three {a b c : Text} (ha : '/' ∉ a) (hb : '/' ∉ b) (hc : '/' ∉ c) :
    Mat.makeText float lib (a ++ '/' :: (b ++ '/' :: c)) =
    if b.map Char.toLower = "basic".toList then
      (basic.find? fun m => m.name = c.map Char.toLower).elim
        (lib (c.map Char.toLower) (some (b.map Char.toLower)) (some (a.map Char.toLower))) .ok
    else lib (c.map Char.toLower) (some (b.map Char.toLower)) (some (a.map Char.toLower)) := by
  have hm : (a ++ '/' :: (b ++ '/' :: c)).map Char.toLower =
      a.map Char.toLower ++ '/' :: (b.map Char.toLower ++ '/' :: c.map Char.toLower) := by
    simp
  unfold Mat.makeText
  rw [fromString_three float ha hb hc, hm,
    splitOn_three (lower_slash ha) (lower_slash hb) (lower_slash hc)]
  simp

/-- C73: the names of the basic materials, in any mixture of cases, alone or behind `basic/`, give the
basic materials: vacuum of index 1, air, and the mirror. -/
theorem c73_basic (m : Mat) (hm : m ∈ basic) (t : Text) (ht : t.map Char.toLower = m.name)
    (hs : '/' ∉ t) (hf : float t = none) :
    Mat.make float lib (.text t) = .ok (some m) ∧
    Mat.make float lib (.text ("basic".toList ++ '/' :: t)) = .ok (some m) := by
  have hb : basic.find? (fun x => x.name = t.map Char.toLower) = some m := by
    rw [ht]
    simp only [basic, List.mem_cons, List.not_mem_nil, or_false] at hm
    rcases hm with rfl | rfl | rfl <;> simp [basic]
  constructor
  · simp only [Mat.make]
    rw [makeText_one float lib hs, hb]
    rfl
  · simp only [Mat.make]
    rw [makeText_two float lib (by decide) hs (Or.inr hf), if_pos (by decide), hb]
    rfl

/-- C73: which materials are basic. -/
theorem c73_basic_table :
    (∃ m ∈ basic, m.name = "vacuum".toList ∧ m.data = .model 1 ∧ m.mirror = false ∧ m.solid = false) ∧
    (∃ m ∈ basic, m.name = "mirror".toList ∧ m.mirror = true ∧ m.solid = false) ∧
    (∃ m ∈ basic, m.name = "air".toList ∧ m.mirror = false ∧ m.solid = false) ∧
    ∀ m ∈ basic, m.mirror = true → m.name = "mirror".toList := by
  refine ⟨⟨_, List.mem_cons_self, rfl, rfl, rfl, rfl⟩, ⟨_, List.mem_cons_of_mem _ (List.mem_cons_of_mem _ List.mem_cons_self), rfl, rfl, rfl⟩,
    ⟨_, List.mem_cons_of_mem _ List.mem_cons_self, rfl, rfl, rfl⟩, ?_⟩
  intro m hm h
  simp only [basic, List.mem_cons, List.not_mem_nil, or_false] at hm
  rcases hm with rfl | rfl | rfl <;> simp_all

/-- C73: any other name is looked up in the library, in lower case, with its catalogue and source if
there are any: `name`, `catalog/name` and `source/catalog/name`. -/
theorem c73_library (a b c : Text) (ha : '/' ∉ a) (hb : '/' ∉ b) (hc : '/' ∉ c)
    (hn : ∀ m ∈ basic, m.name ≠ c.map Char.toLower) :
    Mat.make float lib (.text c) = (lib (c.map Char.toLower) none none).map some ∧
    ((float b = none ∨ float c = none) → Mat.make float lib (.text (b ++ '/' :: c)) =
      (lib (c.map Char.toLower) (some (b.map Char.toLower)) none).map some) ∧
    Mat.make float lib (.text (a ++ '/' :: (b ++ '/' :: c))) =
      (lib (c.map Char.toLower) (some (b.map Char.toLower)) (some (a.map Char.toLower))).map some := by
  have hf : basic.find? (fun x => x.name = c.map Char.toLower) = none := by
    rw [List.find?_eq_none]
    intro m hm
    simpa using hn m hm
  refine ⟨?_, fun h => ?_, ?_⟩
  · simp only [Mat.make, makeText_one float lib hc, hf, Option.elim]
  · simp only [Mat.make, makeText_two float lib hb hc h, hf, Option.elim, ite_self]
  · simp only [Mat.make, makeText_three float lib ha hb hc, hf, Option.elim, ite_self]

/-- C73: a name behind a catalogue other than `basic` is looked up in the library even if a basic material
has that name. -/
theorem c73_catalog (b c : Text) (hb : '/' ∉ b) (hc : '/' ∉ c)
    (hn : b.map Char.toLower ≠ "basic".toList) (h : float b = none ∨ float c = none) :
    Mat.make float lib (.text (b ++ '/' :: c)) =
      (lib (c.map Char.toLower) (some (b.map Char.toLower)) none).map some := by
  simp only [Mat.make, makeText_two float lib hb hc h, if_neg hn]

/-- C73, violations: a dictionary is a `NameError` (`self` does not exist in the class method), a pair of
numbers a `TypeError`, an integer an `AttributeError`; the text of a single number is not an index but
looked up in the library. -/
theorem c73_violation (d : Dict) (n v : ℝ) (i : ℤ) (t : Text) (x : ℝ) (ht : '/' ∉ t)
    (_hx : float t = some x) (hn : ∀ m ∈ basic, m.name ≠ t.map Char.toLower) :
    Mat.make float lib (.dict d) = .error .name ∧
    Mat.make float lib (.tuple n v) = .error .type ∧
    Mat.make float lib (.int i) = .error .attribute ∧
    Mat.make float lib (.text t) = (lib (t.map Char.toLower) none none).map some :=
  ⟨rfl, rfl, rfl, (c73_library float lib [] [] t (by simp) (by simp) ht hn).1⟩

example : ∃ m, Mat.make (fun t => if t = ['2'] then some 2 else if t = ['4', '0'] then some 40 else none)
    (fun _ _ _ => .error .key) (.text ['2', '/', '4', '0']) = .ok (some m) ∧
    m.data = .abbe 2 (some 40) := by
  obtain ⟨m, h1, h2, -⟩ := c73_abbe (fun t => if t = ['2'] then some 2 else
    if t = ['4', '0'] then some 40 else none) (fun _ _ _ => .error .key) ['2'] ['4', '0'] 2 40
    (by decide) (by decide) (by simp) (by simp)
  exact ⟨m, h1, h2⟩

example : ∃ m, Mat.make (fun _ => none) (fun _ _ _ => .error .key) (.text "MIRROR".toList) =
    .ok (some m) ∧ m.mirror = true :=
  ⟨_, (c73_basic (fun _ => none) (fun _ _ _ => .error .key)
    ⟨"mirror".toList, some "basic".toList, false, true, .plain⟩ (by simp [basic]) "MIRROR".toList
    (by decide) (by decide) rfl).1, rfl⟩

end material

/-! ### Elements -/

section element

variable (float : Text → Option ℝ) (lib : Lib)

/-- The placement after a round trip: a direction close to the axis and angles close to zero are left
out of the dictionary. -/
noncomputable def snapped (t : Transform) : Transform :=
  open Classical in
  Transform.update t.distance (if t.straight then V3.ez else t.direction)
    (if t.normal then 0 else t.angles)

theorem snapped_self {t : Transform} (h : Reachable t) (hs : t.straight → t.direction = V3.ez)
    (ha : t.normal → t.angles = 0) : snapped t = t := by
  have h1 := setDistance_self h
  unfold Transform.setDistance at h1
  unfold snapped
  have e1 : (open Classical in if t.straight then V3.ez else t.direction) = t.direction := by
    split
    · rename_i hh; exact (hs hh).symm
    · rfl
  have e2 : (open Classical in if t.normal then 0 else t.angles) = t.angles := by
    split
    · rename_i hh; exact (ha hh).symm
    · rfl
  rw [e1, e2, h1]

theorem accepts_radius (n : List Key) (r : Radius) (h : .radius ∈ n) :
    accepts n (match r with
      | .fin r => [(.radius, .num r)]
      | .inf => []) := by
  cases r <;> simp [accepts, h]

open Classical in
theorem surf_get (s : Surf) (hn : s.nickname = none) :
    get .type s.dict = none ∧
    get .distance s.dict = (if s.tf.distance = 0 then none else some (.num s.tf.distance)) ∧
    get .direction s.dict = (if s.tf.straight then none else some (.vec s.tf.direction)) ∧
    get .angles s.dict = (if s.tf.normal then none else some (.vec s.tf.angles)) ∧
    get .offset s.dict = none ∧
    get .radius s.dict = (match s.radius with
      | .fin r => some (.num r)
      | .inf => none) ∧
    get .diameter s.dict = none ∧
    get .material s.dict = s.material.map (fun m => .text m.str) ∧
    get .curvature s.dict = (if s.curvature = 0 then none else some (.num s.curvature)) ∧
    get .conic s.dict = (if s.conic = 0 then none else some (.num s.conic)) ∧
    get .aspherics s.dict = s.aspherics.map (fun a => .nums a) ∧
    get .roc s.dict = none ∧
    get .alternateIntersection s.dict = (if s.alternate = true then some (.bool true) else none) ∧
    accepts [.distance, .direction, .angles, .radius, .material, .curvature, .conic, .aspherics,
      .alternateIntersection] s.dict := by
  obtain ⟨tf, radius, material, curvature, conic, aspherics, alternate, nick⟩ := s
  cases hn
  cases radius <;> cases material <;> cases aspherics <;>
  · simp only [Surf.dict, tfDict, nameDict_none, get_append, get_ite, get, accepts_append, accepts_ite]
    refine ⟨?_, ?_, ?_, ?_, ?_, ?_, ?_, ?_, ?_, ?_, ?_, ?_, ?_, ?_⟩ <;>
      simp [accepts]

theorem make_surf (s : Surf) (hn : s.nickname = none)
    (hm : ∀ m, s.material = some m → m.str ≠ [] ∧ Mat.make float lib (.text m.str) = .ok (some m)) :
    Surf.make float lib s.dict = open Classical in
      if fits s.radius s.curvature s.conic then .ok { s with tf := snapped s.tf }
      else .error .assertion := by
  obtain ⟨h0, h1, h2, h3, h4, h5, h6, h7, h8, h9, h10, h11, h12, h13⟩ := surf_get s hn
  have e : erase .type s.dict = s.dict := by
    unfold erase
    apply List.filter_eq_self.mpr
    intro p hp
    have := h13 p hp
    simp only [List.mem_cons, List.not_mem_nil, or_false] at this
    rcases this with h | h | h | h | h | h | h | h | h <;> simp [h]
  have hsel : select types "Element" "spheroid" s.dict = .ok (.spheroid, s.dict) := by
    rw [c53_default _ _ _ _ h0, c53_table]
    simp only [String.reduceEq, if_false, if_true, and_self]
    exact congrArg (fun x => Except.ok (Cls.spheroid, x)) e
  have g1 := getNum_of (d := s.dict) (y := 0) Iff.rfl h1
  have g2 : getVec s.dict .direction V3.ez =
      .ok (open Classical in if s.tf.straight then V3.ez else s.tf.direction) := by
    unfold getVec; rw [h2]; by_cases hh : s.tf.straight <;> simp [hh]
  have g3 : getVec s.dict .angles 0 =
      .ok (open Classical in if s.tf.normal then 0 else s.tf.angles) := by
    unfold getVec; rw [h3]; by_cases hh : s.tf.normal <;> simp [hh]
  have g4 : optVec s.dict .offset = .ok none := by unfold optVec; rw [h4]
  have g5 : getRadius s.dict = .ok s.radius := by
    unfold getRadius optNum
    rw [h5, h6]
    cases s.radius <;> rfl
  have g6 : getMat float lib s.dict = .ok s.material := by
    unfold getMat
    rw [h7]
    cases hq : s.material with
    | none => rfl
    | some m =>
      obtain ⟨h14, h15⟩ := hm m hq
      simp only [Option.map_some, if_neg h14, h15]
  have g7 : getCurvature s.dict = .ok s.curvature := by
    unfold getCurvature
    rw [getNum_of (d := s.dict) (y := 0) Iff.rfl h8]
    unfold optNum
    rw [h11]
    rfl
  have g8 := getNum_of (d := s.dict) (y := 0) Iff.rfl h9
  have g9 : optNums s.dict .aspherics = .ok s.aspherics := by
    unfold optNums
    rw [h10]
    cases s.aspherics <;> rfl
  have g10 := getFalse_of h12
  unfold Surf.make
  rw [hsel]
  simp only
  unfold Surf.init
  rw [if_pos (accepts_mono h13 (by simp)), g1, g2, g3, g4, g5, g6, g7, g8, g9, g10]
  obtain ⟨tf, radius, material, curvature, conic, aspherics, alternate, nick⟩ := s
  cases hn
  rfl

/-- C80: an element is made again from its dictionary with all its attributes, if it has no nickname, its
radius fits its curvature, and its material, if any, is found again under its name.  A direction close to
the axis and angles close to zero become exact. -/
theorem c80_element (s : Surf) (hn : s.nickname = none) (hf : fits s.radius s.curvature s.conic)
    (hm : ∀ m, s.material = some m → m.str ≠ [] ∧ Mat.make float lib (.text m.str) = .ok (some m)) :
    Surf.make float lib s.dict = .ok { s with tf := snapped s.tf } := by
  rw [make_surf float lib s hn hm, if_pos hf]

/-- C80: an element whose direction and angles are either exact or clearly off the axis comes back
unchanged. -/
theorem c80_element_exact (s : Surf) (hn : s.nickname = none) (hf : fits s.radius s.curvature s.conic)
    (hm : ∀ m, s.material = some m → m.str ≠ [] ∧ Mat.make float lib (.text m.str) = .ok (some m))
    (ht : Reachable s.tf) (h1 : s.tf.straight → s.tf.direction = V3.ez)
    (h2 : s.tf.normal → s.tf.angles = 0) : Surf.make float lib s.dict = .ok s := by
  rw [c80_element float lib s hn hf hm, snapped_self ht h1 h2]

/-- C80, violation: an element with a nickname writes a dictionary that cannot be read. -/
theorem c80_element_nickname_violation (s : Surf) (n : String) (hn : s.nickname = some n) (h0 : n ≠ "") :
    Surf.make float lib s.dict = .error .type := by
  have hg : get .type s.dict = none ∧ get .nickname s.dict = some (.str n) := by
    obtain ⟨tf, radius, material, curvature, conic, aspherics, alternate, nick⟩ := s
    cases hn
    cases radius <;> cases material <;> cases aspherics <;>
    · simp only [Surf.dict, tfDict, nameDict_some _ _ n h0, get_append, get_ite, get]
      simp
  unfold Surf.make
  rw [c53_default _ _ _ _ hg.1, c53_table]
  simp only [String.reduceEq, if_false, if_true, and_self]
  unfold Surf.init
  rw [if_neg]
  refine not_accepts (k := .nickname) (v := .str n) (by simp) ?_
  have := get_erase .nickname .type s.dict
  unfold erase at this
  rw [this, if_neg (by simp), hg.2]

/-- C80, violation: an element whose radius was set larger than its curvature allows (after it was made)
writes a dictionary that cannot be read. -/
theorem c80_element_assert_violation (s : Surf) (hn : s.nickname = none)
    (hm : ∀ m, s.material = some m → m.str ≠ [] ∧ Mat.make float lib (.text m.str) = .ok (some m))
    (r : ℝ) (hr : s.radius = .fin r) (hc : s.curvature ≠ 0) (hk : -1 < s.conic)
    (h : 1 / ((1 + s.conic) * s.curvature ^ 2) < r ^ 2) :
    Surf.make float lib s.dict = .error .assertion := by
  rw [make_surf float lib s hn hm, if_neg]
  rw [hr]
  intro hf
  exact absurd (hf hc hk) (not_le.mpr h)

/-- C80: when a material is found again under its printed name. -/
theorem c80_material (m : Mat) (c : Text) (hc : m.catalog = some c) (h1 : '/' ∉ c) (h2 : '/' ∉ m.name)
    (h3 : float c = none ∨ float m.name = none) (h4 : c.map Char.toLower ≠ "basic".toList)
    (h5 : lib (m.name.map Char.toLower) (some (c.map Char.toLower)) none = .ok m) :
    m.str ≠ [] ∧ Mat.make float lib (.text m.str) = .ok (some m) := by
  have : m.str = c ++ '/' :: m.name := by unfold Mat.str; rw [hc]
  rw [this]
  refine ⟨by simp, ?_⟩
  rw [c73_catalog float lib c m.name h1 h2 h4 h3, h5]
  rfl

/-- C80: the basic materials are found again. -/
theorem c80_material_basic (m : Mat) (hm : m ∈ basic) (hf : float m.name = none) :
    m.str ≠ [] ∧ Mat.make float lib (.text m.str) = .ok (some m) := by
  have h1 : m.str = "basic".toList ++ '/' :: m.name ∧ m.name.map Char.toLower = m.name ∧
      '/' ∉ m.name := by
    simp only [basic, List.mem_cons, List.not_mem_nil, or_false] at hm
    rcases hm with rfl | rfl | rfl
    · exact ⟨rfl, by decide, by decide⟩
    · exact ⟨rfl, by decide, by decide⟩
    · exact ⟨rfl, by decide, by decide⟩
  rw [h1.1]
  exact ⟨by simp, (c73_basic float lib m hm m.name h1.2.1 h1.2.2 hf).2⟩

/-- C80, violation: a material given by index and Abbe number, or by an index, is written as `-`, so it is
looked up in the library after a round trip. -/
theorem c80_material_violation (a b : Text) (n v x : ℝ) (ha : '/' ∉ a) (hb : '/' ∉ b)
    (hn : float a = some n) (hv : float b = some v) :
    ∃ m m', Mat.make float lib (.text (a ++ '/' :: b)) = .ok (some m) ∧
      Mat.make float lib (.float x) = .ok (some m') ∧
      Mat.make float lib (.text m.str) = (lib ['-'] none none).map some ∧
      Mat.make float lib (.text m'.str) = (lib ['-'] none none).map some := by
  have h : Mat.make float lib (.text ['-']) = (lib ['-'] none none).map some := by
    refine (c73_library float lib [] [] ['-'] (by simp) (by simp) (by decide) ?_).1
    intro m hm
    simp only [basic, List.mem_cons, List.not_mem_nil, or_false] at hm
    rcases hm with rfl | rfl | rfl <;> decide
  refine ⟨⟨['-'], none, true, false, .abbe n (some v)⟩, ⟨['-'], none, true, false, .model x⟩, ?_, rfl, h, h⟩
  simp only [Mat.make, Mat.makeText, fromString, splitOn_two ha hb, List.map_cons, hn, hv, List.map_nil]
  rfl

/-! ### Systems -/

theorem conj_dict_ne (c : Conj) : c.dict.isEmpty = false := by
  simp [Conj.dict]

theorem makeElements_of (es : List Surf)
    (h : ∀ e ∈ es, Surf.make float lib e.dict = .ok { e with tf := snapped e.tf }) :
    makeElements float lib (es.map fun e => .dict e.dict) =
      .ok (es.map fun e => { e with tf := snapped e.tf }) := by
  induction es with
  | nil => rfl
  | cons e es ih =>
    simp only [List.map_cons, makeElements]
    rw [h e List.mem_cons_self, ih fun x hx => h x (List.mem_cons_of_mem _ hx)]
    rfl

/-- An element that can be written and read: no nickname, a radius that fits, and a material that is found
again. -/
def Loadable (float : Text → Option ℝ) (lib : Lib) (e : Surf) : Prop :=
  e.nickname = none ∧ fits e.radius e.curvature e.conic ∧
  ∀ m, e.material = some m → m.str ≠ [] ∧ Mat.make float lib (.text m.str) = .ok (some m)

/-- C80: a system made from the dictionary of another has the same elements in the same order (up to
directions and angles close to straight), the same description, scale, wavelengths, stop, conjugates,
pickups, validators and solves.  The dictionary leaves out the fields, which become the default ones, and
`update_radius` of the conjugates. -/
theorem c80_system (s : Syst) (he : ∀ e ∈ s.elements, Loadable float lib e) (hw : s.wavelengths ≠ [])
    (h1 : s.object.nickname = none) (h2 : s.object.pupil.nickname = none)
    (h3 : s.image.nickname = none) (h4 : s.image.pupil.nickname = none) :
    ∃ r, Syst.init float lib s.dict = .ok r ∧
      r.elements = s.elements.map (fun e => { e with tf := snapped e.tf }) ∧
      r.description = s.description ∧ r.scale = s.scale ∧ r.wavelengths = s.wavelengths ∧
      r.stop = s.stop ∧ r.object = { s.object with updateRadius := false } ∧
      r.image = { s.image with updateRadius := false } ∧ r.pickups = s.pickups ∧
      r.validators = s.validators ∧ r.solves = s.solves ∧
      (s.object.size = 0 → r.fields = [0]) ∧ (s.object.size ≠ 0 → r.fields = [0, 0.7, 1]) := by
  have hels := makeElements_of float lib s.elements fun e hm =>
    c80_element float lib e (he e hm).1 (he e hm).2.1 (he e hm).2.2
  have hob := c80_conjugate s.object h1 h2
  have him := c80_conjugate s.image h3 h4
  obtain ⟨elements, description, scale, wavelengths, stop, object, image, fields, pickups, validators,
    solves⟩ := s
  have g1 : getWavelengths (Syst.dict ⟨elements, description, scale, wavelengths, stop, object, image,
      fields, pickups, validators, solves⟩) = .ok wavelengths := by
    cases wavelengths with
    | nil => exact absurd rfl hw
    | cons w ws => rfl
  have g2 : getConj (Syst.dict ⟨elements, description, scale, wavelengths, stop, object, image,
      fields, pickups, validators, solves⟩) .object defaultObject =
      .ok { object with updateRadius := false } := by
    have : get .object (Syst.dict ⟨elements, description, scale, wavelengths, stop, object, image,
      fields, pickups, validators, solves⟩) = some (.dict object.dict) := rfl
    unfold getConj
    rw [this]
    simp only [conj_dict_ne, Bool.false_eq_true, if_false]
    exact hob
  have g3 : getConj (Syst.dict ⟨elements, description, scale, wavelengths, stop, object, image,
      fields, pickups, validators, solves⟩) .image defaultImage =
      .ok { image with updateRadius := false } := by
    have : get .image (Syst.dict ⟨elements, description, scale, wavelengths, stop, object, image,
      fields, pickups, validators, solves⟩) = some (.dict image.dict) := rfl
    unfold getConj
    rw [this]
    simp only [conj_dict_ne, Bool.false_eq_true, if_false]
    exact him
  refine ⟨⟨elements.map fun e => { e with tf := snapped e.tf }, description, scale, wavelengths, stop,
    { object with updateRadius := false }, { image with updateRadius := false },
    open Classical in if object.size = 0 then [0] else [0, 0.7, 1], pickups, validators, solves⟩,
    ?_, rfl, rfl, rfl, rfl, rfl, rfl, rfl, rfl, rfl, rfl, fun h => if_pos h, fun h => if_neg h⟩
  unfold Syst.init
  rw [if_pos (by simp [accepts, Syst.dict]), g1, g2, g3]
  change ((makeElements float lib (elements.map fun e => .dict e.dict)).bind fun es => _) = _
  rw [hels]
  rfl

/-- C80, violation: fields other than the default ones are lost. -/
theorem c80_fields_violation (s : Syst) (he : ∀ e ∈ s.elements, Loadable float lib e)
    (hw : s.wavelengths ≠ []) (h1 : s.object.nickname = none) (h2 : s.object.pupil.nickname = none)
    (h3 : s.image.nickname = none) (h4 : s.image.pupil.nickname = none) (hf : s.fields = [0, 0.5]) :
    ∃ r, Syst.init float lib s.dict = .ok r ∧ r.fields ≠ s.fields := by
  obtain ⟨r, hr, -, -, -, -, -, -, -, -, -, -, h5, h6⟩ := c80_system float lib s he hw h1 h2 h3 h4
  refine ⟨r, hr, ?_⟩
  rw [hf]
  by_cases h : s.object.size = 0
  · rw [h5 h]; simp
  · rw [h6 h]; simp

open Classical in
theorem surf_dict_snapped (e : Surf) (ht : Reachable e.tf) :
    Surf.dict { e with tf := snapped e.tf } = e.dict := by
  have hd : 0 ≤ e.tf.distance := by
    obtain ⟨d, v, a, h⟩ := ht.is_update
    rw [h, Transform.update_distance]
    exact abs_nonneg d
  have hu : e.tf.direction.dot e.tf.direction = 1 := by
    obtain ⟨d, v, a, h⟩ := ht.is_update
    rw [h, Transform.update_direction]
    exact Transform.updDir_unit d v
  have hst : e.tf.straight ↔ allclose e.tf.direction V3.ez := by
    obtain ⟨d, v, a, h⟩ := ht.is_update
    rw [h, Transform.update_direction, Transform.update_straight]
  have hno : e.tf.normal ↔ allclose e.tf.angles 0 := by
    obtain ⟨d, v, a, h⟩ := ht.is_update
    rw [h, Transform.update_angles, Transform.update_normal]
  have hez : V3.ez.dot V3.ez = 1 := by simp [V3.dot, V3.ez]
  have hc : ∀ v : V3, allclose v v := fun v => by
    have : ∀ x : ℝ, close x x := fun x => by
      unfold close
      rw [sub_self, abs_zero]
      positivity
    exact ⟨this _, this _, this _⟩
  have h0 : tfDict (snapped e.tf) = tfDict e.tf := by
    have k1 : (snapped e.tf).distance = e.tf.distance := by
      unfold snapped
      rw [Transform.update_distance, abs_of_nonneg hd]
    have k2 : (snapped e.tf).direction = if e.tf.straight then V3.ez else e.tf.direction := by
      unfold snapped
      rw [Transform.update_direction, updDir_of_unit (by split <;> assumption),
        if_neg (not_lt.mpr hd)]
    have k3 : (snapped e.tf).angles = if e.tf.normal then 0 else e.tf.angles := by
      unfold snapped
      rw [Transform.update_angles]
    have k4 : (snapped e.tf).straight ↔ e.tf.straight := by
      have : (snapped e.tf).straight = allclose (snapped e.tf).direction V3.ez := by
        unfold snapped
        rw [Transform.update_straight, Transform.update_direction]
      rw [this, k2, hst]
      split
      · rename_i h; exact iff_of_true (hc _) h
      · rfl
    have k5 : (snapped e.tf).normal ↔ e.tf.normal := by
      have : (snapped e.tf).normal = allclose (snapped e.tf).angles 0 := by
        unfold snapped
        rw [Transform.update_normal, Transform.update_angles]
      rw [this, k3, hno]
      split
      · rename_i h; exact iff_of_true (hc _) h
      · rfl
    unfold tfDict
    rw [k1, k2, k3]
    by_cases h1 : e.tf.straight <;> by_cases h2 : e.tf.normal <;> simp [h1, h2, k4, k5]
  unfold Surf.dict
  simp only [h0]

/-- C80: writing a system that has been read gives the same dictionary again. -/
theorem c80_again (s : Syst) (he : ∀ e ∈ s.elements, Loadable float lib e ∧ Reachable e.tf)
    (hw : s.wavelengths ≠ []) (h1 : s.object.nickname = none) (h2 : s.object.pupil.nickname = none)
    (h3 : s.image.nickname = none) (h4 : s.image.pupil.nickname = none) :
    ∃ r, Syst.init float lib s.dict = .ok r ∧ r.dict = s.dict := by
  obtain ⟨r, hr, e1, e2, e3, e4, e5, e6, e7, e8, e9, e10, -⟩ :=
    c80_system float lib s (fun e h => (he e h).1) hw h1 h2 h3 h4
  refine ⟨r, hr, ?_⟩
  unfold Syst.dict
  rw [e1, e2, e3, e4, e5, e6, e7, e8, e9, e10]
  have : (s.elements.map (fun e => ({ e with tf := snapped e.tf } : Surf))).map
      (fun e => Val.dict e.dict) = s.elements.map fun e => Val.dict e.dict := by
    rw [List.map_map]
    apply List.map_congr_left
    intro e h
    exact congrArg Val.dict (surf_dict_snapped e (he e h).2)
  rw [this]
  rfl

/-- A lens surface of index given by the library glass `schott/n-bk7`. -/
noncomputable def exSurf : Surf :=
  ⟨Transform.update 5 ⟨3 / 5, 0, 4 / 5⟩ 0, .fin 10,
    some ⟨"N-BK7".toList, some "SCHOTT".toList, true, false, .coefficients "sellmeier" [1, 2]⟩,
    1 / 20, -1 / 2, some [0, 1], true, none⟩

/-- A library with one glass. -/
def exLib : Lib := fun n c _ =>
  if n = "n-bk7".toList ∧ c = some "schott".toList then
    .ok ⟨"N-BK7".toList, some "SCHOTT".toList, true, false, .coefficients "sellmeier" [1, 2]⟩
  else .error .key

theorem exSurf_loadable : Loadable (fun _ => none) exLib exSurf := by
  refine ⟨rfl, ?_, ?_⟩
  · intro _ _
    norm_num [exSurf]
  · intro m hm
    obtain rfl := Option.some.inj hm
    refine c80_material (fun _ => none) exLib _ "SCHOTT".toList rfl (by decide) (by decide)
      (Or.inl rfl) (by decide) ?_
    unfold exLib
    rw [if_pos (by constructor <;> decide)]

example : ∃ r, Syst.init (fun _ => none) exLib
      (Syst.dict ⟨[exSurf, exSurf], "lens", 1, [1, 2], 1, defaultObject, defaultImage, [0], [.null], [],
        []⟩) = .ok r ∧ r.elements.length = 2 ∧ r.stop = 1 := by
  obtain ⟨r, hr, e1, -, -, -, e5, -⟩ := c80_system (fun _ => none) exLib
    ⟨[exSurf, exSurf], "lens", 1, [1, 2], 1, defaultObject, defaultImage, [0], [.null], [], []⟩
    (by simp [exSurf_loadable]) (by simp) rfl rfl rfl rfl
  exact ⟨r, hr, by rw [e1]; rfl, e5⟩

/-- C80, violation: a direction that is off the axis by less than the tolerance is lost. -/
theorem c80_straight_violation :
    ∃ s : Surf, Reachable s.tf ∧ Surf.make float lib s.dict ≠ .ok s ∧
      ∃ r, Surf.make float lib s.dict = .ok r ∧ r.tf.direction = V3.ez ∧ s.tf.direction.x ≠ 0 := by
  have hn : (⟨1 / 10 ^ 9, 0, 1⟩ : V3).norm ≠ 0 ∧ 1 ≤ (⟨1 / 10 ^ 9, 0, 1⟩ : V3).norm ∧
      (⟨1 / 10 ^ 9, 0, 1⟩ : V3).norm ≤ 1 + 1 / 10 ^ 6 := by
    have h : 1 ≤ (⟨1 / 10 ^ 9, 0, 1⟩ : V3).norm := by
      unfold V3.norm
      rw [Real.le_sqrt' (by norm_num)]
      norm_num [V3.dot]
    refine ⟨by linarith, h, ?_⟩
    unfold V3.norm
    rw [Real.sqrt_le_left (by norm_num)]
    norm_num [V3.dot]
  set N := (⟨1 / 10 ^ 9, 0, 1⟩ : V3).norm with hN
  have hdir : (Transform.update 1 ⟨1 / 10 ^ 9, 0, 1⟩ 0).direction =
      ⟨1 / N * (1 / 10 ^ 9), 0, 1 / N⟩ := by
    rw [Transform.update_direction]
    unfold Transform.updDir
    rw [← hN]
    simp only [if_neg hn.1, if_neg (by norm_num : ¬(1 : ℝ) < 0)]
    apply V3.ext <;> simp
  have hst : (Transform.update 1 ⟨1 / 10 ^ 9, 0, 1⟩ 0).straight := by
    rw [Transform.update_straight, ← Transform.update_direction _ _ 0, hdir]
    have h1 : 1 / N ≤ 1 := by rw [div_le_one (by linarith)]; exact hn.2.1
    have h2 : 0 < 1 / N := one_div_pos.mpr (by linarith)
    have h3 : 1 - 1 / 10 ^ 6 ≤ 1 / N := by
      rw [le_div_iff₀ (by linarith)]
      nlinarith [hn.2.2]
    refine ⟨?_, ?_, ?_⟩
    · unfold close
      simp only [V3.ez, sub_zero, abs_zero, mul_zero, add_zero]
      rw [abs_of_nonneg (by positivity)]
      nlinarith
    · simp [close, V3.ez]
    · unfold close
      simp only [V3.ez, abs_one, mul_one]
      rw [abs_le]
      constructor <;> linarith
  have hx : (Transform.update 1 ⟨1 / 10 ^ 9, 0, 1⟩ 0).direction.x ≠ 0 := by
    rw [hdir]
    have h2 : 0 < 1 / N := one_div_pos.mpr (by linarith)
    positivity
  have hmk := c80_element float lib ⟨Transform.update 1 ⟨1 / 10 ^ 9, 0, 1⟩ 0, .inf, none, 0, 0, none,
    false, none⟩ rfl trivial (by simp)
  have hsn : (snapped (Transform.update 1 ⟨1 / 10 ^ 9, 0, 1⟩ 0)).direction = V3.ez := by
    unfold snapped
    rw [Transform.update_direction, if_pos hst, Transform.update_distance,
      updDir_of_unit (by simp [V3.dot, V3.ez]), if_neg (by norm_num)]
  refine ⟨⟨Transform.update 1 ⟨1 / 10 ^ 9, 0, 1⟩ 0, .inf, none, 0, 0, none, false, none⟩,
    ⟨1, _, _, none, [], rfl⟩, ?_, _, hmk, hsn, hx⟩
  rw [hmk]
  intro h
  have h1 := congrArg (fun x : Except Err Surf => match x with
    | .ok s => s.tf.direction.x
    | .error _ => 0) h
  simp only [hsn] at h1
  exact hx h1.symm

/-! ### The other names of a radius, a curvature and an angle -/

theorem bind_eq_ok {α β : Type} {x : Except Err α} {f : α → Except Err β} {y : β}
    (h : (x >>= f) = .ok y) : ∃ a, x = .ok a ∧ f a = .ok y := by
  cases x with
  | error e => simp [bind, Except.bind] at h
  | ok a => exact ⟨a, rfl, h⟩

/-- What an element takes from its dictionary: half the `diameter` if there is one, else the
`radius`; the inverse of `roc` if there is one, else the `curvature`. -/
theorem c80_element_names (d : Dict) (s : Surf) (h : Surf.init float lib d = .ok s) :
    (∀ x, get .diameter d = some (.num x) → s.radius = .fin (x / 2)) ∧
    (∀ x, get .diameter d = none → get .radius d = some (.num x) → s.radius = .fin x) ∧
    (get .diameter d = none → get .radius d = none → s.radius = .inf) ∧
    (∀ x, get .roc d = some (.num x) → s.curvature * x = 1) ∧
    (∀ x, get .roc d = none → get .curvature d = some (.num x) → s.curvature = x) ∧
    (get .roc d = none → get .curvature d = none → s.curvature = 0) := by
  unfold Surf.init at h
  split at h
  swap
  · simp at h
  obtain ⟨x1, -, h⟩ := bind_eq_ok h
  obtain ⟨x2, -, h⟩ := bind_eq_ok h
  obtain ⟨x3, -, h⟩ := bind_eq_ok h
  obtain ⟨x4, -, h⟩ := bind_eq_ok h
  obtain ⟨r, hr, h⟩ := bind_eq_ok h
  obtain ⟨x6, -, h⟩ := bind_eq_ok h
  obtain ⟨c, hc, h⟩ := bind_eq_ok h
  obtain ⟨x8, -, h⟩ := bind_eq_ok h
  obtain ⟨x9, -, h⟩ := bind_eq_ok h
  obtain ⟨x10, -, h⟩ := bind_eq_ok h
  split at h
  swap
  · simp at h
  have h := Except.ok.inj h
  subst h
  dsimp only
  unfold getRadius at hr
  obtain ⟨y1, e1, hr⟩ := bind_eq_ok hr
  obtain ⟨y2, e2, hr⟩ := bind_eq_ok hr
  have hr := Except.ok.inj hr
  unfold getCurvature at hc
  obtain ⟨z1, f1, hc⟩ := bind_eq_ok hc
  obtain ⟨z2, f2, hc⟩ := bind_eq_ok hc
  refine ⟨?_, ?_, ?_, ?_, ?_, ?_⟩
  · intro x hx
    simp only [optNum, hx] at e1
    have e1 := Except.ok.inj e1
    subst e1
    exact hr.symm
  · intro x hx hx2
    simp only [optNum, hx, hx2] at e1 e2
    have e1 := Except.ok.inj e1
    have e2 := Except.ok.inj e2
    subst e1 e2
    exact hr.symm
  · intro hx hx2
    simp only [optNum, hx, hx2] at e1 e2
    have e1 := Except.ok.inj e1
    have e2 := Except.ok.inj e2
    subst e1 e2
    exact hr.symm
  · intro x hx
    simp only [optNum, hx] at f2
    have f2 := Except.ok.inj f2
    subst f2
    dsimp only at hc
    split at hc
    · simp at hc
    · next hne =>
      have hc := Except.ok.inj hc
      rw [← hc]; field_simp
  · intro x hx hx2
    simp only [optNum, getNum, hx, hx2] at f1 f2
    have f1 := Except.ok.inj f1
    have f2 := Except.ok.inj f2
    subst f1 f2
    exact (Except.ok.inj hc).symm
  · intro hx hx2
    simp only [optNum, getNum, hx, hx2] at f1 f2
    have f1 := Except.ok.inj f1
    have f2 := Except.ok.inj f2
    subst f1 f2
    exact (Except.ok.inj hc).symm

/-- The angle of an infinite conjugate: `angle_deg` in degrees if it is given, else `angle`. -/
theorem c80_conjugate_names (d : Dict) (c : Conj) (h : Conj.initInfinite d = .ok c) :
    (∀ x, get .angleDeg d = some (.num x) → c.size * 180 = x * Real.pi) ∧
    (∀ x, get .angleDeg d = none → get .angle d = some (.num x) → c.size = x) ∧
    c.finite = false := by
  unfold Conj.initInfinite at h
  split at h
  swap
  · simp at h
  obtain ⟨x1, -, h⟩ := bind_eq_ok h
  obtain ⟨x2, -, h⟩ := bind_eq_ok h
  obtain ⟨x3, -, h⟩ := bind_eq_ok h
  obtain ⟨a, ha, h⟩ := bind_eq_ok h
  obtain ⟨g, hg, h⟩ := bind_eq_ok h
  have h := Except.ok.inj h
  subst h
  dsimp only
  refine ⟨?_, ?_, rfl⟩
  · intro x hx
    simp only [optNum, hx] at hg
    have hg := Except.ok.inj hg
    subst hg
    simp
  · intro x hx hx2
    simp only [optNum, getNum, hx, hx2] at hg ha
    have hg := Except.ok.inj hg
    have ha := Except.ok.inj ha
    subst hg ha
    rfl

example : ∃ s, Surf.init float lib [(.diameter, .num 4), (.roc, .num 10)] = .ok s ∧
    s.radius = .fin 2 ∧ s.curvature = 1 / 10 := by
  have hf : fits (.fin 2) (1 / 10) 0 := by intro _ _; norm_num
  refine ⟨⟨Transform.init 0 V3.ez 0 none, .fin 2, none, 1 / 10, 0, none, false, none⟩, ?_, rfl, rfl⟩
  unfold Surf.init
  rw [if_pos (by decide)]
  have h1 : getRadius [(.diameter, .num 4), (.roc, .num 10)] = .ok (.fin 2) := by
    simp [getRadius, optNum, get, bind, Except.bind, pure, Except.pure]
    norm_num
  have h2 : getCurvature [(.diameter, .num 4), (.roc, .num 10)] = .ok (1 / 10) := by
    simp [getCurvature, getNum, optNum, get, bind, Except.bind, pure, Except.pure]
  rw [h1, h2]
  simp only [getNum, getVec, optVec, getMat, optNums, getBool, get, bind, Except.bind]
  exact if_pos (show fits (.fin 2) (1 / 10) 0 from hf)

/-- C80: a material given by a number other than zero has that index at all wavelengths, is solid and no
mirror; `None` or no entry is no material. -/
theorem c80_index (d : Dict) (s : Surf) (hs : Surf.init float lib d = .ok s) :
    (∀ x, get .material d = some (.num x) → x ≠ 0 → ∃ m, s.material = some m ∧ m.data = .model x ∧
      m.solid = true ∧ m.mirror = false) ∧
    (get .material d = none ∨ get .material d = some .null → s.material = none) := by
  have hm : getMat float lib d = .ok s.material := by
    unfold Surf.init at hs
    split at hs
    · obtain ⟨v1, -, hs⟩ := bind_eq_ok hs
      obtain ⟨v2, -, hs⟩ := bind_eq_ok hs
      obtain ⟨v3, -, hs⟩ := bind_eq_ok hs
      obtain ⟨v4, -, hs⟩ := bind_eq_ok hs
      obtain ⟨v5, -, hs⟩ := bind_eq_ok hs
      obtain ⟨v6, h6, hs⟩ := bind_eq_ok hs
      obtain ⟨v7, -, hs⟩ := bind_eq_ok hs
      obtain ⟨v8, -, hs⟩ := bind_eq_ok hs
      obtain ⟨v9, -, hs⟩ := bind_eq_ok hs
      obtain ⟨v10, -, hs⟩ := bind_eq_ok hs
      split at hs
      · cases hs; exact h6
      · cases hs
    · cases hs
  constructor
  · intro x hx h0
    unfold getMat at hm
    rw [hx] at hm
    simp only [if_neg h0, Mat.make, Except.ok.injEq] at hm
    exact ⟨_, hm.symm, rfl, rfl, rfl⟩
  · rintro (h | h) <;>
    · unfold getMat at hm
      rw [h] at hm
      exact (Except.ok.inj hm).symm

example : ∃ s, Surf.init float lib [(.material, .num 1)] = .ok s ∧
    get .material [(.material, .num 1)] = some (.num 1) := by
  refine ⟨⟨Transform.init 0 V3.ez 0 none, .inf, some ⟨['-'], none, true, false, .model 1⟩, 0, 0, none, false,
    none⟩, ?_, rfl⟩
  unfold Surf.init
  rw [if_pos (by decide)]
  simp [getNum, getVec, optVec, getMat, optNums, getBool, getRadius, getCurvature, optNum, get, bind,
    Except.bind, pure, Except.pure, Mat.make, fits]

/-- C80: a conjugate described without a pupil has a pupil of radius zero at distance one, which is
updated in its distance only. -/
theorem c80_no_pupil (d : Dict) (q : Conj) (hd : get .pupil d = none) (h : Conj.make d = .ok q) :
    q.pupil = ⟨.radius, 0, 1, true, false, false, false, 1, "rectilinear", none⟩ := by
  have hp : ∀ d', get .pupil d' = none → getPupil d' = .ok defaultPupil := by
    intro d' h'
    unfold getPupil
    rw [h']
  unfold Conj.make at h
  cases hs : select types "Conjugate" "infinite" d with
  | error e => rw [hs] at h; cases h
  | ok r =>
    obtain ⟨c, d'⟩ := r
    have hd' : get .pupil d' = none := by
      unfold select at hs
      split at hs
      · split at hs
        · cases hs
          rw [get_erase, if_neg (by simp), hd]
        · cases hs
      · cases hs
    rw [hs] at h
    cases c with
    | finite =>
      change Conj.initFinite d' = .ok q at h
      unfold Conj.initFinite at h
      split at h
      · rw [hp d' hd'] at h
        obtain ⟨x, hx, h⟩ := bind_eq_ok h
        obtain ⟨_, -, h⟩ := bind_eq_ok h
        obtain ⟨_, -, h⟩ := bind_eq_ok h
        obtain ⟨_, -, h⟩ := bind_eq_ok h
        cases hx
        cases h
        rfl
      · cases h
    | infinite =>
      change Conj.initInfinite d' = .ok q at h
      unfold Conj.initInfinite at h
      split at h
      · rw [hp d' hd'] at h
        obtain ⟨x, hx, h⟩ := bind_eq_ok h
        obtain ⟨_, -, h⟩ := bind_eq_ok h
        obtain ⟨_, -, h⟩ := bind_eq_ok h
        obtain ⟨_, -, h⟩ := bind_eq_ok h
        obtain ⟨_, -, h⟩ := bind_eq_ok h
        cases hx
        cases h
        rfl
      · cases h
    | _ => cases h

example : ∃ q, Conj.make [(.type, .str "finite"), (.radius, .num 3)] = .ok q ∧ q.size = 3 ∧
    q.pupil.value = 0 ∧ q.pupil.distance = 1 := by
  have hm : ∃ q, Conj.make [(.type, .str "finite"), (.radius, .num 3)] = .ok q ∧ q.size = 3 := by
    unfold Conj.make
    rw [c53_select _ _ _ "finite" _ (by rfl), c53_table]
    refine ⟨⟨true, 3, defaultPupil, "rectilinear", false, none⟩, ?_, rfl⟩
    rfl
  obtain ⟨q, h, hs⟩ := hm
  have := c80_no_pupil _ q (by rfl) h
  exact ⟨q, h, hs, by rw [this], by rw [this]⟩

/-- C80: `System()` is empty, has its object at infinity on axis and its image with a size that follows the
paraxial trace, both seen through pupils of radius 1 at distance 1 that follow the paraxial trace and are
not aimed; the stop is 1, lengths are in millimetres, and the only field is on axis.  Its projections and
those of the pupils are such that can be written and read again. -/
theorem c80_default : ∃ s, Syst.init float lib [] = .ok s ∧ s.elements = [] ∧ s.stop = 1 ∧
    s.scale = 1 / 1000 ∧ s.fields = [0] ∧ s.object.finite = false ∧ s.object.size = 0 ∧
    s.object.updateRadius = false ∧ s.image.finite = true ∧ s.image.size = 0 ∧
    s.image.updateRadius = true ∧ s.wavelengths.length = 3 ∧ (∀ w ∈ s.wavelengths, 4e-7 < w ∧ w < 7e-7) ∧
    ∀ c ∈ [s.object, s.image], c.projection = "rectilinear" ∧ c.nickname = none ∧
      c.pupil = ⟨.radius, 1, 1, true, true, false, false, 1, "rectilinear", none⟩ := by
  refine ⟨⟨[], "", 1e-3, [587.56e-9, 656.27e-9, 486.13e-9], 1, defaultObject, defaultImage, [0], [], [],
    []⟩, ?_, rfl, rfl, ?_, rfl, rfl, rfl, rfl, rfl, rfl, rfl, rfl, ?_, ?_⟩
  · unfold Syst.init
    rw [if_pos (by decide)]
    have hf : getFields [] defaultObject = .ok [0] := by
      simp [getFields, optNums, get, Except.map, Conj.point, defaultObject]
    simp only [getList, getNum, getStr, getWavelengths, getStop, getConj, optNums, get, makeElements, hf,
      bind, Except.bind, Except.map, pure, Except.pure]
  · norm_num
  · intro w hw
    simp only [List.mem_cons, List.not_mem_nil, or_false] at hw
    rcases hw with rfl | rfl | rfl <;> norm_num
  · intro c hc
    simp only [List.mem_cons, List.not_mem_nil, or_false] at hc
    rcases hc with rfl | rfl <;> exact ⟨rfl, rfl, rfl⟩

end element

end RayOpt.Serial
