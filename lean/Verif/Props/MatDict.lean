import Verif.Model.MatDict
import Mathlib.Tactic

/-!
C99: what the dictionaries of materials keep.
-/

namespace RayOpt.MatDict

open Serial (Err)
open Glass (Num)

theorem get_append (k : String) (a b : Dict) :
    get k (a ++ b) = (get k a).orElse fun _ => get k b := by
  induction a with
  | nil => rfl
  | cons p a ih =>
    by_cases hp : p.1 = k
    · simp [get, hp]
    · simp only [List.cons_append, get, if_neg hp, ih]

theorem get_if (P : Prop) [Decidable P] (k j : String) (v : Value) :
    get k (if P then [(j, v)] else []) = if j = k ∧ P then some v else none := by
  by_cases h : P <;> by_cases hj : j = k <;> simp [get, h, hj]

theorem get_if_not (P : Prop) [Decidable P] (k j : String) (v : Value) :
    get k (if P then [] else [(j, v)]) = if j = k ∧ ¬P then some v else none := by
  by_cases h : P <;> by_cases hj : j = k <;> simp [get, h, hj]

theorem get_catalogItem (k : String) {c : Option String} (h : c ≠ some "") :
    get k (catalogItem c) = if "catalog" = k then c.map .text else none := by
  cases c with
  | none => simp [catalogItem, get]
  | some s =>
    have hs : s ≠ "" := fun e => h (by rw [e])
    simp only [catalogItem, if_pos hs, get, Option.map_some]

theorem get_catalogItem_ne (k : String) (c : Option String) (h : k ≠ "catalog") :
    get k (catalogItem c) = none := by
  cases c with
  | none => rfl
  | some s =>
    simp only [catalogItem]
    rw [get_if, if_neg (fun e => h e.1.symm)]

theorem keys_catalogItem (c : Option String) : ∀ p ∈ catalogItem c, p.1 = "catalog" := by
  cases c with
  | none => simp [catalogItem]
  | some s =>
    simp only [catalogItem]
    split_ifs <;> simp

/-- The thermal data in the dictionary. -/
def thermalOut : Option ThermalAttr → Option ThermalAttr
  | some (.object t) => some (.dict t)
  | t => t

/-- What the dictionary of `Material` holds. -/
theorem base_spec (m : Mat) (b : Dict) (h : m.base = .ok b) :
    get "name" b = (if m.name ≠ "" then some (.text m.name) else none) ∧
    get "solid" b = (if m.solid then none else some (.bool false)) ∧
    get "mirror" b = (if m.mirror then some (.bool true) else none) ∧
    get "catalog" b = get "catalog" (catalogItem m.catalog) ∧
    get "thermal" b = (thermalOut m.thermal).map .thermal ∧
    (∀ k, k ∉ Class.plain.names → get k b = none) ∧ (∀ p ∈ b, p.1 ∈ Class.plain.names) := by
  have key : ∀ t : Dict, (∀ p ∈ t, p.1 = "thermal") → get "thermal" t = (thermalOut m.thermal).map .thermal →
      b = (if m.name ≠ "" then [("name", Value.text m.name)] else []) ++
        (if m.solid then [] else [("solid", .bool m.solid)]) ++
        (if m.mirror then [("mirror", .bool m.mirror)] else []) ++ catalogItem m.catalog ++ t →
      get "name" b = (if m.name ≠ "" then some (.text m.name) else none) ∧
      get "solid" b = (if m.solid then none else some (.bool false)) ∧
      get "mirror" b = (if m.mirror then some (.bool true) else none) ∧
      get "catalog" b = get "catalog" (catalogItem m.catalog) ∧
      get "thermal" b = (thermalOut m.thermal).map .thermal ∧
      (∀ k, k ∉ Class.plain.names → get k b = none) ∧ (∀ p ∈ b, p.1 ∈ Class.plain.names) := by
    intro t ht hg hb
    have hne : ∀ k, k ≠ "thermal" → get k t = none := by
      intro k hk
      clear hg hb
      induction t with
      | nil => rfl
      | cons p t ih =>
        rw [show get k (p :: t) = if p.1 = k then some p.2 else get k t from rfl, if_neg, ih]
        · exact fun q hq => ht q (List.mem_cons_of_mem _ hq)
        · rw [ht p List.mem_cons_self]; exact hk.symm
    have hc := fun k h => get_catalogItem_ne k m.catalog h
    refine ⟨?_, ?_, ?_, ?_, ?_, ?_, ?_⟩
    · rw [hb]
      simp only [get_append, get_if, get_if_not]
      rw [hc "name" (by decide), hne "name" (by decide)]
      by_cases h1 : m.name = "" <;> simp [h1]
    · rw [hb]
      simp only [get_append, get_if, get_if_not]
      rw [hc "solid" (by decide), hne "solid" (by decide)]
      cases m.solid <;> simp
    · rw [hb]
      simp only [get_append, get_if, get_if_not]
      rw [hc "mirror" (by decide), hne "mirror" (by decide)]
      cases m.mirror <;> simp
    · rw [hb]
      simp only [get_append, get_if, get_if_not]
      rw [hne "catalog" (by decide)]
      simp
    · rw [hb]
      simp only [get_append, get_if, get_if_not]
      rw [hc "thermal" (by decide), hg]
      simp
    · intro k hk
      simp only [Class.names, List.mem_cons, List.not_mem_nil, or_false, not_or] at hk
      obtain ⟨k1, k2, k3, k4, k5⟩ := hk
      rw [hb]
      simp only [get_append, get_if, get_if_not]
      rw [hc k k4, hne k k5]
      simp [Ne.symm k1, Ne.symm k2, Ne.symm k3]
    · intro p hp
      rw [hb] at hp
      simp only [List.mem_append] at hp
      rcases hp with (((hp | hp) | hp) | hp) | hp
      · split_ifs at hp <;> simp_all [Class.names]
      · split_ifs at hp <;> simp_all [Class.names]
      · split_ifs at hp <;> simp_all [Class.names]
      · rw [keys_catalogItem _ p hp]; simp [Class.names]
      · rw [ht p hp]; simp [Class.names]
  unfold Mat.base at h
  rcases ht : m.thermal with _ | t | t
  · simp only [ht, Except.ok.injEq] at h
    rw [ht] at key
    exact key [] (by simp) rfl (by rw [← h, List.append_nil])
  · simp only [ht, Except.ok.injEq] at h
    rw [ht] at key
    exact key [("thermal", .thermal (.dict t))] (by simp) rfl h.symm
  · simp only [ht] at h
    cases h

/-- The own entries of a class. -/
noncomputable def own : Data → Dict
  | .plain => []
  | .model n => [("n", .num (.fin n))]
  | .abbe a => open Classical in [("n", .num (.fin a.n)), ("v", .num a.v)] ++
      (if a.ref ≠ Glass.lambdaD then [("lambda_ref", .num (.fin a.ref))] else []) ++
      (if a.short ≠ Glass.lambdaF then [("lambda_short", .num (.fin a.short))] else []) ++
      (if a.long ≠ Glass.lambdaC then [("lambda_long", .num (.fin a.long))] else [])
  | .coefficients typ c => [("typ", .text typ), ("coefficients", .nums c)]

theorem dict_own (m : Mat) (d : Dict) (h : m.dict = .ok d) :
    ∃ b, m.base = .ok b ∧ d = b ++ own m.data := by
  unfold Mat.dict at h
  cases hb : m.base with
  | error e => rw [hb] at h; cases h
  | ok b =>
    rw [hb] at h
    cases h
    refine ⟨b, rfl, ?_⟩
    rcases m.data with _ | n | a | ⟨typ, cs⟩ <;> simp [own]

theorem own_base (x : Data) : ∀ k ∈ Class.plain.names, get k (own x) = none := by
  intro k hk
  simp only [Class.names, List.mem_cons, List.not_mem_nil, or_false] at hk
  rcases x with _ | n | a | ⟨typ, cs⟩
  · rfl
  · rcases hk with rfl | rfl | rfl | rfl | rfl <;> simp [own, get]
  · rcases hk with rfl | rfl | rfl | rfl | rfl <;> simp only [own, get_append, get_if] <;> simp [get]
  · rcases hk with rfl | rfl | rfl | rfl | rfl <;> simp [own, get]

/-- The dictionary read by the class, whatever `thermal` is. -/
theorem init_dict (m : Mat) (hn : m.name ≠ "") (hc : m.catalog ≠ some "") (d : Dict)
    (h : m.dict = .ok d) : m.cls.init d = .ok { m with thermal := thermalOut m.thermal } := by
  obtain ⟨b, hb, rfl⟩ := dict_own m d h
  obtain ⟨e1, e2, e3, e4, e5, e6, e7⟩ := base_spec m b hb
  have f := own_base m.data
  have a1 : textArg (b ++ own m.data) "name" "-" = .ok m.name := by
    unfold textArg
    rw [get_append, e1, if_pos hn]
    rfl
  have a2 : boolArg (b ++ own m.data) "solid" true = .ok m.solid := by
    unfold boolArg
    rw [get_append, e2, f _ (by decide)]
    cases m.solid <;> rfl
  have a3 : boolArg (b ++ own m.data) "mirror" false = .ok m.mirror := by
    unfold boolArg
    rw [get_append, e3, f _ (by decide)]
    cases m.mirror <;> rfl
  have a4 : catalogArg (b ++ own m.data) = .ok m.catalog := by
    unfold catalogArg
    rw [get_append, e4, get_catalogItem _ hc, f _ (by decide), if_pos rfl]
    cases m.catalog <;> rfl
  have a5 : thermalArg (b ++ own m.data) = .ok (thermalOut m.thermal) := by
    unfold thermalArg
    rw [get_append, e5, f _ (by decide)]
    cases thermalOut m.thermal <;> rfl
  have a6 : m.cls.data (b ++ own m.data) = .ok m.data := by
    have g : ∀ k, k ∉ Class.plain.names → get k (b ++ own m.data) = get k (own m.data) := by
      intro k hk
      rw [get_append, e6 k hk]
      rfl
    rcases hd : m.data with _ | n | ⟨n, v, ref, long, short⟩ | ⟨typ, cs⟩ <;> rw [hd] at g
    · simp only [Mat.cls, hd]; rfl
    · simp only [Mat.cls, hd, Class.data, numArg]
      rw [g _ (by decide)]
      rfl
    · simp only [Mat.cls, hd, Class.data, numArg, extArg]
      rw [g _ (by decide), g _ (by decide), g _ (by decide), g _ (by decide), g _ (by decide)]
      simp only [own, get_append, get_if]
      by_cases h1 : ref = Glass.lambdaD <;> by_cases h2 : short = Glass.lambdaF <;>
        by_cases h3 : long = Glass.lambdaC <;> simp [get, h1, h2, h3] <;> rfl
    · simp only [Mat.cls, hd, Class.data, textArg]
      rw [g _ (by decide), g _ (by decide)]
      rfl
  unfold Class.init
  rw [if_pos]
  · rw [a1, a2, a3, a4, a5, a6]
    rfl
  · intro p hp
    rcases List.mem_append.mp hp with hp | hp
    · have := e7 p hp
      simp only [Class.names, List.mem_cons, List.not_mem_nil, or_false] at this
      rcases hd : m.data with _ | n | a | ⟨typ, cs⟩ <;>
        (simp only [Mat.cls, hd, Class.names, List.mem_cons, List.not_mem_nil, or_false]; tauto)
    · rcases hd : m.data with _ | n | a | ⟨typ, cs⟩ <;> rw [hd] at hp <;>
        simp only [Mat.cls, hd, own] at hp ⊢
      · simp at hp
      · simp at hp; subst hp; simp [Class.names]
      · simp only [List.mem_append, List.mem_cons, List.not_mem_nil, or_false] at hp
        rcases hp with (((rfl | rfl) | hp) | hp) | hp
        · simp [Class.names]
        · simp [Class.names]
        all_goals split_ifs at hp <;> simp at hp <;> subst hp <;> simp [Class.names]
      · simp at hp; rcases hp with rfl | rfl <;> simp [Class.names]

/-- C99: the class of a material, called with the dictionary of a material without thermal data that
has a name and no empty catalogue name, makes the same material. -/
theorem c99_round_trip (m : Mat) (hn : m.name ≠ "") (hc : m.catalog ≠ some "")
    (ht : m.thermal = none) : ∃ d, m.dict = .ok d ∧ m.cls.init d = .ok m := by
  obtain ⟨name, solid, mirror, catalog, thermal, data⟩ := m
  simp only at ht
  subst ht
  exact ⟨_, rfl, init_dict _ hn hc _ rfl⟩

/-- The basic materials, and a glass given by its Abbe number at other lines than the default ones. -/
example : (vacuum.name ≠ "" ∧ vacuum.catalog ≠ some "" ∧ vacuum.thermal = none) ∧
    (mirror.name ≠ "" ∧ mirror.catalog ≠ some "" ∧ mirror.thermal = none) ∧
    (air.name ≠ "" ∧ air.catalog ≠ some "" ∧ air.thermal = none) ∧
    ∃ m : Mat, m.data = .abbe ⟨1.5, .fin 50, 546e-9, 644e-9, 480e-9⟩ ∧ m.name ≠ "" ∧
      m.catalog ≠ some "" ∧ m.thermal = none :=
  ⟨by simp [vacuum], by simp [mirror], by simp [air],
    ⟨"x", true, false, none, none, .abbe ⟨1.5, .fin 50, 546e-9, 644e-9, 480e-9⟩⟩, rfl, by simp,
    by simp, rfl⟩

/-- The keys tell the class. -/
theorem dict_keys (m : Mat) (d : Dict) (h : m.dict = .ok d) :
    ((get "typ" d).isSome ↔ m.cls = .coefficients) ∧ ((get "v" d).isSome ↔ m.cls = .abbe) ∧
    ((get "n" d).isSome ↔ m.cls = .abbe ∨ m.cls = .model) := by
  obtain ⟨b, hb, rfl⟩ := dict_own m d h
  obtain ⟨-, -, -, -, -, e6, -⟩ := base_spec m b hb
  have g : ∀ k, k ∉ Class.plain.names → get k (b ++ own m.data) = get k (own m.data) := by
    intro k hk
    rw [get_append, e6 k hk]
    rfl
  rw [g _ (by decide), g _ (by decide), g _ (by decide)]
  rcases hd : m.data with _ | n | a | ⟨typ, cs⟩
  · simp [Mat.cls, hd, own, get]
  · simp [Mat.cls, hd, own, get]
  · simp only [own, get_append, get_if, Mat.cls, hd]
    simp [get]
  · simp [Mat.cls, hd, own, get]

/-- C99: different materials (named, without thermal data) have different dictionaries, although
dictionaries of materials do not name the class. -/
theorem c99_injective (m k : Mat) (hm : m.name ≠ "") (hk : k.name ≠ "") (hmc : m.catalog ≠ some "")
    (hkc : k.catalog ≠ some "") (hmt : m.thermal = none) (hkt : k.thermal = none)
    (h : m.dict = k.dict) : m = k := by
  obtain ⟨d, hd, h1⟩ := c99_round_trip m hm hmc hmt
  obtain ⟨e, he, h2⟩ := c99_round_trip k hk hkc hkt
  rw [hd, he] at h
  cases h
  obtain ⟨a1, a2, a3⟩ := dict_keys m d hd
  obtain ⟨b1, b2, b3⟩ := dict_keys k d he
  have hcls : m.cls = k.cls := by
    cases c1 : m.cls <;> cases c2 : k.cls <;> simp_all
  rw [hcls, h2] at h1
  exact (Except.ok.inj h1).symm

example : vacuum.dict ≠ mirror.dict := by
  intro h
  have := c99_injective vacuum mirror (by simp [vacuum]) (by simp [mirror]) (by simp [vacuum])
    (by simp [mirror]) rfl rfl h
  simp [vacuum, mirror] at this

/-- C99: the dictionary of a `ModelMaterial` is also accepted by `AbbeMaterial`, and that material has
the same refractive index at every wavelength; `Material` and `CoefficientsMaterial` refuse it. -/
theorem c99_model_as_abbe (m : Mat) (n : ℝ) (hm : m.data = .model n) (hn : m.name ≠ "")
    (hc : m.catalog ≠ some "") (ht : m.thermal = none) : ∃ d a, m.dict = .ok d ∧
      Class.abbe.init d = .ok { m with data := .abbe a } ∧
      (∀ f l, (Mat.index { m with data := .abbe a } f l) = m.index f l) ∧
      Class.plain.init d = .error .type ∧ Class.coefficients.init d = .error .type := by
  obtain ⟨d, hd, hi⟩ := c99_round_trip m hn hc ht
  obtain ⟨b, hb, hdb⟩ := dict_own m d hd
  rw [hm] at hdb
  obtain ⟨e1, e2, e3, e4, e5, e6, e7⟩ := base_spec m b hb
  have hmem : ("n", Value.num (.fin n)) ∈ d := by rw [hdb]; simp [own]
  refine ⟨d, Glass.Abbe.ofNV n .inf, hd, ?_, fun f l => ?_, ?_, ?_⟩
  · have hcls : m.cls = .model := by simp [Mat.cls, hm]
    rw [hcls] at hi
    unfold Class.init at hi ⊢
    have hnames : ∀ p ∈ d, p.1 ∈ Class.abbe.names := by
      intro p hp
      rw [hdb] at hp
      rcases List.mem_append.mp hp with hp | hp
      · have := e7 p hp
        simp only [Class.names, List.mem_cons, List.not_mem_nil, or_false] at this ⊢
        tauto
      · simp [own] at hp
        subst hp
        simp [Class.names]
    have hnames' : ∀ p ∈ d, p.1 ∈ Class.model.names := by
      intro p hp
      rw [hdb] at hp
      rcases List.mem_append.mp hp with hp | hp
      · have := e7 p hp
        simp only [Class.names, List.mem_cons, List.not_mem_nil, or_false] at this ⊢
        tauto
      · simp [own] at hp
        subst hp
        simp [Class.names]
    have hdata : Class.abbe.data d = .ok (.abbe (Glass.Abbe.ofNV n .inf)) := by
      have g : ∀ k, k ∉ Class.plain.names → get k d = get k (own (.model n)) := by
        intro k hk
        rw [hdb, get_append, e6 k hk]
        rfl
      simp only [Class.data, numArg, extArg]
      rw [g _ (by decide), g _ (by decide), g _ (by decide), g _ (by decide), g _ (by decide)]
      rfl
    rw [if_pos hnames'] at hi
    rw [if_pos hnames, hdata]
    cases h1 : textArg d "name" "-" with
    | error e => rw [h1] at hi; cases hi
    | ok x1 =>
    cases h2 : boolArg d "solid" true with
    | error e => rw [h1, h2] at hi; cases hi
    | ok x2 =>
    cases h3 : boolArg d "mirror" false with
    | error e => rw [h1, h2, h3] at hi; cases hi
    | ok x3 =>
    cases h4 : catalogArg d with
    | error e => rw [h1, h2, h3, h4] at hi; cases hi
    | ok x4 =>
    cases h5 : thermalArg d with
    | error e => rw [h1, h2, h3, h4, h5] at hi; cases hi
    | ok x5 =>
    cases h6 : Class.model.data d with
    | error e => rw [h1, h2, h3, h4, h5, h6] at hi; cases hi
    | ok x6 =>
    rw [h1, h2, h3, h4, h5, h6] at hi
    cases hi
    rfl
  · have : (Glass.Abbe.ofNV n .inf).index l = some n := by
      unfold Glass.Abbe.index
      rw [if_neg]
      · rfl
      · norm_num [Glass.Abbe.ofNV, Glass.lambdaC, Glass.lambdaF]
    simp only [Mat.index, hm, this]
  · unfold Class.init
    rw [if_neg]
    intro h
    have := h _ hmem
    simp [Class.names] at this
  · unfold Class.init
    rw [if_neg]
    intro h
    have := h _ hmem
    simp [Class.names] at this

example : vacuum.data = .model 1 ∧ vacuum.name ≠ "" ∧ vacuum.catalog ≠ some "" ∧
    vacuum.thermal = none := by simp [vacuum]

/-- C99, violation: thermal data do not survive.  The material made from the dictionary holds the
dictionary of the thermal data instead of a `Thermal`, so that asking it for its own dictionary raises
`AttributeError`. -/
theorem c99_thermal_violation (m : Mat) (t : Thermal) (hn : m.name ≠ "") (hc : m.catalog ≠ some "")
    (ht : m.thermal = some (.object t)) : ∃ d m', m.dict = .ok d ∧ m.cls.init d = .ok m' ∧ m' ≠ m ∧
      m' = { m with thermal := some (.dict t) } ∧ m'.dict = .error .attribute := by
  obtain ⟨name, solid, mirror, catalog, thermal, data⟩ := m
  simp only at ht
  subst ht
  refine ⟨_, _, rfl, init_dict _ hn hc _ rfl, ?_, rfl, rfl⟩
  simp [thermalOut]

/-- C99: coefficients without a type are those of Sellmeier; without coefficients there is a `TypeError`. -/
theorem c99_default (name : String) (c : List ℝ) :
    Class.init .coefficients [("name", .text name), ("coefficients", .nums c)] =
      .ok ⟨name, true, false, none, none, .coefficients "sellmeier" c⟩ ∧
    Class.init .coefficients [("name", .text name)] = .error .type := by
  constructor <;> simp [Class.init, Class.names, Class.data, textArg, boolArg, catalogArg, thermalArg, get] <;> rfl

/-- C99: how the materials of the catalogue `basic` are saved. -/
theorem c99_basic : vacuum.dict = .ok [("name", .text "vacuum"), ("solid", .bool false), ("catalog", .text "basic"),
      ("n", .num (.fin 1))] ∧
    mirror.dict = .ok [("name", .text "mirror"), ("solid", .bool false), ("mirror", .bool true), ("catalog", .text "basic")] ∧
    air.dict = .ok [("name", .text "air"), ("solid", .bool false), ("catalog", .text "basic"), ("typ", .text "gas"),
      ("coefficients", .nums Glass.airCoefficients)] := by
  refine ⟨?_, ?_, ?_⟩ <;> simp [vacuum, mirror, air, Mat.dict, Mat.base, catalogItem] <;> rfl

/-- C99, violation: a material without a name comes back with the name "-", and an empty name of a
catalogue comes back as no catalogue. -/
theorem c99_empty_violation : ∃ (m : Mat) (d : Dict) (m' : Mat), m.dict = .ok d ∧ m.cls.init d = .ok m' ∧ m.name = "" ∧
    m.catalog = some "" ∧ m'.name = "-" ∧ m'.catalog = none := by
  refine ⟨⟨"", true, false, some "", none, .plain⟩, [], ⟨"-", true, false, none, none, .plain⟩, ?_,
    ?_, rfl, rfl, rfl, rfl⟩
  · simp [Mat.dict, Mat.base, catalogItem]; rfl
  · simp [Mat.cls, Class.init, Class.data, textArg, boolArg, catalogArg, thermalArg, get]; rfl

end RayOpt.MatDict
