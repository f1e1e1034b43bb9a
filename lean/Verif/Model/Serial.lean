import Verif.Model.Transform
import Verif.Model.Elements

/-!
The type registry of `NameMixin` (rayopt/name_mixin.py), the dictionaries of pupils, conjugates,
elements and systems and the constructors that read them, and `Material.make`.

Simplified: numbers are reals (`float(...)` is the identity), lists of pickups, validators and solves
are kept as they are, and a keyword argument of an unexpected type is an error here, while Python stores
it.  Python's `float(text)` and the glass library are parameters.
-/

namespace RayOpt.Serial

/-- Text that is taken apart: names of materials. -/
abbrev Text := List Char

/-- The keys of the dictionaries. -/
inductive Key where
  | type
  | nickname
  | distance
  | updateDistance
  | updateRadius
  | aim
  | telecentric
  | refractiveIndex
  | projection
  | na
  | slope
  | radius
  | fno
  | pupil
  | angle
  | angleDeg
  | direction
  | angles
  | offset
  | diameter
  | material
  | curvature
  | conic
  | aspherics
  | roc
  | alternateIntersection
  | elements
  | description
  | scale
  | wavelengths
  | stop
  | fields
  | object
  | image
  | pickups
  | validators
  | solves
  /-- Any other name. -/
  | other (name : String)
deriving DecidableEq

/-- The text of a key. -/
def Key.text : Key → String
  | .type => "type"
  | .nickname => "nickname"
  | .distance => "distance"
  | .updateDistance => "update_distance"
  | .updateRadius => "update_radius"
  | .aim => "aim"
  | .telecentric => "telecentric"
  | .refractiveIndex => "refractive_index"
  | .projection => "projection"
  | .na => "na"
  | .slope => "slope"
  | .radius => "radius"
  | .fno => "fno"
  | .pupil => "pupil"
  | .angle => "angle"
  | .angleDeg => "angle_deg"
  | .direction => "direction"
  | .angles => "angles"
  | .offset => "offset"
  | .diameter => "diameter"
  | .material => "material"
  | .curvature => "curvature"
  | .conic => "conic"
  | .aspherics => "aspherics"
  | .roc => "roc"
  | .alternateIntersection => "alternate_intersection"
  | .elements => "elements"
  | .description => "description"
  | .scale => "scale"
  | .wavelengths => "wavelengths"
  | .stop => "stop"
  | .fields => "fields"
  | .object => "object"
  | .image => "image"
  | .pickups => "pickups"
  | .validators => "validators"
  | .solves => "solves"
  | .other name => name

/-- Values in a dictionary. -/
inductive Val where
  /-- `None`. -/
  | null
  | num (x : ℝ)
  | int (i : ℤ)
  | str (s : String)
  | text (t : Text)
  | bool (b : Bool)
  | vec (v : V3)
  | nums (l : List ℝ)
  | dict (d : List (Key × Val))
  | list (l : List Val)

/-- A dictionary; keys are looked up from the front. -/
abbrev Dict := List (Key × Val)

/-- Exceptions. -/
inductive Err where
  | key
  | type
  | assertion
  | name
  | attribute
  | zeroDivision
  /-- Values outside of the model. -/
  | other
deriving DecidableEq

/-- `d.get(k)`. -/
def get (k : Key) : Dict → Option Val
  | [] => none
  | (j, v) :: d => if j = k then some v else get k d

/-- The dictionary without a key, as after `d.pop(k, ...)`. -/
def erase (k : Key) (d : Dict) : Dict := d.filter fun p => p.1 ≠ k

/-- Are all keys among the names of arguments of a constructor?  Otherwise the call raises
`TypeError`. -/
def accepts (names : List Key) (d : Dict) : Prop := ∀ p ∈ d, p.1 ∈ names

instance (names : List Key) (d : Dict) : Decidable (accepts names d) := by
  unfold accepts; infer_instance

/-! ### The registry, rayopt/name_mixin.py 22-53 -/

/-- What `register` sees of a class: `_type` set in its body, the `_type` it inherits, and its
name. -/
structure ClassDef (C : Type*) where
  cls : C
  name : String
  own : Option String
  inherited : Option String

/-- `sub._type` after line 32 of rayopt/name_mixin.py. -/
def ClassDef.type {C : Type*} (c : ClassDef C) : String :=
  (c.own.orElse fun _ => c.inherited).getD c.name.toLower

/-- `NameMixin._types`: registered classes by base class and type. -/
abbrev Types (C : Type*) := List ((String × String) × C)

/-- `cls._types[k]`. -/
def find {C : Type*} (k : String × String) : Types C → Option C
  | [] => none
  | (j, c) :: t => if j = k then some c else find k t

/-- `register`, rayopt/name_mixin.py 29-36. -/
def register {C : Type*} (t : Types C) (base : String) (c : ClassDef C) : Except Err (Types C) :=
  match find (base, c.type) t with
  | some _ => .error .assertion
  | none => .ok (t ++ [((base, c.type), c.cls)])

/-- A sequence of registrations. -/
def registerAll {C : Type*} (t : Types C) : List (String × ClassDef C) → Except Err (Types C)
  | [] => .ok t
  | (b, c) :: l => (register t b c).bind fun t => registerAll t l

/-- The class chosen by `make` and the rest of the dictionary, rayopt/name_mixin.py 46-52. -/
def select {C : Type*} (t : Types C) (base default : String) (d : Dict) : Except Err (C × Dict) :=
  match (get .type d).getD (.str default) with
  | .str typ => match find (base, typ) t with
    | some c => .ok (c, erase .type d)
    | none => .error .key
  | _ => .error .key

/-! ### The classes of rayopt -/

/-- The four pupils, rayopt/pupils.py 111-216. -/
inductive PKind where
  | na
  | slope
  | radius
  | fno
deriving DecidableEq

/-- `_type` of a pupil. -/
def PKind.type : PKind → String
  | .na => "na"
  | .slope => "slope"
  | .radius => "radius"
  | .fno => "fno"

/-- The name of the argument of a pupil. -/
def PKind.key : PKind → Key
  | .na => .na
  | .slope => .slope
  | .radius => .radius
  | .fno => .fno

/-- The registered classes. -/
inductive Cls where
  | pupil (k : PKind)
  | finite
  | infinite
  | spheroid
deriving DecidableEq

/-- The registrations made when the package is imported: rayopt/pupils.py 111-200,
rayopt/conjugates.py 97, 170, rayopt/elements.py 412. -/
def registrations : List (String × ClassDef Cls) :=
  [("Pupil", ⟨.pupil .na, "NaPupil", some "na", none⟩),
   ("Pupil", ⟨.pupil .slope, "SlopePupil", some "slope", none⟩),
   ("Pupil", ⟨.pupil .radius, "RadiusPupil", some "radius", none⟩),
   ("Pupil", ⟨.pupil .fno, "FnoPupil", some "fno", none⟩),
   ("Conjugate", ⟨.finite, "FiniteConjugate", some "finite", none⟩),
   ("Conjugate", ⟨.infinite, "InfiniteConjugate", some "infinite", none⟩),
   ("Element", ⟨.spheroid, "Spheroid", none, none⟩)]

/-- `NameMixin._types` after the import. -/
def types : Types Cls :=
  [(("Pupil", "na"), .pupil .na), (("Pupil", "slope"), .pupil .slope),
   (("Pupil", "radius"), .pupil .radius), (("Pupil", "fno"), .pupil .fno),
   (("Conjugate", "finite"), .finite), (("Conjugate", "infinite"), .infinite),
   (("Element", "spheroid"), .spheroid)]

/-! ### Reading arguments -/

/-- A number with a default. -/
def getNum (d : Dict) (k : Key) (dflt : ℝ) : Except Err ℝ :=
  match get k d with
  | none => .ok dflt
  | some (.num x) => .ok x
  | some _ => .error .other

/-- A number without a default: `TypeError` if it is missing. -/
def needNum (d : Dict) (k : Key) : Except Err ℝ :=
  match get k d with
  | none => .error .type
  | some (.num x) => .ok x
  | some _ => .error .other

/-- A number or `None`. -/
def optNum (d : Dict) (k : Key) : Except Err (Option ℝ) :=
  match get k d with
  | none | some .null => .ok none
  | some (.num x) => .ok (some x)
  | some _ => .error .other

/-- A flag with a default. -/
def getBool (d : Dict) (k : Key) (dflt : Bool) : Except Err Bool :=
  match get k d with
  | none => .ok dflt
  | some (.bool x) => .ok x
  | some _ => .error .other

/-- A text with a default. -/
def getStr (d : Dict) (k : Key) (dflt : String) : Except Err String :=
  match get k d with
  | none => .ok dflt
  | some (.str x) => .ok x
  | some _ => .error .other

/-- A vector with a default. -/
def getVec (d : Dict) (k : Key) (dflt : V3) : Except Err V3 :=
  match get k d with
  | none => .ok dflt
  | some (.vec x) => .ok x
  | some _ => .error .other

/-- A vector or `None`. -/
def optVec (d : Dict) (k : Key) : Except Err (Option V3) :=
  match get k d with
  | none | some .null => .ok none
  | some (.vec x) => .ok (some x)
  | some _ => .error .other

/-- A list of numbers or `None`. -/
def optNums (d : Dict) (k : Key) : Except Err (Option (List ℝ)) :=
  match get k d with
  | none | some .null => .ok none
  | some (.nums x) => .ok (some x)
  | some _ => .error .other

/-- A list; absent and `None` are the empty list: `x or []`. -/
def getList (d : Dict) (k : Key) : Except Err (List Val) :=
  match get k d with
  | none | some .null => .ok []
  | some (.list x) => .ok x
  | some _ => .error .other

/-! ### Pupils -/

/-- The attributes of a pupil, rayopt/pupils.py 29-39. -/
structure Pupil where
  kind : PKind
  /-- `na`, `slope`, `radius` or `fno`. -/
  value : ℝ
  distance : ℝ
  updateDistance : Bool
  updateRadius : Bool
  aim : Bool
  telecentric : Bool
  index : ℝ
  projection : String
  nickname : Option String

/-- `NameMixin.dict`, rayopt/name_mixin.py 38-44; an empty nickname counts as none. -/
def nameDict (typ default : String) (nickname : Option String) : Dict :=
  (if typ ≠ default then [(.type, .str typ)] else []) ++
  (match nickname with
    | some n => if n ≠ "" then [(.nickname, .str n)] else []
    | none => [])

open Classical in
/-- `Pupil.dict` and those of the subclasses, rayopt/pupils.py 49-64, 120-123, 152-155, 180-183,
204-207. -/
noncomputable def Pupil.dict (p : Pupil) : Dict :=
  nameDict p.kind.type "radius" p.nickname ++
  [(.distance, .num p.distance)] ++
  (if p.updateDistance then [] else [(.updateDistance, .bool false)]) ++
  (if p.updateRadius then [(.updateRadius, .bool true)] else []) ++
  (if p.aim then [(.aim, .bool true)] else []) ++
  (if p.projection ≠ "rectilinear" then [(.projection, .str p.projection)] else []) ++
  (if p.telecentric then [(.telecentric, .bool true)] else []) ++
  (if p.index ≠ 1 then [(.refractiveIndex, .num p.index)] else []) ++
  [(p.kind.key, .num p.value)]

/-- `NaPupil(**d)` and so on, rayopt/pupils.py 29-39, 116-118, 148-150, 176-178, 200-202. -/
def Pupil.init (k : PKind) (d : Dict) : Except Err Pupil :=
  if accepts [k.key, .distance, .updateDistance, .updateRadius, .aim, .telecentric,
      .refractiveIndex, .projection] d then do
    let value ← needNum d k.key
    let distance ← getNum d .distance 1
    let updateDistance ← getBool d .updateDistance true
    let updateRadius ← getBool d .updateRadius false
    let aim ← getBool d .aim false
    let telecentric ← getBool d .telecentric false
    let index ← getNum d .refractiveIndex 1
    let projection ← getStr d .projection "rectilinear"
    pure ⟨k, value, distance, updateDistance, updateRadius, aim, telecentric, index, projection, none⟩
  else .error .type

/-- `Pupil.make(d)`: the pupil. -/
def Pupil.make (d : Dict) : Except Err Pupil :=
  match select types "Pupil" "radius" d with
  | .ok (.pupil k, d) => Pupil.init k d
  | .ok _ => .error .other
  | .error e => .error e

/-! ### Conjugates -/

/-- The attributes of a conjugate, rayopt/conjugates.py 44-51, 102-104, 175-179. -/
structure Conj where
  finite : Bool
  /-- `radius` or `angle`. -/
  size : ℝ
  pupil : Pupil
  projection : String
  updateRadius : Bool
  nickname : Option String

/-- `point`, rayopt/conjugates.py 106-108, 181-183. -/
def Conj.point (c : Conj) : Prop := c.size = 0

open Classical in
/-- `Conjugate.dict` and those of the subclasses, rayopt/conjugates.py 62-67, 110-114, 185-189. -/
noncomputable def Conj.dict (c : Conj) : Dict :=
  nameDict (if c.finite then "finite" else "infinite") "infinite" c.nickname ++
  [(.pupil, .dict c.pupil.dict)] ++
  (if c.projection ≠ "rectilinear" then [(.projection, .str c.projection)] else []) ++
  (if c.size ≠ 0 then [(if c.finite then .radius else .angle, .num c.size)] else [])

/-- `RadiusPupil(radius=0.)`, rayopt/conjugates.py 46-47. -/
def defaultPupil : Pupil := ⟨.radius, 0, 1, true, false, false, false, 1, "rectilinear", none⟩

/-- The pupil of a conjugate: `None`, or `Pupil.make(pupil)`, rayopt/conjugates.py 46-49. -/
def getPupil (d : Dict) : Except Err Pupil :=
  match get .pupil d with
  | none | some .null => .ok defaultPupil
  | some (.dict e) => Pupil.make e
  | some _ => .error .other

/-- `FiniteConjugate(**d)`, rayopt/conjugates.py 44-51, 102-104. -/
def Conj.initFinite (d : Dict) : Except Err Conj :=
  if accepts [.radius, .pupil, .projection, .updateRadius] d then do
    let pupil ← getPupil d
    let projection ← getStr d .projection "rectilinear"
    let update ← getBool d .updateRadius false
    let radius ← getNum d .radius 0
    pure ⟨true, radius, pupil, projection, update, none⟩
  else .error .type

/-- `InfiniteConjugate(**d)`, rayopt/conjugates.py 44-51, 175-179. -/
noncomputable def Conj.initInfinite (d : Dict) : Except Err Conj :=
  if accepts [.angle, .angleDeg, .pupil, .projection, .updateRadius] d then do
    let pupil ← getPupil d
    let projection ← getStr d .projection "rectilinear"
    let update ← getBool d .updateRadius false
    let angle ← getNum d .angle 0
    let deg ← optNum d .angleDeg
    pure ⟨false, deg.elim angle (· * Real.pi / 180), pupil, projection, update, none⟩
  else .error .type

/-- `Conjugate.make(d)`: the conjugate. -/
noncomputable def Conj.make (d : Dict) : Except Err Conj :=
  match select types "Conjugate" "infinite" d with
  | .ok (.finite, d) => Conj.initFinite d
  | .ok (.infinite, d) => Conj.initInfinite d
  | .ok _ => .error .other
  | .error e => .error e

/-- The value of a key of a conjugate after `make`. -/
def popped : Key → Val → Val
  | .pupil, .dict e => .dict (erase .type e)
  | _, v => v

/-- The dictionary handed to `Conjugate.make` after the call: `type` has been removed from it and from
the dictionary of the pupil, rayopt/name_mixin.py 50. -/
def Conj.consumed (d : Dict) : Dict := (erase .type d).map fun p => (p.1, popped p.1 p.2)

/-! ### Materials, rayopt/material.py 78-138, 186-199, 331-337 -/

/-- What kind of material; coefficients and so on are part of `data`. -/
inductive MatData where
  | plain
  | model (n : ℝ)
  | abbe (n : ℝ) (v : Option ℝ)
  | coefficients (typ : String) (c : List ℝ)

/-- A material. -/
structure Mat where
  name : Text
  catalog : Option Text
  solid : Bool
  mirror : Bool
  data : MatData

/-- `str(material)`, rayopt/material.py 117-121. -/
def Mat.str (m : Mat) : Text :=
  match m.catalog with
  | some c => c ++ '/' :: m.name
  | none => m.name

/-- `AbbeMaterial.from_string(txt)` with `name=None`, rayopt/material.py 186-199; `none` is the
`ValueError`.  `float` is Python's. -/
def fromString (float : Text → Option ℝ) (t : Text) : Option Mat :=
  match (t.splitOn '/').map float with
  | [some n, some v] => some ⟨['-'], none, true, false, .abbe n (some v)⟩
  | _ => none

/-- The basic materials, rayopt/material.py 331-337. -/
noncomputable def basic : List Mat :=
  [⟨"vacuum".toList, some "basic".toList, false, false, .model 1⟩,
   ⟨"air".toList, some "basic".toList, false, false,
     .coefficients "gas" [0.05792105, 0.00167917, 238.0185, 57.362]⟩,
   ⟨"mirror".toList, some "basic".toList, false, true, .plain⟩]

/-- `Library.get("material", name, catalog, source)`: external. -/
abbrev Lib := Text → Option Text → Option Text → Except Err Mat

/-- `Material.make(name)` for a text, rayopt/material.py 99-115. -/
noncomputable def Mat.makeText (float : Text → Option ℝ) (lib : Lib) (t : Text) : Except Err Mat :=
  match fromString float t with
  | some m => .ok m
  | none =>
    let parts := ((t.map Char.toLower).splitOn '/').reverse
    let name := parts.headD []
    let catalog := parts[1]?
    let source := parts[2]?
    if catalog = none ∨ catalog = some "basic".toList then
      (basic.find? fun m => m.name = name).elim (lib name catalog source) .ok
    else lib name catalog source

/-- Arguments of `Material.make`. -/
inductive MatArg where
  | null
  | mat (m : Mat)
  | dict (d : Dict)
  | float (x : ℝ)
  | int (i : ℤ)
  | tuple (n v : ℝ)
  | text (t : Text)

/-- `Material.make(name)`, rayopt/material.py 88-115.  A dictionary raises `NameError` (`self` is not
defined in the class method), a tuple `TypeError` (`nd` and `vd` are no arguments of `AbbeMaterial`), an
integer `AttributeError` (`name.lower()`, after the `ValueError` of `from_string` for a single
number). -/
noncomputable def Mat.make (float : Text → Option ℝ) (lib : Lib) : MatArg → Except Err (Option Mat)
  | .null => .ok none
  | .mat m => .ok (some m)
  | .dict _ => .error .name
  | .float x => .ok (some ⟨['-'], none, true, false, .model x⟩)
  | .tuple _ _ => .error .type
  | .int _ => .error .attribute
  | .text t => (Mat.makeText float lib t).map some

/-! ### Elements -/

/-- The attributes of a `Spheroid`, rayopt/elements.py 129-154, 182-186, 277-281, 414-426. -/
structure Surf where
  tf : Transform
  radius : Radius
  material : Option Mat
  curvature : ℝ
  conic : ℝ
  aspherics : Option (List ℝ)
  alternate : Bool
  nickname : Option String

open Classical in
/-- `TransformMixin.dict`, rayopt/elements.py 41-49. -/
noncomputable def tfDict (t : Transform) : Dict :=
  (if t.distance ≠ 0 then [(.distance, .num t.distance)] else []) ++
  (if t.straight then [] else [(.direction, .vec t.direction)]) ++
  (if t.normal then [] else [(.angles, .vec t.angles)])

open Classical in
/-- `Spheroid.dict` with those of its bases, rayopt/elements.py 188-193, 291-295, 428-438. -/
noncomputable def Surf.dict (s : Surf) : Dict :=
  nameDict "spheroid" "spheroid" s.nickname ++
  tfDict s.tf ++
  (match s.radius with
    | .fin r => [(.radius, .num r)]
    | .inf => []) ++
  (match s.material with
    | some m => [(.material, .text m.str)]
    | none => []) ++
  (if s.curvature ≠ 0 then [(.curvature, .num s.curvature)] else []) ++
  (if s.conic ≠ 0 then [(.conic, .num s.conic)] else []) ++
  (match s.aspherics with
    | some a => [(.aspherics, .nums a)]
    | none => []) ++
  (if s.alternate then [(.alternateIntersection, .bool true)] else [])

/-- `material` of `Interface.__init__`, rayopt/elements.py 279-281.  An empty text is not looked up but
stored; that is outside of the model. -/
noncomputable def getMat (float : Text → Option ℝ) (lib : Lib) (d : Dict) :
    Except Err (Option Mat) :=
  match get .material d with
  | none | some .null => .ok none
  | some (.num x) => if x = 0 then .error .other else Mat.make float lib (.float x)
  | some (.int i) => if i = 0 then .error .other else Mat.make float lib (.int i)
  | some (.text t) => if t = [] then .error .other else Mat.make float lib (.text t)
  | some (.dict e) => if e.isEmpty then .error .other else Mat.make float lib (.dict e)
  | some _ => .error .other

/-- `radius` of `Element.__init__`, rayopt/elements.py 182-186. -/
noncomputable def getRadius (d : Dict) : Except Err Radius := do
  let diameter ← optNum d .diameter
  let radius ← optNum d .radius
  pure (match diameter, radius with
    | some x, _ => .fin (x / 2)
    | none, some r => .fin r
    | none, none => .inf)

/-- `curvature` of `Spheroid.__init__`, rayopt/elements.py 414-419. -/
noncomputable def getCurvature (d : Dict) : Except Err ℝ := do
  let curvature ← getNum d .curvature 0
  match ← optNum d .roc with
  | none => pure curvature
  | some r => if r = 0 then .error .zeroDivision else pure (1 / r)

/-- The condition asserted at the end of `Spheroid.__init__`, rayopt/elements.py 425-426. -/
def fits (radius : Radius) (curvature conic : ℝ) : Prop :=
  match radius with
  | .inf => True
  | .fin r => curvature ≠ 0 → -1 < conic → r ^ 2 ≤ 1 / ((1 + conic) * curvature ^ 2)

open Classical in
/-- `Spheroid(**d)`, rayopt/elements.py 31-35, 182-186, 277-281, 414-426. -/
noncomputable def Surf.init (float : Text → Option ℝ) (lib : Lib) (d : Dict) : Except Err Surf :=
  if accepts [.distance, .direction, .angles, .offset, .radius, .diameter, .material,
      .curvature, .conic, .aspherics, .roc, .alternateIntersection] d then do
    let distance ← getNum d .distance 0
    let direction ← getVec d .direction V3.ez
    let angles ← getVec d .angles 0
    let offset ← optVec d .offset
    let radius ← getRadius d
    let material ← getMat float lib d
    let curvature ← getCurvature d
    let conic ← getNum d .conic 0
    let aspherics ← optNums d .aspherics
    let alternate ← getBool d .alternateIntersection false
    if fits radius curvature conic then
      pure ⟨Transform.init distance direction angles offset, radius, material, curvature, conic,
        aspherics, alternate, none⟩
    else .error .assertion
  else .error .type

/-- `Element.make(d)`: the element. -/
noncomputable def Surf.make (float : Text → Option ℝ) (lib : Lib) (d : Dict) : Except Err Surf :=
  match select types "Element" "spheroid" d with
  | .ok (.spheroid, d) => Surf.init float lib d
  | .ok _ => .error .other
  | .error e => .error e

/-! ### Systems -/

/-- The attributes of a `System`, rayopt/system.py 36-66. -/
structure Syst where
  elements : List Surf
  description : String
  scale : ℝ
  wavelengths : List ℝ
  stop : ℤ
  object : Conj
  image : Conj
  fields : List ℝ
  pickups : List Val
  validators : List Val
  solves : List Val

/-- `System.dict`, rayopt/system.py 70-82. -/
noncomputable def Syst.dict (s : Syst) : Dict :=
  [(.description, .str s.description), (.stop, .int s.stop), (.scale, .num s.scale),
   (.wavelengths, .nums s.wavelengths), (.object, .dict s.object.dict),
   (.image, .dict s.image.dict), (.pickups, .list s.pickups), (.validators, .list s.validators),
   (.solves, .list s.solves), (.elements, .list (s.elements.map fun e => .dict e.dict))]

/-- The default object, rayopt/system.py 49-51. -/
def defaultObject : Conj :=
  ⟨false, 0, ⟨.radius, 1, 1, true, true, false, false, 1, "rectilinear", none⟩, "rectilinear", false,
    none⟩

/-- The default image, rayopt/system.py 55-57. -/
def defaultImage : Conj :=
  ⟨true, 0, ⟨.radius, 1, 1, true, true, false, false, 1, "rectilinear", none⟩, "rectilinear", true,
    none⟩

/-- `object` and `image` of `System.__init__`, rayopt/system.py 46-57. -/
noncomputable def getConj (d : Dict) (k : Key) (dflt : Conj) : Except Err Conj :=
  match get k d with
  | none | some .null => .ok dflt
  | some (.dict e) => if e.isEmpty then .ok dflt else Conj.make e
  | some _ => .error .other

/-- `[Element.make(_) for _ in elements or []]`, rayopt/system.py 40. -/
noncomputable def makeElements (float : Text → Option ℝ) (lib : Lib) :
    List Val → Except Err (List Surf)
  | [] => .ok []
  | .dict e :: l => (Surf.make float lib e).bind fun e => (makeElements float lib l).map (e :: ·)
  | _ :: _ => .error .other

/-- `wavelengths or ...`, rayopt/system.py 44; the default is `fraunhofer` lines d, C, F. -/
noncomputable def getWavelengths (d : Dict) : Except Err (List ℝ) :=
  (optNums d .wavelengths).map fun w =>
    match w with
    | none | some [] => [587.56e-9, 656.27e-9, 486.13e-9]
    | some w => w

open Classical in
/-- `fields` of `System.__init__`, rayopt/system.py 58-63. -/
noncomputable def getFields (d : Dict) (object : Conj) : Except Err (List ℝ) :=
  (optNums d .fields).map fun f =>
    match f with
    | some f => f
    | none => if object.point then [0] else [0, 0.7, 1]

/-- `stop`, rayopt/system.py 37, 45. -/
def getStop (d : Dict) : Except Err ℤ :=
  match get .stop d with
  | none => .ok 1
  | some (.int i) => .ok i
  | some _ => .error .other

/-- `System(**d)`, rayopt/system.py 36-68. -/
noncomputable def Syst.init (float : Text → Option ℝ) (lib : Lib) (d : Dict) : Except Err Syst :=
  if accepts [.elements, .description, .scale, .wavelengths, .stop, .fields, .object, .image,
      .pickups, .validators, .solves] d then do
    let elements ← (getList d .elements).bind (makeElements float lib)
    let description ← getStr d .description ""
    let scale ← getNum d .scale 1e-3
    let wavelengths ← getWavelengths d
    let stop ← getStop d
    let object ← getConj d .object defaultObject
    let image ← getConj d .image defaultImage
    let fields ← getFields d object
    let pickups ← getList d .pickups
    let validators ← getList d .validators
    let solves ← getList d .solves
    pure ⟨elements, description, scale, wavelengths, stop, object, image, fields, pickups, validators,
      solves⟩
  else .error .type

end RayOpt.Serial
