import Verif.Model.Material
import Verif.Model.Serial

/-!
The dictionaries of materials and the constructors that read them (rayopt/material.py 54-59, 74-87,
123-135, 160-172, 175-217, 220-227, 324-328).

Simplified: keyword arguments of an unexpected type are an error here, while Python stores them; the
warning about an unknown dispersion formula is not modelled.
-/

namespace RayOpt.MatDict

open Serial (Err)
open Glass (Num)

/-- The attributes of `Thermal`, rayopt/material.py 54-59. -/
structure Thermal where
  d : List ℝ
  e : List ℝ
  tref : ℝ
  lref : ℝ

/-- What a material may hold as `thermal`: the object, or (see `init`) the dictionary of one. -/
inductive ThermalAttr where
  | object (t : Thermal)
  | dict (t : Thermal)

/-- Values in the dictionary of a material. -/
inductive Value where
  | text (s : String)
  | bool (b : Bool)
  | num (x : Num)
  | nums (l : List ℝ)
  | thermal (t : ThermalAttr)

/-- A dictionary in order of insertion. -/
abbrev Dict := List (String × Value)

/-- `d.get(k)`. -/
def get (k : String) : Dict → Option Value
  | [] => none
  | (j, v) :: d => if j = k then some v else get k d

/-- The classes and what they hold apart from the attributes of `Material`. -/
inductive Data where
  /-- `Material`. -/
  | plain
  /-- `ModelMaterial`. -/
  | model (n : ℝ)
  /-- `AbbeMaterial`. -/
  | abbe (a : Glass.Abbe)
  /-- `CoefficientsMaterial`. -/
  | coefficients (typ : String) (c : List ℝ)

/-- A material, rayopt/material.py 80-86. -/
structure Mat where
  name : String
  solid : Bool
  mirror : Bool
  catalog : Option String
  thermal : Option ThermalAttr
  data : Data

/-- The four classes. -/
inductive Class where
  | plain
  | model
  | abbe
  | coefficients
deriving DecidableEq

/-- `type(m)`. -/
def Mat.cls (m : Mat) : Class :=
  match m.data with
  | .plain => .plain
  | .model _ => .model
  | .abbe _ => .abbe
  | .coefficients _ _ => .coefficients

/-- `if self.catalog: dat["catalog"] = self.catalog`, rayopt/material.py 131-132. -/
def catalogItem : Option String → Dict
  | some c => if c ≠ "" then [("catalog", .text c)] else []
  | none => []

/-- `Material.dict`, rayopt/material.py 123-135.  The dictionary of `Thermal` (74-75) is made by a
method, which a dictionary does not have: `AttributeError`. -/
def Mat.base (m : Mat) : Except Err Dict :=
  let dat := (if m.name ≠ "" then [("name", Value.text m.name)] else []) ++
    (if m.solid then [] else [("solid", .bool m.solid)]) ++
    (if m.mirror then [("mirror", .bool m.mirror)] else []) ++
    catalogItem m.catalog
  match m.thermal with
  | none => .ok dat
  | some (.object t) => .ok (dat ++ [("thermal", .thermal (.dict t))])
  | some (.dict _) => .error .attribute

open Classical in
/-- `dict` of the class, rayopt/material.py 123-135, 169-172, 207-217, 324-328. -/
noncomputable def Mat.dict (m : Mat) : Except Err Dict :=
  m.base.map fun dat =>
    match m.data with
    | .plain => dat
    | .model n => dat ++ [("n", .num (.fin n))]
    | .abbe a => dat ++ [("n", .num (.fin a.n)), ("v", .num a.v)] ++
        (if a.ref ≠ Glass.lambdaD then [("lambda_ref", .num (.fin a.ref))] else []) ++
        (if a.short ≠ Glass.lambdaF then [("lambda_short", .num (.fin a.short))] else []) ++
        (if a.long ≠ Glass.lambdaC then [("lambda_long", .num (.fin a.long))] else [])
    | .coefficients typ c => dat ++ [("typ", .text typ), ("coefficients", .nums c)]

/-- The names of the arguments of a class. -/
def Class.names : Class → List String
  | .plain => ["name", "solid", "mirror", "catalog", "thermal"]
  | .model => ["n", "name", "solid", "mirror", "catalog", "thermal"]
  | .abbe => ["n", "v", "lambda_ref", "lambda_long", "lambda_short", "name", "solid", "mirror",
      "catalog", "thermal"]
  | .coefficients => ["coefficients", "typ", "name", "solid", "mirror", "catalog", "thermal"]

/-- A text argument. -/
def textArg (d : Dict) (k dflt : String) : Except Err String :=
  match get k d with
  | none => .ok dflt
  | some (.text s) => .ok s
  | some _ => .error .other

/-- A flag. -/
def boolArg (d : Dict) (k : String) (dflt : Bool) : Except Err Bool :=
  match get k d with
  | none => .ok dflt
  | some (.bool b) => .ok b
  | some _ => .error .other

/-- A finite number. -/
def numArg (d : Dict) (k : String) (dflt : ℝ) : Except Err ℝ :=
  match get k d with
  | none => .ok dflt
  | some (.num (.fin x)) => .ok x
  | some _ => .error .other

/-- A number or infinity. -/
def extArg (d : Dict) (k : String) (dflt : Num) : Except Err Num :=
  match get k d with
  | none => .ok dflt
  | some (.num x) => .ok x
  | some _ => .error .other

/-- `catalog=None`. -/
def catalogArg (d : Dict) : Except Err (Option String) :=
  match get "catalog" d with
  | none => .ok none
  | some (.text s) => .ok (some s)
  | some _ => .error .other

/-- `thermal=None`: stored as it is, rayopt/material.py 86. -/
def thermalArg (d : Dict) : Except Err (Option ThermalAttr) :=
  match get "thermal" d with
  | none => .ok none
  | some (.thermal t) => .ok (some t)
  | some _ => .error .other

/-- The own arguments of a class, rayopt/material.py 162-164, 177-184, 222-227; `coefficients` has no
default. -/
noncomputable def Class.data (d : Dict) : Class → Except Err Data
  | .plain => .ok .plain
  | .model => (numArg d "n" 1).map .model
  | .abbe => do
    let n ← numArg d "n" 1
    let v ← extArg d "v" .inf
    let ref ← numArg d "lambda_ref" Glass.lambdaD
    let long ← numArg d "lambda_long" Glass.lambdaC
    let short ← numArg d "lambda_short" Glass.lambdaF
    pure (.abbe ⟨n, v, ref, long, short⟩)
  | .coefficients => do
    let typ ← textArg d "typ" "sellmeier"
    match get "coefficients" d with
    | none => .error .type
    | some (.nums c) => pure (.coefficients typ c)
    | some _ => .error .other

/-- `cls(**d)`: an unknown argument is a `TypeError`. -/
noncomputable def Class.init (c : Class) (d : Dict) : Except Err Mat :=
  if ∀ p ∈ d, p.1 ∈ c.names then do
    let name ← textArg d "name" "-"
    let solid ← boolArg d "solid" true
    let mirror ← boolArg d "mirror" false
    let catalog ← catalogArg d
    let thermal ← thermalArg d
    let data ← c.data d
    pure ⟨name, solid, mirror, catalog, thermal, data⟩
  else .error .type

/-- The refractive index of a material that is not made of coefficients, rayopt/material.py 137-139,
166-167, 201-205. -/
noncomputable def Mat.index (m : Mat) (formula : String → List ℝ → ℝ → Option ℝ) (l : ℝ) : Option ℝ :=
  match m.data with
  | .plain => some 1
  | .model n => some n
  | .abbe a => a.index l
  | .coefficients typ c => (formula typ c (l / 1e-6)).map fun n => if m.mirror then -n else n

/-- The basic materials, rayopt/material.py 331-337. -/
noncomputable def vacuum : Mat := ⟨"vacuum", false, false, some "basic", none, .model 1⟩
/-- See `vacuum`. -/
noncomputable def mirror : Mat := ⟨"mirror", false, true, some "basic", none, .plain⟩
/-- See `vacuum`. -/
noncomputable def air : Mat :=
  ⟨"air", false, false, some "basic", none, .coefficients "gas" Glass.airCoefficients⟩

end RayOpt.MatDict
