import Verif.Model.Parse
import Verif.Model.Material
import Mathlib.Algebra.Order.Floor.Ring
import Mathlib.Algebra.Order.Archimedean.Real.Basic

/-!
Readers of glass catalogues: `agf_read`, `agf_to_material` (rayopt/zemax.py 186-269), `glc_read`,
`glc_to_material` (rayopt/oslo.py 169-222), `codevxml_read`, `codevxml_to_material`
(rayopt/codev.py 32-67) and `rii_to_material` (rayopt/rii.py 95-111).

Python's `float` and `int` are parameters. Lines end with `"\n"`. The tree of an XML file and the
data of a YAML file are given.
-/

namespace RayOpt.GlassFile

open RayOpt.Parse (Text Err Num strip tokens)
open RayOpt.Glass (Formula agfFormula glcFormula riiFormula)

/-- `float` and `int` of a text; `none` is `ValueError`, so that they are also `sfloat` and `sint`
(rayopt/utils.py 75-89). -/
structure Env where
  float : Text → Option Num
  int : Text → Option ℤ

/-- The commands of a glass catalogue of Zemax. -/
inductive Cmd where
  | nm | gc | ed | cd | td | od | ld | it | cc | other
deriving DecidableEq, Repr

def Cmd.of (t : Text) : Cmd :=
  if t = ['N', 'M'] then .nm else if t = ['G', 'C'] then .gc else if t = ['E', 'D'] then .ed
  else if t = ['C', 'D'] then .cd else if t = ['T', 'D'] then .td else if t = ['O', 'D'] then .od
  else if t = ['L', 'D'] then .ld else if t = ['I', 'T'] then .it else if t = ['C', 'C'] then .cc
  else .other

/-- An entry of the library, rayopt/library_items.py 55-71. Attributes that were not assigned are
`none` like those that are `None`. -/
structure Entry where
  name : Text
  nd : Option Num := none
  vd : Option Num := none
  code : Text := []
  status : Option ℤ := none
  comment : Option Text := none
  tce : Option Num := none
  density : Option Num := none
  data : Text := []

/-- The catalogue being read: finished entries and the current one, `mat`. -/
structure AgfState where
  done : List Entry := []
  cur : Option Entry := none

/-- `cmd, args = line.split(" ", 1)`, rayopt/zemax.py 207. -/
def splitLine (line : Text) : Except Err (Text × Text) :=
  if ' ' ∈ line then
    .ok (line.takeWhile (· ≠ ' '), (line.dropWhile (· ≠ ' ')).drop 1)
  else .error .value

/-- The entry of a line `NM`, rayopt/zemax.py 210-219. -/
def agfEntry (env : Env) (line args : Text) : Except Err Entry :=
  match tokens args with
  | a0 :: _ :: a2 :: a3 :: a4 :: rest =>
    .ok { name := a0, nd := env.float a3, vd := env.float a4, code := a2,
          status := (rest[1]?).bind env.int, data := line }
  | _ => .error .index

/-- One line of `agf_read`, rayopt/zemax.py 199-226. -/
def agfStep (env : Env) (s : AgfState) (line : Text) : Except Err AgfState :=
  if strip line = [] then .ok s
  else if line.head? = some '!' then .ok s
  else (splitLine line).bind fun ca =>
    match Cmd.of ca.1 with
    | .cc => .ok s
    | .nm => (agfEntry env line ca.2).map fun e => ⟨s.done ++ s.cur.toList, some e⟩
    | .gc => match s.cur with
      | none => .error .unbound
      | some e => .ok { s with cur := some { e with comment := some ca.2, data := e.data ++ line } }
    | .ed => match tokens ca.2 with
      | [] => .error .index
      | a0 :: rest => match s.cur with
        | none => .error .unbound
        | some e => match rest with
          | _ :: a2 :: _ => .ok { s with cur := some { e with
              tce := env.float a0, density := env.float a2, data := e.data ++ line } }
          | _ => .error .index
    | _ => match s.cur with
      | none => .error .unbound
      | some e => .ok { s with cur := some { e with data := e.data ++ line } }

/-- All lines. -/
def agfRun (env : Env) : List Text → AgfState → Except Err AgfState
  | [], s => .ok s
  | l :: ls, s => (agfStep env s l).bind (agfRun env ls)

/-- `agf_read`, rayopt/zemax.py 186-227, on the lines of the file: the entries of the catalogue. -/
def agfRead (env : Env) (lines : List Text) : Except Err (List Entry) :=
  (agfRun env lines {}).map fun s => s.done ++ s.cur.toList

/-! ### Materials from entries -/

/-- `int(x)` of a number: `ValueError` for nan, `OverflowError` for infinities. -/
noncomputable def truncate : Num → Except Err ℤ
  | .fin x => .ok (if 0 ≤ x then ⌊x⌋ else ⌈x⌉)
  | .nan => .error .value
  | _ => .error .other

/-- The attributes that `agf_to_material` and the others assign to a `CoefficientsMaterial`.
Attributes that were not assigned are `none` like those that are `None`. -/
structure Mat where
  name : Option Text := none
  /-- The type: not assigned, without a method, or a formula. -/
  typ : Option (Option Formula) := none
  glasscode : Option Num := none
  comment : Option Text := none
  alpham3070 : Option Num := none
  alpha20300 : Option Num := none
  density : Option Num := none
  coefficients : List (Option Num) := []
  thermal : Option (List (Option Num) × List (Option Num) × List (Option Num)) := none
  chemical : List (Option Num) := []
  price : Option Num := none
  lambdaMin : Option Num := none
  lambdaMax : Option Num := none
  /-- The assignments to the dictionary of transmissions, in order. -/
  transmission : List ((Option Num × List (Option Num)) × Option Num) := []

/-- `cmd, args = line[:2], line[3:]`, rayopt/zemax.py 239. -/
def matLine (line : Text) : Cmd × Text := (Cmd.of (line.take 2), line.drop 3)

/-- One line of `agf_to_material`, rayopt/zemax.py 240-268. -/
noncomputable def matStep (env : Env) (g : Mat) (l : Cmd × Text) : Except Err Mat :=
  match l.1 with
  | .nm => match tokens l.2 with
    | a0 :: a1 :: rest => match env.float a1 with
      | none => .error .value
      | some x => (truncate x).bind fun n => match agfFormula n with
        | none => .error .index
        | some f => match rest with
          | [] => .error .index
          | a2 :: _ => .ok { g with name := some a0, typ := some f, glasscode := env.float a2 }
    | _ => .error .index
  | .gc => .ok { g with comment := some (strip l.2) }
  | .ed => match (tokens l.2).map env.float with
    | a :: b :: c :: _ => .ok { g with alpham3070 := a, alpha20300 := b, density := c }
    | _ => .error .value
  | .cd => .ok { g with coefficients := (tokens l.2).map env.float }
  | .td =>
    let s := (tokens l.2).map env.float
    if 7 < s.length then .error .type
    else .ok { g with thermal := some (s.take 3, (s.drop 3).take 2, s.drop 5) }
  | .od => match l.2 with
    | [] => .error .index
    | c :: cs => .ok { g with chemical := cs.map fun c => env.float [c], price := env.float [c] }
  | .ld => match l.2 with
    | c :: d :: _ => .ok { g with lambdaMin := env.float [c], lambdaMax := env.float [d] }
    | _ => .error .index
  | .it => match (tokens l.2).map env.float with
    | a :: b :: rest => .ok { g with transmission := g.transmission ++ [((a, rest), b)] }
    | _ => .error .index
  | _ => .ok g

/-- All lines. -/
noncomputable def matRun (env : Env) : List (Cmd × Text) → Mat → Except Err Mat
  | [], g => .ok g
  | l :: ls, g => (matStep env g l).bind (matRun env ls)

/-- `agf_to_material`, rayopt/zemax.py 230-269. -/
noncomputable def agfToMaterial (env : Env) (dat : Text) : Except Err Mat :=
  matRun env (((dat.splitOn '\n').filter (· ≠ [])).map matLine) {}

/-! ### OSLO -/

/-- The entry of a line of `glc_read`, rayopt/oslo.py 176-186; `none` for a blank line. -/
def glcEntry (env : Env) (l : Text) : Except Err (Option Entry) :=
  match tokens (strip l) with
  | [] => .ok none
  | a :: b :: c :: d :: _ => .ok (some
      { name := a, nd := env.float b, vd := env.float c, density := env.float d, data := strip l })
  | _ => .error .index

def glcEntries (env : Env) : List Text → Except Err (List Entry)
  | [] => .ok []
  | l :: ls => (glcEntry env l).bind fun e => (glcEntries env ls).map (e.toList ++ ·)

/-- `glc_read`, rayopt/oslo.py 169-187: the name of the catalogue, its version and the entries. -/
def glcRead (env : Env) : List Text → Except Err (Text × Num × List Entry)
  | [] => .error .value
  | h :: ls => match tokens h with
    | ver :: _ :: name :: _ => match env.float ver with
      | none => .error .value
      | some v => (glcEntries env ls).map fun es => (name, v, es)
    | _ => .error .value

/-- `l[:n]`. -/
def sliceTo {α : Type*} (l : List α) : Option ℤ → List α
  | none => l
  | some n => l.take (if 0 ≤ n then n.toNat else (l.length + n).toNat)

/-- `glc_to_material`, rayopt/oslo.py 191-212. -/
def glcToMaterial (env : Env) (l : Text) : Except Err Mat :=
  match tokens (strip l) with
  | name :: _ :: _ :: d :: line => match line.drop 8 with
    | a :: num :: rest => match env.int a with
      | none => .error .type
      | some a => .ok { name := some name, typ := some (glcFormula a), density := env.float d,
                        coefficients := (sliceTo rest (env.int num)).map env.float }
    | _ => .error .index
  | _ => .error .index

/-! ### CODE V -/

/-- A node `Glass`; nodes that are missing raise and are not modelled. -/
structure CodevGlass where
  glassName : Text
  numericName : Text
  availability : Text
  equation : Text
  coefficients : List Text

/-- The entry of a node, rayopt/codev.py 40-48, for the text `id` of the node `ID`. -/
def codevEntry (env : Env) (id : Text) (g : CodevGlass) : Except Err Entry :=
  if id <+: g.glassName then
    match env.int g.availability with
    | none => .error .value
    | some n => .ok { name := g.glassName.drop id.length, comment := some g.numericName,
                      status := some n }
  else .error .assertion

/-- The table of equations, rayopt/codev.py 55-62. -/
def codevFormula (t : Text) : Option Formula :=
  if t = "Standard Sellmeier".toList then some .sellmeier
  else if t = "Glass Manufacturer Sellmeier".toList then some .sellmeierSquaredOffset
  else if t = "Laurent".toList then some .schott
  else if t = "Glass Manufacturer Laurent".toList then some .schott
  else if t = "Herzberger".toList then some .herzberger
  else if t = "Cauchy".toList then some .conrady
  else none

/-- `[float(t) for t in l]`. -/
def floats (env : Env) : List Text → Except Err (List (Option Num))
  | [] => .ok []
  | t :: l => match env.float t with
    | none => .error .value
    | some x => (floats env l).map (some x :: ·)

/-- `codevxml_to_material`, rayopt/codev.py 52-67. -/
def codevToMaterial (env : Env) (g : CodevGlass) : Except Err Mat :=
  match codevFormula g.equation with
  | none => .error .key
  | some f => (floats env g.coefficients).map fun c =>
      { name := some (g.glassName.drop 2), typ := some (some f), coefficients := c }

/-! ### refractiveindex.info -/

/-- An element of `DATA`: a formula with its number, range and coefficients, a table of `k`, or
another type. -/
inductive RiiData where
  | formula (number : ℕ) (range coefficients : Text)
  | tabulatedK (data : Text)
  | other

/-- One element, rayopt/rii.py 102-110. Tables of `k` do not change the attributes modelled here. -/
def riiStep (env : Env) (g : Mat) : RiiData → Except Err Mat
  | .formula n range c => match riiFormula n with
    | none => .error .key
    | some f => match (tokens range).map env.float with
      | [a, b] => .ok { g with typ := some (some f), lambdaMin := a, lambdaMax := b,
                               coefficients := (tokens c).map env.float }
      | _ => .error .value
  | _ => .ok g

def riiRun (env : Env) : List RiiData → Mat → Except Err Mat
  | [], g => .ok g
  | d :: ds, g => (riiStep env g d).bind (riiRun env ds)

/-- The name of a material, rayopt/rii.py 73 and 97. -/
def riiName (book page : Text) : Text := book ++ '|' :: page

/-- `rii_to_material`, rayopt/rii.py 95-111. -/
def riiToMaterial (env : Env) (book page : Text) (ds : List RiiData) : Except Err Mat :=
  riiRun env ds { name := some (riiName book page) }

end RayOpt.GlassFile
