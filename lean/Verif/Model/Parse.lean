import Mathlib.Data.Real.Basic
import Mathlib.Data.List.Basic

/-!
Readers of lens prescriptions: `zmx_to_system` (rayopt/zemax.py 90-183), `olc_to_system` and
`len_to_system` (rayopt/oslo.py 86-166), `system_from_array` and `system_from_text`
(rayopt/formats.py 29-82).

Python's `float`, `int` and `Material.make` are parameters.  An element is the record of the attributes
that the readers assign; its distance is the argument of the constructor or of the setter (what these do
with it is in `Transform.init` and `Transform.setDistance`).
-/

namespace RayOpt.Parse

/-- Texts. -/
abbrev Text := List Char

/-- Exceptions. -/
inductive Err where
  | key
  | index
  | value
  | type
  | zeroDivision
  | unbound
  | assertion
  | other
deriving DecidableEq

/-- Values of a Python `float`. -/
inductive Num where
  | fin (x : ℝ)
  | inf
  | neginf
  | nan

/-- `1/x`; `none` is the `ZeroDivisionError`.  Zeros have no sign. -/
noncomputable def Num.inv : Num → Option Num
  | .fin x => if x = 0 then none else some (.fin (1 / x))
  | .inf => some (.fin 0)
  | .neginf => some (.fin 0)
  | .nan => some .nan

/-- `x*1e-6` and so on. -/
noncomputable def Num.scale (a : ℝ) : Num → Num
  | .fin x => .fin (x * a)
  | .inf => if 0 < a then .inf else if a < 0 then .neginf else .nan
  | .neginf => if 0 < a then .neginf else if a < 0 then .inf else .nan
  | .nan => .nan

/-- The truth value of a number is false. -/
def Num.isZero : Num → Prop
  | .fin x => x = 0
  | _ => False

/-- `100 < x`. -/
def Num.large : Num → Prop
  | .fin x => 100 < x
  | .inf => True
  | _ => False

/-- What the readers use: `float`, `int`, `Material.make` of a text and of a pair of numbers, and the
material `air`. -/
structure Env (M : Type) where
  float : Text → Option Num
  int : Text → Option ℤ
  make : Text → Except Err M
  pair : Num → Num → Except Err M
  air : M

/-- The attributes of an element, rayopt/elements.py 414-424. -/
structure Surf (M : Type) where
  distance : Num := .fin 0
  curvature : Num := .fin 0
  conic : Option Num := some (.fin 0)
  radius : Num := .inf
  aspherics : Option (List (Option Num)) := none
  material : Option M := none
  /-- Whether the attribute `stop` was set. -/
  stop : Bool := false
  coating : Option Text := none

/-! ### Texts -/

/-- White space of ASCII. -/
def isSpace (c : Char) : Bool := c.toNat = 32 ∨ 9 ≤ c.toNat ∧ c.toNat ≤ 13 ∨ 28 ≤ c.toNat ∧ c.toNat ≤ 31

/-- `.strip()`. -/
def strip (t : Text) : Text := ((t.dropWhile isSpace).reverse.dropWhile isSpace).reverse

/-- `.split()`. -/
def tokens (t : Text) : List Text := (t.splitOnP isSpace).filter (· ≠ [])

/-- `args.split()[0]` or `args[0]`; `IndexError` without tokens. -/
def first : List Text → Except Err Text
  | [] => .error .index
  | a :: _ => .ok a

/-- `float(text)`. -/
def toFloat {M : Type} (env : Env M) (t : Text) : Except Err Num :=
  match env.float t with
  | none => .error .value
  | some x => .ok x

/-- `int(text)`. -/
def toInt {M : Type} (env : Env M) (t : Text) : Except Err ℤ :=
  match env.int t with
  | none => .error .value
  | some x => .ok x

/-- `float(args.split()[0])`. -/
def firstFloat {M : Type} (env : Env M) (args : Text) : Except Err Num :=
  (first (tokens args)).bind (toFloat env)

/-- `[float(i) for i in args]`. -/
def allFloats {M : Type} (env : Env M) : List Text → Except Err (List Num)
  | [] => .ok []
  | t :: l => (toFloat env t).bind fun x => (allFloats env l).map (x :: ·)

/-! ### Zemax, rayopt/zemax.py 90-183 -/

/-- The commands; everything else is ignored or printed. -/
inductive ZCmd where
  | unit | name | surf | curv | disz | glas | diam | stop | wavl | coat | coni | parm | other
deriving DecidableEq

/-- The command of a text. -/
def ZCmd.of (t : Text) : ZCmd :=
  if t = ['U', 'N', 'I', 'T'] then .unit
  else if t = ['N', 'A', 'M', 'E'] then .name
  else if t = ['S', 'U', 'R', 'F'] then .surf
  else if t = ['C', 'U', 'R', 'V'] then .curv
  else if t = ['D', 'I', 'S', 'Z'] then .disz
  else if t = ['G', 'L', 'A', 'S'] then .glas
  else if t = ['D', 'I', 'A', 'M'] then .diam
  else if t = ['S', 'T', 'O', 'P'] then .stop
  else if t = ['W', 'A', 'V', 'L'] then .wavl
  else if t = ['C', 'O', 'A', 'T'] then .coat
  else if t = ['C', 'O', 'N', 'I'] then .coni
  else if t = ['P', 'A', 'R', 'M'] then .parm
  else .other

/-- The reader: the elements before the last one, the last one, and the other variables. -/
structure ZState (M : Type) where
  done : List (Surf M)
  cur : Surf M
  next : Num
  scale : ℝ
  description : Text
  wavelengths : Option (List Num)

/-- The units, rayopt/zemax.py 102-106. -/
noncomputable def units (t : Text) : Except Err ℝ :=
  if t = ['M', 'M'] then .ok (1 / 1000)
  else if t = ['I', 'N', 'C', 'H'] ∨ t = ['I', 'N'] then .ok (254 / 10000)
  else .error .key

/-- `.strip("\"")`. -/
def unquote (t : Text) : Text :=
  ((t.dropWhile (· = '"')).reverse.dropWhile (· = '"')).reverse

/-- The material of a `GLAS` line: a `KeyError` of the name leads to the two numbers, any exception of
which leaves the material, rayopt/zemax.py 117-127. -/
def glas {M : Type} (env : Env M) (args : List Text) (old : Option M) : Except Err (Option M) :=
  (first args).bind fun name =>
    match env.make name with
    | .ok m => .ok (some m)
    | .error .key =>
      match args[3]?.bind env.float, args[4]?.bind env.float with
      | some n, some v =>
        match env.pair n v with
        | .ok m => .ok (some m)
        | .error _ => .ok old
      | _, _ => .ok old
    | .error e => .error e

/-- The aspheric coefficients after a `PARM` line, rayopt/zemax.py 145-150. -/
def setAspheric (a : Option (List (Option Num))) (i : ℕ) (x : Num) : List (Option Num) :=
  let l := a.getD []
  (l ++ List.replicate (i + 1 - l.length) (some (Num.fin 0))).set i (some x)

/-- The new state after one line, rayopt/zemax.py 99-182. -/
noncomputable def zmxStep {M : Type} (env : Env M) (s : ZState M) (c : ZCmd) (args : Text) :
    Except Err (ZState M) :=
  match c with
  | .unit => (first (tokens args)).bind fun t => (units t).map fun x => { s with scale := x }
  | .name => .ok { s with description := unquote args }
  | .surf => .ok { s with
      done := s.done ++ [s.cur]
      cur := { distance := s.next, material := some env.air } }
  | .curv => (firstFloat env args).map fun x => { s with cur := { s.cur with curvature := x } }
  | .disz => (toFloat env args).map fun x => { s with next := x }
  | .glas => (glas env (tokens args) s.cur.material).map fun m =>
      { s with cur := { s.cur with material := m } }
  | .diam => (firstFloat env args).map fun x => { s with cur := { s.cur with radius := x } }
  | .stop => .ok { s with cur := { s.cur with stop := true } }
  | .wavl => (allFloats env (tokens args)).map fun l =>
      { s with wavelengths := some (l.map (Num.scale (1 / 1000000))) }
  | .coat => (first (tokens args)).map fun t => { s with cur := { s.cur with coating := some t } }
  | .coni => (firstFloat env args).map fun x => { s with cur := { s.cur with conic := some x } }
  | .parm =>
    match tokens args with
    | [i, j] => (toInt env i).bind fun i => (toFloat env j).map fun j =>
        if i - 1 < 0 then s
        else { s with cur := { s.cur with
          aspherics := some (setAspheric s.cur.aspherics (i - 1).toNat j) } }
    | _ => .error .value
  | .other => .ok s

/-- All lines. -/
noncomputable def zmxRun {M : Type} (env : Env M) :
    List (ZCmd × Text) → ZState M → Except Err (ZState M)
  | [], s => .ok s
  | l :: ls, s => (zmxStep env s l.1 l.2).bind (zmxRun env ls)

/-- What the reader starts with: one element, rayopt/zemax.py 91-93. -/
noncomputable def zmxInit {M : Type} (env : Env M) : ZState M :=
  ⟨[], { material := some env.air }, .fin 0, 1 / 1000, [], none⟩

/-- One line of text: nothing if it is blank, otherwise the command and the rest after the first blank,
rayopt/zemax.py 96-100. -/
def zmxLine (line : Text) : Option (ZCmd × Text) :=
  let t := strip line
  if t = [] then none
  else some (ZCmd.of (t.takeWhile (· ≠ ' ')), (t.dropWhile (· ≠ ' ')).drop 1)

/-- A system as read: `wavelengths` is none for the default ones and the stop is 1 as by default. -/
structure Sys (M : Type) where
  elements : List (Surf M)
  stop : ℕ := 1
  scale : ℝ := 1 / 1000
  description : Text := []
  wavelengths : Option (List Num) := none

/-- `zmx_to_system(data)`, rayopt/zemax.py 90-183, for texts whose lines end with `"\n"` or `"\r\n"`. -/
noncomputable def zmx {M : Type} (env : Env M) (data : Text) : Except Err (Sys M) :=
  (zmxRun env ((data.splitOn '\n').filterMap zmxLine) (zmxInit env)).map fun s =>
    { elements := s.done ++ [s.cur], scale := s.scale, description := s.description,
      wavelengths := s.wavelengths }

/-! ### OSLO lens catalogues, rayopt/oslo.py 86-126 -/

/-- The commands. -/
inductive OCmd where
  | rd | gla | th | skip | cc | asp | asN (digit : Option Char) | nxt | other
deriving DecidableEq

/-- The command of a text, in the order of the tests. -/
def OCmd.of (t : Text) : OCmd :=
  if t = ['R', 'D'] then .rd
  else if t = ['G', 'L', 'A'] then .gla
  else if t = ['T', 'H'] then .th
  else if t ∈ ["AP", "CVX", "APN", "AY1", "AY2", "AX1", "AX2", "ATP", "AAC"].map String.toList then .skip
  else if t = ['C', 'C'] then .cc
  else if t = ['A', 'S', 'P'] then .asp
  else if t.take 2 = ['A', 'S'] then .asN t[2]?
  else if t = ['N', 'X', 'T'] then .nxt
  else .other

/-- The reader: the elements before the last one, the last one, and the thickness if there was one. -/
structure OState (M : Type) where
  done : List (Surf M)
  cur : Surf M
  th : Option Num

open Classical in
/-- `1/r if r else 0` for `r = sfloat(text)`. -/
noncomputable def curvatureOf (r : Option Num) : Num :=
  match r with
  | none => .fin 0
  | some x => if x.isZero then .fin 0 else x.inv.getD .nan

/-- `Material.make(mat)` with `air` for a `KeyError`, rayopt/oslo.py 102-107. -/
def glaOlc {M : Type} (env : Env M) (name : Text) : Except Err M :=
  match env.make name with
  | .ok m => .ok m
  | .error .key => .ok env.air
  | .error e => .error e

/-- `s.aspherics[i] = x`. -/
def assignAspheric {M : Type} (s : Surf M) (i : ℕ) (x : Option Num) : Except Err (Surf M) :=
  match s.aspherics with
  | none => .error .type
  | some l => if i < l.length then .ok { s with aspherics := some (l.set i x) } else .error .index

/-- The new state after one command, rayopt/oslo.py 96-125. -/
noncomputable def olcStep {M : Type} (env : Env M) (glassMap : Text → Text) (s : OState M) (c : OCmd)
    (args : List Text) : Except Err (OState M) :=
  match c with
  | .rd => (first args).map fun t =>
      { s with cur := { s.cur with curvature := curvatureOf (env.float t) } }
  | .gla => (first args).bind fun t => (glaOlc env (glassMap (t.map Char.toUpper))).map fun m =>
      { s with cur := { s.cur with material := some m } }
  | .th => (first args).map fun t => { s with th := some ((env.float t).getD (.fin 0)) }
  | .skip => .ok s
  | .cc => (first args).map fun t => { s with cur := { s.cur with conic := env.float t } }
  | .asp => (first args).bind fun t =>
      if t = ['A', 'S', 'R'] ∨ t = ['A', 'R', 'A'] then
        (first (args.drop 1)).bind fun n => (toInt env n).map fun n =>
          { s with cur := { s.cur with
            aspherics := some (List.replicate (n + 2).toNat (some (Num.fin 0))) } }
      else .error .assertion
  | .asN d =>
      match d with
      | none => .error .index
      | some d => if d.isDigit then
          (first args).bind fun t =>
            (assignAspheric s.cur (d.toNat - 48 + 1) (env.float t)).map fun e => { s with cur := e }
        else .error .value
  | .nxt =>
      match s.th with
      | none => .error .unbound
      | some th => .ok { s with
          done := s.done ++ [s.cur]
          cur := { distance := th, material := some env.air } }
  | .other => .ok s

/-- All commands. -/
noncomputable def olcRun {M : Type} (env : Env M) (glassMap : Text → Text) :
    List (OCmd × List Text) → OState M → Except Err (OState M)
  | [], s => .ok s
  | l :: ls, s => (olcStep env glassMap s l.1 l.2).bind (olcRun env glassMap ls)

/-- One command of the text. -/
def olcCommand (t : Text) : Option (OCmd × List Text) :=
  match tokens t with
  | [] => none
  | c :: args => some (OCmd.of c, args)

/-- `olc_to_system(dat)`, rayopt/oslo.py 86-126. -/
noncomputable def olc {M : Type} (env : Env M) (glassMap : Text → Text) (dat : Text) :
    Except Err (Sys M) :=
  (olcRun env glassMap ((dat.splitOn ';').filterMap olcCommand) ⟨[], {}, none⟩).map fun s =>
    { elements := s.done ++ [s.cur] }

/-! ### OSLO lens files, rayopt/oslo.py 129-166 -/

/-- The commands. -/
inductive LCmd where
  | len | uni | air | th | ap | gla | ast | rd | nxt | other
deriving DecidableEq

/-- The command of a text. -/
def LCmd.of (t : Text) : LCmd :=
  if t = ['L', 'E', 'N'] then .len
  else if t = ['U', 'N', 'I'] then .uni
  else if t = ['A', 'I', 'R'] then .air
  else if t = ['T', 'H'] then .th
  else if t = ['A', 'P'] then .ap
  else if t = ['G', 'L', 'A'] then .gla
  else if t = ['A', 'S', 'T'] then .ast
  else if t = ['R', 'D'] then .rd
  else if t = ['N', 'X', 'T'] ∨ t = ['E', 'N', 'D'] then .nxt
  else .other

/-- The reader: the elements in the system, the one being read, and the other variables. -/
structure LState (M : Type) where
  done : List (Surf M)
  cur : Surf M
  th : Num
  scale : Num
  description : Text

open Classical in
/-- `th > 1e2` becomes infinite, rayopt/oslo.py 146-147. -/
noncomputable def clampTh (x : Num) : Num := if x.large then .inf else x

/-- `1/float(text)`. -/
noncomputable def invFloat {M : Type} (env : Env M) (t : Text) : Except Err Num :=
  (toFloat env t).bind fun x =>
    match x.inv with
    | none => .error .zeroDivision
    | some y => .ok y

/-- `" ".join(l)`. -/
def joinWords (l : List Text) : Text := List.intercalate [' '] l

/-- The new state after one line, rayopt/oslo.py 137-165. -/
noncomputable def lenStep {M : Type} (env : Env M) (s : LState M) (c : LCmd) (args : List Text) :
    Except Err (LState M) :=
  match c with
  | .len => .ok { s with
      description := unquote (joinWords ((args.take (args.length - 2)).drop 1)) }
  | .uni => (first args).bind fun t => (toFloat env t).map fun x =>
      { s with scale := x.scale (1 / 1000) }
  | .air => .ok { s with cur := { s.cur with material := some env.air } }
  | .th => (first args).bind fun t => (toFloat env t).map fun x => { s with th := clampTh x }
  | .ap => (first args).bind fun t =>
      (first (if t = ['C', 'H', 'K'] then args.drop 1 else args)).bind fun t =>
        (toFloat env t).map fun x => { s with cur := { s.cur with radius := x } }
  | .gla => (first args).bind fun t => (env.make t).map fun m =>
      { s with cur := { s.cur with material := some m } }
  | .ast => .ok { s with cur := { s.cur with stop := true } }
  | .rd => (first args).bind fun t => (invFloat env t).map fun x =>
      { s with cur := { s.cur with curvature := x } }
  | .nxt => .ok { s with done := s.done ++ [s.cur], cur := { distance := s.th } }
  | .other => .ok s

/-- All lines. -/
noncomputable def lenRun {M : Type} (env : Env M) :
    List (LCmd × List Text) → LState M → Except Err (LState M)
  | [], s => .ok s
  | l :: ls, s => (lenStep env s l.1 l.2).bind (lenRun env ls)

/-- One line of text. -/
def lenLine (t : Text) : Option (LCmd × List Text) :=
  match tokens t with
  | [] => none
  | c :: args => some (LCmd.of c, args)

/-- What the reader starts with. -/
noncomputable def lenInit (M : Type) : LState M := ⟨[], {}, .fin 0, .fin (1 / 1000), []⟩

/-- `len_to_system(fil)`, rayopt/oslo.py 129-166, on the text of the file: the elements and the scale,
which may be any number here. -/
noncomputable def len {M : Type} (env : Env M) (dat : Text) :
    Except Err (List (Surf M) × Num × Text) :=
  (lenRun env ((dat.splitOn '\n').filterMap lenLine) (lenInit M)).map fun s =>
    (s.done, s.scale, s.description)

/-! ### Tables, rayopt/formats.py 29-82 -/

/-- A cell as `try_get` returns it. -/
inductive Cell where
  | num (x : Num)
  | text (t : Text)

/-- `columns.index(field)`. -/
def column (columns : List Text) (field : Text) : Option ℕ :=
  let i := columns.idxOf field
  if i < columns.length then some i else none

/-- `try_get(line, columns, field)`, rayopt/formats.py 29-37; `none` if there is no such column (the
default is then used). -/
def tryGet {M : Type} (env : Env M) (line columns : List Text) (field : Text) :
    Except Err (Option Cell) :=
  match column columns field with
  | none => .ok none
  | some i =>
    match line[i]? with
    | none => .error .index
    | some t =>
      match env.float t with
      | some x => .ok (some (.num x))
      | none => .ok (some (.text t))

/-- A number from a cell; texts assigned to attributes are outside of the model. -/
def numCell : Option Cell → Except Err Num
  | none => .ok (.fin 0)
  | some (.num x) => .ok x
  | some (.text _) => .error .other

open Classical in
/-- `curv`, rayopt/formats.py 56-62. -/
noncomputable def arrayCurvature {M : Type} (env : Env M) (line columns : List Text) :
    Except Err Num :=
  (tryGet env line columns "curvature".toList).bind fun c =>
    match c with
    | some c => numCell (some c)
    | none => (tryGet env line columns "roc".toList).bind fun r =>
      match r with
      | none => .ok (.fin 0)
      | some (.num r) => .ok (if r.isZero then .fin 0 else r.inv.getD .nan)
      | some (.text _) => .error .type

open Classical in
/-- `el.radius`, rayopt/formats.py 66-67. -/
noncomputable def arrayRadius {M : Type} (env : Env M) (line columns : List Text) : Except Err Num :=
  (tryGet env line columns "radius".toList).bind fun r => (numCell r).bind fun r =>
    if r.isZero then
      (tryGet env line columns "diameter".toList).bind fun d =>
        match d with
        | some (.text _) => .error .type
        | d => (numCell d).map (Num.scale (1 / 2))
    else .ok r

/-- The material, rayopt/formats.py 70-74; `index` is `Material.make` of a number. -/
def arrayMaterial {M : Type} (env : Env M) (index : Num → M) (materialMap : Text → Text)
    (line columns : List Text) : Except Err (Option M) :=
  (tryGet env line columns "material".toList).bind fun m =>
    match m with
    | none => .ok none
    | some (.num x) => .ok (some (index x))
    | some (.text t) => (env.make (materialMap t)).map some

/-- One row: the element and whether it is the aperture, rayopt/formats.py 50-74. -/
noncomputable def arrayRow {M : Type} (env : Env M) (index : Num → M) (materialMap : Text → Text)
    (columns line : List Text) : Except Err (Surf M × Bool) := do
  let typ ← tryGet env line columns "type".toList
  let aperture := match typ with
    | some (.text ['A']) => true
    | _ => false
  let curvature ← arrayCurvature env line columns
  let d ← tryGet env line columns "distance".toList
  let distance ← numCell d
  let radius ← arrayRadius env line columns
  let material ← arrayMaterial env index materialMap line columns
  .ok ({ distance := distance, curvature := curvature, radius := radius, material := material },
    aperture)

/-- All rows. -/
noncomputable def arrayRows {M : Type} (env : Env M) (index : Num → M) (materialMap : Text → Text)
    (columns : List Text) : List (List Text) → Except Err (List (Surf M × Bool))
  | [] => .ok []
  | r :: rs => (arrayRow env index materialMap columns r).bind fun e =>
      (arrayRows env index materialMap columns rs).map (e :: ·)

/-- `data[:, i] = np.roll(data[:, i], v)`. -/
def rollColumn (data : List (List Text)) (i : ℕ) (v : ℤ) : List (List Text) :=
  data.mapIdx fun j row =>
    match (data[(((j : ℤ) - v) % data.length).toNat]?).bind (·[i]?) with
    | some t => row.set i t
    | none => row

/-- The shifts, rayopt/formats.py 45-47. -/
def applyShifts (columns : List Text) :
    List (Text × ℤ) → List (List Text) → Except Err (List (List Text))
  | [], data => .ok data
  | (k, v) :: l, data =>
    match column columns k with
    | none => .error .value
    | some i => if ∀ row ∈ data, i < row.length then applyShifts columns l (rollColumn data i v)
        else .error .index

/-- The last row that is the aperture. -/
def apertureIndex (l : List Bool) : Option ℕ :=
  ((l.zipIdx.filter fun p => p.1).map fun p => p.2).getLast?

/-- `system_from_array(data, columns, shifts, material_map)`, rayopt/formats.py 40-75, for tables of
texts. -/
noncomputable def fromArray {M : Type} (env : Env M) (index : Num → M) (materialMap : Text → Text)
    (columns : List Text) (shifts : List (Text × ℤ)) (data : List (List Text)) :
    Except Err (Sys M) :=
  if data ≠ [] ∧ ∀ row ∈ data, row.length = (data.headD []).length then
    (applyShifts columns shifts data).bind fun data =>
      (arrayRows env index materialMap columns data).map fun l =>
        { elements := l.map Prod.fst, stop := (apertureIndex (l.map Prod.snd)).getD 1 }
  else .error .assertion

/-- The default columns. -/
def defaultColumns : List Text :=
  ["type", "roc", "distance", "diameter", "material"].map String.toList

/-- The rows of a text, rayopt/formats.py 79-81: only the lines with the largest number of words. -/
def textRows (text : Text) : List (List Text) :=
  let array := (text.splitOn '\n').map tokens
  let n := (array.map List.length).foldl max 0
  array.filter fun l => l.length = n

/-- `system_from_text(text)`, rayopt/formats.py 78-82, for texts that are not
blank. -/
noncomputable def fromText {M : Type} (env : Env M) (index : Num → M) (materialMap : Text → Text)
    (columns : List Text) (shifts : List (Text × ℤ)) (text : Text) : Except Err (Sys M) :=
  fromArray env index materialMap columns shifts (textRows text)

end RayOpt.Parse
