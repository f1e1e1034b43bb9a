import Mathlib.Data.Real.Basic
import Mathlib.Data.List.MinMax

/-!
`Analysis` (rayopt/analysis.py 40-143): the options, the order of the adjustments, texts and figures,
and which field and wavelength is drawn where.  What a curve consists of is in `Model/Figures.lean`,
`Model/Mtf.lean` and `Model/Drawing.lean`; here a figure is the list of its cells and the drawing calls
on matplotlib are left out.
-/

namespace RayOpt.Analysis

/-- A value of an attribute of `Analysis` as far as `__init__` and `run` look at it. -/
inductive Val
  | bool (b : Bool)
  | int (i : ℤ)
  | num (x : ℝ)
  | method
  | object

/-- What can go wrong. -/
inductive Err
  | noSuchOption (k : String)
  | notCallable
  | emptyFields
  | zeroDivision
  | notInteger
deriving DecidableEq

/-- The truth value of a python object. -/
noncomputable def Val.truthy : Val → Bool
  | .bool b => b
  | .int i => decide (i ≠ 0)
  | .num x => by classical exact decide (x ≠ 0)
  | .method => true
  | .object => true

/-- The attributes an instance has before the keywords are set, rayopt/analysis.py 41-65.  The name
`run` is first given `True` (line 42) and then the method (line 76), which stays.  The attributes every
python object has (`__class__` and so on) are left out.  `text` and `figures` hold the two lists;
replacing these by a keyword is not considered. -/
noncomputable def classAttr : List (String × Val) :=
  [("figwidth", .num 12), ("run", .method), ("update", .bool true), ("print", .bool true),
   ("trace_gaussian", .bool false), ("print_gaussian", .bool false), ("print_system", .bool true),
   ("print_paraxial", .bool true), ("resize_full", .bool false), ("refocus_full", .bool true),
   ("print_full", .bool false), ("plot_paraxial", .bool false), ("plot_gaussian", .bool false),
   ("plot_full", .bool false), ("plot_rays", .int 3), ("plot_transverse", .bool true),
   ("plot_spots", .bool true), ("defocus", .int 5), ("plot_opds", .bool true),
   ("plot_longitudinal", .bool true), ("setup_axes", .method), ("post_setup_axes", .method),
   ("pre_setup_fanplot", .method), ("pre_setup_xyplot", .method), ("transverse", .method),
   ("spots", .method), ("opds", .method), ("longitudinal", .method),
   ("text", .object), ("figures", .object)]

/-- The attributes of an instance: what has been set on it, before what the class has. -/
abbrev Attrs := List (String × Val)

/-- `getattr`; `none` if there is no such attribute. -/
def Attrs.get (a : Attrs) (k : String) : Option Val := a.lookup k

/-- The loop over the keywords, rayopt/analysis.py 66-69: the names are looked up on the instance as it
is by then. -/
noncomputable def setOptions : Attrs → List (String × Val) → Except Err Attrs
  | a, [] => .ok a
  | a, (k, v) :: r =>
    match a.get k with
    | none => .error (.noSuchOption k)
    | some _ => setOptions ((k, v) :: a) r

/-- Whether an option is set. -/
noncomputable def Attrs.on (a : Attrs) (k : String) : Bool := ((a.get k).map Val.truthy).getD false

/-- What is done to the system: `Y` is the system, `P` a paraxial trace, `T` a text. -/
structure Ops (Y P T : Type) where
  /-- `System.update` without the paraxial trace, rayopt/system.py 201-209 -/
  update : Y → Y
  /-- `ParaxialTrace.update`, rayopt/system.py 210 -/
  paraxial : Y → P
  /-- `t.resize(); self.system.resize_convex()` after `rays_paraxial` -/
  resize : Y → Y
  /-- `t.refocus()` after `rays_point` -/
  refocus : Y → Y
  strSystem : Y → T
  strParaxial : P → T
  strGaussian : Y → T
  strFull : Y → T

/-- The system with the paraxial trace it keeps (`system.paraxial`). -/
structure St (Y P : Type) where
  sys : Y
  parax : P

variable {Y P T : Type}

/-- Lines 77-88 of `run`, rayopt/analysis.py: update, resize and refocus. -/
noncomputable def adjust (o : Ops Y P T) (a : Attrs) (s : St Y P) : St Y P :=
  let s := if a.on "update" then ⟨o.update s.sys, o.paraxial (o.update s.sys)⟩ else s
  let s := if a.on "resize_full" then { s with sys := o.resize s.sys } else s
  if a.on "refocus_full" then { s with sys := o.refocus s.sys } else s

/-- The texts, rayopt/analysis.py 89-99. -/
noncomputable def texts (o : Ops Y P T) (a : Attrs) (s : St Y P) : List T :=
  (if a.on "print_system" then [o.strSystem s.sys] else []) ++
  (if a.on "print_paraxial" then [o.strParaxial s.parax] else []) ++
  (if a.on "print_gaussian" then [o.strGaussian s.sys] else []) ++
  (if a.on "print_full" then [o.strFull s.sys] else [])

/-- What is drawn over each other in the first figure. -/
inductive Layer
  | system
  | paraxial
  | gaussian
  | full
  | clipped (h : ℝ)

/-- One curve in a cell of a figure: the row and the column of the cell (counted from the upper left),
the field and the wavelength with its colour. -/
structure Curve where
  row : ℕ
  col : ℕ
  field : ℝ
  wavelength : ℝ
  colour : Char

/-- A figure: its rows and columns of cells and its curves. -/
inductive Fig
  | drawing (layers : List Layer)
  | transverse (rows cols : ℕ) (cs : List Curve)
  | longitudinal (height : ℝ)
  | spots (rows cols : ℕ) (cs : List Curve)
  | opds (rows cols : ℕ) (cs : List Curve)

/-- `colors="grbcmyk"`, rayopt/analysis.py 221, 251, 286. -/
def colours : List Char := ['g', 'r', 'b', 'c', 'm', 'y', 'k']

/-- `for hi, axi in zip(heights, ax[::-1])`: the fields with their rows, from the lowest row up,
rayopt/analysis.py 132, 141, 208. -/
def fieldRows (fields : List ℝ) : List (ℝ × ℕ) := fields.zip (List.range fields.length).reverse

/-- The loops over the fields and wavelengths of `transverse` and `spots` with `cols` cells per field,
rayopt/analysis.py 226-245, 266-280. -/
def curves (cols : ℕ) (fields wavelengths : List ℝ) : List Curve :=
  (fieldRows fields).flatMap fun hr => (wavelengths.zip colours).flatMap fun wc =>
    (List.range cols).map fun j => ⟨hr.2, j, hr.1, wc.1, wc.2⟩

/-- The loop of `opds` with the first wavelength alone, rayopt/analysis.py 295-349; the fields are
taken in reverse.  (Colours are not used; fields without enough rays are skipped there.) -/
def opdCurves (fields : List ℝ) (l : ℝ) : List Curve :=
  (fieldRows fields).reverse.flatMap fun hr => (List.range 4).map fun j => ⟨hr.2, j, hr.1, l, 'k'⟩

/-- The figure of the system, rayopt/analysis.py 100-112; `min` and `max` of no field raise. -/
noncomputable def drawing (a : Attrs) (fields : List ℝ) : Except Err Fig :=
  match fields.minimum, fields.maximum with
  | some lo, some hi => .ok (.drawing ([.system] ++
      (if a.on "plot_paraxial" then [.paraxial] else []) ++
      (if a.on "plot_gaussian" then [.gaussian] else []) ++
      (if a.on "plot_full" then [.full] else []) ++ [.clipped lo, .clipped hi]))
  | _, _ => .error .emptyFields

/-- `figheight = figwidth*len(fields)/defocus` and `subplots(len(fields), defocus, ..)`,
rayopt/analysis.py 127-130: `defocus` has to be a positive integer. -/
def columns : Option Val → Except Err ℕ
  | some (.int i) => if i = 0 then .error .zeroDivision else if i < 0 then .error .notInteger
      else .ok i.toNat
  | some (.bool true) => .ok 1
  | some (.bool false) => .error .zeroDivision
  | _ => .error .notInteger

/-- `self.transverse(..)` and the like: a keyword may have replaced the method. -/
def Attrs.call {α : Type} (a : Attrs) (k : String) (x : α) : Except Err α :=
  match a.get k with
  | some .method => .ok x
  | _ => .error .notCallable

/-- An optional figure. -/
noncomputable def optional (a : Attrs) (k : String) (f : Except Err Fig) : Except Err (List Fig) :=
  if a.on k then f.map fun x => [x] else .ok []

/-- The figures, rayopt/analysis.py 100-141, in the order they are kept. -/
noncomputable def figures (a : Attrs) (fields wavelengths : List ℝ) : Except Err (List Fig) := do
  let d ← drawing a fields
  let t ← optional a "plot_transverse"
    (a.call "transverse" (.transverse fields.length 3 (curves 3 fields wavelengths)))
  let l ← optional a "plot_longitudinal"
    (a.call "longitudinal" (.longitudinal (fields.maximum.getD 0)))
  let s ← optional a "plot_spots" do
    let n ← columns (a.get "defocus")
    a.call "spots" (.spots fields.length n (curves n fields wavelengths))
  let p ← optional a "plot_opds"
    (a.call "opds" (.opds fields.length 4 (opdCurves fields (wavelengths.headD 0))))
  pure ([d] ++ t ++ l ++ s ++ p)

/-- What `Analysis(system, **kwargs)` leaves behind. -/
structure Result (Y P T : Type) where
  st : St Y P
  texts : List T
  figures : List Fig
  printed : List T

/-- `Analysis.__init__` with `run`, rayopt/analysis.py 62-74, 76-143. -/
noncomputable def analysis (o : Ops Y P T) (fields wavelengths : List ℝ)
    (kwargs : List (String × Val)) (s : St Y P) : Except Err (Result Y P T) := do
  let a ← setOptions classAttr kwargs
  match a.get "run" with
  | some .method =>
    let s := adjust o a s
    let t := texts o a s
    let f ← figures a fields wavelengths
    pure ⟨s, t, f, if a.on "print" then t else []⟩
  | some v => if v.truthy then .error .notCallable else pure ⟨s, [], [], []⟩
  | none => pure ⟨s, [], [], []⟩

end RayOpt.Analysis
