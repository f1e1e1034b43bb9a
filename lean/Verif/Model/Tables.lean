import Verif.Model.ParaxialTrace
import Verif.Model.Seidel
import Verif.Model.Trace

/-!
The tables that systems and traces print: `Trace.print_coeffs` (rayopt/raytrace.py 54-61), `print_trace`
and `print_transverse3` of the paraxial and the geometric trace, the list of elements of
`System.base_text`; and `System.aperture`, `NameMixin.typeletter`.

A line is the list of its values; rounding them to the printed digits and the padding are left out.
-/

namespace RayOpt.Tables

/-- What can go wrong. -/
inductive Err
  /-- `system[i]` does not exist -/
  | index
  /-- not as many values as the format asks for -/
  | type
  /-- columns of different length -/
  | value
  /-- a failing assertion -/
  | assertion
deriving DecidableEq

/-- A printed line. -/
inductive Line
  | text (s : String)
  | header (labels : List String)
  | row (i : ℕ) (letter : Char) (vals : List ℝ)
  | total (vals : List ℝ)

/-- `fmt % (.. + tuple(a))` for a format with `n` numbers. -/
def fmt (n : ℕ) (vals : List ℝ) (l : List ℝ → Line) : Except Err Line :=
  if vals.length = n then .ok (l vals) else .error .type

/-- One row of `print_coeffs`, rayopt/raytrace.py 58-59. -/
def coeffRow (letters : List Char) (n i : ℕ) (vals : List ℝ) : Except Err Line :=
  match letters[i]? with
  | none => .error .index
  | some c => fmt n vals (.row i c)

/-- The loop over the rows, rayopt/raytrace.py 58-59, from row `i` on. -/
def coeffRows (letters : List Char) (n : ℕ) : ℕ → List (List ℝ) → Except Err (List Line)
  | _, [] => .ok []
  | i, a :: r => do
    let l ← coeffRow letters n i a
    let ls ← coeffRows letters n (i + 1) r
    pure (l :: ls)

/-- `coeff.sum(0)` of an array with `w` columns. -/
noncomputable def columnSums (w : ℕ) (coeff : List (List ℝ)) : List ℝ :=
  (List.range w).map fun k => (coeff.map fun a => a.getD k 0).sum

/-- `Trace.print_coeffs(coeff, labels, sum)`, rayopt/raytrace.py 54-61, for an array with `w` columns;
`letters` are the type letters of the elements. -/
noncomputable def printCoeffs (letters : List Char) (w : ℕ) (coeff : List (List ℝ))
    (labels : List String) (sum : Bool) : Except Err (List Line) := do
  let rows ← coeffRows letters labels.length 0 coeff
  let tot ← if sum then (fmt labels.length (columnSums w coeff) .total).map fun l => [l] else .ok []
  pure (.header labels :: rows ++ tot)

/-- `np.c_[..]` of columns: all must have the same length. -/
def stack : List (List ℝ) → Except Err (List (List ℝ))
  | [] => .ok []
  | [c] => .ok (c.map fun x => [x])
  | c :: cs => do
    let r ← stack cs
    if c.length = r.length then pure (List.zipWith (fun x xs => x :: xs) c r) else .error .value

/-- `ParaxialTrace.print_trace`, rayopt/paraxial_trace.py 233-238. -/
noncomputable def paraxialTrace (letters : List Char) (sys : List Elem) (rows : List PRow) :
    Except Err (List Line) := do
  let c ← stack [Sys.path sys, rows.map fun r => r.n, rows.map fun r => r.y 0, rows.map fun r => r.u 0,
    rows.map fun r => r.y 1, rows.map fun r => r.u 1]
  printCoeffs letters 6 c ["path", "n", "axial y", "axial nu", "chief y", "chief nu"] false

/-- `ParaxialTrace.print_transverse3`, rayopt/paraxial_trace.py 213-215: `t` is `transverse3`, the
columns in the order `Spheroid.aberration` puts them (rayopt/elements.py 587). -/
noncomputable def transverseTable (letters : List Char) (t : List Seidel) : Except Err (List Line) :=
  printCoeffs letters 7 (t.map fun s => [s.tsc, s.cc, s.tac, s.tpc, s.dc, s.tachc, s.tchc])
    ["SA3", "CMA3", "AST3", "PTZ3", "DIS3", "TACHC", "TCHC"] true

/-- What a geometric trace keeps of one ray at one element: the index, the optical path from the
element before, the position and the direction. -/
structure GRow where
  n : ℝ
  t : ℝ
  y : V3
  u : V3

/-- The table of one ray, rayopt/geometric_trace.py 243, 246-252: `np.cumsum(self.t, axis=0) - path`. -/
noncomputable def rayTable (letters : List Char) (sys : List Elem) (rows : List GRow) :
    Except Err (List Line) := do
  let path := Sys.path sys
  let t := List.zipWith (· - ·) ((rows.map fun r => r.t).scanl (· + ·) 0).tail path
  let c ← stack [rows.map fun r => r.n, path, t, rows.map fun r => r.y.x, rows.map fun r => r.y.y,
    rows.map fun r => r.y.z, rows.map fun r => r.u.x, rows.map fun r => r.u.y, rows.map fun r => r.u.z]
  printCoeffs letters 9 c ["n", "track z", "rel path", "height x", "height y", "height z", "angle x",
    "angle y", "angle z"] false

/-- `GeometricTrace.print_trace`, rayopt/geometric_trace.py 242-253, the loop from ray `i` on. -/
noncomputable def geometricTrace (letters : List Char) (sys : List Elem) :
    ℕ → List (List GRow) → Except Err (List Line)
  | _, [] => .ok []
  | i, r :: rs => do
    let a ← rayTable letters sys r
    let b ← geometricTrace letters sys (i + 1) rs
    pure (.text s!"ray {i}" :: a ++ .text "" :: b)

/-- One line of the list of elements, rayopt/system.py 297-309: radius of curvature and diameter are
`none` if infinite; the indices are `none` if they are not a number.  The Abbe number is left out. -/
structure ElementLine where
  index : ℕ
  letter : Char
  distance : ℝ
  roc : Option ℝ
  diameter : Option ℝ
  n : Option ℝ
  nd : Option ℝ

/-- The loop of `System.base_text`, rayopt/system.py 297-309.  `ld` is the wavelength of the d line. -/
noncomputable def elementLine (ld : ℝ) (sys : List Elem) (wavelength : ℝ) (i : ℕ) (letter : Char)
    (e : Elem) : ElementLine :=
  let curv := match e.shape with
    | some s => s.curvature
    | none => 0
  let nd := e.mat.map fun m => m.index ld
  { index := i
    letter := letter
    distance := e.tf.distance
    roc := by classical exact if curv = 0 then none else some (1 / curv)
    diameter := match e.radius with
      | .inf => none
      | .fin r => some (r * 2)
    n := match e.mat with
      | some _ => some (Sys.refractiveIndex sys wavelength i)
      | none => nd
    nd := nd }

/-- The list of elements in `System.base_text`, rayopt/system.py 297-309. -/
noncomputable def elementLines (ld : ℝ) (sys : List Elem) (letters : List Char) (wavelength : ℝ) :
    List ElementLine :=
  (sys.zip letters).zipIdx.map fun x => elementLine ld sys wavelength x.2 x.1.2 x.1.1

/-- `NameMixin.typeletter`, rayopt/name_mixin.py 58-60: `none` is the `IndexError` for an empty type. -/
def typeletter (letter : Option String) (type : String) : Option String :=
  match letter with
  | some l => if l = "" then type.toList.head?.map fun c => c.toUpper.toString else some l
  | none => type.toList.head?.map fun c => c.toUpper.toString

/-- `System.aperture`, rayopt/system.py 84-86: `self[self.stop]`, where a negative index counts from the
end; `none` is the `IndexError`. -/
def aperture {α : Type} (sys : List α) (stop : ℤ) : Option α :=
  if 0 ≤ stop then sys[stop.toNat]?
  else if 0 ≤ stop + sys.length then sys[(stop + sys.length).toNat]? else none

/-- The setter of `System.aperture`, rayopt/system.py 88-90: `self.stop = self.index(a)`; elements are
compared by identity.  `none` is the `ValueError`. -/
def setAperture {α : Type} [DecidableEq α] (sys : List α) (a : α) : Option ℤ :=
  (sys.findIdx? fun e => e = a).map Int.ofNat

end RayOpt.Tables
