import Verif.Model.Gaussian
import Verif.Model.Tables

/-!
The table that a Gaussian trace prints: `GaussianTrace.print_trace` (rayopt/gaussian_trace.py 235-244).
-/

namespace RayOpt.Tables

open Gauss

/-- The values that have to be numbers: one that is not would be printed as `nan`, here it is an error
as the failing assertion of `normal` is. -/
def number {α : Type} : Option α → Except Err α
  | some x => .ok x
  | none => .error .assertion

/-- `np.rad2deg`, rayopt/gaussian_trace.py 241. -/
noncomputable def rad2deg (a : ℝ) : ℝ := a * (180 / Real.pi)

/-- `GaussianTrace.print_trace`, rayopt/gaussian_trace.py 235-244; `rows` are the traced `(qi, n)`. -/
noncomputable def gaussianTable (letters : List Char) (sys : List Elem) (rows : List (QM × ℝ)) (scale l : ℝ) :
    Except Err (List Line) := do
  let s ← number (rows.mapM fun r => spotNormal r.1 scale l)
  let wrx ← number (rows.mapM fun r => waistRadius r.1 r.2 scale l 0)
  let wry ← number (rows.mapM fun r => waistRadius r.1 r.2 scale l 1)
  let c ← stack [Sys.path sys, s.map fun x => x.1, s.map fun x => x.2.1, s.map fun x => rad2deg x.2.2,
    rows.map fun r => waistPosition r.1 r.2 0, rows.map fun r => waistPosition r.1 r.2 1, wrx, wry]
  printCoeffs letters 8 c ["path", "spot a", "spot b", "spot ang", "waistx dz", "waisty dz", "waist x",
    "waist y"] false

end RayOpt.Tables
