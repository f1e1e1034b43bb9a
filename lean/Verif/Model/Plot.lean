import Verif.Model.Drawing
import Verif.Model.Gaussian
import Verif.Model.ParaxialTrace

/-!
What the `plot` methods of the traces draw: `Trace.from_axis` (rayopt/raytrace.py) and the points given to
matplotlib by the paraxial, Gaussian and geometric traces.
-/

namespace RayOpt.Plot

open Gauss

/-- `np.vsplit(y, i)`, the rows from `a` on, rayopt/raytrace.py 43: the pieces between successive indices
and the rest. -/
def vsplit {α : Type*} (y : List α) : ℕ → List ℕ → List (List α)
  | a, [] => [y.drop a]
  | a, b :: i => (y.take b).drop a :: vsplit y b i

/-- A point of the piece `j`, rayopt/raytrace.py 46-49. The index is in range in a non-empty system. -/
noncomputable def place (sys : List Elem) (j : ℕ) (p : V3) : V3 :=
  let j := min (sys.length - 1) j
  let q := p - ⟨0, 0, (Sys.path sys).getD j 0⟩
  (Sys.origins sys).getD j 0 + ((sys[j]?).map fun e => e.tf.fromAxis q).getD q

/-- `Trace.from_axis(y, i)`, rayopt/raytrace.py 38-52: a row for each `z`, a point for each ray. The test
of line 44 never holds for the pieces of a three-dimensional array. -/
noncomputable def fromAxis (sys : List Elem) (y : List (List V3)) (i : List ℕ) : List (List V3) :=
  (vsplit y 0 i).zipIdx.flatMap fun cj => cj.1.map fun row => row.map (place sys cj.2)

/-- The default of `i`, rayopt/raytrace.py 40-41: `none` is the `IndexError` of a missing ray `ref`. -/
noncomputable def splits (sys : List Elem) (y : List (List V3)) (ref : ℕ) : Option (List ℕ) :=
  (y.mapM fun row => (row[ref]?).map V3.z).map fun zs => (Sys.path sys).map (searchsorted zs)

/-- The points `ParaxialTrace.plot` draws, rayopt/paraxial_trace.py 255-257. -/
noncomputable def paraxial (sys : List Elem) (rows : List PRow) : List (List V3) :=
  fromAxis sys (List.zipWith (fun r z => [⟨r.y 0, r.y 0, z⟩, ⟨r.y 1, r.y 1, z⟩]) rows (Sys.path sys))
    (List.range sys.length)

/-- The sign of the beam radius at `z`, rayopt/gaussian_trace.py 265-266: the index -1 names the last
element. -/
noncomputable def beamSign (sys : List Elem) (z : ℝ) : ℤ :=
  let c := searchsorted (Sys.path sys) z
  (Sys.mirrored sys).getD (if c = 0 then sys.length - 1 else c - 1) 1

/-- The four points drawn at `z` for the radii `wx`, `wy` (already times `scale`),
rayopt/gaussian_trace.py 267-271. -/
noncomputable def beamRow (sys : List Elem) (z wx wy : ℝ) : List V3 :=
  let m : ℝ := beamSign sys z
  [⟨m * wx, m * wx, z⟩, ⟨m * wy, m * wy, z⟩, ⟨-(m * wx), -(m * wx), z⟩, ⟨-(m * wy), -(m * wy), z⟩]

/-- The curves of `GaussianTrace.plot`, rayopt/gaussian_trace.py 262-272, for the radii `w z` at `z`. -/
noncomputable def beam (sys : List Elem) (zs : List ℝ) (w : ℝ → ℝ × ℝ) : Option (List (List V3)) :=
  let y := zs.map fun z => beamRow sys z (w z).1 (w z).2
  (splits sys y 0).map (fromAxis sys y)

/-- The points of one ray `GeometricTrace.plot` draws, rayopt/geometric_trace.py 238-239; `none` is a
lost ray. -/
noncomputable def rayPoints (sys : List Elem) (ys : List (Option V3)) : List (Option V3) :=
  List.zipWith (fun (eo : Elem × V3) y => y.map fun y => eo.1.tf.fromNormal y + eo.2)
    (sys.zip (Sys.origins sys)) ys

end RayOpt.Plot
