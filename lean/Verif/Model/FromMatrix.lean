import Verif.Model.Homog
import Mathlib.Analysis.SpecialFunctions.Trigonometric.Arctan

/-!
The arguments of a transformation from its homogeneous matrix: `reflection_from_matrix`, `rotation_from_matrix`,
`scale_from_matrix`, `projection_from_matrix`, `shear_from_matrix` (rayopt/transformations.py 271-297, 344-381,
418-456, 520-591, 677-719).  `numpy.linalg.eig` of 3x3 and of 4x4 matrices is a parameter; it gives the eigenvalues
and eigenvectors in some order.
-/

namespace RayOpt.H4

open V3

/-- A complex eigenvalue and its eigenvector: an entry of `w` and a column of `V` for a 3x3 matrix. -/
structure Eig3 where
  re : ℝ
  im : ℝ
  vr : V3
  vi : V3

/-- A complex eigenvalue and its eigenvector for a 4x4 matrix. -/
structure Eig4 where
  re : ℝ
  im : ℝ
  vr : V3 × ℝ
  vi : V3 × ℝ

/-- The exceptions. -/
inductive NoEig
  /-- `ValueError`: no such eigenvector -/
  | value
  /-- `IndexError` of `V[i1]`, rayopt/transformations.py 702 -/
  | index
  deriving DecidableEq

open Classical in
/-- `numpy.where(abs(numpy.real(w) - t) < eps)[0]` as the list of the entries. -/
noncomputable def near3 (l : List Eig3) (t eps : ℝ) : List Eig3 := l.filter fun e => |e.re - t| < eps

open Classical in
/-- The same for a 4x4 matrix. -/
noncomputable def near4 (l : List Eig4) (t eps : ℝ) : List Eig4 := l.filter fun e => |e.re - t| < eps

/-- `point /= point[3]`; `none` for the division by zero, which numpy makes NaN or infinite. -/
noncomputable def dehom (v : V3 × ℝ) : Option V3 := if v.2 = 0 then none else some (point v)

/-- The last eigenvector of the eigenvalue one as a point, e.g. rayopt/transformations.py 291-296. -/
noncomputable def fixedPoint (eig4 : H4 → List Eig4) (m : H4) : Except NoEig (Option V3) :=
  match (near4 (eig4 m) 1 (1 / 10 ^ 8)).getLast? with
  | none => .error .value
  | some e => .ok (dehom e.vr)

/-- `reflection_from_matrix(matrix)`, rayopt/transformations.py 271-297. -/
noncomputable def reflectionFrom (eig3 : M3 → List Eig3) (eig4 : H4 → List Eig4) (m : H4) :
    Except NoEig (Option V3 × V3) :=
  match (near3 (eig3 m.a) (-1) (1 / 10 ^ 8)).head? with
  | none => .error .value
  | some e => (fixedPoint eig4 m).map fun p => (p, e.vr)

/-- `rotation_from_matrix(matrix)`, rayopt/transformations.py 344-381. -/
noncomputable def rotationFrom (eig3 : M3 → List Eig3) (eig4 : H4 → List Eig4) (m : H4) :
    Except NoEig (ℝ × V3 × Option V3) :=
  match (near3 (eig3 m.a.T) 1 (1 / 10 ^ 8)).getLast? with
  | none => .error .value
  | some e =>
    let d := e.vr
    (fixedPoint eig4 m).map fun p =>
      let cosa := (tr m.a - 1) / 2
      let sina :=
        if |d.z| > 1 / 10 ^ 8 then (m.a.a10 + (cosa - 1) * d.x * d.y) / d.z
        else if |d.y| > 1 / 10 ^ 8 then (m.a.a02 + (cosa - 1) * d.x * d.z) / d.y
        else (m.a.a21 + (cosa - 1) * d.y * d.z) / d.x
      (mathAtan2 sina cosa, d, p)

/-- `scale_from_matrix(matrix)`, rayopt/transformations.py 418-456. -/
noncomputable def scaleFrom (eig3 : M3 → List Eig3) (eig4 : H4 → List Eig4) (m : H4) :
    Except NoEig (ℝ × Option V3 × Option V3) :=
  let factor := tr m.a - 2
  let r := match (near3 (eig3 m.a) factor (1 / 10 ^ 8)).head? with
    | some e => (factor, some (unitVector e.vr))
    | none => ((factor + 2) / 3, none)
  (fixedPoint eig4 m).map fun p => (r.1, p, r.2)

/-- The result of `projection_from_matrix`. -/
inductive Projection
  /-- `point, normal, direction, None, False` -/
  | parallel (point : Option V3) (normal direction : V3)
  /-- `point, direction, None, None, False` -/
  | orthogonal (point : Option V3) (normal : V3)
  /-- `point, normal, None, perspective, pseudo`; the perspective point is `none` if it is not finite -/
  | perspective (point : Option V3) (normal : V3) (eye : Option V3)

open Classical in
/-- `projection_from_matrix(matrix, pseudo)`, rayopt/transformations.py 520-591. -/
noncomputable def projectionFrom (eig3 : M3 → List Eig3) (eig4 : H4 → List Eig4) (m : H4) (pseudo : Bool) :
    Except NoEig Projection :=
  match pseudo, (near4 (eig4 m) 1 (1 / 10 ^ 8)).getLast? with
  | false, some e =>
    match (near3 (eig3 m.a) 0 (1 / 10 ^ 8)).head? with
    | none => .error .value
    | some e1 =>
      match (near3 (eig3 m.a.T) 0 (1 / 10 ^ 8)).head? with
      | some e2 => .ok (.parallel (dehom e.vr) (unitVector e2.vr) (unitVector e1.vr))
      | none => .ok (.orthogonal (dehom e.vr) (unitVector e1.vr))
  | _, _ =>
    match ((eig4 m).filter fun e => |e.re| > 1 / 10 ^ 8).getLast? with
    | none => .error .value
    | some e =>
      let normal := -m.c
      .ok (.perspective (dehom e.vr) normal ((dehom e.vr).bind fun p =>
        if p.dot normal = 0 then none
        else
          let eye := (1 / p.dot normal) • m.b
          some (if pseudo then eye - normal else eye)))

/-- One round of the loop of `shear_from_matrix`, rayopt/transformations.py 701-706. -/
noncomputable def longer (s : ℝ × V3) (v w : V3) : ℝ × V3 :=
  let n := v.cross w
  if n.norm > s.1 then (n.norm, n) else s

/-- `shear_from_matrix(matrix)`, rayopt/transformations.py 677-719.  The direction is `none` for the NaN of the
division by zero. -/
noncomputable def shearFrom (eig3 : M3 → List Eig3) (eig4 : H4 → List Eig4) (m : H4) :
    Except NoEig (ℝ × Option V3 × Option V3 × V3) :=
  match (near3 (eig3 m.a) 1 (1 / 10 ^ 4)).map Eig3.vr with
  | [] | [_] => .error .value
  | [_, _] => .error .index
  | v0 :: v1 :: v2 :: _ =>
    let s := longer (longer (longer (-1, 0) v0 v1) v0 v2) v1 v2
    let normal := (1 / s.1) • s.2
    let d := (add3 m.a (smul3 (-1) M3.one)).mulVec normal
    let angle := d.norm
    let direction := if angle = 0 then none else some ((1 / angle) • d)
    (fixedPoint eig4 m).map fun p => (Real.arctan angle, direction, p, normal)

end RayOpt.H4
