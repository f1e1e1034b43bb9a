import Verif.Model.Vec
import Mathlib.Analysis.SpecialFunctions.Trigonometric.Inverse

/-!
`TransformMixin` (rayopt/elements.py 29-175) and the two matrix constructors it uses
(rayopt/transformations.py 300-341 `rotation_matrix`, 1047-1107 `euler_matrix`).

The compiled `_transformations` extension, when present, replaces the Python versions
(transformations.py 1875-1907); these are the Python versions, the compiled ones are in Model/Compiled.lean (C106).
-/

namespace RayOpt

/-- `np.allclose(a, b)` for two numbers with numpy's default tolerances
`rtol=1e-5, atol=1e-8` (used in rayopt/elements.py 109-145). -/
def close (a b : ℝ) : Prop := |a - b| ≤ 1 / 10 ^ 8 + 1 / 10 ^ 5 * |b|

/-- `np.allclose(a, b)` for 3-vectors: all components are close. -/
def allclose (a b : V3) : Prop := close a.x b.x ∧ close a.y b.y ∧ close a.z b.z

/-- `unit_vector(data)` for one 3-vector, rayopt/transformations.py 1716-1757 (the `ndim == 1`
branch). Division by a zero norm gives NaN in the code; callers below never pass zero. -/
noncomputable def unitVector (v : V3) : V3 := (1 / v.norm) • v

/-- `rotation_matrix(angle, direction)[:3, :3]`, rayopt/transformations.py 325-335
(`point is None`). -/
noncomputable def rotationMatrix (angle : ℝ) (direction : V3) : M3 :=
  let sina := Real.sin angle
  let cosa := Real.cos angle
  let d := unitVector direction
  ⟨cosa + d.x * d.x * (1 - cosa), d.x * d.y * (1 - cosa) - sina * d.z,
     d.x * d.z * (1 - cosa) + sina * d.y,
   d.y * d.x * (1 - cosa) + sina * d.z, cosa + d.y * d.y * (1 - cosa),
     d.y * d.z * (1 - cosa) - sina * d.x,
   d.z * d.x * (1 - cosa) - sina * d.y, d.z * d.y * (1 - cosa) + sina * d.x,
     cosa + d.z * d.z * (1 - cosa)⟩

/-- `_NEXT_AXIS = [1, 2, 0, 1]`, rayopt/transformations.py 1661, with Python list indexing. -/
def nextAxis : ℕ → ℕ
  | 0 => 1
  | 1 => 2
  | 2 => 0
  | _ => 1

/-- Axis sequence tuple `(firstaxis, parity, repetition, frame)`,
values of `_AXES2TUPLE`, rayopt/transformations.py 1664-1672. -/
structure Axes where
  first : Fin 3
  parity : Bool
  repetition : Bool
  frame : Bool
  deriving DecidableEq

/-- `_AXES2TUPLE["rxyz"] = (2, 1, 0, 1)`, rayopt/transformations.py 1672. -/
def Axes.rxyz : Axes := ⟨2, true, false, true⟩

/-- `i = firstaxis; j = _NEXT_AXIS[i+parity]; k = _NEXT_AXIS[i-parity+1]`,
rayopt/transformations.py 1072-1074. -/
def Axes.ijk (a : Axes) : ℕ × ℕ × ℕ :=
  let p := if a.parity then 1 else 0
  (a.first, nextAxis (a.first + p), nextAxis (a.first + 1 - p))

/-- The entry of a 3x3 matrix built by the assignments `M[i,i]=..; M[i,j]=..; ...`: look up the
position of a row/column number in the axis permutation `(i, j, k)`. -/
def axisPos (t : ℕ × ℕ × ℕ) (n : ℕ) : Fin 3 :=
  if n = t.1 then 0 else if n = t.2.1 then 1 else 2

/-- `euler_matrix(ai, aj, ak, axes)[:3, :3]`, rayopt/transformations.py 1066-1107.
`e` is the table of right hand sides in the permuted axes `(i, j, k)`; the matrix entry at
`(row, col)` is looked up through the permutation, which is what the index assignments do. -/
noncomputable def eulerMatrix (ai aj ak : ℝ) (axes : Axes) : M3 :=
  let t := axes.ijk
  let a1 := if axes.frame then ak else ai
  let a3 := if axes.frame then ai else ak
  let ai := if axes.parity then -a1 else a1
  let aj := if axes.parity then -aj else aj
  let ak := if axes.parity then -a3 else a3
  let si := Real.sin ai; let sj := Real.sin aj; let sk := Real.sin ak
  let ci := Real.cos ai; let cj := Real.cos aj; let ck := Real.cos ak
  let cc := ci * ck; let cs := ci * sk
  let sc := si * ck; let ss := si * sk
  let e : Fin 3 → Fin 3 → ℝ :=
    if axes.repetition then
      fun r c => match r, c with
        | 0, 0 => cj
        | 0, 1 => sj * si
        | 0, 2 => sj * ci
        | 1, 0 => sj * sk
        | 1, 1 => -cj * ss + cc
        | 1, 2 => -cj * cs - sc
        | 2, 0 => -sj * ck
        | 2, 1 => cj * sc + cs
        | 2, 2 => cj * cc - ss
    else
      fun r c => match r, c with
        | 0, 0 => cj * ck
        | 0, 1 => sj * sc - cs
        | 0, 2 => sj * cc + ss
        | 1, 0 => cj * sk
        | 1, 1 => sj * ss + cc
        | 1, 2 => sj * cs - sc
        | 2, 0 => -sj
        | 2, 1 => cj * si
        | 2, 2 => cj * ci
  let p := axisPos t
  ⟨e (p 0) (p 0), e (p 0) (p 1), e (p 0) (p 2),
   e (p 1) (p 0), e (p 1) (p 1), e (p 1) (p 2),
   e (p 2) (p 0), e (p 2) (p 1), e (p 2) (p 2)⟩

/-- State of a `TransformMixin` (attributes set in rayopt/elements.py 129-154). -/
structure Transform where
  distance : ℝ
  direction : V3
  offset : V3
  angles : V3
  straight : Prop
  normal : Prop
  rotAxis : Option M3
  rotNormal : Option M3

namespace Transform

/-- The unit direction stored by `TransformMixin.update`, rayopt/elements.py 121-128: normalise,
a zero vector becomes `(0, 0, 1)`, and a negative distance flips the direction. -/
noncomputable def updDir (distance : ℝ) (direction : V3) : V3 :=
  let dlen := direction.norm
  let dir := if dlen = 0 then V3.ez else direction
  let dlen := if dlen = 0 then 1 else dlen
  let u := (1 / dlen) • dir
  if distance < 0 then -u else u

open Classical in
/-- The matrix `rot_axis` for a direction `u` that is not straight, rayopt/elements.py 141-147. -/
noncomputable def updRot (u : V3) : M3 :=
  let rdir := u.cross V3.ez
  let rang := Real.arcsin rdir.norm
  let rang := if u.z < 0 then Real.pi - rang else rang
  let rdir := if allclose rdir 0 then ⟨1, 0, 0⟩ else rdir
  rotationMatrix rang rdir

open Classical in
/-- `TransformMixin.update`, rayopt/elements.py 120-154. -/
noncomputable def update (distance : ℝ) (direction angles : V3) : Transform :=
  let u := updDir distance direction
  let d := if distance < 0 then -distance else distance
  let straight := allclose u V3.ez
  let normal := allclose angles 0
  if normal ∧ straight then
    { distance := d, direction := u, offset := d • u, angles := angles,
      straight := straight, normal := normal, rotAxis := none, rotNormal := none }
  else
    let rotAxis := if straight then none else some (updRot u)
    let r := if straight then M3.one else M3.one.mul (updRot u)
    let r := if normal then r else
      r.mul (eulerMatrix angles.x angles.y angles.z Axes.rxyz)
    { distance := d, direction := u, offset := d • u, angles := angles,
      straight := straight, normal := normal, rotAxis := rotAxis, rotNormal := some r }

/-- `offset` setter, rayopt/elements.py 55-62. -/
noncomputable def setOffset (t : Transform) (offset : V3) : Transform :=
  let d := offset.norm
  let direction := if d = 0 then V3.ez else (1 / d) • offset
  update d direction t.angles

/-- `angles` setter, rayopt/elements.py 68-70. -/
noncomputable def setAngles (t : Transform) (a : V3) : Transform :=
  update t.distance t.direction a

/-- `distance` setter, rayopt/elements.py 76-78. -/
noncomputable def setDistance (t : Transform) (d : ℝ) : Transform :=
  update d t.direction t.angles

/-- `direction` setter, rayopt/elements.py 84-86. -/
noncomputable def setDirection (t : Transform) (u : V3) : Transform :=
  update t.distance u t.angles

/-- `TransformMixin.__init__`, rayopt/elements.py 31-35. -/
noncomputable def init (distance : ℝ) (direction angles : V3) (offset : Option V3) : Transform :=
  match offset with
  | none => update distance direction angles
  | some o => (update distance direction angles).setOffset o

/-- `_do_rotate` for one vector, rayopt/elements.py 156-163. The flag of the code
(`not straight` / `rotated`) is true exactly when the matrix is not `None`, which is how it is
modelled (see `Verif.Lemmas.Transform`, `update_flags`). -/
def doRotate (r : Option M3) (inverse : Bool) (v : V3) : V3 :=
  match r with
  | none => v
  | some r => if inverse then M3.vecMul v r.T else M3.vecMul v r

/-- `from_axis`, rayopt/elements.py 165-166. -/
def fromAxis (t : Transform) (v : V3) : V3 := doRotate t.rotAxis false v
/-- `to_axis`, rayopt/elements.py 168-169. -/
def toAxis (t : Transform) (v : V3) : V3 := doRotate t.rotAxis true v
/-- `from_normal`, rayopt/elements.py 171-172. -/
def fromNormal (t : Transform) (v : V3) : V3 := doRotate t.rotNormal false v
/-- `to_normal`, rayopt/elements.py 174-175. -/
def toNormal (t : Transform) (v : V3) : V3 := doRotate t.rotNormal true v

end Transform

end RayOpt
