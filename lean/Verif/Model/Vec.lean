import Mathlib.Analysis.Real.Sqrt
import Mathlib.Tactic.Ring
import Mathlib.Tactic.Linarith
import Mathlib.Tactic.FieldSimp
import Mathlib.Tactic.Positivity
import Mathlib.Tactic.NormNum

/-!
Three-component vectors and 3x3 matrices over the reals: the value domain of the
`(n, 3)` numpy arrays that rayopt passes around, one row at a time.
-/

namespace RayOpt

/-- One row of a `(n, 3)` position or direction array
(rayopt/elements.py, rayopt/geometric_trace.py: `y[i]`, `u[i]`). -/
@[ext] structure V3 where
  x : ℝ
  y : ℝ
  z : ℝ

namespace V3

instance : Zero V3 := ⟨⟨0, 0, 0⟩⟩
instance : Add V3 := ⟨fun a b => ⟨a.x + b.x, a.y + b.y, a.z + b.z⟩⟩
instance : Sub V3 := ⟨fun a b => ⟨a.x - b.x, a.y - b.y, a.z - b.z⟩⟩
instance : Neg V3 := ⟨fun a => ⟨-a.x, -a.y, -a.z⟩⟩
instance : SMul ℝ V3 := ⟨fun s a => ⟨s * a.x, s * a.y, s * a.z⟩⟩

@[simp] theorem zero_x : (0 : V3).x = 0 := rfl
@[simp] theorem zero_y : (0 : V3).y = 0 := rfl
@[simp] theorem zero_z : (0 : V3).z = 0 := rfl
@[simp] theorem add_x (a b : V3) : (a + b).x = a.x + b.x := rfl
@[simp] theorem add_y (a b : V3) : (a + b).y = a.y + b.y := rfl
@[simp] theorem add_z (a b : V3) : (a + b).z = a.z + b.z := rfl
@[simp] theorem sub_x (a b : V3) : (a - b).x = a.x - b.x := rfl
@[simp] theorem sub_y (a b : V3) : (a - b).y = a.y - b.y := rfl
@[simp] theorem sub_z (a b : V3) : (a - b).z = a.z - b.z := rfl
@[simp] theorem neg_x (a : V3) : (-a).x = -a.x := rfl
@[simp] theorem neg_y (a : V3) : (-a).y = -a.y := rfl
@[simp] theorem neg_z (a : V3) : (-a).z = -a.z := rfl
@[simp] theorem smul_x (s : ℝ) (a : V3) : (s • a).x = s * a.x := rfl
@[simp] theorem smul_y (s : ℝ) (a : V3) : (s • a).y = s * a.y := rfl
@[simp] theorem smul_z (s : ℝ) (a : V3) : (s • a).z = s * a.z := rfl

/-- `(a*b).sum()` / `np.dot(a, b)` for 3-vectors. -/
def dot (a b : V3) : ℝ := a.x * b.x + a.y * b.y + a.z * b.z

/-- `np.cross(a, b)` for 3-vectors. -/
def cross (a b : V3) : V3 :=
  ⟨a.y * b.z - a.z * b.y, a.z * b.x - a.x * b.z, a.x * b.y - a.y * b.x⟩

/-- `np.linalg.norm(a)`. -/
noncomputable def norm (a : V3) : ℝ := Real.sqrt (a.dot a)

/-- The unit z vector `(0, 0, 1.)`. -/
def ez : V3 := ⟨0, 0, 1⟩

/-- Triple product `a . (b x c)`, used in statements about coplanarity and
orientation only. -/
def triple (a b c : V3) : ℝ := a.dot (b.cross c)

end V3

/-- A 3x3 matrix, entries named `m[row, column]` (rayopt/elements.py 139-154,
`rot_axis`, `rot_normal`). -/
@[ext] structure M3 where
  a00 : ℝ
  a01 : ℝ
  a02 : ℝ
  a10 : ℝ
  a11 : ℝ
  a12 : ℝ
  a20 : ℝ
  a21 : ℝ
  a22 : ℝ

namespace M3

/-- `np.eye(3)` (rayopt/elements.py 139). -/
def one : M3 := ⟨1, 0, 0, 0, 1, 0, 0, 0, 1⟩

/-- `r.T`. -/
def T (r : M3) : M3 :=
  ⟨r.a00, r.a10, r.a20, r.a01, r.a11, r.a21, r.a02, r.a12, r.a22⟩

/-- `np.dot(r, s)`. -/
def mul (r s : M3) : M3 :=
  ⟨r.a00 * s.a00 + r.a01 * s.a10 + r.a02 * s.a20,
   r.a00 * s.a01 + r.a01 * s.a11 + r.a02 * s.a21,
   r.a00 * s.a02 + r.a01 * s.a12 + r.a02 * s.a22,
   r.a10 * s.a00 + r.a11 * s.a10 + r.a12 * s.a20,
   r.a10 * s.a01 + r.a11 * s.a11 + r.a12 * s.a21,
   r.a10 * s.a02 + r.a11 * s.a12 + r.a12 * s.a22,
   r.a20 * s.a00 + r.a21 * s.a10 + r.a22 * s.a20,
   r.a20 * s.a01 + r.a21 * s.a11 + r.a22 * s.a21,
   r.a20 * s.a02 + r.a21 * s.a12 + r.a22 * s.a22⟩

/-- `np.dot(v, r)`: row vector times matrix (rayopt/elements.py 160). -/
def vecMul (v : V3) (r : M3) : V3 :=
  ⟨v.x * r.a00 + v.y * r.a10 + v.z * r.a20,
   v.x * r.a01 + v.y * r.a11 + v.z * r.a21,
   v.x * r.a02 + v.y * r.a12 + v.z * r.a22⟩

/-- `np.dot(r, v)`: matrix times column vector. -/
def mulVec (r : M3) (v : V3) : V3 :=
  ⟨r.a00 * v.x + r.a01 * v.y + r.a02 * v.z,
   r.a10 * v.x + r.a11 * v.y + r.a12 * v.z,
   r.a20 * v.x + r.a21 * v.y + r.a22 * v.z⟩

/-- Determinant, used in statements only. -/
def det (r : M3) : ℝ :=
  r.a00 * (r.a11 * r.a22 - r.a12 * r.a21) - r.a01 * (r.a10 * r.a22 - r.a12 * r.a20)
    + r.a02 * (r.a10 * r.a21 - r.a11 * r.a20)

/-- Specification: `r` is a proper rotation. -/
structure IsRot (r : M3) : Prop where
  left : r.mul r.T = one
  right : r.T.mul r = one
  det1 : r.det = 1

end M3

end RayOpt
