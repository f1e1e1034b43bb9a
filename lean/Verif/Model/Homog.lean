import Verif.Model.Quat

/-!
Homogeneous transformation matrices (rayopt/transformations.py 205-884, 1796-1872).  A 4x4 matrix is kept
as its blocks.
-/

namespace RayOpt

/-- A homogeneous 4x4 matrix `M` (rayopt/transformations.py): `a = M[:3, :3]`, `b = M[:3, 3]`, `c = M[3, :3]`,
`d = M[3, 3]`. -/
@[ext] structure H4 where
  a : M3
  b : V3
  c : V3
  d : ℝ

namespace H4

/-- `numpy.outer(v, w)`. -/
def outer (v w : V3) : M3 :=
  ⟨v.x * w.x, v.x * w.y, v.x * w.z, v.y * w.x, v.y * w.y, v.y * w.z, v.z * w.x, v.z * w.y, v.z * w.z⟩

/-- `A + B` of 3x3 matrices. -/
def add3 (r s : M3) : M3 :=
  ⟨r.a00 + s.a00, r.a01 + s.a01, r.a02 + s.a02, r.a10 + s.a10, r.a11 + s.a11, r.a12 + s.a12,
    r.a20 + s.a20, r.a21 + s.a21, r.a22 + s.a22⟩

/-- `f * A` of a 3x3 matrix. -/
def smul3 (f : ℝ) (s : M3) : M3 :=
  ⟨f * s.a00, f * s.a01, f * s.a02, f * s.a10, f * s.a11, f * s.a12, f * s.a20, f * s.a21, f * s.a22⟩

/-- `numpy.trace(A)`. -/
def tr (s : M3) : ℝ := s.a00 + s.a11 + s.a22

/-- `identity_matrix()`, rayopt/transformations.py 205-217. -/
def one : H4 := ⟨M3.one, 0, 0, 1⟩

/-- `numpy.dot(M, N)`. -/
def mul (m n : H4) : H4 where
  a := add3 (m.a.mul n.a) (outer m.b n.c)
  b := m.a.mulVec n.b + n.d • m.b
  c := M3.vecMul m.c n.a + m.d • n.c
  d := m.c.dot n.b + m.d * n.d

/-- `numpy.dot(M, v)` for homogeneous coordinates `v = (p, w)`. -/
def app (m : H4) (v : V3 × ℝ) : V3 × ℝ := (m.a.mulVec v.1 + v.2 • m.b, m.c.dot v.1 + m.d * v.2)

/-- The point of homogeneous coordinates: `v[:3] / v[3]`. -/
noncomputable def point (v : V3 × ℝ) : V3 := (1 / v.2) • v.1

/-- `concatenate_matrices(*matrices)`, rayopt/transformations.py 1843-1856. -/
def concat (ms : List H4) : H4 := ms.foldl mul one

/-- `M /= M[3, 3]`. -/
noncomputable def unit (m : H4) : H4 := ⟨smul3 (1 / m.d) m.a, (1 / m.d) • m.b, (1 / m.d) • m.c, 1 / m.d * m.d⟩

/-- `translation_matrix(direction)`, rayopt/transformations.py 220-230. -/
def translation (v : V3) : H4 := ⟨M3.one, v, 0, 1⟩

/-- `translation_from_matrix(matrix)`, rayopt/transformations.py 233-242. -/
def translationFrom (m : H4) : V3 := m.b

/-- `reflection_matrix(point, normal)`, rayopt/transformations.py 245-268. -/
noncomputable def reflection (p normal : V3) : H4 :=
  let n := unitVector normal
  ⟨add3 M3.one (smul3 (-2) (outer n n)), (2 * p.dot n) • n, 0, 1⟩

/-- `rotation_matrix(angle, direction, point)`, rayopt/transformations.py 300-341. -/
noncomputable def rotation (angle : ℝ) (direction : V3) (p : Option V3) : H4 :=
  let r := rotationMatrix angle direction
  ⟨r, match p with
    | none => 0
    | some p => p - r.mulVec p, 0, 1⟩

/-- `scale_matrix(factor, origin, direction)`, rayopt/transformations.py 384-415. -/
noncomputable def scaling (factor : ℝ) (origin direction : Option V3) : H4 :=
  match direction with
  | none => ⟨smul3 factor M3.one, match origin with
    | none => 0
    | some o => (1 - factor) • o, 0, 1⟩
  | some d =>
    let d := unitVector d
    let f := 1 - factor
    ⟨add3 M3.one (smul3 (-f) (outer d d)), match origin with
      | none => 0
      | some o => (f * o.dot d) • d, 0, 1⟩

/-- `projection_matrix(point, normal)`, rayopt/transformations.py 514-517. -/
noncomputable def projection (p normal : V3) : H4 :=
  let n := unitVector normal
  ⟨add3 M3.one (smul3 (-1) (outer n n)), p.dot n • n, 0, 1⟩

/-- `projection_matrix(point, normal, direction)`, rayopt/transformations.py 508-513. -/
noncomputable def parallel (p normal direction : V3) : H4 :=
  let n := unitVector normal
  let scale := direction.dot n
  ⟨add3 M3.one (smul3 (-(1 / scale)) (outer direction n)), (p.dot n / scale) • direction, 0, 1⟩

/-- `projection_matrix(point, normal, perspective=, pseudo=)`, rayopt/transformations.py 492-507. -/
noncomputable def perspective (p normal e : V3) (pseudo : Bool) : H4 :=
  let n := unitVector normal
  let a := add3 (smul3 ((e - p).dot n) M3.one) (smul3 (-1) (outer e n))
  if pseudo then ⟨add3 a (smul3 (-1) (outer n n)), p.dot n • (e + n), -n, e.dot n⟩
  else ⟨a, p.dot n • e, -n, e.dot n⟩

/-- `clip_matrix(left, right, bottom, top, near, far, perspective)`, rayopt/transformations.py 594-643.
`none` is the `ValueError`. -/
noncomputable def clip (left right bottom top near far : ℝ) (perspective : Bool) : Option H4 :=
  if left ≥ right ∨ bottom ≥ top ∨ near ≥ far then none
  else if perspective then
    if near ≤ tfEps then none
    else
      let t := 2 * near
      some ⟨⟨t / (left - right), 0, (right + left) / (right - left),
          0, t / (bottom - top), (top + bottom) / (top - bottom),
          0, 0, (far + near) / (near - far)⟩, ⟨0, 0, t * far / (far - near)⟩, ⟨0, 0, -1⟩, 0⟩
  else some ⟨⟨2 / (right - left), 0, 0, 0, 2 / (top - bottom), 0, 0, 0, 2 / (far - near)⟩,
    ⟨(right + left) / (left - right), (top + bottom) / (bottom - top), (far + near) / (near - far)⟩, 0, 1⟩

/-- `shear_matrix(angle, direction, point, normal)`, rayopt/transformations.py 646-674.  `none` is the
`ValueError`. -/
noncomputable def shear (angle : ℝ) (direction p normal : V3) : Option H4 :=
  let n := unitVector normal
  let d := unitVector direction
  if |n.dot d| > 1 / 10 ^ 6 then none
  else
    let t := Real.tan angle
    some ⟨add3 M3.one (smul3 t (outer d n)), (-t * p.dot n) • d, 0, 1⟩

/-- `numpy.radians`. -/
noncomputable def radians (x : ℝ) : ℝ := x * (Real.pi / 180)

/-- `orthogonalization_matrix(lengths, angles)`, rayopt/transformations.py 860-884.  `none` is the
`ValueError` of `math.sqrt`. -/
noncomputable def orthogonalization (a b c alpha beta gamma : ℝ) : Option H4 :=
  let sina := Real.sin (radians alpha)
  let sinb := Real.sin (radians beta)
  let cosa := Real.cos (radians alpha)
  let cosb := Real.cos (radians beta)
  let cosg := Real.cos (radians gamma)
  let co := (cosa * cosb - cosg) / (sina * sinb)
  if 1 - co * co < 0 then none
  else some ⟨⟨a * sinb * Real.sqrt (1 - co * co), 0, 0, -a * sinb * co, b * sina, 0, a * cosb, b * cosa, c⟩,
    0, 0, 1⟩

/-- `angle_between_vectors(v0, v1, directed)` for one pair, rayopt/transformations.py 1796-1824. -/
noncomputable def angleBetween (v w : V3) (directed : Bool) : ℝ :=
  let dot := v.dot w / (v.norm * w.norm)
  Real.arccos (if directed then dot else |dot|)

/-- `numpy.allclose` of two 3x3 matrices. -/
def close3 (r s : M3) : Prop :=
  close r.a00 s.a00 ∧ close r.a01 s.a01 ∧ close r.a02 s.a02 ∧ close r.a10 s.a10 ∧ close r.a11 s.a11 ∧
    close r.a12 s.a12 ∧ close r.a20 s.a20 ∧ close r.a21 s.a21 ∧ close r.a22 s.a22

/-- `is_same_transform(matrix0, matrix1)`, rayopt/transformations.py 1859-1872.  When a `M[3, 3]` is zero the
division makes that very entry `0 / 0`, a NaN, and `numpy.allclose` is `False`. -/
def same (m n : H4) : Prop :=
  m.d ≠ 0 ∧ n.d ≠ 0 ∧
    close3 m.unit.a n.unit.a ∧ allclose m.unit.b n.unit.b ∧ allclose m.unit.c n.unit.c ∧ close m.unit.d n.unit.d

end H4

end RayOpt
