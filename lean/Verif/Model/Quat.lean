import Verif.Model.Transform
import Mathlib.Analysis.SpecialFunctions.Complex.Arg

/-!
Quaternions and Euler angles (rayopt/transformations.py 1110-1486, 1655-1674).

These are the Python versions; the compiled `_transformations` extension (`Model/Compiled.lean`) replaces them
when it is present (transformations.py 1875-1907). A quaternion is `w + ix + jy + kz`, stored as
`[w, x, y, z]`. Homogeneous 4x4 matrices are represented by their 3x3 block: every function
below writes the last row and column of the identity.
-/

namespace RayOpt

/-- A quaternion `[w, x, y, z]` (rayopt/transformations.py, `quaternion[0] .. quaternion[3]`). -/
@[ext] structure Quat where
  w : ℝ
  x : ℝ
  y : ℝ
  z : ℝ

/-- `_EPS = numpy.finfo(float).eps * 4.0`, rayopt/transformations.py 1656. -/
noncomputable def tfEps : ℝ := 1 / 2 ^ 50

namespace Quat

/-- `numpy.dot(p, q)` for two quaternions as 4-vectors. -/
def dot (p q : Quat) : ℝ := p.w * q.w + p.x * q.x + p.y * q.y + p.z * q.z

/-- `vector_norm(q)`, rayopt/transformations.py 1677-1713 (the `ndim == 1` branch). -/
noncomputable def norm (q : Quat) : ℝ := Real.sqrt (q.dot q)

/-- `q * s` for a quaternion and a number. -/
def scale (s : ℝ) (q : Quat) : Quat := ⟨q.w * s, q.x * s, q.y * s, q.z * s⟩

/-- `p + q` of two arrays. -/
def add (p q : Quat) : Quat := ⟨p.w + q.w, p.x + q.x, p.y + q.y, p.z + q.z⟩

/-- `numpy.negative(q)`. -/
def neg (q : Quat) : Quat := ⟨-q.w, -q.x, -q.y, -q.z⟩

/-- `quaternion_multiply(q1, q0)`, rayopt/transformations.py 1356-1369. -/
def mul (q1 q0 : Quat) : Quat :=
  ⟨-q1.x * q0.x - q1.y * q0.y - q1.z * q0.z + q1.w * q0.w,
   q1.x * q0.w + q1.y * q0.z - q1.z * q0.y + q1.w * q0.x,
   -q1.x * q0.z + q1.y * q0.w + q1.z * q0.x + q1.w * q0.y,
   q1.x * q0.y - q1.y * q0.x + q1.z * q0.w + q1.w * q0.z⟩

/-- `quaternion_conjugate(q)`, rayopt/transformations.py 1372-1383. -/
def conj (q : Quat) : Quat := ⟨q.w, -q.x, -q.y, -q.z⟩

/-- `quaternion_inverse(q)`, rayopt/transformations.py 1386-1397. The zero quaternion gives NaN
in the code; here the division by zero is Lean's and callers exclude it. -/
noncomputable def inv (q : Quat) : Quat :=
  let c : Quat := ⟨q.w, -q.x, -q.y, -q.z⟩
  ⟨c.w / c.dot c, c.x / c.dot c, c.y / c.dot c, c.z / c.dot c⟩

/-- `quaternion_imag(q)`, rayopt/transformations.py 1410-1417. -/
def imag (q : Quat) : V3 := ⟨q.x, q.y, q.z⟩

/-- `quaternion_about_axis(angle, axis)`, rayopt/transformations.py 1236-1249. -/
noncomputable def aboutAxis (angle : ℝ) (axis : V3) : Quat :=
  let q : Quat := ⟨0, axis.x, axis.y, axis.z⟩
  let qlen := q.norm
  let q := if qlen > tfEps then q.scale (Real.sin (angle / 2) / qlen) else q
  ⟨Real.cos (angle / 2), q.x, q.y, q.z⟩

/-- `quaternion_matrix(q)[:3, :3]`, rayopt/transformations.py 1252-1276. -/
noncomputable def matrix (q : Quat) : M3 :=
  let n := q.dot q
  if n < tfEps then M3.one else
  let p := q.scale (Real.sqrt (2 / n))
  ⟨1 - p.y * p.y - p.z * p.z, p.x * p.y - p.z * p.w, p.x * p.z + p.y * p.w,
   p.x * p.y + p.z * p.w, 1 - p.x * p.x - p.z * p.z, p.y * p.z - p.x * p.w,
   p.x * p.z - p.y * p.w, p.y * p.z + p.x * p.w, 1 - p.x * p.x - p.y * p.y⟩

/-- `if q[0] < 0.0: numpy.negative(q, q)`, rayopt/transformations.py 1351-1352. -/
noncomputable def upper (q : Quat) : Quat := if q.w < 0 then q.neg else q

end Quat

/-- `M[i, j]` of the homogeneous 4x4 matrix with rotation block `m` (last row and column of the
identity). -/
def M3.get4 (m : M3) : ℕ → ℕ → ℝ
  | 0, 0 => m.a00 | 0, 1 => m.a01 | 0, 2 => m.a02
  | 1, 0 => m.a10 | 1, 1 => m.a11 | 1, 2 => m.a12
  | 2, 0 => m.a20 | 2, 1 => m.a21 | 2, 2 => m.a22
  | 3, 3 => 1
  | _, _ => 0

namespace Quat

/-- The index choice `i, j, k` of `quaternion_from_matrix`, rayopt/transformations.py 1318-1322. -/
noncomputable def pivot (m : M3) : ℕ × ℕ × ℕ :=
  let t := if m.get4 1 1 > m.get4 0 0 then (2, 3, 1) else (1, 2, 3)
  if m.get4 2 2 > m.get4 t.1 t.1 then (3, 1, 2) else t

/-- `quaternion_from_matrix(M, isprecise=True)`, rayopt/transformations.py 1310-1328, 1351-1353.
`junk` is what `numpy.empty` happened to contain in `q[0]`. `math.sqrt` of a negative number and
the division by a zero square root raise: `none`. -/
noncomputable def fromPrecise (junk : ℝ) (m : M3) : Option Quat :=
  let t := m.get4 0 0 + m.get4 1 1 + m.get4 2 2 + m.get4 3 3
  let tq : ℝ × Quat :=
    if t > m.get4 3 3 then
      (t, ⟨t, m.get4 2 1 - m.get4 1 2, m.get4 0 2 - m.get4 2 0, m.get4 1 0 - m.get4 0 1⟩)
    else
      let p := pivot m
      let i := p.1; let j := p.2.1; let k := p.2.2
      let t := m.get4 i i - (m.get4 j j + m.get4 k k) + m.get4 3 3
      let q : ℕ → ℝ := fun _ => junk
      let q := Function.update q i t
      let q := Function.update q j (m.get4 i j + m.get4 j i)
      let q := Function.update q k (m.get4 k i + m.get4 i k)
      let q := Function.update q 3 (m.get4 k j - m.get4 j k)
      (t, ⟨q 0, q 1, q 2, q 3⟩)
  let r := tq.1 * m.get4 3 3
  if r ≤ 0 then none else some (tq.2.scale (1 / 2 / Real.sqrt r)).upper

/-- The symmetric matrix `K` of `quaternion_from_matrix` as a quadratic form: `K v` for
`v = (v0, v1, v2, v3)`, rayopt/transformations.py 1339-1345. `numpy.linalg.eigh` reads the lower
triangle only, so the upper triangle is its mirror image. The argument is in the order of the
rows of `K`. -/
noncomputable def kMul (m : M3) (v : Fin 4 → ℝ) : Fin 4 → ℝ :=
  let k00 := (m.a00 - m.a11 - m.a22) / 3
  let k10 := (m.a01 + m.a10) / 3
  let k11 := (m.a11 - m.a00 - m.a22) / 3
  let k20 := (m.a02 + m.a20) / 3
  let k21 := (m.a12 + m.a21) / 3
  let k22 := (m.a22 - m.a00 - m.a11) / 3
  let k30 := (m.a21 - m.a12) / 3
  let k31 := (m.a02 - m.a20) / 3
  let k32 := (m.a10 - m.a01) / 3
  let k33 := (m.a00 + m.a11 + m.a22) / 3
  fun i => match i with
    | 0 => k00 * v 0 + k10 * v 1 + k20 * v 2 + k30 * v 3
    | 1 => k10 * v 0 + k11 * v 1 + k21 * v 2 + k31 * v 3
    | 2 => k20 * v 0 + k21 * v 1 + k22 * v 2 + k32 * v 3
    | 3 => k30 * v 0 + k31 * v 1 + k32 * v 2 + k33 * v 3

/-- `q = V[[3, 0, 1, 2], numpy.argmax(w)]` and the sign, rayopt/transformations.py 1348-1353, for
the column `v` of eigenvectors that `eigh` returned for the largest eigenvalue. -/
noncomputable def fromEig (v : Fin 4 → ℝ) : Quat := (⟨v 3, v 0, v 1, v 2⟩ : Quat).upper

/-- `quaternion_slerp(quat0, quat1, fraction, spin, shortestpath)`,
rayopt/transformations.py 1438-1458. -/
noncomputable def slerp (quat0 quat1 : Quat) (fraction : ℝ) (spin : ℤ) (shortest : Bool) : Quat :=
  let q0 := quat0.scale (1 / quat0.norm)
  let q1 := quat1.scale (1 / quat1.norm)
  if fraction = 0 then q0 else
  if fraction = 1 then q1 else
  let d := q0.dot q1
  if |(|d|) - 1| < tfEps then q0 else
  let flip := shortest = true ∧ d < 0
  let q1 := if flip then q1.neg else q1
  let d := if flip then -d else d
  let angle := Real.arccos d + spin * Real.pi
  if |angle| < tfEps then q0 else
  let isin := 1 / Real.sin angle
  let q0 := q0.scale (Real.sin ((1 - fraction) * angle) * isin)
  let q1 := q1.scale (Real.sin (fraction * angle) * isin)
  q0.add q1

/-- `random_quaternion(rand)`, rayopt/transformations.py 1476-1486, for the three random numbers
that were drawn. -/
noncomputable def random (r0 r1 r2 : ℝ) : Quat :=
  let s1 := Real.sqrt (1 - r0)
  let s2 := Real.sqrt r0
  let pi2 := Real.pi * 2
  let t1 := pi2 * r1
  let t2 := pi2 * r2
  ⟨Real.cos t2 * s2, Real.sin t1 * s1, Real.cos t1 * s1, Real.sin t2 * s2⟩

/-- `random_rotation_matrix(rand)`, rayopt/transformations.py 1489-1501 (the upper left 3x3 block). -/
noncomputable def randomMatrix (r0 r1 r2 : ℝ) : M3 := (random r0 r1 r2).matrix

/-- `quaternion_from_euler(ai, aj, ak, axes)`, rayopt/transformations.py 1190-1233. As in
`eulerMatrix`, the assignments `q[i] = ..; q[j] = ..; q[k] = ..` are looked up through the axis
permutation (here `q[n + 1]` belongs to axis `n`). -/
noncomputable def fromEuler (ai aj ak : ℝ) (axes : Axes) : Quat :=
  let i := (axes.first : ℕ) + 1
  let p := if axes.parity then 1 else 0
  let j := nextAxis (i + p - 1) + 1
  let k := nextAxis (i - p) + 1
  let a1 := if axes.frame then ak else ai
  let a3 := if axes.frame then ai else ak
  let aj := if axes.parity then -aj else aj
  let ai := a1 / 2; let aj := aj / 2; let ak := a3 / 2
  let ci := Real.cos ai; let si := Real.sin ai
  let cj := Real.cos aj; let sj := Real.sin aj
  let ck := Real.cos ak; let sk := Real.sin ak
  let cc := ci * ck; let cs := ci * sk
  let sc := si * ck; let ss := si * sk
  let w := if axes.repetition then cj * (cc - ss) else cj * cc + sj * ss
  let qi := if axes.repetition then cj * (cs + sc) else cj * sc - sj * cs
  let qj := if axes.repetition then sj * (cc + ss) else cj * ss + sj * cc
  let qk := if axes.repetition then sj * (cs - sc) else cj * cs - sj * sc
  let q : ℕ → ℝ := Function.update (Function.update (Function.update (fun _ => w) i qi) j qj) k qk
  let q := if axes.parity then Function.update q j (q j * -1) else q
  ⟨q 0, q 1, q 2, q 3⟩

end Quat

/-- `math.atan2(.y, x)`. -/
noncomputable def mathAtan2 (y x : ℝ) : ℝ := Complex.arg ⟨x, y⟩

/-- `euler_from_matrix(M, axes)`, rayopt/transformations.py 1128-1165. -/
noncomputable def eulerFromMatrix (m : M3) (axes : Axes) : ℝ × ℝ × ℝ :=
  let t := axes.ijk
  let i := t.1; let j := t.2.1; let k := t.2.2
  let M := m.get4
  let a : ℝ × ℝ × ℝ :=
    if axes.repetition then
      let sy := Real.sqrt (M i j * M i j + M i k * M i k)
      if sy > tfEps then
        (mathAtan2 (M i j) (M i k), mathAtan2 sy (M i i), mathAtan2 (M j i) (-M k i))
      else
        (mathAtan2 (-M j k) (M j j), mathAtan2 sy (M i i), 0)
    else
      let cy := Real.sqrt (M i i * M i i + M j i * M j i)
      if cy > tfEps then
        (mathAtan2 (M k j) (M k k), mathAtan2 (-M k i) cy, mathAtan2 (M j i) (M i i))
      else
        (mathAtan2 (-M j k) (M j j), mathAtan2 (-M k i) cy, 0)
  let a := if axes.parity then (-a.1, -a.2.1, -a.2.2) else a
  if axes.frame then (a.2.2, a.2.1, a.1) else a

/-- The axis letters of `_AXES2TUPLE`. -/
inductive AxisName | x | y | z
  deriving DecidableEq

/-- `_AXES2TUPLE`, rayopt/transformations.py 1664-1672: `(is the first letter 's', the three axis
letters, the tuple)`. -/
def axes2tuple : List (Bool × (AxisName × AxisName × AxisName) × Axes) :=
  let F := false; let T := true
  [(T, (.x, .y, .z), ⟨0, F, F, F⟩), (T, (.x, .y, .x), ⟨0, F, T, F⟩), (T, (.x, .z, .y), ⟨0, T, F, F⟩),
   (T, (.x, .z, .x), ⟨0, T, T, F⟩), (T, (.y, .z, .x), ⟨1, F, F, F⟩), (T, (.y, .z, .y), ⟨1, F, T, F⟩),
   (T, (.y, .x, .z), ⟨1, T, F, F⟩), (T, (.y, .x, .y), ⟨1, T, T, F⟩), (T, (.z, .x, .y), ⟨2, F, F, F⟩),
   (T, (.z, .x, .z), ⟨2, F, T, F⟩), (T, (.z, .y, .x), ⟨2, T, F, F⟩), (T, (.z, .y, .z), ⟨2, T, T, F⟩),
   (F, (.z, .y, .x), ⟨0, F, F, T⟩), (F, (.x, .y, .x), ⟨0, F, T, T⟩), (F, (.y, .z, .x), ⟨0, T, F, T⟩),
   (F, (.x, .z, .x), ⟨0, T, T, T⟩), (F, (.x, .z, .y), ⟨1, F, F, T⟩), (F, (.y, .z, .y), ⟨1, F, T, T⟩),
   (F, (.z, .x, .y), ⟨1, T, F, T⟩), (F, (.y, .x, .y), ⟨1, T, T, T⟩), (F, (.y, .x, .z), ⟨2, F, F, T⟩),
   (F, (.z, .x, .z), ⟨2, F, T, T⟩), (F, (.x, .y, .z), ⟨2, T, F, T⟩), (F, (.z, .y, .z), ⟨2, T, T, T⟩)]

end RayOpt
