import Verif.Model.Homog
import Verif.Model.Arcball
import Verif.Model.Align

/-!
The compiled extension `rayopt/_transformations.c`: `setup.py` 54-55 builds it, and when it can be imported its
functions replace those of the same name in `rayopt/transformations.py` (1875-1907).  The elements then use the
`rotation_matrix`, `euler_matrix` and `euler_from_matrix` of this file.

Conversion of the arguments to arrays of doubles, allocation and reference counts are left out.  A double array
`M` of 16 is in row order.
-/

namespace RayOpt.Compiled

open RayOpt V3

/-- How a compiled function fails. -/
inductive Err
  /-- `PyExc_ValueError` -/
  | value
  /-- `PyEval_RestoreThread(NULL)`, which ends the process -/
  | fatal
  deriving DecidableEq

/-- `double M[16]` in the order of its indices. -/
def mat (m0 m1 m2 m3 m4 m5 m6 m7 m8 m9 m10 m11 m12 m13 m14 m15 : ℝ) : H4 :=
  ⟨⟨m0, m1, m2, m4, m5, m6, m8, m9, m10⟩, ⟨m3, m7, m11⟩, ⟨m12, m13, m14⟩, m15⟩

/-- `double M[16]` from what was stored at each index. -/
def ofArray (M : ℕ → ℝ) : H4 :=
  mat (M 0) (M 1) (M 2) (M 3) (M 4) (M 5) (M 6) (M 7) (M 8) (M 9) (M 10) (M 11) (M 12) (M 13) (M 14) (M 15)

/-- `M[i]` of a 4x4 array. -/
def toArray (m : H4) : ℕ → ℝ
  | 0 => m.a.a00 | 1 => m.a.a01 | 2 => m.a.a02 | 3 => m.b.x
  | 4 => m.a.a10 | 5 => m.a.a11 | 6 => m.a.a12 | 7 => m.b.y
  | 8 => m.a.a20 | 9 => m.a.a21 | 10 => m.a.a22 | 11 => m.b.z
  | 12 => m.c.x | 13 => m.c.y | 14 => m.c.z | 15 => m.d
  | _ => 0

/-- `ISZERO(x)`, rayopt/_transformations.c 90 (`EPSILON` is 2^-50 as the `_EPS` of the Python module). -/
def isZero (x : ℝ) : Prop := x < tfEps ∧ x > -tfEps

/-- `NOTZERO(x)`, rayopt/_transformations.c 91. -/
def notZero (x : ℝ) : Prop := x > tfEps ∨ x < -tfEps

open Classical

/-- `identity_matrix`, rayopt/_transformations.c 1069-1094. -/
def identity : H4 := mat 1 0 0 0 0 1 0 0 0 0 1 0 0 0 0 1

/-- `translation_matrix`, rayopt/_transformations.c 1102-1139. -/
def translation (d : V3) : H4 := mat 1 0 0 d.x 0 1 0 d.y 0 0 1 d.z 0 0 0 1

/-- `reflection_matrix`, rayopt/_transformations.c 1147-1206. -/
noncomputable def reflection (p n : V3) : Except Err H4 :=
  let t := √(n.x * n.x + n.y * n.y + n.z * n.z)
  if t < tfEps then .error .value else
  let nx := n.x / t; let ny := n.y / t; let nz := n.z / t
  let m1 := -2 * nx * ny
  let m2 := -2 * nx * nz
  let m6 := -2 * ny * nz
  let t := 2 * (p.x * nx + p.y * ny + p.z * nz)
  .ok (mat (1 - 2 * nx * nx) m1 m2 (nx * t) m1 (1 - 2 * ny * ny) m6 (ny * t) m2 m6 (1 - 2 * nz * nz) (nz * t) 0 0 0 1)

/-- `rotation_matrix`, rayopt/_transformations.c 1214-1298. -/
noncomputable def rotation (angle : ℝ) (d : V3) (point : Option V3) : Except Err H4 :=
  let sa := Real.sin angle
  let ca := Real.cos angle
  let ca1 := 1 - ca
  let t := √(d.x * d.x + d.y * d.y + d.z * d.z)
  if t < tfEps then .error .value else
  let dx := d.x / t; let dy := d.y / t; let dz := d.z / t
  let m0 := ca + dx * dx * ca1
  let m5 := ca + dy * dy * ca1
  let m10 := ca + dz * dz * ca1
  let s := dz * sa
  let t := dx * dy * ca1
  let m1 := t - s; let m4 := t + s
  let s := dy * sa
  let t := dx * dz * ca1
  let m2 := t + s; let m8 := t - s
  let s := dx * sa
  let t := dy * dz * ca1
  let m6 := t - s; let m9 := t + s
  match point with
  | some p => .ok (mat m0 m1 m2 (p.x - (m0 * p.x + m1 * p.y + m2 * p.z))
      m4 m5 m6 (p.y - (m4 * p.x + m5 * p.y + m6 * p.z))
      m8 m9 m10 (p.z - (m8 * p.x + m9 * p.y + m10 * p.z)) 0 0 0 1)
  | none => .ok (mat m0 m1 m2 0 m4 m5 m6 0 m8 m9 m10 0 0 0 0 1)

/-- `projection_matrix`, rayopt/_transformations.c 1306-1462. -/
noncomputable def projection (p n : V3) (direction perspective : Option V3) (pseudo : Bool) : Except Err H4 :=
  let t := √(n.x * n.x + n.y * n.y + n.z * n.z)
  if t < tfEps then .error .value else
  let nx := n.x / t; let ny := n.y / t; let nz := n.z / t
  match perspective, direction with
  | some d, _ =>
    let t := (d.x - p.x) * nx + (d.y - p.y) * ny + (d.z - p.z) * nz
    let m0 := t - d.x * nx; let m5 := t - d.y * ny; let m10 := t - d.z * nz
    let m1 := -d.x * ny; let m2 := -d.x * nz; let m4 := -d.y * nx
    let m6 := -d.y * nz; let m8 := -d.z * nx; let m9 := -d.z * ny
    let t := p.x * nx + p.y * ny + p.z * nz
    let w := d.x * nx + d.y * ny + d.z * nz
    if pseudo then
      .ok (mat (m0 - nx * nx) (m1 - nx * ny) (m2 - nx * nz) (t * (d.x + nx))
        (m4 - nx * ny) (m5 - ny * ny) (m6 - ny * nz) (t * (d.y + ny))
        (m8 - nx * nz) (m9 - ny * nz) (m10 - nz * nz) (t * (d.z + nz)) (-nx) (-ny) (-nz) w)
    else .ok (mat m0 m1 m2 (t * d.x) m4 m5 m6 (t * d.y) m8 m9 m10 (t * d.z) (-nx) (-ny) (-nz) w)
  | none, some d =>
    let scale := d.x * nx + d.y * ny + d.z * nz
    if isZero scale then .error .value else
    let scale := -1 / scale
    let t := (p.x * nx + p.y * ny + p.z * nz) * -scale
    .ok (mat (1 + scale * d.x * nx) (scale * d.x * ny) (scale * d.x * nz) (t * d.x)
      (scale * d.y * nx) (1 + scale * d.y * ny) (scale * d.y * nz) (t * d.y)
      (scale * d.z * nx) (scale * d.z * ny) (1 + scale * d.z * nz) (t * d.z) 0 0 0 1)
  | none, none =>
    let m1 := -nx * ny; let m2 := -nx * nz; let m6 := -ny * nz
    let t := p.x * nx + p.y * ny + p.z * nz
    .ok (mat (1 - nx * nx) m1 m2 (t * nx) m1 (1 - ny * ny) m6 (t * ny) m2 m6 (1 - nz * nz) (t * nz) 0 0 0 1)

/-- `clip_matrix`, rayopt/_transformations.c 1470-1535. -/
noncomputable def clip (left right bottom top hither yon : ℝ) (perspective : Bool) : Except Err H4 :=
  if left ≥ right ∨ bottom ≥ top ∨ hither ≥ yon then .error .value
  else if perspective then
    let t := 2 * hither
    if hither < tfEps then .error .value
    else .ok (mat (t / (left - right)) 0 ((right + left) / (right - left)) 0
      0 (t / (bottom - top)) ((top + bottom) / (top - bottom)) 0
      0 0 ((yon + hither) / (hither - yon)) (t * yon / (yon - hither)) 0 0 (-1) 0)
  else .ok (mat (2 / (right - left)) 0 0 ((right + left) / (left - right))
    0 (2 / (top - bottom)) 0 ((top + bottom) / (bottom - top))
    0 0 (2 / (yon - hither)) ((yon + hither) / (hither - yon)) 0 0 0 1)

/-- `scale_matrix`, rayopt/_transformations.c 1543-1615.  The direction is taken as it is given. -/
noncomputable def scaling (factor : ℝ) (origin direction : Option V3) : H4 :=
  match direction with
  | none =>
    match origin with
    | none => mat factor 0 0 0 0 factor 0 0 0 0 factor 0 0 0 0 1
    | some p =>
      let f := 1 - factor
      mat factor 0 0 (f * p.x) 0 factor 0 (f * p.y) 0 0 factor (f * p.z) 0 0 0 1
  | some d =>
    let f := 1 - factor
    let m0 := 1 - f * d.x * d.x
    let m5 := 1 - f * d.y * d.y
    let m10 := 1 - f * d.z * d.z
    let f := f * -1
    let m1 := f * d.x * d.y; let m2 := f * d.x * d.z; let m6 := f * d.y * d.z
    match origin with
    | none => mat m0 m1 m2 0 m1 m5 m6 0 m2 m6 m10 0 0 0 0 1
    | some p =>
      let f := f * -(p.x * d.x + p.y * d.y + p.z * d.z)
      mat m0 m1 m2 (f * d.x) m1 m5 m6 (f * d.y) m2 m6 m10 (f * d.z) 0 0 0 1

/-- `shear_matrix`, rayopt/_transformations.c 1623-1716. -/
noncomputable def shear (angle : ℝ) (d p n : V3) : Except Err H4 :=
  let t := √(d.x * d.x + d.y * d.y + d.z * d.z)
  if t < tfEps then .error .value else
  let dx := d.x / t; let dy := d.y / t; let dz := d.z / t
  let t := √(n.x * n.x + n.y * n.y + n.z * n.z)
  if t < tfEps then .error .value else
  let nx := n.x / t; let ny := n.y / t; let nz := n.z / t
  if |nx * dx + ny * dy + nz * dz| > 1 / 10 ^ 6 then .error .value else
  let angle := Real.tan angle
  let t := -angle * (p.x * nx + p.y * ny + p.z * nz)
  .ok (mat (1 + angle * dx * nx) (angle * dx * ny) (angle * dx * nz) (t * dx)
    (angle * dy * nx) (1 + angle * dy * ny) (angle * dy * nz) (t * dy)
    (angle * dz * nx) (angle * dz * ny) (1 + angle * dz * nz) (t * dz) 0 0 0 1)

/-- `orthogonalization_matrix`, rayopt/_transformations.c 2044-2102.  `ok none` is a matrix with NaN: the square
root of a negative number. -/
noncomputable def orthogonalization (l a : V3) : Except Err (Option H4) :=
  let rad := Real.pi / 180
  let sa := Real.sin (a.x * rad)
  let ca := Real.cos (a.x * rad)
  let sb := Real.sin (a.y * rad)
  let cb := Real.cos (a.y * rad)
  let cg := Real.cos (a.z * rad)
  let t := ca * cb - cg
  if |sa * sb| < tfEps ∨ |t - sa * sb| < tfEps then .error .value else
  let t := t / (sa * sb)
  if 1 - t * t < 0 then .ok none else
  .ok (some (mat (l.x * sb * √(1 - t * t)) 0 0 0 (-l.x * sb * t) (l.y * sa) 0 0 (l.x * cb) (l.y * ca) l.z 0 0 0 0 1))

/-- `is_same_transform`, rayopt/_transformations.c 1015-1062. -/
noncomputable def same (m0 m1 : H4) : Bool :=
  let t0 := toArray m0 15
  let t1 := toArray m1 15
  if isZero t0 ∨ isZero t1 then false
  else (List.range 16).all fun i =>
    let t := toArray m1 i / t1
    !decide (|toArray m0 i / t0 - t| > 1 / 10 ^ 8 + 1 / 10 ^ 5 * |t|)

/-- One `case` of `axis2tuple`: the two numbers that the four letters of the name make in memory, and the tuple. -/
abbrev Case := ℕ × ℕ × Axes

/-- The table of `axis2tuple`, rayopt/_transformations.c 2117-2200, in the order of the code. -/
def cases : List Case :=
  let F := false; let T := true
  [(2054781043, 1937275258, ⟨0, F, F, F⟩), (2054781042, 1920498042, ⟨2, T, F, T⟩),
   (2037938802, 1920628857, ⟨1, T, F, T⟩), (2054716018, 1920628858, ⟨2, F, T, T⟩),
   (2054716019, 1937406074, ⟨2, F, T, F⟩), (2037938803, 1937406073, ⟨2, F, F, F⟩),
   (2038069618, 1920563833, ⟨1, F, T, T⟩), (2021292402, 1920563832, ⟨0, T, F, T⟩),
   (2054715762, 1920563322, ⟨2, F, F, T⟩), (2037938546, 1920563321, ⟨1, T, T, T⟩),
   (2021292146, 1920498296, ⟨0, T, T, T⟩), (2038069362, 1920498297, ⟨1, F, F, T⟩),
   (2021226611, 1937275256, ⟨0, F, T, F⟩), (2038069363, 1937275513, ⟨0, T, F, F⟩),
   (2054781554, 1920629114, ⟨2, T, T, T⟩), (2021227122, 1920629112, ⟨0, F, F, T⟩),
   (2021227123, 1937406328, ⟨2, T, F, F⟩), (2054781555, 1937406330, ⟨2, T, T, F⟩),
   (2021226610, 1920498040, ⟨0, F, T, T⟩), (2021292403, 1937341048, ⟨1, F, F, F⟩),
   (2038069619, 1937341049, ⟨1, F, T, F⟩), (2037938547, 1937340537, ⟨1, T, T, F⟩),
   (2054715763, 1937340538, ⟨1, T, F, F⟩), (2021292147, 1937275512, ⟨0, T, T, F⟩)]

/-- `*((int *)s)` for four bytes, on a machine with the lowest byte first or last. -/
def word (little : Bool) (s : List ℕ) : ℕ :=
  (if little then s.reverse else s).foldl (fun n b => 256 * n + b) 0

/-- `axis2tuple` for a string, rayopt/_transformations.c 2117-2203: the bytes of its letters.  No argument is
`sxyz`. -/
def axis2tuple (little : Bool) : Option (List ℕ) → Except Err Axes
  | none => .ok ⟨0, false, false, false⟩
  | some s =>
    if s.length = 4 then
      match cases.find? fun c => word little s = c.1 ∨ word little s = c.2.1 with
      | some c => .ok c.2.2
      | none => .error .value
    else .error .value

/-- `axis2tuple` for a sequence of four integers, rayopt/_transformations.c 2205-2219. -/
def axisSequence (f p r s : ℤ) : Except Err Axes :=
  if (f ≠ 0 ∧ f ≠ 1 ∧ f ≠ 2) ∨ (p ≠ 0 ∧ p ≠ 1) ∨ (r ≠ 0 ∧ r ≠ 1) ∨ (s ≠ 0 ∧ s ≠ 1) then .error .value
  else .ok ⟨if f = 0 then 0 else if f = 1 then 1 else 2, decide (p = 1), decide (r = 1), decide (s = 1)⟩

/-- `int next_axis[] = {1, 2, 0, 1}`. -/
def next (i : ℕ) : ℕ := [1, 2, 0, 1].getD i 0

/-- `M[i] = v`. -/
def store (M : ℕ → ℝ) (i : ℕ) (v : ℝ) : ℕ → ℝ := Function.update M i v

/-- `euler_matrix`, rayopt/_transformations.c 2235-2330; `junk` is what the array held when it was allocated. -/
noncomputable def eulerMatrix (junk : ℕ → ℝ) (ai aj ak : ℝ) (axes : Axes) : H4 :=
  let p := if axes.parity then 1 else 0
  let i := (axes.first : ℕ)
  let j := next (i + p)
  let k := next (i + 1 - p)
  let a := if axes.frame then (ak, aj, ai) else (ai, aj, ak)
  let a := if axes.parity then (-a.1, -a.2.1, -a.2.2) else a
  let si := Real.sin a.1; let sj := Real.sin a.2.1; let sk := Real.sin a.2.2
  let ci := Real.cos a.1; let cj := Real.cos a.2.1; let ck := Real.cos a.2.2
  let cc := ci * ck; let cs := ci * sk; let sc := si * ck; let ss := si * sk
  let M := junk
  let M :=
    if axes.repetition then
      let M := store M (4 * i + i) cj
      let M := store M (4 * i + j) (sj * si)
      let M := store M (4 * i + k) (sj * ci)
      let M := store M (4 * j + i) (sj * sk)
      let M := store M (4 * j + j) (-cj * ss + cc)
      let M := store M (4 * j + k) (-cj * cs - sc)
      let M := store M (4 * k + i) (-sj * ck)
      let M := store M (4 * k + j) (cj * sc + cs)
      store M (4 * k + k) (cj * cc - ss)
    else
      let M := store M (4 * i + i) (cj * ck)
      let M := store M (4 * i + j) (sj * sc - cs)
      let M := store M (4 * i + k) (sj * cc + ss)
      let M := store M (4 * j + i) (cj * sk)
      let M := store M (4 * j + j) (sj * ss + cc)
      let M := store M (4 * j + k) (sj * cs - sc)
      let M := store M (4 * k + i) (-sj)
      let M := store M (4 * k + j) (cj * si)
      store M (4 * k + k) (cj * ci)
  let M := store M 3 0
  let M := store M 7 0
  let M := store M 11 0
  let M := store M 12 0
  let M := store M 13 0
  let M := store M 14 0
  ofArray (store M 15 1)

/-- `euler_from_matrix`, rayopt/_transformations.c 2338-2417. -/
noncomputable def eulerFrom (m : H4) (axes : Axes) : ℝ × ℝ × ℝ :=
  let M := toArray m
  let p := if axes.parity then 1 else 0
  let i := (axes.first : ℕ)
  let j := next (i + p)
  let k := next (i + 1 - p)
  let a : ℝ × ℝ × ℝ :=
    if axes.repetition then
      let x := M (4 * i + j)
      let y := M (4 * i + k)
      let t := √(x * x + y * y)
      if t > tfEps then
        (mathAtan2 (M (4 * i + j)) (M (4 * i + k)), mathAtan2 t (M (4 * i + i)),
          mathAtan2 (M (4 * j + i)) (-M (4 * k + i)))
      else (mathAtan2 (-M (4 * j + k)) (M (4 * j + j)), mathAtan2 t (M (4 * i + i)), 0)
    else
      let x := M (4 * i + i)
      let y := M (4 * j + i)
      let t := √(x * x + y * y)
      if t > tfEps then
        (mathAtan2 (M (4 * k + j)) (M (4 * k + k)), mathAtan2 (-M (4 * k + i)) t,
          mathAtan2 (M (4 * j + i)) (M (4 * i + i)))
      else (mathAtan2 (-M (4 * j + k)) (M (4 * j + j)), mathAtan2 (-M (4 * k + i)) t, 0)
  let a := if axes.parity then (-a.1, -a.2.1, -a.2.2) else a
  if axes.frame then (a.2.2, a.2.1, a.1) else a

/-- `quaternion_from_euler`, rayopt/_transformations.c 2425-2514; `junk` as in `eulerMatrix`. -/
noncomputable def fromEuler (junk : ℕ → ℝ) (ai aj ak : ℝ) (axes : Axes) : Quat :=
  let p := if axes.parity then 1 else 0
  let i := (axes.first : ℕ) + 1
  let j := next (i + p - 1) + 1
  let k := next (i - p) + 1
  let a := if axes.frame then (ak, aj, ai) else (ai, aj, ak)
  let aj := if axes.parity then -a.2.1 else a.2.1
  let ai := a.1 / 2; let aj := aj / 2; let ak := a.2.2 / 2
  let si := Real.sin ai; let sj := Real.sin aj; let sk := Real.sin ak
  let ci := Real.cos ai; let cj := Real.cos aj; let ck := Real.cos ak
  let cc := ci * ck; let cs := ci * sk; let sc := si * ck; let ss := si * sk
  let q := junk
  let q :=
    if axes.repetition then
      store (store (store (store q i (cj * (cs + sc))) k (sj * (cs - sc))) j (sj * (cc + ss))) 0 (cj * (cc - ss))
    else
      store (store (store (store q i (cj * sc - sj * cs)) k (cj * cs - sj * sc)) j (cj * ss + sj * cc)) 0
        (cj * cc + sj * ss)
  let q := if axes.parity then store q j (q j * -1) else q
  ⟨q 0, q 1, q 2, q 3⟩

/-- `quaternion_about_axis`, rayopt/_transformations.c 2522-2568. -/
noncomputable def aboutAxis (angle : ℝ) (a : V3) : Quat :=
  let t := √(a.x * a.x + a.y * a.y + a.z * a.z)
  if t > tfEps then
    let t := Real.sin (angle / 2) / t
    ⟨Real.cos (angle / 2), a.x * t, a.y * t, a.z * t⟩
  else ⟨Real.cos (angle / 2), a.x, a.y, a.z⟩

/-- `quaternion_multiply`, rayopt/_transformations.c 2744-2784. -/
def multiply (q1 q0 : Quat) : Quat :=
  ⟨-q1.x * q0.x - q1.y * q0.y - q1.z * q0.z + q1.w * q0.w,
   q1.x * q0.w + q1.y * q0.z - q1.z * q0.y + q1.w * q0.x,
   -q1.x * q0.z + q1.y * q0.w + q1.z * q0.x + q1.w * q0.y,
   q1.x * q0.y - q1.y * q0.x + q1.z * q0.w + q1.w * q0.z⟩

/-- `quaternion_conjugate`, rayopt/_transformations.c 2791-2826. -/
def conjugate (q : Quat) : Quat := ⟨q.w, -q.x, -q.y, -q.z⟩

/-- `quaternion_inverse`, rayopt/_transformations.c 2833-2875. -/
noncomputable def inverse (q : Quat) : Except Err Quat :=
  let n := q.w * q.w + q.x * q.x + q.y * q.y + q.z * q.z
  if n < tfEps then .error .value else .ok ⟨q.w / n, -q.x / n, -q.y / n, -q.z / n⟩

/-- The matrix of a normalised quaternion, rayopt/_transformations.c 689-716, 3092-3122. -/
def unitMatrix (q : Quat) : H4 :=
  let x2 := q.x + q.x; let y2 := q.y + q.y; let z2 := q.z + q.z
  let xx2 := q.x * x2; let yy2 := q.y * y2; let zz2 := q.z * z2
  let yz2 := q.y * z2; let wx2 := q.w * x2
  let xy2 := q.x * y2; let wz2 := q.w * z2
  let xz2 := q.x * z2; let wy2 := q.w * y2
  mat (1 - yy2 - zz2) (xy2 - wz2) (xz2 + wy2) 0 (xy2 + wz2) (1 - xx2 - zz2) (yz2 - wx2) 0
    (xz2 - wy2) (yz2 + wx2) (1 - xx2 - yy2) 0 0 0 0 1

/-- `quaternion_matrix`, rayopt/_transformations.c 671-719, 2704-2737: the matrix, and the array of the quaternion
after the call.  An argument that is an array of doubles is not copied. -/
noncomputable def quaternionMatrix (q : Quat) : H4 × Quat :=
  let n := √(q.w * q.w + q.x * q.x + q.y * q.y + q.z * q.z)
  if n < tfEps then (identity, q)
  else
    let q : Quat := ⟨q.w / n, q.x / n, q.y / n, q.z / n⟩
    (unitMatrix q, q)

/-- `quaternion_from_matrix`, rayopt/_transformations.c 621-667, as called with `isprecise=True` (2607-2616). -/
noncomputable def fromPrecise (m : H4) : Except Err Quat :=
  let M := toArray m
  if isZero (M 15) then .error .fatal else
  let q : Quat :=
    if M 0 + M 5 + M 10 > 0 then
      let s := 1 / 2 / √(M 0 + M 5 + M 10 + M 15)
      ⟨1 / 4 / s, (M 9 - M 6) * s, (M 2 - M 8) * s, (M 4 - M 1) * s⟩
    else if M 0 > M 5 ∧ M 0 > M 10 then
      let s := 1 / 2 / √(M 0 - (M 5 + M 10) + M 15)
      ⟨(M 9 - M 6) * s, 1 / 4 / s, (M 4 + M 1) * s, (M 2 + M 8) * s⟩
    else if M 5 > M 10 then
      let s := 1 / 2 / √(M 5 - (M 0 + M 10) + M 15)
      ⟨(M 2 - M 8) * s, (M 4 + M 1) * s, 1 / 4 / s, (M 9 + M 6) * s⟩
    else
      let s := 1 / 2 / √(M 10 - (M 0 + M 5) + M 15)
      ⟨(M 4 - M 1) * s, (M 2 + M 8) * s, (M 9 + M 6) * s, 1 / 4 / s⟩
  .ok (if M 15 ≠ 1 then q.scale (1 / √(M 15)) else q)

/-- `quaternion_slerp`, rayopt/_transformations.c 2883-2972. -/
noncomputable def slerp (q0 q1 : Quat) (fraction : ℝ) (spin : ℤ) (shortestpath : Bool) : Except Err Quat :=
  let n := √(q0.w * q0.w + q0.x * q0.x + q0.y * q0.y + q0.z * q0.z)
  if n < tfEps then .error .value else
  let q : Quat := ⟨q0.w / n, q0.x / n, q0.y / n, q0.z / n⟩
  let n := √(q1.w * q1.w + q1.x * q1.x + q1.y * q1.y + q1.z * q1.z)
  if n < tfEps then .error .value else
  if |(|fraction|) - 1| < tfEps then .ok ⟨q1.w / n, q1.x / n, q1.y / n, q1.z / n⟩
  else if notZero fraction then
    let a := (q.w * q1.w + q.x * q1.x + q.y * q1.y + q.z * q1.z) / n
    if |(|a|) - 1| > tfEps then
      let flip := shortestpath = true ∧ a < 0
      let a := if flip then -a else a
      let a := Real.arccos a + spin * Real.pi
      if notZero a then
        let s := 1 / Real.sin a
        let f0 := Real.sin ((1 - fraction) * a) * s
        let f1 := Real.sin (fraction * a) * s / n
        let f1 := if flip then -f1 else f1
        .ok ⟨q.w * f0 + q1.w * f1, q.x * f0 + q1.x * f1, q.y * f0 + q1.y * f1, q.z * f0 + q1.z * f1⟩
      else .ok q
    else .ok q
  else .ok q

/-- `random_doubles`, rayopt/_transformations.c 102-140, for the two words of 32 bits that were read. -/
noncomputable def randomDouble (a b : ℕ) : ℝ := ((a >>> 5 : ℕ) * 67108864 + (b >>> 6 : ℕ)) / 9007199254740992

/-- `random_quaternion`, rayopt/_transformations.c 2980-3035, for the three numbers. -/
noncomputable def random (r0 r1 r2 : ℝ) : Quat :=
  let t := 2 * Real.pi * r1
  let r1 := √(1 - r0)
  let x := Real.sin t * r1
  let y := Real.cos t * r1
  let t := 2 * Real.pi * r2
  let r2 := √r0
  let z := Real.sin t * r2
  let w := Real.cos t * r2
  ⟨w, x, y, z⟩

/-- `random_rotation_matrix`, rayopt/_transformations.c 3043-3129. -/
noncomputable def randomMatrix (r0 r1 r2 : ℝ) : H4 := unitMatrix (random r0 r1 r2)

/-- `arcball_map_to_sphere`, rayopt/_transformations.c 3239-3320.  Division by a zero radius gives infinities and
NaN: `none`. -/
noncomputable def mapToSphere (p c : ℝ × ℝ) (radius : ℝ) : Option V3 :=
  if radius = 0 then none else
  let v0 := (p.1 - c.1) / radius
  let v1 := (c.2 - p.2) / radius
  let n := v0 * v0 + v1 * v1
  if n > 1 then
    let n := √n
    some ⟨v0 / n, v1 / n, 0⟩
  else some ⟨v0, v1, √(1 - n)⟩

/-- `arcball_constrain_to_axis`, rayopt/_transformations.c 3328-3386; `none` is the division by a zero length. -/
noncomputable def constrainToAxis (p a : V3) : Option V3 :=
  let n := p.x * a.x + p.y * a.y + p.z * a.z
  let v : V3 := ⟨p.x - a.x * n, p.y - a.y * n, p.z - a.z * n⟩
  let n := √(v.x * v.x + v.y * v.y + v.z * v.z)
  if n > tfEps then some ⟨v.x / n, v.y / n, v.z / n⟩
  else if a.z = 1 then some ⟨1, 0, 0⟩
  else
    let n := √(a.x * a.x + a.y * a.y)
    if n = 0 then none else some ⟨-a.y / n, a.x / n, 0⟩

/-- `vector_norm` without axis, rayopt/_transformations.c 3394-3455. -/
noncomputable def vectorNorm (v : List ℝ) : ℝ := √(v.foldl (fun len t => len + t * t) 0)

/-- `unit_vector` without axis, rayopt/_transformations.c 3563-3655. -/
noncomputable def unitVector (v : List ℝ) : Option (List ℝ) :=
  let len := v.foldl (fun len t => len + t * t) 0
  if len = 0 then none else
  let len := 1 / √len
  some (v.map fun t => t * len)

/-- The test of the output array of `vector_norm`, rayopt/_transformations.c 3464-3494: `true` if it is accepted.
The sizes of `out` are not looked at. -/
def normAccepts (data out : List ℕ) (axis : ℕ) : Bool :=
  let newshape := data.eraseIdx axis
  data.length == out.length + 1 && data.eraseIdx axis == newshape

/-- `TransformMixin.update`, rayopt/elements.py 120-154, when the extension is there. -/
noncomputable def update (junk : ℕ → ℝ) (distance : ℝ) (direction angles : V3) : Except Err Transform :=
  let u := Transform.updDir distance direction
  let d := if distance < 0 then -distance else distance
  let straight := allclose u V3.ez
  let normal := allclose angles 0
  let t (rotAxis rotNormal : Option M3) : Transform :=
    { distance := d, direction := u, offset := d • u, angles := angles,
      straight := straight, normal := normal, rotAxis := rotAxis, rotNormal := rotNormal }
  if normal ∧ straight then .ok (t none none)
  else do
    let rotAxis ← if straight then pure none else do
      let rdir := u.cross V3.ez
      let rang := Real.arcsin rdir.norm
      let rang := if u.z < 0 then Real.pi - rang else rang
      let rdir := if allclose rdir 0 then ⟨1, 0, 0⟩ else rdir
      let r ← rotation rang rdir none
      pure (some r.a)
    let r := match rotAxis with
      | none => M3.one
      | some r1 => M3.one.mul r1
    let r := if normal then r else r.mul (eulerMatrix junk angles.x angles.y angles.z Axes.rxyz).a
    pure (t rotAxis (some r))

/-- `TransformMixin.align`, rayopt/elements.py 103-118, when the extension is there. -/
noncomputable def align (junk : ℕ → ℝ) (t : Transform) (direction : V3) (mu : ℝ) : Except Err Transform := do
  let i := t.direction
  let r := Transform.alignNormal i direction mu
  let rdir := i.cross r
  let rang := Real.arcsin rdir.norm
  let rdir := if allclose rdir 0 then ⟨1, 0, 0⟩ else rdir
  let rot ← rotation rang rdir none
  let a := eulerFrom ⟨rot.a.T, rot.c, rot.b, rot.d⟩ Axes.rxyz
  update junk t.distance t.direction ⟨a.1, a.2.1, a.2.2⟩

end RayOpt.Compiled
