import Verif.Model.Compiled
import Verif.Model.Superimpose

/-!
The largest eigenvalue of a symmetric 4x4 matrix and its eigenvector in the compiled extension
`rayopt/_transformations.c` (142-381), and what rests on them: `quaternion_from_matrix` (2575-2699) and
`superimposition_matrix` (1724-2033).

Of the arrays of sixteen doubles these functions read the diagonal and what is above it.  The `while` of the bisection
takes a number of turns, `none` when they are used up.
-/

namespace RayOpt.Compiled

open RayOpt V3

/-- The entries of `double M[16]` that the solver reads. -/
@[ext] structure Sym4 where
  (m0 m1 m2 m3 m5 m6 m7 m10 m11 m15 : ℝ)

/-- `double diagonal[4]` and `double subdiagonal[3]`. -/
@[ext] structure Tri where
  (a0 a1 a2 a3 b0 b1 b2 : ℝ)

/-- `double vector[4]`. -/
@[ext] structure Arr4 where
  (v0 v1 v2 v3 : ℝ)

open Classical

/-- The first Householder step, rayopt/_transformations.c 154-181; `u` is `&M[1]`. -/
noncomputable def house3 (M : Sym4) : Sym4 :=
  let u0 := M.m1; let u1 := M.m2; let u2 := M.m3
  let t := u1 * u1 + u2 * u2
  let n := √(u0 * u0 + t)
  if n > tfEps then
    let n := if u0 < 0 then -n else n
    let u0 := u0 + n
    let h := (u0 * u0 + t) / 2
    let v0 := M.m5 * u0 + M.m6 * u1 + M.m7 * u2
    let v1 := M.m6 * u0 + M.m10 * u1 + M.m11 * u2
    let v2 := M.m7 * u0 + M.m11 * u1 + M.m15 * u2
    let v0 := v0 / h; let v1 := v1 / h; let v2 := v2 / h
    let g := (u0 * v0 + u1 * v1 + u2 * v2) / (2 * h)
    let v0 := v0 - g * u0; let v1 := v1 - g * u1; let v2 := v2 - g * u2
    { M with
      m5 := M.m5 - 2 * v0 * u0, m10 := M.m10 - 2 * v1 * u1, m15 := M.m15 - 2 * v2 * u2
      m6 := M.m6 - (v1 * u0 + v0 * u1), m7 := M.m7 - (v2 * u0 + v0 * u2), m11 := M.m11 - (v2 * u1 + v1 * u2)
      m1 := -n }
  else M

/-- The second Householder step, rayopt/_transformations.c 183-203; `u` is `&M[6]`. -/
noncomputable def house2 (M : Sym4) : Sym4 :=
  let u0 := M.m6; let u1 := M.m7
  let t := u1 * u1
  let n := √(u0 * u0 + t)
  if n > tfEps then
    let n := if u0 < 0 then -n else n
    let u0 := u0 + n
    let h := (u0 * u0 + t) / 2
    let v0 := M.m10 * u0 + M.m11 * u1
    let v1 := M.m11 * u0 + M.m15 * u1
    let v0 := v0 / h; let v1 := v1 / h
    let g := (u0 * v0 + u1 * v1) / (2 * h)
    let v0 := v0 - g * u0; let v1 := v1 - g * u1
    { M with
      m10 := M.m10 - 2 * v0 * u0, m15 := M.m15 - 2 * v1 * u1, m11 := M.m11 - (v1 * u0 + v0 * u1), m6 := -n }
  else M

/-- `tridiagonalize_symmetric_44`, rayopt/_transformations.c 142-214. -/
noncomputable def tridiagonalize (M : Sym4) : Tri :=
  let M := house2 (house3 M)
  ⟨M.m0, M.m5, M.m10, M.m15, M.m1, M.m6, M.m11⟩

/-- The bounds of Gerschgorin, rayopt/_transformations.c 229-246: `lower` and `upper`. -/
noncomputable def bounds (T : Tri) : ℝ × ℝ :=
  let t0 := |T.b0|
  let t1 := |T.b1|
  let lower := T.a0 - t0
  let upper := T.a0 + t0
  let lower := min lower (T.a1 - t0 - t1)
  let upper := max upper (T.a1 + t0 + t1)
  let t0 := |T.b2|
  let lower := min lower (T.a2 - t0 - t1)
  let upper := max upper (T.a2 + t0 + t1)
  (min lower (T.a3 - t0), max upper (T.a3 + t0))

/-- `eps`, rayopt/_transformations.c 249; `DBL_EPSILON` is 2^-52. -/
noncomputable def precision (T : Tri) : ℝ := 4 * (|(bounds T).1| + |(bounds T).2|) * (1 / 2 ^ 52)

/-- `if (fabs(d) < eps) d = eps;` -/
noncomputable def lift (eps d : ℝ) : ℝ := if |d| < eps then eps else d

/-- The four values of `d` whose signs are counted, rayopt/_transformations.c 259-276. -/
noncomputable def pivots (T : Tri) (eps x : ℝ) : Arr4 :=
  let d0 := T.a0 - x
  let d1 := T.a1 - x - T.b0 * T.b0 / lift eps d0
  let d2 := T.a2 - x - T.b1 * T.b1 / lift eps d1
  ⟨d0, d1, d2, T.a3 - x - T.b2 * T.b2 / lift eps d2⟩

/-- `count`, rayopt/_transformations.c 259-276. -/
noncomputable def count (T : Tri) (eps x : ℝ) : ℕ :=
  let d := pivots T eps x
  (if d.v0 < 0 then 1 else 0) + (if d.v1 < 0 then 1 else 0) + (if d.v2 < 0 then 1 else 0) +
    if d.v3 < 0 then 1 else 0

/-- The `while` and the last line, rayopt/_transformations.c 252-284, for at most so many turns. -/
noncomputable def bisect (T : Tri) (eps : ℝ) : ℕ → ℝ → ℝ → Option ℝ
  | 0, lower, upper => if |upper - lower| > eps then none else some ((upper + lower) / 2)
  | n + 1, lower, upper =>
    if |upper - lower| > eps then
      let x := (upper + lower) / 2
      if x = upper ∨ x = lower then some x
      else if count T eps x < 4 then bisect T eps n x upper
      else bisect T eps n lower x
    else some ((upper + lower) / 2)

/-- `max_eigenvalue_of_tridiag_44`, rayopt/_transformations.c 220-285. -/
noncomputable def maxEigenvalue (turns : ℕ) (T : Tri) : Option ℝ :=
  bisect T (precision T) turns (bounds T).1 (bounds T).2

/-- `n`, the sum of the squares. -/
def Arr4.sq (v : Arr4) : ℝ := v.v0 * v.v0 + v.v1 * v.v1 + v.v2 * v.v2 + v.v3 * v.v3

/-- The first try, rayopt/_transformations.c 305-327. -/
def try1 (M : Sym4) : Arr4 :=
  let t0 := M.m10 * M.m15; let t1 := M.m11 * M.m11; let t2 := M.m6 * M.m15; let t3 := M.m11 * M.m7
  let t4 := M.m6 * M.m11; let t5 := M.m10 * M.m7; let t6 := M.m2 * M.m15; let t7 := M.m11 * M.m3
  let t8 := M.m2 * M.m11; let t9 := M.m10 * M.m3; let t10 := M.m2 * M.m7; let t11 := M.m6 * M.m3
  ⟨t1 * M.m1 + t6 * M.m6 + t9 * M.m7 - (t0 * M.m1 + t7 * M.m6 + t8 * M.m7),
   t2 * M.m1 + t7 * M.m5 + t10 * M.m7 - (t3 * M.m1 + t6 * M.m5 + t11 * M.m7),
   t5 * M.m1 + t8 * M.m5 + t11 * M.m6 - (t4 * M.m1 + t9 * M.m5 + t10 * M.m6),
   t0 * M.m5 + t3 * M.m6 + t4 * M.m7 - (t1 * M.m5 + t2 * M.m6 + t5 * M.m7)⟩

/-- The second try, rayopt/_transformations.c 329-339, with the products of the first. -/
def try2 (M : Sym4) : Arr4 :=
  let t0 := M.m10 * M.m15; let t1 := M.m11 * M.m11; let t2 := M.m6 * M.m15; let t3 := M.m11 * M.m7
  let t4 := M.m6 * M.m11; let t5 := M.m10 * M.m7; let t6 := M.m2 * M.m15; let t7 := M.m11 * M.m3
  let t8 := M.m2 * M.m11; let t9 := M.m10 * M.m3; let t10 := M.m2 * M.m7; let t11 := M.m6 * M.m3
  ⟨t0 * M.m0 + t7 * M.m2 + t8 * M.m3 - (t1 * M.m0 + t6 * M.m2 + t9 * M.m3),
   t3 * M.m0 + t6 * M.m1 + t11 * M.m3 - (t2 * M.m0 + t7 * M.m1 + t10 * M.m3),
   t4 * M.m0 + t9 * M.m1 + t10 * M.m2 - (t5 * M.m0 + t8 * M.m1 + t11 * M.m2),
   t1 * M.m1 + t2 * M.m2 + t5 * M.m3 - (t0 * M.m1 + t3 * M.m2 + t4 * M.m3)⟩

/-- The third try, rayopt/_transformations.c 341-363. -/
def try3 (M : Sym4) : Arr4 :=
  let t0 := M.m2 * M.m7; let t1 := M.m3 * M.m6; let t2 := M.m1 * M.m7; let t3 := M.m3 * M.m5
  let t4 := M.m1 * M.m6; let t5 := M.m2 * M.m5; let t6 := M.m0 * M.m7; let t7 := M.m3 * M.m1
  let t8 := M.m0 * M.m6; let t9 := M.m2 * M.m1; let t10 := M.m0 * M.m5; let t11 := M.m1 * M.m1
  ⟨t1 * M.m3 + t6 * M.m11 + t9 * M.m15 - (t0 * M.m3 + t7 * M.m11 + t8 * M.m15),
   t2 * M.m3 + t7 * M.m7 + t10 * M.m15 - (t3 * M.m3 + t6 * M.m7 + t11 * M.m15),
   t5 * M.m3 + t8 * M.m7 + t11 * M.m11 - (t4 * M.m3 + t9 * M.m7 + t10 * M.m11),
   t0 * M.m7 + t3 * M.m11 + t4 * M.m15 - (t1 * M.m7 + t2 * M.m11 + t5 * M.m15)⟩

/-- The fourth try, rayopt/_transformations.c 365-375, with the products of the third. -/
def try4 (M : Sym4) : Arr4 :=
  let t0 := M.m2 * M.m7; let t1 := M.m3 * M.m6; let t2 := M.m1 * M.m7; let t3 := M.m3 * M.m5
  let t4 := M.m1 * M.m6; let t5 := M.m2 * M.m5; let t6 := M.m0 * M.m7; let t7 := M.m3 * M.m1
  let t8 := M.m0 * M.m6; let t9 := M.m2 * M.m1; let t10 := M.m0 * M.m5; let t11 := M.m1 * M.m1
  ⟨t8 * M.m11 + t0 * M.m2 + t7 * M.m10 - (t6 * M.m10 + t9 * M.m11 + t1 * M.m2),
   t6 * M.m6 + t11 * M.m11 + t3 * M.m2 - (t10 * M.m11 + t2 * M.m2 + t7 * M.m6),
   t10 * M.m10 + t4 * M.m2 + t9 * M.m6 - (t8 * M.m6 + t11 * M.m10 + t5 * M.m2),
   t2 * M.m10 + t5 * M.m11 + t1 * M.m6 - (t4 * M.m11 + t0 * M.m6 + t3 * M.m10)⟩

/-- `eps` of the eigenvector, rayopt/_transformations.c 299-303. -/
noncomputable def shortest (M : Sym4) : ℝ :=
  let eps := (M.m0 * M.m5 * M.m10 * M.m15 - M.m1 * M.m1 * M.m11 * M.m11) * (1 / 10 ^ 6)
  let eps := eps * eps
  if eps < tfEps then tfEps else eps

/-- `eigenvector_of_symmetric_44`, rayopt/_transformations.c 290-387: the components of the matrix's eigenvector in the
order one, two, three, zero.  `none` is the return value -1. -/
noncomputable def eigenvector (M : Sym4) : Option Arr4 :=
  let eps := shortest M
  let v := try1 M
  let v := if v.sq < eps then try2 M else v
  let v := if v.sq < eps then try3 M else v
  let v := if v.sq < eps then try4 M else v
  if v.sq < eps then none
  else
    let n := √v.sq
    some ⟨v.v0 / n, v.v1 / n, v.v2 / n, v.v3 / n⟩

/-- `K[0] -= l; K[5] -= l; K[10] -= l; K[15] -= l;` -/
def Sym4.shift (M : Sym4) (l : ℝ) : Sym4 :=
  { M with m0 := M.m0 - l, m5 := M.m5 - l, m10 := M.m10 - l, m15 := M.m15 - l }

/-- From the copy of the matrix to the eigenvector, rayopt/_transformations.c 2646-2668 and 1907-1931.  `none` is a
bisection that has not ended. -/
noncomputable def largest (turns : ℕ) (M : Sym4) : Option (Except Err Arr4) :=
  (maxEigenvalue turns (tridiagonalize M)).map fun l =>
    match eigenvector (M.shift l) with
    | none => .error .value
    | some v => .ok v

/-- `K` of `quaternion_from_matrix`, rayopt/_transformations.c 2628-2638. -/
noncomputable def kMatrix (m : H4) : Sym4 :=
  let M := toArray m
  { m0 := (M 0 - M 5 - M 10) / 3, m5 := (M 5 - M 0 - M 10) / 3, m10 := (M 10 - M 0 - M 5) / 3
    m15 := (M 0 + M 5 + M 10) / 3, m1 := (M 4 + M 1) / 3, m2 := (M 8 + M 2) / 3, m3 := (M 9 - M 6) / 3
    m6 := (M 9 + M 6) / 3, m7 := (M 2 - M 8) / 3, m11 := (M 4 - M 1) / 3 }

/-- The exchange and the sign, rayopt/_transformations.c 2670-2683. -/
noncomputable def exchange (v : Arr4) : Quat :=
  let q : Quat := ⟨v.v2, v.v3, v.v0, v.v1⟩
  if q.w < 0 then ⟨-q.w, -q.x, -q.y, -q.z⟩ else q

/-- `quaternion_from_matrix(matrix)` without `isprecise`, rayopt/_transformations.c 2575-2699. -/
noncomputable def quaternionOf (turns : ℕ) (m : H4) : Option (Except Err Quat) :=
  (largest turns (kMatrix m)).map fun r => r.map exchange

/-- `N` of `superimposition_matrix` from the centred points, rayopt/_transformations.c 1826-1901. -/
def nMatrix (c : List Super.Pair) : Sym4 :=
  let xx := Super.total c fun p => p.1.x * p.2.x
  let yy := Super.total c fun p => p.1.y * p.2.y
  let zz := Super.total c fun p => p.1.z * p.2.z
  let xy := Super.total c fun p => p.1.x * p.2.y
  let yz := Super.total c fun p => p.1.y * p.2.z
  let zx := Super.total c fun p => p.1.z * p.2.x
  let xz := Super.total c fun p => p.1.x * p.2.z
  let yx := Super.total c fun p => p.1.y * p.2.x
  let zy := Super.total c fun p => p.1.z * p.2.y
  { m0 := xx + yy + zz, m5 := xx - yy - zz, m10 := -xx + yy - zz, m15 := -xx - yy + zz
    m1 := yz - zy, m2 := zx - xz, m3 := xy - yx, m6 := xy + yx, m7 := zx + xz, m11 := yz + zy }

/-- The result of `superimposition_matrix`: a matrix, or not-a-number in the matrix. -/
inductive Fit
  | mat (m : H4)
  | nan

/-- Scale and translation, rayopt/_transformations.c 1947-2016, for the rotation in `m`. -/
noncomputable def finish (l : List Super.Pair) (scaling : Bool) (m : M3) : Fit :=
  let c0 := Super.mean l Prod.fst
  let c1 := Super.mean l Prod.snd
  let s0 := Super.total l fun p => (p.1 - c0).dot (p.1 - c0)
  let s1 := Super.total l fun p => (p.2 - c1).dot (p.2 - c1)
  if scaling ∧ s0 = 0 then .nan
  else
    let t := if scaling then √(s1 / s0) else 1
    let a : M3 := ⟨m.a00 * t, m.a01 * t, m.a02 * t, m.a10 * t, m.a11 * t, m.a12 * t, m.a20 * t, m.a21 * t, m.a22 * t⟩
    .mat ⟨a, ⟨c1.x - a.a00 * c0.x - a.a01 * c0.y - a.a02 * c0.z, c1.y - a.a10 * c0.x - a.a11 * c0.y - a.a12 * c0.z,
      c1.z - a.a20 * c0.x - a.a21 * c0.y - a.a22 * c0.z⟩, 0, 1⟩

/-- `superimposition_matrix(v0, v1, scale, usesvd)`, rayopt/_transformations.c 1724-2033, for two arrays with three rows
and the columns of `l`: `usesvd` is not read and the number of columns is not tested.  Without columns the centroids are
0/0, and no comparison of the solver holds. -/
noncomputable def superimpose (turns : ℕ) (l : List Super.Pair) (scaling : Bool) : Option (Except Err Fit) :=
  if l = [] then some (.ok .nan)
  else
    let c0 := Super.mean l Prod.fst
    let c1 := Super.mean l Prod.snd
    (largest turns (nMatrix (l.map fun p => (p.1 - c0, p.2 - c1)))).map fun r =>
      r.map fun v => finish l scaling (quaternionMatrix ⟨v.v3, v.v0, v.v1, v.v2⟩).1.a

end RayOpt.Compiled
