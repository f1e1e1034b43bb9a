import Verif.Model.Homog

/-!
Fitting a rigid motion, a similarity or an affine map to two sets of points: `superimposition_matrix` and
`affine_matrix_from_points`, for three dimensions (rayopt/transformations.py 887-1044).  The singular value and the
eigenvalue decomposition and the pseudoinverse of numpy are parameters.
-/

namespace RayOpt.Super

open RayOpt V3 H4

/-- A point and the point it should go to: a column of `v0` and of `v1`. -/
abbrev Pair := V3 × V3

/-- `numpy.sum` of a function of the pairs. -/
def total (l : List Pair) (f : Pair → ℝ) : ℝ := (l.map f).sum

/-- `numpy.mean(v, axis=1)`. -/
noncomputable def mean (l : List Pair) (f : Pair → V3) : V3 :=
  ⟨total l (fun p => (f p).x) / l.length, total l (fun p => (f p).y) / l.length,
    total l (fun p => (f p).z) / l.length⟩

/-- `v0 += t0`, `v1 += t1` with the negative centroids, rayopt/transformations.py 941-949. -/
noncomputable def centred (l : List Pair) : List Pair :=
  let t0 := -mean l Prod.fst
  let t1 := -mean l Prod.snd
  l.map fun p => (p.1 + t0, p.2 + t1)

/-- `numpy.dot(v1, v0.T)`, rayopt/transformations.py 963. -/
def cov (l : List Pair) : M3 :=
  ⟨total l fun p => p.2.x * p.1.x, total l fun p => p.2.x * p.1.y, total l fun p => p.2.x * p.1.z,
   total l fun p => p.2.y * p.1.x, total l fun p => p.2.y * p.1.y, total l fun p => p.2.y * p.1.z,
   total l fun p => p.2.z * p.1.x, total l fun p => p.2.z * p.1.y, total l fun p => p.2.z * p.1.z⟩

/-- The rotation from the singular value decomposition, rayopt/transformations.py 964-969. -/
noncomputable def kabsch (u vh : M3) : M3 :=
  let r := u.mul vh
  if r.det < 0 then
    add3 r (smul3 (-1) (outer ⟨u.a02, u.a12, u.a22⟩ ((2 : ℝ) • ⟨vh.a20, vh.a21, vh.a22⟩)))
  else r

/-- `numpy.dot(N, q)` for the symmetric matrix whose lower triangle is `N`, rayopt/transformations.py 977-983;
`numpy.linalg.eigh` reads the lower triangle only. -/
def horn (l : List Pair) (q : Quat) : Quat :=
  let xx := total l fun p => p.1.x * p.2.x
  let yy := total l fun p => p.1.y * p.2.y
  let zz := total l fun p => p.1.z * p.2.z
  let xy := total l fun p => p.1.x * p.2.y
  let yz := total l fun p => p.1.y * p.2.z
  let zx := total l fun p => p.1.z * p.2.x
  let xz := total l fun p => p.1.x * p.2.z
  let yx := total l fun p => p.1.y * p.2.x
  let zy := total l fun p => p.1.z * p.2.y
  ⟨(xx + yy + zz) * q.w + (yz - zy) * q.x + (zx - xz) * q.y + (xy - yx) * q.z,
   (yz - zy) * q.w + (xx - yy - zz) * q.x + (xy + yx) * q.y + (zx + xz) * q.z,
   (zx - xz) * q.w + (xy + yx) * q.x + (yy - xx - zz) * q.y + (yz + zy) * q.z,
   (xy - yx) * q.w + (zx + xz) * q.x + (yz + zy) * q.y + (zz - xx - yy) * q.z⟩

/-- The rotation from the eigenvector of the largest eigenvalue, rayopt/transformations.py 984-989. -/
noncomputable def hornRotation (q : Quat) : M3 := (q.scale (1 / q.norm)).matrix

/-- `math.sqrt(numpy.sum(v1) / numpy.sum(v0))` after squaring, rayopt/transformations.py 991-995.  `none` is the
division by zero. -/
noncomputable def ratio (c : List Pair) : Option ℝ :=
  let s0 := total c fun p => p.1.dot p.1
  let s1 := total c fun p => p.2.dot p.2
  if s0 = 0 then none else some (Real.sqrt (s1 / s0))

/-- Scaling and moving the centroids back, rayopt/transformations.py 991-1000, for the rotation `r`. -/
noncomputable def place (l : List Pair) (scale : Bool) (r : M3) : Option H4 :=
  let t0 := -mean l Prod.fst
  let t1 := -mean l Prod.snd
  let f := if scale then ratio (centred l) else some 1
  f.map fun f => ((translation (-t1)).mul ((⟨smul3 f r, 0, 0, 1⟩ : H4).mul (translation t0))).unit

/-- `superimposition_matrix(v0, v1, scale, usesvd=True)`, rayopt/transformations.py 887-1044, with
`numpy.linalg.svd` as a parameter.  `none` is the `ValueError` for less than three points, `some none` the
division by zero. -/
noncomputable def bySvd (svd : M3 → M3 × V3 × M3) (l : List Pair) (scale : Bool) : Option (Option H4) :=
  if l.length < 3 then none
  else
    let (u, _, vh) := svd (cov (centred l))
    some (place l scale (kabsch u vh))

/-- `superimposition_matrix(v0, v1, scale, usesvd=False)`, with the eigenvector of the largest eigenvalue of
`numpy.linalg.eigh` as a parameter. -/
noncomputable def byQuat (eigh : (Quat → Quat) → Quat) (l : List Pair) (scale : Bool) : Option (Option H4) :=
  if l.length < 3 then none
  else some (place l scale (hornRotation (eigh (horn (centred l)))))

/-- `numpy.dot(C, numpy.linalg.pinv(B))` for the right singular vectors `w` of the pairs,
rayopt/transformations.py 951-958; the first three vectors are the columns of `B` over `C`. -/
def shearBlock (pinv : M3 → M3) (w : Fin 6 → Pair) : M3 :=
  let b : M3 := ⟨(w 0).1.x, (w 1).1.x, (w 2).1.x, (w 0).1.y, (w 1).1.y, (w 2).1.y, (w 0).1.z, (w 1).1.z, (w 2).1.z⟩
  let c : M3 := ⟨(w 0).2.x, (w 1).2.x, (w 2).2.x, (w 0).2.y, (w 1).2.y, (w 2).2.y, (w 0).2.z, (w 1).2.z, (w 2).2.z⟩
  c.mul (pinv b)

/-- `affine_matrix_from_points(v0, v1)` (`shear=True`), rayopt/transformations.py 887-1000, with the rows of `vh` of
`numpy.linalg.svd` and `numpy.linalg.pinv` as parameters. -/
noncomputable def byAffine (svd : List Pair → Fin 6 → Pair) (pinv : M3 → M3) (l : List Pair) : Option (Option H4) :=
  if l.length < 3 then none else some (place l false (shearBlock pinv (svd (centred l))))

end RayOpt.Super
