import Verif.Model.Paraxial
import Verif.Model.Aiming

/-!
`rayopt/paraxial_trace.py`: the paraxial trace of the marginal and the chief ray in one plane
(`axis`), the quantities derived from it and the methods that adjust the system.

Divisions by zero (numpy gives inf or NaN) are `none`.
-/

namespace RayOpt

open Matrix

/-- One row of the arrays `n`, `y`, `u` of a `ParaxialTrace` (rayopt/paraxial_trace.py 61-63).
Columns: 0 is the marginal, 1 the chief ray; `u` is the slope times the refractive index. -/
structure PRow where
  n : ℝ
  y : Fin 2 → ℝ
  u : Fin 2 → ℝ

/-- Division that is `none` where numpy gives inf or NaN. -/
noncomputable def qdiv (a b : ℝ) : Option ℝ := if b = 0 then none else some (a / b)

/-- A `FiniteConjugate` (`size` is `radius`) or `InfiniteConjugate` (`size` is `angle`),
rayopt/conjugates.py 96-206. -/
structure Conj where
  finite : Bool
  size : ℝ
  wideangle : Bool
  updateRadius : Bool
  pupil : Pupil

namespace Conj

/-- `slope`, rayopt/conjugates.py 129-131, 200-202. -/
noncomputable def slope (o : Conj) : Option ℝ :=
  if o.finite then qdiv o.size o.pupil.distance else some (Real.tan o.size)

/-- `update(radius, pupil_distance, pupil_radius)`, rayopt/conjugates.py 120-123, 191-194. -/
noncomputable def update (o : Conj) (radius pd pr : ℝ) : Option Conj :=
  (o.pupil.update pd pr).map fun p =>
    { o with pupil := p, size :=
        if o.updateRadius then (if o.finite then radius else arctan2 radius pd) else o.size }

end Conj

namespace PTrace

/-- `ParaxialTrace.rays`, rayopt/paraxial_trace.py 66-79: the first row. -/
noncomputable def rays (o : Conj) (n0 : ℝ) : Option PRow :=
  if o.finite then
    o.pupil.slope.bind fun ps => o.slope.map fun s => ⟨n0, ![0, -o.size], ![n0 * ps, n0 * s]⟩
  else
    let c := if o.wideangle then 1 else Real.tan o.size
    o.pupil.radius.bind fun pr => o.slope.map fun s =>
      ⟨n0, ![pr, -s * o.pupil.distance], ![0, n0 * c]⟩

/-- The column of the array `yu` for ray `k`, rayopt/paraxial_trace.py 85-86: both axes start with
the same height and slope. -/
def column (r : PRow) (k : Fin 2) : PVec := Sum.elim (fun _ => r.y k) (fun _ => r.u k)

/-- `self.y[j], self.u[j] = np.vsplit(yu[self.axis::2], 2)`, rayopt/paraxial_trace.py 91-92. -/
def row (axis : Fin 2) (m c : PVec × ℝ) : PRow :=
  ⟨m.2, ![m.1 (.inl axis), c.1 (.inl axis)], ![m.1 (.inr axis), c.1 (.inr axis)]⟩

/-- The rows computed by `ParaxialTrace.propagate(start, stop)` from row `start - 1`,
rayopt/paraxial_trace.py 81-92. -/
noncomputable def rowsFrom (sys : List Elem) (axis : Fin 2) (l : ℝ) (r : PRow) (start : ℤ)
    (stop : Option ℤ) : Option (List PRow) :=
  (Sys.propagateParaxial sys (column r 0) r.n l start stop).bind fun m =>
    (Sys.propagateParaxial sys (column r 1) r.n l start stop).map fun c =>
      List.zipWith (row axis) m c

/-- `ParaxialTrace.propagate()` after `rays`: all rows. -/
noncomputable def trace (sys : List Elem) (axis : Fin 2) (l : ℝ) (r : PRow) : Option (List PRow) :=
  (rowsFrom sys axis l r 1 none).map fun o => r :: o

/-- The rows 0, 1 and -2, used by the derived quantities.  `none` is the `IndexError`. -/
def ends (rows : List PRow) : Option (PRow × PRow × PRow) :=
  if 2 ≤ rows.length then
    rows[0]?.bind fun a => rows[1]?.bind fun b => rows[rows.length - 2]?.map fun c => (a, b, c)
  else none

/-- `lagrange`, rayopt/paraxial_trace.py 131-134. -/
def lagrange (r0 : PRow) : ℝ := r0.u 0 * r0.y 1 - r0.u 1 * r0.y 0

/-- `pupil_distance`, rayopt/paraxial_trace.py 120-123. -/
noncomputable def pupilDistance (rows : List PRow) : Option (ℝ × ℝ) :=
  (ends rows).bind fun (r0, r1, rk) =>
    (qdiv (-r1.y 1) (r0.u 1)).bind fun a => (qdiv (-rk.y 1) (rk.u 1)).map fun b =>
      (a * r0.n, b * rk.n)

/-- `pupil_height`, rayopt/paraxial_trace.py 125-129. -/
noncomputable def pupilHeight (rows : List PRow) : Option (ℝ × ℝ) :=
  (ends rows).bind fun (r0, r1, rk) => (pupilDistance rows).bind fun p =>
    (qdiv (p.1 * r0.u 0) r0.n).bind fun a => (qdiv (p.2 * rk.u 0) rk.n).map fun b =>
      (|r1.y 0 + a|, |rk.y 0 + b|)

/-- `focal_length`, rayopt/paraxial_trace.py 136-143: front and back. -/
noncomputable def focalLength (rows : List PRow) : Option (ℝ × ℝ) :=
  (ends rows).bind fun (r0, _, rk) =>
    (qdiv (lagrange r0) (r0.u 1 * rk.u 0 - r0.u 0 * rk.u 1)).map fun f =>
      (f * rk.n * (-1), f * r0.n * 1)

/-- `focal_distance`, rayopt/paraxial_trace.py 145-152: front and back. -/
noncomputable def focalDistance (rows : List PRow) : Option (ℝ × ℝ) :=
  (ends rows).bind fun (r0, r1, rk) => (focalLength rows).bind fun f =>
    (qdiv f.1 (lagrange r0)).bind fun a => (qdiv a rk.n).bind fun a =>
    (qdiv f.2 (lagrange r0)).bind fun b => (qdiv b r0.n).map fun b =>
      ((r1.y 1 * rk.u 0 - r1.y 0 * rk.u 1) * a, (rk.y 1 * r0.u 0 - rk.y 0 * r0.u 1) * b)

/-- `principal_distance`, rayopt/paraxial_trace.py 154-158. -/
noncomputable def principalDistance (rows : List PRow) : Option (ℝ × ℝ) :=
  (focalDistance rows).bind fun d => (focalLength rows).map fun f => (d.1 - f.1, d.2 - f.2)

/-- `nodal_distance`, rayopt/paraxial_trace.py 160-164. -/
noncomputable def nodalDistance (rows : List PRow) : Option (ℝ × ℝ) :=
  (focalLength rows).bind fun f => (focalDistance rows).map fun d => (f.2 + d.1, f.1 + d.2)

/-- `magnification`, rayopt/paraxial_trace.py 195-199: transverse and angular. -/
noncomputable def magnification (rows : List PRow) : Option (ℝ × ℝ) :=
  (ends rows).bind fun (r0, _, rk) =>
    (qdiv (r0.u 0) (rk.u 0)).bind fun mt =>
      (qdiv (rk.u 1 * r0.n) (r0.u 1 * rk.n)).map fun ma => (mt, ma)

/-- `eigenrays`, rayopt/paraxial_trace.py 207-211: `eig` is `np.linalg.eig`, the eigenvalues with the
columns of the matrix of eigenvectors. -/
noncomputable def eigenrays (eig : PM → List (ℂ × (Fin 2 ⊕ Fin 2 → ℂ))) (sys : List Elem) (l : ℝ) :
    Option (List (ℂ × (Fin 2 ⊕ Fin 2 → ℂ))) :=
  (Sys.paraxialMatrix sys l 1 none).map fun nm => eig nm.2

/-- `resize`, rayopt/paraxial_trace.py 295-297: `zip(self.system[1:], self.y[1:])`. -/
noncomputable def resize (sys : List Elem) (rows : List PRow) : List Elem :=
  sys.take 1 ++ (List.zipWith (fun e r => { e with radius := .fin (|r.y 0| + |r.y 1|) })
    (sys.drop 1) (rows.drop 1) ++ sys.drop (max 1 rows.length))

/-- `focal_length_solve(f)`, rayopt/paraxial_trace.py 299-305, for the last surface.  `none`: a
missing row, a non-finite curvature, or an element without curvature. -/
noncomputable def focalLengthSolve (sys : List Elem) (rows : List PRow) (f : ℝ) :
    Option (List Elem) :=
  if rows.length < 3 ∨ sys.length < 2 then none else
  rows[0]?.bind fun r0 => rows[rows.length - 3]?.bind fun rp => rows[rows.length - 2]?.bind fun rk =>
    (qdiv (-r0.y 0) f).bind fun a =>
      let u := a * r0.n
      (qdiv (u - rp.u 0) (rk.y 0 * (rp.n - rk.n))).bind fun c =>
        sys[sys.length - 2]?.bind fun e => e.shape.map fun sh =>
          sys.set (sys.length - 2) { e with shape := some { sh with curvature := c } }

/-- `refocus()`, rayopt/paraxial_trace.py 322-324, for the default `idx = -1`. -/
noncomputable def refocus (sys : List Elem) (rows : List PRow) : Option (List Elem) :=
  if rows.length < 2 then none else
  rows[rows.length - 2]?.bind fun rk =>
    (qdiv (-rk.n * rk.y 0) (rk.u 0)).bind fun d =>
      sys[sys.length - 1]?.map fun e =>
        sys.set (sys.length - 1) { e with tf := e.tf.setDistance d }

/-- The meridional 2x2 part `m[self.axis::2, self.axis::2]`, rayopt/paraxial_trace.py 331, 337. -/
def block (m : PM) (axis : Fin 2) : M2 :=
  !![m (.inl axis) (.inl axis), m (.inl axis) (.inr axis);
     m (.inr axis) (.inl axis), m (.inr axis) (.inr axis)]

/-- `_focal_length_solve(f, i)`, rayopt/paraxial_trace.py 307-320, marked "not exact" in the source:
the three matrices before, at and after surface `i ≥ 1`.  `none`: an undefined matrix, a missing row, a
non-finite curvature, or an element without curvature.  `i=None` is `sys.length - 2`. -/
noncomputable def focalLengthSolveOld (sys : List Elem) (axis : Fin 2) (l : ℝ) (rows : List PRow)
    (f : ℝ) (i : ℕ) : Option (List Elem) :=
  if i = 0 then none else
  (Sys.paraxialMatrix sys l 1 (some (i : ℤ))).bind fun p0 =>
    (Sys.paraxialMatrix sys l (i : ℤ) (some ((i + 1 : ℕ) : ℤ))).bind fun p1 =>
    (Sys.paraxialMatrix sys l ((i + 1 : ℕ) : ℤ) none).bind fun p2 =>
    rows[i - 1]?.bind fun rp => rows[i]?.bind fun rk =>
    let m0 := block p0.2 axis
    let m1 := block p1.2 axis
    let m2 := block p2.2 axis
    (qdiv 1 (rp.n * f)).bind fun q =>
    (qdiv (-(q + m0 1 0 * m1 0 0 * m2 0 0 + m0 1 0 * m1 0 1 * m2 1 0 + m0 1 1 * m1 1 1 * m2 1 0))
      (m0 1 1 * m2 0 0)).bind fun c =>
    (qdiv c (rp.n - rk.n)).bind fun c =>
      sys[i]?.bind fun e => e.shape.map fun sh =>
        sys.set i { e with shape := some { sh with curvature := c * rk.n } }

/-- The entrance pupil of `update_conjugates`, rayopt/paraxial_trace.py 330-334: distance and radius
of the pupil for a stop at index `ai` with aperture `r`. -/
noncomputable def entrancePupil (sys : List Elem) (axis : Fin 2) (l : ℝ) (ai : ℕ) (r : ℝ) :
    Option (ℝ × ℝ) :=
  (Sys.paraxialMatrix sys l 1 (some ((ai + 1 : ℕ) : ℤ))).bind fun nm =>
    let m := block nm.2 axis
    let a := m 0 0
    let b := m 0 1 * Sys.refractiveIndex sys l 0
    (qdiv b a).bind fun d => (qdiv r a).map fun h => (d, h)

/-- The exit pupil of `update_conjugates`, rayopt/paraxial_trace.py 336-341. -/
noncomputable def exitPupil (sys : List Elem) (axis : Fin 2) (l : ℝ) (ai : ℕ) (r : ℝ) :
    Option (ℝ × ℝ) :=
  (Sys.paraxialMatrix sys l ((ai + 1 : ℕ) : ℤ) none).bind fun nm =>
    let m := block nm.2 axis
    if m.det = 0 then none else
    let a := m⁻¹ 0 0
    let b := m⁻¹ 0 1 * nm.1
    (qdiv b a).bind fun d => (qdiv r a).map fun h => (d, h)

/-- `update_conjugates`, rayopt/paraxial_trace.py 326-341, for a system with stop index `ai` (of
radius `r`); `r0`, `r1` are the radii of the first and last element. -/
noncomputable def updateConjugates (sys : List Elem) (axis : Fin 2) (l : ℝ) (ai : ℕ) (r r0 r1 : ℝ)
    (object image : Conj) : Option (Conj × Conj) :=
  (entrancePupil sys axis l ai r).bind fun p => (object.update r0 p.1 p.2).bind fun o =>
    (exitPupil sys axis l ai r).bind fun q => (image.update r1 q.1 q.2).map fun i => (o, i)

end PTrace

end RayOpt
