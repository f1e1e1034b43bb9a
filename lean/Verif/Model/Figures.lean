import Verif.Model.Spot
import Verif.Model.Entry

/-!
The numbers that `Analysis` draws in its ray figures: `transverse`, `spots` and `longitudinal`,
rayopt/analysis.py 219-283, 354-410.  The drawing itself is left out.  NaN and infinity are `none`.
-/

namespace RayOpt.Figures

open RayOpt.Elem (Row)
open RayOpt.Spot (V2 slope xy)

/-- `t.y[0, :, :2] + p*tanarcsin(t.u[0])` for one ray, rayopt/analysis.py 238, 392. -/
noncomputable def pupilCoord (p : ℝ) (r0 : Row) : Option V2 :=
  r0.y.bind fun y => (slope r0.u).map fun s => xy y + p • s

/-- The point `py, y` of one ray in the fan plots, rayopt/analysis.py 236-239: first and last row of
the ray and of the reference ray. -/
noncomputable def fanPoint (p : ℝ) (r0 rk ref0 refk : Row) : Option (V2 × V2) :=
  (pupilCoord p r0).bind fun a => (pupilCoord p ref0).bind fun b =>
    rk.y.bind fun y => refk.y.map fun y0 => (a - b, xy y - xy y0)

/-- The three curves of `transverse`, rayopt/analysis.py 240-245: `py[:ref, 1], y[:ref, 1]`, then
`py[ref:, 0], y[ref:, 1]` and `py[ref:, 0], y[ref:, 0]`. -/
def fans (ref : ℕ) (pts : List (V2 × V2)) : List (ℝ × ℝ) × List (ℝ × ℝ) × List (ℝ × ℝ) :=
  ((pts.take ref).map fun q => (q.1.2, q.2.2), (pts.drop ref).map fun q => (q.1.1, q.2.2),
    (pts.drop ref).map fun q => (q.1.1, q.2.1))

/-- The defocus positions of `spots`, rayopt/analysis.py 258-259. -/
noncomputable def defocus (nd : ℕ) (rayleigh : ℝ) : List ℝ :=
  (List.range nd).map fun (i : ℕ) => ((i : ℝ) - (nd / 2 : ℕ)) * rayleigh

/-- `yi` of one ray, rayopt/analysis.py 273-278. -/
noncomputable def spot (z : ℝ) (rk refk : Row) : Option V2 :=
  rk.y.bind fun y => refk.y.bind fun y0 => (slope rk.i).map fun u => (xy y - xy y0) + z • u

/-- `np.split(.., (n, 2*n), axis=1)`, rayopt/analysis.py 376-377. -/
def split3 {α : Type*} (n : ℕ) (l : List α) : List α × List α × List α :=
  (l.take n, (l.take (2 * n)).drop n, l.drop (2 * n))

/-- `(a[1] - h)/h`, rayopt/analysis.py 379-380, for field `k` of `n`; `none` at the centre. -/
noncomputable def distortion (n : ℕ) (height imageRadius : ℝ) (k : ℕ) (a : Row) : Option ℝ :=
  let h := (k : ℝ) * (height * imageRadius / ((n - 1 : ℕ) : ℝ))
  if k = 0 ∨ h = 0 then none else a.y.map fun a => (a.y - h) / h

/-- `a[1] - a0[1]`, rayopt/analysis.py 384. -/
def lateralColour (a a0 : Row) : Option ℝ := a.y.bind fun a => a0.y.map fun a0 => a.y - a0.y

/-- `-(b[c] - a[c])/(q[c] - p[c])`, rayopt/analysis.py 385, 387. -/
noncomputable def crossing (c : V2 → ℝ) (a b : Row) : Option ℝ :=
  a.y.bind fun ya => b.y.bind fun yb => (slope a.i).bind fun p => (slope b.i).bind fun q =>
    if c q - c p = 0 then none else some (-(c (xy yb) - c (xy ya)) / (c q - c p))

/-- `xt`: chief ray `a` and meridional ray `b`, rayopt/analysis.py 385. -/
noncomputable def tangential (a b : Row) : Option ℝ := crossing Prod.snd a b

/-- `xs`: chief ray `a` and sagittal ray `c`, rayopt/analysis.py 387. -/
noncomputable def sagittal (a c : Row) : Option ℝ := crossing Prod.fst a c

/-- `z` of the spherical aberration for ray `k`, rayopt/analysis.py 393-395. -/
noncomputable def spherical (ref k : ℕ) (r : Row) : Option ℝ :=
  if k = ref then none
  else r.y.bind fun y => (slope r.i).bind fun u => if u.2 = 0 then none else some (-y.y / u.2)

/-- `tanarcsin(t.i[-1, 0])[1]` of a vector, rayopt/utils.py 50-53 (one dimension: every component by
itself). -/
noncomputable def tanarcsin1 (u : V3) : Option ℝ :=
  if 1 - u.y ^ 2 ≤ 0 then none else some (u.y / Real.sqrt (1 - u.y ^ 2))

/-- One entry of `zc`, rayopt/analysis.py 406. -/
noncomputable def axialFocus (r : Row) : Option ℝ :=
  r.y.bind fun y => r.i.bind fun i => (tanarcsin1 i).bind fun u =>
    if u = 0 then none else some (-y.y / u)

/-- `np.array(zc[1:]) - zc[0]`, rayopt/analysis.py 407. -/
noncomputable def axialColour (r0 r : Row) : Option ℝ :=
  (axialFocus r).bind fun z => (axialFocus r0).map fun z0 => z - z0

end RayOpt.Figures
