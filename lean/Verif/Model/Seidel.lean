import Verif.Model.ParaxialTrace

/-!
Third-order aberration coefficients: `Spheroid.aberration` (rayopt/elements.py 556-588),
`Element.aberration`, `dispersion` (rayopt/elements.py 268-272, 317-320) and
`ParaxialTrace.aberrations`, `transverse3` (rayopt/paraxial_trace.py 94-107).
-/

namespace RayOpt

/-- One row of the array `c` (rayopt/paraxial_trace.py 64): what `aberration` returns. -/
@[ext] structure Seidel where
  tsc : ℝ
  cc : ℝ
  tac : ℝ
  tpc : ℝ
  dc : ℝ
  tachc : ℝ
  tchc : ℝ

namespace Shape

/-- The paraxial curvature and the fourth-order departure from the sphere of that curvature, as
`aberration` computes them, rayopt/elements.py 557-562.  `if self.aspherics` is false for `None` and
for the empty list; `none` is the `ValueError` of unpacking a list with one coefficient. -/
noncomputable def figure (s : Shape) : Option (ℝ × ℝ) :=
  let c := s.curvature
  let k := s.conic * c ^ 3 / 8
  match s.aspherics with
  | none | some [] => some (c, k)
  | some [_] => none
  | some (a2 :: a4 :: _) =>
    some (c + 2 * a2, k + (a4 - a2 / 4 * (4 * a2 ^ 2 + 6 * c * a2 + 3 * c ^ 2)))

end Shape

namespace Elem

/-- `dispersion(lmin, lmax)`: `Element` (rayopt/elements.py 271-272) and `Interface`
(rayopt/elements.py 317-320, rayopt/material.py 148-149). -/
noncomputable def dispersion (e : Elem) (lmin lmax : ℝ) : ℝ :=
  match e.shape, e.mat with
  | some _, some m => m.index lmin - m.index lmax
  | _, _ => 0

/-- `aberration(y, u0, u, n0, n, v0, v)`: `Element` returns 0 (rayopt/elements.py 268-269),
`Spheroid` the coefficients (rayopt/elements.py 556-588).  `none` is a division by zero or an
exception. -/
noncomputable def aberration (e : Elem) (y u0 u : Fin 2 → ℝ) (n0 n v0 v : ℝ) : Option Seidel :=
  match e.shape with
  | none => some ⟨0, 0, 0, 0, 0, 0, 0⟩
  | some sh => sh.figure.bind fun ck =>
    let c := ck.1
    let k := ck.2
    let n := if e.mat.any (·.mirror) then -n else n
    let mu := n0 / n
    let i := fun j => c * y j + u0 j / n0
    let l := u 0 * y 1 - u 1 * y 0
    let s := fun j => 1 / 2 * y j * n0 * (1 - mu) / l * (i j + u j / n)
    let w := 4 * k * n * (1 - mu) / l
    let tsc := s 0 * i 0 ^ 2 + w * y 0 ^ 4
    let cc := s 0 * i 0 * i 1 + w * y 0 ^ 3 * y 1
    let tac := s 0 * i 1 ^ 2 + w * y 0 ^ 2 * y 1 ^ 2
    let tpc := -(mu - 1) / n0 * c * l / 2
    let dc := s 1 * i 0 * i 1 + 1 / 2 * (u 1 ^ 2 / n ^ 2 - u0 1 ^ 2 / n0 ^ 2) + w * y 0 * y 1 ^ 3
    let tchr := fun j => -y 0 * i j / l * (v0 - mu * v)
    if n0 = 0 ∨ n = 0 ∨ l = 0 then none else some ⟨tsc, cc, tac, tpc, dc, tchr 0, tchr 1⟩

end Elem

namespace PTrace

/-- The loop of `aberrations`, rayopt/paraxial_trace.py 98-102: `r` is the row before, `rows` the
following rows, `v` the dispersion left by the element before. -/
noncomputable def aberrationsFrom (l1 l2 : ℝ) : List Elem → PRow → List PRow → ℝ → Option (List Seidel)
  | e :: es, r, r' :: rows, v0 =>
    let v := e.dispersion l1 l2
    (e.aberration r'.y r.u r'.u r.n r'.n v0 v).bind fun c =>
      (aberrationsFrom l1 l2 es r' rows v).map fun cs => c :: cs
  | _, _, _, _ => some []

/-- `ParaxialTrace.aberrations()`, rayopt/paraxial_trace.py 94-102: the array `c`.  `ws` are the
wavelengths of the system. -/
noncomputable def aberrations (sys : List Elem) (ws : List ℝ) (rows : List PRow) :
    Option (List Seidel) :=
  match rows with
  | [] => none
  | r0 :: rows => ws.min?.bind fun l1 => ws.max?.bind fun l2 =>
    (aberrationsFrom l1 l2 sys.tail r0 rows 0).map fun cs => ⟨0, 0, 0, 0, 0, 0, 0⟩ :: cs

/-- `transverse3`, rayopt/paraxial_trace.py 104-107, with `height[1]` (rayopt/paraxial_trace.py
114-117): the coefficients times the absolute height of the chief ray at the last element. -/
noncomputable def transverse3 (c : List Seidel) (rows : List PRow) : Option (List Seidel) :=
  rows.getLast?.map fun r =>
    let h := |r.y 1|
    c.map fun s => ⟨s.tsc * h, s.cc * h, s.tac * h, s.tpc * h, s.dc * h, s.tachc * h, s.tchc * h⟩

end PTrace

end RayOpt
