import Verif.Model.Transform

/-!
`Element`, `Interface`, `Spheroid` (rayopt/elements.py 178-620): the geometric ray operations.

One ray (one row of the numpy arrays) at a time.  NaN and infinities are `none`.
-/

namespace RayOpt

/-- A `Material` (rayopt/material.py 79-157 and subclasses): what the tracing code reads from it.
`index` is `refractive_index(wavelength)`. -/
structure Material where
  mirror : Bool
  solid : Bool
  index : ℝ → ℝ

/-- `radius` attribute (rayopt/elements.py 182-186); the default is `np.inf`. -/
inductive Radius where
  | inf
  | fin (r : ℝ)

/-- The shape attributes of a `Spheroid` (rayopt/elements.py 419-424). -/
structure Shape where
  curvature : ℝ
  conic : ℝ
  aspherics : Option (List ℝ)
  alternate : Bool

/-- An element of a `System`.  `shape = none` is a bare `Element` (only a reference plane),
`shape = some _` a `Spheroid`.  `material` is the Python attribute: the outer `none` means the
attribute does not exist (bare `Element`), `some none` is `material=None`. -/
structure Elem where
  tf : Transform
  radius : Radius
  shape : Option Shape
  material : Option (Option Material)

namespace Shape

/-- `np.einsum("...i,...i", xy, xy)`: squared distance from the axis
(rayopt/elements.py 444-445, 462-463). -/
def rsq (p : V3) : ℝ := p.x * p.x + p.y * p.y

/-- The Horner loop `for ai in reversed(self.aspherics): d += ai; d *= r2`
(rayopt/elements.py 450-453). -/
def aspSag (r2 : ℝ) (l : List ℝ) : ℝ := l.foldr (fun a d => (d + a) * r2) 0

/-- The Horner loop `for i in reversed(range(len(a))): d *= r2; d += 2*(i + 1)*a[i]`
(rayopt/elements.py 469-472). -/
def aspSlope (r2 : ℝ) (l : List ℝ) : ℝ :=
  l.zipIdx.foldr (fun ai d => d * r2 + 2 * ((ai.2 : ℝ) + 1) * ai.1) 0

/-- `Spheroid.surface_sag`, rayopt/elements.py 440-455: the value of the implicit surface
function at a point (zero on the surface).  `none` is the NaN from the square root. -/
noncomputable def surfaceSag (s : Shape) (p : V3) : Option ℝ :=
  let e := p.z
  if s.curvature = 0 ∧ s.aspherics = none then some e
  else
    let r2 := rsq p
    let c := s.curvature
    let k := s.conic
    let e1 : Option ℝ :=
      if c ≠ 0 then
        if 1 - (1 + k) * c ^ 2 * r2 < 0 then none
        else some (e - c * r2 / (1 + Real.sqrt (1 - (1 + k) * c ^ 2 * r2)))
      else some e
    match s.aspherics with
    | none => e1
    | some l => e1.map fun e => e - aspSag r2 l

/-- `Spheroid.surface_normal`, rayopt/elements.py 457-475.  `none` stands for the NaN/inf of
the square root and division, and for the `TypeError` that `e[..., None]` raises when the
curvature is zero and `aspherics` is an empty list (`e` is then a Python float). -/
noncomputable def surfaceNormal (s : Shape) (p : V3) : Option V3 :=
  if s.curvature = 0 ∧ s.aspherics = none then some ⟨0, 0, 1⟩
  else if s.curvature = 0 ∧ s.aspherics = some [] then none
  else
    let r2 := rsq p
    let c := s.curvature
    let k := s.conic
    let e : Option ℝ :=
      if c ≠ 0 then
        if 1 - (1 + k) * c ^ 2 * r2 ≤ 0 then none
        else some (0 - c / Real.sqrt (1 - (1 + k) * c ^ 2 * r2))
      else some 0
    let e := match s.aspherics with
      | none => e
      | some l => e.map fun e => e - aspSlope r2 l
    e.map fun e => ⟨p.x * e, p.y * e, 1⟩

/-- Intersection with the plane `z = 0`: `-y[:, 2]/u[:, 2]`, rayopt/elements.py 199 and 483. -/
noncomputable def interceptPlane (y u : V3) : Option ℝ :=
  if u.z = 0 then none else some (-y.z / u.z)

/-- The analytic branch of `Spheroid.intercept`, rayopt/elements.py 481-501. -/
noncomputable def interceptConic (s : Shape) (y u : V3) : Option ℝ :=
  let c := s.curvature
  let k := s.conic
  if c = 0 then interceptPlane y u
  else
    let uy := if k = 0 then u.dot y else u.x * y.x + u.y * y.y + u.z * y.z * (1 + k)
    let uu := if k = 0 then 1 else u.x ^ 2 + u.y ^ 2 + u.z ^ 2 * (1 + k)
    let yy := if k = 0 then y.x ^ 2 + y.y ^ 2 + y.z ^ 2
      else y.x ^ 2 + y.y ^ 2 + y.z ^ 2 * (1 + k)
    let d := c * uy - u.z
    let e := c * uu
    let f := c * yy - 2 * y.z
    if d ^ 2 - e * f < 0 then none
    else
      let g := Real.sqrt (d ^ 2 - e * f)
      let g := if s.alternate then g * -1 else g
      if e = 0 then none else some (-(d + g) / e)

/-- The Newton iteration of scipy as used by `Interface.intercept`, rayopt/elements.py 333-349
(`newton(func, fprime, x0, tol=1e-7, maxiter=5)`, `RuntimeError` becomes NaN).  scipy's
implementation is an external function, modelled as a parameter: it receives the surface
function and derivative along the ray and the start value. -/
abbrev NewtonFn := (ℝ → Option ℝ) → (ℝ → Option ℝ) → ℝ → Option ℝ

/-- `Interface.intercept`, rayopt/elements.py 333-349. -/
noncomputable def interceptNewton (nwt : NewtonFn) (s : Shape) (y u : V3) : Option ℝ :=
  (interceptPlane y u).bind fun s0 =>
    nwt (fun si => s.surfaceSag (y + si • u))
      (fun si => (s.surfaceNormal (y + si • u)).map fun r => r.dot u) s0

/-- `Spheroid.intercept`, rayopt/elements.py 477-501. -/
noncomputable def intercept (nwt : NewtonFn) (s : Shape) (y u : V3) : Option ℝ :=
  match s.aspherics with
  | some _ => interceptNewton nwt s y u
  | none => interceptConic s y u

end Shape

/-- `Interface.refract` once the surface normal `r` is known, rayopt/elements.py 356-369.
`none` is NaN: a zero normal, or a negative argument of the square root (total internal
reflection). -/
noncomputable def refractAt (r u0 : V3) (mu : ℝ) : Option V3 :=
  if mu = 1 then some u0
  else
    let r2 := r.dot r
    if r2 = 0 then none
    else
      let muf := |mu|
      let a := muf * u0.dot r / r2
      if mu = -1 then some (u0 - (2 * a) • r)
      else
        let b := (mu ^ 2 - 1) / r2
        if a ^ 2 - b < 0 then none
        else
          let g := -a + SignType.sign mu * Real.sqrt (a ^ 2 - b)
          some (muf • u0 + g • r)

namespace Elem

/-- `intercept`: `Element.intercept` (rayopt/elements.py 195-201) or `Spheroid.intercept`. -/
noncomputable def intercept (nwt : Shape.NewtonFn) (e : Elem) (y u : V3) : Option ℝ :=
  match e.shape with
  | none => Shape.interceptPlane y u
  | some s => s.intercept nwt y u

/-- The aperture test of `Element.clip`: `np.square(y[:, :2]).sum(1) <= self.radius**2`,
rayopt/elements.py 207. -/
def inside (R : Radius) (y : V3) : Prop :=
  match R with
  | .inf => True
  | .fin r => y.x ^ 2 + y.y ^ 2 ≤ r ^ 2

open Classical in
/-- `Element.clip`, rayopt/elements.py 206-209.  A NaN position fails the comparison.  (An
infinite position with an infinite radius passes the code's test; non-finite positions are all
`none` here and fail.) -/
noncomputable def clip (R : Radius) (y u : Option V3) : Option V3 :=
  match y with
  | none => none
  | some p => if inside R p then u else none

/-- `Interface.get_n_mu`, rayopt/elements.py 283-289.  A zero index divides by zero in the code;
theorems assume positive indices. -/
noncomputable def getNMu (m : Option Material) (n0 l : ℝ) : ℝ × ℝ :=
  match m with
  | none => (n0, 1)
  | some m => if m.mirror then (n0, -1) else (m.index l, n0 / m.index l)

/-- `Interface.refract` including the evaluation of `surface_normal` at the intercept,
rayopt/elements.py 351-369.  At a flat surface the normal does not depend on the position, so a
NaN position still refracts. -/
noncomputable def refract (s : Shape) (y u0 : Option V3) (mu : ℝ) : Option V3 :=
  u0.bind fun u =>
    if mu = 1 then some u
    else
      let r := match y with
        | some p => s.surfaceNormal p
        | none => if s.curvature = 0 ∧ s.aspherics = none then some V3.ez else none
      r.bind fun r => refractAt r u mu

/-- Result of one element's `propagate`: position, direction, index after, optical path. -/
structure PropOut where
  y : Option V3
  u : Option V3
  n : ℝ
  t : Option ℝ

/-- `Element.propagate` (rayopt/elements.py 230-236) and `Interface.propagate`
(rayopt/elements.py 306-315), in the element's own coordinates.
A `Spheroid` always has a `material` attribute; the outer `none` is read like `None`. -/
noncomputable def propagate (nwt : Shape.NewtonFn) (e : Elem) (y0 u0 : Option V3) (n0 l : ℝ)
    (clp : Bool) : PropOut :=
  let t := y0.bind fun y => u0.bind fun u => e.intercept nwt y u
  let y := y0.bind fun y => u0.bind fun u => t.map fun t => y + t • u
  let u0 := if clp then clip e.radius y u0 else u0
  let tn := t.map (· * n0)
  match e.shape with
  | none => ⟨y, u0, n0, tn⟩
  | some s =>
    let nm := getNMu (e.material.getD none) n0 l
    let u := if nm.2 = 0 then u0 else refract s y u0 nm.2
    ⟨y, u, nm.1, tn⟩

/-- One result row of `System.propagate`: `y, u, n, i, t` (rayopt/system.py 463). -/
structure Row where
  y : Option V3
  u : Option V3
  n : ℝ
  i : Option V3
  t : Option ℝ

/-- A ray between elements, in the coordinates of the last element's origin. -/
structure Ray where
  y : Option V3
  u : Option V3
  n : ℝ

/-- One iteration of `System.propagate`, rayopt/system.py 460-464: transform to the element's
coordinates, propagate, emit a row, transform back. -/
noncomputable def step (nwt : Shape.NewtonFn) (l : ℝ) (clp : Bool) (e : Elem) (r : Ray) :
    Row × Ray :=
  let y := r.y.map fun y => e.tf.toNormal (y - e.tf.offset)
  let i := r.u.map fun u => e.tf.toNormal u
  let p := e.propagate nwt y i r.n l clp
  (⟨p.y, p.u, p.n, i, p.t⟩,
   ⟨p.y.map e.tf.fromNormal, p.u.map e.tf.fromNormal, p.n⟩)

end Elem

end RayOpt
