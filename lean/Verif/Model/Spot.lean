import Verif.Model.Trace
import Verif.Model.Material

/-!
Spot and wavefront of a geometric trace: `refocus`, `opd` (without resampling), `rms` and `resize` of
`GeometricTrace` (rayopt/geometric_trace.py 82-183, 231-234).
-/

namespace RayOpt.Spot

open RayOpt.Elem (Row)
open RayOpt.Glass (pyGet?)

/-- The values of a list of numbers of which none is NaN. -/
def allSome {α : Type*} : List (Option α) → Option (List α)
  | [] => some []
  | x :: l => x.bind fun x => (allSome l).map (x :: ·)

/-- A transverse position or slope: one row of an `(n, 2)` array. -/
abbrev V2 := ℝ × ℝ

/-- `(a*b).sum()` for one row. -/
def dot (a b : V2) : ℝ := a.1 * b.1 + a.2 * b.2

/-- `y.mean(0)`, rayopt/geometric_trace.py 91-92, 174. -/
noncomputable def mean (l : List V2) : V2 := (l.length : ℝ)⁻¹ • l.sum

/-- One good ray of `refocus`: position, slopes and weight. -/
structure Good where
  y : V2
  u : V2
  w : ℝ

/-- The shift `t` of `GeometricTrace.refocus` for the good rays, rayopt/geometric_trace.py 91-97.
`none` is NaN or infinity: division by zero. -/
noncomputable def shift (l : List Good) : Option ℝ :=
  let my := mean (l.map Good.y)
  let mu := mean (l.map Good.u)
  let a := (l.map fun g => g.w * dot (g.y - my) (g.u - mu)).sum
  let b := (l.map fun g => g.w * dot (g.u - mu) (g.u - mu)).sum
  if b = 0 then none else some (-a / b)

/-- `tanarcsin(self.i[at])` for one ray: three columns, rayopt/utils.py 44-49. -/
noncomputable def slope (i : Option V3) : Option V2 :=
  i.bind fun i => if i.z = 0 then none else some (i.x / i.z, i.y / i.z)

/-- `y[:, :2]` for one row. -/
def xy (y : V3) : V2 := (y.x, y.y)

/-- The rays of the surface `at` with finite slopes, rayopt/geometric_trace.py 83-90; the argument is
the row of each ray and its weight (1 if `self.w` is `None`).  `none` if a good ray has a NaN
position: the result is NaN then. -/
noncomputable def goods : List (Row × ℝ) → Option (List Good)
  | [] => some []
  | (r, w) :: l => match slope r.i with
    | none => goods l
    | some u => r.y.bind fun y => (goods l).map fun gs => ⟨xy y, u, w⟩ :: gs

/-- `self.system[at].distance += t`, rayopt/geometric_trace.py 98. -/
noncomputable def moveElem (e : Elem) (t : ℝ) : Elem :=
  { e with tf := e.tf.setDistance (e.tf.distance + t) }

/-- The change of the system by `GeometricTrace.refocus()` with `at=-1`, rayopt/geometric_trace.py
82-98; `rows` are the rows of the last surface.  `none`: NaN distance, or no elements. -/
noncomputable def refocus (sys : List Elem) (rows : List (Row × ℝ)) : Option (List Elem) :=
  sys.getLast?.bind fun e => (goods rows).bind fun gs => (shift gs).map fun t =>
    sys.dropLast ++ [moveElem e t]

/-- The reference point `y0` of `rms`, rayopt/geometric_trace.py 173-176; `none` is an `IndexError`. -/
noncomputable def center (l : List (V2 × ℝ)) (ref : Option ℤ) : Option V2 :=
  match ref with
  | none => some (mean (l.map Prod.fst))
  | some i => (pyGet? l i).map Prod.fst

/-- `GeometricTrace.rms(i, ref)`, rayopt/geometric_trace.py 171-183, for finite positions `y` of the
surface `i`, each with its weight; `weighted` tells whether `self.w` is not `None`.  `none`: NaN of a
negative sum, or the `IndexError` of `ref`. -/
noncomputable def rms (l : List (V2 × ℝ)) (weighted : Bool) (ref : Option ℤ) : Option ℝ :=
  (center l ref).bind fun y0 =>
    let r := (l.map fun p => dot (p.1 - y0) (p.1 - y0) *
      (if weighted then p.2 else 1 / (l.length : ℝ))).sum
    if r < 0 then none else some (Real.sqrt r)

/-! ### Optical path difference -/

/-- `self.t[:after + 1].sum(0)` for one ray, rayopt/geometric_trace.py 102. -/
noncomputable def pathTo (rows : List Row) (after : ℤ) : Option ℝ :=
  (allSome ((pySlice rows 0 (some (after + 1))).map Row.t)).map List.sum

/-- `tj*self.n[0]` for an object at infinity, rayopt/geometric_trace.py 103-108: rows of the reference
ray and of the ray at the object. -/
noncomputable def inputPath (finite : Bool) (ref ray : Row) : Option ℝ :=
  if finite then some 0
  else ref.u.bind fun u => ref.y.bind fun y => ray.y.map fun y' => u.dot (y - y') * ray.n

/-- Position and direction of a ray after element `after` in the coordinates of the image surface
relative to the image of the reference ray, rayopt/geometric_trace.py 115-119: `oa`, `oi` are the
origins of the two elements, `yr` is `self.y[image, self.ref]`. -/
noncomputable def toImage (ea ei : Transform) (oa oi yr : V3) (a : Row) : Option (V3 × V3) :=
  a.y.bind fun y => a.u.map fun u =>
    (ei.toNormal (ea.fromNormal y + (oa - oi)) - yr, ei.toNormal (ea.fromNormal u))

/-- `Spheroid(curvature=1./radius)`, rayopt/geometric_trace.py 124. -/
noncomputable def sphere (radius : ℝ) : Shape :=
  { curvature := 1 / radius, conic := 0, aspherics := none, alternate := false }

/-- `ti` for one ray, rayopt/geometric_trace.py 123-124: distance to the reference sphere. -/
noncomputable def toSphere (radius : ℝ) (yu : V3 × V3) : Option ℝ :=
  if radius = 0 then none
  else (sphere radius).interceptConic (yu.1 + ⟨0, 0, radius⟩) yu.2

/-- What `opd` needs apart from the rays. -/
structure Setup where
  sys : List Elem
  finite : Bool
  radius : ℝ
  after : ℤ
  image : ℤ
  /-- `self.l/self.system.scale` -/
  wave : ℝ

/-- `t` of one ray before the division, rayopt/geometric_trace.py 102-125, without the subtraction of
the reference ray: path up to `after`, the part before the object for an object at infinity, and from
`after` to the sphere.  `yr` is `self.y[image, self.ref]`, `ref0` the row of the reference ray at the
object. -/
noncomputable def path (s : Setup) (yr : V3) (ref0 : Row) (rows : List Row) : Option ℝ :=
  (pathTo rows s.after).bind fun t => (rows[0]?.bind fun r0 => inputPath s.finite ref0 r0).bind
    fun tj => (pyGet? s.sys s.after).bind fun ea => (pyGet? s.sys s.image).bind fun ei =>
    (pyGet? (Sys.origins s.sys) s.after).bind fun oa =>
    (pyGet? (Sys.origins s.sys) s.image).bind fun oi =>
    (pyGet? rows s.after).bind fun a => (toImage ea.tf ei.tf oa oi yr a).bind fun yu =>
    (toSphere s.radius yu).map fun ti => t - tj + ti * a.n

/-- The values of `GeometricTrace.opd(radius, after, image, resample=False)` for one ray,
rayopt/geometric_trace.py 101-126; `ref` are the rows of the reference ray.  The code subtracts the
reference part by part (`self.t[...] - self.t[..., ref]`, `ti - ti[ref]`). -/
noncomputable def opd (s : Setup) (ref rows : List Row) : Option ℝ :=
  ((pyGet? ref s.image).bind Row.y).bind fun yr => ref[0]?.bind fun ref0 =>
    (path s yr ref0 rows).bind fun t => (path s yr ref0 ref).bind fun tr =>
    if s.wave = 0 then none else some (-(t - tr) / s.wave)

/-! ### Apertures -/

/-- `np.hypot(x, y)`. -/
noncomputable def hypot (y : V3) : ℝ := Real.sqrt (y.x ^ 2 + y.y ^ 2)

/-- `ri.max()`: NaN if any ray is, `none` also for no rays (`ValueError`). -/
noncomputable def maxRadius (l : List (Option V3)) : Option ℝ :=
  (allSome l).bind fun l => (l.map hypot).max?

/-- `GeometricTrace.resize()` with the default `fn`, rayopt/geometric_trace.py 231-234: the rays of
each surface, including the object's.  The first element is kept.  `none`: NaN. -/
noncomputable def resize (sys : List Elem) (ys : List (List (Option V3))) : Option (List Elem) :=
  match sys with
  | [] => some []
  | e0 :: es => (allSome ((es.zip ys.tail).map fun p => (maxRadius p.2).map fun r =>
      { p.1 with radius := .fin r })).map (e0 :: ·)

end RayOpt.Spot
