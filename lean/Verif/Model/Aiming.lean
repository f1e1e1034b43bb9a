import Verif.Model.Elements
import Mathlib.Analysis.SpecialFunctions.Complex.Arg

/-!
`rayopt/utils.py` 42-114, `rayopt/pupils.py`, `rayopt/conjugates.py`: angle conversions, pupils,
object conjugates and ray aiming.  One ray at a time; NaN and infinities are `none`.
-/

namespace RayOpt

namespace Util

/-- `sinarctan(u)` for a number, rayopt/utils.py 61-72. -/
noncomputable def sinarctan (u : ℝ) : ℝ := u * (1 / Real.sqrt (1 + u ^ 2))

/-- `tanarcsin(u)` for a number, rayopt/utils.py 42-57.  `none` is a NaN or an infinity. -/
noncomputable def tanarcsin (u : ℝ) : Option ℝ :=
  if 1 - u ^ 2 ≤ 0 then none else some (u / Real.sqrt (1 - u ^ 2))

/-- Sum of squares of a row. -/
def sumsq (l : List ℝ) : ℝ := (l.map fun x => x ^ 2).sum

/-- `sinarctan(u, v)` for one row of a two-dimensional array, rayopt/utils.py 61-72.  `none` is the
`IndexError` of `u[:, 3]` for exactly three columns. -/
noncomputable def sinarctanRow (u : List ℝ) (v : Option ℝ) : Option (List ℝ) :=
  let fin (u : List ℝ) (v : Option ℝ) : List ℝ :=
    let u2 := 1 / Real.sqrt (1 + sumsq u)
    u.map (· * u2) ++ match v with
      | none => []
      | some v => [SignType.sign v * u2]
  if u.length ≥ 3 then
    match u[3]? with
    | none => none
    | some v => some (fin (u.take 2) (some v))
  else some (fin u v)

/-- `tanarcsin(u, v)` for one row of a two-dimensional array, rayopt/utils.py 42-57: the slopes and,
if `v` is given, a sign.  `none` is a NaN or infinity, or the `IndexError` for less than two
columns. -/
noncomputable def tanarcsinRow (u : List ℝ) (v : Option ℝ) : Option (List ℝ × Option ℝ) :=
  match u with
  | [x, y, z] => if z = 0 then none else some ([x / z, y / z], v.map fun _ => SignType.sign z)
  | x :: y :: _ =>
    let u2 := x ^ 2 + y ^ 2
    if 1 - u2 ≤ 0 then none
    else some (u.map (· / Real.sqrt (1 - u2)), v.map fun v => SignType.sign v)
  | _ => none

/-- `normalize(u)` for one vector, rayopt/utils.py 102-103.  `none` is the NaN of a zero vector. -/
noncomputable def normalize (u : V3) : Option V3 :=
  if u.norm = 0 then none else some ((1 / u.norm) • u)

open Classical in
/-- `sagittal_meridional(u, z)` for one vector, rayopt/utils.py 107-114. -/
noncomputable def sagittalMeridional (u z : V3) : Option (V3 × V3) :=
  let s := u.cross z
  let s := if s = 0 then ⟨1, 0, 0⟩ else s
  let m := u.cross s
  (normalize s).bind fun s => (normalize m).map fun m => (s, m)

end Util

open Util

/-- The defining quantity of the four pupil classes, rayopt/pupils.py 112-227. -/
inductive PupilKind where
  | na (v : ℝ)
  | slope (v : ℝ)
  | radius (v : ℝ)
  | fno (v : ℝ)

/-- A `Pupil`, rayopt/pupils.py 26-38 (the attributes used here). -/
structure Pupil where
  kind : PupilKind
  distance : ℝ
  index : ℝ
  updateDistance : Bool
  updateRadius : Bool
  telecentric : Bool

namespace Pupil

/-- `na` of `NaPupil` (stored), `FnoPupil` (pupils.py 218-219); the base class property needs
`slope` and is in `na`. -/
noncomputable def naOf (p : Pupil) : Option ℝ :=
  match p.kind with
  | .na v => some v
  | .fno v => if 2 * v = 0 then none else some (1 / (2 * v))
  | _ => none

/-- `slope`: base class (rayopt/pupils.py 86-87), `NaPupil` 130-131, `SlopePupil` (stored),
`FnoPupil` 214-215. -/
noncomputable def slope (p : Pupil) : Option ℝ :=
  match p.kind with
  | .slope v => some v
  | .radius v => if p.distance = 0 then none else some (v / p.distance)
  | _ => p.naOf.bind fun na => if p.index = 0 then none else tanarcsin (na / p.index)

/-- `radius`: rayopt/pupils.py 134-135, 162-163, 222-223 (`slope*distance`), `RadiusPupil`
(stored). -/
noncomputable def radius (p : Pupil) : Option ℝ :=
  match p.kind with
  | .radius v => some v
  | _ => p.slope.map (· * p.distance)

/-- `na`: base class property (rayopt/pupils.py 90-91) or stored/derived. -/
noncomputable def na (p : Pupil) : Option ℝ :=
  match p.kind with
  | .na _ | .fno _ => p.naOf
  | _ => p.slope.map fun s => sinarctan s * p.index

/-- `fno`: base class property (rayopt/pupils.py 94-95) or stored. -/
noncomputable def fno (p : Pupil) : Option ℝ :=
  match p.kind with
  | .fno v => some v
  | _ => p.na.bind fun na => if 2 * na = 0 then none else some (1 / (2 * na))

/-- `radius` setter: rayopt/pupils.py 138-140, 166-168, 226-227; a plain attribute for
`RadiusPupil`.  `none` is a non-finite stored value. -/
noncomputable def setRadius (p : Pupil) (r : ℝ) : Option Pupil :=
  match p.kind with
  | .radius _ => some { p with kind := .radius r }
  | .na _ => if p.distance = 0 then none
      else some { p with kind := .na (p.index * sinarctan (r / p.distance)) }
  | .slope _ => if p.distance = 0 then none else some { p with kind := .slope (r / p.distance) }
  | .fno _ =>
    if p.distance = 0 ∨ 2 * p.index * sinarctan (r / p.distance) = 0 then none
    else some { p with kind := .fno (1 / (2 * p.index * sinarctan (r / p.distance))) }

/-- `Pupil.update(distance, radius)`, rayopt/pupils.py 43-47. -/
noncomputable def update (p : Pupil) (distance radius : ℝ) : Option Pupil :=
  let p := if p.updateDistance then { p with distance := distance } else p
  if p.updateRadius then p.setRadius radius else some p

/-- `rescale`: rayopt/pupils.py 40-41 and `RadiusPupil.rescale` 189-191. -/
noncomputable def rescale (p : Pupil) (s : ℝ) : Pupil :=
  { p with distance := p.distance * s, kind := match p.kind with
      | .radius v => .radius (v * s)
      | k => k }

/-- `Pupil.map(y, a, filter)` for one point, rayopt/pupils.py 97-107, with
`a = [[lo.1, lo.2], [hi.1, hi.2]]`.  `none`: the point is filtered out (also for a degenerate
aperture, where the comparison with NaN or infinity fails). -/
noncomputable def map (y lo hi : ℝ × ℝ) (filter : Bool) : Option (ℝ × ℝ) :=
  let am := max (max |lo.1| |lo.2|) (max |hi.1| |hi.2|)
  let y := (y.1 * am, y.2 * am)
  if filter then
    let c := ((lo.1 + hi.1) / 2, (lo.2 + hi.2) / 2)
    let d := ((hi.1 - lo.1) / 2, (hi.2 - lo.2) / 2)
    if d.1 = 0 ∨ d.2 = 0 then none
    else if (y.1 - c.1) ^ 2 / d.1 ^ 2 + (y.2 - c.2) ^ 2 / d.2 ^ 2 ≤ 1 then some y else none
  else some y

end Pupil

/-- `np.arctan2(y, x)` (used in rayopt/conjugates.py 145, 194). -/
noncomputable def arctan2 (y x : ℝ) : ℝ := Complex.arg ⟨x, y⟩

/-- The aperture argument of `aim`: `a` given as array, or taken from the pupil radius
(rayopt/conjugates.py 142-144, 241-243). -/
def aperture (r : ℝ) : (ℝ × ℝ) × (ℝ × ℝ) := ((-r, -r), (r, r))

namespace Finite

/-- The pupil coordinates of `FiniteConjugate.aim`, rayopt/conjugates.py 141-149: fractional
coordinates to lengths, through the pupil angles. -/
noncomputable def pupilPoint (yp : ℝ × ℝ) (a : (ℝ × ℝ) × (ℝ × ℝ)) (z : ℝ) (filter : Bool) :
    Option (ℝ × ℝ) :=
  let t := fun x : ℝ => arctan2 x z
  (Pupil.map yp (t a.1.1, t a.1.2) (t a.2.1, t a.2.2) filter).map fun y =>
    (z * Real.tan y.1, z * Real.tan y.2)

/-- The object point `y` of `FiniteConjugate.aim`, rayopt/conjugates.py 151-154. -/
noncomputable def objectPoint (yo : ℝ × ℝ) (radius : ℝ) (surface : Option Shape) : Option V3 :=
  let y : V3 := ⟨-yo.1 * radius, -yo.2 * radius, 0⟩
  match surface with
  | none => some y
  | some sh => (sh.surfaceSag y).map fun s => { y with z := -s }

/-- `FiniteConjugate.aim(yo, yp, z, a, surface, filter)`, rayopt/conjugates.py 137-168, with `z` and
`a` given.  `none`: the point is filtered out or a number is not finite.  A telecentric pupil without
`yp` leaves a Python tuple unnormalised (and empty for `z < 0`); that case is excluded by the
theorems. -/
noncomputable def aim (radius : ℝ) (telecentric : Bool) (yo : ℝ × ℝ) (yp : Option (ℝ × ℝ)) (z : ℝ)
    (a : (ℝ × ℝ) × (ℝ × ℝ)) (surface : Option Shape) (filter : Bool) : Option (V3 × V3) :=
  (objectPoint yo radius surface).bind fun y =>
    let uz : V3 := ⟨0, 0, z⟩
    let u := if telecentric then uz else uz - y
    let u : Option V3 := match yp with
      | none => some u
      | some yp => (pupilPoint yp a z filter).bind fun yp =>
          (sagittalMeridional u uz).map fun sm => u + (yp.1 • sm.1 + yp.2 • sm.2)
    u.bind fun u => (normalize u).map fun u =>
      (y, if z < 0 then (-1 : ℝ) • u else u)

end Finite

/-- The projections of `InfiniteConjugate.map`, rayopt/conjugates.py 208-234. -/
inductive Projection where
  | rectilinear
  | stereographic
  | equisolid
  | orthographic
  | equidistant
  | unknown

namespace Infinite

/-- `InfiniteConjugate.map(yo, a)` for one field point, rayopt/conjugates.py 208-234.  `none`: a NaN,
the `ValueError` that `np.hstack` raises for the three-dimensional array in the orthographic case,
or the `UnboundLocalError` for an unknown projection. -/
noncomputable def map (p : Projection) (yo : ℝ × ℝ) (a : ℝ) : Option V3 :=
  match p with
  | .rectilinear =>
    let y := (yo.1 * Real.tan a, yo.2 * Real.tan a)
    let n := Real.sqrt (y.1 ^ 2 + y.2 ^ 2 + 1)
    some ⟨y.1 / n, y.2 / n, 1 / n⟩
  | .stereographic =>
    let y := (yo.1 * (2 * Real.tan (a / 2)), yo.2 * (2 * Real.tan (a / 2)))
    let r := (y.1 ^ 2 + y.2 ^ 2) / 4
    some ⟨y.1 / (r + 1), y.2 / (r + 1), (1 - r) / (r + 1)⟩
  | .equisolid =>
    let y := (yo.1 * (2 * Real.sin (a / 2)), yo.2 * (2 * Real.sin (a / 2)))
    let r := y.1 ^ 2 + y.2 ^ 2
    if 1 - r / 4 < 0 then none
    else some ⟨y.1 * Real.sqrt (1 - r / 4), y.2 * Real.sqrt (1 - r / 4), 1 - r / 2⟩
  | .orthographic => none
  | .equidistant =>
    let y := (yo.1 * a, yo.2 * a)
    let b := y.1 ^ 2 + y.2 ^ 2 > (Real.pi / 2) ^ 2
    let y := (Real.sin y.1, Real.sin y.2)
    let z := Real.sqrt (y.1 ^ 2 + y.2 ^ 2)
    haveI := Classical.dec b
    some ⟨y.1, y.2, if b then -z else z⟩
  | .unknown => none

/-- `InfiniteConjugate.aim(yo, yp, z, a, surface, filter)`, rayopt/conjugates.py 236-255, with `z`
and `a` given; `surface` is the intercept function of the object surface. -/
noncomputable def aim (p : Projection) (angle : ℝ) (yo : ℝ × ℝ) (yp : Option (ℝ × ℝ)) (z : ℝ)
    (a : (ℝ × ℝ) × (ℝ × ℝ)) (surface : Option (V3 → V3 → Option ℝ)) (filter : Bool) :
    Option (V3 × V3) :=
  (map p yo angle).bind fun u =>
    let yz : V3 := ⟨0, 0, z⟩
    let y := yz - z • u
    let y : Option V3 := match yp with
      | none => some y
      | some yp => (Pupil.map yp a.1 a.2 filter).bind fun yp =>
          (sagittalMeridional u yz).map fun sm => y + (yp.1 • sm.1 + yp.2 • sm.2)
    y.bind fun y => match surface with
      | none => some (y, u)
      | some f => (f y u).map fun t => (y + t • u, u)

end Infinite

end RayOpt
