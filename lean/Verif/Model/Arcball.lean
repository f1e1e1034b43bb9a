import Verif.Model.Quat

/-!
The virtual trackball: `class Arcball` and its helpers, rayopt/transformations.py 1504-1655.  A NaN vector or
quaternion is `none`.
-/

namespace RayOpt.Arcball

open RayOpt V3

/-- Exceptions of the trackball. -/
inductive Err
  /-- division by a radius that is zero -/
  | zeroDivision
  /-- `a[2]` of the array of `None`, rayopt/transformations.py 1639 -/
  | index
  deriving DecidableEq

/-- `arcball_map_to_sphere(point, center, radius)`, rayopt/transformations.py 1615-1625; `none` is the division
by zero. -/
noncomputable def mapToSphere (point center : ℝ × ℝ) (radius : ℝ) : Option V3 :=
  if radius = 0 then none else
  let v0 := (point.1 - center.1) / radius
  let v1 := (center.2 - point.2) / radius
  let n := v0 * v0 + v1 * v1
  some (if n > 1 then ⟨v0 / √n, v1 / √n, 0⟩ else ⟨v0, v1, √(1 - n)⟩)

/-- `unit_vector(v)`, `none` for the NaN of a zero vector. -/
noncomputable def unit? (v : V3) : Option V3 := if v.norm = 0 then none else some (unitVector v)

/-- `arcball_constrain_to_axis(point, axis)`, rayopt/transformations.py 1628-1641. -/
noncomputable def constrainToAxis (point a : V3) : Option V3 :=
  let v := point - a.dot point • a
  let n := v.norm
  if n > tfEps then some ((1 / n) • if v.z < 0 then -v else v)
  else if a.z = 1 then some ⟨1, 0, 0⟩
  else unit? ⟨-a.y, a.x, 0⟩

/-- One round of the loop of `arcball_nearest_axis`, rayopt/transformations.py 1649-1653: comparisons with NaN
are false. -/
noncomputable def nearer (point : V3) (s : Option V3 × ℝ) (axis : Option V3) : Option V3 × ℝ :=
  match axis.bind fun a => (constrainToAxis point a).map fun v => (a, v.dot point) with
  | none => s
  | some (a, t) => if t > s.2 then (some a, t) else s

/-- `arcball_nearest_axis(point, axes)`, rayopt/transformations.py 1644-1654. -/
noncomputable def nearestAxis (point : V3) (axes : List (Option V3)) : Option V3 :=
  (axes.foldl (nearer point) (none, -1)).1

/-- `class Arcball`, rayopt/transformations.py 1504-1613. -/
structure Ball where
  axis : Option V3
  axes : Option (List (Option V3))
  radius : ℝ
  center : ℝ × ℝ
  vdown : V3
  constrain : Bool
  qdown : Option Quat
  qpre : Option Quat
  qnow : Option Quat

/-- `q / vector_norm(q)`. -/
noncomputable def normalized (q : Quat) : Option Quat :=
  if q.norm = 0 then none else some (q.scale (1 / q.norm))

/-- `Arcball(initial)` for a quaternion, rayopt/transformations.py 1527-1550; the default is `[1, 0, 0, 0]`.  For
a matrix the quaternion is that of `quaternion_from_matrix`. -/
noncomputable def init (initial : Quat) : Ball where
  axis := none
  axes := none
  radius := 1
  center := (0, 0)
  vdown := ⟨0, 0, 1⟩
  constrain := false
  qdown := normalized initial
  qpre := normalized initial
  qnow := normalized initial

/-- `place(center, radius)`, rayopt/transformations.py 1552-1563. -/
def place (b : Ball) (center : ℝ × ℝ) (radius : ℝ) : Ball := { b with radius := radius, center := center }

/-- `setaxes(*axes)`, rayopt/transformations.py 1565-1570: a tuple of arguments is never `None`. -/
noncomputable def setaxes (b : Ball) (axes : List V3) : Ball := { b with axes := some (axes.map unit?) }

/-- `down(point)`, rayopt/transformations.py 1582-1590. -/
noncomputable def down (b : Ball) (point : ℝ × ℝ) : Except Err Ball :=
  match mapToSphere point b.center b.radius with
  | none => .error .zeroDivision
  | some v =>
    let b := { b with vdown := v, qdown := b.qnow, qpre := b.qnow }
    match b.constrain, b.axes with
    | true, some axes =>
      match nearestAxis v axes with
      | none => .error .index
      | some a =>
        match constrainToAxis v a with
        | none => .error .index
        | some v => .ok { b with axis := some a, vdown := v }
    | _, _ => .ok { b with axis := none }

/-- The rotation of a drag from `v` to `w`, rayopt/transformations.py 1598-1603. -/
noncomputable def turn (v w : V3) (q : Quat) : Quat :=
  let t := v.cross w
  if t.dot t < tfEps then q else (⟨v.dot w, t.x, t.y, t.z⟩ : Quat).mul q

/-- `drag(point)`, rayopt/transformations.py 1592-1603.  A NaN position gives a NaN quaternion. -/
noncomputable def drag (b : Ball) (point : ℝ × ℝ) : Except Err Ball :=
  match mapToSphere point b.center b.radius with
  | none => .error .zeroDivision
  | some v =>
    let vnow := match b.axis with
      | none => some v
      | some a => constrainToAxis v a
    .ok { b with qpre := b.qnow, qnow := vnow.bind fun w => b.qdown.map (turn b.vdown w) }

/-- `next(acceleration)`, rayopt/transformations.py 1605-1608.  The argument `False` is the `spin` of
`quaternion_slerp`, whose `shortestpath` keeps its default. -/
noncomputable def next (b : Ball) (acceleration : ℝ) : Ball :=
  let f := 2 + acceleration
  { b with
    qpre := b.qnow
    qnow :=
      if f = 0 then b.qpre.bind normalized
      else if f = 1 then b.qnow.bind normalized
      else b.qpre.bind fun p => b.qnow.map fun q => Quat.slerp p q f 0 true }

/-- `matrix()`, rayopt/transformations.py 1610-1612. -/
noncomputable def Ball.matrix (b : Ball) : Option M3 := b.qnow.map Quat.matrix

/-- What a user of the trackball does. -/
inductive Op
  | place (center : ℝ × ℝ) (radius : ℝ)
  | setaxes (axes : List V3)
  | constrain (value : Bool)
  | down (point : ℝ × ℝ)
  | drag (point : ℝ × ℝ)
  | next (acceleration : ℝ)

/-- One operation. -/
noncomputable def step (b : Ball) : Op → Except Err Ball
  | .place c r => .ok (place b c r)
  | .setaxes l => .ok (setaxes b l)
  | .constrain v => .ok { b with constrain := v }
  | .down p => down b p
  | .drag p => drag b p
  | .next a => .ok (next b a)

/-- A sequence of operations, up to the first exception. -/
noncomputable def run (b : Ball) : List Op → Except Err Ball
  | [] => .ok b
  | o :: l => match step b o with
    | .error e => .error e
    | .ok b => run b l

end RayOpt.Arcball
