import Verif.Model.Elements
import Verif.Model.Quat

/-!
Turning elements so that the optical axis is refracted into the next direction:
`TransformMixin.incidence`, `excidence`, `align` (rayopt/elements.py 88-118) and `System.align`
(rayopt/system.py 430-436).
-/

namespace RayOpt

namespace Transform

/-- `incidence`, rayopt/elements.py 88-91. -/
noncomputable def incidence (t : Transform) : V3 := t.toNormal t.direction

/-- `excidence(mu)`, rayopt/elements.py 93-101.  `none` is the NaN of the square root. -/
noncomputable def excidence (t : Transform) (mu : ℝ) : Option V3 :=
  let i := t.incidence
  if mu = 1 then some i
  else
    let a := |mu| * i.z
    if a ^ 2 - mu ^ 2 + 1 < 0 then none
    else
      let g := -a + SignType.sign mu * Real.sqrt (a ^ 2 - mu ^ 2 + 1)
      some (|mu| • i + g • V3.ez)

open Classical in
/-- The normal that `align` aims at, rayopt/elements.py 105-111.  (The tuple `0, 0, 1.` divided by a
numpy scalar is an array.) -/
noncomputable def alignNormal (i direction : V3) (mu : ℝ) : V3 :=
  let r := mu • i - direction
  let r := if mu < 1 then -r else r
  let r := if allclose r 0 then V3.ez else r
  (1 / r.norm) • r

open Classical in
/-- The rotation of `align`, rayopt/elements.py 112-116. -/
noncomputable def alignRot (i r : V3) : M3 :=
  let rdir := i.cross r
  let rang := Real.arcsin rdir.norm
  let rdir := if allclose rdir 0 then ⟨1, 0, 0⟩ else rdir
  (rotationMatrix rang rdir).T

/-- The Euler angles of `align`, rayopt/elements.py 117. -/
noncomputable def alignAngles (i direction : V3) (mu : ℝ) : V3 :=
  let a := eulerFromMatrix (alignRot i (alignNormal i direction mu)) Axes.rxyz
  ⟨a.1, a.2.1, a.2.2⟩

/-- `align(direction, mu)`, rayopt/elements.py 103-118. -/
noncomputable def align (t : Transform) (direction : V3) (mu : ℝ) : Transform :=
  update t.distance t.direction (alignAngles t.direction direction mu)

end Transform

namespace Sys

/-- The loop of `System.align`, rayopt/system.py 432-435: pairs of elements and indices, the last of
each left out.  `align` does not change directions, so it does not matter that `self[i + 1]` is read
before it is turned. -/
noncomputable def alignFrom : ℝ → List Elem → List ℝ → List Elem
  | n0, e :: e' :: es, n :: n' :: ns =>
    { e with tf := e.tf.align e'.tf.direction (n0 / n) } :: alignFrom n (e' :: es) (n' :: ns)
  | _, es, _ => es

/-- `System.align(n)`, rayopt/system.py 430-436.  `none` is the `IndexError` of an empty list. -/
noncomputable def align (sys : List Elem) (ns : List ℝ) : Option (List Elem) :=
  match ns, sys with
  | n0 :: _, _ :: _ =>
    some ((alignFrom n0 sys ns).modifyLast fun e => { e with tf := e.tf.setAngles 0 })
  | _, _ => none

end Sys

end RayOpt
