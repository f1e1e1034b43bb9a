import Verif.Model.System

/-!
`System.resize_convex` and the outlines of the elements: rayopt/system.py 333-385 and the
`surface_cut` methods of rayopt/elements.py.
-/

namespace RayOpt

namespace Radius

/-- `max(a, b)` of two radii, rayopt/system.py 343; `np.inf` is larger than every number. -/
noncomputable def max : Radius → Radius → Radius
  | .fin a, .fin b => .fin (Max.max a b)
  | _, _ => .inf

end Radius

namespace Elem

/-- `getattr(el, "curvature", 0)`, rayopt/system.py 341. -/
noncomputable def curv (e : Elem) : ℝ := match e.shape with
  | none => 0
  | some sh => sh.curvature

/-- `not el.material or el.material.solid`, rayopt/system.py 349, 351, for an element that has the
attribute. -/
def opens (e : Elem) : Bool := match e.mat with
  | none => true
  | some m => m.solid

end Elem

namespace Sys

/-- One pass of the loop of `resize_convex`, rayopt/system.py 338-352, for the element at `i`.  The
state holds the elements and `pending, c0` (index and curvature); `pending = None` is `none`, then
`c0` is not read. -/
noncomputable def convexStep (st : List Elem × Option (ℕ × ℝ)) (i : ℕ) :
    List Elem × Option (ℕ × ℝ) :=
  let (sys, pending) := st
  match sys[i]? with
  | none => st
  | some el =>
    if el.material = none then st
    else
      let c := el.curv
      let sys := match pending with
        | none => sys
        | some (p, c0) => match sys[p]? with
          | none => sys
          | some pe =>
            let r := Radius.max el.radius pe.radius
            let sys := if c ≤ 0 then sys.set i { el with radius := r } else sys
            if c0 > 0 then sys.set p { pe with radius := r } else sys
      (sys, if el.opens then some (i, c) else none)

/-- `System.resize_convex`, rayopt/system.py 333-352; `self[1:-1]` are the indices from 1 to
`len - 2`. -/
noncomputable def resizeConvex (sys : List Elem) : List Elem :=
  ((List.range' 1 (sys.length - 2)).foldl convexStep (sys, none)).1

end Sys

/-- `np.linspace(a, b, points)`. -/
noncomputable def linspace (a b : ℝ) (points : ℕ) : List ℝ :=
  (List.range points).map fun (i : ℕ) => a + i * ((b - a) / (points - 1 : ℕ))

/-- A point of a cut: the transverse coordinate and `z`. -/
abbrev Pt := ℝ × ℝ

namespace Elem

/-- The point with coordinate `a` along `axis` and height `z`. -/
def cutPoint (axis : Fin 2) (a z : ℝ) : V3 := if axis = 0 then ⟨a, 0, z⟩ else ⟨0, a, z⟩

/-- `surface_cut(axis, points)`, rayopt/elements.py 262-266 (`Element`) and 371-378 (`Interface`).
`none`: an infinite radius or a point where the surface does not exist. -/
noncomputable def surfaceCut (e : Elem) (axis : Fin 2) (points : ℕ) : Option (List V3) :=
  match e.radius with
  | .inf => none
  | .fin r =>
    match e.shape, e.mat with
    | some sh, some _ => (linspace (-r) r points).mapM fun a =>
        (sh.surfaceSag (cutPoint axis a 0)).map fun s => cutPoint axis a (-s)
    | _, _ => some [cutPoint axis (-r) 0, cutPoint axis r 0]

end Elem

namespace Sys

/-- `xyz[:, axis], xyz[:, 2]`, rayopt/system.py 361. -/
def toPt (axis : Fin 2) (p : V3) : Pt := (if axis = 0 then p.x else p.y, p.z)

/-- The cut of the element `e` whose vertex is at `pos`, rayopt/system.py 359-361. -/
noncomputable def cutAt (axis : Fin 2) (points : ℕ) (pos : V3) (e : Elem) : Option (List Pt) :=
  (e.surfaceCut axis points).map fun ps => ps.map fun p => toPt axis (pos + e.tf.fromNormal p)

/-- The closed outline between the pending cut `p` and the cut `c`, rayopt/system.py 366-376.  `none`
is the `IndexError` of an empty cut. -/
noncomputable def closeOutline (p c : List Pt) : Option (List Pt) :=
  match p.head?, p.getLast?, c.head?, c.getLast? with
  | some p0, some p1, some c0, some c1 =>
    let cl := if c0.1 < p0.1 then (c0.1, p0.2) else (p0.1, c0.2)
    let cu := if c1.1 > p1.1 then (c1.1, p1.2) else (p1.1, c1.2)
    some (p ++ [cu] ++ c.reverse ++ [cl] ++ [p0])
  | _, _, _, _ => none

/-- The generator `surfaces_cut`, rayopt/system.py 357-385, on the elements' materials and cuts:
what it yields, given the pending cut. -/
noncomputable def outlinesFrom (pending : Option (List Pt)) :
    List (Option Material × List Pt) → Option (List (List Pt))
  | [] => some pending.toList
  | (none, c) :: es => (outlinesFrom pending es).map (c :: ·)
  | (some m, c) :: es =>
    let out : Option (List (List Pt)) := match pending with
      | some p => (closeOutline p c).map fun o => [o]
      | none => some (if !m.solid || m.mirror then [c] else [])
    let pend := if m.solid || (pending.isSome && m.mirror) then some c else none
    out.bind fun o => (outlinesFrom pend es).map (o ++ ·)

/-- `System.surfaces_cut`, rayopt/system.py 354-385. -/
noncomputable def surfacesCut (sys : List Elem) (axis : Fin 2) (points : ℕ) :
    Option (List (List Pt)) :=
  (((origins sys).zip sys).mapM fun oe => (cutAt axis points oe.1 oe.2).map fun c => (oe.2.mat, c)).bind
    (outlinesFrom none)

end Sys

end RayOpt
