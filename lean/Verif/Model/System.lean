import Verif.Model.Trace

/-!
Methods of `System` (rayopt/system.py) that transform or inspect the list of elements, and the
element methods they use.
-/

namespace RayOpt

namespace Radius

/-- `self.radius *= scale`, rayopt/elements.py 255-256, for `scale > 0` (`inf*scale` is `inf`). -/
def scale (s : ℝ) : Radius → Radius
  | .inf => .inf
  | .fin r => .fin (r * s)

end Radius

namespace Shape

/-- The aspheric part of `Spheroid.rescale`, rayopt/elements.py 552-554:
`[ai/scale**(2*i + 1) for i, ai in enumerate(self.aspherics)]`. -/
noncomputable def rescaleAsph (s : ℝ) (l : List ℝ) : List ℝ :=
  l.zipIdx.map fun ai => ai.1 / s ^ (2 * ai.2 + 1)

/-- `Spheroid.rescale` (shape attributes), rayopt/elements.py 549-554. -/
noncomputable def rescale (s : ℝ) (sh : Shape) : Shape :=
  { sh with curvature := sh.curvature / s, aspherics := sh.aspherics.map (rescaleAsph s) }

/-- `Spheroid.reverse`, rayopt/elements.py 543-547. -/
def reverse (sh : Shape) : Shape :=
  { sh with curvature := sh.curvature * -1, aspherics := sh.aspherics.map (·.map fun a => -a) }

/-- `Interface.edge_sag(axis)`, rayopt/elements.py 328-331 with `axis = 1` (the surface is
rotationally symmetric in its own frame, `axis = 0` gives the same value).  An infinite radius
gives a non-finite value, modelled as `none`. -/
noncomputable def edgeSag (sh : Shape) (R : Radius) : Option ℝ :=
  match R with
  | .inf => if sh.curvature = 0 ∧ sh.aspherics = none then some 0 else none
  | .fin r => sh.surfaceSag ⟨0, r, 0⟩

end Shape

namespace Elem

/-- `Element.rescale` (rayopt/elements.py 254-256) and `Spheroid.rescale`
(rayopt/elements.py 549-554). -/
noncomputable def rescale (s : ℝ) (e : Elem) : Elem :=
  { e with tf := e.tf.setDistance (e.tf.distance * s), radius := e.radius.scale s,
           shape := e.shape.map (Shape.rescale s) }

/-- `Element.reverse` (does nothing, rayopt/elements.py 251-252), `Spheroid.reverse`
(rayopt/elements.py 543-547). -/
def reverse (e : Elem) : Elem := { e with shape := e.shape.map Shape.reverse }

/-- `getattr(e, "material", None)`, rayopt/system.py 255. -/
def mat (e : Elem) : Option Material := e.material.getD none

/-- `getattr(getattr(el, "material", None), "mirror", False)`, rayopt/system.py 440. -/
def isMirror (e : Elem) : Bool := match e.mat with
  | none => false
  | some m => m.mirror

/-- `getattr(el.material, "solid", False)`, rayopt/system.py 101. -/
def isSolid (e : Elem) : Bool := match e.mat with
  | none => false
  | some m => m.solid

/-- `element.refractive_index(wavelength)`: `Interface.refractive_index`,
rayopt/elements.py 297-298.  `none` is the `AttributeError` that `System.refractive_index`
catches: a bare element has no such method, and `None` has no such attribute. -/
def index? (e : Elem) (l : ℝ) : Option ℝ :=
  match e.shape with
  | none => none
  | some _ => e.mat.map fun m => m.index l

end Elem

namespace Sys

/-- `System.rescale`, element part, rayopt/system.py 267-268. -/
noncomputable def rescale (s : ℝ) (sys : List Elem) : List Elem := sys.map (Elem.rescale s)

/-- The list `self[index::-1]` for `index` as in `System.refractive_index`,
rayopt/system.py 194: a negative index counts from the end; an index past the end starts at the
end; a negative index out of range gives nothing. -/
def sliceDown {α : Type*} (sys : List α) (index : ℤ) : List α :=
  if index < 0 then (sys.take (index + sys.length + 1).toNat).reverse
  else (sys.take (index.toNat + 1)).reverse

/-- `System.refractive_index`, rayopt/system.py 193-199. -/
noncomputable def refractiveIndex (sys : List Elem) (l : ℝ) (index : ℤ) : ℝ :=
  ((sliceDown sys index).findSome? fun e => e.index? l).getD 1

/-- `System.reverse`, element part, rayopt/system.py 249-261: the lists `d`, `m` of the code are
read at `i + 1` and `i`. -/
noncomputable def reverse (sys : List Elem) : List Elem :=
  let d := sys.map (fun e => e.tf.distance) ++ [0]
  let m := none :: sys.map Elem.mat
  (sys.zipIdx.map fun ei =>
    { ei.1.reverse with
      tf := ei.1.tf.setDistance (d.getD (ei.2 + 1) 0)
      material := some (m.getD ei.2 none) }).reverse

/-- The loop state and body of `System.groups`, rayopt/system.py 98-110: collected groups and the
group being built. -/
def groupStep (st : List (List ℕ) × List ℕ) (ie : ℕ × Elem) : List (List ℕ) × List ℕ :=
  let (done, group) := st
  let (i, el) := ie
  match el.material with
  | some _ =>
    if el.isSolid then (done, group ++ [i])
    else if group ≠ [] ∨ el.isMirror then (done ++ [group ++ [i]], [])
    else (done, group)
  | none => if group ≠ [] then (done, group ++ [i]) else (done, group)

/-- `System.groups`, rayopt/system.py 92-110. -/
def groups (sys : List Elem) : List (List ℕ) :=
  let st := (sys.zipIdx.map fun ei => (ei.2, ei.1)).foldl groupStep ([], [])
  if st.2 ≠ [] then st.1 ++ [st.2] else st.1

/-- `System.path`, rayopt/system.py 422-424. -/
noncomputable def path (sys : List Elem) : List ℝ :=
  (sys.map fun e => e.tf.distance).scanl (· + ·) 0 |>.tail

/-- `System.track`, rayopt/system.py 426-428. -/
noncomputable def track (sys : List Elem) : List ℝ := (origins sys).map V3.z

/-- `System.close(index)`, rayopt/system.py 417-420, `self[index].offset -= self.origins[-1]`.
`none` is the `IndexError`. -/
noncomputable def close (sys : List Elem) (index : ℤ) : Option (List Elem) :=
  let i := if index < 0 then index + sys.length else index
  if i < 0 then none
  else match sys[i.toNat]?, (origins sys).getLast? with
    | some e, some o =>
      some (sys.set i.toNat { e with tf := e.tf.setOffset (e.tf.offset - o) })
    | _, _ => none

/-- `System.mirrored`, rayopt/system.py 438-442. -/
def mirrored (sys : List Elem) : List ℤ :=
  (sys.map fun e => if e.isMirror then (-1 : ℤ) else 1).scanl (· * ·) 1 |>.tail

/-- Loop of `System.edge_thickness`, rayopt/system.py 311-323; `none` is a non-finite number. -/
noncomputable def edgeThicknessFrom (dz0 : Option ℝ) : List Elem → List (Option ℝ)
  | [] => []
  | e :: es =>
    let dz := match e.shape with
      | none => some 0
      | some sh => sh.edgeSag e.radius
    (dz.bind fun a => dz0.map fun b => e.tf.distance - a + b) :: edgeThicknessFrom dz es

/-- `System.edge_thickness`, rayopt/system.py 311-323. -/
noncomputable def edgeThickness (sys : List Elem) : List (Option ℝ) :=
  edgeThicknessFrom (some 0) sys

end Sys

end RayOpt
