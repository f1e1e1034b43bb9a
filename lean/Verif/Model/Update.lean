import Verif.Model.Seidel
import Verif.Model.Paths
import Verif.Model.Reversed

/-!
`System.update` (rayopt/system.py 201-211) as a whole: what is brought up to date, in which order and from what; and the
loop of `System.solve` (rayopt/system.py 152-191) over several solves.
-/

namespace RayOpt

open Matrix

namespace PTrace

/-- A radius as a number; `none` is infinity. -/
def finiteRadius : Radius → Option ℝ
  | .inf => none
  | .fin r => some r

/-- The entrance pupil of `update_conjugates`, rayopt/paraxial_trace.py 330-334, for any integer as stop number:
`stop=ai + 1` is a slice bound that counts from the end when it is negative.  Distance and magnification `1/a` of the
pupil, each `none` if not finite. -/
noncomputable def entranceAt (sys : List Elem) (axis : Fin 2) (l : ℝ) (ai : ℤ) : Option (Option ℝ × Option ℝ) :=
  (Sys.paraxialMatrix sys l 1 (some (ai + 1))).map fun nm =>
    let m := block nm.2 axis
    (qdiv (m 0 1 * Sys.refractiveIndex sys l 0) (m 0 0), qdiv 1 (m 0 0))

/-- The exit pupil of `update_conjugates`, rayopt/paraxial_trace.py 336-341, for any integer as stop number. -/
noncomputable def exitAt (sys : List Elem) (axis : Fin 2) (l : ℝ) (ai : ℤ) : Option (Option ℝ × Option ℝ) :=
  (Sys.paraxialMatrix sys l (ai + 1) none).bind fun nm =>
    let m := block nm.2 axis
    if m.det = 0 then none else some (qdiv (m⁻¹ 0 1 * nm.1) (m⁻¹ 0 0), qdiv 1 (m⁻¹ 0 0))

/-- `conjugate.update(radius, d, r*k)`, rayopt/conjugates.py 120-123, 191-194, with arguments that may be infinite: what
the flags do not ask for is not stored; an infinite argument that is used is `none`. -/
noncomputable def conjUpdate (o : Conj) (radius : Radius) (d : Option ℝ) (r : Radius) (k : Option ℝ) : Option Conj :=
  (if o.updateRadius then finiteRadius radius else some 0).bind fun q =>
    (if o.pupil.updateDistance ∨ o.updateRadius ∧ ¬o.finite then d else some 0).bind fun d =>
    (if o.pupil.updateRadius then (finiteRadius r).bind fun r => k.map (r * ·) else some 0).bind fun h =>
      o.update q d h

end PTrace

namespace Sys

/-- The state of a `System` that `update` reads or writes: the elements, stop number and conjugates, the wavelengths, the
arrays of `self.paraxial` and the cache of aimed pupils (`K`: its entries). -/
structure Live (K : Type) extends Whole Conj where
  ws : List ℝ
  rows : List PRow
  coeffs : List Seidel
  cache : List K

namespace Live

variable {K : Type}

/-- `self.object.pupil.refractive_index = ...`, `self.image.pupil.refractive_index = ...`, rayopt/system.py 205-208. -/
noncomputable def indices (l : ℝ) (s : Live K) : Live K :=
  { s with
    object := { s.object with pupil := { s.object.pupil with index := refractiveIndex s.elems l 0 } }
    image := { s.image with pupil := { s.image.pupil with index := refractiveIndex s.elems l (-1) } } }

/-- `self.paraxial.update_conjugates()`, rayopt/system.py 209 with rayopt/paraxial_trace.py 326-341. -/
noncomputable def conjugates (axis : Fin 2) (l : ℝ) (s : Live K) : Option (Live K) :=
  s.aperture.bind fun st => s.elems.head?.bind fun e0 => s.elems.getLast?.bind fun e1 =>
  (PTrace.entranceAt s.elems axis l s.stop).bind fun p =>
  (PTrace.conjUpdate s.object e0.radius p.1 st.radius p.2).bind fun o =>
  (PTrace.exitAt s.elems axis l s.stop).bind fun q =>
  (PTrace.conjUpdate s.image e1.radius q.1 st.radius q.2).map fun i => { s with object := o, image := i }

/-- `self.paraxial.update()`, rayopt/system.py 210 with rayopt/paraxial_trace.py 46-50. -/
noncomputable def paraxial (axis : Fin 2) (l : ℝ) (s : Live K) : Option (Live K) :=
  (PTrace.rays s.object (refractiveIndex s.elems l 0)).bind fun r0 =>
    (PTrace.trace s.elems axis l r0).bind fun rows =>
      (PTrace.aberrations s.elems s.ws rows).map fun c => { s with rows := rows, coeffs := c }

/-- `System.update`, rayopt/system.py 201-211.  `pickup` and `solve` are the effects of these methods on the state (they
run user code, see `RayOpt.Paths`), `valid` tells whether `validate` passes.  The result is the state and `valid` of it:
`validate` raises after everything else has been done.  `none`: an exception before that or a non-finite quantity. -/
noncomputable def update (axis : Fin 2) (pickup solve : Live K → Option (Live K)) (valid : Live K → Bool)
    (s : Live K) : Option (Live K × Bool) :=
  (pickup { s with cache := [] }).bind fun s => (solve s).bind fun s => s.ws.head?.bind fun l =>
    ((s.indices l).conjugates axis l).bind fun s => (s.paraxial axis l).map fun s => (s, valid s)

end Live

end Sys

namespace Paths

/-- A solve with its starting point: the keys `init` and `init_current`, rayopt/system.py 175-180, 190-191. -/
structure FullSolve extends Solve where
  init : Option ℝ
  initCurrent : Bool

/-- `init` of rayopt/system.py 175-180 for a solve with a `set` path: the number in the solve or else the present value. -/
def FullSolve.start (p : FullSolve) (s : Node) : Option ℝ :=
  match p.init with
  | some x => some x
  | none => match getPath p.set s with
    | some (.num x) => some x
    | _ => none

/-- scipy's `newton`: for a starting point the choice of the next trial point and of the point returned, each from the
values seen so far. -/
structure Newton where
  next : ℝ → List ℝ → Option ℝ
  ret : ℝ → List ℝ → Option ℝ

/-- One iteration of `System.solve`, rayopt/system.py 174-191: the new state and the solve with its `init`. -/
def FullSolve.run (ps : List Pickup) (nw : Newton) (fuel : ℕ) (p : FullSolve) (s : Node) :
    Option (Node × FullSolve) :=
  (p.start s).bind fun x0 => (p.trials ps (nw.next x0) fuel [] s).bind fun r =>
    (nw.ret x0 r.2).bind fun x => (p.func ps x r.1).map fun r =>
      (r.1, if p.initCurrent then { p with init := some x } else p)

/-- `System.solve`, rayopt/system.py 152-191: one solve after the other. -/
def solveAll (ps : List Pickup) (nw : Newton) (fuel : ℕ) : List FullSolve → Node → Option (Node × List FullSolve)
  | [], s => some (s, [])
  | p :: L, s => (p.run ps nw fuel s).bind fun r =>
      (solveAll ps nw fuel L r.1).map fun t => (t.1, r.2 :: t.2)

end Paths

end RayOpt
