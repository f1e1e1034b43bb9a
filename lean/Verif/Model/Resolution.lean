import Verif.Model.ParaxialTrace

/-!
`rayopt/paraxial_trace.py` 109-112, 166-193, 201-205, 343-356: the resolution figures of the paraxial
trace and `update_stop`.

Divisions by zero (numpy gives inf or NaN) are `none`; a value is a pair (object side, image side).
-/

namespace RayOpt

open Matrix Util

namespace PTrace

/-- `track_length`, rayopt/paraxial_trace.py 109-112: `self.track[-2] - self.track[1]`.  `none` is
the `IndexError`. -/
noncomputable def trackLength (sys : List Elem) : Option ℝ :=
  let t := Sys.track sys
  if 2 ≤ t.length then
    t[t.length - 2]?.bind fun b => t[1]?.map fun a => b - a
  else none

/-- `numerical_aperture`, rayopt/paraxial_trace.py 166-174; `objFinite` and `imgFinite` are
`self.system.object.finite` and `self.system.image.finite`; `self.magnification[0]` is line 196. -/
noncomputable def numericalAperture (rows : List PRow) (objFinite imgFinite : Bool) :
    Option (ℝ × ℝ) :=
  (ends rows).bind fun (r0, _, rk) =>
    (qdiv (r0.u 0) r0.n).bind fun s0 => (qdiv (rk.u 0) rk.n).bind fun s1 =>
      let na0 := r0.n * sinarctan s0
      let na1 := rk.n * sinarctan s1
      if objFinite && imgFinite then
        (qdiv (r0.u 0) (rk.u 0)).bind fun mt => (qdiv na0 mt).map fun na1 => (|na0|, |na1|)
      else some (|na0|, |na1|)

/-- `f_number`, rayopt/paraxial_trace.py 176-178. -/
noncomputable def fNumber (rows : List PRow) : Option (ℝ × ℝ) :=
  (focalLength rows).bind fun f => (pupilHeight rows).bind fun h =>
    (qdiv f.1 (2 * h.1)).bind fun a => (qdiv f.2 (2 * h.2)).map fun b => (|a|, |b|)

/-- `working_f_number`, rayopt/paraxial_trace.py 180-183, one side (`none` on the other side does not
matter): index and numerical aperture of that side. -/
noncomputable def workingFNumber (n na : ℝ) : Option ℝ := qdiv n (2 * na)

/-- `airy_radius`, rayopt/paraxial_trace.py 185-188, one side. -/
noncomputable def airyRadius (l scale na : ℝ) : Option ℝ :=
  (qdiv (1.22 * l) (2 * na)).bind fun a => qdiv a scale

/-- `rayleigh_range`, rayopt/paraxial_trace.py 190-193, one side. -/
noncomputable def rayleigh (l scale na : ℝ) : Option ℝ :=
  (airyRadius l scale na).bind fun r => (qdiv (Real.pi * r ^ 2) l).map fun z => z * scale

/-- `number_of_points`, rayopt/paraxial_trace.py 201-205. -/
noncomputable def numberOfPoints (r0 : PRow) (l : ℝ) : Option ℝ :=
  qdiv (4 * lagrange r0 ^ 2) (l ^ 2)

/-- The `end` argument of `update_stop`. -/
inductive End where
  | object
  | image

end PTrace

/-- `aim(yo, yp)` of a conjugate with the stored pupil distance and radius, rayopt/conjugates.py
137-168, 236-255; `pr` is the projection of an infinite conjugate. -/
noncomputable def Conj.aim (o : Conj) (pr : Projection) (yo yp : ℝ × ℝ) : Option (V3 × V3) :=
  o.pupil.radius.bind fun a =>
    if o.finite then
      Finite.aim o.size o.pupil.telecentric yo (some yp) o.pupil.distance (aperture a) none true
    else Infinite.aim pr o.size yo (some yp) o.pupil.distance (aperture a) none true

namespace PTrace

/-- The last three lines of `update_stop`, rayopt/paraxial_trace.py 354-356:
`u = tanarcsin(u)` (three columns: the slopes) and the height of the ray after the matrix `m`. -/
noncomputable def stopHeight (m : M2) (y u : V3) : Option ℝ :=
  (tanarcsinRow [u.x, u.y, u.z] none).bind fun s =>
    s.1[1]?.map fun uy => (m *ᵥ ![y.y, uy]) 0

/-- `update_stop(end)`, rayopt/paraxial_trace.py 343-356: the new radius of the stop `ai`; `o` is the
conjugate of that end.  `none`: a non-finite number, a filtered ray or the `LinAlgError` of the
inverse. -/
noncomputable def updateStop (sys : List Elem) (axis : Fin 2) (l : ℝ) (ai : ℕ) (e : End) (o : Conj)
    (pr : Projection) : Option ℝ :=
  match e with
  | .image =>
    (Sys.paraxialMatrix sys l ((ai + 1 : ℕ) : ℤ) none).bind fun nm =>
      let m := block nm.2 axis
      if m.det = 0 then none else
      (o.aim pr (0, 0) (0, -1)).bind fun yu => stopHeight m⁻¹ yu.1 yu.2
  | .object =>
    (Sys.paraxialMatrix sys l 1 (some ((ai + 1 : ℕ) : ℤ))).bind fun nm =>
      (o.aim pr (0, 0) (0, 1)).bind fun yu => stopHeight (block nm.2 axis) yu.1 yu.2

end PTrace

end RayOpt
