import Verif.Model.Trace
import Verif.Model.ParaxialTrace
import Verif.Model.Sampling

/-!
The methods of `GeometricTrace` that start rays: `rays_given`, `rays_paraxial`, `rays`, `rays_point`,
`rays_clipping` and `rays_line`, rayopt/geometric_trace.py 37-78, 185-229.

One list of rows per ray: `arr[k][j]` stands for `self.y[j, k]`, `self.u[j, k]`, `self.n[j]`,
`self.i[j, k]`, `self.t[j, k]`.  The pupil `z, p` of `System.pupil` is an argument (Model/Cache.lean
and Model/Solve.lean).
-/

namespace RayOpt.Entry

open RayOpt.Elem (Row)

/-- The object as far as `System.aim` uses it, with the sag or intercept of `self[0]`,
rayopt/system.py 504-505. -/
inductive Object where
  | finite (radius : ℝ) (telecentric : Bool) (surface : Option Shape)
  | infinite (projection : Projection) (angle : ℝ) (surface : Option (V3 → V3 → Option ℝ))

namespace Object

/-- `self.aim(yo, yp, z, a, filter=False)` for one ray, rayopt/system.py 504-505. -/
noncomputable def aim (o : Object) (yo : ℝ × ℝ) (yp : Option (ℝ × ℝ)) (z : ℝ)
    (a : (ℝ × ℝ) × (ℝ × ℝ)) : Option (V3 × V3) :=
  match o with
  | .finite r tel sf => Finite.aim r tel yo yp z a sf false
  | .infinite pr ang sf => Infinite.aim pr ang yo yp z a sf false

/-- Whether `filter=True` keeps the ray: the rows `y[r <= 1]` of `Pupil.map`, rayopt/pupils.py
102-106, called from rayopt/conjugates.py 147, 248. -/
noncomputable def keeps (o : Object) (z : ℝ) (a : (ℝ × ℝ) × (ℝ × ℝ)) (yp : ℝ × ℝ) : Bool :=
  match o with
  | .finite _ _ _ => (Finite.pupilPoint yp a z true).isSome
  | .infinite _ _ _ => (Pupil.map yp a.1 a.2 true).isSome

/-- `y, u = self.system.aim(yo, yp, z, p, filter=filter)` for the pupil points `yps`,
rayopt/geometric_trace.py 200, 227.  `none` is a ray of NaN. -/
noncomputable def aimAll (o : Object) (yo : ℝ × ℝ) (yps : List (ℝ × ℝ)) (z : ℝ)
    (a : (ℝ × ℝ) × (ℝ × ℝ)) (filter : Bool) : List (Option (V3 × V3)) :=
  (if filter then yps.filter (o.keeps z a) else yps).map fun yp => o.aim yo (some yp) z a

end Object

/-- A `GeometricTrace` that holds rays: the arrays, `self.w`, `self.ref` and `self.l`. -/
structure State where
  arr : List (List Row)
  w : List ℝ
  ref : ℕ
  l : ℝ

/-- The arrays after the check in `rays_given`, rayopt/geometric_trace.py 49-54, for `n` rays: those
of the trace if it has `n` rays, otherwise new ones of `np.empty`, whose rows `junk` per ray have the
length of the system (rayopt/raytrace.py 29-30, rayopt/geometric_trace.py 37-47). -/
def arrays (old : Option State) (junk : List Row) (n : ℕ) : List (List Row) :=
  match old with
  | none => List.replicate n junk
  | some s => if s.arr.length = n then s.arr else List.replicate n junk

/-- Row 0 that `rays_given` writes, rayopt/geometric_trace.py 59-66. -/
def startRow (n0 : ℝ) (r : Option (V3 × V3)) : Row :=
  ⟨r.map Prod.fst, r.map Prod.snd, n0, r.map Prod.snd, some 0⟩

/-- The ray that `rays_given` makes of two columns, rayopt/geometric_trace.py 59-64. -/
noncomputable def given2 (y u : ℝ × ℝ) : Option (V3 × V3) :=
  if 1 - (u.1 ^ 2 + u.2 ^ 2) < 0 then none
  else some (⟨y.1, y.2, 0⟩, ⟨u.1, u.2, Real.sqrt (1 - (u.1 ^ 2 + u.2 ^ 2))⟩)

/-- `rays_given(y, u, l, w, ref)`, rayopt/geometric_trace.py 49-66, for three columns; `n0` is the
index at the object. -/
noncomputable def raysGiven (old : Option State) (junk : List Row) (n0 : ℝ)
    (rays : List (Option (V3 × V3))) (l : ℝ) (w : Option (List ℝ)) (ref : ℕ) : State :=
  { arr := List.zipWith (fun a r => a.set 0 (startRow n0 r)) (arrays old junk rays.length) rays
    w := w.getD (List.replicate rays.length (1 / (rays.length : ℝ)))
    ref := ref
    l := l }

/-- `self.propagate(clip=clip)`, rayopt/geometric_trace.py 68-78.  `none`: an `IndexError`, because
the system is empty or the arrays have fewer rows than the system has elements. -/
noncomputable def propagate (nwt : Shape.NewtonFn) (sys : List Elem) (clip : Bool) (s : State) :
    Option State :=
  (s.arr.mapM fun a => if sys.length ≤ a.length then Sys.gtPropagate nwt sys s.l clip 1 none a
    else none).map fun arr => { s with arr := arr }

/-- The start rays of `rays_paraxial(paraxial)`, rayopt/geometric_trace.py 185-193; `r` is the first
row of the paraxial trace. -/
noncomputable def paraxialStarts (axis : Fin 2) (r : PRow) : List (Option (V3 × V3)) :=
  let on := fun v : ℝ => if axis = 0 then (v, 0) else ((0, v) : ℝ × ℝ)
  [0, 1].map fun k : Fin 2 => given2 (on (r.y k)) (on (Util.sinarctan (r.u k)))

/-- The weights of `pupil_distribution(distribution, nrays)`, rayopt/utils.py 183-199: only the
quadratures have some. -/
noncomputable def weights (d : Sampling.Distribution) (n : ℕ) : Option (List ℝ) :=
  if n = 1 then none
  else match d with
  | .quadrature x w => some ((Sampling.intervalToCircle x w).map fun t => t.2.2)
  | _ => none

/-- `rays(yo, yp, wavelength, stop, filter, clip, weight, ref)`, rayopt/geometric_trace.py 195-202,
with the pupil `z, p`. -/
noncomputable def rays (nwt : Shape.NewtonFn) (sys : List Elem) (o : Object) (n0 : ℝ)
    (old : Option State) (junk : List Row) (yo : ℝ × ℝ) (yps : List (ℝ × ℝ)) (l z : ℝ)
    (p : (ℝ × ℝ) × (ℝ × ℝ)) (filter : Option Bool) (clip : Bool) (w : Option (List ℝ)) (ref : ℕ) :
    Option State :=
  propagate nwt sys clip
    (raysGiven old junk n0 (o.aimAll yo yps z p (filter.getD (!clip))) l w ref)

/-- `rays_point(yo, wavelength, nrays, distribution, filter, stop, clip)`,
rayopt/geometric_trace.py 204-209. -/
noncomputable def raysPoint (nwt : Shape.NewtonFn) (sys : List Elem) (o : Object) (n0 : ℝ)
    (old : Option State) (junk : List Row) (yo : ℝ × ℝ) (l z : ℝ) (p : (ℝ × ℝ) × (ℝ × ℝ))
    (n : ℕ) (d : Sampling.Distribution) (filter : Option Bool) (clip : Bool) : Option State :=
  rays nwt sys o n0 old junk yo (Sampling.pupilDistribution d n).2 l z p filter clip (weights d n)
    (Sampling.pupilDistribution d n).1

/-- `np.fabs(p).max()`, rayopt/geometric_trace.py 214, 226. -/
noncomputable def absMax (p : (ℝ × ℝ) × (ℝ × ℝ)) : ℝ :=
  max (max |p.1.1| |p.1.2|) (max |p.2.1| |p.2.2|)

/-- The pupil points of `rays_clipping(yo, wavelength, axis)`, rayopt/geometric_trace.py 211-214. -/
noncomputable def clippingPoints (axis : Fin 2) (p : (ℝ × ℝ) × (ℝ × ℝ)) : List (ℝ × ℝ) :=
  let on := fun v : ℝ × ℝ => if axis = 0 then (v.1 / absMax p, 0) else ((0, v.2 / absMax p) : ℝ × ℝ)
  [(0, 0), on p.1, on p.2]

/-- `rays_clipping(yo, wavelength, axis)`, rayopt/geometric_trace.py 211-215; `z, p` is the pupil for
`stop=-1`. -/
noncomputable def raysClipping (nwt : Shape.NewtonFn) (sys : List Elem) (o : Object) (n0 : ℝ)
    (old : Option State) (junk : List Row) (yo : ℝ × ℝ) (l z : ℝ) (p : (ℝ × ℝ) × (ℝ × ℝ))
    (axis : Fin 2) : Option State :=
  rays nwt sys o n0 old junk yo (clippingPoints axis p) l z p (some false) false none 0

/-- Chief, meridional and sagittal pupil point of `rays_line`, rayopt/geometric_trace.py 221-222. -/
def linePoints (eps : ℝ) : List (ℝ × ℝ) := [(0, 0), (0, eps), (eps, 0)]

/-- `y[:, i], u[:, i] = self.system.aim(yi[i], e, z, p)`, rayopt/geometric_trace.py 227: three rays;
one is broadcast, any other number raises `ValueError`. -/
def three (l : List (Option (V3 × V3))) : Option (Fin 3 → Option (V3 × V3)) :=
  match l with
  | [a, b, c] => some ![a, b, c]
  | [a] => some fun _ => a
  | _ => none

/-- The loop of `rays_line`, rayopt/geometric_trace.py 224-227, over the fields; `chief yo z` is
`self.system.aim_chief(yo, z, np.fabs(p).max(), l=wavelength)`. -/
noncomputable def lineLoop (o : Object) (chief : ℝ × ℝ → ℝ → Option ℝ) (eps : ℝ)
    (p : (ℝ × ℝ) × (ℝ × ℝ)) : List (ℝ × ℝ) → ℝ → Option (List (Fin 3 → Option (V3 × V3)))
  | [], _ => some []
  | yi :: ys, z => (chief yi z).bind fun z =>
      (three (o.aimAll yi (linePoints eps) z p true)).bind fun t =>
        (lineLoop o chief eps p ys z).map (t :: ·)

/-- The fields of `rays_line`, rayopt/geometric_trace.py 218. -/
noncomputable def lineFields (yo : ℝ × ℝ) (n : ℕ) : List (ℝ × ℝ) :=
  (Sampling.linspace 0 1 n).map fun a => (a * yo.1, a * yo.2)

/-- The start rays of `rays_line(yo, wavelength, nrays, eps)`, rayopt/geometric_trace.py 217-228: the
array `y.reshape(-1, 3)`. -/
noncomputable def lineStarts (o : Object) (chief : ℝ × ℝ → ℝ → Option ℝ) (yo : ℝ × ℝ) (n : ℕ)
    (eps z : ℝ) (p : (ℝ × ℝ) × (ℝ × ℝ)) : Option (List (Option (V3 × V3))) :=
  (lineLoop o chief eps p (lineFields yo n) z).map fun ts =>
    ts.map (· 0) ++ ts.map (· 1) ++ ts.map (· 2)

end RayOpt.Entry
