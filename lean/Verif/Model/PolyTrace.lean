import Verif.Model.Simplex
import Verif.Model.Elements
import Mathlib.Data.Real.Sign

/-!
The polynomial trace: rayopt/poly_trace.py and the `*_poly` methods of rayopt/elements.py.

Polynomials are coefficient vectors `ℕ → ℝ` of `Verif.Model.Simplex`; `abi` is the product table and
`m` the order of the class.  Sums and multiples by numbers are those of numpy arrays.
-/

namespace RayOpt.Poly

open Simplex

/-- A polynomial as its coefficient vector. -/
abbrev Co := ℕ → ℝ

/-- `PolyState`, rayopt/poly_trace.py 29. -/
structure PolyState where
  f : Co
  n : ℝ
  r : Co
  p : Co
  k : Co
  s : Co
  t : Co
  v : Co
  w : Co
  o : Co

section
variable (abi : ℕ → List (ℕ × ℕ)) (m : ℕ)

/-- `Element.transfer_poly`, rayopt/elements.py 238-243; `dz` is `offset[2]`. -/
noncomputable def transferPoly (dz : ℝ) (st : PolyState) : Co × Co × Co :=
  let fd := shift (-st.f) dz
  let fdp := mul abi fd st.p
  let r := st.r + mul abi fd ((2 : ℝ) • st.k + fdp)
  let k := st.k + fdp
  (fd, r, k)

/-- What `intercept_poly` returns: `r, f, fr, g`. -/
structure Icpt where
  r : Co
  f : Co
  fr : Co
  g : Co

/-- `Element.intercept_poly`, rayopt/elements.py 245-250. -/
noncomputable def planePoly (r : Co) : Icpt := ⟨r, 0, 0, shift 0 1⟩

/-- The curved branch of `Spheroid.intercept_poly`, rayopt/elements.py 594-602, with the signed
curvature `u` of line 591. -/
noncomputable def spherePoly (u : ℝ) (r p k : Co) : Icpt :=
  let p1 := shift p 1
  let a := shift ((-u) • k) 1
  let a := a - pow abi m (mul abi a a - (u ^ 2) • mul abi p1 r) (1 / 2)
  let a := mul abi a (pow abi m p1 (-1))
  let f := (1 / u) • a
  let r := mul abi a (shift (-a) 2)
  let g := shift (-a) 1
  let fr := (1 / 2 * u) • pow abi m g (-1)
  ⟨r, f, fr, g⟩

/-- `for uj in reversed(u): df = df.shift(uj*sign)*r`, rayopt/elements.py 608-610. -/
noncomputable def aspF (sg : ℝ) (u : List ℝ) (r : Co) : Co :=
  u.foldr (fun uj df => mul abi (shift df (uj * sg)) r) 0

/-- `for i in reversed(range(len(u))): dfr = (dfr*r).shift((i + 1)*u[i]*sign)`,
rayopt/elements.py 613-615. -/
noncomputable def aspFr (sg : ℝ) (u : List ℝ) (r : Co) : Co :=
  u.zipIdx.foldr (fun ui dfr => shift (mul abi dfr r) (((ui.2 : ℝ) + 1) * ui.1 * sg)) 0

/-- The fixed-point loop, rayopt/elements.py 607-612: `j` passes; the last `df` and `r`. -/
noncomputable def aspLoop (sg : ℝ) (u : List ℝ) (r0 p k : Co) : ℕ → Co × Co
  | 0 => (0, r0)
  | j + 1 =>
    let r := (aspLoop sg u r0 p k j).2
    let df := aspF abi sg u r
    (df, r0 + mul abi df ((2 : ℝ) • k + mul abi df p))

/-- `Spheroid.intercept_poly`, rayopt/elements.py 589-620.  The conic constant is not used by the
code. -/
noncomputable def interceptPoly (sh : Shape) (dz : ℝ) (r p k : Co) : Icpt :=
  let u := sh.curvature * Real.sign dz
  let b := if u = 0 then planePoly r else spherePoly abi m u r p k
  match sh.aspherics with
  | none => b
  | some [] => b
  | some (a0 :: as) =>
    let c := a0 :: as
    let dr := aspLoop abi (Real.sign dz) c b.r p k c.length
    let dfr := aspFr abi (Real.sign dz) c dr.2
    ⟨dr.2, b.f + dr.1, b.fr + dfr,
      pow abi m (shift (mul abi (mul abi ((4 : ℝ) • dr.2) dfr) dfr) 1) (-1 / 2)⟩

/-- `Interface.propagate_poly`, rayopt/elements.py 383-408, after the intercept `ic` and for the
index `n` and ratio `mu` of `get_n_mu`. -/
noncomputable def refractPoly (ic : Icpt) (fd kt : Co) (n mu : ℝ) (st : PolyState) : PolyState :=
  let p1 := shift st.p 1
  let mun := mu • pow abi m p1 (-1 / 2)
  let ct := mul abi (mul abi ic.g mun)
    (shift (mul abi ((-2 : ℝ) • (kt + mul abi ic.f st.p)) ic.fr) 1)
  let gdct := mul abi ic.g (pow abi m (shift (mul abi ct ct) (1 - mu ^ 2)) (1 / 2) - ct)
  let n1i := pow abi m (mun + gdct) (-1)
  let a := ic.f + fd
  let b := mul abi (mul abi ((-2 : ℝ) • n1i) gdct) ic.fr
  let c := mul abi mun n1i
  let ap := mul abi a st.p
  let r := st.r + mul abi a ((2 : ℝ) • st.k + ap)
  let p := shift (mul abi n1i n1i) (-1)
  let k := mul abi b r + mul abi c (st.k + ap)
  let s := st.s + mul abi a st.v
  let t := st.t + mul abi a st.w
  let v := mul abi b s + mul abi c st.v
  let w := mul abi b t + mul abi c st.w
  let o := st.o + mul abi (st.n • a) (pow abi m p1 (1 / 2))
  ⟨ic.f, n, r, p, k, s, t, v, w, o⟩

/-- `Interface.propagate_poly`, rayopt/elements.py 383-408, of a `Spheroid`. -/
noncomputable def surfPoly (sh : Shape) (mat : Option Material) (dz l : ℝ) (st : PolyState) :
    PolyState :=
  let tr := transferPoly abi dz st
  let ic := interceptPoly abi m sh dz tr.2.1 st.p tr.2.2
  let nm := Elem.getNMu mat st.n l
  refractPoly abi m ic tr.1 tr.2.2 nm.1 nm.2 st

/-- `propagate_poly` of an element; a bare `Element` raises `NotImplementedError`
(rayopt/elements.py 252-253). -/
noncomputable def stepPoly (l : ℝ) (st : PolyState) (e : Elem) : Option PolyState :=
  e.shape.map fun sh => surfPoly abi m sh (e.material.getD none) e.tf.offset.z l st

/-- `System.propagate_poly`, rayopt/system.py 454-457, over the elements `es = self[start:stop]`: the
last state. -/
noncomputable def tracePoly (l : ℝ) (st : PolyState) (es : List Elem) : Option PolyState :=
  es.foldlM (stepPoly abi m l) st

end

/-- `PolyTrace.rays`, rayopt/poly_trace.py 72-83. -/
noncomputable def startState (n0 pos : ℝ) : PolyState :=
  { f := shift 0 pos, n := n0
    r := Function.update 0 1 1, p := Function.update 0 2 1, k := Function.update 0 3 1
    s := shift 0 1, t := 0, v := 0, w := shift 0 1, o := 0 }

/-- `PolyTrace.telecentric`, rayopt/poly_trace.py 64-70, of a finite object. -/
def telecentric (flag : Bool) (pupilSlope objSlope : ℝ) : Prop :=
  flag = true ∨ |objSlope| < |pupilSlope|

/-- The substitution matrix of `PolyTrace.transform`, rayopt/poly_trace.py 106. -/
def substMat (r a c : ℝ) (i j : ℕ) : ℝ :=
  match i, j with
  | 0, 0 => r ^ 2
  | 1, 0 => a ^ 2
  | 1, 1 => c ^ 2
  | 1, 2 => 2 * a * c
  | 2, 0 => r * a
  | 2, 2 => r * c
  | _, _ => 0

/-- The values `r, a, c` of `PolyTrace.transform`, rayopt/poly_trace.py 99-105. -/
noncomputable def conjugateParams (pupilRadius pupilSlope objSlope objRadius : ℝ) : ℝ × ℝ × ℝ × Bool :=
  open Classical in
  if |objSlope| < |pupilSlope| then (-objRadius, objSlope, pupilSlope, true)
  else (pupilRadius, pupilSlope, objSlope, false)

/-- `PolyTrace.transform`, rayopt/poly_trace.py 97-113, for the polynomials `s`, `t` of one surface. -/
noncomputable def transformST (fuel : ℕ) (tb : Tables) (par : ℝ × ℝ × ℝ × Bool) (s t : Co) :
    Option (Co × Co) :=
  let r := par.1
  let a := par.2.1
  let c := par.2.2.1
  (transform fuel tb 3 (substMat r a c) (r • s + a • t)).bind fun b0 =>
    (transform fuel tb 3 (substMat r a c) (c • t)).map fun b1 =>
      if par.2.2.2 then
        let ii : ℕ → ℕ := fun l => match tb.jdx.getD l [] with
          | [i, j, k] => tb.idx [j, i, k]
          | _ => 0
        (fun l => b1 (ii l), fun l => b0 (ii l))
      else (b0, b1)

/-- `PolyTrace.evaluate`, rayopt/poly_trace.py 125-138, for one point, given the polynomials `s`, `t`
of `PolyTrace.st`: the two transverse coordinates. -/
noncomputable def evaluateST (jdx : List (List ℕ)) (s t : Co) (xy ab : ℝ × ℝ) : Option (ℝ × ℝ) :=
  let r := xy.1 ^ 2 + xy.2 ^ 2
  let p := ab.1 ^ 2 + ab.2 ^ 2
  let k := xy.1 * ab.1 + xy.2 * ab.2
  (Simplex.eval jdx s [r, p, k]).bind fun sv => (Simplex.eval jdx t [r, p, k]).map fun tv =>
    (sv * xy.1 + tv * ab.1, sv * xy.2 + tv * ab.2)

/-- `PolyTrace.evaluate`, rayopt/poly_trace.py 125-138, for an object at infinity: lines 129-131 scale
the coordinates, `st` returns the stored polynomials (line 122). -/
noncomputable def evaluateInf (jdx : List (List ℕ)) (s t : Co) (pupilRadius angle : ℝ)
    (xy ab : ℝ × ℝ) : Option (ℝ × ℝ) :=
  evaluateST jdx s t (xy.1 * pupilRadius, xy.2 * pupilRadius) (ab.1 * angle, ab.2 * angle)

/-- The plane where the polynomials start, `pos` in `PolyTrace.rays`, rayopt/poly_trace.py 74-77, for
a finite object. -/
noncomputable def startPlane (flag : Bool) (pupilSlope objSlope pupilDistance : ℝ) : ℝ :=
  open Classical in
  if telecentric flag pupilSlope objSlope then 0 else pupilDistance

end RayOpt.Poly
