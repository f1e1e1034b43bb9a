import Verif.Model.Material
import Verif.Model.PolyNames

/-!
The arrays that a polynomial trace fills and what it prints: `PolyTrace.propagate` (rayopt/poly_trace.py
86-96), `print_names` (162-184) and `print_trace` (190-208).

A line is the list of its values; rounding them to the printed digits and the padding are left out.
-/

namespace RayOpt.Poly

open Simplex

/-- What is kept of a state: one row of `stvwof`, and the entry of `n`. -/
structure PolyRow where
  s : Co
  t : Co
  v : Co
  w : Co
  o : Co
  f : Co
  n : ℝ

/-- `self.stvwof[j] = (state.s, ..)`, rayopt/poly_trace.py 89-90 and 94-95, with the index `n`. -/
def PolyRow.of (st : PolyState) (n : ℝ) : PolyRow := ⟨st.s, st.t, st.v, st.w, st.o, st.f, n⟩

section
variable (abi : ℕ → List (ℕ × ℕ)) (m : ℕ)

/-- `System.propagate_poly`, rayopt/system.py 454-457: all the states it yields. -/
noncomputable def polyStates (l : ℝ) : PolyState → List Elem → Option (List PolyState)
  | _, [] => some []
  | st, e :: es => do
    let s ← stepPoly abi m l st e
    let r ← polyStates l s es
    some (s :: r)

/-- The loop of `PolyTrace.propagate`, rayopt/poly_trace.py 91-96. -/
def fillRows (rows : List PolyRow) : ℕ → List PolyState → List PolyRow
  | _, [] => rows
  | j, s :: r => fillRows (rows.set j (.of s s.n)) (j + 1) r

/-- `PolyTrace.propagate(start, stop)`, rayopt/poly_trace.py 86-96, for `start` of at least one; `stop = none` is
`None`.  `st0` is `self._state`, which `rays` sets, and `rows` are the arrays before.  The row before `start` is set
from `st0`, its index is left. -/
noncomputable def propagateRows (l : ℝ) (sys : List Elem) (st0 : PolyState) (rows : List PolyRow) (start : ℕ)
    (stop : Option ℕ) : Option (List PolyRow) := do
  let states ← polyStates abi m l st0 ((sys.take (stop.getD sys.length)).drop start)
  let rows := rows.modify (start - 1) fun r => .of st0 r.n
  some (fillRows rows start states)

end

/-- `PolyTrace.names`, rayopt/poly_trace.py 162-175. -/
def termNames : List (String × String) :=
  [("spherical aberration", "sagittal coma"),
   ("field curvature", "distortion"),
   ("meridional coma", "field curvature"),
   ("spherical aberration", "circular coma"),
   ("sagittal oblique spherical aberration", "meridional elliptical coma"),
   ("circular coma", "oblique spherical aberration"),
   ("field curvature", "distortion"),
   ("sagittal elliptical coma", "meridional field curvature"),
   ("sagittal oblique spherical aberration", "meridional elliptical coma")]

/-- A line of `print_names`: the letter, the position, the exponents, the name and the coefficient. -/
structure NameLine where
  letter : Char
  pos : ℕ
  expo : List ℕ
  name : String
  value : ℝ

/-- The loop of `print_names`, rayopt/poly_trace.py 179-184, from position `i` of the coefficients on. -/
def nameLines (idx : List ℕ → ℕ) (s t : Co) : ℕ → List (String × String) → List (List ℕ) → List NameLine
  | i, (ns, nt) :: names, e :: js =>
    ⟨'s', idx e, e, ns, s i⟩ :: ⟨'t', idx e, e, nt, t i⟩ :: nameLines idx s t (i + 1) names js
  | _, _, _ => []

/-- `PolyTrace.print_names`, rayopt/poly_trace.py 177-184, of the polynomials `s, t` that `st` returns. -/
def printNames (tb : Tables) (s t : Co) : List NameLine :=
  nameLines tb.idx s t 1 termNames (tb.jdx.drop 1)

/-- What `print_trace` raises. -/
inductive PolyErr
  /-- `ValueError` of `index` -/
  | value
  /-- `IndexError` -/
  | index
deriving DecidableEq

/-- `"stvwof".index(n)` and the part of the array, rayopt/poly_trace.py 193. -/
def PolyRow.part : Char → Option (PolyRow → Co)
  | 's' => some PolyRow.s
  | 't' => some PolyRow.t
  | 'v' => some PolyRow.v
  | 'w' => some PolyRow.w
  | 'o' => some PolyRow.o
  | 'f' => some PolyRow.f
  | _ => none

/-- A line of `print_trace`. -/
inductive PolyLine
  | title (c : Char)
  | columns (elements : List ℕ)
  | term (pos : ℕ) (expo : List ℕ) (vals : List ℝ)
  | blank

/-- One of the components in `print_trace`, rayopt/poly_trace.py 193-208; `cutoff = none` is `None`.  The
positions run along with the exponents before those above the cutoff are left out. -/
def printPart (tb : Tables) (rows : List PolyRow) (elements : List ℕ) (cutoff : Option ℕ) (c : Char) :
    Except PolyErr (List PolyLine) :=
  match PolyRow.part c with
  | none => .error .value
  | some part =>
    if elements.all (· < rows.length) then
      let sel := rows.map part
      let keep := tb.jdx.zipIdx.filter fun ej => match cutoff with
        | none => true
        | some k => ej.1.sum < k
      .ok (.title c.toUpper :: .columns elements ::
        keep.map (fun ej => .term (tb.idx ej.1) ej.1 (elements.map fun x => (sel.getD x 0) ej.2)) ++ [.blank])
    else .error .index

/-- `PolyTrace.print_trace(components, elements, cutoff)`, rayopt/poly_trace.py 190-208.  All lines; the
generator has yielded those before an exception.  The argument `width` is not used. -/
def printPolyTrace (tb : Tables) (rows : List PolyRow) (components : List Char) (elements : Option (List ℕ))
    (cutoff : Option ℕ) : Except PolyErr (List PolyLine) := do
  let elements := elements.getD ((List.range (rows.length - 1)).map (· + 1))
  let parts ← components.mapM (printPart tb rows elements cutoff)
  pure parts.flatten

/-- What a `PolyTrace` keeps: its arrays and, for finite objects, `bst`. -/
structure PolyObj where
  rows : List PolyRow
  bst : Option (Co × Co)

section
variable (fuel : ℕ) (tb : Tables)

/-- `PolyTrace.transform(i)`, rayopt/poly_trace.py 98-114; `par` are the parameters of the conjugate. -/
noncomputable def PolyObj.transform (par : ℝ × ℝ × ℝ × Bool) (rows : List PolyRow) (i : ℤ) : Option (Co × Co) :=
  (Glass.pyGet? rows i).bind fun r => transformST fuel tb par r.s r.t

/-- `PolyTrace.__init__`, rayopt/poly_trace.py 47-55, once the arrays are filled; `par = none` is an object at
infinity. -/
noncomputable def PolyObj.init (par : Option (ℝ × ℝ × ℝ × Bool)) (rows : List PolyRow) : Option PolyObj :=
  match par with
  | none => some ⟨rows, none⟩
  | some p => (PolyObj.transform fuel tb p rows (-1)).map fun b => ⟨rows, some b⟩

/-- `PolyTrace.propagate` of an object: only the arrays change, rayopt/poly_trace.py 86-96. -/
def PolyObj.refill (o : PolyObj) (rows : List PolyRow) : PolyObj := { o with rows := rows }

/-- `PolyTrace.st(i)`, rayopt/poly_trace.py 116-123. -/
noncomputable def PolyObj.st (par : Option (ℝ × ℝ × ℝ × Bool)) (o : PolyObj) (i : ℤ) : Option (Co × Co) :=
  match par with
  | none => (Glass.pyGet? o.rows i).map fun r => (r.s, r.t)
  | some p => if i = -1 then o.bst else PolyObj.transform fuel tb p o.rows i

end

end RayOpt.Poly
