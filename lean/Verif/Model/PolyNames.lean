import Verif.Model.PolyTrace

/-!
The named aberration coefficients of the polynomial trace: `PolyTrace.seidel` and
`PolyTrace.buchdahl`, rayopt/poly_trace.py 140-156.
-/

namespace RayOpt.Poly

open Simplex

/-- `PolyTrace.seidel(s, t)`, rayopt/poly_trace.py 150-156, for polynomials with `q` coefficients.
`none` is the `IndexError` if there are too few. -/
noncomputable def seidel (q : ℕ) (s t : Co) : Option (List (String × ℝ)) :=
  if q ≤ 9 then none
  else some [("s1", s 1), ("s2", -t 1), ("s3", t 3 / 2), ("s4", s 2 - t 3 / 2), ("s5", -t 2),
    ("m1", s 4), ("m2", -t 4 - s 6 / 2), ("m3", -s 6 / 2), ("m4", t 6 + s 5), ("m5", s 5), ("m6", s 9),
    ("m7", -t 5 - t 9 / 2 - s 8 / 2), ("m8", -t 9 / 2 - s 8 / 2), ("m9", s 8 / 2), ("m10", s 7 + t 8),
    ("m11", s 7), ("m12", -t 7)]

/-- The names of `PolyTrace.buchdahl`, rayopt/poly_trace.py 141. -/
def buchdahlStart : List String := ["Ap", "Cp", "Bp", "S1p", "S3p", "S2p", "S6p", "S5p", "S4p"]

/-- `n.extend("_" + _ for _ in n)`, rayopt/poly_trace.py 142: the generator reads the list at the
position `i` while `extend` appends to it; it ends when `i` is past the end. `none`: not ended within
`fuel` items. -/
def extendSelf : ℕ → ℕ → List String → Option (List String)
  | 0, i, n => if i < n.length then none else some n
  | fuel + 1, i, n => match n[i]? with
    | none => some n
    | some x => extendSelf fuel (i + 1) (n ++ ["_" ++ x])

end RayOpt.Poly
