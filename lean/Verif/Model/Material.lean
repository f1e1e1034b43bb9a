import Verif.Model.Elements
import Mathlib.Analysis.SpecialFunctions.Pow.Real

/-!
`rayopt/material.py`: refractive indices of materials.  A non-finite number, a division by zero and
an exception are `none`.  Wavelengths are in metres, the dispersion formulas take micrometres.
-/

namespace RayOpt.Glass

/-- Fraunhofer lines used by default, rayopt/material.py 31-50. -/
noncomputable def lambdaF : ℝ := 486.13e-9
/-- See `lambdaF`. -/
noncomputable def lambdaD : ℝ := 587.56e-9
/-- See `lambdaF`. -/
noncomputable def lambdaC : ℝ := 656.27e-9

/-- A number or `np.inf`. -/
inductive Num where
  | fin (r : ℝ)
  | inf

/-- The attributes of an `AbbeMaterial`, rayopt/material.py 177-184. -/
structure Abbe where
  n : ℝ
  v : Num
  ref : ℝ
  long : ℝ
  short : ℝ

/-- `AbbeMaterial(n, v)` with the default lines, rayopt/material.py 177-178. -/
noncomputable def Abbe.ofNV (n : ℝ) (v : Num) : Abbe := ⟨n, v, lambdaD, lambdaC, lambdaF⟩

/-- `AbbeMaterial.refractive_index`, rayopt/material.py 201-205, computed (not from the cache). -/
noncomputable def Abbe.index (a : Abbe) (l : ℝ) : Option ℝ :=
  if a.long - a.short = 0 then none
  else match a.v with
    | .inf => some a.n
    | .fin v => if v = 0 then none
        else some (a.n + (l - a.ref) / (a.long - a.short) * (1 - a.n) / v)

/-- `Material.dispersion(short, mid, long)`, rayopt/material.py 141-149, for the index function
`index`. -/
noncomputable def dispersion (index : ℝ → Option ℝ) (short mid long : ℝ) : Option Num :=
  (index short).bind fun ns => (index long).bind fun nl =>
    let dn := ns - nl
    if dn ≠ 0 then (index mid).map fun nm => .fin ((nm - 1) / dn) else some .inf

/-- `Material.nd`, rayopt/material.py 151-153. -/
noncomputable def nd (index : ℝ → Option ℝ) : Option ℝ := index lambdaD

/-- `Material.vd`, rayopt/material.py 155-157. -/
noncomputable def vd (index : ℝ → Option ℝ) : Option Num := dispersion index lambdaF lambdaD lambdaC

/-- `Thermal.dn_thermal(t, n, wavelength)`, rayopt/material.py 61-72; `d` and `e` are the
coefficient lists (at least 3 and 2 numbers). -/
noncomputable def dnThermal (d : Fin 3 → ℝ) (e : Fin 2 → ℝ) (tref lref t n : ℝ)
    (wavelength : Option ℝ) : Option ℝ :=
  let dt := t - tref
  let w := match wavelength with
    | none => lref
    | some l => l / 1e-6
  if 2 * n = 0 ∨ w ^ 2 - lref ^ 2 = 0 then none
  else some ((n ^ 2 - 1) / (2 * n) * (d 0 * dt + d 1 * dt ^ 2 + d 2 * dt ^ 3 +
    (e 0 * dt + e 1 * dt ^ 2) / (w ^ 2 - lref ^ 2)))

/-- `TD` of `agf_to_material`, rayopt/zemax.py 253-255: `Thermal(s[:3], s[3:5], *s[5:])` as the
function `dn_thermal`; missing numbers at the end leave the defaults of rayopt/material.py 55.
`none`: too many numbers (`TypeError`) or too few (`IndexError`). -/
noncomputable def agfThermal (s : List ℝ) (t n : ℝ) (wavelength : Option ℝ) : Option ℝ :=
  match s with
  | [d0, d1, d2, e0, e1] => dnThermal ![d0, d1, d2] ![e0, e1] 20 lambdaD t n wavelength
  | [d0, d1, d2, e0, e1, a] => dnThermal ![d0, d1, d2] ![e0, e1] a lambdaD t n wavelength
  | [d0, d1, d2, e0, e1, a, b] => dnThermal ![d0, d1, d2] ![e0, e1] a b t n wavelength
  | _ => none

/-! ### Dispersion formulas of `CoefficientsMaterial` -/

/-- `np.sqrt`. -/
noncomputable def sqrt? (x : ℝ) : Option ℝ := if x < 0 then none else some (Real.sqrt x)

/-- Division; `none` is the infinity or NaN. -/
noncomputable def div? (a b : ℝ) : Option ℝ := if b = 0 then none else some (a / b)

/-- `c.reshape(-1, 2).T`: neighbouring pairs; `none` is the `ValueError` for an odd length. -/
def pairs : List ℝ → Option (List (ℝ × ℝ))
  | [] => some []
  | [_] => none
  | a :: b :: l => (pairs l).map ((a, b) :: ·)

/-- `c.reshape(2, -1)`: first half and second half; `none` is the `ValueError` for an odd length. -/
def halves (c : List ℝ) : Option (List (ℝ × ℝ)) :=
  if c.length % 2 = 0 then some ((c.take (c.length / 2)).zip (c.drop (c.length / 2))) else none

/-- `(f(c0, c1)).sum()` over the pairs. -/
def sumOver (f : ℝ × ℝ → Option ℝ) : List (ℝ × ℝ) → Option ℝ
  | [] => some 0
  | p :: l => (f p).bind fun a => (sumOver f l).map (a + ·)

/-- `for i, ci in enumerate(c): n += ci*w**(-2*(i + 1))`, rayopt/material.py 242-243. -/
noncomputable def laurent (w n : ℝ) (c : List ℝ) : ℝ :=
  c.zipIdx.foldl (fun n ci => n + ci.1 * w ^ (-2 * ((ci.2 : ℤ) + 1))) n

/-- `c[1:1 + (c.shape[0] - 1)//2*2]`, rayopt/material.py 270: the pairs after the first
coefficient, a trailing single number is dropped.  (For an empty `c` the code fails later at
`c[0]`.) -/
def offsetPart (c : List ℝ) : List ℝ := (c.drop 1).take ((c.length - 1) / 2 * 2)

/-- The term `c0*w2/(w2 - c1**2)`, rayopt/material.py 249. -/
noncomputable def termSq (w : ℝ) (p : ℝ × ℝ) : Option ℝ := div? (p.1 * w ^ 2) (w ^ 2 - p.2 ^ 2)

/-- The term `c0*w2/(w2 - c1)`, rayopt/material.py 254. -/
noncomputable def term (w : ℝ) (p : ℝ × ℝ) : Option ℝ := div? (p.1 * w ^ 2) (w ^ 2 - p.2)

/-- The names accepted for `typ`: the methods `n_*`, rayopt/material.py 240-322. -/
inductive Formula where
  | schott | sellmeier | sellmeierSquared | sellmeierSquaredTransposed | conrady | herzberger
  | sellmeierOffset | sellmeierSquaredOffset | handbook1 | handbook2 | extended2 | hikari
  | gas | gasOffset | rii | retro | cauchy | polynomial | exotic
deriving DecidableEq

/-- `n_gas`, rayopt/material.py 296-298. -/
noncomputable def nGas (w : ℝ) (c : List ℝ) : Option ℝ :=
  if w = 0 then none else
  (halves c).bind fun ps => (sumOver (fun p => div? p.1 (p.2 - w ^ (-2 : ℤ))) ps).map (1 + ·)

/-- `n_cauchy`, rayopt/material.py 313-315. -/
noncomputable def nCauchy (w : ℝ) (c : List ℝ) : Option ℝ :=
  match c with
  | [] => none
  | c0 :: cs => (pairs cs).bind fun ps => (sumOver (fun p => some (p.1 * w ^ p.2)) ps).map (c0 + ·)

/-- The methods `n_*(w, c)`, rayopt/material.py 240-322. -/
noncomputable def Formula.eval (f : Formula) (w : ℝ) (c : List ℝ) : Option ℝ :=
  match f with
  | .schott => match c with
    | c0 :: c1 :: cs => sqrt? (laurent w (c0 + c1 * w ^ 2) cs)
    | _ => none
  | .sellmeier => (pairs c).bind fun ps => (sumOver (termSq w) ps).bind fun s => sqrt? (1 + s)
  | .sellmeierSquared => (pairs c).bind fun ps => (sumOver (term w) ps).bind fun s => sqrt? (1 + s)
  | .sellmeierSquaredTransposed =>
    (halves c).bind fun ps => (sumOver (term w) ps).bind fun s => sqrt? (1 + s)
  | .conrady => match c with
    | c0 :: c1 :: c2 :: _ => if w = 0 then none else some (c0 + c1 / w + c2 / w ^ (3.5 : ℝ))
    | _ => none
  | .herzberger => match c with
    | c0 :: c1 :: c2 :: c3 :: c4 :: c5 :: _ =>
      (div? 1 (w ^ 2 - 0.028)).map fun l =>
        c0 + c1 * l + c2 * l ^ 2 + c3 * w ^ 2 + c4 * w ^ 4 + c5 * w ^ 6
    | _ => none
  | .sellmeierOffset => match c with
    | c0 :: _ => (pairs (offsetPart c)).bind fun ps =>
        (sumOver (termSq w) ps).bind fun s => sqrt? (1 + c0 + s)
    | _ => none
  | .sellmeierSquaredOffset => match c with
    | c0 :: _ => (pairs (offsetPart c)).bind fun ps =>
        (sumOver (term w) ps).bind fun s => sqrt? (1 + c0 + s)
    | _ => none
  | .handbook1 => match c with
    | c0 :: c1 :: c2 :: c3 :: _ =>
      (div? c1 (w ^ 2 - c2)).bind fun q => sqrt? (c0 + q - c3 * w ^ 2)
    | _ => none
  | .handbook2 => match c with
    | c0 :: c1 :: c2 :: c3 :: _ =>
      (div? (c1 * w ^ 2) (w ^ 2 - c2)).bind fun q => sqrt? (c0 + q - c3 * w ^ 2)
    | _ => none
  | .extended2 => match c with
    | c0 :: c1 :: c2 :: c3 :: c4 :: c5 :: c6 :: c7 :: _ =>
      sqrt? (laurent w (c0 + c1 * w ^ 2 + c6 * w ^ 4 + c7 * w ^ 6) [c2, c3, c4, c5])
    | _ => none
  | .hikari => match c with
    | c0 :: c1 :: c2 :: cs => sqrt? (laurent w (c0 + c1 * w ^ 2 + c2 * w ^ 4) cs)
    | _ => none
  | .gas => nGas w c
  | .gasOffset => match c with
    | c0 :: cs => (nGas w cs).map (c0 + ·)
    | _ => none
  | .rii => match c with
    | c0 :: c1 :: c2 :: c3 :: c4 :: c5 :: c6 :: c7 :: c8 :: cs =>
      (pairs cs).bind fun ps => (div? (c1 * w ^ c2) (w ^ 2 - c3 ^ c4)).bind fun a =>
        (div? (c5 * w ^ c6) (w ^ 2 - c7 ^ c8)).bind fun b =>
          (sumOver (fun p => some (p.1 * w ^ p.2)) ps).bind fun s => sqrt? (c0 + a + b + s)
    | _ => none
  | .retro => match c with
    | c0 :: c1 :: c2 :: c3 :: _ => (div? (c1 * w ^ 2) (w ^ 2 - c2)).bind fun q =>
        let a := c0 + q + c3 * w ^ 2
        (div? 1 (a - 1)).bind fun r => sqrt? (2 + r)
    | _ => none
  | .cauchy => nCauchy w c
  | .polynomial => (nCauchy w c).bind sqrt?
  | .exotic => match c with
    | c0 :: c1 :: c2 :: c3 :: c4 :: c5 :: _ => (div? c1 (w ^ 2 - c2)).bind fun a =>
        (div? (c3 * (w - c4)) ((w - c4) ^ 2 + c5)).bind fun b => sqrt? (c0 + a + b)
    | _ => none

/-- `CoefficientsMaterial.refractive_index`, rayopt/material.py 229-235, computed (not from the
cache). -/
noncomputable def coefficientsIndex (f : Formula) (mirror : Bool) (c : List ℝ) (l : ℝ) : Option ℝ :=
  (f.eval (l / 1e-6) c).map fun n => if mirror then -n else n

/-- The coefficients of `air`, rayopt/material.py 334-336. -/
noncomputable def airCoefficients : List ℝ := [0.05792105, 0.00167917, 238.0185, 57.362]

/-- `_typ_map`, rayopt/rii.py 82-92: formula number of refractiveindex.info to formula. -/
def riiFormula : ℕ → Option Formula
  | 1 => some .sellmeierOffset
  | 2 => some .sellmeierSquaredOffset
  | 3 => some .polynomial
  | 4 => some .rii
  | 5 => some .cauchy
  | 6 => some .gasOffset
  | 7 => some .herzberger
  | 8 => some .retro
  | 9 => some .exotic
  | _ => none

/-- The list `typs` of `agf_to_material`, rayopt/zemax.py 231-234; `none` stands for the names
without a method (`sellmeier2`, `extended1`, `sellmeier5`), whose evaluation raises
`AttributeError`. -/
def agfTypes : List (Option Formula) :=
  [some .schott, some .sellmeierSquared, some .herzberger, none, some .conrady,
   some .sellmeierSquared, some .handbook1, some .handbook2, some .sellmeierSquaredOffset, none,
   none, some .extended2, some .hikari]

/-- `l[i]` of Python: negative positions count from the end; `none` is the `IndexError`. -/
def pyGet? {α : Type*} (l : List α) (i : ℤ) : Option α :=
  if 0 ≤ i then l[i.toNat]? else if 0 ≤ i + l.length then l[(i + l.length).toNat]? else none

/-- `typs[int(float(args[1])) - 1]`, rayopt/zemax.py 242, for the integer part `a`. -/
def agfFormula (a : ℤ) : Option (Option Formula) := pyGet? agfTypes (a - 1)

/-- The list of `glc_to_material`, rayopt/oslo.py 203-206; `none` is `"unknown"`, also for a
position out of range. -/
def glcFormula (a : ℤ) : Option Formula :=
  (pyGet? [some .schott, some .sellmeierSquaredTransposed, some .conrady, none, none,
    some .hikari] (a - 1)).getD none

end RayOpt.Glass
