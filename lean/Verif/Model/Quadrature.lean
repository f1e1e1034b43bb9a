import Mathlib.Algebra.Polynomial.Derivative
import Mathlib.Algebra.Polynomial.Div
import Mathlib.Data.Real.Basic
import Verif.Model.Sampling

/-!
`rayopt/utils.py` 201-222: nodes and weights of Gauss-Lobatto and Gauss-Radau quadrature.
-/

namespace RayOpt

namespace Quadrature

open Polynomial

/-- `scipy.special.orthogonal.legendre(n)`, the Legendre polynomials.  scipy computes them from their
roots; here they are defined by Bonnet's recursion (`c105_legendre` characterises them). -/
noncomputable def legendre : ℕ → ℝ[X]
  | 0 => 1
  | 1 => X
  | n + 2 => C (1 / (n + 2 : ℝ)) * (C (2 * n + 3 : ℝ) * X * legendre (n + 1) - C (n + 1 : ℝ) * legendre n)

/-- `gl_roots(n)`, rayopt/utils.py 201-209; `roots` is the `roots` attribute of `np.poly1d`. -/
noncomputable def glRoots (roots : ℝ[X] → List ℝ) (n : ℕ) : List ℝ × List ℝ :=
  let leg := legendre (n - 1)
  let x := [-1] ++ roots (derivative leg) ++ [1]
  (x, x.map fun x => 2 / (n * (n - 1) * leg.eval x ^ 2))

/-- `gr_roots(n)`, rayopt/utils.py 212-222; `l[0]` is the quotient of the division of polynomials. -/
noncomputable def grRoots (roots : ℝ[X] → List ℝ) (n : ℕ) : List ℝ × List ℝ :=
  let leg := legendre (n - 1)
  let l := (leg + legendre n) /ₘ (X + C 1)
  let x := [-1] ++ roots l
  (x, x.map fun x => (1 - x) / (n * leg.eval x) ^ 2)

/-- `pupil_distribution("radau", n)`, rayopt/utils.py 184-188: points in polar coordinates and weights. -/
noncomputable def radau (roots : ℝ[X] → List ℝ) (n : ℕ) : List (ℝ × ℝ × ℝ) :=
  let xw := grRoots roots ⌊Real.sqrt n + 1⌋₊
  Sampling.intervalToCircle xw.1 xw.2

/-- `pupil_distribution("lobatto", n)`, rayopt/utils.py 189-193. -/
noncomputable def lobatto (roots : ℝ[X] → List ℝ) (n : ℕ) : List (ℝ × ℝ × ℝ) :=
  let xw := glRoots roots ⌊Real.sqrt n + 1⌋₊
  Sampling.intervalToCircle xw.1 xw.2

end Quadrature

end RayOpt
