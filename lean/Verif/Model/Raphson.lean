import Verif.Model.Elements

/-!
The Newton iteration that `Interface.intercept` (rayopt/elements.py 333-349) runs for surfaces with aspheric terms.
-/

namespace RayOpt.Shape

/-- scipy's `newton(func, x0, fprime, tol=tol, maxiter=n)` (called at rayopt/elements.py 345-346): return the point if the
function is zero there, fail if its derivative is zero, return the next point if it is within `tol`; fail after `n` steps.
NaN values (`none`) end in failure too, since NaN is not close to anything. -/
noncomputable def raphson (tol : ℝ) : ℕ → NewtonFn
  | 0, _, _, _ => none
  | n + 1, f, f', p0 => (f p0).bind fun v =>
      if v = 0 then some p0
      else (f' p0).bind fun d =>
        if d = 0 then none
        else
          let p := p0 - v / d
          if |p - p0| ≤ tol then some p else raphson tol n f f' p

/-- `tol=1e-7, maxiter=5`, rayopt/elements.py 346. -/
noncomputable def scipyNewton : NewtonFn := raphson (1 / 10 ^ 7) 5

end RayOpt.Shape
