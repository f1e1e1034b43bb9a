import Verif.Model.System
import Mathlib.LinearAlgebra.Matrix.NonsingularInverse
import Mathlib.LinearAlgebra.Matrix.Notation
import Mathlib.LinearAlgebra.SymplecticGroup
import Mathlib.Analysis.SpecialFunctions.Trigonometric.Basic

/-!
Paraxial and Gaussian propagation (rayopt/elements.py 211-228, 300-304, 503-541 and
rayopt/system.py 400-411, 444-452).

The 4x4 arrays `m` with 2x2 blocks `[[A, B], [C, D]]` are matrices over `Fin 2 ⊕ Fin 2`: index 0, 1
(positions x, y) is `inl 0, inl 1`; index 2, 3 (optical direction cosines) is `inr 0, inr 1`.
-/

namespace RayOpt

open Matrix

/-- A 2x2 block. -/
abbrev M2 := Matrix (Fin 2) (Fin 2) ℝ

/-- A 4x4 paraxial matrix. -/
abbrev PM := Matrix (Fin 2 ⊕ Fin 2) (Fin 2 ⊕ Fin 2) ℝ

/-- A paraxial ray `(y, u)`: two positions and two optical direction cosines `n*u`. -/
abbrev PVec := Fin 2 ⊕ Fin 2 → ℝ

namespace Parax

/-- Transfer matrix `md`, `Element.paraxial_matrix`, rayopt/elements.py 223-228. -/
noncomputable def transfer (d n0 : ℝ) : PM := fromBlocks 1 !![d / n0, 0; 0, d / n0] 0 1

/-- Mirror surface matrix, rayopt/elements.py 518-520 (`ct` is `costheta`). -/
noncomputable def mirrorMat (c ct : ℝ) : PM := fromBlocks 1 0 !![2 * c * ct, 0; 0, 2 * c / ct] 1

/-- The quantity `p = np.sqrt(mu**2 + costheta**2 - 1)`, rayopt/elements.py 522-523. -/
noncomputable def pRoot (mu ct : ℝ) : ℝ := Real.sqrt (mu ^ 2 + ct ^ 2 - 1)

/-- Refracting surface matrix, rayopt/elements.py 521-527 (`mu = n/n0`). -/
noncomputable def refractMat (c n0 mu ct : ℝ) : PM :=
  let p := pRoot mu ct
  let m11 := p / (mu * ct)
  let m20 := n0 * c * (ct - p)
  fromBlocks !![1, 0; 0, m11] 0 !![m20, 0; 0, mu * m20 / (ct * p)] !![1, 0; 0, 1 / m11]

/-- The block `r1 = np.array([[cphi, -sphi], [sphi, -cphi]])`, rayopt/elements.py 534-536. -/
noncomputable def rotBlock (phi : ℝ) : M2 :=
  !![Real.cos phi, -Real.sin phi; Real.sin phi, -Real.cos phi]

/-- The matrix `r`, rayopt/elements.py 537-538. -/
noncomputable def rotMat (phi : ℝ) : PM := fromBlocks (rotBlock phi) 0 0 (rotBlock phi)

end Parax

open Parax

namespace Shape

/-- Paraxial curvature `c = c + 2*self.aspherics[0]`, rayopt/elements.py 511-513.  `none` is the
`IndexError` for an empty list. -/
noncomputable def paraxCurv (sh : Shape) : Option ℝ :=
  match sh.aspherics with
  | none => some sh.curvature
  | some [] => none
  | some (a :: _) => some (sh.curvature + 2 * a)

end Shape

namespace Elem

/-- Index after the element in the paraxial trace: `Element.paraxial_matrix` keeps `n0`
(rayopt/elements.py 228), `Interface.paraxial_matrix` takes the material's index also for mirrors
(rayopt/elements.py 300-304). -/
noncomputable def paraxN (e : Elem) (n0 l : ℝ) : ℝ := (e.index? l).getD n0

/-- The surface part `m` of `Spheroid.paraxial_matrix`, rayopt/elements.py 511-527, before the
transfer is applied.  `none` is a non-finite entry or the `IndexError`. -/
noncomputable def surfMat (sh : Shape) (m : Option Material) (theta n0 n : ℝ) : Option PM :=
  sh.paraxCurv.bind fun c =>
    let ct := Real.cos theta
    match m with
    | none => some 1
    | some m =>
      if m.mirror then
        if ct = 0 then none else some (mirrorMat c ct)
      else
        let mu := n / n0
        if mu = 0 ∨ ct = 0 ∨ mu ^ 2 + ct ^ 2 - 1 ≤ 0 then none
        else some (refractMat c n0 mu ct)

/-- `paraxial_matrix(n0, l)`: `Element` (rayopt/elements.py 223-228) and `Spheroid`
(rayopt/elements.py 503-541).  Returns `(n, m)`; `none` is a non-finite entry or an exception. -/
noncomputable def paraxialMatrix (e : Elem) (n0 l : ℝ) : Option (ℝ × PM) :=
  if n0 = 0 then none
  else match e.shape with
  | none => some (n0, transfer e.tf.distance n0)
  | some sh =>
    let n := e.paraxN n0 l
    (surfMat sh e.mat e.tf.angles.x n0 n).map fun m =>
      let m := m * transfer e.tf.distance n0
      let r := rotMat e.tf.angles.z
      (n, r * (m * rᵀ))

/-- `Element.propagate_paraxial`, rayopt/elements.py 211-214, for one ray. -/
noncomputable def propagateParaxial (e : Elem) (yu : PVec) (n0 l : ℝ) : Option (PVec × ℝ) :=
  (e.paraxialMatrix n0 l).map fun nm => (nm.2 *ᵥ yu, nm.1)

end Elem

/-- Complex 2x2 matrices: the inverse q of a Gaussian beam (rayopt/gaussian_trace.py 39-41). -/
abbrev QM := Matrix (Fin 2) (Fin 2) ℂ

/-- A real block as a complex one (numpy promotes when multiplying with the complex `q0i`). -/
noncomputable def toC (m : M2) : QM := m.map Complex.ofReal

/-- The Möbius action of `Element.propagate_gaussian`, rayopt/elements.py 216-221.  `none` is the
`LinAlgError` of `np.linalg.inv`. -/
noncomputable def gaussStep (m : PM) (q : QM) : Option QM :=
  let a := toC m.toBlocks₁₁
  let b := toC m.toBlocks₁₂
  let c := toC m.toBlocks₂₁
  let d := toC m.toBlocks₂₂
  if (a + b * q).det = 0 then none else some ((c + d * q) * (a + b * q)⁻¹)

/-- `Element.propagate_gaussian`, rayopt/elements.py 216-221. -/
noncomputable def Elem.propagateGaussian (e : Elem) (q : QM) (n0 l : ℝ) : Option (QM × ℝ) :=
  (e.paraxialMatrix n0 l).bind fun nm => (gaussStep nm.2 q).map fun q => (q, nm.1)

namespace Sys

/-- The loop of the three propagation generators (rayopt/system.py 400-404, 444-452):
`for e in self[start:stop]: state = f(e, state); yield state`.  The list of yielded states; `none`
if some element fails. -/
def scanM {α : Type*} (f : Elem → α → Option α) : List Elem → α → Option (List α)
  | [], _ => some []
  | e :: es, s => (f e s).bind fun s' => (scanM f es s').map fun r => s' :: r

/-- `System.paraxial_matrices`, rayopt/system.py 400-404, for a given starting index. -/
noncomputable def matricesFrom (l : ℝ) : List Elem → ℝ → Option (List (ℝ × PM))
  | [], _ => some []
  | e :: es, n0 => (e.paraxialMatrix n0 l).bind fun nm =>
      (matricesFrom l es nm.1).map fun r => nm :: r

/-- `System.paraxial_matrices(l, start, stop)`, rayopt/system.py 400-404. -/
noncomputable def paraxialMatrices (sys : List Elem) (l : ℝ) (start : ℤ) (stop : Option ℤ) :
    Option (List (ℝ × PM)) :=
  matricesFrom l (pySlice sys start stop) (refractiveIndex sys l (start - 1))

/-- The accumulation loop of `System.paraxial_matrix`, rayopt/system.py 407-411. -/
noncomputable def accumulate (ms : List (ℝ × PM)) : ℝ × PM :=
  ms.foldl (fun acc nm => (nm.1, nm.2 * acc.2)) (1, 1)

/-- `System.paraxial_matrix(l, start, stop)`, rayopt/system.py 406-411. -/
noncomputable def paraxialMatrix (sys : List Elem) (l : ℝ) (start : ℤ) (stop : Option ℤ) :
    Option (ℝ × PM) :=
  (paraxialMatrices sys l start stop).map accumulate

/-- `System.propagate_paraxial`, rayopt/system.py 444-447, for one ray. -/
noncomputable def propagateParaxial (sys : List Elem) (yu : PVec) (n l : ℝ) (start : ℤ)
    (stop : Option ℤ) : Option (List (PVec × ℝ)) :=
  scanM (fun e s => e.propagateParaxial s.1 s.2 l) (pySlice sys start stop) (yu, n)

/-- `System.propagate_gaussian`, rayopt/system.py 449-452. -/
noncomputable def propagateGaussian (sys : List Elem) (q : QM) (n l : ℝ) (start : ℤ)
    (stop : Option ℤ) : Option (List (QM × ℝ)) :=
  scanM (fun e s => e.propagateGaussian s.1 s.2 l) (pySlice sys start stop) (q, n)

end Sys

end RayOpt
