import Mathlib.Analysis.SpecialFunctions.Trigonometric.Basic
import Mathlib.Analysis.SpecialFunctions.Sqrt
import Mathlib.Algebra.Order.Floor.Semiring

/-!
`rayopt/utils.py` 117-247: pupil sampling.  Points are lists of pairs of reals.
-/

namespace RayOpt

namespace Sampling

/-- `np.linspace(a, b, num)`; for one point numpy returns `[a]`. -/
noncomputable def linspace (a b : ℝ) (num : ℕ) : List ℝ :=
  (List.range num).map fun i : ℕ => a + i * ((b - a) / (num - 1 : ℕ))

/-- One axis of `np.mgrid[-1:1:1j*n]` (for `n = 1` numpy uses the step 1, which does not matter for
the single value). -/
noncomputable def gridAxis (n : ℕ) : List ℝ := linspace (-1) 1 n

/-- `interval_to_circle(x, w)` with the default `p`, `a`, `b`, rayopt/utils.py 226-247: triples of
radius, angle and weight.  The final assertion is `checked`. -/
noncomputable def intervalToCircle (x w : List ℝ) : List (ℝ × ℝ × ℝ) :=
  let m := x.length
  let r := x.map fun x => Real.sqrt ((x + 1) / 2)
  let p := (List.range m).map fun k : ℕ => Real.pi * ((k + 1 / 2) / m - 1 / 2)
  let spread := fun rw : ℝ × ℝ => p.map fun p => (rw.1, p, rw.2 / m / 2)
  match r, w with
  | r0 :: rs, w0 :: ws =>
    haveI := Classical.dec (r0 = 0)
    if r0 = 0 then (r0, 0, w0 / 2) :: (rs.zip ws).flatMap spread
    else ((r0 :: rs).zip (w0 :: ws)).flatMap spread
  | _, _ => []

/-- Sum of the weights, asserted to be one (rayopt/utils.py 246). -/
noncomputable def weightSum (l : List (ℝ × ℝ × ℝ)) : ℝ := (l.map fun t => t.2.2).sum

/-- The names accepted by `pupil_distribution`.  Random numbers and the quadrature nodes and weights
(scipy polynomials, rayopt/utils.py 203-222) are parameters. -/
inductive Distribution where
  | halfMeridional
  | meridional
  | sagittal
  | cross
  | tee
  | random (rphi : List (ℝ × ℝ))
  | square
  | triangular
  | hexapolar
  | quadrature (x w : List ℝ)

open Classical in
/-- The `xy**2 <= 1` filter of the square and triangular grids (rayopt/utils.py 170, 176). -/
noncomputable def clip (l : List (ℝ × ℝ)) : List (ℝ × ℝ) :=
  l.filter fun p => p.1 ^ 2 + p.2 ^ 2 ≤ 1

/-- `pupil_distribution(distribution, nrays)`, rayopt/utils.py 118-199: the reference index and the
points. -/
noncomputable def pupilDistribution (d : Distribution) (n : ℕ) : ℕ × List (ℝ × ℝ) :=
  if n = 1 then (0, [(0, 0)])
  else match d with
  | .halfMeridional => (0, (linspace 0 1 n).map fun y => (0, y))
  | .meridional =>
    let n := n - n % 2
    (0, (linspace (-1) 1 (n + 1)).map fun y => (0, y))
  | .sagittal =>
    let n := n - n % 2
    (n / 2, (linspace (-1) 1 (n + 1)).map fun x => (x, 0))
  | .cross =>
    let n := n - n % 4
    (n / 4, ((linspace (-1) 1 (n / 2 + 1)).map fun y => (0, y)) ++
      (linspace (-1) 1 (n / 2 + 1)).map fun x => (x, 0))
  | .tee =>
    let n := (n - 2) / 3
    (2 * n + 1, ((linspace (-1) 1 (2 * n + 1)).map fun y => (0, y)) ++
      (linspace 0 1 (n + 1)).map fun x => (x, 0))
  | .random rphi =>
    (0, (0, 0) :: rphi.map fun t =>
      (Real.sqrt t.1 * Real.cos (2 * Real.pi * t.2), Real.sqrt t.1 * Real.sin (2 * Real.pi * t.2)))
  | .square =>
    let n := ⌊Real.sqrt (n * 4 / Real.pi)⌋₊
    (0, (0, 0) :: clip ((gridAxis n).flatMap fun x => (gridAxis n).map fun y => (x, y)))
  | .triangular =>
    let n := ⌊Real.sqrt (n * 4 / Real.pi)⌋₊
    (0, (0, 0) :: clip ((gridAxis n).flatMap fun x =>
      ((gridAxis n).zip (List.range n)).map fun yj =>
        (x + ((yj.2 % 2 : ℕ) : ℝ) * (2 / n), yj.1)))
  | .hexapolar =>
    let n := ⌊Real.sqrt (n / 3 - 1 / 12) - 1 / 2⌋₊
    (0, (0, 0) :: (List.range n).flatMap fun i : ℕ =>
      (List.range (6 * (i + 1))).map fun k : ℕ =>
        let a := 2 * Real.pi * k / (6 * (i + 1) : ℕ)
        (Real.sin a * (i + 1 : ℕ) / n, Real.cos a * (i + 1 : ℕ) / n))
  | .quadrature x w =>
    (0, (intervalToCircle x w).map fun t => (t.1 * Real.cos t.2.1, t.1 * Real.sin t.2.1))

end Sampling

end RayOpt
