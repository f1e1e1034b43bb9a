import Verif.Model.Trace

/-!
The one-dimensional solvers and the ray aiming of `System` (rayopt/system.py 466-583).

A merit function is `ℝ → Option ℝ`; `none` is NaN (a ray that fails).  The scipy root finders
`newton` and `brentq` are parameters; a call to them is a separate outcome of the solver's own code.
-/

namespace RayOpt

/-- Exceptions of the solvers and of the aiming code. -/
inductive AimError where
  /-- `ValueError` raised by the solver: no starting point or no bracket. -/
  | noStart
  /-- A failed `assert`. -/
  | assertion
  /-- `UnboundLocalError` for a loop variable that was never set. -/
  | unbound
  /-- `IndexError`. -/
  | index
  /-- The scipy root finder raised. -/
  | external

namespace Solve

/-- How far the solvers come by themselves: they accept a point, call the scipy routine with these
arguments, or raise. -/
inductive Outcome (α : Type*) where
  | accept (x : ℝ)
  | call (args : α)
  | fail (e : AimError)

/-- The values of `ai` in `find_start`, rayopt/system.py 471-472: `-1, 1, -2, 2, ...` for `scale` in
`np.arange(1, maxiter)`. -/
def probes (maxiter : ℕ) : List ℝ :=
  (List.range (maxiter - 1)).flatMap fun (i : ℕ) => [-((i : ℝ) + 1), (i : ℝ) + 1]

/-- `find_start(fun, a0)`, rayopt/system.py 467-476: the first point that traces and its merit;
`none` is the `ValueError`. -/
def findStart (merit : ℝ → Option ℝ) (a0 : ℝ) (maxiter : ℕ) : Option (ℝ × ℝ) :=
  match merit a0 with
  | some f0 => some (a0, f0)
  | none => (probes maxiter).findSome? fun ai => (merit (a0 + ai)).map fun fi => (a0 + ai, fi)

/-- `solve_newton`, rayopt/system.py 466-481, up to the call of `newton(merit, a)`. -/
noncomputable def newton (merit : ℝ → Option ℝ) (a tol : ℝ) (maxiter : ℕ) : Outcome ℝ :=
  match findStart merit a maxiter with
  | none => .fail .noStart
  | some (a, f) => if |f| > tol then .call a else .accept a

/-- The result of the loop of `solve_brentq`. -/
inductive Bracket where
  | accept (b : ℝ)
  /-- `break` with the bracket `(a, b)`; `last` if it happened in the last iteration. -/
  | found (a b : ℝ) (last : Bool)
  | exhausted

/-- The loop of `solve_brentq`, rayopt/system.py 484-494; `k` iterations are left. -/
noncomputable def bracket (merit : ℝ → Option ℝ) (tol : ℝ) : ℕ → ℝ → ℝ → Bracket
  | 0, _, _ => .exhausted
  | k + 1, a, b =>
    match merit b with
    | none => bracket merit tol k a (b / 2)
    | some fb =>
      if |fb| ≤ tol then .accept b
      else if fb < 0 then bracket merit tol k b (b * (1 - fb))
      else .found a b (k == 0)

/-- `solve_brentq`, rayopt/system.py 483-502, up to the call of `brentq(merit, a, b)`.  The test
`i == maxiter - 1` is true also when the loop was left by `break` in its last iteration; without any
iteration `i` is unbound. -/
noncomputable def brentq (merit : ℝ → Option ℝ) (a b tol : ℝ) (maxiter : ℕ) : Outcome (ℝ × ℝ) :=
  if maxiter = 0 then .fail .unbound
  else match bracket merit tol maxiter a b with
    | .accept b => .accept b
    | .exhausted => .fail .noStart
    | .found a b last =>
      if last then .fail .noStart
      else match merit a with
        | none => .fail .assertion
        | some fa =>
          if |fa| ≤ tol then .accept a
          else if fa < 0 then .call (a, b)
          else .fail .assertion

/-- The value of a solver, given the scipy routine (`none`: it raises). -/
def Outcome.value {α : Type*} (ext : α → Option ℝ) : Outcome α → Except AimError ℝ
  | .accept x => .ok x
  | .call args => match ext args with
    | some x => .ok x
    | none => .error .external
  | .fail e => .error e

end Solve

namespace Aim

open Solve Sys

/-- What `aim_chief` and `aim_marginal` need of a system: the elements, the stop index, and the flags
`object.pupil.telecentric` and `object.pupil.aim`. -/
structure AimSys where
  elems : List Elem
  stop : ℕ
  telecentric : Bool
  aim : Bool

/-- `x/rad` for a radius that may be infinite. -/
noncomputable def divRadius (x : ℝ) : Radius → ℝ
  | .inf => 0
  | .fin r => x / r

/-- The radius of an element is not zero (`assert rad`). -/
def radNonzero : Radius → Prop
  | .inf => True
  | .fin r => r ≠ 0

/-- `dist(a)` of `aim_chief`, rayopt/system.py 518-523, for the rays `gen a` of `self.aim`: the
component along the field of the position at the last propagated element. -/
noncomputable def chiefMerit (nwt : Shape.NewtonFn) (sys : List Elem) (l n : ℝ) (stop : ℤ)
    (rad : Radius) (yo : ℝ × ℝ) (gen : ℝ → Option (V3 × V3)) (a : ℝ) : Option ℝ :=
  (gen a).bind fun yu =>
    let rs := propagate nwt sys ⟨some yu.1, some yu.2, n⟩ l 1 (some (stop + 1)) false
    let y := match rs.getLast? with
      | some r => r.y
      | none => some yu.1
    y.map fun y => divRadius (yo.1 * y.x + yo.2 * y.y) rad

open Classical in
/-- `aim_chief(yo, z, p, l, stop)`, rayopt/system.py 507-526; `gen z` are the rays of
`self.aim(yo, None, z)`, `newt` is scipy's `newton`. -/
noncomputable def aimChief (nwt : Shape.NewtonFn) (s : AimSys) (l n : ℝ) (yo : ℝ × ℝ)
    (gen : ℝ → Option (V3 × V3)) (newt : (ℝ → Option ℝ) → ℝ → Option ℝ) (z p : ℝ)
    (stop : Option ℤ) (a0 tol : ℝ) (maxiter : ℕ) : Except AimError ℝ :=
  if p = 0 then .error .assertion
  else if s.telecentric ∨ ¬s.aim then .ok z
  else
    let k := match stop with
      | none => (s.stop : ℤ)
      | some k => if k = -1 then (s.stop : ℤ) else k
    match s.elems[s.stop]? with
    | none => .error .index
    | some e =>
      if ¬radNonzero e.radius then .error .assertion
      else
        let dist := chiefMerit nwt s.elems l n k e.radius yo fun a => gen (z + a * p)
        ((Solve.newton dist a0 tol maxiter).value (newt dist)).map fun a => z + a * p

/-- One term of `np.square(ys)[1:, 0, :2].sum(1)/r2 - 1`, rayopt/system.py 549. -/
noncomputable def rimTerm (R : Radius) (y : Option V3) : Option ℝ :=
  y.map fun y => divRadius (y.x ^ 2 + y.y ^ 2) (match R with
    | .inf => .inf
    | .fin r => .fin (r ^ 2)) - 1

/-- `d.max()`: NaN if any term is NaN.  `none` also for the empty array, on which `max` raises (the
caller excludes it). -/
noncomputable def maxTerm : List (Option ℝ) → Option ℝ
  | [] => none
  | [x] => x
  | x :: xs => x.bind fun x => (maxTerm xs).map fun y => max x y

/-- `dist(a)` of `aim_marginal`, rayopt/system.py 543-553. -/
noncomputable def marginalMerit (nwt : Shape.NewtonFn) (sys : List Elem) (l n : ℝ) (stop : ℤ)
    (rim : Bool) (gen : ℝ → Option (V3 × V3)) (a : ℝ) : Option ℝ :=
  (gen a).bind fun yu =>
    let rs := propagate nwt sys ⟨some yu.1, some yu.2, n⟩ l 1 (some stop) false
    let d := List.zipWith (fun (e : Elem) r => rimTerm e.radius r.y) (pySlice sys 1 (some stop)) rs
    if rim then maxTerm d else d.getLast?.getD none

/-- The end of the slice `self[1:stop]` of `aim_marginal`, rayopt/system.py 536-539. -/
def marginalStop (s : AimSys) : Option ℤ → ℤ
  | none => (s.stop : ℤ) + 1
  | some k => if k = -1 then (s.elems.length : ℤ) - 1 else k

open Classical in
/-- `aim_marginal(yo, yp, z, p, l, stop)`, rayopt/system.py 528-555; `gen a` are the rays of
`self.aim(yo, yp, z, a)`, `brent` is scipy's `brentq`.  An empty `self[1:stop]` raises in `dist`. -/
noncomputable def aimMarginal (nwt : Shape.NewtonFn) (s : AimSys) (l n : ℝ)
    (gen : ℝ → Option (V3 × V3)) (brent : (ℝ → Option ℝ) → ℝ × ℝ → Option ℝ) (p : ℝ)
    (stop : Option ℤ) (a0 b0 tol : ℝ) (maxiter : ℕ) : Except AimError ℝ :=
  if p = 0 then .error .assertion
  else
    let rim := stop == some (-1)
    if ¬s.aim ∧ ¬rim then .ok p
    else
      let k := marginalStop s stop
      if pySlice s.elems 1 (some k) = [] then .error .index
      else
        let dist := marginalMerit nwt s.elems l n k rim fun a => gen (a * p)
        match (Solve.brentq dist a0 b0 tol maxiter).value (brent dist) with
        | .error e => .error e
        | .ok a => if a = 0 then .error .assertion else .ok (a * p)

/-- The aperture array `a` of `_aim_pupil`: `a[0] = (lo.1, lo.2)`, `a[1] = (hi.1, hi.2)`, columns
x and y. -/
structure Ap where
  lo : ℝ × ℝ
  hi : ℝ × ℝ

/-- The marginal rays of `_aim_pupil`, rayopt/system.py 574-583; `marg ax sig p` is
`self.aim_marginal(y, yp, z, p)` for axis `ax` (`true` is y) and side `sig`. -/
def aimRims (marg : Bool → Bool → ℝ → Except AimError ℝ) (guess : Bool) (a : Ap) :
    Except AimError Ap := do
  let a1 ← marg true true a.hi.2
  let a : Ap := ⟨(a.lo.1, -a1), (a.hi.1, a1)⟩
  let a : Ap := if guess then a else ⟨(a.lo.2, a.lo.2), (a.hi.2, a.hi.2)⟩
  let a2 ← marg true false a.lo.2
  let a : Ap := ⟨(a.lo.1, a2), a.hi⟩
  let a3 ← marg false true a.hi.1
  let a : Ap := ⟨(-a3, a.lo.2), (a3, a.hi.2)⟩
  let a4 ← marg false false a.lo.1
  pure ⟨(a4, a.lo.2), a.hi⟩

/-- `np.fabs(a).max()`, rayopt/system.py 570. -/
noncomputable def Ap.absMax (a : Ap) : ℝ := max (max |a.lo.1| |a.lo.2|) (max |a.hi.1| |a.hi.2|)

/-- `a *= s`, rayopt/system.py 572. -/
def Ap.scale (a : Ap) (s : ℝ) : Ap := ⟨(a.lo.1 * s, a.lo.2 * s), (a.hi.1 * s, a.hi.2 * s)⟩

/-- The start values of `_aim_pupil`, rayopt/system.py 559-568. -/
def aimStart (z0 r0 : ℝ) : Option (ℝ × Ap) → ℝ × Ap
  | none => (z0, ⟨(r0, r0), (r0, r0)⟩)
  | some g => g

/-- `_aim_pupil(xo, yo, guess)`, rayopt/system.py 557-583: without a guess the start is the pupil
distance `z0` and radius `r0`; `chief y z p` and `marg y z ax sig p` are `aim_chief` and
`aim_marginal`; `z = 0` divides by zero in the improved guess. -/
noncomputable def aimPupil (finite : Bool) (z0 r0 : ℝ)
    (chief : ℝ × ℝ → ℝ → ℝ → Except AimError ℝ)
    (marg : ℝ × ℝ → ℝ → Bool → Bool → ℝ → Except AimError ℝ)
    (y : ℝ × ℝ) (onAxis : Bool) (guess : Option (ℝ × Ap)) : Except AimError (ℝ × Ap) := do
  let za := aimStart z0 r0 guess
  let za ← if onAxis then pure za else do
    let z1 ← chief y za.1 za.2.absMax
    pure (z1, if finite then za.2.scale |z1 / za.1| else za.2)
  let a ← aimRims (marg y za.1) guess.isSome za.2
  pure (za.1, a)

end Aim

end RayOpt
