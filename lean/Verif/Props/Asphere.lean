import Verif.Model.Raphson
import Verif.Props.Surface
import Mathlib.Analysis.Calculus.MeanValue

/-!
C114: rays meet surfaces with aspheric terms.
-/

namespace RayOpt.Shape

open Set Topology

/-- The surface function along a ray (zero where it is not a number). -/
noncomputable def sagAlong (s : Shape) (y u : V3) (t : ℝ) : ℝ := (s.surfaceSag (y + t • u)).getD 0

/-- The derivative handed to scipy, along a ray. -/
noncomputable def slopeAlong (s : Shape) (y u : V3) (t : ℝ) : ℝ :=
  ((s.surfaceNormal (y + t • u)).map fun r => r.dot u).getD 0

/-- C114: `fprime` of `Interface.intercept` is the derivative of `func`: wherever the normal is defined, the surface
function along the ray is defined and has the derivative `normal . u`. -/
theorem c114_derivative (s : Shape) (y u r : V3) (t : ℝ) (h : s.surfaceNormal (y + t • u) = some r) :
    s.surfaceSag (y + t • u) = some (s.sagAlong y u t) ∧ s.slopeAlong y u t = r.dot u ∧
      HasDerivAt (s.sagAlong y u) (r.dot u) t := by
  obtain ⟨G, h1, h2⟩ := (c08_gradient s _ r h).1 (fun a => y.x + a * u.x) (fun a => y.y + a * u.y)
    (fun a => y.z + a * u.z) u t rfl rfl rfl (by simpa using ((hasDerivAt_id t).mul_const u.x).const_add y.x)
    (by simpa using ((hasDerivAt_id t).mul_const u.y).const_add y.y)
    (by simpa using ((hasDerivAt_id t).mul_const u.z).const_add y.z)
  have h3 : ∀ a : ℝ, (⟨y.x + a * u.x, y.y + a * u.y, y.z + a * u.z⟩ : V3) = y + a • u := fun a => rfl
  simp only [h3] at h1
  refine ⟨?_, ?_, ?_⟩
  · have := h1.self_of_nhds
    simp only [sagAlong, this, Option.getD_some]
  · simp [slopeAlong, h]
  · refine h2.congr_of_eventuallyEq ?_
    filter_upwards [h1] with a ha
    simp [sagAlong, ha]

/-- The remainder of a tangent. -/
theorem tangent_bound {F F' : ℝ → ℝ} {a b M : ℝ} (hd : ∀ x ∈ uIcc a b, HasDerivAt F (F' x) x)
    (hM : ∀ x ∈ uIcc a b, |F' x - F' a| ≤ M * |x - a|) :
    |F b - F a - F' a * (b - a)| ≤ M * (b - a) ^ 2 := by
  by_cases hab : b = a
  · subst hab; simp
  have hM0 : 0 ≤ M := by
    have h1 := hM b right_mem_uIcc
    have h2 : 0 < |b - a| := abs_pos.mpr (sub_ne_zero.mpr hab)
    by_contra h3
    have : M * |b - a| < 0 := mul_neg_of_neg_of_pos (not_le.mp h3) h2
    linarith [abs_nonneg (F' b - F' a)]
  have h := (convex_uIcc a b).norm_image_sub_le_of_norm_hasDerivWithin_le (f := fun x => F x - F' a * x)
    (f' := fun x => F' x - F' a) (C := M * |b - a|) (fun x hx => by
      have := (hd x hx).sub ((hasDerivAt_id x).const_mul (F' a))
      exact (this.congr_deriv (by simp)).hasDerivWithinAt)
    (fun x hx => by
      rw [Real.norm_eq_abs]
      refine (hM x hx).trans (mul_le_mul_of_nonneg_left ?_ hM0)
      exact abs_sub_left_of_mem_uIcc hx) left_mem_uIcc right_mem_uIcc
  simp only [Real.norm_eq_abs] at h
  calc |F b - F a - F' a * (b - a)| = |F b - F' a * b - (F a - F' a * a)| := by congr 1; ring
    _ ≤ M * |b - a| * |b - a| := h
    _ = M * (b - a) ^ 2 := by rw [mul_assoc, ← sq, sq_abs]

/-- What a number returned by scipy's newton satisfies. -/
theorem raphson_some {tol : ℝ} {n : ℕ} {f f' : ℝ → Option ℝ} {x0 t : ℝ} (h : raphson tol n f f' x0 = some t) :
    f t = some 0 ∨ ∃ p v d, f p = some v ∧ f' p = some d ∧ d ≠ 0 ∧ t = p - v / d ∧ |t - p| ≤ tol := by
  induction n generalizing x0 with
  | zero => cases h
  | succ n ih =>
    rw [raphson, Option.bind_eq_some_iff] at h
    obtain ⟨v, hv, h⟩ := h
    split at h
    · rename_i h0
      cases h
      exact .inl (by rw [hv, h0])
    · rw [Option.bind_eq_some_iff] at h
      obtain ⟨d, hd, h⟩ := h
      split at h
      · cases h
      · rename_i hd0
        dsimp only at h
        split at h
        · rename_i hle
          cases h
          exact .inr ⟨x0, v, d, hv, hd, hd0, rfl, hle⟩
        · exact ih h

/-- C114, how far off the surface: the point returned for a surface with aspheric terms is on the surface, or it is where
the tangent taken at most `1e-7` before or after it meets zero; then the surface function there is at most `M * 1e-14` if
the slope along the ray changes by at most `M` per length in between. -/
theorem c114_residual (s : Shape) (l : List ℝ) (ha : s.aspherics = some l) (y u : V3) (t : ℝ)
    (h : s.intercept scipyNewton y u = some t) :
    s.surfaceSag (y + t • u) = some 0 ∨ ∃ p, |t - p| ≤ 1 / 10 ^ 7 ∧
      s.sagAlong y u p + s.slopeAlong y u p * (t - p) = 0 ∧
      ∀ M, 0 ≤ M → (∀ x ∈ uIcc p t, (s.surfaceNormal (y + x • u)).isSome ∧
        |s.slopeAlong y u x - s.slopeAlong y u p| ≤ M * |x - p|) →
        ∃ v, s.surfaceSag (y + t • u) = some v ∧ |v| ≤ M * (1 / 10 ^ 14) := by
  unfold intercept interceptNewton scipyNewton at h
  rw [ha] at h
  simp only [Option.bind_eq_some_iff] at h
  obtain ⟨s0, -, h⟩ := h
  rcases raphson_some h with h0 | ⟨p, v, d, hv, hd, hd0, ht, hle⟩
  · exact .inl h0
  refine .inr ⟨p, hle, ?_, fun M hM0 hM => ?_⟩
  · simp only [sagAlong, slopeAlong, hv, hd, Option.getD_some]
    rw [ht]
    field_simp
    ring
  · have hF : ∀ x ∈ uIcc p t, HasDerivAt (s.sagAlong y u) (s.slopeAlong y u x) x := by
      intro x hx
      obtain ⟨r, hr⟩ := Option.isSome_iff_exists.mp (hM x hx).1
      obtain ⟨-, h2, h3⟩ := c114_derivative s y u r x hr
      rw [h2]; exact h3
    have hb := tangent_bound hF (fun x hx => (hM x hx).2)
    obtain ⟨r, hr⟩ := Option.isSome_iff_exists.mp (hM t right_mem_uIcc).1
    refine ⟨_, (c114_derivative s y u r t hr).1, ?_⟩
    have hz : s.sagAlong y u p + s.slopeAlong y u p * (t - p) = 0 := by
      simp only [sagAlong, slopeAlong, hv, hd, Option.getD_some]
      rw [ht]
      field_simp
      ring
    have he : s.sagAlong y u t - s.sagAlong y u p - s.slopeAlong y u p * (t - p) = s.sagAlong y u t := by
      linear_combination -hz
    rw [he] at hb
    refine hb.trans ?_
    have hsq : (t - p) ^ 2 ≤ 1 / 10 ^ 14 := by
      rw [← sq_abs]
      calc |t - p| ^ 2 ≤ (1 / 10 ^ 7) ^ 2 := pow_le_pow_left₀ (abs_nonneg _) hle 2
        _ = 1 / 10 ^ 14 := by norm_num
    exact mul_le_mul_of_nonneg_left hsq hM0

/-- A number is returned for a ray parallel to the axis. -/
example : intercept scipyNewton ⟨0, 0, some [1 / 10, 1 / 20], false⟩ ⟨1, 2, 0⟩ ⟨0, 0, 1⟩ = some (7 / 4) := by
  simp [intercept, interceptNewton, interceptPlane, scipyNewton, raphson, surfaceSag, surfaceNormal, aspSag, aspSlope, rsq,
    V3.dot]
  norm_num

/-- One step of the iteration near a root. -/
theorem newton_step {F F' : ℝ → ℝ} {r e m M x : ℝ} (hm : 0 < m) (hr : F r = 0)
    (hd : ∀ z, |z - r| ≤ e → HasDerivAt F (F' z) z) (hF' : ∀ z, |z - r| ≤ e → m ≤ |F' z|)
    (hM : ∀ a b, |a - r| ≤ e → |b - r| ≤ e → |F' a - F' b| ≤ M * |a - b|) (hx : |x - r| ≤ e) :
    |x - F x / F' x - r| ≤ M / m * |x - r| ^ 2 := by
  have hsub : ∀ z ∈ uIcc x r, |z - r| ≤ e := fun z hz =>
    (by rw [abs_sub_comm]; exact abs_sub_right_of_mem_uIcc hz : |z - r| ≤ |r - x|).trans (by rw [abs_sub_comm]; exact hx)
  have hb := tangent_bound (F := F) (F' := F') (a := x) (b := r) (M := M) (fun z hz => hd z (hsub z hz))
    (fun z hz => hM z x (hsub z hz) hx)
  have h0 : F' x ≠ 0 := by
    intro h0
    have := hF' x hx
    rw [h0, abs_zero] at this
    linarith
  have h1 : x - F x / F' x - r = (F r - F x - F' x * (r - x)) / F' x := by
    rw [hr]; field_simp; ring
  rw [h1, abs_div, div_le_iff₀ (abs_pos.mpr h0)]
  refine hb.trans ?_
  have h2 : (r - x) ^ 2 = |x - r| ^ 2 := by rw [sq_abs]; ring
  rw [h2]
  have hM0 : 0 ≤ M * |x - r| ^ 2 := by
    rw [← h2]; exact (abs_nonneg _).trans hb
  calc M * |x - r| ^ 2 = M * |x - r| ^ 2 / m * m := by field_simp
    _ ≤ M * |x - r| ^ 2 / m * |F' x| := mul_le_mul_of_nonneg_left (hF' x hx) (div_nonneg hM0 hm.le)
    _ = M / m * |x - r| ^ 2 * |F' x| := by ring

/-- Convergence of scipy's newton in `n + 1` steps. -/
theorem raphson_converges {tol : ℝ} (n : ℕ) {f f' : ℝ → Option ℝ} {F F' : ℝ → ℝ} {r e m M : ℝ} (hm : 0 < m) (hM0 : 0 ≤ M)
    (hf : ∀ z, |z - r| ≤ e → f z = some (F z)) (hf' : ∀ z, |z - r| ≤ e → f' z = some (F' z)) (hr : F r = 0)
    (hd : ∀ z, |z - r| ≤ e → HasDerivAt F (F' z) z) (hF' : ∀ z, |z - r| ≤ e → m ≤ |F' z|)
    (hM : ∀ a b, |a - r| ≤ e → |b - r| ≤ e → |F' a - F' b| ≤ M * |a - b|) (hq : M / m * e ≤ 1 / 2)
    (htol : 0 ≤ tol) (d x : ℝ) (hx : |x - r| ≤ d) (hde : d ≤ e)
    (hn : 2 * (d * (M / m * d) ^ (2 ^ n - 1)) ≤ tol) :
    ∃ t, raphson tol (n + 1) f f' x = some t ∧ |t - r| ≤ M / m * (2 * tol) ^ 2 := by
  have hQ : 0 ≤ M / m := div_nonneg hM0 hm.le
  have step : ∀ z, |z - r| ≤ e → |z - F z / F' z - r| ≤ M / m * |z - r| ^ 2 ∧
      |z - F z / F' z - r| ≤ 1 / 2 * |z - r| := by
    intro z hz
    have h1 := newton_step hm hr hd hF' hM hz
    refine ⟨h1, h1.trans ?_⟩
    have h2 : M / m * |z - r| ≤ 1 / 2 := (mul_le_mul_of_nonneg_left hz hQ).trans hq
    calc M / m * |z - r| ^ 2 = M / m * |z - r| * |z - r| := by ring
      _ ≤ 1 / 2 * |z - r| := mul_le_mul_of_nonneg_right h2 (abs_nonneg _)
  -- one turn: a good result, or the next point
  have turn : ∀ k z, |z - r| ≤ e → (∃ t, raphson tol (k + 1) f f' z = some t ∧ |t - r| ≤ M / m * (2 * tol) ^ 2) ∨
      (tol < |z - F z / F' z - z| ∧ raphson tol (k + 1) f f' z = raphson tol k f f' (z - F z / F' z)) := by
    intro k z hz
    obtain ⟨h1, h2⟩ := step z hz
    have hFz : F' z ≠ 0 := by
      intro h0
      have := hF' z hz
      rw [h0, abs_zero] at this
      linarith
    rw [raphson, hf z hz, hf' z hz]
    simp only [Option.bind_some, if_neg hFz]
    by_cases hv : F z = 0
    · left
      rw [if_pos hv]
      rw [hv, zero_div, sub_zero] at h2
      have h3 : |z - r| = 0 := le_antisymm (by linarith) (abs_nonneg _)
      exact ⟨z, rfl, by rw [h3]; positivity⟩
    · rw [if_neg hv]
      by_cases hle : |z - F z / F' z - z| ≤ tol
      · left
        rw [if_pos hle]
        refine ⟨_, rfl, h1.trans (mul_le_mul_of_nonneg_left ?_ hQ)⟩
        have h3 : |z - r| ≤ |z - F z / F' z - z| + |z - F z / F' z - r| := by
          calc |z - r| = |-(z - F z / F' z - z) + (z - F z / F' z - r)| := by congr 1; ring
            _ ≤ |-(z - F z / F' z - z)| + |z - F z / F' z - r| := abs_add_le _ _
            _ = _ := by rw [abs_neg]
        exact pow_le_pow_left₀ (abs_nonneg _) (by linarith) 2
      · right
        rw [if_neg hle]
        exact ⟨not_le.mp hle, rfl⟩
  induction n generalizing d x with
  | zero =>
    rcases turn 0 x (hx.trans hde) with h | ⟨h, -⟩
    · exact h
    · exfalso
      have h2 := (step x (hx.trans hde)).2
      have h3 : |x - F x / F' x - x| ≤ |x - F x / F' x - r| + |x - r| := by
        calc |x - F x / F' x - x| = |(x - F x / F' x - r) - (x - r)| := by congr 1; ring
          _ ≤ _ := abs_sub _ _
      simp only [pow_zero, Nat.sub_self, mul_one] at hn
      linarith [abs_nonneg (x - r)]
  | succ n ih =>
    rcases turn (n + 1) x (hx.trans hde) with h | ⟨-, h⟩
    · exact h
    · rw [h]
      have hd0 : 0 ≤ d := (abs_nonneg _).trans hx
      refine ih (M / m * d ^ 2) _ ?_ ?_ ?_
      · exact (step x (hx.trans hde)).1.trans (mul_le_mul_of_nonneg_left
          (pow_le_pow_left₀ (abs_nonneg _) hx 2) hQ)
      · have : M / m * d ≤ 1 / 2 := (mul_le_mul_of_nonneg_left hde hQ).trans hq
        calc M / m * d ^ 2 = M / m * d * d := by ring
          _ ≤ 1 / 2 * d := mul_le_mul_of_nonneg_right this hd0
          _ ≤ e := by linarith
      · refine le_of_eq_of_le ?_ hn
        have h1 : 2 ^ (n + 1) - 1 = 1 + 2 * (2 ^ n - 1) := by
          have := Nat.one_le_two_pow (n := n)
          rw [pow_succ]; omega
        rw [h1, pow_add, pow_mul, pow_one]
        have h2 : M / m * (M / m * d ^ 2) = (M / m * d) ^ 2 := by ring
        rw [h2]
        ring

/-- C114, convergence: near a root `r` of the surface function along the ray, with a slope of at least `m` that changes by
at most `M` per length, `intercept` returns a path length within `M/m * 4e-14` of `r`, if the start on the plane is
within `e` of the root where `q = M/m * e <= 1/2` and `2 e q^15 <= 1e-7` (for example `q <= 1/8` and `e <= 10^6`). -/
theorem c114_converges (s : Shape) (l : List ℝ) (ha : s.aspherics = some l) (y u : V3) (s0 r m M : ℝ)
    (hs0 : interceptPlane y u = some s0) (hr : s.surfaceSag (y + r • u) = some 0) (hm : 0 < m) (hM0 : 0 ≤ M)
    (hn : ∀ z, |z - r| ≤ |s0 - r| → (s.surfaceNormal (y + z • u)).isSome)
    (hslope : ∀ z, |z - r| ≤ |s0 - r| → m ≤ |s.slopeAlong y u z|)
    (hM : ∀ a b, |a - r| ≤ |s0 - r| → |b - r| ≤ |s0 - r| →
      |s.slopeAlong y u a - s.slopeAlong y u b| ≤ M * |a - b|)
    (hq : M / m * |s0 - r| ≤ 1 / 2) (h15 : 2 * (|s0 - r| * (M / m * |s0 - r|) ^ 15) ≤ 1 / 10 ^ 7) :
    ∃ t, s.intercept scipyNewton y u = some t ∧ |t - r| ≤ M / m * (4 / 10 ^ 14) := by
  have key : ∀ z, |z - r| ≤ |s0 - r| → ∃ n, s.surfaceNormal (y + z • u) = some n ∧
      s.slopeAlong y u z = n.dot u ∧ s.surfaceSag (y + z • u) = some (s.sagAlong y u z) ∧
      HasDerivAt (s.sagAlong y u) (s.slopeAlong y u z) z := by
    intro z hz
    obtain ⟨n, hn⟩ := Option.isSome_iff_exists.mp (hn z hz)
    obtain ⟨h1, h2, h3⟩ := c114_derivative s y u n z hn
    exact ⟨n, hn, h2, h1, by rw [h2]; exact h3⟩
  obtain ⟨t, ht, hb⟩ := raphson_converges (tol := 1 / 10 ^ 7) 4 (f := fun si => s.surfaceSag (y + si • u))
    (f' := fun si => (s.surfaceNormal (y + si • u)).map fun r => r.dot u) (F := s.sagAlong y u) (F' := s.slopeAlong y u)
    (e := |s0 - r|) hm hM0 (fun z hz => by obtain ⟨n, h1, h2, h3, h4⟩ := key z hz; exact h3)
    (fun z hz => by obtain ⟨n, h1, h2, h3, h4⟩ := key z hz; simp [h1, h2]) (by simp [sagAlong, hr])
    (fun z hz => by obtain ⟨n, h1, h2, h3, h4⟩ := key z hz; exact h4) hslope hM hq (by positivity) |s0 - r| s0 le_rfl
    le_rfl (by norm_num at h15 ⊢; exact h15)
  refine ⟨t, ?_, hb.trans (le_of_eq (by norm_num))⟩
  unfold intercept interceptNewton scipyNewton
  rw [ha]
  simp only [hs0, Option.bind_some]
  exact ht

/-! ## Where it fails -/

/-- C114, outside of the conditions: five steps are not enough for a ray that crosses the surface `z = x^2 + y^2` at two
points (not even tangentially): NaN. -/
theorem c114_steps_violation :
    intercept scipyNewton ⟨0, 0, some [1], false⟩ ⟨33 / 100, 0, 0⟩ ⟨3 / 5, 0, 4 / 5⟩ = none ∧
    surfaceSag ⟨0, 0, some [1], false⟩ (⟨33 / 100, 0, 0⟩ + (9 / 20 : ℝ) • ⟨3 / 5, 0, 4 / 5⟩) = some 0 ∧
    surfaceSag ⟨0, 0, some [1], false⟩ (⟨33 / 100, 0, 0⟩ + (121 / 180 : ℝ) • ⟨3 / 5, 0, 4 / 5⟩) = some 0 := by
  have hs : ∀ t : ℝ, surfaceSag ⟨0, 0, some [1], false⟩ (⟨33 / 100, 0, 0⟩ + t • ⟨3 / 5, 0, 4 / 5⟩) =
      some (t * (4 / 5) - (33 / 100 + t * (3 / 5)) ^ 2) := by
    intro t
    simp [surfaceSag, aspSag, rsq]
    ring
  have hn : ∀ t : ℝ, ((surfaceNormal ⟨0, 0, some [1], false⟩ (⟨33 / 100, 0, 0⟩ + t • ⟨3 / 5, 0, 4 / 5⟩)).map
      fun r => r.dot ⟨3 / 5, 0, 4 / 5⟩) = some (4 / 5 - 2 * (33 / 100 + t * (3 / 5)) * (3 / 5)) := by
    intro t
    simp [surfaceNormal, aspSlope, rsq, V3.dot]
    ring
  refine ⟨?_, ?_, ?_⟩
  · unfold intercept interceptNewton scipyNewton
    simp only [interceptPlane, hs, hn]
    norm_num [raphson, abs_of_pos, abs_of_neg]
  · rw [hs]; norm_num
  · rw [hs]; norm_num

/-- C114, outside of the conditions: with aspheric terms (even zero ones) the search starts on the plane `z = 0`; a ray
that meets the plane outside of the domain of the sphere is lost, while the same sphere without aspheric terms returns
its intersection. -/
theorem c114_start_violation :
    intercept scipyNewton ⟨1, 0, some [0], false⟩ ⟨-11 / 10, 0, 0⟩ ⟨3 / 5, 0, 4 / 5⟩ = none ∧
    surfaceSag ⟨1, 0, some [0], false⟩ (⟨-11 / 10, 0, 0⟩ + (1 / 2 : ℝ) • ⟨3 / 5, 0, 4 / 5⟩) = some 0 ∧
    intercept scipyNewton ⟨1, 0, none, false⟩ ⟨-11 / 10, 0, 0⟩ ⟨3 / 5, 0, 4 / 5⟩ = some (1 / 2) := by
  refine ⟨?_, ?_, ?_⟩
  · unfold intercept interceptNewton scipyNewton
    norm_num [interceptPlane, raphson, surfaceSag, rsq]
  · have h2 : √(9 / 25) = (3 / 5 : ℝ) := by
      rw [show (9 / 25 : ℝ) = (3 / 5) ^ 2 by norm_num, Real.sqrt_sq (by norm_num)]
    norm_num [surfaceSag, rsq, aspSag, h2]
  · have h2 : √(576 / 625) = (24 / 25 : ℝ) := by
      rw [show (576 / 625 : ℝ) = (24 / 25) ^ 2 by norm_num, Real.sqrt_sq (by norm_num)]
    norm_num [intercept, interceptConic, V3.dot, h2]

/-- C114, outside of the conditions: `alternate_intersection` is without effect when there are aspheric terms. -/
theorem c114_alternate_violation (nwt : NewtonFn) (c k : ℝ) (l : List ℝ) (y u : V3) :
    intercept nwt ⟨c, k, some l, true⟩ y u = intercept nwt ⟨c, k, some l, false⟩ y u := rfl

/-- The conditions of `c114_converges` hold for a ray that meets a slightly aspheric plate. -/
example : ∃ t, intercept scipyNewton ⟨0, 0, some [1 / 10], false⟩ ⟨37 / 40, 0, 0⟩ ⟨3 / 5, 0, 4 / 5⟩ = some t ∧
    |t - 1 / 8| ≤ (9 / 125) / (1 / 2) * (4 / 10 ^ 14) := by
  have hn : ∀ t : ℝ, surfaceNormal ⟨0, 0, some [1 / 10], false⟩ (⟨37 / 40, 0, 0⟩ + t • ⟨3 / 5, 0, 4 / 5⟩) =
      some ⟨-(37 / 40 + t * (3 / 5)) * (1 / 5), 0, 1⟩ := by
    intro t
    simp [surfaceNormal, aspSlope, rsq]
    ring
  have hsl : ∀ t : ℝ, slopeAlong ⟨0, 0, some [1 / 10], false⟩ ⟨37 / 40, 0, 0⟩ ⟨3 / 5, 0, 4 / 5⟩ t =
      4 / 5 - (37 / 40 + t * (3 / 5)) * (3 / 25) := by
    intro t
    rw [slopeAlong, hn]
    simp [V3.dot]
    ring
  have h0 : |(0 : ℝ) - 1 / 8| = 1 / 8 := by norm_num [abs_of_neg]
  refine c114_converges _ [1 / 10] rfl _ _ 0 (1 / 8) (1 / 2) (9 / 125) (by norm_num [interceptPlane]) ?_ (by norm_num)
    (by norm_num) (fun z _ => by rw [hn]; rfl) (fun z hz => ?_) (fun a b _ _ => ?_) ?_ ?_
  · simp [surfaceSag, aspSag, rsq]
    norm_num
  · rw [h0, abs_le] at hz
    rw [hsl, le_abs]
    left
    linarith [hz.2]
  · rw [hsl, hsl]
    rw [show 4 / 5 - (37 / 40 + a * (3 / 5)) * (3 / 25) - (4 / 5 - (37 / 40 + b * (3 / 5)) * (3 / 25)) =
      -(9 / 125) * (a - b) by ring, abs_mul]
    norm_num [abs_of_neg]
  · rw [h0]; norm_num
  · rw [h0]; norm_num

end RayOpt.Shape
