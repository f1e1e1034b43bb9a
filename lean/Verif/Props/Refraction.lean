import Verif.Lemmas.Vec

/-!
C01-C05: the laws of refraction and reflection for `Interface.refract`.

`refractAt r u0 mu` is `Interface.refract` at a point with surface normal `r` (any length),
incoming direction `u0` and `mu = n0/n` (`-1` for a mirror); `none` is NaN.
-/

namespace RayOpt

open V3

/-- Specification: Snell's law in vector form.  `u` is a unit direction, the tangential
components satisfy `n (u × r) = n0 (u0 × r)` and the ray continues to the side the normal points
to. -/
structure Snell (n0 n : ℝ) (r u0 u : V3) : Prop where
  unit : u.dot u = 1
  tangential : n • u.cross r = n0 • u0.cross r
  side : 0 ≤ u.dot r

/-- Specification: law of reflection. -/
structure Reflected (r u0 u : V3) : Prop where
  tangential : u.cross r = u0.cross r
  normal : u.dot r = -u0.dot r

/-- C01: a finite result of `refract` for a unit direction is a unit direction. -/
theorem c01_refract_unit {r u0 u : V3} {mu : ℝ} (hmu : mu ≠ 0) (hu : u0.dot u0 = 1)
    (h : refractAt r u0 mu = some u) : u.dot u = 1 := by
  by_cases h1 : mu = 1
  · subst h1; simp [refractAt] at h; rw [← h]; exact hu
  by_cases h2 : mu = -1
  · subst h2
    unfold refractAt at h
    by_cases hr : r.dot r = 0
    · norm_num [hr] at h; cases h
    · norm_num [hr] at h
      rw [← h]
      have : (u0 - (2 * (u0.dot r / r.dot r)) • r).dot (u0 - (2 * (u0.dot r / r.dot r)) • r)
          = u0.dot u0 - 4 * (u0.dot r / r.dot r) * u0.dot r
            + 4 * (u0.dot r / r.dot r) ^ 2 * r.dot r := by
        simp [dot]; ring
      rw [this, hu]; field_simp; ring
  · obtain ⟨hr, hd, rfl⟩ := (refractAt_generic h1 h2).mp h
    have hs := Real.sq_sqrt hd
    have hσ := sign_sq_of_ne hmu
    have habs : |mu| ^ 2 = mu ^ 2 := sq_abs mu
    generalize hS : Real.sqrt _ = S at *
    generalize ((SignType.sign mu : SignType) : ℝ) = σ at *
    have key : ∀ g : ℝ, (|mu| • u0 + g • r).dot (|mu| • u0 + g • r)
        = |mu| ^ 2 * u0.dot u0 + 2 * g * (|mu| * u0.dot r) + g ^ 2 * r.dot r := by
      intro g; simp only [dot, add_x, add_y, add_z, smul_x, smul_y, smul_z]; ring
    rw [key, hu, habs]
    have ha : |mu| * u0.dot r = (|mu| * u0.dot r / r.dot r) * r.dot r := by field_simp
    generalize hA : |mu| * u0.dot r / r.dot r = A at *
    rw [ha]
    have : (-A + σ * S) ^ 2 + 2 * A * (-A + σ * S) = S ^ 2 - A ^ 2 := by
      have : (-A + σ * S) ^ 2 + 2 * A * (-A + σ * S) = σ ^ 2 * S ^ 2 - A ^ 2 := by ring
      rw [this, hσ]; ring
    have e : mu ^ 2 * 1 + 2 * (-A + σ * S) * (A * r.dot r) + (-A + σ * S) ^ 2 * r.dot r
        = mu ^ 2 + r.dot r * ((-A + σ * S) ^ 2 + 2 * A * (-A + σ * S)) := by ring
    rw [e, this, hs]
    field_simp
    ring

/-- Normal and tangential components of every finite refraction result. -/
theorem refract_components {r u0 u : V3} {mu : ℝ} (h1 : mu ≠ 1) (hpos : 0 < mu)
    (h : refractAt r u0 mu = some u) :
    u.cross r = mu • u0.cross r ∧ 0 ≤ u.dot r := by
  have h2 : mu ≠ -1 := by intro h; linarith
  obtain ⟨hr, hd, rfl⟩ := (refractAt_generic h1 h2).mp h
  rw [abs_of_pos hpos, sign_pos hpos]
  have hr' : 0 < r.dot r := lt_of_le_of_ne (dot_self_nonneg r) (Ne.symm hr)
  constructor
  · ext <;> simp [cross] <;> ring
  · have key : ∀ g : ℝ, (mu • u0 + g • r).dot r = mu * u0.dot r + g * r.dot r := by
      intro g; simp [dot]; ring
    rw [key]
    have ha : mu * u0.dot r = (mu * u0.dot r / r.dot r) * r.dot r := by field_simp
    have := Real.sqrt_nonneg ((mu * u0.dot r / r.dot r) ^ 2 - (mu ^ 2 - 1) / r.dot r)
    have h3 : mu * u0.dot r + (-(mu * u0.dot r / r.dot r) + ((1 : SignType) : ℝ) *
        √((mu * u0.dot r / r.dot r) ^ 2 - (mu ^ 2 - 1) / r.dot r)) * r.dot r
        = √((mu * u0.dot r / r.dot r) ^ 2 - (mu ^ 2 - 1) / r.dot r) * r.dot r := by
      rw [show ((1 : SignType) : ℝ) = 1 from rfl]
      nlinarith [ha]
    rw [h3]; positivity

/-- The argument of the square root in terms of the tangential component. -/
theorem disc_eq {r u0 : V3} {mu : ℝ} (hr : r.dot r ≠ 0) (hu : u0.dot u0 = 1) :
    ((|mu| * u0.dot r / r.dot r) ^ 2 - (mu ^ 2 - 1) / r.dot r) * (r.dot r) ^ 2
      = r.dot r - mu ^ 2 * (u0.cross r).dot (u0.cross r) := by
  have hl := lagrange u0 r
  rw [hu] at hl
  have : (|mu| * u0.dot r / r.dot r) ^ 2 = mu ^ 2 * (u0.dot r) ^ 2 / (r.dot r) ^ 2 := by
    rw [div_pow, mul_pow, sq_abs]
  rw [this]
  field_simp
  nlinarith [hl]

/-- C02 (and existence): for a ray that meets the surface from the side opposite to the normal,
`refract` returns `u` if and only if `u` is the Snell direction; so it is correct and unique. -/
theorem c02_snell {n0 n : ℝ} (hn0 : 0 < n0) (hn : 0 < n) {r u0 : V3} (hr : r ≠ 0)
    (hu : u0.dot u0 = 1) (hside : 0 ≤ u0.dot r) (u : V3) :
    refractAt r u0 (n0 / n) = some u ↔ Snell n0 n r u0 u := by
  have hmu : 0 < n0 / n := div_pos hn0 hn
  have hrr := dot_self_pos hr
  have hcross : ∀ w : V3, n • w.cross r = n0 • u0.cross r ↔
      w.cross r = (n0 / n) • u0.cross r := by
    intro w
    constructor
    · intro h
      have hx := congrArg V3.x h; have hy := congrArg V3.y h; have hz := congrArg V3.z h
      simp only [smul_x, smul_y, smul_z] at hx hy hz
      ext <;> simp only [smul_x, smul_y, smul_z] <;> field_simp <;> linarith
    · intro h; rw [h]; ext <;> simp only [smul_x, smul_y, smul_z] <;> field_simp
  have uniq : ∀ v w : V3, Snell n0 n r u0 v → Snell n0 n r u0 w → v = w := by
    intro v w hv hw
    have hc : v.cross r = w.cross r := by
      rw [(hcross v).mp hv.tangential, (hcross w).mp hw.tangential]
    have l1 := lagrange v r
    have l2 := lagrange w r
    rw [hv.unit] at l1; rw [hw.unit, ← hc] at l2
    have : (v.dot r) ^ 2 = (w.dot r) ^ 2 := by linarith
    have : v.dot r = w.dot r := by
      rw [sq_eq_sq₀ hv.side hw.side] at this; exact this
    exact eq_of_dot_cross hr hc this
  have sound : ∀ v, refractAt r u0 (n0 / n) = some v → Snell n0 n r u0 v := by
    intro v hv
    refine ⟨c01_refract_unit hmu.ne' hu hv, ?_, ?_⟩
    · rw [hcross]
      by_cases h1 : n0 / n = 1
      · rw [h1] at hv ⊢; simp [refractAt] at hv; subst hv
        ext <;> simp
      · exact (refract_components h1 hmu hv).1
    · by_cases h1 : n0 / n = 1
      · rw [h1] at hv; simp [refractAt] at hv; subst hv; exact hside
      · exact (refract_components h1 hmu hv).2
  constructor
  · exact sound u
  · intro hs
    -- the Snell direction exists, hence no total internal reflection
    have hex : ∃ v, refractAt r u0 (n0 / n) = some v := by
      by_cases h1 : n0 / n = 1
      · exact ⟨u0, by simp [refractAt, h1]⟩
      · have h2 : n0 / n ≠ -1 := by intro h; linarith
        have hd := disc_eq (mu := n0 / n) hrr.ne' hu
        have l1 := lagrange u r
        rw [hs.unit, (hcross u).mp hs.tangential, dot_smul_smul] at l1
        have : 0 ≤ ((|n0 / n| * u0.dot r / r.dot r) ^ 2 - ((n0 / n) ^ 2 - 1) / r.dot r)
            * (r.dot r) ^ 2 := by rw [hd]; nlinarith [sq_nonneg (u.dot r)]
        have : 0 ≤ (|n0 / n| * u0.dot r / r.dot r) ^ 2 - ((n0 / n) ^ 2 - 1) / r.dot r :=
          nonneg_of_mul_nonneg_left this (by positivity)
        exact ⟨_, (refractAt_generic h1 h2).mpr ⟨hrr.ne', this, rfl⟩⟩
    obtain ⟨v, hv⟩ := hex
    rw [hv, uniq v u (sound v hv) hs]

/-- C02, scalar form: `n sin θ = n0 sin θ0` for the angles to the normal (squared sines, the
normal made a unit vector). -/
theorem c02_snell_sine {n0 n : ℝ} (hn0 : 0 < n0) (hn : 0 < n) {r u0 u : V3} (hr : r ≠ 0)
    (hu : u0.dot u0 = 1) (hside : 0 ≤ u0.dot r) (h : refractAt r u0 (n0 / n) = some u) :
    n * (u.cross r).norm / r.norm = n0 * (u0.cross r).norm / r.norm := by
  have hs := ((c02_snell hn0 hn hr hu hside u).mp h).tangential
  have := congrArg V3.norm hs
  rw [norm_smul, norm_smul, abs_of_pos hn, abs_of_pos hn0] at this
  rw [this]

/-- C02, incidence plane: the refracted ray lies in the plane of the normal and the incoming
ray. -/
theorem c02_coplanar {r u0 u : V3} {mu : ℝ} (h : refractAt r u0 mu = some u) :
    u.triple u0 r = 0 := by
  by_cases h1 : mu = 1
  · subst h1; simp [refractAt] at h; subst h; simp [triple, dot, cross]; ring
  by_cases h2 : mu = -1
  · subst h2; unfold refractAt at h
    by_cases hr : r.dot r = 0
    · norm_num [hr] at h; cases h
    · norm_num [hr] at h
      rw [← h]; simp [triple, dot, cross]; ring
  · obtain ⟨_, _, rfl⟩ := (refractAt_generic h1 h2).mp h
    simp [triple, dot, cross]; ring

/-- A ray at 3-4-5 incidence from index 6/5 into index 8/5 with the normal not of unit length:
the hypotheses of `c02_snell` are met, the ray is really bent. -/
example : refractAt ⟨0, 0, 2⟩ ⟨4/5, 0, 3/5⟩ ((6/5) / (8/5)) = some ⟨3/5, 0, 4/5⟩ := by
  rw [c02_snell (by norm_num) (by norm_num) (by intro h; have := congrArg V3.z h; norm_num at this)
    (by norm_num [dot]) (by norm_num [dot])]
  refine ⟨by norm_num [dot], ?_, by norm_num [dot]⟩
  ext <;> simp [cross] <;> norm_num

/-- C02 fails for rays travelling against the normal: the code sends the ray back.  (Here the
indices differ only slightly; a transmitted ray should keep its direction `-z`.) -/
theorem c02_backward_violation :
    ∃ (r u0 u : V3) (mu : ℝ), 0 < mu ∧ u0.dot u0 = 1 ∧ u0.dot r < 0 ∧
      refractAt r u0 mu = some u ∧ 0 < u.dot r := by
  refine ⟨⟨0, 0, 1⟩, ⟨0, 0, -1⟩, ⟨0, 0, 1⟩, 2, by norm_num, by norm_num [dot], by norm_num [dot],
    ?_, by norm_num [dot]⟩
  rw [refractAt_generic (by norm_num) (by norm_num)]
  refine ⟨by norm_num [dot], by norm_num [dot], ?_⟩
  have : √(((|2| : ℝ) * (⟨0, 0, -1⟩ : V3).dot ⟨0, 0, 1⟩ / (⟨0, 0, 1⟩ : V3).dot ⟨0, 0, 1⟩) ^ 2
      - (2 ^ 2 - 1) / (⟨0, 0, 1⟩ : V3).dot ⟨0, 0, 1⟩) = 1 := by
    norm_num [dot]
  rw [this, sign_pos (by norm_num)]
  ext <;> simp [dot]

/-- C03: at a mirror the code computes exactly the reflected direction. -/
theorem c03_reflect {r u0 : V3} (hr : r ≠ 0) (u : V3) :
    refractAt r u0 (-1) = some u ↔ Reflected r u0 u := by
  have hrr := (dot_self_pos hr).ne'
  have hval : refractAt r u0 (-1) = some (u0 - (2 * (u0.dot r / r.dot r)) • r) := by
    unfold refractAt; norm_num [hrr]
  have href : Reflected r u0 (u0 - (2 * (u0.dot r / r.dot r)) • r) := by
    constructor
    · ext <;> simp [cross] <;> ring
    · have : (u0 - (2 * (u0.dot r / r.dot r)) • r).dot r
          = u0.dot r - 2 * (u0.dot r / r.dot r) * r.dot r := by simp [dot]; ring
      rw [this]; field_simp; ring
  rw [hval]
  constructor
  · intro h; rw [← Option.some.inj h]; exact href
  · intro h
    exact congrArg some (eq_of_dot_cross hr (href.tangential.trans h.tangential.symm)
      (href.normal.trans h.normal.symm))

/-- C03: reflecting twice restores the ray. -/
theorem c03_reflect_involution {r u0 u : V3} (h : refractAt r u0 (-1) = some u) :
    refractAt r u (-1) = some u0 := by
  have hr : r ≠ 0 := by
    rintro rfl; norm_num [refractAt, dot] at h; cases h
  have hs := (c03_reflect hr u).mp h
  exact (c03_reflect hr u0).mpr ⟨hs.tangential.symm, by rw [hs.normal]; ring⟩

example : refractAt ⟨0, 3, 4⟩ ⟨0, 0, 1⟩ (-1) = some ⟨0, -24/25, -7/25⟩ := by
  rw [c03_reflect (by intro h; have := congrArg V3.z h; norm_num at this)]
  constructor
  · ext <;> norm_num [cross]
  · norm_num [dot]

/-- C04: NaN is returned exactly when no unit vector satisfies Snell's law, which is exactly when
`mu sin θ0 > 1`. -/
theorem c04_tir {r u0 : V3} {mu : ℝ} (hmu : 0 < mu) (hr : r ≠ 0) (hu : u0.dot u0 = 1) :
    (refractAt r u0 mu = none ↔ ¬∃ u : V3, u.dot u = 1 ∧ u.cross r = mu • u0.cross r) ∧
    (refractAt r u0 mu = none ↔ 1 < mu * ((u0.cross r).norm / r.norm)) := by
  have hrr := dot_self_pos hr
  have hrn : 0 < r.norm := Real.sqrt_pos.mpr hrr
  have hsin : 1 < mu * ((u0.cross r).norm / r.norm) ↔
      r.dot r < mu ^ 2 * (u0.cross r).dot (u0.cross r) := by
    rw [← norm_sq r, ← norm_sq (u0.cross r), ← mul_div_assoc, lt_div_iff₀ hrn, one_mul, ← mul_pow]
    rw [sq_lt_sq₀ (norm_nonneg _) (by have := norm_nonneg (u0.cross r); positivity)]
  have hnone : refractAt r u0 mu = none ↔ r.dot r < mu ^ 2 * (u0.cross r).dot (u0.cross r) := by
    by_cases h1 : mu = 1
    · subst h1
      have hl := lagrange u0 r
      rw [hu] at hl
      simp only [refractAt, if_true, reduceCtorEq, false_iff, not_lt]
      nlinarith [sq_nonneg (u0.dot r)]
    · have h2 : mu ≠ -1 := by intro h; linarith
      have hd := disc_eq (mu := mu) hrr.ne' hu
      rw [Option.eq_none_iff_forall_not_mem]
      have hsq : 0 < (r.dot r) ^ 2 := by positivity
      constructor
      · intro h
        by_contra hlt
        have h0 : 0 ≤ (|mu| * u0.dot r / r.dot r) ^ 2 - (mu ^ 2 - 1) / r.dot r :=
          nonneg_of_mul_nonneg_left (by rw [hd]; linarith [not_lt.mp hlt]) hsq
        exact h _ ((refractAt_generic h1 h2).mpr ⟨hrr.ne', h0, rfl⟩)
      · intro hlt v hv
        have := ((refractAt_generic h1 h2).mp hv).2.1
        have := mul_nonneg this hsq.le
        rw [hd] at this; linarith
  refine ⟨?_, by rw [hnone, hsin]⟩
  constructor
  · rintro h ⟨u, hu1, hc⟩
    have hl := lagrange u r
    rw [hu1, hc, dot_smul_smul] at hl
    have := hnone.mp h
    nlinarith [sq_nonneg (u.dot r)]
  · intro h
    by_contra hne
    obtain ⟨v, hv⟩ := Option.ne_none_iff_exists'.mp hne
    apply h
    refine ⟨v, c01_refract_unit hmu.ne' hu hv, ?_⟩
    by_cases h1 : mu = 1
    · subst h1; simp [refractAt] at hv; subst hv; ext <;> simp
    · exact (refract_components h1 hmu hv).1

/-- Total internal reflection does occur: glass to air (mu = 3/2) at sin θ0 = 4/5. -/
example : refractAt ⟨0, 0, 1⟩ ⟨4/5, 0, 3/5⟩ (3/2) = none := by
  rw [((c04_tir (by norm_num) (by intro h; have := congrArg V3.z h; norm_num at this)
    (by norm_num [dot])).1)]
  rintro ⟨u, hu, hc⟩
  have hx := congrArg V3.x hc; have hy := congrArg V3.y hc; have hz := congrArg V3.z hc
  simp [cross] at hx hy
  simp only [dot] at hu
  norm_num at hy
  have : u.x = 6/5 := by linarith
  rw [hx, this] at hu
  nlinarith [mul_self_nonneg u.z]

/-- C05: reversibility.  The reversed refracted ray, at the reversed normal and reciprocal index
ratio, gives the reversed incoming ray. -/
theorem c05_reversible {n0 n : ℝ} (hn0 : 0 < n0) (hn : 0 < n) {r u0 u : V3} (hr : r ≠ 0)
    (hu : u0.dot u0 = 1) (hside : 0 ≤ u0.dot r) (h : refractAt r u0 (n0 / n) = some u) :
    refractAt (-r) (-u) (n / n0) = some (-u0) := by
  have hs := (c02_snell hn0 hn hr hu hside u).mp h
  have hneg : ∀ a b : V3, (-a).dot (-b) = a.dot b := by intro a b; simp [dot]
  have hnegc : ∀ a b : V3, (-a).cross (-b) = a.cross b := by intro a b; ext <;> simp [cross]
  have hr' : -r ≠ 0 := by
    intro h; apply hr
    have hx := congrArg V3.x h; have hy := congrArg V3.y h; have hz := congrArg V3.z h
    simp at hx hy hz; ext <;> simpa
  rw [c02_snell hn hn0 hr' (by rw [hneg]; exact hs.unit) (by rw [hneg]; exact hs.side)]
  exact ⟨by rw [hneg]; exact hu, by rw [hnegc, hnegc]; exact hs.tangential.symm,
    by rw [hneg]; exact hside⟩

example : refractAt (-⟨0, 0, 2⟩) (-⟨3/5, 0, 4/5⟩) ((8/5) / (6/5)) = some (-⟨4/5, 0, 3/5⟩) := by
  apply c05_reversible (by norm_num) (by norm_num)
    (by intro h; have := congrArg V3.z h; norm_num at this) (by norm_num [dot]) (by norm_num [dot])
  rw [c02_snell (by norm_num) (by norm_num) (by intro h; have := congrArg V3.z h; norm_num at this)
    (by norm_num [dot]) (by norm_num [dot])]
  refine ⟨by norm_num [dot], ?_, by norm_num [dot]⟩
  ext <;> simp [cross] <;> norm_num

end RayOpt
