import Verif.Lemmas.Surface

/-!
Properties C06, C07, C08: intersection of a ray with a spheroid and the surface normal.
-/

namespace RayOpt

open V3 Shape Filter Topology

/-! ## Specification -/

/-- The quadric `c (x² + y² + (1+k) z²) = 2 z`: the rotational conic section with vertex at the
origin, vertex curvature `c` and conic constant `k`. -/
def OnQuadric (c k : ℝ) (p : V3) : Prop :=
  c * (p.x ^ 2 + p.y ^ 2 + (1 + k) * p.z ^ 2) = 2 * p.z

/-- The part of the quadric that is connected to the vertex as a graph over the `x, y` plane. -/
def OnVertexSheet (c k : ℝ) (p : V3) : Prop := 0 ≤ 1 - (1 + k) * c * p.z

/-- The textbook sag equation `z = c ρ² / (1 + √(1 - (1+k) c² ρ²))`. -/
def OnConicGraph (c k : ℝ) (p : V3) : Prop :=
  0 ≤ 1 - (1 + k) * c ^ 2 * (p.x ^ 2 + p.y ^ 2) ∧
  p.z = c * (p.x ^ 2 + p.y ^ 2) / (1 + √(1 - (1 + k) * c ^ 2 * (p.x ^ 2 + p.y ^ 2)))

/-- Gradient of `z - (c/2) (x² + y² + (1+k) z²)`, pointing to `+z` at the vertex. -/
def quadricNormal (c k : ℝ) (p : V3) : V3 := ⟨-(c * p.x), -(c * p.y), 1 - (1 + k) * c * p.z⟩

/-- The quadratic coefficient of the intersection equation: zero exactly when the line meets the
quadric in at most one finite point. -/
def quadCoeff (c k : ℝ) (u : V3) : ℝ := c * (u.x ^ 2 + u.y ^ 2 + (1 + k) * u.z ^ 2)

/-- The code's intersection equation. -/
theorem onQuadric_iff (c k : ℝ) (y u : V3) (s : ℝ) :
    OnQuadric c k (y + s • u) ↔
      quadCoeff c k u * s ^ 2
        + 2 * (c * (u.x * y.x + u.y * y.y + u.z * y.z * (1 + k)) - u.z) * s
        + (c * (y.x ^ 2 + y.y ^ 2 + y.z ^ 2 * (1 + k)) - 2 * y.z) = 0 := by
  simp only [OnQuadric, quadCoeff, add_x, add_y, add_z, smul_x, smul_y, smul_z]
  constructor <;> intro h <;> linear_combination h

/-- The analytic branch in closed form, for unit directions. -/
theorem interceptConic_eq (s : Shape) (y u : V3) (hu : u.norm = 1) (hc : s.curvature ≠ 0) :
    interceptConic s y u =
      let d := s.curvature * (u.x * y.x + u.y * y.y + u.z * y.z * (1 + s.conic)) - u.z
      let e := quadCoeff s.curvature s.conic u
      let f := s.curvature * (y.x ^ 2 + y.y ^ 2 + y.z ^ 2 * (1 + s.conic)) - 2 * y.z
      if d ^ 2 - e * f < 0 then none
      else if e = 0 then none
      else some (-(d + (if s.alternate then -√(d ^ 2 - e * f) else √(d ^ 2 - e * f))) / e) := by
  have h1 := dot_self_of_norm hu
  simp only [dot] at h1
  unfold interceptConic
  simp only [hc, if_false]
  have huu : (if s.conic = 0 then (1 : ℝ) else u.x ^ 2 + u.y ^ 2 + u.z ^ 2 * (1 + s.conic)) =
      u.x ^ 2 + u.y ^ 2 + (1 + s.conic) * u.z ^ 2 := by
    split_ifs with hk
    · rw [hk]; linarith
    · ring
  have huy : (if s.conic = 0 then u.dot y else
      u.x * y.x + u.y * y.y + u.z * y.z * (1 + s.conic)) =
      u.x * y.x + u.y * y.y + u.z * y.z * (1 + s.conic) := by
    split_ifs with hk
    · rw [hk]; simp only [dot]; ring
    · rfl
  have hyy : (if s.conic = 0 then y.x ^ 2 + y.y ^ 2 + y.z ^ 2 else
      y.x ^ 2 + y.y ^ 2 + y.z ^ 2 * (1 + s.conic)) =
      y.x ^ 2 + y.y ^ 2 + y.z ^ 2 * (1 + s.conic) := by
    split_ifs with hk
    · rw [hk]; ring
    · rfl
  rw [huu, huy, hyy]
  simp only [quadCoeff, mul_neg, mul_one]
  congr

/-! ## C06 -/

/-- C06: a finite path length lands on the quadric, for every curvature (including flat), conic
constant and for both choices of the root. -/
theorem c06_on_quadric (nwt : NewtonFn) (s : Shape) (y u : V3) (t : ℝ)
    (ha : s.aspherics = none) (hu : u.norm = 1) (h : s.intercept nwt y u = some t) :
    OnQuadric s.curvature s.conic (y + t • u) := by
  unfold intercept at h
  rw [ha] at h
  simp only at h
  by_cases hc : s.curvature = 0
  · simp only [interceptConic, hc, if_true, interceptPlane] at h
    split_ifs at h with hz
    cases h
    simp only [OnQuadric, hc, add_z, smul_z]
    field_simp
    ring
  · rw [interceptConic_eq s y u hu hc] at h
    rw [onQuadric_iff]
    simp only at h
    split_ifs at h with hd he ha
    all_goals
      have hg := Real.sq_sqrt (not_lt.mp hd)
      generalize √_ = g at h hg
      generalize s.curvature * (u.x * y.x + u.y * y.y + u.z * y.z * (1 + s.conic)) - u.z = d at *
      generalize s.curvature * (y.x ^ 2 + y.y ^ 2 + y.z ^ 2 * (1 + s.conic)) - 2 * y.z = f at *
      generalize quadCoeff s.curvature s.conic u = e at *
      cases h
      field_simp
      linear_combination hg

/-- C06: the surface function of the code vanishes exactly on the textbook conic graph, which is
exactly the vertex sheet of the quadric. -/
theorem c06_sag_zero_iff (s : Shape) (p : V3) (ha : s.aspherics = none) :
    (s.surfaceSag p = some 0 ↔ OnConicGraph s.curvature s.conic p) ∧
    (s.surfaceSag p = some 0 ↔
      OnQuadric s.curvature s.conic p ∧ OnVertexSheet s.curvature s.conic p) := by
  have key : OnConicGraph s.curvature s.conic p ↔
      OnQuadric s.curvature s.conic p ∧ OnVertexSheet s.curvature s.conic p := by
    unfold OnConicGraph OnQuadric OnVertexSheet
    generalize s.curvature = c
    generalize s.conic = k
    obtain ⟨x, y, z⟩ := p
    simp only
    generalize hρ : x ^ 2 + y ^ 2 = ρ
    have h0 : 0 ≤ ρ := by rw [← hρ]; positivity
    constructor
    · rintro ⟨h1, h2⟩
      have hw := Real.sq_sqrt h1
      have hw0 := Real.sqrt_nonneg (1 - (1 + k) * c ^ 2 * ρ)
      generalize √(1 - (1 + k) * c ^ 2 * ρ) = w at *
      have hz : z * (1 + w) = c * ρ := by rw [h2]; field_simp
      have hkz : 1 - (1 + k) * c * z = w := by
        have : (1 + w) * (1 - (1 + k) * c * z) = (1 + w) * w := by
          linear_combination (-((1 + k) * c)) * hz - hw
        exact mul_left_cancel₀ (by positivity) this
      refine ⟨?_, hkz ▸ hw0⟩
      linear_combination (-1) * hz - z * hkz
    · rintro ⟨h1, h2⟩
      have hsq : 1 - (1 + k) * c ^ 2 * ρ = (1 - (1 + k) * c * z) ^ 2 := by
        linear_combination (-((1 + k) * c)) * h1
      rw [hsq, Real.sqrt_sq h2]
      refine ⟨sq_nonneg _, ?_⟩
      rw [eq_div_iff (by linarith)]
      linear_combination (-1) * h1
  have h1 : s.surfaceSag p = some 0 ↔ OnConicGraph s.curvature s.conic p := by
    unfold surfaceSag OnConicGraph
    have e : p.x * p.x + p.y * p.y = p.x ^ 2 + p.y ^ 2 := by ring
    simp only [ha, and_true, rsq, e]
    by_cases hc : s.curvature = 0
    · simp [hc]
    · simp only [hc, if_false, ne_eq, not_false_iff, if_true]
      split_ifs with h
      · simp; intro h'; linarith
      · simp only [Option.some.injEq]
        constructor
        · intro h'; exact ⟨not_lt.mp h, by linarith⟩
        · rintro ⟨_, h'⟩; linarith
  exact ⟨h1, h1.trans key⟩

/-- C06: a traced ray lands on the surface: at the intercept the code's surface function is zero
whenever the point is on the vertex sheet. -/
theorem c06_on_surface (nwt : NewtonFn) (s : Shape) (y u : V3) (t : ℝ)
    (ha : s.aspherics = none) (hu : u.norm = 1) (h : s.intercept nwt y u = some t)
    (hs : OnVertexSheet s.curvature s.conic (y + t • u)) :
    s.surfaceSag (y + t • u) = some 0 :=
  (c06_sag_zero_iff s _ ha).2.mpr ⟨c06_on_quadric nwt s y u t ha hu h, hs⟩

/-- C06: which of the two intersections is returned.  The default root is the one where the ray
crosses the quadric along the normal that points to `+z` at the vertex, the alternate root the one
where it crosses against it. -/
theorem c06_root_side (nwt : NewtonFn) (s : Shape) (y u : V3) (t : ℝ)
    (ha : s.aspherics = none) (hc : s.curvature ≠ 0) (hu : u.norm = 1)
    (h : s.intercept nwt y u = some t) :
    if s.alternate then u.dot (quadricNormal s.curvature s.conic (y + t • u)) ≤ 0
    else 0 ≤ u.dot (quadricNormal s.curvature s.conic (y + t • u)) := by
  unfold intercept at h
  rw [ha] at h
  simp only at h
  rw [interceptConic_eq s y u hu hc] at h
  simp only at h
  have key : ∀ t, u.dot (quadricNormal s.curvature s.conic (y + t • u)) =
      -((s.curvature * (u.x * y.x + u.y * y.y + u.z * y.z * (1 + s.conic)) - u.z) +
        quadCoeff s.curvature s.conic u * t) := by
    intro t
    simp only [dot, quadricNormal, quadCoeff, add_x, add_y, add_z, smul_x, smul_y, smul_z]
    ring
  rw [key]
  split_ifs at h with hd he ha
  all_goals
    have hg := Real.sqrt_nonneg ((s.curvature * (u.x * y.x + u.y * y.y + u.z * y.z * (1 + s.conic))
      - u.z) ^ 2 - quadCoeff s.curvature s.conic u *
      (s.curvature * (y.x ^ 2 + y.y ^ 2 + y.z ^ 2 * (1 + s.conic)) - 2 * y.z))
    generalize √_ = g at h hg
    generalize s.curvature * (u.x * y.x + u.y * y.y + u.z * y.z * (1 + s.conic)) - u.z = d at *
    generalize quadCoeff s.curvature s.conic u = e at *
    cases h
    simp only [ha, if_true]
    have : -(d + e * (-(d + g) / e)) = g := by field_simp; ring
    have : -(d + e * (-(d + -g) / e)) = -g := by field_simp; ring
    first | linarith | (simp only [Bool.false_eq_true, if_false]; linarith)

/-- C06: at a curved surface the default root is never crossed backwards by the code's own normal:
`u0 . r >= 0`, so the refraction formula is used on the side where it is right (C02). -/
theorem c06_forward_incidence (nwt : NewtonFn) (s : Shape) (y u r : V3) (t : ℝ)
    (ha : s.aspherics = none) (hc : s.curvature ≠ 0) (hu : u.norm = 1)
    (halt : s.alternate = false) (h : s.intercept nwt y u = some t)
    (hs : OnVertexSheet s.curvature s.conic (y + t • u))
    (hr : s.surfaceNormal (y + t • u) = some r) : 0 ≤ u.dot r := by
  have h1 := c06_root_side nwt s y u t ha hc hu h
  rw [halt] at h1
  simp only [Bool.false_eq_true, if_false] at h1
  have h2 := c06_on_quadric nwt s y u t ha hu h
  generalize y + t • u = p at *
  unfold surfaceNormal at hr
  simp only [ha, hc, false_and, if_false, ne_eq, not_false_iff, if_true, rsq] at hr
  unfold OnQuadric at h2
  unfold OnVertexSheet at hs
  have hsq : 1 - (1 + s.conic) * s.curvature ^ 2 * (p.x * p.x + p.y * p.y) =
      (1 - (1 + s.conic) * s.curvature * p.z) ^ 2 := by
    linear_combination (-((1 + s.conic) * s.curvature)) * h2
  simp only [hsq, Real.sqrt_sq hs] at hr
  split_ifs at hr with hw
  · simp at hr
  · simp only [Option.map_some, Option.some.injEq] at hr
    subst hr
    have hw' : 0 < 1 - (1 + s.conic) * s.curvature * p.z := by
      rcases hs.lt_or_eq with h | h
      · exact h
      · exfalso; apply hw; rw [← h]; norm_num
    have e : u.dot ⟨p.x * (0 - s.curvature / (1 - (1 + s.conic) * s.curvature * p.z)),
        p.y * (0 - s.curvature / (1 - (1 + s.conic) * s.curvature * p.z)), 1⟩ =
        u.dot (quadricNormal s.curvature s.conic p) / (1 - (1 + s.conic) * s.curvature * p.z) := by
      simp only [dot, quadricNormal]
      generalize 1 - (1 + s.conic) * s.curvature * p.z = w at hw'
      field_simp
      ring
    rw [e]
    positivity

/-- A sphere of radius 2 hit by an oblique ray. -/
example : ∃ t, (Shape.intercept (fun _ _ _ => none) ⟨1 / 2, 0, none, false⟩ ⟨0, 0, -1⟩ ⟨0, 0, 1⟩)
    = some t ∧ OnVertexSheet (1 / 2) 0 ((⟨0, 0, -1⟩ : V3) + t • (⟨0, 0, 1⟩ : V3)) ∧
    V3.norm ⟨0, 0, 1⟩ = 1 := by
  refine ⟨1, ?_, ?_, ?_⟩
  · simp only [Shape.intercept, interceptConic, dot]
    norm_num [Real.sqrt_eq_one]
  · norm_num [OnVertexSheet]
  · norm_num [V3.norm, dot]

/-! ## C07 -/

/-- C07: for a curved surface and a ray with non-zero quadratic coefficient, no intercept is
reported iff the line of the ray misses the quadric. -/
theorem c07_none_iff (nwt : NewtonFn) (s : Shape) (y u : V3)
    (ha : s.aspherics = none) (hc : s.curvature ≠ 0) (hu : u.norm = 1)
    (he : quadCoeff s.curvature s.conic u ≠ 0) :
    s.intercept nwt y u = none ↔ ¬ ∃ t : ℝ, OnQuadric s.curvature s.conic (y + t • u) := by
  unfold intercept
  rw [ha]
  simp only
  rw [interceptConic_eq s y u hu hc]
  simp only [onQuadric_iff, he, if_false]
  generalize s.curvature * (u.x * y.x + u.y * y.y + u.z * y.z * (1 + s.conic)) - u.z = d
  generalize s.curvature * (y.x ^ 2 + y.y ^ 2 + y.z ^ 2 * (1 + s.conic)) - 2 * y.z = f
  generalize quadCoeff s.curvature s.conic u = e at *
  constructor
  · intro h
    split_ifs at h with hd
    rintro ⟨t, ht⟩
    have : (e * t + d) ^ 2 = d ^ 2 - e * f := by linear_combination e * ht
    nlinarith [sq_nonneg (e * t + d)]
  · intro h
    split_ifs with hd
    · rfl
    · exfalso
      apply h
      refine ⟨-(d + √(d ^ 2 - e * f)) / e, ?_⟩
      have hg := Real.sq_sqrt (not_lt.mp hd)
      generalize √_ = g at hg
      field_simp
      linear_combination hg

/-- C07: the default and the alternate choice together return exactly the intersection
parameters. -/
theorem c07_roots (nwt : NewtonFn) (c k : ℝ) (y u : V3) (t : ℝ)
    (hc : c ≠ 0) (hu : u.norm = 1) (he : quadCoeff c k u ≠ 0) :
    OnQuadric c k (y + t • u) ↔
      (Shape.intercept nwt ⟨c, k, none, false⟩ y u = some t ∨
       Shape.intercept nwt ⟨c, k, none, true⟩ y u = some t) := by
  constructor
  · intro h
    rw [onQuadric_iff] at h
    simp only [Shape.intercept]
    rw [interceptConic_eq _ y u hu hc, interceptConic_eq _ y u hu hc]
    simp only [he, if_false, if_true, Bool.false_eq_true]
    generalize c * (u.x * y.x + u.y * y.y + u.z * y.z * (1 + k)) - u.z = d at *
    generalize c * (y.x ^ 2 + y.y ^ 2 + y.z ^ 2 * (1 + k)) - 2 * y.z = f at *
    generalize quadCoeff c k u = e at *
    have hdisc : d ^ 2 - e * f = (e * t + d) ^ 2 := by linear_combination (-e) * h
    rw [hdisc, if_neg (not_lt.mpr (sq_nonneg _)), if_neg (not_lt.mpr (sq_nonneg _)),
      Real.sqrt_sq_eq_abs]
    rcases le_total 0 (e * t + d) with hs | hs
    · right
      rw [abs_of_nonneg hs]
      congr 1
      field_simp
      ring
    · left
      rw [abs_of_nonpos hs]
      congr 1
      field_simp
      ring
  · rintro (h | h)
    · exact c06_on_quadric nwt ⟨c, k, none, false⟩ y u t rfl hu h
    · exact c06_on_quadric nwt ⟨c, k, none, true⟩ y u t rfl hu h

/-- C07, flat surface: the intercept is missing iff the ray is parallel to the plane. -/
theorem c07_flat (nwt : NewtonFn) (s : Shape) (y u : V3)
    (ha : s.aspherics = none) (hc : s.curvature = 0) :
    (s.intercept nwt y u = none ↔ u.z = 0) ∧
    ∀ t, s.intercept nwt y u = some t → ∀ t', (y + t' • u).z = 0 ↔ t' = t := by
  simp only [Shape.intercept, ha, interceptConic, hc, if_true, interceptPlane]
  constructor
  · split_ifs with h <;> simp [h]
  · intro t h t'
    split_ifs at h with hz
    cases h
    simp only [add_z, smul_z]
    constructor
    · intro h; field_simp; linarith
    · intro h; rw [h]; field_simp; ring

/-- Outside the guard of `c07_none_iff`: a paraboloid (`k = -1`) hit by an axial ray has zero
quadratic coefficient; the ray meets the surface but the code divides by zero and reports no
intersection. -/
theorem c07_paraboloid_axial_missed (nwt : NewtonFn) :
    ∃ y u : V3, u.norm = 1 ∧
      Shape.intercept nwt ⟨1, -1, none, false⟩ y u = none ∧
      ∃ t : ℝ, OnQuadric 1 (-1) (y + t • u) ∧ OnVertexSheet 1 (-1) (y + t • u) := by
  refine ⟨⟨1, 0, 0⟩, ⟨0, 0, 1⟩, by norm_num [V3.norm, dot], ?_, 1 / 2, ?_, ?_⟩
  · simp only [Shape.intercept, interceptConic]
    norm_num
  · norm_num [OnQuadric]
  · norm_num [OnVertexSheet]

/-- A conic with non-zero quadratic coefficient. -/
example : quadCoeff (1 / 2) (-1 / 2) ⟨0, 0, 1⟩ ≠ 0 ∧ (1 / 2 : ℝ) ≠ 0 ∧ V3.norm ⟨0, 0, 1⟩ = 1 := by
  refine ⟨?_, ?_, ?_⟩ <;> norm_num [quadCoeff, V3.norm, dot]

/-! ## C08 -/

/-- Specification: `F` is differentiable at `p` with gradient `g`, stated through all differentiable
curves through `p`: the composition is defined near the point and has derivative `g . v`. -/
def HasGradient (F : V3 → Option ℝ) (p g : V3) : Prop :=
  ∀ (x y z : ℝ → ℝ) (v : V3) (t0 : ℝ), x t0 = p.x → y t0 = p.y → z t0 = p.z →
    HasDerivAt x v.x t0 → HasDerivAt y v.y t0 → HasDerivAt z v.z t0 →
    ∃ G : ℝ → ℝ, (∀ᶠ t in 𝓝 t0, F ⟨x t, y t, z t⟩ = some (G t)) ∧ HasDerivAt G (g.dot v) t0

/-- C08: for every curvature, conic constant and list of aspheric coefficients, wherever the code
returns a normal it is the gradient of the surface function, and it is not zero. -/
theorem c08_gradient (s : Shape) (p r : V3) (h : s.surfaceNormal p = some r) :
    HasGradient s.surfaceSag p r ∧ r.z = 1 := by
  obtain ⟨c, k, asp, alt⟩ := s
  constructor
  · intro x y z v t0 hx0 hy0 hz0 hx hy hz
    have hρ : HasDerivAt (fun t => x t * x t + y t * y t) (2 * (p.x * v.x + p.y * v.y)) t0 := by
      have := (hx.mul hx).add (hy.mul hy)
      rw [hx0, hy0] at this
      exact this.congr_deriv (by ring)
    have hρ0 : x t0 * x t0 + y t0 * y t0 = p.x * p.x + p.y * p.y := by rw [hx0, hy0]
    -- the aspheric part
    have hasp : ∀ l : List ℝ, HasDerivAt (fun t => aspSag (x t * x t + y t * y t) l)
        (aspSlope (p.x * p.x + p.y * p.y) l / 2 * (2 * (p.x * v.x + p.y * v.y))) t0 := by
      intro l
      have h1 := aspSag_hasDeriv l (x t0 * x t0 + y t0 * y t0)
      have := HasDerivAt.comp t0 h1 hρ
      rw [hρ0] at this
      exact this
    have hcon : 0 < 1 - (1 + k) * c ^ 2 * (p.x * p.x + p.y * p.y) →
        HasDerivAt (fun t => conicSag c (1 + k) (x t * x t + y t * y t))
          (c / √(1 - (1 + k) * c ^ 2 * (p.x * p.x + p.y * p.y)) / 2 *
            (2 * (p.x * v.x + p.y * v.y))) t0 := by
      intro hpos
      have h1 := conicSag_hasDeriv (c := c) (κ := 1 + k) (ρ := x t0 * x t0 + y t0 * y t0)
        (by rw [hρ0]; exact hpos)
      have := HasDerivAt.comp t0 h1 hρ
      rw [hρ0] at this
      exact this
    have hev : 0 < 1 - (1 + k) * c ^ 2 * (p.x * p.x + p.y * p.y) →
        ∀ᶠ t in 𝓝 t0, 0 < 1 - (1 + k) * c ^ 2 * (x t * x t + y t * y t) := by
      intro hpos
      have hcont : ContinuousAt (fun t => 1 - (1 + k) * c ^ 2 * (x t * x t + y t * y t)) t0 :=
        ((hρ.const_mul ((1 + k) * c ^ 2)).const_sub 1).continuousAt
      apply hcont.eventually (lt_mem_nhds _)
      simp only [hρ0]; exact hpos
    simp only [surfaceNormal, rsq] at h
    by_cases hc : c = 0
    · subst hc
      cases asp with
      | none =>
        simp only [and_self, if_true, Option.some.injEq] at h
        subst h
        refine ⟨z, Eventually.of_forall fun t => ?_, ?_⟩
        · simp [surfaceSag]
        · simpa [dot] using hz
      | some l =>
        simp only [reduceCtorEq, and_false, if_false, ne_eq, not_true_eq_false,
          Option.map_some, Option.some.injEq, true_and] at h
        split_ifs at h with hl
        simp only [Option.some.injEq] at h
        subst h
        refine ⟨fun t => z t - aspSag (x t * x t + y t * y t) l,
          Eventually.of_forall fun t => ?_, ?_⟩
        · simp [surfaceSag, rsq]
        · have := hz.sub (hasp l)
          exact this.congr_deriv (by simp only [dot]; ring)
    · simp only [hc, false_and, if_false, ne_eq, not_false_iff, if_true] at h
      by_cases hpos : 1 - (1 + k) * c ^ 2 * (p.x * p.x + p.y * p.y) ≤ 0
      · simp only [hpos, if_true] at h
        cases asp <;> simp at h
      · simp only [hpos, if_false] at h
        rw [not_le] at hpos
        cases asp with
        | none =>
          simp only [Option.map_some, Option.some.injEq] at h
          subst h
          refine ⟨fun t => z t - conicSag c (1 + k) (x t * x t + y t * y t), ?_, ?_⟩
          · filter_upwards [hev hpos] with t ht
            simp [surfaceSag, rsq, hc, not_lt.mpr ht.le, conicSag]
          · have := hz.sub (hcon hpos)
            exact this.congr_deriv (by simp only [dot]; ring)
        | some l =>
          simp only [Option.map_some, Option.some.injEq] at h
          subst h
          refine ⟨fun t => z t - conicSag c (1 + k) (x t * x t + y t * y t)
            - aspSag (x t * x t + y t * y t) l, ?_, ?_⟩
          · filter_upwards [hev hpos] with t ht
            simp [surfaceSag, rsq, hc, not_lt.mpr ht.le, conicSag]
          · have := (hz.sub (hcon hpos)).sub (hasp l)
            exact this.congr_deriv (by simp only [dot]; ring)
  · simp only [surfaceNormal] at h
    split_ifs at h
    · cases h; rfl
    · rw [Option.map_eq_some_iff] at h
      obtain ⟨e, _, h⟩ := h
      rw [← h]
    · rw [Option.map_eq_some_iff] at h
      obtain ⟨e, _, h⟩ := h
      rw [← h]
    · rw [Option.map_eq_some_iff] at h
      obtain ⟨e, _, h⟩ := h
      rw [← h]

/-- C08: where a normal is returned: everywhere the conic square root is positive.  The only other
exception is the flat surface with an empty coefficient list, for which the code raises. -/
theorem c08_defined (s : Shape) (p : V3) :
    (s.surfaceNormal p).isSome ↔
      (s.curvature = 0 ∧ s.aspherics ≠ some []) ∨
      (s.curvature ≠ 0 ∧ 0 < 1 - (1 + s.conic) * s.curvature ^ 2 * (p.x ^ 2 + p.y ^ 2)) := by
  obtain ⟨c, k, asp, alt⟩ := s
  have e : p.x * p.x + p.y * p.y = p.x ^ 2 + p.y ^ 2 := by ring
  by_cases hc : c = 0
  · subst hc
    cases asp with
    | none => simp [surfaceNormal]
    | some l =>
      by_cases hl : l = []
      · simp [surfaceNormal, hl]
      · simp [surfaceNormal, hl]
  · simp only [surfaceNormal, rsq, hc, false_and, if_false, ne_eq, not_false_iff, if_true, e,
      true_and, false_or]
    cases asp <;> split_ifs with h <;> simp_all

/-- C08: the value of the surface function: textbook sag with aspheric polynomial
`Σ aᵢ ρ^(i+1)` in the squared radius. -/
theorem c08_sag_value (s : Shape) (p : V3) (l : List ℝ) (ha : s.aspherics = some l)
    (h : 0 ≤ 1 - (1 + s.conic) * s.curvature ^ 2 * (p.x ^ 2 + p.y ^ 2)) :
    s.surfaceSag p = some (p.z
      - s.curvature * (p.x ^ 2 + p.y ^ 2)
          / (1 + √(1 - (1 + s.conic) * s.curvature ^ 2 * (p.x ^ 2 + p.y ^ 2)))
      - ∑ i : Fin l.length, l[i] * (p.x ^ 2 + p.y ^ 2) ^ (i.val + 1)) := by
  obtain ⟨c, k, asp, alt⟩ := s
  have e : p.x * p.x + p.y * p.y = p.x ^ 2 + p.y ^ 2 := by ring
  simp only at ha h
  subst ha
  rw [← aspSag_sum]
  by_cases hc : c = 0
  · subst hc
    simp [surfaceSag, rsq, e]
  · simp [surfaceSag, rsq, e, hc, not_lt.mpr h]

/-- An asphere with two coefficients has a normal away from the axis. -/
example : ∃ r, (Shape.surfaceNormal ⟨1 / 2, -1, some [1, 2], false⟩ ⟨1, 1, 0⟩) = some r := by
  refine Option.isSome_iff_exists.mp ((c08_defined _ _).mpr (Or.inr ⟨?_, ?_⟩)) <;> norm_num

end RayOpt
