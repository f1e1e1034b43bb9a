import Verif.Lemmas.Axial

/-!
C19: the paraxial matrices are the derivatives of the real ray map at the chief ray, surface by
surface (also for tilted surfaces) and for whole systems.
-/

namespace RayOpt

open V3 Shape Filter Topology Matrix Parax Sys

/-- The two-plane coordinates of a first-order displacement of a ray: position and direction along
`x` and along the transverse axis `e` in the plane of incidence; directions times the index. -/
def beam (n : ℝ) (e y' u' : V3) : PVec :=
  Sum.elim ![y'.x, y'.dot e] ![n * u'.x, n * u'.dot e]

/-- The aperture is not a point. -/
def Radius.Open : Radius → Prop
  | .inf => True
  | .fin r => r ≠ 0

theorem inside_limit {R : Radius} (hR : R.Open) {Q : ℝ → V3} {Q' : V3} (hQ : HasD Q 0 Q') :
    ∀ᶠ t in 𝓝 0, Elem.inside R (Q t) := by
  cases R with
  | inf => simp [Elem.inside]
  | fin r =>
    have hc : ContinuousAt (fun t => (Q t).x ^ 2 + (Q t).y ^ 2) 0 :=
      (hQ.contX.pow 2).add (hQ.contY.pow 2)
    have hr : (r : ℝ) ≠ 0 := hR
    have := hc.eventually_lt (continuousAt_const (y := r ^ 2)) (by
      show (Q 0).x ^ 2 + (Q 0).y ^ 2 < r ^ 2
      rw [hQ.at0]; simp; positivity)
    filter_upwards [this] with t ht
    exact ht.le

/-- The intersection points of a curve of rays. -/
theorem hit_curve {Y U : ℝ → V3} {Y' U' u0 : V3} {d : ℝ} (hY : HasD Y (-(d • u0)) Y')
    (hU : HasD U u0 U') {T : ℝ → ℝ} {T' : ℝ} (hT : HasDerivAt T T' 0) (hT0 : T 0 = d) :
    HasD (fun t => Y t + T t • U t) 0 (Y' + (T' • u0 + d • U')) := by
  refine (hY.add (HasD.smul hT hU)).congr ?_ ?_
  · rw [hT0]; ext <;> simp
  · rw [hT0]

theorem propagate_surface (nwt : NewtonFn) (e : Elem) (sh : Shape) (he : e.shape = some sh)
    (y u q : V3) (n0 l t : ℝ) (clp : Bool) (ht : sh.intercept nwt y u = some t)
    (hq : y + t • u = q) (hin : Elem.inside e.radius q) :
    (e.propagate nwt (some y) (some u) n0 l clp).y = some q ∧
    (e.propagate nwt (some y) (some u) n0 l clp).n = (Elem.getNMu e.mat n0 l).1 ∧
    (e.propagate nwt (some y) (some u) n0 l clp).u = if (Elem.getNMu e.mat n0 l).2 = 0 then some u
      else Elem.refract sh (some q) (some u) (Elem.getNMu e.mat n0 l).2 := by
  have hclip : (if clp then Elem.clip e.radius (some q) (some u) else some u) = some u := by
    cases clp <;> simp [Elem.clip, hin]
  simp only [Elem.propagate, he, Elem.intercept, Option.bind_some, ht, Option.map_some, hq, hclip,
    Elem.mat]
  exact ⟨trivial, trivial, rfl⟩

theorem surface_action (A C E' D d n0 : ℝ) (A2 : ℝ) (a b p q : ℝ) :
    ((fromBlocks !![A, 0; 0, A2] 0 !![C, 0; 0, E'] !![1, 0; 0, D] : PM) * transfer d n0) *ᵥ
      Sum.elim ![a, b] ![p, q] =
    Sum.elim ![A * (a + d / n0 * p), A2 * (b + d / n0 * q)]
      ![C * (a + d / n0 * p) + p, E' * (b + d / n0 * q) + D * q] := by
  rw [← mulVec_mulVec]
  unfold transfer
  rw [fromBlocks_mulVec, fromBlocks_mulVec]
  funext i
  rcases i with i | i <;> fin_cases i <;> simp [vecHead, vecTail] <;> ring

/-- Coddington's equation for the tangential plane. -/
theorem coddington (n n0 c1 c2 s1 c w qy : ℝ) (hn : n ≠ 0) (hn0 : n0 ≠ 0) (hc1 : c1 ≠ 0)
    (hc2 : c2 ≠ 0) (h : n ^ 2 * c2 ^ 2 = n ^ 2 - n0 ^ 2 * s1 ^ 2) :
    n * (c2 * (n0 / n * (c1 * w) - (c2 - n0 / n * c1) * (c * qy)) - n0 / n * s1 * (n0 / n * (-s1 * w) +
          n0 / n * (-s1 * w - s1 * (c * qy)) * (n0 / n * c1 - c2) / c2)) =
      n / n0 * (n0 * c * (c1 - n / n0 * c2)) / (c1 * (n / n0 * c2)) * (qy * c1)
        + 1 / (n / n0 * c2 / (n / n0 * c1)) * (n0 * w) := by
  field_simp
  linear_combination (n0 * c1 * w + c * qy * (n0 * c1 - n * c2)) * h

theorem beam_eq (n c s : ℝ) (y' u' : V3) : beam n ⟨0, c, s⟩ y' u' =
    Sum.elim ![y'.x, y'.y * c + y'.z * s] ![n * u'.x, n * (u'.y * c + u'.z * s)] := by
  unfold beam
  simp only [V3.dot, mul_zero, zero_add]

/-- C19, refracting surface with tilt: if the chief ray comes in from distance `d` at the angle
`theta` in the y plane and is not totally reflected, then along every curve of unit rays through it
the trace exists near the chief ray, the chief ray leaves along Snell's direction, and the velocities
of position and direction, measured across the chief rays, are mapped by the paraxial matrix. -/
theorem c19_refract (nwt : NewtonFn) (e : Elem) (sh : Shape) (m : Material) (n0 l d s1 theta : ℝ)
    (clp : Bool) (he : e.shape = some sh) (hm : e.mat = some m) (hmir : m.mirror = false)
    (hn0 : 0 < n0) (hn : 0 < m.index l) (hs1 : s1 ^ 2 = Real.sin theta ^ 2)
    (hc1 : 0 < Real.cos theta) (htir : n0 ^ 2 * s1 ^ 2 < m.index l ^ 2) (hR : e.radius.Open)
    (hhit : NearHit nwt sh ⟨0, s1, Real.cos theta⟩ d) (M : PM)
    (hM : Elem.surfMat sh e.mat theta n0 (m.index l) = some M) (Y U : ℝ → V3) (Y' U' : V3)
    (hY : HasD Y (-(d • ⟨0, s1, Real.cos theta⟩)) Y') (hU : HasD U ⟨0, s1, Real.cos theta⟩ U')
    (hunit : ∀ᶠ t in 𝓝 0, (U t).norm = 1) :
    ∃ (Q U2 : ℝ → V3) (Q' U2' : V3) (s2 c2 : ℝ),
      (∀ᶠ t in 𝓝 0, (e.propagate nwt (some (Y t)) (some (U t)) n0 l clp).y = some (Q t) ∧
        (e.propagate nwt (some (Y t)) (some (U t)) n0 l clp).u = some (U2 t) ∧
        (e.propagate nwt (some (Y t)) (some (U t)) n0 l clp).n = m.index l) ∧
      HasD Q 0 Q' ∧ HasD U2 ⟨0, s2, c2⟩ U2' ∧
      m.index l * s2 = n0 * s1 ∧ 0 < c2 ∧ s2 ^ 2 + c2 ^ 2 = 1 ∧
      beam (m.index l) ⟨0, c2, -s2⟩ Q' U2'
        = (M * transfer d n0) *ᵥ beam n0 ⟨0, Real.cos theta, -s1⟩ Y' U' := by
  obtain ⟨T, T', G, hT, hTd, hT0, hsag, -, hGd⟩ := hhit Y U Y' U' hY hU hunit
  have hQ := hit_curve hY hU hTd hT0
  set c1 := Real.cos theta with hc1def
  have hsc : s1 ^ 2 + c1 ^ 2 = 1 := by rw [hs1]; exact Real.sin_sq_add_cos_sq theta
  set n := m.index l with hndef
  set Q' : V3 := Y' + (T' • ⟨0, s1, c1⟩ + d • U') with hQ'
  unfold Elem.surfMat at hM
  rw [hm, Option.bind_eq_some_iff] at hM
  obtain ⟨c, hcur, hM⟩ := hM
  simp only [hmir, Bool.false_eq_true, if_false] at hM
  split at hM
  · cases hM
  rename_i hgood
  push Not at hgood
  have hQz := sag_limit_near hcur hQ hsag hGd
  obtain ⟨R, hRn, hRd⟩ := normal_limit sh c hcur _ Q' hQ
  have hin := inside_limit hR hQ
  have hmu : 0 < n0 / n := div_pos hn0 hn
  have hs2 : 0 < 1 - (n0 / n) ^ 2 * s1 ^ 2 := by
    rw [div_pow, div_mul_eq_mul_div, sub_pos, div_lt_one (by positivity)]
    exact htir
  have hperp := hU.unit hunit
  simp only [V3.dot, zero_mul, zero_add] at hperp
  -- the beam in, in terms of one number per plane
  have hq1 : Q'.y * c1 = (Y'.y * c1 - Y'.z * s1) + d * (U'.y * c1 - U'.z * s1) := by
    have hz : Y'.z + (T' * c1 + d * U'.z) = 0 := by simpa [hQ'] using hQz
    have hy : Q'.y = Y'.y + (T' * s1 + d * U'.y) := by simp [hQ']
    rw [hy]
    linear_combination s1 * hz
  have hqx : Q'.x = Y'.x + d * U'.x := by simp [hQ']
  set c2 := √(1 - (n0 / n) ^ 2 * s1 ^ 2) with hc2
  have hc2p : 0 < c2 := Real.sqrt_pos.mpr hs2
  have hc2s : c2 ^ 2 = 1 - (n0 / n) ^ 2 * s1 ^ 2 := Real.sq_sqrt hs2.le
  have hp : pRoot (n / n0) c1 = n / n0 * c2 := by
    unfold pRoot
    rw [← Real.sqrt_sq (show 0 ≤ n / n0 * c2 by positivity)]
    congr 1
    rw [mul_pow, hc2s]
    field_simp
    linear_combination n0 ^ 2 * hsc
  have hfin : ∀ u2' : V3, u2'.x = n0 / n * U'.x - (c2 - n0 / n * c1) * (c * Q'.x) →
      u2'.y * c2 - u2'.z * (n0 / n * s1) =
        c2 * (n0 / n * U'.y - (c2 - n0 / n * c1) * (c * Q'.y)) - n0 / n * s1 * (n0 / n * U'.z +
          n0 / n * (U'.z - s1 * (c * Q'.y)) * (n0 / n * c1 - c2) / c2) →
      beam n ⟨0, c2, -(n0 / n * s1)⟩ Q' u2' = (M * transfer d n0) *ᵥ beam n0 ⟨0, c1, -s1⟩ Y' U' := by
    intro u2' hx hy
    have hw : U'.y = c1 * (U'.y * c1 - U'.z * s1) ∧ U'.z = -s1 * (U'.y * c1 - U'.z * s1) := by
      constructor
      · linear_combination s1 * hperp - U'.y * hsc
      · linear_combination c1 * hperp - U'.z * hsc
    obtain ⟨hw1, hw2⟩ := hw
    rw [beam_eq, beam_eq, hQz]
    cases hM
    unfold refractMat
    rw [← hc1def, hp]
    have e1 : n ^ 2 * c2 ^ 2 = n ^ 2 - n0 ^ 2 * s1 ^ 2 := by rw [hc2s]; field_simp
    have hn' : n ≠ 0 := hn.ne'
    have hn0' : n0 ≠ 0 := hn0.ne'
    have hc1' : c1 ≠ 0 := hc1.ne'
    have hc2' : c2 ≠ 0 := hc2p.ne'
    simp only
    rw [surface_action]
    have hy' : u2'.y * c2 + u2'.z * -(n0 / n * s1) = u2'.y * c2 - u2'.z * (n0 / n * s1) := by ring
    have hq1' : Y'.y * c1 + Y'.z * -s1 + d / n0 * (n0 * (U'.y * c1 + U'.z * -s1)) = Q'.y * c1 := by
      rw [hq1]; field_simp; ring
    have hqx' : Y'.x + d / n0 * (n0 * U'.x) = Q'.x := by rw [hqx]; field_simp
    have hw' : U'.y * c1 + U'.z * -s1 = U'.y * c1 - U'.z * s1 := by ring
    rw [hy', hy, hx, hq1', hqx', hw']
    set w := U'.y * c1 - U'.z * s1 with hwdef
    rw [hw1, hw2, coddington n n0 c1 c2 s1 c w Q'.y hn' hn0' hc1' hc2' e1]
    have k1 : Q'.y * c2 + 0 * -(n0 / n * s1) = n / n0 * c2 / (n / n0 * c1) * (Q'.y * c1) := by
      field_simp; ring
    have k2 : n * (n0 / n * U'.x - (c2 - n0 / n * c1) * (c * Q'.x))
        = n0 * c * (c1 - n / n0 * c2) * Q'.x + n0 * U'.x := by
      field_simp; ring
    rw [k1, k2, one_mul]
  by_cases hmu1 : n0 / n = 1
  · have hnn : n0 = n := by field_simp at hmu1; exact hmu1
    have hc21 : c2 = c1 := by
      rw [hc2, hmu1, ← Real.sqrt_sq hc1.le]
      congr 1
      linarith
    refine ⟨_, U, Q', U', n0 / n * s1, c2, ?_, hQ, ?_, by field_simp, hc2p, ?_, hfin U' ?_ ?_⟩
    · filter_upwards [hT, hin] with t h1 h2
      obtain ⟨p1, p2, p3⟩ := propagate_surface nwt e sh he (Y t) (U t) _ n0 l (T t) clp h1 rfl h2
      refine ⟨p1, ?_, ?_⟩
      · rw [p3, hm]
        simp [Elem.getNMu, hmir, Elem.refract, ← hndef, hmu1]
      · rw [p2, hm]; simp [Elem.getNMu, hmir, ← hndef]
    · rw [hmu1, hc21, one_mul]; exact hU
    · rw [hc2s]; ring
    · rw [hmu1, hc21]; ring
    · rw [hmu1, hc21]; field_simp; ring
  · obtain ⟨U2, hU2, hU2d⟩ := refract_limit hRd rfl hU hsc hmu hmu1 hs2
    refine ⟨_, U2, Q', _, n0 / n * s1, c2, ?_, hQ, hU2d, by field_simp, hc2p, ?_, hfin _ ?_ ?_⟩
    · filter_upwards [hT, hin, hRn, hU2] with t h1 h2 h3 h4
      obtain ⟨p1, p2, p3⟩ := propagate_surface nwt e sh he (Y t) (U t) _ n0 l (T t) clp h1 rfl h2
      refine ⟨p1, ?_, ?_⟩
      · rw [p3, hm]
        simp only [Elem.getNMu, hmir, Bool.false_eq_true, if_false, ← hndef, hmu.ne', Elem.refract,
          Option.bind_some, hmu1, h3, h4]
      · rw [p2, hm]; simp [Elem.getNMu, hmir, ← hndef]
    · rw [hc2s]; ring
    · simp [ez]; ring
    · simp [ez]; ring

/-- C19, mirror with tilt, in a medium of index `n0`: the velocities are mapped by the matrix of a
mirror of curvature `n0*c`; for `n0 = 1` this is the code's matrix. -/
theorem c19_mirror (nwt : NewtonFn) (e : Elem) (sh : Shape) (m : Material) (n0 l d s1 c theta : ℝ)
    (clp : Bool) (he : e.shape = some sh) (hm : e.mat = some m) (hmir : m.mirror = true)
    (hn0 : 0 < n0) (hs1 : s1 ^ 2 = Real.sin theta ^ 2) (hc1 : 0 < Real.cos theta)
    (hR : e.radius.Open) (hhit : NearHit nwt sh ⟨0, s1, Real.cos theta⟩ d)
    (hcur : sh.paraxCurv = some c) (Y U : ℝ → V3) (Y' U' : V3)
    (hY : HasD Y (-(d • ⟨0, s1, Real.cos theta⟩)) Y') (hU : HasD U ⟨0, s1, Real.cos theta⟩ U')
    (hunit : ∀ᶠ t in 𝓝 0, (U t).norm = 1) :
    ∃ (Q U2 : ℝ → V3) (Q' U2' : V3),
      (∀ᶠ t in 𝓝 0, (e.propagate nwt (some (Y t)) (some (U t)) n0 l clp).y = some (Q t) ∧
        (e.propagate nwt (some (Y t)) (some (U t)) n0 l clp).u = some (U2 t) ∧
        (e.propagate nwt (some (Y t)) (some (U t)) n0 l clp).n = n0) ∧
      HasD Q 0 Q' ∧ HasD U2 ⟨0, s1, -Real.cos theta⟩ U2' ∧
      beam n0 ⟨0, Real.cos theta, s1⟩ Q' U2'
        = (mirrorMat (n0 * c) (Real.cos theta) * transfer d n0) *ᵥ
          beam n0 ⟨0, Real.cos theta, -s1⟩ Y' U' ∧
      Elem.surfMat sh e.mat theta n0 (m.index l) = some (mirrorMat c (Real.cos theta)) := by
  obtain ⟨T, T', G, hT, hTd, hT0, hsag, -, hGd⟩ := hhit Y U Y' U' hY hU hunit
  have hQ := hit_curve hY hU hTd hT0
  have hsurf : Elem.surfMat sh e.mat theta n0 (m.index l) = some (mirrorMat c (Real.cos theta)) := by
    simp [Elem.surfMat, hcur, hm, hmir, hc1.ne']
  set c1 := Real.cos theta with hc1def
  have hsc : s1 ^ 2 + c1 ^ 2 = 1 := by rw [hs1]; exact Real.sin_sq_add_cos_sq theta
  set Q' : V3 := Y' + (T' • ⟨0, s1, c1⟩ + d • U') with hQ'
  have hQz := sag_limit_near hcur hQ hsag hGd
  obtain ⟨R, hRn, hRd⟩ := normal_limit sh c hcur _ Q' hQ
  have hin := inside_limit hR hQ
  have hq1 : Q'.y * c1 = (Y'.y * c1 - Y'.z * s1) + d * (U'.y * c1 - U'.z * s1) := by
    have hz : Y'.z + (T' * c1 + d * U'.z) = 0 := by simpa [hQ'] using hQz
    have hy : Q'.y = Y'.y + (T' * s1 + d * U'.y) := by simp [hQ']
    rw [hy]
    linear_combination s1 * hz
  have hqx : Q'.x = Y'.x + d * U'.x := by simp [hQ']
  obtain ⟨U2, hU2, hU2d⟩ := mirror_limit hRd rfl hU
  refine ⟨_, U2, Q', _, ?_, hQ, hU2d, ?_, hsurf⟩
  · filter_upwards [hT, hin, hRn, hU2] with t h1 h2 h3 h4
    obtain ⟨p1, p2, p3⟩ := propagate_surface nwt e sh he (Y t) (U t) _ n0 l (T t) clp h1 rfl h2
    refine ⟨p1, ?_, ?_⟩
    · rw [p3, hm]
      have h5 : (-1 : ℝ) ≠ 1 := by norm_num
      simp only [Elem.getNMu, hmir, if_true, Elem.refract, Option.bind_some, h3, h4, h5, if_false]
      simp
    · rw [p2, hm]; simp [Elem.getNMu, hmir]
  · rw [beam_eq, beam_eq, hQz]
    unfold mirrorMat
    have h1 : (1 : M2) = !![1, 0; 0, 1] := by ext i j; fin_cases i <;> fin_cases j <;> rfl
    rw [h1, surface_action]
    have hn0' : n0 ≠ 0 := hn0.ne'
    have hc1' : c1 ≠ 0 := hc1.ne'
    have hq1' : Y'.y * c1 + Y'.z * -s1 + d / n0 * (n0 * (U'.y * c1 + U'.z * -s1)) = Q'.y * c1 := by
      rw [hq1]; field_simp; ring
    have hqx' : Y'.x + d / n0 * (n0 * U'.x) = Q'.x := by rw [hqx]; field_simp
    rw [hq1', hqx']
    clear_value Q'
    simp only [sub_x, sub_y, sub_z, add_x, add_y, add_z, smul_x, smul_y, smul_z, ez]
    congr 1
    · congr 1
      · ring
      · congr 1; ring
    · congr 1
      · ring
      · congr 1
        field_simp
        linear_combination (2 * c * Q'.y) * hsc

/-- C19, surfaces without material and bare elements: only the transfer. -/
theorem c19_dummy (nwt : NewtonFn) (e : Elem) (n0 l d s1 theta : ℝ) (clp : Bool)
    (hm : ∀ sh, e.shape = some sh → e.mat = none ∧ NearHit nwt sh ⟨0, s1, Real.cos theta⟩ d)
    (hn0 : 0 < n0) (hc1 : 0 < Real.cos theta) (hR : e.radius.Open) (Y U : ℝ → V3) (Y' U' : V3)
    (hY : HasD Y (-(d • ⟨0, s1, Real.cos theta⟩)) Y') (hU : HasD U ⟨0, s1, Real.cos theta⟩ U')
    (hunit : ∀ᶠ t in 𝓝 0, (U t).norm = 1) :
    ∃ (Q : ℝ → V3) (Q' : V3),
      (∀ᶠ t in 𝓝 0, (e.propagate nwt (some (Y t)) (some (U t)) n0 l clp).y = some (Q t) ∧
        (e.propagate nwt (some (Y t)) (some (U t)) n0 l clp).u = some (U t) ∧
        (e.propagate nwt (some (Y t)) (some (U t)) n0 l clp).n = n0) ∧
      HasD Q 0 Q' ∧
      beam n0 ⟨0, Real.cos theta, -s1⟩ Q' U'
        = transfer d n0 *ᵥ beam n0 ⟨0, Real.cos theta, -s1⟩ Y' U' := by
  set c1 := Real.cos theta with hc1def
  have hmat : ∀ T' : ℝ, beam n0 ⟨0, c1, -s1⟩ (Y' + (T' • ⟨0, s1, c1⟩ + d • U')) U'
      = transfer d n0 *ᵥ beam n0 ⟨0, c1, -s1⟩ Y' U' := by
    intro T'
    rw [beam_eq, beam_eq]
    unfold transfer
    rw [fromBlocks_mulVec]
    have hn0' : n0 ≠ 0 := hn0.ne'
    funext i
    rcases i with i | i <;> fin_cases i <;> simp [vecHead, vecTail] <;> field_simp <;> ring
  cases he : e.shape with
  | none =>
    obtain ⟨T, T', hT, hTd, hT0, -⟩ := plane_hit hY hU hc1.ne'
    have hQ := hit_curve hY hU hTd hT0
    have hin := inside_limit hR hQ
    refine ⟨_, _, ?_, hQ, hmat T'⟩
    filter_upwards [hT, hin] with t h1 h2
    have hclip : (if clp then Elem.clip e.radius (some (Y t + T t • U t)) (some (U t))
        else some (U t)) = some (U t) := by
      cases clp <;> simp [Elem.clip, h2]
    simp only [Elem.propagate, he, Elem.intercept, Option.bind_some, h1, Option.map_some, hclip]
    exact ⟨trivial, trivial, trivial⟩
  | some sh =>
    obtain ⟨hm, hhit⟩ := hm sh he
    obtain ⟨T, T', G, hT, hTd, hT0, hsag, -, hGd⟩ := hhit Y U Y' U' hY hU hunit
    have hQ := hit_curve hY hU hTd hT0
    have hin := inside_limit hR hQ
    refine ⟨_, _, ?_, hQ, hmat T'⟩
    filter_upwards [hT, hin] with t h1 h2
    obtain ⟨p1, p2, p3⟩ := propagate_surface nwt e sh he (Y t) (U t) _ n0 l (T t) clp h1 rfl h2
    refine ⟨p1, ?_, ?_⟩
    · rw [p3, hm]; simp [Elem.getNMu, Elem.refract]
    · rw [p2, hm]; simp [Elem.getNMu]

end RayOpt
