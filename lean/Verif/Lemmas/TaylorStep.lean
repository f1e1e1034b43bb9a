import Verif.Lemmas.Taylor
import Verif.Props.Seidel

/-! One surface met by a curve of rays near the axis, in the coordinates of the system. -/

namespace RayOpt

open V3 Shape Filter Topology Parax Sys Elem

/-- Specification, to order `k`: the surface function at the intersection is at most of that order in the parameter. -/
def SharpHit (k : ℕ) (nwt : NewtonFn) (sh : Shape) (u0 : V3) (d : ℝ) : Prop :=
  ∀ (Y U : ℝ → V3) (Y' U' : V3), HasD Y (-(d • u0)) Y' → HasD U u0 U' →
    (∀ᶠ t in 𝓝 0, (U t).norm = 1) →
    ∃ (T : ℝ → ℝ) (T' : ℝ) (G : ℝ → ℝ), (∀ᶠ t in 𝓝 0, sh.intercept nwt (Y t) (U t) = some (T t)) ∧
      HasDerivAt T T' 0 ∧ T 0 = d ∧
      (∀ᶠ t in 𝓝 0, sh.surfaceSag (Y t + T t • U t) = some (G t)) ∧ G =O[𝓝 0] fun t => t ^ k

theorem AxialHit.sharp {nwt : NewtonFn} {sh : Shape} {u0 : V3} {d : ℝ} (h : AxialHit nwt sh u0 d) (k : ℕ) :
    SharpHit k nwt sh u0 d := by
  intro Y U Y' U' hY hU hunit
  obtain ⟨T, T', h1, h2, h3, h4⟩ := h Y U Y' U' hY hU hunit
  exact ⟨T, T', fun _ => 0, h1, h2, h3, h4, Asymptotics.isBigO_zero _ _⟩

/-- An element on the axis whose intersection routine is exact without aspheric terms and works to order `k` with them. -/
structure Fitted (k : ℕ) (nwt : NewtonFn) (l n s : ℝ) (e : Elem) : Prop extends Fine nwt l n s e where
  conic : ∀ sh, e.shape = some sh → sh.aspherics = none → AxialHit nwt sh ⟨0, 0, 1⟩ e.tf.distance
  sharp : ∀ sh, e.shape = some sh → SharpHit k nwt sh ⟨0, 0, 1⟩ e.tf.distance

theorem Good.sharp {nwt : NewtonFn} {l n s : ℝ} {e : Elem} (h : Good nwt l n s e) (k : ℕ) : Fitted k nwt l n s e :=
  ⟨h.toFine, fun sh hs _ => h.hit sh hs, fun sh hs => (h.hit sh hs).sharp k⟩

/-- The same for all elements of a system, see `GoodFrom`. -/
def FittedFrom (k : ℕ) (nwt : NewtonFn) (l : ℝ) : ℝ → ℝ → List Elem → Prop
  | _, _, [] => True
  | n, s, e :: es => Fitted k nwt l n s e ∧
      FittedFrom k nwt l (e.paraxN n l) (sideAfter s e) es

theorem GoodFrom.sharp {nwt : NewtonFn} {l : ℝ} (k : ℕ) {es : List Elem} : ∀ {n s : ℝ}, GoodFrom nwt l n s es →
    FittedFrom k nwt l n s es := by
  induction es with
  | nil => intro n s _; trivial
  | cons e es ih => intro n s h; exact ⟨h.1.sharp k, ih h.2⟩

theorem FittedFrom.fine {nwt : NewtonFn} {l : ℝ} {k : ℕ} {es : List Elem} : ∀ {n s : ℝ},
    FittedFrom k nwt l n s es → FineFrom nwt l n s es := by
  induction es with
  | nil => intro n s _; trivial
  | cons e es ih => intro n s h; exact ⟨h.1.toFine, ih h.2⟩

/-- The refracted or reflected direction lies in the plane of the ray and the normal. -/
theorem refractAt_plane {r u w : V3} {mu σ : ℝ} (h : refractAt r u mu = some w)
    (hmu : (0 < mu ∧ σ = 1) ∨ (mu = -1 ∧ σ = -1)) (hz : r.z = 1) (b : Fin 2) :
    σ * tr w b = mu * tr u b + (σ * w.z - mu * u.z) * tr r b := by
  unfold refractAt at h
  rcases hmu with ⟨h0, rfl⟩ | ⟨rfl, rfl⟩
  · split at h
    · rename_i h1
      cases h
      rw [h1]
      ring
    · dsimp only at h
      split at h
      · cases h
      · rw [if_neg (by linarith)] at h
        split at h
        · cases h
        · rw [abs_of_pos h0] at h
          rw [← Option.some.inj h]
          generalize (-(mu * u.dot r / r.dot r) + _ * _ : ℝ) = g
          fin_cases b <;> simp [tr, hz]
  · rw [if_neg (by norm_num)] at h
    dsimp only at h
    split at h
    · cases h
    · rw [if_pos rfl] at h
      rw [← Option.some.inj h]
      generalize (2 * _ : ℝ) = g
      fin_cases b <;> simp [tr, hz] <;> ring

theorem paraxN_eq {nwt : NewtonFn} {l n s : ℝ} {e : Elem} {sh : Shape} (hg : Fair nwt l n s e)
    (hsh : e.shape = some sh) : e.paraxN n l = (Elem.getNMu e.mat n l).1 := by
  cases hm : e.mat with
  | none => simp [paraxN, index?, hsh, hm, Elem.getNMu]
  | some m =>
    by_cases hmir : m.mirror = true
    · obtain ⟨h1, h2⟩ := hg.air m hm hmir
      simp [paraxN, index?, hsh, hm, Elem.getNMu, hmir, h1, h2]
    · simp [paraxN, index?, hsh, hm, Elem.getNMu, hmir]

theorem side_mu {nwt : NewtonFn} {l n s : ℝ} {e : Elem} {sh : Shape} (hg : Fair nwt l n s e)
    (hsh : e.shape = some sh) : ∃ σ : ℝ, sideAfter s e = s * σ ∧
      ((0 < (Elem.getNMu e.mat n l).2 ∧ σ = 1) ∨ ((Elem.getNMu e.mat n l).2 = -1 ∧ σ = -1)) := by
  cases hm : e.mat with
  | none => exact ⟨1, by simp [sideAfter, hm], .inl ⟨by simp [Elem.getNMu], rfl⟩⟩
  | some m =>
    by_cases hmir : m.mirror = true
    · exact ⟨-1, by simp [sideAfter, hm, hmir, hsh], .inr ⟨by simp [Elem.getNMu, hmir], rfl⟩⟩
    · exact ⟨1, by simp [sideAfter, hm, hmir],
        .inl ⟨by simpa [Elem.getNMu, hmir] using div_pos hg.pos (hg.index m hm), rfl⟩⟩

theorem turn_turn {s : ℝ} (hss : s * s = 1) (v : V3) : (v.turn s).turn s = v := by
  ext <;> simp [V3.turn, ← mul_assoc, hss]

/-- One surface met by a curve of rays near the axis: the point, the surface and the law of refraction,
in the coordinates of the system. -/
theorem surface_step (k : ℕ) (nwt : NewtonFn) (l n s : ℝ) (clp : Bool) (e : Elem) (sh : Shape) (r : ℝ → Ray)
    {Y U : ℝ → V3} {Y' U' : V3} (hg : Fitted k nwt l n s e) (hsh : e.shape = some sh)
    (hr : ∀ᶠ t in 𝓝 0, r t = ⟨some (Y t), some (U t), n⟩) (hY : HasD Y 0 Y')
    (hU : HasD U ⟨0, 0, s⟩ U') (hunit : ∀ᶠ t in 𝓝 0, (U t).norm = 1) :
    ∃ (Y2 U2 : ℝ → V3) (Y2' U2' : V3) (T G : ℝ → ℝ),
      (∀ᶠ t in 𝓝 0, (step nwt l clp e (r t)).2
        = ⟨some (Y2 t), some (U2 t), (Elem.getNMu e.mat n l).1⟩) ∧
      HasD Y2 0 Y2' ∧ HasD U2 ⟨0, 0, sideAfter s e⟩ U2' ∧ (∀ᶠ t in 𝓝 0, (U2 t).norm = 1) ∧
      (G =O[𝓝 0] fun t => t ^ k) ∧ (sh.aspherics = none → G = fun _ => 0) ∧
      (∀ᶠ t in 𝓝 0, Y2 t = Y t - e.tf.offset + T t • U t ∧
        (step nwt l clp e (r t)).1.t = some (T t * n) ∧
        s * (Y2 t).z = sagFn sh (rsq (Y2 t)) + G t ∧
        0 < 1 - (1 + sh.conic) * sh.curvature ^ 2 * rsq (Y2 t) ∧
        ∀ b, sideAfter s e * tr (U2 t) b = (Elem.getNMu e.mat n l).2 * (s * tr (U t) b)
          + (sideAfter s e * (U2 t).z - (Elem.getNMu e.mat n l).2 * (s * (U t).z))
            * (s * normFn sh (rsq (Y2 t)) * tr (Y2 t) b)) := by
  have hs := hg.axis.sign
  have hss : s * s = 1 := by rcases hs with h | h <;> rw [h] <;> norm_num
  set d := e.tf.distance with hd
  have hnear : Near s n r (axialState n Y' U') := ⟨Y, U, Y', U', hr, hY, hU, hunit, rfl⟩
  obtain ⟨v', n', hpar, hnear'⟩ := near_step nwt l n s clp e r _ hg.toFair hnear
  have hn' : n' = (Elem.getNMu e.mat n l).1 := by
    unfold Elem.propagateParaxial at hpar
    obtain ⟨nm, hnm, heq⟩ := Option.map_eq_some_iff.mp hpar
    have : n' = nm.1 := by cases heq; rfl
    rw [this, paraxialMatrix_fst hnm, paraxN_eq hg.toFair hsh]
  rw [hn'] at hnear'
  obtain ⟨Y2, U2, Y2', U2', hr2, hY2, hU2, hunit2, -⟩ := hnear'
  set Yl : ℝ → V3 := fun t => (Y t - e.tf.offset).turn s with hYldef
  set Ul : ℝ → V3 := fun t => (U t).turn s with hUldef
  have hzz : (⟨0, 0, s⟩ : V3).turn s = ⟨0, 0, 1⟩ := by ext <;> simp [V3.turn, hss]
  have hYl : HasD Yl (-(d • ⟨0, 0, 1⟩)) (Y'.turn s) := by
    have h0 : HasD (fun _ : ℝ => e.tf.offset) e.tf.offset 0 :=
      ⟨rfl, hasDerivAt_const _ _, hasDerivAt_const _ _, hasDerivAt_const _ _⟩
    refine ((hY.sub h0).turn s).congr ?_ ?_
    · rw [hg.axis.off]; ext <;> simp [V3.turn, ← hd]
      linear_combination d * hss
    · ext <;> simp [V3.turn]
  have hUl : HasD Ul ⟨0, 0, 1⟩ (U'.turn s) := (hU.turn s).congr hzz rfl
  have hunitl : ∀ᶠ t in 𝓝 0, (Ul t).norm = 1 := by
    filter_upwards [hunit] with t ht
    apply norm_eq_one
    have := dot_self_of_norm ht
    simp only [hUldef, dot, V3.turn] at this ⊢
    linear_combination this + ((U t).y * (U t).y + (U t).z * (U t).z) * hss
  obtain ⟨T, T', G, hT, hTd, hT0, hsag, hG, hG0⟩ : ∃ (T : ℝ → ℝ) (T' : ℝ) (G : ℝ → ℝ),
      (∀ᶠ t in 𝓝 0, sh.intercept nwt (Yl t) (Ul t) = some (T t)) ∧ HasDerivAt T T' 0 ∧ T 0 = d ∧
      (∀ᶠ t in 𝓝 0, sh.surfaceSag (Yl t + T t • Ul t) = some (G t)) ∧ (G =O[𝓝 0] fun t => t ^ k) ∧
      (sh.aspherics = none → G = fun _ => 0) := by
    by_cases ha : sh.aspherics = none
    · obtain ⟨T, T', h1, h2, h3, h4⟩ := hg.conic sh hsh ha Yl Ul _ _ hYl hUl hunitl
      exact ⟨T, T', fun _ => 0, h1, h2, h3, h4, Asymptotics.isBigO_zero _ _, fun _ => rfl⟩
    · obtain ⟨T, T', G, h1, h2, h3, h4, h5⟩ := hg.sharp sh hsh Yl Ul _ _ hYl hUl hunitl
      exact ⟨T, T', G, h1, h2, h3, h4, h5, fun h => absurd h ha⟩
  have hQ := hit_curve hYl hUl hTd hT0
  have hin := inside_limit hg.opening hQ
  obtain ⟨c, hc⟩ := Option.ne_none_iff_exists'.mp (hg.curv sh hsh)
  have hpos : ∀ᶠ t in 𝓝 0, 0 < 1 - (1 + sh.conic) * sh.curvature ^ 2 * rsq (Yl t + T t • Ul t) := by
    have hcont : ContinuousAt (fun t => 1 - (1 + sh.conic) * sh.curvature ^ 2
        * ((Yl t + T t • Ul t).x * (Yl t + T t • Ul t).x
          + (Yl t + T t • Ul t).y * (Yl t + T t • Ul t).y)) 0 :=
      continuousAt_const.sub (continuousAt_const.mul
        ((hQ.contX.mul hQ.contX).add (hQ.contY.mul hQ.contY)))
    have h0 : Yl 0 + T 0 • Ul 0 = 0 := hQ.at0
    exact (continuousAt_const (y := (0 : ℝ))).eventually_lt hcont (by
      beta_reduce
      rw [h0]
      simp [rsq])
  obtain ⟨σ, hside, hmu⟩ := side_mu hg.toFair hsh
  refine ⟨Y2, U2, Y2', U2', T, G, hr2, hY2, hU2, hunit2, hG, hG0, ?_⟩
  filter_upwards [hr, hr2, hT, hin, hsag, hpos] with t h1 h2 h3 h4 h5 h6
  obtain ⟨p1, p2, p3⟩ := propagate_surface nwt e sh hsh (Yl t) (Ul t) _ n l (T t) clp h3 rfl h4
  have hb : e.tf.fromNormal = V3.turn s := funext hg.axis.back
  have hst : step nwt l clp e (r t) =
      (⟨(e.propagate nwt (some (Yl t)) (some (Ul t)) n l clp).y,
        (e.propagate nwt (some (Yl t)) (some (Ul t)) n l clp).u,
        (e.propagate nwt (some (Yl t)) (some (Ul t)) n l clp).n, some (Ul t),
        (e.propagate nwt (some (Yl t)) (some (Ul t)) n l clp).t⟩,
       ⟨(e.propagate nwt (some (Yl t)) (some (Ul t)) n l clp).y.map (V3.turn s),
       (e.propagate nwt (some (Yl t)) (some (Ul t)) n l clp).u.map (V3.turn s),
       (e.propagate nwt (some (Yl t)) (some (Ul t)) n l clp).n⟩) := by
    simp only [step, h1, Option.map_some, hg.axis.into, hb, hYldef, hUldef]
  rw [hst] at h2
  simp only [p1, Option.map_some, Ray.mk.injEq, Option.some.injEq] at h2
  obtain ⟨q1, q2, -⟩ := h2
  have hmu0 : (Elem.getNMu e.mat n l).2 ≠ 0 := by
    rcases hmu with ⟨h, -⟩ | ⟨h, -⟩
    · exact h.ne'
    · rw [h]; norm_num
  rw [p3, if_neg hmu0] at q2
  obtain ⟨w, hw, hw2⟩ := Option.map_eq_some_iff.mp q2
  have hnorm := normal_of_pos hc h6
  have hrsq : ∀ v : V3, rsq (v.turn s) = rsq v := by
    intro v
    simp only [rsq, V3.turn]
    linear_combination (v.y * v.y) * hss
  have hwr : refractAt ⟨(Yl t + T t • Ul t).x * normFn sh (rsq (Yl t + T t • Ul t)),
      (Yl t + T t • Ul t).y * normFn sh (rsq (Yl t + T t • Ul t)), 1⟩ (Ul t)
      (Elem.getNMu e.mat n l).2 = some w := by
    simp only [Elem.refract, Option.bind_some, hnorm] at hw
    by_cases h : (Elem.getNMu e.mat n l).2 = 1
    · rw [if_pos h] at hw
      rw [refractAt, if_pos h, hw]
    · rwa [if_neg h] at hw
  refine ⟨?_, ?_, ?_, ?_, ?_⟩
  · rw [← q1]
    have : ∀ v w : V3, (v + T t • w.turn s).turn s = v.turn s + T t • w := by
      intro v w
      ext
      · simp [V3.turn]
      · simp only [V3.turn, V3.add_y, V3.smul_y]
        linear_combination (T t * w.y) * hss
      · simp only [V3.turn, V3.add_z, V3.smul_z]
        linear_combination (T t * w.z) * hss
    simp only [hYldef, hUldef, this, turn_turn hss]
  · rw [hst]
    simp only [Elem.propagate, hsh, Elem.intercept, Option.bind_some, h3, Option.map_some]
  · rw [← q1, hrsq]
    have := z_of_sag h5
    rw [← this]
    simp [V3.turn, ← mul_assoc, hss]
  · rw [← q1, hrsq]
    exact h6
  · intro b
    have hp := refractAt_plane hwr hmu rfl b
    rw [← q1, hrsq, ← hw2, tr_turn, tr_turn, hside]
    have hUt : ∀ b, tr (U t) b = flip2 s b * tr (Ul t) b := by
      intro b
      rw [hUldef]
      simp only [tr_turn]
      rw [← mul_assoc, flip2_sq hs, one_mul]
    have hUz : s * (U t).z = (Ul t).z := rfl
    have hwz : s * σ * (w.turn s).z = σ * w.z := by
      simp only [V3.turn]
      linear_combination (σ * w.z) * hss
    rw [hwz, hUz, hUt]
    have htr : tr ⟨(Yl t + T t • Ul t).x * normFn sh (rsq (Yl t + T t • Ul t)),
      (Yl t + T t • Ul t).y * normFn sh (rsq (Yl t + T t • Ul t)), 1⟩ b
        = normFn sh (rsq (Yl t + T t • Ul t)) * tr (Yl t + T t • Ul t) b := by
      fin_cases b <;> simp [tr, mul_comm]
    rw [htr] at hp
    linear_combination (s * flip2 s b) * hp

end RayOpt
