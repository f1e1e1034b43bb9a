import Verif.Props.Centre
import Verif.Props.Mirrors

/-!
Property C118, systems of concentric spheres.
-/

namespace RayOpt

open Sys V3 Transform Elem Shape

/-! ## Specification -/

/-- A refracting sphere, or a dummy one, about the point `C`. -/
structure AboutCentre (C : V3) (l : ℝ) (e : Elem) : Prop where
  reachable : Reachable e.tf
  sphere : ∃ s, e.shape = some s ∧ s.aspherics = none ∧ s.conic = 0 ∧ s.curvature ≠ 0 ∧ s.alternate = false ∧
    C - e.tf.offset = e.tf.fromNormal (axial (1 / s.curvature))
  medium : ∀ m, e.mat = some m → m.mirror = false ∧ 0 < m.index l

/-- Spheres about one point, `C` seen from the element before. -/
def Concentric (l : ℝ) : V3 → List Elem → Prop
  | _, [] => True
  | C, e :: es => AboutCentre C l e ∧ Concentric l (C - e.tf.offset) es

/-! ## Helpers -/

theorem sub_add_eq (a b c : V3) : a - (b + c) = a - b - c := by
  ext <;> simp <;> ring

/-- One sphere. -/
theorem centre_step (nwt : NewtonFn) (l : ℝ) (clp : Bool) {C u : V3} {e : Elem} (h : AboutCentre C l e)
    (hu : u.dot u = 1) (hz : 0 ≤ u.dot (normalOf e)) (r : Ray) (hn : 0 < r.n) (hru : ∀ w, r.u = some w → w = u)
    (hry : ∀ p, r.y = some p → ∃ a : ℝ, p + a • u = C) :
    0 < (step nwt l clp e r).1.n ∧ (∀ v, (step nwt l clp e r).1.u = some v → e.tf.fromNormal v = u) ∧
      ∀ q, (step nwt l clp e r).1.y = some q → ∃ a : ℝ, e.tf.fromNormal q + a • u = C - e.tf.offset := by
  obtain ⟨y, w, n⟩ := r
  dsimp only at hn hru hry
  obtain ⟨s, hs, ha, hk, hc, halt, hC⟩ := h.sphere
  have hmu : ∃ n', 0 < n' ∧ getNMu (e.material.getD none) n l = (n', n / n') := by
    cases hm : e.material.getD none with
    | none => exact ⟨n, hn, by rw [div_self hn.ne']; rfl⟩
    | some m =>
      obtain ⟨h1, h2⟩ := h.medium m hm
      exact ⟨m.index l, h2, by simp [getNMu, h1]⟩
  obtain ⟨n', hn', hmu⟩ := hmu
  cases w with
  | none =>
    simp only [step, Option.map_none]
    refine ⟨?_, ?_, ?_⟩
    · simp only [Elem.propagate, hs, hmu]; exact hn'
    · intro v hv; rw [(propagate_dead nwt e _ n l clp).2] at hv; cases hv
    · intro q hq; simp [Elem.propagate, hs] at hq
  | some w =>
    obtain rfl := hru w rfl
    simp only [step, Option.map_some]
    have hi : (e.tf.toNormal w).dot (e.tf.toNormal w) = 1 := by rw [(c10_dot h.reachable w w).2.1, hu]
    have hpos : ∀ q, (e.propagate nwt (y.map fun y => e.tf.toNormal (y - e.tf.offset)) (some (e.tf.toNormal w)) n l clp).y =
        some q → ∃ (p : V3) (t : ℝ), y = some p ∧ q = e.tf.toNormal (p - e.tf.offset) + t • e.tf.toNormal w ∧
          s.intercept nwt (e.tf.toNormal (p - e.tf.offset)) (e.tf.toNormal w) = some t := by
      intro q hq
      cases y with
      | none => simp [Elem.propagate, hs] at hq
      | some p =>
        simp only [Elem.propagate, hs, Option.map_some, Option.bind_some, Elem.intercept, Option.map_eq_some_iff] at hq
        obtain ⟨t, ht, hq⟩ := hq
        exact ⟨p, t, rfl, hq.symm, ht⟩
    refine ⟨by simp only [Elem.propagate, hs, hmu]; exact hn', ?_, ?_⟩
    · intro v hv
      have hv' : v = e.tf.toNormal w := by
        cases hy : (e.propagate nwt (y.map fun y => e.tf.toNormal (y - e.tf.offset)) (some (e.tf.toNormal w)) n l clp).y with
        | none =>
          simp only [Elem.propagate, hs, hmu] at hv hy
          rw [hy, if_neg (div_pos hn hn').ne'] at hv
          by_cases h1 : n / n' = 1
          · simp only [refract, h1, if_true, Option.bind_eq_some_iff] at hv
            obtain ⟨i, hi, hv⟩ := hv
            rw [← Option.some.inj hv]
            exact clip_keeps hi
          · simp [refract, h1, hc] at hv
        | some q =>
          obtain ⟨p, t, rfl, hq, ht⟩ := hpos q hy
          obtain ⟨a, hpa⟩ := hry p rfl
          have hAx : e.tf.toNormal (p - e.tf.offset) + a • e.tf.toNormal w = axial (1 / s.curvature) := by
            have e1 : e.tf.fromNormal (e.tf.toNormal (p - e.tf.offset) + a • e.tf.toNormal w) =
                e.tf.fromNormal (axial (1 / s.curvature)) := by
              rw [← hC, fromNormal_lin, (c10_inverse h.reachable _).1, (c10_inverse h.reachable w).1, ← hpa]
              ext <;> simp <;> ring
            have := congrArg e.tf.toNormal e1
            rwa [(c10_inverse h.reachable _).2.1, (c10_inverse h.reachable _).2.1] at this
          have hzi : 0 ≤ (e.tf.toNormal w).z := by
            have : (e.tf.toNormal w).z = w.dot (normalOf e) := by
              unfold normalOf
              rw [← (c10_dot h.reachable w _).2.1, (c10_inverse h.reachable ez).2.1]
              simp [V3.dot, ez]
            rw [this]; exact hz
          have hQ := c06_on_quadric nwt s _ _ t ha (norm_eq_one hi) ht
          have hS := c06_root_side nwt s _ _ t ha hc (norm_eq_one hi) ht
          rw [halt] at hS
          simp only [Bool.false_eq_true, if_false] at hS
          rw [← hq] at hQ hS
          have hsheet : OnVertexSheet s.curvature s.conic q := by
            have hcc : s.curvature * (1 / s.curvature) = 1 := mul_one_div_cancel hc
            have hx := congrArg V3.x hAx; have hy' := congrArg V3.y hAx; have hz' := congrArg V3.z hAx
            have qx := congrArg V3.x hq; have qy := congrArg V3.y hq; have qz := congrArg V3.z hq
            simp only [axial, add_x, add_y, add_z, smul_x, smul_y, smul_z] at hx hy' hz' qx qy qz
            rw [hk] at hQ hS ⊢
            simp only [OnQuadric, OnVertexSheet, quadricNormal, V3.dot] at hQ hS hi ⊢
            generalize e.tf.toNormal w = i at *
            generalize e.tf.toNormal (p - e.tf.offset) = y0 at *
            generalize s.curvature = c at *
            have nx : -(c * q.x) = c * (a - t) * i.x := by linear_combination (-c) * hx - c * qx
            have ny : -(c * q.y) = c * (a - t) * i.y := by linear_combination (-c) * hy' - c * qy
            have nz : 1 - (1 + 0) * c * q.z = c * (a - t) * i.z := by
              linear_combination (-c) * hz' - c * qz - hcc
            have hb : c * (a - t) = 1 := by
              have hb0 : 0 ≤ c * (a - t) := by
                have : i.x * -(c * q.x) + i.y * -(c * q.y) + i.z * (1 - (1 + 0) * c * q.z) = c * (a - t) := by
                  rw [nx, ny, nz]; linear_combination c * (a - t) * hi
                rwa [this] at hS
              have hb2 : (c * (a - t)) ^ 2 = 1 := by
                have : (c * q.x) ^ 2 + (c * q.y) ^ 2 + (1 - (1 + 0) * c * q.z) ^ 2 = 1 := by linear_combination c * hQ
                rw [nz, ← neg_sq (c * q.x), ← neg_sq (c * q.y), nx, ny] at this
                linear_combination this - (c * (a - t)) ^ 2 * hi
              nlinarith
            rw [nz, hb, one_mul]; exact hzi
          exact c118_centre (nwt := nwt) (e := e) (s := s) (l := l) (clp := clp)
            ⟨hs, ha, hc, hi, hy, hv, hsheet⟩ hn hn' hmu halt hk ⟨a, hAx⟩
      rw [hv', (c10_inverse h.reachable w).1]
    · intro q hq
      obtain ⟨p, t, rfl, rfl, -⟩ := hpos q hq
      obtain ⟨a, hpa⟩ := hry p rfl
      refine ⟨a - t, ?_⟩
      rw [fromNormal_lin, (c10_inverse h.reachable _).1, (c10_inverse h.reachable w).1, ← hpa]
      ext <;> simp <;> ring

/-! ## The property -/

/-- C118: a ray through the common centre of any number of refracting spheres goes straight through all of them: behind
each it has its first direction and is still on the line through the centre. -/
theorem c118_monocentric (nwt : NewtonFn) (l : ℝ) (clp : Bool) (obj : Elem) (es : List Elem) {C u p : V3} {n : ℝ}
    (hC : Concentric l C es) (hu : u.dot u = 1) (hz : ∀ e ∈ es, 0 ≤ u.dot (normalOf e)) (hn : 0 < n)
    (hp : ∃ a : ℝ, p + a • u = C) {k : ℕ} {e : Elem} {x : Row} (he : es[k]? = some e)
    (hx : (Sys.propagate nwt (obj :: es) ⟨some p, some u, n⟩ l 1 none clp)[k]? = some x) :
    (∀ v, x.u = some v → e.tf.fromNormal v = u) ∧ ∀ q, x.y = some q →
      ∃ a : ℝ, e.tf.fromNormal q + a • u = C - ((es.take (k + 1)).map fun e => e.tf.offset).sum := by
  rw [Sys.propagate, pySlice_one, List.tail_cons] at hx
  have key : ∀ (es : List Elem) (k : ℕ) (r : Ray) (C : V3), Concentric l C es → (∀ e ∈ es, 0 ≤ u.dot (normalOf e)) →
      0 < r.n → (∀ w, r.u = some w → w = u) → (∀ p, r.y = some p → ∃ a : ℝ, p + a • u = C) → es[k]? = some e →
      (rows nwt l clp es r)[k]? = some x → (∀ v, x.u = some v → e.tf.fromNormal v = u) ∧ ∀ q, x.y = some q →
      ∃ a : ℝ, e.tf.fromNormal q + a • u = C - ((es.take (k + 1)).map fun e => e.tf.offset).sum := by
    intro es
    induction es with
    | nil => intro k r C _ _ _ _ _ h; simp at h
    | cons e' es ih =>
      intro k r C hC hz hn hru hry he hx
      obtain ⟨h1, h2, h3⟩ := centre_step nwt l clp hC.1 hu (hz e' (by simp)) r hn hru hry
      cases k with
      | zero =>
        simp only [List.getElem?_cons_zero, Option.some.injEq, rows] at he hx
        subst he
        subst hx
        exact ⟨h2, by simpa [show e'.tf.offset + 0 = e'.tf.offset by ext <;> simp] using h3⟩
      | succ k =>
        simp only [List.getElem?_cons_succ, rows] at he hx
        have := ih k (step nwt l clp e' r).2 (C - e'.tf.offset) hC.2 (fun e h => hz e (by simp [h])) h1
          (by
            intro w hw
            have hw' : (step nwt l clp e' r).1.u.map e'.tf.fromNormal = some w := hw
            obtain ⟨v, hv, rfl⟩ := Option.map_eq_some_iff.mp hw'
            exact h2 v hv)
          (by
            intro p hp
            have hp' : (step nwt l clp e' r).1.y.map e'.tf.fromNormal = some p := hp
            obtain ⟨q, hq, rfl⟩ := Option.map_eq_some_iff.mp hp'
            exact h3 q hq) he hx
        rw [List.take_succ_cons, List.map_cons, List.sum_cons, sub_add_eq]
        exact this
  exact key es k ⟨some p, some u, n⟩ C hC hz hn (by rintro _ ⟨⟩; rfl) (by rintro _ ⟨⟩; exact hp) he hx

/-! ## Example: a ball of glass -/

theorem surf_offset {d : ℝ} (hd : 0 ≤ d) (c : ℝ) (m : Option Material) : (surf d c m).tf.offset = ⟨0, 0, d⟩ := by
  obtain ⟨h1, h2, -⟩ := surf_cen d c m hd
  rw [(c12_invariant h1).2.2, h2, surf_dist hd]
  ext <;> simp [ez]

theorem ball_about {d c z : ℝ} (hd : 0 ≤ d) (hc : c ≠ 0) (hz : z - d = 1 / c) (l : ℝ) (m : Material)
    (hm : m.mirror = false) (hi : 0 < m.index l) : AboutCentre (axial z) l (surf d c (some m)) := by
  refine ⟨(surf_cen d c _ hd).1, ⟨_, rfl, rfl, rfl, hc, rfl, ?_⟩, fun m' h => ?_⟩
  · rw [(surf_normal d c _ hd).1, surf_offset hd]
    ext <;> simp [axial, hz]
  · obtain rfl : m = m' := Option.some.inj h
    exact ⟨hm, hi⟩

theorem ball_step (nwt : NewtonFn) (l : ℝ) {d c t n : ℝ} (hd : 0 ≤ d) (hc : c ≠ 0) (m : Material) (hm : m.mirror = false)
    {p u q : V3} (hu : u.dot u = 1) (hz : 0 < u.z) (hn : 0 < n) (hi : 0 < m.index l) (hne : n ≠ m.index l)
    (hq : p - ⟨0, 0, d⟩ + t • u = q) (hN : quadricNormal c 0 q = u) :
    (step nwt l false (surf d c (some m)) ⟨some p, some u, n⟩).1.y = some q ∧
    (step nwt l false (surf d c (some m)) ⟨some p, some u, n⟩).1.u = some u ∧
    (step nwt l false (surf d c (some m)) ⟨some p, some u, n⟩).2 = ⟨some q, some u, m.index l⟩ := by
  have hNx := congrArg V3.x hN; have hNy := congrArg V3.y hN; have hNz := congrArg V3.z hN
  simp only [quadricNormal] at hNx hNy hNz
  have hQ : OnQuadric c 0 q := by
    simp only [V3.dot] at hu
    rw [← hNx, ← hNy, ← hNz] at hu
    unfold OnQuadric
    apply mul_left_cancel₀ hc
    linear_combination hu
  have hint : Shape.intercept nwt ⟨c, 0, none, false⟩ (p - ⟨0, 0, d⟩) u = some t :=
    intercept_of_side nwt rfl rfl hu hz.ne' (fun _ => by
      simp only [V3.dot] at hu
      have : quadCoeff c 0 u = c := by unfold quadCoeff; linear_combination c * hu
      rw [this]; exact hc) (by rw [hq]; exact hQ) (fun _ => by rw [hq, hN, hu]; exact zero_le_one)
  have hsq : 1 - (1 + 0) * c ^ 2 * (q.x * q.x + q.y * q.y) = u.z ^ 2 := by
    unfold OnQuadric at hQ
    rw [← hNz]
    linear_combination (-c) * hQ
  have hr : Shape.surfaceNormal ⟨c, 0, none, false⟩ q = some ((1 / u.z) • u) := by
    simp only [Shape.surfaceNormal, hc, false_and, if_false, ne_eq, not_false_iff, if_true, rsq, hsq, Real.sqrt_sq hz.le,
      not_le.mpr (pow_pos hz 2), Option.map_some]
    congr 1
    ext
    · simp only [smul_x, ← hNx]; field_simp; ring
    · simp only [smul_y, ← hNy]; field_simp; ring
    · simp only [smul_z]; field_simp
  have hmu : n / m.index l ≠ 1 := fun h => hne ((div_eq_one_iff_eq hi.ne').mp h)
  have hS : refractAt ((1 / u.z) • u) u (n / m.index l) = some u := by
    rw [c02_snell hn hi (by
      intro h
      have := congrArg V3.z h
      simp [hz.ne'] at this) hu (by rw [dot_scale, hu]; positivity)]
    exact ⟨hu, by rw [cross_scale]; ext <;> simp only [V3.cross, smul_x, smul_y, smul_z] <;> ring,
      by rw [dot_scale, hu]; positivity⟩
  have hP : (surf d c (some m)).propagate nwt (some (p - ⟨0, 0, d⟩)) (some u) n l false =
      ⟨some q, some u, m.index l, some (t * n)⟩ := by
    simp only [Elem.propagate, surf, Elem.intercept, Option.bind_some, hint, Option.map_some, hq, Option.getD_some, getNMu,
      hm, Bool.false_eq_true, if_false, (div_pos hn hi).ne', refract, hmu, hr, hS]
  simp only [step, Option.map_some, (surf_normal d c (some m) hd).1, (surf_normal d c (some m) hd).2, surf_offset hd, hP,
    id_eq]
  exact ⟨trivial, trivial, trivial⟩

/-- `c118_monocentric` for a ball of glass. -/
example (nwt : NewtonFn) (l : ℝ) (obj : Elem) :
    Concentric l (axial 2) [surf 1 1 (some crown), surf 2 (-1) (some vacuum)] ∧
    (∀ e ∈ [surf 1 1 (some crown), surf 2 (-1) (some vacuum)], 0 ≤ (⟨3 / 5, 0, 4 / 5⟩ : V3).dot (normalOf e)) ∧
    (⟨-6 / 5, 0, 2 / 5⟩ : V3) + (2 : ℝ) • ⟨3 / 5, 0, 4 / 5⟩ = axial 2 ∧
    ∃ x1 x2, Sys.propagate nwt [obj, surf 1 1 (some crown), surf 2 (-1) (some vacuum)]
      ⟨some ⟨-6 / 5, 0, 2 / 5⟩, some ⟨3 / 5, 0, 4 / 5⟩, 1⟩ l 1 none false = [x1, x2] ∧
      x1.y = some ⟨-3 / 5, 0, 1 / 5⟩ ∧ x1.u = some ⟨3 / 5, 0, 4 / 5⟩ ∧
      x2.y = some ⟨3 / 5, 0, -1 / 5⟩ ∧ x2.u = some ⟨3 / 5, 0, 4 / 5⟩ := by
  refine ⟨⟨ball_about (by norm_num) (by norm_num) (by norm_num) l _ rfl (by norm_num [crown]), ?_, trivial⟩, ?_, ?_, ?_⟩
  · rw [surf_offset (by norm_num), show axial 2 - ⟨0, 0, 1⟩ = axial 1 by ext <;> norm_num [axial]]
    exact ball_about (by norm_num) (by norm_num) (by norm_num) l _ rfl (by norm_num [vacuum])
  · intro e he
    simp only [List.mem_cons, List.not_mem_nil, or_false] at he
    rcases he with rfl | rfl
    · rw [normalOf, (surf_normal 1 1 _ (by norm_num)).1]; norm_num [V3.dot, ez]
    · rw [normalOf, (surf_normal 2 (-1) _ (by norm_num)).1]; norm_num [V3.dot, ez]
  · ext <;> norm_num [axial]
  · rw [Sys.propagate, pySlice_one, List.tail_cons]
    obtain ⟨h1, h2, h3⟩ := ball_step nwt l (d := 1) (c := 1) (t := 1) (n := 1) (p := ⟨-6 / 5, 0, 2 / 5⟩)
      (u := ⟨3 / 5, 0, 4 / 5⟩) (q := ⟨-3 / 5, 0, 1 / 5⟩) (by norm_num) (by norm_num) crown rfl (by norm_num [V3.dot])
      (by norm_num) (by norm_num) (by norm_num [crown]) (by norm_num [crown]) (by ext <;> norm_num)
      (by ext <;> norm_num [quadricNormal])
    obtain ⟨h4, h5, -⟩ := ball_step nwt l (d := 2) (c := -1) (t := 2) (n := crown.index l) (p := ⟨-3 / 5, 0, 1 / 5⟩)
      (u := ⟨3 / 5, 0, 4 / 5⟩) (q := ⟨3 / 5, 0, -1 / 5⟩) (by norm_num) (by norm_num) vacuum rfl (by norm_num [V3.dot])
      (by norm_num) (by norm_num [crown]) (by norm_num [vacuum]) (by norm_num [crown, vacuum]) (by ext <;> norm_num)
      (by ext <;> norm_num [quadricNormal])
    refine ⟨_, _, rfl, h1, h2, ?_, ?_⟩
    · rw [h3]; exact h4
    · rw [h3]; exact h5

end RayOpt
