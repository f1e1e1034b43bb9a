import Verif.Model.Arcball
import Verif.Props.Quat
import Verif.Props.Placement

/-!
C95: the virtual trackball (rayopt/transformations.py 1504-1655).
-/

namespace RayOpt

open V3 Arcball

namespace Arcball

theorem tfEps_pos : 0 < tfEps := by unfold tfEps; positivity

theorem tfEps_lt_one : tfEps < 1 := by unfold tfEps; norm_num

theorem dot_self_nonneg' (v : V3) : 0 ≤ v.dot v := by
  simp only [dot]; nlinarith [mul_self_nonneg v.x, mul_self_nonneg v.y, mul_self_nonneg v.z]

theorem norm_sq' (v : V3) : v.norm ^ 2 = v.dot v := Real.sq_sqrt (dot_self_nonneg' v)

theorem norm_nonneg' (v : V3) : 0 ≤ v.norm := Real.sqrt_nonneg _

/-- The scalar product of unit vectors is at most one. -/
theorem dot_sq_le (v w : V3) : v.dot w ^ 2 ≤ v.dot v * w.dot w := by
  have : v.dot v * w.dot w - v.dot w ^ 2 =
      (v.y * w.z - v.z * w.y) ^ 2 + (v.z * w.x - v.x * w.z) ^ 2 + (v.x * w.y - v.y * w.x) ^ 2 := by
    simp only [dot]; ring
  nlinarith [sq_nonneg (v.y * w.z - v.z * w.y), sq_nonneg (v.z * w.x - v.x * w.z),
    sq_nonneg (v.x * w.y - v.y * w.x)]

theorem scaled_unit {v : V3} (h : 0 < v.norm) : ((1 / v.norm) • v).dot ((1 / v.norm) • v) = 1 := by
  have : ((1 / v.norm) • v).dot ((1 / v.norm) • v) = v.dot v / v.norm ^ 2 := by
    simp only [dot, smul_x, smul_y, smul_z]; field_simp
  rw [this, ← norm_sq', div_self (by positivity)]

theorem unit?_some {v w : V3} (h : unit? v = some w) : w.dot w = 1 ∧ v.norm ≠ 0 ∧ w = (1 / v.norm) • v := by
  unfold unit? at h
  split_ifs at h with h0
  obtain rfl := Option.some.inj h
  exact ⟨scaled_unit (lt_of_le_of_ne (norm_nonneg' v) (Ne.symm h0)), h0, rfl⟩

end Arcball

/-- C95: a position in the window is mapped to the half of the unit sphere towards the viewer, whenever the
radius is not zero.  Inside of the circle it is the point of the sphere behind the position, `y` upwards;
outside it is the point of the rim in the same direction. -/
theorem c95_sphere (p c : ℝ × ℝ) (r : ℝ) :
    (mapToSphere p c r = none ↔ r = 0) ∧
    ∀ v, mapToSphere p c r = some v → v.dot v = 1 ∧ 0 ≤ v.z ∧
      (0 < r → (p.1 - c.1) ^ 2 + (p.2 - c.2) ^ 2 ≤ r ^ 2 → c.1 + r * v.x = p.1 ∧ c.2 - r * v.y = p.2) ∧
      (0 < r → r ^ 2 < (p.1 - c.1) ^ 2 + (p.2 - c.2) ^ 2 → v.z = 0 ∧
        ∃ s > 1, c.1 + s * r * v.x = p.1 ∧ c.2 - s * r * v.y = p.2) := by
  constructor
  · unfold mapToSphere; split_ifs with h <;> simp [h]
  intro v hv
  unfold mapToSphere at hv
  split_ifs at hv with hr
  obtain ⟨v0, h0⟩ : ∃ v0, (p.1 - c.1) / r = v0 := ⟨_, rfl⟩
  obtain ⟨v1, h1⟩ : ∃ v1, (c.2 - p.2) / r = v1 := ⟨_, rfl⟩
  simp only [h0, h1] at hv
  rw [div_eq_iff hr] at h0 h1
  have hn : (p.1 - c.1) ^ 2 + (p.2 - c.2) ^ 2 = r ^ 2 * (v0 * v0 + v1 * v1) := by
    rw [h0, show p.2 - c.2 = -(v1 * r) by linarith]; ring
  have hr2 : 0 < r ^ 2 := by positivity
  obtain rfl := Option.some.inj hv
  rw [hn]
  by_cases h : v0 * v0 + v1 * v1 > 1
  · simp only [if_pos h]
    have hs : √(v0 * v0 + v1 * v1) ^ 2 = v0 * v0 + v1 * v1 := Real.sq_sqrt (by linarith)
    have hs1 : 1 < √(v0 * v0 + v1 * v1) := by rw [Real.lt_sqrt (by norm_num)]; linarith
    generalize √(v0 * v0 + v1 * v1) = s at hs hs1
    have hs0 : s ≠ 0 := by linarith
    refine ⟨?_, le_refl _, ?_, ?_⟩
    · simp only [dot]; field_simp; linarith
    · intro _ h2; nlinarith
    · intro _ _
      refine ⟨trivial, s, hs1, ?_, ?_⟩
      · field_simp; linarith
      · field_simp; linarith
  · simp only [if_neg h]
    have hs : √(1 - (v0 * v0 + v1 * v1)) ^ 2 = 1 - (v0 * v0 + v1 * v1) := Real.sq_sqrt (by linarith)
    refine ⟨?_, Real.sqrt_nonneg _, ?_, ?_⟩
    · simp only [dot]; linarith
    · intro _ _; constructor <;> linarith
    · intro _ h2; nlinarith

/-- C95: a point of the sphere constrained to an axis is a unit vector perpendicular to the axis, not behind
the window; unless the point is within the rounding threshold of the axis, no point of the great circle of the
axis is nearer to the point or to its antipode.  It fails (NaN) exactly for the axis away from the viewer and
a point that is on it within the threshold. -/
theorem c95_constrain {p a : V3} (ha : a.dot a = 1) :
    (∀ v, constrainToAxis p a = some v → v.dot v = 1 ∧ v.dot a = 0 ∧ 0 ≤ v.z ∧
      (tfEps < (p - a.dot p • a).norm → ∀ w : V3, w.dot w = 1 → w.dot a = 0 → |w.dot p| ≤ |v.dot p|)) ∧
    (constrainToAxis p a = none ↔ a = ⟨0, 0, -1⟩ ∧ (p - a.dot p • a).norm ≤ tfEps) := by
  have hpos := tfEps_pos
  have ha' := ha
  simp only [dot] at ha'
  obtain ⟨u, hu⟩ : ∃ u, p - a.dot p • a = u := ⟨_, rfl⟩
  have hux := congrArg V3.x hu
  have huy := congrArg V3.y hu
  have huz := congrArg V3.z hu
  simp only [sub_x, sub_y, sub_z, smul_x, smul_y, smul_z] at hux huy huz
  have hua : u.dot a = 0 := by
    have : u.dot a = p.dot a - a.dot p * a.dot a := by rw [← hu]; simp [dot]; ring
    rw [this, ha, mul_one]; simp only [dot]; ring
  have hup : u.dot p = u.dot u := by
    have : u.dot p = u.dot u + a.dot p * u.dot a := by
      generalize a.dot p = k at *
      simp only [dot]
      linear_combination u.x * hux + u.y * huy + u.z * huz
    rw [this, hua, mul_zero, add_zero]
  unfold constrainToAxis
  simp only [hu]
  by_cases hn : u.norm > tfEps
  · simp only [if_pos hn]
    have hn0 : 0 < u.norm := lt_trans hpos hn
    have h1 := scaled_unit hn0
    have hd : ∀ w : V3, w.dot w = 1 → w.dot a = 0 → |w.dot p| ≤ u.norm := by
      intro w hw hwa
      have e : w.dot p = w.dot u := by
        have : w.dot p = w.dot u + a.dot p * w.dot a := by
          rw [← hu]; simp only [dot, sub_x, sub_y, sub_z, smul_x, smul_y, smul_z]; ring
        rw [this, hwa, mul_zero, add_zero]
      rw [e]
      apply Real.abs_le_sqrt
      have := dot_sq_le w u
      rwa [hw, one_mul] at this
    constructor
    · intro v hv
      obtain rfl := Option.some.inj hv
      have hab : ∀ s : V3, s.dot p = u.dot u ∨ s.dot p = -u.dot u → |((1 / u.norm) • s).dot p| = u.norm := by
        intro s hs
        have e : ((1 / u.norm) • s).dot p = 1 / u.norm * s.dot p := by
          simp only [dot, smul_x, smul_y, smul_z]; ring
        have e2 : |s.dot p| = u.norm ^ 2 := by
          rw [norm_sq']
          rcases hs with h | h
          · rw [h, abs_of_nonneg (dot_self_nonneg' u)]
          · rw [h, abs_neg, abs_of_nonneg (dot_self_nonneg' u)]
        rw [e, abs_mul, e2, abs_of_pos (by positivity)]
        field_simp
      split_ifs with hz
      · refine ⟨?_, ?_, ?_, ?_⟩
        · refine Eq.trans ?_ h1; simp only [dot, smul_x, smul_y, smul_z, neg_x, neg_y, neg_z]; ring
        · have : ((1 / u.norm) • -u).dot a = -(1 / u.norm) * u.dot a := by
            simp only [dot, smul_x, smul_y, smul_z, neg_x, neg_y, neg_z]; ring
          rw [this, hua, mul_zero]
        · simp only [smul_z, neg_z]
          have : 0 < -u.z := by linarith
          positivity
        · intro _ w hw hwa
          rw [hab (-u) (Or.inr (by rw [← hup]; simp only [dot, neg_x, neg_y, neg_z]; ring))]
          exact hd w hw hwa
      · refine ⟨h1, ?_, ?_, ?_⟩
        · have : ((1 / u.norm) • u).dot a = (1 / u.norm) * u.dot a := by
            simp only [dot, smul_x, smul_y, smul_z]; ring
          rw [this, hua, mul_zero]
        · simp only [smul_z]
          have : 0 ≤ u.z := not_lt.mp hz
          positivity
        · intro _ w hw hwa
          rw [hab u (Or.inl hup)]
          exact hd w hw hwa
    · simp only [reduceCtorEq, false_iff, not_and, not_le]
      exact fun _ => hn
  · simp only [if_neg hn]
    by_cases hz : a.z = 1
    · simp only [if_pos hz]
      have hx : a.x = 0 := by rw [hz] at ha'; nlinarith [mul_self_nonneg a.x, mul_self_nonneg a.y]
      constructor
      · intro v hv
        obtain rfl := Option.some.inj hv
        exact ⟨by simp [dot], by simp [dot, hx], le_refl _, fun h => absurd h hn⟩
      · simp only [reduceCtorEq, false_iff, not_and]
        rintro rfl
        norm_num at hz
    · simp only [if_neg hz]
      constructor
      · intro v hv
        obtain ⟨h1, h2, h3⟩ := unit?_some hv
        refine ⟨h1, ?_, ?_, fun h => absurd h hn⟩
        · rw [h3]; simp only [dot, smul_x, smul_y, smul_z]; ring
        · rw [h3]; simp
      · have e : unit? ⟨-a.y, a.x, 0⟩ = none ↔ (⟨-a.y, a.x, 0⟩ : V3).norm = 0 := by
          unfold unit?; split_ifs with h <;> simp [h]
        rw [e, V3.norm_eq_zero]
        constructor
        · intro h
          have hx := congrArg V3.y h
          have hy := congrArg V3.x h
          simp only [zero_x, zero_y, neg_eq_zero] at hx hy
          refine ⟨?_, not_lt.mp hn⟩
          have : (a.z - 1) * (a.z + 1) = 0 := by rw [hx, hy] at ha'; linarith
          rcases mul_eq_zero.mp this with h' | h'
          · exact absurd (by linarith) hz
          · ext
            · exact hx
            · exact hy
            · show a.z = -1
              linarith
        · rintro ⟨rfl, -⟩
          ext <;> simp

namespace Arcball

theorem constrain_gt {p a v : V3} (ha : a.dot a = 1) (hp : p.dot p = 1) (hz : 0 ≤ p.z)
    (h : constrainToAxis p a = some v) : -1 < v.dot p := by
  obtain ⟨h1, h2, h3, -⟩ := (c95_constrain (p := p) ha).1 v h
  have e : v.dot p = v.dot (p - a.dot p • a) := by
    have : v.dot p = v.dot (p - a.dot p • a) + a.dot p * v.dot a := by
      simp only [dot, sub_x, sub_y, sub_z, smul_x, smul_y, smul_z]; ring
    rw [this, h2, mul_zero, add_zero]
  have hc := dot_sq_le v (p - a.dot p • a)
  rw [← e, h1, one_mul] at hc
  have hu : (p - a.dot p • a).dot (p - a.dot p • a) = 1 - a.dot p ^ 2 := by
    have : (p - a.dot p • a).dot (p - a.dot p • a) = p.dot p - 2 * a.dot p ^ 2 + a.dot p ^ 2 * a.dot a := by
      simp only [dot, sub_x, sub_y, sub_z, smul_x, smul_y, smul_z]; ring
    rw [this, ha, hp]; ring
  rw [hu] at hc
  by_contra hle
  have hle := not_lt.mp hle
  have h0 : a.dot p = 0 := by nlinarith [sq_nonneg (a.dot p)]
  -- then the point is on the great circle itself
  have hpe : p - a.dot p • a = p := by rw [h0]; ext <;> simp
  unfold constrainToAxis at h
  simp only [hpe] at h
  have hn : p.norm = 1 := by rw [V3.norm, hp, Real.sqrt_one]
  rw [if_pos (by rw [hn]; exact tfEps_lt_one), if_neg (not_lt.mpr hz), hn] at h
  obtain rfl := Option.some.inj h
  have : ((1 / 1 : ℝ) • p).dot p = p.dot p := by simp [dot]
  rw [this, hp] at hle
  linarith

theorem nearer_fold (p : V3) (l : List (Option V3)) (s : Option V3 × ℝ) :
    let r := l.foldl (nearer p) s
    s.2 ≤ r.2 ∧ (∀ b w, some b ∈ l → constrainToAxis p b = some w → w.dot p ≤ r.2) ∧
    (r = s ∨ ∃ a v, some a ∈ l ∧ r.1 = some a ∧ constrainToAxis p a = some v ∧ r.2 = v.dot p) := by
  induction l generalizing s with
  | nil => simp
  | cons o l ih =>
    intro r
    obtain ⟨h1, h2, h3⟩ := ih (nearer p s o)
    have hr : r = l.foldl (nearer p) (nearer p s o) := rfl
    rw [← hr] at h1 h2 h3
    have hs : s.2 ≤ (nearer p s o).2 ∧
        (∀ b w, some b = o → constrainToAxis p b = some w → w.dot p ≤ (nearer p s o).2) ∧
        (nearer p s o = s ∨ ∃ a v, some a = o ∧ (nearer p s o).1 = some a ∧
          constrainToAxis p a = some v ∧ (nearer p s o).2 = v.dot p) := by
      rcases o with _ | a
      · simp [nearer]
      · rcases hc : constrainToAxis p a with _ | v
        · refine ⟨by simp [nearer, hc], ?_, Or.inl (by simp [nearer, hc])⟩
          rintro b w hb hw
          rw [Option.some.inj hb, hc] at hw
          cases hw
        · have e : nearer p s (some a) = if v.dot p > s.2 then (some a, v.dot p) else s := by
            simp [nearer, hc]
          rw [e]
          split_ifs with ht
          · refine ⟨ht.le, ?_, Or.inr ⟨a, v, rfl, rfl, hc, rfl⟩⟩
            rintro b w hb hw
            rw [Option.some.inj hb, hc] at hw
            rw [Option.some.inj hw]
          · refine ⟨le_refl _, ?_, Or.inl rfl⟩
            rintro b w hb hw
            rw [Option.some.inj hb, hc] at hw
            rw [← Option.some.inj hw]
            exact not_lt.mp ht
    refine ⟨hs.1.trans h1, ?_, ?_⟩
    · intro b w hb hw
      rcases List.mem_cons.mp hb with hb | hb
      · exact (hs.2.1 b w hb hw).trans h1
      · exact h2 b w hb hw
    · rcases h3 with h3 | ⟨a, v, ha, h3⟩
      · rw [h3]
        rcases hs.2.2 with h4 | ⟨a, v, ha, h4⟩
        · exact Or.inl h4
        · exact Or.inr ⟨a, v, List.mem_cons.mpr (Or.inl ha), h4⟩
      · exact Or.inr ⟨a, v, List.mem_cons_of_mem _ ha, h3⟩

end Arcball

/-- C95: the axis that is picked is one of the axes, and no other axis has an arc nearer to the position; none is
picked iff there is none that the position can be constrained to. -/
theorem c95_nearest {p : V3} (hp : p.dot p = 1) (hz : 0 ≤ p.z) (axes : List (Option V3))
    (hu : ∀ a, some a ∈ axes → a.dot a = 1) :
    (∀ a, nearestAxis p axes = some a → some a ∈ axes ∧ ∃ v, constrainToAxis p a = some v ∧
      ∀ b w, some b ∈ axes → constrainToAxis p b = some w → w.dot p ≤ v.dot p) ∧
    (nearestAxis p axes = none ↔ ∀ b, some b ∈ axes → constrainToAxis p b = none) := by
  obtain ⟨h1, h2, h3⟩ := nearer_fold p axes (none, -1)
  have key : ∀ a, nearestAxis p axes = some a → some a ∈ axes ∧ ∃ v, constrainToAxis p a = some v ∧
      ∀ b w, some b ∈ axes → constrainToAxis p b = some w → w.dot p ≤ v.dot p := by
    intro a ha
    unfold nearestAxis at ha
    rcases h3 with h3 | ⟨a', v, hm, h4, h5, h6⟩
    · rw [h3] at ha; cases ha
    · rw [h4] at ha
      obtain rfl := Option.some.inj ha
      refine ⟨hm, v, h5, fun b w hb hw => ?_⟩
      rw [← h6]
      exact h2 b w hb hw
  refine ⟨key, ?_, ?_⟩
  · intro hn b hb
    by_contra hc
    obtain ⟨w, hw⟩ := Option.ne_none_iff_exists'.mp hc
    have := constrain_gt (hu b hb) hp hz hw
    have h7 := h2 b w hb hw
    rcases h3 with h3 | ⟨a', v, hm, h4, -⟩
    · rw [h3] at h7
      simp only at h7
      linarith
    · unfold nearestAxis at hn
      rw [h4] at hn
      cases hn
  · intro h
    rcases hn : nearestAxis p axes with _ | a
    · rfl
    · obtain ⟨hm, v, hv, -⟩ := key a hn
      rw [h a hm] at hv
      cases hv

namespace Arcball

/-- What holds of a trackball after every sequence of operations. -/
structure Inv (b : Ball) : Prop where
  down : ∀ q, b.qdown = some q → q.dot q = 1
  pre : ∀ q, b.qpre = some q → q.dot q = 1
  now : ∀ q, b.qnow = some q → q.dot q = 1
  vdown : b.vdown.dot b.vdown = 1
  axis : ∀ a, b.axis = some a → a.dot a = 1 ∧ b.vdown.dot a = 0
  axes : ∀ l, b.axes = some l → ∀ a, some a ∈ l → a.dot a = 1

theorem normalized_unit {q r : Quat} (h : normalized q = some r) : r.dot r = 1 := by
  unfold normalized at h
  split_ifs at h with h0
  obtain rfl := Option.some.inj h
  refine Quat.scale_unit ?_
  rintro rfl
  exact h0 (by simp [Quat.norm, Quat.dot])

theorem turn_quat {v w : V3} (hv : v.dot v = 1) (hw : w.dot w = 1) :
    (⟨v.dot w, (v.cross w).x, (v.cross w).y, (v.cross w).z⟩ : Quat).dot
      ⟨v.dot w, (v.cross w).x, (v.cross w).y, (v.cross w).z⟩ = 1 := by
  have : (⟨v.dot w, (v.cross w).x, (v.cross w).y, (v.cross w).z⟩ : Quat).dot
      ⟨v.dot w, (v.cross w).x, (v.cross w).y, (v.cross w).z⟩ = v.dot v * w.dot w := by
    simp only [Quat.dot, dot, cross]; ring
  rw [this, hv, hw, mul_one]

theorem turn_unit {v w : V3} (hv : v.dot v = 1) (hw : w.dot w = 1) {q : Quat} (hq : q.dot q = 1) :
    (turn v w q).dot (turn v w q) = 1 := by
  simp only [turn]
  split_ifs
  · exact hq
  · rw [c57_norm_sq, turn_quat hv hw, hq, mul_one]

theorem slerp_unit {p q : Quat} (hp : p.dot p = 1) (hq : q.dot q = 1) (f : ℝ) :
    (Quat.slerp p q f 0 true).dot (Quat.slerp p q f 0 true) = 1 := by
  have hp0 : p ≠ ⟨0, 0, 0, 0⟩ := by rintro rfl; simp [Quat.dot] at hp
  have hq0 : q ≠ ⟨0, 0, 0, 0⟩ := by rintro rfl; simp [Quat.dot] at hq
  have := (c57_slerp p q hp0 hq0 f 0 true).1
  simpa using this

theorem step_inv {b b' : Ball} (hb : Inv b) (o : Op) (h : step b o = .ok b') : Inv b' := by
  cases o with
  | place c r =>
    simp only [step, Except.ok.injEq] at h
    subst h
    exact ⟨hb.down, hb.pre, hb.now, hb.vdown, hb.axis, hb.axes⟩
  | setaxes l =>
    simp only [step, Except.ok.injEq] at h
    subst h
    refine ⟨hb.down, hb.pre, hb.now, hb.vdown, hb.axis, ?_⟩
    intro l' hl a ha
    simp only [setaxes, Option.some.injEq] at hl
    subst hl
    obtain ⟨x, -, hx⟩ := List.mem_map.mp ha
    exact (unit?_some hx).1
  | constrain v =>
    simp only [step, Except.ok.injEq] at h
    subst h
    exact ⟨hb.down, hb.pre, hb.now, hb.vdown, hb.axis, hb.axes⟩
  | down p =>
    simp only [step, Arcball.down] at h
    rcases hm : mapToSphere p b.center b.radius with _ | v
    · rw [hm] at h; cases h
    · rw [hm] at h
      have hv := ((c95_sphere p b.center b.radius).2 v hm).1
      dsimp only at h
      split at h
      · rename_i axes hc hax
        split at h
        · cases h
        · rename_i a hna
          split at h
          · cases h
          · rename_i w hw
            simp only [Except.ok.injEq] at h
            subst h
            have hau := hb.axes axes hax
            have hmem := ((c95_nearest hv ((c95_sphere p b.center b.radius).2 v hm).2.1 axes hau).1 a hna).1
            have hcs := (c95_constrain (p := v) (hau a hmem)).1 w hw
            refine ⟨hb.now, hb.now, hb.now, hcs.1, ?_, hb.axes⟩
            intro a' ha'
            simp only [Option.some.injEq] at ha'
            subst ha'
            exact ⟨hau a hmem, hcs.2.1⟩
      · simp only [Except.ok.injEq] at h
        subst h
        exact ⟨hb.now, hb.now, hb.now, hv, (fun a ha => by cases ha), hb.axes⟩
  | drag p =>
    simp only [step, Arcball.drag] at h
    rcases hm : mapToSphere p b.center b.radius with _ | v
    · rw [hm] at h; cases h
    · rw [hm] at h
      have hv := ((c95_sphere p b.center b.radius).2 v hm).1
      simp only [Except.ok.injEq] at h
      subst h
      refine ⟨hb.down, hb.now, ?_, hb.vdown, hb.axis, hb.axes⟩
      intro q hq
      simp only [Option.bind_eq_some_iff, Option.map_eq_some_iff] at hq
      obtain ⟨w, hw, q0, hq0, rfl⟩ := hq
      refine turn_unit hb.vdown ?_ (hb.down q0 hq0)
      split at hw
      · rw [← Option.some.inj hw]; exact hv
      · rename_i a ha
        exact ((c95_constrain (p := v) (hb.axis a ha).1).1 w hw).1
  | next acc =>
    simp only [step, Except.ok.injEq] at h
    subst h
    refine ⟨hb.down, hb.now, ?_, hb.vdown, hb.axis, hb.axes⟩
    intro q hq
    simp only [next] at hq
    split_ifs at hq
    · obtain ⟨p, hp, hq⟩ := Option.bind_eq_some_iff.mp hq
      exact normalized_unit hq
    · obtain ⟨p, hp, hq⟩ := Option.bind_eq_some_iff.mp hq
      exact normalized_unit hq
    · obtain ⟨p, hp, hq⟩ := Option.bind_eq_some_iff.mp hq
      obtain ⟨q', hq', rfl⟩ := Option.map_eq_some_iff.mp hq
      exact slerp_unit (hb.pre p hp) (hb.now q' hq') _

theorem init_inv (q : Quat) : Inv (init q) where
  down _ h := normalized_unit h
  pre _ h := normalized_unit h
  now _ h := normalized_unit h
  vdown := by simp [init, dot]
  axis _ h := by cases h
  axes _ h := by cases h

theorem run_inv {b b' : Ball} (hb : Inv b) (l : List Op) (h : run b l = .ok b') : Inv b' := by
  induction l generalizing b with
  | nil => simp only [run, Except.ok.injEq] at h; exact h ▸ hb
  | cons o l ih =>
    simp only [run] at h
    rcases hs : step b o with e | c
    · rw [hs] at h; cases h
    · rw [hs] at h
      exact ih (step_inv hb o hs) h

/-- An axis that points away from the viewer. -/
def Away (a : V3) : Prop := a.x = 0 ∧ a.y = 0 ∧ a.z < 0

/-- All three orientations are numbers and no axis points away from the viewer. -/
structure Fine (b : Ball) : Prop where
  down : ∃ q, b.qdown = some q
  pre : ∃ q, b.qpre = some q
  now : ∃ q, b.qnow = some q
  axis : ∀ a, b.axis = some a → a ≠ ⟨0, 0, -1⟩
  axes : ∀ l, b.axes = some l → ∀ a, some a ∈ l → a ≠ ⟨0, 0, -1⟩

theorem normalized_some {q : Quat} (h : q.dot q = 1) : normalized q = some q := by
  have : q.norm = 1 := by rw [Quat.norm, h, Real.sqrt_one]
  unfold normalized
  rw [this, if_neg one_ne_zero]
  simp [Quat.scale]

theorem step_fine {b b' : Ball} (hi : Inv b) (hb : Fine b) (o : Op)
    (ho : ∀ l, o = .setaxes l → ∀ a ∈ l, ¬ Away a) (h : step b o = .ok b') : Fine b' := by
  cases o with
  | place c r =>
    simp only [step, Except.ok.injEq] at h
    subst h
    exact ⟨hb.down, hb.pre, hb.now, hb.axis, hb.axes⟩
  | setaxes l =>
    simp only [step, Except.ok.injEq] at h
    subst h
    refine ⟨hb.down, hb.pre, hb.now, hb.axis, ?_⟩
    intro l' hl a ha
    simp only [setaxes, Option.some.injEq] at hl
    subst hl
    obtain ⟨x, hxl, hx⟩ := List.mem_map.mp ha
    obtain ⟨-, h0, h2⟩ := unit?_some hx
    rintro rfl
    have hn : 0 < x.norm := lt_of_le_of_ne (norm_nonneg' x) (Ne.symm h0)
    have hi : 0 < 1 / x.norm := by positivity
    refine ho l rfl x hxl ⟨?_, ?_, ?_⟩
    · have := congrArg V3.x h2
      simp only [smul_x] at this
      exact (mul_eq_zero.mp this.symm).resolve_left hi.ne'
    · have := congrArg V3.y h2
      simp only [smul_y] at this
      exact (mul_eq_zero.mp this.symm).resolve_left hi.ne'
    · have := congrArg V3.z h2
      simp only [smul_z] at this
      by_contra hc
      have := mul_nonneg hi.le (not_lt.mp hc)
      linarith
  | constrain v =>
    simp only [step, Except.ok.injEq] at h
    subst h
    exact ⟨hb.down, hb.pre, hb.now, hb.axis, hb.axes⟩
  | down p =>
    simp only [step, Arcball.down] at h
    rcases hm : mapToSphere p b.center b.radius with _ | v
    · rw [hm] at h; cases h
    · rw [hm] at h
      obtain ⟨hv, hz, -⟩ := (c95_sphere p b.center b.radius).2 v hm
      dsimp only at h
      split at h
      · rename_i axes hc hax
        split at h
        · cases h
        · rename_i a hna
          split at h
          · cases h
          · simp only [Except.ok.injEq] at h
            subst h
            refine ⟨hb.now, hb.now, hb.now, ?_, hb.axes⟩
            intro a' ha'
            simp only [Option.some.injEq] at ha'
            subst ha'
            exact hb.axes axes hax a ((c95_nearest hv hz axes (hi.axes axes hax)).1 a hna).1
      · simp only [Except.ok.injEq] at h
        subst h
        exact ⟨hb.now, hb.now, hb.now, (fun a ha => by cases ha), hb.axes⟩
  | drag p =>
    simp only [step, Arcball.drag] at h
    rcases hm : mapToSphere p b.center b.radius with _ | v
    · rw [hm] at h; cases h
    · rw [hm] at h
      simp only [Except.ok.injEq] at h
      subst h
      refine ⟨hb.down, hb.now, ?_, hb.axis, hb.axes⟩
      obtain ⟨q0, hq0⟩ := hb.down
      dsimp only
      rw [hq0]
      split
      · exact ⟨_, rfl⟩
      · rename_i a ha
        rcases hc : constrainToAxis v a with _ | w
        · exact absurd ((c95_constrain (p := v) (hi.axis a ha).1).2.mp hc).1 (hb.axis a ha)
        · exact ⟨_, rfl⟩
  | next acc =>
    simp only [step, Except.ok.injEq] at h
    subst h
    refine ⟨hb.down, hb.now, ?_, hb.axis, hb.axes⟩
    obtain ⟨p, hp⟩ := hb.pre
    obtain ⟨q, hq⟩ := hb.now
    simp only [next, hp, hq, Option.bind_some, Option.map_some, normalized_some (hi.pre p hp),
      normalized_some (hi.now q hq)]
    split_ifs <;> exact ⟨_, rfl⟩

end Arcball

/-- C95: after every sequence of operations that does not raise, the orientation is a unit quaternion and the
matrix a rotation; it is never NaN as long as the initial quaternion is not zero and no axis away from the
viewer was set. -/
theorem c95_orientation (q0 : Quat) (ops : List Op) (b : Ball) (h : run (init q0) ops = .ok b) :
    (∀ q, b.qnow = some q → q.dot q = 1) ∧ (∀ m, b.matrix = some m → m.IsRot) ∧
    (q0 ≠ ⟨0, 0, 0, 0⟩ → (∀ l, Op.setaxes l ∈ ops → ∀ a ∈ l, ¬ (a.x = 0 ∧ a.y = 0 ∧ a.z < 0)) →
      ∃ m, b.matrix = some m) := by
  have hi := run_inv (init_inv q0) ops h
  refine ⟨hi.now, ?_, ?_⟩
  · intro m hm
    obtain ⟨q, -, rfl⟩ := Option.map_eq_some_iff.mp hm
    exact c57_matrix_rot q
  · intro h0 hax
    have hn : normalized q0 = some (q0.scale (1 / q0.norm)) := by
      unfold normalized
      rw [if_neg]
      exact (Real.sqrt_pos.mpr (Quat.dot_pos h0)).ne'
    have key : ∀ (l : List Op) (b : Ball), Inv b → Fine b →
        (∀ x, Op.setaxes x ∈ l → ∀ a ∈ x, ¬ Away a) → ∀ b', run b l = .ok b' → Fine b' := by
      intro l
      induction l with
      | nil => intro b _ hf _ b' hr; simp only [run, Except.ok.injEq] at hr; exact hr ▸ hf
      | cons o l ih =>
        intro b hi hf ha b' hr
        simp only [run] at hr
        rcases hs : step b o with e | c
        · rw [hs] at hr; cases hr
        · rw [hs] at hr
          refine ih c (step_inv hi o hs) (step_fine hi hf o ?_ hs) ?_ b' hr
          · intro x hx; exact ha x (by rw [← hx]; exact List.mem_cons_self)
          · intro x hx; exact ha x (List.mem_cons_of_mem _ hx)
    have hf : Fine (init q0) := ⟨⟨_, hn⟩, ⟨_, hn⟩, ⟨_, hn⟩, (fun a ha => by cases ha), (fun l hl => by cases hl)⟩
    obtain ⟨q, hq⟩ := (key ops _ (init_inv q0) hf hax b h).now
    exact ⟨q.matrix, by simp [Ball.matrix, hq]⟩

/-- Outside of the ball the pointer is on its rim. -/
example : mapToSphere (3, -4) (0, 0) 1 = some ⟨3 / 5, 4 / 5, 0⟩ := by
  have h5 : √(25 : ℝ) = 5 := by rw [show (25 : ℝ) = 5 ^ 2 by norm_num]; exact Real.sqrt_sq (by norm_num)
  have : ((3 : ℝ) * 3 + 4 * 4) = 25 := by norm_num
  simp only [mapToSphere, one_ne_zero, if_false, sub_zero, div_one, sub_neg_eq_add, zero_add, this, h5]
  norm_num

/-- A pointer near the rim and an axis: the nearest point on the great circle of the axis. -/
example : (⟨0, 0, 1⟩ : V3).dot ⟨0, 0, 1⟩ = 1 ∧
    tfEps < ((⟨3 / 5, 0, 4 / 5⟩ : V3) - (⟨0, 0, 1⟩ : V3).dot ⟨3 / 5, 0, 4 / 5⟩ • (⟨0, 0, 1⟩ : V3)).norm := by
  constructor
  · simp [dot]
  · have e : ((⟨3 / 5, 0, 4 / 5⟩ : V3) - (⟨0, 0, 1⟩ : V3).dot ⟨3 / 5, 0, 4 / 5⟩ • (⟨0, 0, 1⟩ : V3)) =
        ⟨3 / 5, 0, 0⟩ := by ext <;> simp [dot]
    rw [e]
    simp only [V3.norm, dot]
    rw [show (3 / 5 : ℝ) * (3 / 5) + 0 * 0 + 0 * 0 = (3 / 5) ^ 2 by norm_num, Real.sqrt_sq (by norm_num)]
    unfold tfEps; norm_num

/-- A turned ball: the hypotheses of `c95_orientation`. -/
example (r : ℝ) (hr : r ≠ 0) : ∃ b, run (init ⟨1, 2, 3, 4⟩) [.place (320, 320) r, .setaxes [⟨1, 1, 0⟩],
    .down (1, 2), .next 0] = .ok b ∧ (⟨1, 2, 3, 4⟩ : Quat) ≠ ⟨0, 0, 0, 0⟩ := by
  simp [run, step, down, place, setaxes, init, mapToSphere, hr]

end RayOpt
