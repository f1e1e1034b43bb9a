import Verif.Props.Arcball

/-!
C95: what drags do to the orientation of the virtual trackball (rayopt/transformations.py 1582-1608).
-/

namespace RayOpt

open V3 Arcball

namespace Arcball

/-- Rotation by a unit quaternion. -/
theorem unit_mulVec {q : Quat} (hq : q.dot q = 1) (v : V3) :
    q.matrix.mulVec v = (q.w ^ 2 - q.imag.dot q.imag) • v + (2 * q.imag.dot v) • q.imag +
      (2 * q.w) • q.imag.cross v := by
  have h : tfEps ≤ q.dot q := by rw [hq]; exact tfEps_lt_one.le
  rw [Quat.matrix_eq h, hq]
  simp only [Quat.dot] at hq
  ext <;> simp [M3.mulVec, Quat.imag, dot, cross]
  · linear_combination (-v.x) * hq
  · linear_combination (-v.y) * hq
  · linear_combination (-v.z) * hq

/-- A vector as a quaternion. -/
def pure (v : V3) : Quat := ⟨0, v.x, v.y, v.z⟩

theorem pure_unit {v : V3} (hv : v.dot v = 1) : (pure v).dot (pure v) = 1 := by
  rw [← hv]; simp [Quat.dot, pure, dot]

theorem turn_pure (v w : V3) : (⟨v.dot w, (v.cross w).x, (v.cross w).y, (v.cross w).z⟩ : Quat) =
    (pure w).mul (pure v).conj := by
  ext <;> simp [pure, Quat.mul, Quat.conj, dot, cross] <;> ring

theorem conj_unit {q : Quat} (hq : q.dot q = 1) : q.conj.dot q.conj = 1 := by
  rw [← hq]; simp [Quat.dot, Quat.conj]

theorem conj_mul_self {q : Quat} (hq : q.dot q = 1) : q.conj.mul q = ⟨1, 0, 0, 0⟩ := by
  have hq' := hq
  simp only [Quat.dot] at hq'
  ext <;> simp [Quat.mul, Quat.conj]
  · linear_combination hq'
  all_goals ring

theorem conj_matrix {q : Quat} (hq : q.dot q = 1) : q.conj.matrix = q.matrix.T := by
  have h : tfEps ≤ q.dot q := by rw [hq]; exact tfEps_lt_one.le
  have h' : tfEps ≤ q.conj.dot q.conj := by rw [conj_unit hq]; exact tfEps_lt_one.le
  rw [Quat.matrix_eq h, Quat.matrix_eq h', conj_unit hq, hq]
  ext <;> simp [M3.T, Quat.conj] <;> ring

/-- A stroke between two points of the sphere that is either long enough to be noticed or has no length
(or goes to the antipode) multiplies by the quotient of the points, up to the sign of the quaternion. -/
theorem turn_matrix {v w : V3} (hv : v.dot v = 1) (hw : w.dot w = 1) {q : Quat}
    (h : tfEps ≤ (v.cross w).dot (v.cross w) ∨ v.cross w = 0) :
    (turn v w q).matrix = (((pure w).mul (pure v).conj).mul q).matrix := by
  rcases h with h | h
  · simp only [turn]
    rw [if_neg (not_lt.mpr h), turn_pure]
  · have ht : turn v w q = q := by
      simp only [turn, h]
      rw [if_pos]
      simp only [dot, zero_x, zero_y, zero_z]
      simpa using tfEps_pos
    have hd : v.dot w ^ 2 = 1 := by
      have : v.dot w ^ 2 + (v.cross w).dot (v.cross w) = v.dot v * w.dot w := by
        simp only [dot, cross]; ring
      rw [h, hv, hw] at this
      simpa [dot] using this
    rw [ht, ← turn_pure, h]
    have hd' : (v.dot w - 1) * (v.dot w + 1) = 0 := by linear_combination hd
    rcases mul_eq_zero.mp hd' with h1 | h1
    · rw [show v.dot w = 1 by linarith]; congr 1; ext <;> simp [Quat.mul]
    · rw [show v.dot w = -1 by linarith, ← Quat.neg_matrix]; congr 1; ext <;> simp [Quat.mul, Quat.neg]

end Arcball

/-- C95: dragging without an axis turns the orientation at the button press by the rotation that takes the pressed
point to its mirror image in the current one, that is by twice the angle between them about the axis
perpendicular to both; movements below the rounding threshold are ignored.  Nothing else than the current and
the previous orientation changes. -/
theorem c95_drag (q0 : Quat) (ops : List Op) (b b' : Ball) (hb : run (init q0) ops = .ok b) (p : ℝ × ℝ)
    (h : drag b p = .ok b') (hax : b.axis = none) (m : M3) (hm : b.qdown.map Quat.matrix = some m) :
    ∃ w, mapToSphere p b.center b.radius = some w ∧ b'.qdown = b.qdown ∧ b'.vdown = b.vdown ∧
      b'.axis = none ∧ b'.qpre = b.qnow ∧
      let v := b.vdown
      ((v.cross w).dot (v.cross w) < tfEps → b'.matrix = some m) ∧
      (tfEps ≤ (v.cross w).dot (v.cross w) → ∃ r : M3, r.IsRot ∧ b'.matrix = some (r.mul m) ∧
        r.mulVec v = (2 * v.dot w) • w - v ∧ r.mulVec (v.cross w) = v.cross w) := by
  have hi := run_inv (init_inv q0) ops hb
  obtain ⟨q, hq, rfl⟩ := Option.map_eq_some_iff.mp hm
  have hqu := hi.down q hq
  have hv := hi.vdown
  simp only [drag] at h
  rcases hs : mapToSphere p b.center b.radius with _ | w
  · rw [hs] at h; cases h
  rw [hs] at h
  simp only [Except.ok.injEq, hax, Option.bind_some, hq, Option.map_some] at h
  subst h
  have hw := ((c95_sphere p b.center b.radius).2 w hs).1
  refine ⟨w, rfl, hq.symm ▸ rfl, rfl, rfl, rfl, ?_, ?_⟩
  · intro ht
    simp only [Ball.matrix, Option.map_some, turn, if_pos ht]
  · intro ht
    have hr := turn_quat hv hw
    refine ⟨_, c57_matrix_rot ⟨b.vdown.dot w, (b.vdown.cross w).x, (b.vdown.cross w).y, (b.vdown.cross w).z⟩,
      ?_, ?_, ?_⟩
    · simp only [Ball.matrix, Option.map_some, turn, if_neg (not_lt.mpr ht)]
      rw [c57_matrix_mul_unit _ _ hr hqu]
    · rw [unit_mulVec hr]
      have hr' := hr
      simp only [Quat.dot] at hr'
      have e1 : (b.vdown.cross w).dot b.vdown = 0 := by simp only [dot, cross]; ring
      have e2 : (b.vdown.cross w).cross b.vdown = w - b.vdown.dot w • b.vdown := by
        have : (b.vdown.cross w).cross b.vdown = b.vdown.dot b.vdown • w - b.vdown.dot w • b.vdown := by
          ext <;> simp [cross, dot] <;> ring
        rw [this, hv]; ext <;> simp
      generalize b.vdown.cross w = t at *
      generalize b.vdown.dot w = c at *
      have e2x := congrArg V3.x e2
      have e2y := congrArg V3.y e2
      have e2z := congrArg V3.z e2
      simp only [cross, sub_x, sub_y, sub_z, smul_x, smul_y, smul_z] at e2x e2y e2z
      simp only [dot] at e1
      generalize b.vdown = v at *
      ext <;> simp [Quat.imag, dot, cross]
      · linear_combination (-v.x) * hr' + 2 * t.x * e1 + 2 * c * e2x
      · linear_combination (-v.y) * hr' + 2 * t.y * e1 + 2 * c * e2y
      · linear_combination (-v.z) * hr' + 2 * t.z * e1 + 2 * c * e2z
    · rw [unit_mulVec hr]
      have hr' := hr
      simp only [Quat.dot] at hr'
      generalize b.vdown.cross w = t at *
      generalize b.vdown.dot w = c at *
      ext <;> simp [Quat.imag, dot, cross]
      · linear_combination t.x * hr'
      · linear_combination t.y * hr'
      · linear_combination t.z * hr'

/-- C95: dragging with an axis turns about that axis. -/
theorem c95_constrained (q0 : Quat) (ops : List Op) (b b' : Ball) (hb : run (init q0) ops = .ok b)
    (p : ℝ × ℝ) (h : drag b p = .ok b') (a : V3) (hax : b.axis = some a) (m m' : M3)
    (hm : b.qdown.map Quat.matrix = some m) (hm' : b'.matrix = some m') :
    ∃ r : M3, r.IsRot ∧ m' = r.mul m ∧ r.mulVec a = a := by
  have hi := run_inv (init_inv q0) ops hb
  obtain ⟨q, hq, rfl⟩ := Option.map_eq_some_iff.mp hm
  have hqu := hi.down q hq
  have hv := hi.vdown
  obtain ⟨ha, hva⟩ := hi.axis a hax
  simp only [drag] at h
  rcases hs : mapToSphere p b.center b.radius with _ | w0
  · rw [hs] at h; cases h
  rw [hs] at h
  simp only [Except.ok.injEq, hax] at h
  subst h
  simp only [Ball.matrix, hq, Option.map_some] at hm'
  rcases hc : constrainToAxis w0 a with _ | w
  · rw [hc] at hm'; cases hm'
  rw [hc] at hm'
  simp only [Option.bind_some, Option.map_some, Option.some.injEq] at hm'
  obtain ⟨hw, hwa, -⟩ := (c95_constrain (p := w0) ha).1 w hc
  have hr := turn_quat hv hw
  by_cases ht : (b.vdown.cross w).dot (b.vdown.cross w) < tfEps
  · simp only [turn, if_pos ht] at hm'
    refine ⟨M3.one, M3.isRot_one, ?_, ?_⟩
    · rw [← hm']; ext <;> simp [M3.mul, M3.one]
    · ext <;> simp [M3.mulVec, M3.one]
  · simp only [turn, if_neg ht] at hm'
    refine ⟨_, c57_matrix_rot ⟨b.vdown.dot w, (b.vdown.cross w).x, (b.vdown.cross w).y, (b.vdown.cross w).z⟩,
      ?_, ?_⟩
    · rw [← hm', c57_matrix_mul_unit _ _ hr hqu]
    · rw [unit_mulVec hr]
      have hx : (b.vdown.cross w).cross a = 0 := by
        simp only [dot] at hva hwa
        ext <;> simp [cross]
        · linear_combination w.x * hva - b.vdown.x * hwa
        · linear_combination w.y * hva - b.vdown.y * hwa
        · linear_combination w.z * hva - b.vdown.z * hwa
      have hr' := hr
      simp only [Quat.dot] at hr'
      generalize b.vdown.cross w = t at *
      generalize b.vdown.dot w = c at *
      have hx1 := congrArg V3.x hx
      have hx2 := congrArg V3.y hx
      have hx3 := congrArg V3.z hx
      simp only [cross, zero_x, zero_y, zero_z] at hx1 hx2 hx3
      ext <;> simp [Quat.imag, dot, cross]
      · linear_combination a.x * hr' + 2 * c * hx1 - 2 * t.z * hx2 + 2 * t.y * hx3
      · linear_combination a.y * hr' + 2 * c * hx2 - 2 * t.x * hx3 + 2 * t.z * hx1
      · linear_combination a.z * hr' + 2 * c * hx3 - 2 * t.y * hx1 + 2 * t.x * hx2

namespace Arcball

theorem run_append (b : Ball) (l k : List Op) : run b (l ++ k) = match run b l with
    | .error e => .error e
    | .ok c => run c k := by
  induction l generalizing b with
  | nil => rfl
  | cons o l ih =>
    simp only [List.cons_append, run]
    rcases step b o with e | c
    · rfl
    · exact ih c

theorem drag_keeps {b c : Ball} {p : ℝ × ℝ} (h : drag b p = .ok c) :
    ∃ r s, c = { b with qpre := r, qnow := s } := by
  simp only [drag] at h
  split at h
  · cases h
  · simp only [Except.ok.injEq] at h
    exact ⟨_, _, h.symm⟩

theorem drags_keep {b c : Ball} {ps : List (ℝ × ℝ)} (h : run b (ps.map Op.drag) = .ok c) :
    ∃ r s, c = { b with qpre := r, qnow := s } := by
  induction ps generalizing b with
  | nil => simp only [List.map_nil, run, Except.ok.injEq] at h; exact ⟨b.qpre, b.qnow, h.symm⟩
  | cons p ps ih =>
    simp only [List.map_cons, run, step] at h
    rcases hd : drag b p with e | d
    · rw [hd] at h; cases h
    · rw [hd] at h
      obtain ⟨r, s, rfl⟩ := drag_keeps hd
      obtain ⟨r', s', rfl⟩ := ih (b := { b with qpre := r, qnow := s }) h
      exact ⟨r', s', rfl⟩

end Arcball

/-- C95: the orientation depends on where the button was pressed and on the current position only, not on the
positions in between, for every number of drags; and these positions never raise if the last one does not. -/
theorem c95_path (b : Ball) (ps : List (ℝ × ℝ)) (p : ℝ × ℝ) (b2 : Ball) (h2 : run b [.drag p] = .ok b2) :
    ∃ b1, run b (ps.map Op.drag ++ [.drag p]) = .ok b1 ∧
      b1.qnow = b2.qnow ∧ b1.qdown = b2.qdown ∧ b1.matrix = b2.matrix := by
  have h2' : drag b p = .ok b2 := by
    simp only [run, step] at h2
    rcases hd : drag b p with e | d
    · rw [hd] at h2; cases h2
    · rw [hd] at h2; exact h2
  have hr : b.radius ≠ 0 := by
    intro h0
    simp only [drag, ((c95_sphere p b.center b.radius).1.mpr h0), reduceCtorEq] at h2'
  have hex : ∀ (ps : List (ℝ × ℝ)) (c : Ball), c.radius ≠ 0 → ∃ d, run c (ps.map Op.drag) = .ok d := by
    intro ps
    induction ps with
    | nil => intro c _; exact ⟨c, rfl⟩
    | cons x ps ih =>
      intro c hc
      rcases hd : drag c x with e | d
      · simp only [drag] at hd
        split at hd
        · rename_i h0
          exact absurd ((c95_sphere x c.center c.radius).1.mp h0) hc
        · cases hd
      · obtain ⟨r, s, rfl⟩ := drag_keeps hd
        obtain ⟨e, he⟩ := ih { c with qpre := r, qnow := s } hc
        exact ⟨e, by simp only [List.map_cons, run, step, hd]; exact he⟩
  obtain ⟨c, hc⟩ := hex ps b hr
  obtain ⟨r, s, rfl⟩ := drags_keep hc
  simp only [drag] at h2'
  split at h2'
  · cases h2'
  · rename_i v hv
    simp only [Except.ok.injEq] at h2'
    refine ⟨{ b with qpre := s, qnow := b2.qnow }, ?_, ?_⟩
    · rw [run_append, hc]
      simp only [run, step, drag, hv]
      rw [← h2']
    · rw [← h2']
      exact ⟨rfl, rfl, rfl⟩

namespace Arcball

theorem strokes_aux (ps : List (ℝ × ℝ)) (p : ℝ × ℝ) (s b1 : Ball) (hi : Inv s) (hc : s.constrain = false)
    (ha : s.axis = none) (hp : mapToSphere p s.center s.radius = some s.vdown) (q : Quat)
    (hn : s.qnow = some q) (hd : s.qdown = some q)
    (h1 : run s (ps.flatMap fun p => [.drag p, .down p]) = .ok b1)
    (hlong : ∀ x ∈ p :: ps, ∀ y ∈ p :: ps, ∀ v w, mapToSphere x s.center s.radius = some v →
      mapToSphere y s.center s.radius = some w →
      tfEps ≤ (v.cross w).dot (v.cross w) ∨ v.cross w = 0) :
    ∃ z, mapToSphere (ps.getLastD p) s.center s.radius = some z ∧
      b1.matrix = some (((pure z).mul (pure s.vdown).conj).mul q).matrix := by
  induction ps generalizing p s q with
  | nil =>
    simp only [List.flatMap_nil, run, Except.ok.injEq] at h1
    subst h1
    refine ⟨s.vdown, hp, ?_⟩
    have e := (c57_conj (pure s.vdown) q).2
    rw [pure_unit hi.vdown] at e
    rw [e, (c57_unit q).1]
    simp [Ball.matrix, hn]
  | cons x ps ih =>
    have hr : s.radius ≠ 0 := by
      intro h0
      rw [(c95_sphere p s.center s.radius).1.mpr h0] at hp
      cases hp
    obtain ⟨w, hw⟩ : ∃ w, mapToSphere x s.center s.radius = some w :=
      Option.ne_none_iff_exists'.mp fun h0 => hr ((c95_sphere x s.center s.radius).1.mp h0)
    have hwu := ((c95_sphere x s.center s.radius).2 w hw).1
    have hqu := hi.now q hn
    have e1 : step s (.drag x) = .ok { s with qpre := some q, qnow := some (turn s.vdown w q) } := by
      simp only [step, drag, hw, ha, hd, hn, Option.bind_some, Option.map_some]
    have e2 : step { s with qpre := some q, qnow := some (turn s.vdown w q) } (.down x) =
        .ok { s with
          vdown := w, qdown := some (turn s.vdown w q), qpre := some (turn s.vdown w q),
          qnow := some (turn s.vdown w q), axis := none } := by
      simp only [step, down, hw, hc]
    have hi1 := step_inv hi _ e1
    have hi2 := step_inv hi1 _ e2
    have hrun : run { s with
          vdown := w, qdown := some (turn s.vdown w q), qpre := some (turn s.vdown w q),
          qnow := some (turn s.vdown w q), axis := none } (ps.flatMap fun p => [.drag p, .down p]) = .ok b1 := by
      simp only [List.flatMap_cons, List.cons_append, List.nil_append, run, e1, e2] at h1
      exact h1
    obtain ⟨z, hz, hm⟩ := ih x _ hi2 hc rfl hw (turn s.vdown w q) rfl rfl hrun
      (fun a ha' b hb' => hlong a (List.mem_cons_of_mem _ ha') b (List.mem_cons_of_mem _ hb'))
    have hzu := ((c95_sphere _ s.center s.radius).2 z hz).1
    refine ⟨z, by rw [List.getLastD_cons]; exact hz, ?_⟩
    rw [hm]
    simp only
    have ht := turn_matrix (q := q) hi.vdown hwu
      (hlong p List.mem_cons_self x (List.mem_cons_of_mem _ List.mem_cons_self) _ _ hp hw)
    have u1 := pure_unit hi.vdown
    have u2 := pure_unit hwu
    have u3 := pure_unit hzu
    have v1 := conj_unit u1
    have v2 := conj_unit u2
    have uz : ((pure z).mul (pure w).conj).dot ((pure z).mul (pure w).conj) = 1 := by
      rw [c57_norm_sq, u3, v2, mul_one]
    have uw : (((pure w).mul (pure s.vdown).conj).mul q).dot (((pure w).mul (pure s.vdown).conj).mul q) = 1 := by
      rw [c57_norm_sq, c57_norm_sq, u2, v1, hqu, mul_one, mul_one]
    have ut := turn_unit hi.vdown hwu hqu
    rw [c57_matrix_mul_unit _ _ uz ut, ht, ← c57_matrix_mul_unit _ _ uz uw]
    congr 2
    rw [c57_assoc (pure z) (pure w).conj, ← c57_assoc (pure w).conj, ← c57_assoc (pure w).conj, conj_mul_self u2,
      (c57_unit _).1, c57_assoc]

end Arcball

/-- C95: strokes add up: any number of strokes from position to position, releasing and pressing the button at
each, gives the same matrix as one stroke from the first position to the last, and a closed path restores
the orientation.  The strokes are to be long enough to be noticed, or of no length. -/
theorem c95_strokes (q0 : Quat) (ops : List Op) (b : Ball) (hb : run (init q0) ops = .ok b)
    (hc : b.constrain = false) (m : M3) (hm : b.matrix = some m) (p : ℝ × ℝ) (ps : List (ℝ × ℝ)) (b1 b2 : Ball)
    (h1 : run b (.down p :: ps.flatMap fun p => [.drag p, .down p]) = .ok b1)
    (h2 : run b [.down p, .drag (ps.getLastD p)] = .ok b2)
    (hlong : ∀ x ∈ p :: ps, ∀ y ∈ p :: ps, ∀ v w, mapToSphere x b.center b.radius = some v →
      mapToSphere y b.center b.radius = some w →
      tfEps ≤ (v.cross w).dot (v.cross w) ∨ v.cross w = 0) :
    b1.matrix = b2.matrix ∧ (ps.getLastD p = p → b1.matrix = some m) := by
  have hi := run_inv (init_inv q0) ops hb
  obtain ⟨q, hq, rfl⟩ := Option.map_eq_some_iff.mp hm
  have hqu := hi.now q hq
  rcases hv : mapToSphere p b.center b.radius with _ | v
  · simp only [run, step, down, hv, reduceCtorEq] at h1
  have hvu := ((c95_sphere p b.center b.radius).2 v hv).1
  have e1 : step b (.down p) = .ok { b with
      vdown := v, qdown := some q, qpre := some q, axis := none } := by
    simp only [step, down, hv, hc, hq]
  have hi1 := step_inv hi _ e1
  simp only [run, e1] at h1
  have hn : ({ b with vdown := v, qdown := some q, qpre := some q, axis := none } : Ball).qnow = some q := hq
  obtain ⟨z, hz, hm1⟩ := strokes_aux ps p _ b1 hi1 hc rfl hv q hn rfl h1 hlong
  have hz' : mapToSphere (ps.getLastD p) b.center b.radius = some z := hz
  have hzu := ((c95_sphere _ b.center b.radius).2 z hz').1
  have hmem : ps.getLastD p ∈ p :: ps := by
    rw [List.getLastD_eq_getLast?]
    rcases hl : ps.getLast? with _ | y
    · simp
    · simpa using Or.inr (List.mem_of_getLast? hl)
  constructor
  · rw [hm1]
    simp only [run, e1] at h2
    simp only [step, drag, hz', Option.bind_some, Option.map_some, Except.ok.injEq] at h2
    rw [← h2]
    simp only [Ball.matrix, Option.map_some, Option.some.injEq]
    exact (turn_matrix hvu hzu (hlong p List.mem_cons_self _ hmem v z hv hz')).symm
  · intro hcl
    rw [hcl, hv] at hz'
    obtain rfl := Option.some.inj hz'
    rw [hm1]
    simp only
    rw [(c57_conj (pure v) q).2, pure_unit hvu, (c57_unit q).1]

namespace Arcball

/-- The interpolation between unit quaternions, in closed form. -/
theorem slerp_formula {p q : Quat} (hp : p.dot p = 1) (hq : q.dot q = 1) (hd : tfEps ≤ |(|p.dot q|) - 1|)
    (f : ℝ) (hf : f ≠ 1 ∨ 0 ≤ p.dot q) :
    ∃ a : ℝ, 0 < a ∧ a ≤ Real.pi / 2 ∧ 0 < Real.sin a ∧ Real.cos a = |p.dot q| ∧ a = Real.arccos |p.dot q| ∧
      Quat.slerp p q f 0 true = (p.scale (Real.sin ((1 - f) * a) * (1 / Real.sin a))).add
        ((if p.dot q < 0 then q.neg else q).scale (Real.sin (f * a) * (1 / Real.sin a))) := by
  have hb := Quat.dot_le_one hp hq
  have hpos := tfEps_pos
  have habs : |p.dot q| ≤ 1 := abs_le.mpr hb
  have hlt : |p.dot q| ≤ 1 - tfEps := by
    rw [abs_of_nonpos (by linarith)] at hd
    linarith
  have hcos : Real.cos (Real.arccos |p.dot q|) = |p.dot q| :=
    Real.cos_arccos (by linarith [abs_nonneg (p.dot q)]) habs
  have ha0 : 0 < Real.arccos |p.dot q| := Real.arccos_pos.mpr (by linarith)
  have ha1 : Real.arccos |p.dot q| ≤ Real.pi / 2 := Real.arccos_le_pi_div_two.mpr (abs_nonneg _)
  have hsin : 0 < Real.sin (Real.arccos |p.dot q|) :=
    Real.sin_pos_of_pos_of_lt_pi ha0 (by linarith [Real.pi_pos])
  refine ⟨Real.arccos |p.dot q|, ha0, ha1, hsin, hcos, rfl, ?_⟩
  have hn : p.norm = 1 := by rw [Quat.norm, hp, Real.sqrt_one]
  have hn' : q.norm = 1 := by rw [Quat.norm, hq, Real.sqrt_one]
  have hs1 : ∀ r : Quat, r.scale (1 / 1) = r := by intro r; simp [Quat.scale]
  have hnot : ¬ abs (Real.arccos |p.dot q|) < tfEps := by
    intro h
    have h2 := Real.one_sub_sq_div_two_le_cos (x := Real.arccos |p.dot q|)
    rw [hcos] at h2
    rw [abs_of_pos ha0] at h
    have := tfEps_lt_one
    nlinarith
  obtain ⟨a, ha⟩ : ∃ a, Real.arccos |p.dot q| = a := ⟨_, rfl⟩
  rw [ha] at hsin hnot hcos ⊢
  by_cases h0 : f = 0
  · rw [h0, (c57_slerp_ends p q 0 true).1, hn, hs1]
    have : Real.sin a ≠ 0 := hsin.ne'
    ext <;> simp [Quat.add, Quat.scale, this]
  by_cases h1 : f = 1
  · have hd0 : 0 ≤ p.dot q := hf.resolve_left (not_not.mpr h1)
    rw [h1, (c57_slerp_ends p q 0 true).2, hn', hs1, if_neg (not_lt.mpr hd0)]
    have : Real.sin a ≠ 0 := hsin.ne'
    ext <;> simp [Quat.add, Quat.scale, this]
  have hflip : (if p.dot q < 0 then -p.dot q else p.dot q) = |p.dot q| := by
    split_ifs with h
    · rw [abs_of_neg h]
    · rw [abs_of_nonneg (not_lt.mp h)]
  unfold Quat.slerp
  simp only [hn, hn', hs1, if_neg h0, if_neg h1, if_neg (not_lt.mpr hd), true_and, hflip, ha, Int.cast_zero,
    zero_mul, add_zero, if_neg hnot]

end Arcball

/-- C95: `next()` repeats the last rotation: it multiplies by the quotient of the current and the previous
orientation.  `next(acceleration)` goes on along the same great circle by `1 + acceleration` times the last angle,
if the last rotation was by at most a half turn. -/
theorem c95_next (q0 : Quat) (ops : List Op) (b : Ball) (hb : run (init q0) ops = .ok b) (p q : Quat)
    (hp : b.qpre = some p) (hq : b.qnow = some q) (hd : tfEps ≤ |(|p.dot q|) - 1|) :
    (next b 0).matrix = some ((q.matrix.mul p.matrix.T).mul q.matrix) ∧
    (0 ≤ p.dot q → ∃ (a : ℝ) (v : V3), v.dot v = 1 ∧ 0 < a ∧ a ≤ Real.pi / 2 ∧
      q = (⟨Real.cos a, Real.sin a * v.x, Real.sin a * v.y, Real.sin a * v.z⟩ : Quat).mul p ∧
      ∀ acc : ℝ, (next b acc).qnow = some
        ((⟨Real.cos ((2 + acc) * a), Real.sin ((2 + acc) * a) * v.x, Real.sin ((2 + acc) * a) * v.y,
          Real.sin ((2 + acc) * a) * v.z⟩ : Quat).mul p)) := by
  have hi := run_inv (init_inv q0) ops hb
  have hpu := hi.pre p hp
  have hqu := hi.now q hq
  have hn : p.norm = 1 := by rw [Quat.norm, hpu, Real.sqrt_one]
  have hn' : q.norm = 1 := by rw [Quat.norm, hqu, Real.sqrt_one]
  have hs1 : ∀ r : Quat, r.scale (1 / 1) = r := by intro r; simp [Quat.scale]
  have hnext : ∀ acc, (next b acc).qnow = some (Quat.slerp p q (2 + acc) 0 true) := by
    intro acc
    simp only [next, hp, hq, Option.bind_some, Option.map_some, normalized_some hpu, normalized_some hqu]
    split_ifs with h0 h1
    · rw [h0, (c57_slerp_ends p q 0 true).1, hn, hs1]
    · rw [h1, (c57_slerp_ends p q 0 true).2, hn', hs1]
    · rfl
  constructor
  · simp only [Ball.matrix, hnext, Option.map_some, Option.some.injEq]
    obtain ⟨a, -, -, hs, hc, -, he⟩ := slerp_formula hpu hqu hd (2 + 0) (Or.inl (by norm_num))
    have hx : Quat.slerp p q (2 + 0) 0 true = (q.mul p.conj).mul q := by
      have e1 : Real.sin ((1 - (2 + 0)) * a) = -Real.sin a := by rw [← Real.sin_neg]; congr 1; ring
      have e2 : Real.sin ((2 + 0) * a) = 2 * Real.sin a * Real.cos a := by rw [add_zero, Real.sin_two_mul]
      have hs0 := hs.ne'
      rw [he, e1, e2, hc]
      have e3 : -Real.sin a * (1 / Real.sin a) = -1 := by field_simp
      have e4 : 2 * Real.sin a * |p.dot q| * (1 / Real.sin a) = 2 * |p.dot q| := by field_simp
      rw [e3, e4]
      have e5 : (if p.dot q < 0 then q.neg else q).scale (2 * |p.dot q|) = q.scale (2 * p.dot q) := by
        split_ifs with h
        · rw [abs_of_neg h]; ext <;> simp [Quat.scale, Quat.neg]
        · rw [abs_of_nonneg (not_lt.mp h)]
      rw [e5]
      have hq' := hqu
      simp only [Quat.dot] at hq'
      ext <;> simp only [Quat.add, Quat.scale, Quat.mul, Quat.conj, Quat.dot]
      · linear_combination p.w * hq'
      · linear_combination p.x * hq'
      · linear_combination p.y * hq'
      · linear_combination p.z * hq'
    have hpc := conj_unit hpu
    rw [hx, c57_matrix_mul_unit _ _ (by rw [c57_norm_sq, hqu, hpc, mul_one]) hqu,
      c57_matrix_mul_unit _ _ hqu hpc, conj_matrix hpu]
  · intro h0
    have hnn : ¬ p.dot q < 0 := not_lt.mpr h0
    obtain ⟨a, ha0, ha1, hs, hc, ha, -⟩ := slerp_formula hpu hqu hd 1 (Or.inr h0)
    rw [abs_of_nonneg h0] at hc
    have hs0 := hs.ne'
    obtain ⟨g, hg⟩ : ∃ g, q.mul p.conj = g := ⟨_, rfl⟩
    have hgw : g.w = Real.cos a := by
      rw [hc, ← hg]; simp only [Quat.mul, Quat.conj, Quat.dot]; ring
    have hgu : g.dot g = 1 := by rw [← hg, c57_norm_sq, hqu, conj_unit hpu, mul_one]
    have hqg : q = g.mul p := by
      rw [← hg, c57_assoc, conj_mul_self hpu, (c57_unit q).2]
    have hsc := Real.sin_sq_add_cos_sq a
    refine ⟨a, ⟨g.x / Real.sin a, g.y / Real.sin a, g.z / Real.sin a⟩, ?_, ha0, ha1, ?_, ?_⟩
    · simp only [Quat.dot, hgw] at hgu
      simp only [dot]
      field_simp
      linarith
    · conv_lhs => rw [hqg]
      congr 1
      ext <;> simp only [hgw] <;> field_simp
    · intro acc
      rw [hnext]
      obtain ⟨a', -, -, -, -, ha', he⟩ := slerp_formula hpu hqu hd (2 + acc) (Or.inr h0)
      obtain rfl : a = a' := ha.trans ha'.symm
      rw [he, if_neg hnn]
      have e1 : Real.sin ((1 - (2 + acc)) * a) =
          Real.sin a * Real.cos ((2 + acc) * a) - Real.cos a * Real.sin ((2 + acc) * a) := by
        rw [← Real.sin_sub]; congr 1; ring
      rw [e1]
      generalize Real.sin ((2 + acc) * a) = sf at *
      generalize Real.cos ((2 + acc) * a) = cf at *
      have hqw := congrArg Quat.w hqg
      have hqx := congrArg Quat.x hqg
      have hqy := congrArg Quat.y hqg
      have hqz := congrArg Quat.z hqg
      simp only [Quat.mul, hgw] at hqw hqx hqy hqz
      congr 1
      generalize Real.sin a = sa at *
      generalize Real.cos a = ca at *
      ext <;> simp only [Quat.add, Quat.scale, Quat.mul] <;> field_simp
      · linear_combination sf * hqw
      · linear_combination sf * hqx
      · linear_combination sf * hqy
      · linear_combination sf * hqz

namespace Arcball

theorem unit_map {x y z : ℝ} (hz : 0 ≤ z) (h : x * x + y * y + z * z = 1) :
    mapToSphere (x, y) (0, 0) 1 = some ⟨x, -y, z⟩ := by
  have hn : ¬ (x * x + -y * -y > 1) := by nlinarith
  simp only [mapToSphere, one_ne_zero, if_false, sub_zero, zero_sub, div_one, if_neg hn]
  rw [show 1 - (x * x + -y * -y) = z ^ 2 by linarith, Real.sqrt_sq hz]

end Arcball

/-- C95, violation: after a drag by more than a half turn an accelerated `next` turns back: the drag is by 240
degrees about `x`, and `next(-1/2)`, which should go on by half of that to a full turn, ends at minus 180 degrees. -/
theorem c95_next_violation : ∃ b : Ball,
    run (init ⟨1, 0, 0, 0⟩) [.down (0, -(√3 / 2)), .drag (0, √3 / 2), .next (-1 / 2)] = .ok b ∧
    b.qpre = some ⟨-(1 / 2), √3 / 2, 0, 0⟩ ∧ b.qnow = some ⟨0, -1, 0, 0⟩ ∧ b.matrix ≠ some M3.one := by
  have h3 : √3 * √3 = 3 := Real.mul_self_sqrt (by norm_num)
  have h30 : √3 ≠ 0 := by positivity
  have hn : normalized ⟨1, 0, 0, 0⟩ = some ⟨1, 0, 0, 0⟩ := normalized_some (by simp [Quat.dot])
  have m1 := unit_map (x := 0) (y := -(√3 / 2)) (z := 1 / 2) (by norm_num) (by linarith)
  have m2 := unit_map (x := 0) (y := √3 / 2) (z := 1 / 2) (by norm_num) (by linarith)
  have hsl : Quat.slerp ⟨1, 0, 0, 0⟩ ⟨-(1 / 2), √3 / 2, 0, 0⟩ (2 + -1 / 2) 0 true = ⟨0, -1, 0, 0⟩ := by
    have hd : (⟨1, 0, 0, 0⟩ : Quat).dot ⟨-(1 / 2), √3 / 2, 0, 0⟩ = -(1 / 2) := by simp [Quat.dot]
    have hab : |-(1 / 2 : ℝ)| = 1 / 2 := by rw [abs_neg, abs_of_pos (by norm_num)]
    obtain ⟨a, h0, h1, -, -, ha, he⟩ := slerp_formula (p := ⟨1, 0, 0, 0⟩) (q := ⟨-(1 / 2), √3 / 2, 0, 0⟩)
      (by simp [Quat.dot]) (by simp only [Quat.dot]; linarith)
      (by rw [hd, hab, show |(1 / 2 : ℝ) - 1| = 1 / 2 by rw [abs_of_neg (by norm_num)]; norm_num]
          unfold tfEps; norm_num) (2 + -1 / 2) (Or.inl (by norm_num))
    rw [hd] at ha he
    rw [hab, ← Real.cos_pi_div_three, Real.arccos_cos (by positivity) (by linarith [Real.pi_pos])] at ha
    subst ha
    rw [he, if_pos (by norm_num), show (1 - (2 + -1 / 2)) * (Real.pi / 3) = -(Real.pi / 6) by ring,
      show (2 + -1 / 2) * (Real.pi / 3) = Real.pi / 2 by ring, Real.sin_neg, Real.sin_pi_div_six,
      Real.sin_pi_div_three, Real.sin_pi_div_two]
    ext <;> simp only [Quat.add, Quat.scale, Quat.neg] <;> field_simp <;> norm_num
  have ht : ((⟨0, -(-(√3 / 2)), 1 / 2⟩ : V3).cross ⟨0, -(√3 / 2), 1 / 2⟩) = ⟨√3 / 2, 0, 0⟩ := by
    ext <;> simp [cross]; ring
  have hdd : ((⟨0, -(-(√3 / 2)), 1 / 2⟩ : V3).dot ⟨0, -(√3 / 2), 1 / 2⟩) = -(1 / 2) := by
    simp only [dot]; linarith
  have htt : ¬ ((⟨√3 / 2, 0, 0⟩ : V3).dot ⟨√3 / 2, 0, 0⟩ < tfEps) := by
    simp only [dot, not_lt]
    have : √3 / 2 * (√3 / 2) + 0 * 0 + 0 * 0 = 3 / 4 := by linarith
    rw [this]; unfold tfEps; norm_num
  refine ⟨⟨none, none, 1, (0, 0), ⟨0, -(-(√3 / 2)), 1 / 2⟩, false, some ⟨1, 0, 0, 0⟩,
    some ⟨-(1 / 2), √3 / 2, 0, 0⟩, some ⟨0, -1, 0, 0⟩⟩, ?_, rfl, rfl, ?_⟩
  · have hq : turn ⟨0, -(-(√3 / 2)), 1 / 2⟩ ⟨0, -(√3 / 2), 1 / 2⟩ ⟨1, 0, 0, 0⟩ = ⟨-(1 / 2), √3 / 2, 0, 0⟩ := by
      simp only [turn, ht, hdd, if_neg htt]
      exact (c57_unit _).2
    have hf0 : ¬ ((2 : ℝ) + -1 / 2 = 0) := by norm_num
    have hf1 : ¬ ((2 : ℝ) + -1 / 2 = 1) := by norm_num
    simp only [run, step, down, drag, next, init, hn, m1, m2, Option.bind_some, Option.map_some, hq, if_neg hf0,
      if_neg hf1, hsl]
  · intro h
    have := congrArg (fun m => m.map M3.a11) h
    have h1 : (⟨0, -1, 0, 0⟩ : Quat).dot ⟨0, -1, 0, 0⟩ = 1 := by simp [Quat.dot]
    simp only [Ball.matrix, Option.map_some, Quat.matrix_eq (h1.symm ▸ tfEps_lt_one.le), h1, M3.one,
      Option.some.injEq] at this
    norm_num at this

/-- C95, violation: `setaxes()` does not take the axes away again; pressing the button raises. -/
theorem c95_axes_violation (p : ℝ × ℝ) :
    run (init ⟨1, 0, 0, 0⟩) [.setaxes [⟨1, 0, 0⟩], .setaxes [], .constrain true, .down p] = .error .index := by
  simp [run, step, init, setaxes, down, mapToSphere, nearestAxis]

/-- C95, violation: with the axis away from the viewer, pressing at the centre raises, and dragging over the centre
makes the orientation NaN. -/
theorem c95_away_violation :
    run (init ⟨1, 0, 0, 0⟩) [.setaxes [⟨0, 0, -1⟩], .constrain true, .down (0, 0)] = .error .index ∧
    ∃ b, run (init ⟨1, 0, 0, 0⟩) [.setaxes [⟨0, 0, -1⟩], .constrain true, .down (1, 0), .drag (0, 0)] = .ok b ∧
      b.matrix = none := by
  have hu : unit? ⟨0, 0, -1⟩ = some ⟨0, 0, -1⟩ := by
    have : (⟨0, 0, -1⟩ : V3).norm = 1 := by simp [V3.norm, dot]
    simp only [unit?, this, one_ne_zero, if_false, unitVector]
    congr 1
    ext <;> simp
  have m0 := unit_map (x := 0) (y := 0) (z := 1) (by norm_num) (by norm_num)
  have m1 := unit_map (x := 1) (y := 0) (z := 0) (by norm_num) (by norm_num)
  have ha : (⟨0, 0, -1⟩ : V3).dot ⟨0, 0, -1⟩ = 1 := by simp [dot]
  have c0 : constrainToAxis ⟨0, -0, 1⟩ ⟨0, 0, -1⟩ = none := by
    rw [(c95_constrain ha).2]
    refine ⟨rfl, ?_⟩
    have : (⟨0, -0, 1⟩ - (⟨0, 0, -1⟩ : V3).dot ⟨0, -0, 1⟩ • (⟨0, 0, -1⟩ : V3)) = 0 := by
      ext <;> simp [dot]
    rw [this, V3.norm_eq_zero.mpr rfl]
    exact tfEps_pos.le
  have c1 : constrainToAxis ⟨1, -0, 0⟩ ⟨0, 0, -1⟩ = some ⟨1, 0, 0⟩ := by
    have : (⟨1, -0, 0⟩ - (⟨0, 0, -1⟩ : V3).dot ⟨1, -0, 0⟩ • (⟨0, 0, -1⟩ : V3)) = ⟨1, 0, 0⟩ := by
      ext <;> simp [dot]
    have hn : (⟨1, 0, 0⟩ : V3).norm = 1 := by simp [V3.norm, dot]
    simp only [constrainToAxis, this, hn]
    rw [if_pos tfEps_lt_one, if_neg (by simp)]
    congr 1
    ext <;> simp
  have hn : normalized ⟨1, 0, 0, 0⟩ = some ⟨1, 0, 0, 0⟩ := normalized_some (by simp [Quat.dot])
  constructor
  · simp only [run, step, init, setaxes, down, m0, nearestAxis, nearer, hu, c0, List.map_cons, List.map_nil,
      List.foldl_cons, List.foldl_nil, Option.bind_some, Option.map_none]
  · refine ⟨⟨some ⟨0, 0, -1⟩, some [some ⟨0, 0, -1⟩], 1, (0, 0), ⟨1, 0, 0⟩, true, some ⟨1, 0, 0, 0⟩,
      some ⟨1, 0, 0, 0⟩, none⟩, ?_, rfl⟩
    have hd : (⟨1, 0, 0⟩ : V3).dot ⟨1, -0, 0⟩ > -1 := by simp [dot]
    simp only [run, step, init, setaxes, down, m1, drag, m0, nearestAxis, nearer, hu, c0, c1, List.map_cons,
      List.map_nil, List.foldl_cons, List.foldl_nil, Option.bind_some, Option.map_some, if_pos hd, hn,
      Option.bind_none]

/-- C95: pressing the button never changes the orientation.  It raises exactly if the radius is zero, or if the
rotation is constrained and no axis can be picked, which is the case if there are none or if all those there are
point away from the viewer and the pointer is at the centre.  The axis picked is one of the axes, or none if the
rotation is not constrained. -/
theorem c95_down (q0 : Quat) (ops : List Op) (b : Ball) (hb : run (init q0) ops = .ok b) (p : ℝ × ℝ) :
    (∀ b', down b p = .ok b' → b'.matrix = b.matrix ∧ b'.qdown = b.qnow ∧ b'.qpre = b.qnow ∧
      (b.constrain = false ∨ b.axes = none → b'.axis = none ∧
        mapToSphere p b.center b.radius = some b'.vdown) ∧
      (∀ l, b.constrain = true → b.axes = some l → ∃ a, b'.axis = some a ∧ some a ∈ l ∧
        b'.vdown.dot a = 0)) ∧
    (down b p = .error .zeroDivision ↔ b.radius = 0) ∧
    (down b p = .error .index ↔ b.radius ≠ 0 ∧ b.constrain = true ∧ ∃ l, b.axes = some l ∧
      ∀ v, mapToSphere p b.center b.radius = some v → ∀ a, some a ∈ l →
        a = ⟨0, 0, -1⟩ ∧ (v - a.dot v • a).norm ≤ tfEps) := by
  have hi := run_inv (init_inv q0) ops hb
  have hr := (c95_sphere p b.center b.radius).1
  unfold down
  rcases hm : mapToSphere p b.center b.radius with _ | v
  · have h0 := hr.mp hm
    simp [h0]
  have h0 : b.radius ≠ 0 := fun h => by rw [hr.mpr h] at hm; cases hm
  obtain ⟨hv, hz, -⟩ := (c95_sphere p b.center b.radius).2 v hm
  dsimp only
  split
  · rename_i axes hc hax
    have hau := hi.axes axes hax
    obtain ⟨n1, n2⟩ := c95_nearest hv hz axes hau
    have hiff : nearestAxis v axes = none ↔ ∀ a, some a ∈ axes →
        a = ⟨0, 0, -1⟩ ∧ (v - a.dot v • a).norm ≤ tfEps := by
      rw [n2]
      exact forall₂_congr fun a ha => (c95_constrain (hau a ha)).2
    rcases hn : nearestAxis v axes with _ | a
    · refine ⟨(fun b' h => by cases h), by simp [h0], ?_⟩
      simp only [true_iff]
      refine ⟨h0, hc, axes, hax, fun v' hv' => ?_⟩
      obtain rfl := Option.some.inj hv'
      exact hiff.mp hn
    · obtain ⟨hmem, w, hw, -⟩ := n1 a hn
      have hcs := (c95_constrain (p := v) (hau a hmem)).1 w hw
      simp only [hw]
      refine ⟨?_, by simp [h0], ?_⟩
      · intro b' h
        simp only [Except.ok.injEq] at h
        subst h
        refine ⟨rfl, rfl, rfl, ?_, ?_⟩
        · rintro (h | h)
          · rw [hc] at h; cases h
          · rw [hax] at h; cases h
        · intro l _ hl
          rw [hax] at hl
          obtain rfl := Option.some.inj hl
          exact ⟨a, rfl, hmem, hcs.2.1⟩
      · simp only [reduceCtorEq, false_iff, not_and, not_exists]
        intro _ _ l hl hall
        rw [hax] at hl
        obtain rfl := Option.some.inj hl
        rw [hiff.mpr (hall v rfl)] at hn
        cases hn
  · rename_i hne
    refine ⟨?_, by simp [h0], ?_⟩
    · intro b' h
      simp only [Except.ok.injEq] at h
      subst h
      exact ⟨rfl, rfl, rfl, fun _ => ⟨rfl, rfl⟩, fun l hc hl => absurd hl (by
        intro hl; exact hne _ hc hl)⟩
    · simp only [reduceCtorEq, false_iff, not_and, not_exists]
      intro _ hc l hl
      exact absurd hl (hne _ hc)

/-- A press at the centre, a drag to the right border: a half turn about `y`; and the same again by `next`. -/
example : ∃ b b', run (init ⟨1, 0, 0, 0⟩) [.down (0, 0)] = .ok b ∧ drag b (1, 0) = .ok b' ∧ b.axis = none ∧
    b.qdown.map Quat.matrix = some M3.one ∧ b'.qnow = some ⟨0, 0, 1, 0⟩ := by
  have m0 := unit_map (x := 0) (y := 0) (z := 1) (by norm_num) (by norm_num)
  have m1 := unit_map (x := 1) (y := 0) (z := 0) (by norm_num) (by norm_num)
  have hn : normalized ⟨1, 0, 0, 0⟩ = some ⟨1, 0, 0, 0⟩ := normalized_some (by simp [Quat.dot])
  have h1 : (⟨1, 0, 0, 0⟩ : Quat).dot ⟨1, 0, 0, 0⟩ = 1 := by simp [Quat.dot]
  refine ⟨⟨none, none, 1, (0, 0), ⟨0, -0, 1⟩, false, some ⟨1, 0, 0, 0⟩, some ⟨1, 0, 0, 0⟩, some ⟨1, 0, 0, 0⟩⟩,
    ⟨none, none, 1, (0, 0), ⟨0, -0, 1⟩, false, some ⟨1, 0, 0, 0⟩, some ⟨1, 0, 0, 0⟩, some ⟨0, 0, 1, 0⟩⟩,
    ?_, ?_, rfl, ?_, rfl⟩
  · simp only [run, step, down, init, hn, m0]
  · have : turn ⟨0, -0, 1⟩ ⟨1, -0, 0⟩ ⟨1, 0, 0, 0⟩ = ⟨0, 0, 1, 0⟩ := by
      have : ¬ ((⟨0, -0, 1⟩ : V3).cross ⟨1, -0, 0⟩).dot ((⟨0, -0, 1⟩ : V3).cross ⟨1, -0, 0⟩) < tfEps := by
        simpa [cross, dot] using tfEps_lt_one.le
      simp only [turn, if_neg this]
      ext <;> simp [Quat.mul, cross, dot]
    simp only [drag, m1, Option.bind_some, Option.map_some, this]
  · simp only [Option.map_some, Quat.matrix_eq (h1.symm ▸ tfEps_lt_one.le), h1, M3.one]
    norm_num

/-- Constrained to `x`, a drag upwards turns about `x`. -/
example : ∃ b b', run (init ⟨1, 0, 0, 0⟩) [.setaxes [⟨2, 0, 0⟩], .constrain true, .down (0, 0)] = .ok b ∧
    drag b (0, 1) = .ok b' ∧ b.axis = some ⟨1, 0, 0⟩ ∧ b'.qnow = some ⟨0, 1, 0, 0⟩ := by
  have m0 := unit_map (x := 0) (y := 0) (z := 1) (by norm_num) (by norm_num)
  have m1 := unit_map (x := 0) (y := 1) (z := 0) (by norm_num) (by norm_num)
  have hn : normalized ⟨1, 0, 0, 0⟩ = some ⟨1, 0, 0, 0⟩ := normalized_some (by simp [Quat.dot])
  have hu : unit? ⟨2, 0, 0⟩ = some ⟨1, 0, 0⟩ := by
    have : (⟨2, 0, 0⟩ : V3).norm = 2 := by
      simp only [V3.norm, dot]; rw [show (2 : ℝ) * 2 + 0 * 0 + 0 * 0 = 2 ^ 2 by norm_num]
      exact Real.sqrt_sq (by norm_num)
    simp only [unit?, this, unitVector]
    rw [if_neg (by norm_num)]
    congr 1
    ext <;> simp
  have cons : ∀ y z : ℝ, y * y + z * z = 1 → 0 ≤ z → constrainToAxis ⟨0, y, z⟩ ⟨1, 0, 0⟩ = some ⟨0, y, z⟩ := by
    intro y z h h0
    have e : (⟨0, y, z⟩ - (⟨1, 0, 0⟩ : V3).dot ⟨0, y, z⟩ • (⟨1, 0, 0⟩ : V3)) = ⟨0, y, z⟩ := by
      ext <;> simp [dot]
    have hn : (⟨0, y, z⟩ : V3).norm = 1 := by
      simp only [V3.norm, dot]; rw [show 0 * 0 + y * y + z * z = 1 by linarith, Real.sqrt_one]
    simp only [constrainToAxis, e, hn]
    rw [if_pos tfEps_lt_one, if_neg (not_lt.mpr h0)]
    congr 1
    ext <;> simp
  have c0 := cons (-0) 1 (by norm_num) (by norm_num)
  have c1 := cons (-1) 0 (by norm_num) (by norm_num)
  have hd : (⟨0, -0, 1⟩ : V3).dot ⟨0, -0, 1⟩ > -1 := by simp only [dot]; norm_num
  refine ⟨⟨some ⟨1, 0, 0⟩, some [some ⟨1, 0, 0⟩], 1, (0, 0), ⟨0, -0, 1⟩, true, some ⟨1, 0, 0, 0⟩,
    some ⟨1, 0, 0, 0⟩, some ⟨1, 0, 0, 0⟩⟩, ⟨some ⟨1, 0, 0⟩, some [some ⟨1, 0, 0⟩], 1, (0, 0), ⟨0, -0, 1⟩, true,
    some ⟨1, 0, 0, 0⟩, some ⟨1, 0, 0, 0⟩, some ⟨0, 1, 0, 0⟩⟩, ?_, ?_, rfl, rfl⟩
  · simp only [run, step, init, setaxes, down, m0, nearestAxis, nearer, hu, c0, List.map_cons,
      List.map_nil, List.foldl_cons, List.foldl_nil, Option.bind_some, Option.map_some, if_pos hd, hn]
  · have : turn ⟨0, -0, 1⟩ ⟨0, -1, 0⟩ ⟨1, 0, 0, 0⟩ = ⟨0, 1, 0, 0⟩ := by
      have : ¬ ((⟨0, -0, 1⟩ : V3).cross ⟨0, -1, 0⟩).dot ((⟨0, -0, 1⟩ : V3).cross ⟨0, -1, 0⟩) < tfEps := by
        simpa [cross, dot] using tfEps_lt_one.le
      simp only [turn, if_neg this]
      ext <;> simp [Quat.mul, cross, dot]
    simp only [drag, m1, c1, Option.bind_some, Option.map_some, this]

/-- After a drag of 74 degrees `next` has something to go on with. -/
example : ∃ b p q, run (init ⟨1, 0, 0, 0⟩) [.down (0, 0), .drag (3 / 5, 0)] = .ok b ∧ b.qpre = some p ∧
    b.qnow = some q ∧ q = ⟨4 / 5, 0, 3 / 5, 0⟩ ∧ 0 ≤ p.dot q ∧ tfEps ≤ |(|p.dot q|) - 1| := by
  have m0 := unit_map (x := 0) (y := 0) (z := 1) (by norm_num) (by norm_num)
  have m1 := unit_map (x := 3 / 5) (y := 0) (z := 4 / 5) (by norm_num) (by norm_num)
  have hn : normalized ⟨1, 0, 0, 0⟩ = some ⟨1, 0, 0, 0⟩ := normalized_some (by simp [Quat.dot])
  have hd : (⟨1, 0, 0, 0⟩ : Quat).dot ⟨4 / 5, 0, 3 / 5, 0⟩ = 4 / 5 := by simp [Quat.dot]
  refine ⟨⟨none, none, 1, (0, 0), ⟨0, -0, 1⟩, false, some ⟨1, 0, 0, 0⟩, some ⟨1, 0, 0, 0⟩,
    some ⟨4 / 5, 0, 3 / 5, 0⟩⟩, ⟨1, 0, 0, 0⟩, ⟨4 / 5, 0, 3 / 5, 0⟩, ?_, rfl, rfl, rfl, ?_, ?_⟩
  · have : turn ⟨0, -0, 1⟩ ⟨3 / 5, -0, 4 / 5⟩ ⟨1, 0, 0, 0⟩ = ⟨4 / 5, 0, 3 / 5, 0⟩ := by
      have : ¬ ((⟨0, -0, 1⟩ : V3).cross ⟨3 / 5, -0, 4 / 5⟩).dot ((⟨0, -0, 1⟩ : V3).cross ⟨3 / 5, -0, 4 / 5⟩) <
          tfEps := by
        simp only [cross, dot, tfEps]; norm_num
      simp only [turn, if_neg this]
      ext <;> simp [Quat.mul, cross, dot]
    simp only [run, step, down, drag, init, hn, m0, m1, Option.bind_some, Option.map_some, this]
  · rw [hd]; norm_num
  · rw [hd, show |(4 / 5 : ℝ)| = 4 / 5 from abs_of_pos (by norm_num),
      show |(4 / 5 : ℝ) - 1| = 1 / 5 by rw [abs_of_neg (by norm_num)]; norm_num]
    unfold tfEps; norm_num

/-- The strokes of `c95_strokes` between the centre, the right border and the lower border. -/
example : ∀ x ∈ [((0 : ℝ), (0 : ℝ)), (1, 0), (0, 1)], ∀ y ∈ [((0 : ℝ), (0 : ℝ)), (1, 0), (0, 1)], ∀ v w,
    mapToSphere x (0, 0) 1 = some v → mapToSphere y (0, 0) 1 = some w →
    tfEps ≤ (v.cross w).dot (v.cross w) ∨ v.cross w = 0 := by
  have m0 := unit_map (x := 0) (y := 0) (z := 1) (by norm_num) (by norm_num)
  have m1 := unit_map (x := 1) (y := 0) (z := 0) (by norm_num) (by norm_num)
  have m2 := unit_map (x := 0) (y := 1) (z := 0) (by norm_num) (by norm_num)
  have he := tfEps_lt_one.le
  intro x hx y hy v w hv hw
  simp only [List.mem_cons, List.not_mem_nil, or_false] at hx hy
  rcases hx with rfl | rfl | rfl <;> rcases hy with rfl | rfl | rfl <;>
    simp only [m0, m1, m2, Option.some.injEq] at hv hw <;> subst hv <;> subst hw <;>
    first
    | (left; simpa [cross, dot] using he)
    | (right; ext <;> simp [cross])

end RayOpt
