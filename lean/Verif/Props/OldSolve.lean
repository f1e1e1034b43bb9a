import Verif.Props.FirstOrderExamples

/-!
C66, the older solve `_focal_length_solve` (rayopt/paraxial_trace.py 307-320): what it sets and that
this is not the focal length asked for.
-/

namespace RayOpt

open Matrix Parax Sys PTrace

/-- The 2x2 matrix of an untilted surface: a transfer, then a refraction of power `P`. -/
theorem upright_block {e : Elem} {n0 n l P : ℝ} {M : PM} (h : e.paraxialMatrix n0 l = some (n, M))
    (hu : Upright e n0 l) (a : Fin 2) (hP : uprightPower e n0 l = some P) :
    block M a = !![1, e.tf.distance / n0; P, 1 + P * (e.tf.distance / n0)] := by
  obtain ⟨k1, k2⟩ := upright_height h hu a
  have k3 := upright_power h hu a
  rw [hP] at k3
  have k3' : P = M (.inr a) (.inl a) := Option.some.inj k3
  have hz : Real.sin (2 * e.tf.angles.z) = 0 := by rw [hu.1]; simp
  have hdet := (paraxialMatrix_decoupled (by intro _; exact hz) h).det
    (paraxialMatrix_symplectic (by intro _; exact hz) h) a
  simp only at k1 k2 hdet
  have k4 : M (.inr a) (.inr a) = 1 + P * (e.tf.distance / n0) := by
    rw [k1, k2, ← k3'] at hdet
    linear_combination hdet
  ext i j
  fin_cases i <;> fin_cases j <;> simp [block, k1, k2, k3', k4]

/-- A thin plano-convex lens of index 3/2 in air; `c` is the curvature of the second surface. -/
noncomputable def plano (c : ℝ) : List Elem :=
  [⟨Transform.init 0 V3.ez 0 none, .inf, some ⟨0, 0, none, false⟩, some (some vacuum)⟩,
   ⟨Transform.init 5 V3.ez 0 none, .fin 1, some ⟨0, 0, none, false⟩, some (some glass)⟩,
   ⟨Transform.init 0 V3.ez 0 none, .fin 1, some ⟨c, 0, none, false⟩, some (some vacuum)⟩,
   ⟨Transform.init 9 V3.ez 0 none, .fin 1, some ⟨0, 0, none, false⟩, some none⟩]

theorem plano_noRoll (c : ℝ) : NoRoll (plano c) := by
  intro e he _
  simp only [plano, List.mem_cons, List.not_mem_nil, or_false] at he
  rcases he with rfl | rfl | rfl | rfl <;> simp [init_angles]

theorem plano_matrices (c : ℝ) (axis : Fin 2) (l : ℝ) : ∃ M1 M2 M3 : PM,
    matricesFrom l (plano c).tail 1 = some [(3 / 2, M1), (1, M2), (1, M3)] ∧
    matricesFrom l ((plano c).tail.take 1) 1 = some [(3 / 2, M1)] ∧
    matricesFrom l (((plano c).drop 2).take 1) (3 / 2) = some [(1, M2)] ∧
    matricesFrom l ((plano c).drop 3) 1 = some [(1, M3)] ∧
    block M1 axis = !![1, 5; 0, 1] ∧ block M2 axis = !![1, 0; c / 2, 1] ∧
    block M3 axis = !![1, 9; 0, 1] := by
  obtain ⟨M1, h1⟩ := untilted_defined 5 (.fin 1) ⟨0, 0, none, false⟩ (some glass) 1 l
    (by norm_num) (by simp) (by intro m hm; cases hm; simp [glass])
  obtain ⟨M2, h2⟩ := untilted_defined 0 (.fin 1) ⟨c, 0, none, false⟩ (some vacuum)
    (3 / 2) l (by norm_num) (by simp) (by intro m hm; cases hm; simp [vacuum])
  obtain ⟨M3, h3⟩ := untilted_defined 9 (.fin 1) ⟨0, 0, none, false⟩ none 1 l
    (by norm_num) (by simp) (by intro m hm; cases hm)
  have b1 := upright_block (P := 0) h1 ⟨init_angles 5, by
    intro m hm _; simp [Elem.mat] at hm; subst hm; simp [glass]⟩ axis
    (by simp [uprightPower, Shape.paraxCurv, Elem.mat, glass])
  have b2 := upright_block (P := c / 2) h2 ⟨init_angles 0, by
    intro m hm _; simp [Elem.mat] at hm; subst hm; simp [vacuum]⟩ axis
    (by simp [uprightPower, Shape.paraxCurv, Elem.mat, vacuum]; ring)
  have b3 := upright_block (P := 0) h3 ⟨init_angles 9, by
    intro m hm _; simp [Elem.mat] at hm⟩ axis
    (by simp [uprightPower, Elem.mat, Shape.paraxCurv])
  simp only [Option.map_some, Option.getD_some, glass, vacuum, Option.map_none,
    Option.getD_none] at h1 h2 h3
  refine ⟨M1, M2, M3, ?_, ?_, ?_, ?_, ?_, ?_, ?_⟩
  · simp only [plano, List.tail_cons, matricesFrom, glass, vacuum]
    rw [h1]
    simp only [Option.bind_some, h2, h3, Option.map_some]
  · simp only [plano, List.tail_cons, List.take_succ_cons, List.take_zero, matricesFrom, glass, vacuum]
    rw [h1]
    simp only [Option.bind_some, Option.map_some]
  · simp only [plano, List.drop_succ_cons, List.drop_zero, List.take_succ_cons, List.take_zero,
      matricesFrom, glass, vacuum]
    rw [h2]
    simp only [Option.bind_some, Option.map_some]
  · simp only [plano, List.drop_succ_cons, List.drop_zero, matricesFrom, glass, vacuum]
    rw [h3]
    simp only [Option.bind_some, Option.map_some]
  · rw [b1, init_distance (by norm_num)]; norm_num
  · rw [b2, init_distance (by norm_num)]; norm_num
  · rw [b3, init_distance (by norm_num)]; norm_num

theorem plano_trace (c : ℝ) (axis : Fin 2) (l : ℝ) : ∃ r1 r2 r3,
    PTrace.trace (plano c) axis l lensStart = some [lensStart, r1, r2, r3] ∧
    r1 = ⟨3 / 2, ![1, 1 / 2], ![0, 1 / 10]⟩ ∧
    r2 = ⟨1, ![1, 1 / 2], ![c / 2, 1 / 10 + c / 4]⟩ := by
  obtain ⟨M1, M2, M3, hms, -⟩ := plano_matrices c axis l
  obtain ⟨rows, ht⟩ := trace_of_matrices (r0 := lensStart) (sys := plano c) (by exact hms) axis
  have hlen := trace_length (by simp [plano]) ht
  have hl4 : rows.length = 4 := by rw [hlen]; rfl
  match rows, hl4 with
  | [a0, r1, r2, r3], _ =>
  have ha0 : a0 = lensStart := by
    obtain ⟨m, c, _, _, _, _, hh⟩ := trace_columns ht
    simp at hh; exact hh.1
  subst ha0
  have hu1 : Upright (⟨Transform.init 5 V3.ez 0 none, .fin 1, some ⟨0, 0, none, false⟩,
      some (some glass)⟩ : Elem) lensStart.n l :=
    ⟨init_angles 5, by intro m hm _; simp [Elem.mat] at hm; subst hm; simp [glass, lensStart]⟩
  obtain ⟨_, hn1, P1, hP1, hk1⟩ := rows_step_upright (plano_noRoll c) ht (j := 0) (e := _)
    (a := lensStart) (b := r1) rfl rfl rfl hu1
  have hP1' : P1 = 0 := by
    simp [uprightPower, Shape.paraxCurv, Elem.mat, glass] at hP1
    exact hP1.symm
  have hn1' : r1.n = 3 / 2 := by
    rw [hn1]; simp [Elem.paraxN, Elem.index?, Elem.mat, glass]
  have hd1 : (Transform.init 5 V3.ez 0 none).distance = 5 := init_distance (by norm_num)
  have hr1 : r1 = ⟨3 / 2, ![1, 1 / 2], ![0, 1 / 10]⟩ := by
    obtain ⟨a1, a2⟩ := hk1 0
    obtain ⟨b1, b2⟩ := hk1 1
    cases r1
    simp only [lensStart, cons_val_zero, cons_val_one, cons_val_fin_one, hd1, hP1'] at *
    subst hn1'
    congr 1 <;> (funext k; fin_cases k <;> simp <;> norm_num [a1, a2, b1, b2])
  have hu2 : Upright (⟨Transform.init 0 V3.ez 0 none, .fin 1, some ⟨c, 0, none, false⟩,
      some (some vacuum)⟩ : Elem) r1.n l :=
    ⟨init_angles 0, by intro m hm _; simp [Elem.mat] at hm; subst hm; simp [vacuum, hn1']⟩
  obtain ⟨_, hn2, P2, hP2, hk2⟩ := rows_step_upright (plano_noRoll c) ht (j := 1) (e := _) (a := r1)
    (b := r2) rfl rfl rfl hu2
  have hP2' : P2 = c / 2 := by
    simp [uprightPower, Shape.paraxCurv, Elem.mat, vacuum, hn1'] at hP2
    rw [← hP2]; ring
  have hn2' : r2.n = 1 := by
    rw [hn2]; simp [Elem.paraxN, Elem.index?, Elem.mat, vacuum]
  have hd2 : (Transform.init 0 V3.ez 0 none).distance = 0 := init_distance le_rfl
  refine ⟨r1, r2, r3, ht, hr1, ?_⟩
  obtain ⟨a1, a2⟩ := hk2 0
  obtain ⟨b1, b2⟩ := hk2 1
  cases r2
  simp only [hr1, cons_val_zero, cons_val_one, cons_val_fin_one, hd2, hP2'] at *
  subst hn2'
  congr 1
  · funext k; fin_cases k <;> simp <;> norm_num [a1, a2, b1, b2]
  · funext k; fin_cases k <;> simp [a1, a2, b1, b2]; ring

/-- C66, why: `_focal_length_solve` multiplies the matrices before, at and behind the surface in the wrong
order.  It finds the entry `X` of the matrix of the surface for which the product in this order has the
power `-1 / (n f)`, and sets the curvature to `X n' / (n - n')` and nothing else. -/
theorem c66_old_solve (sys : List Elem) (axis : Fin 2) (l : ℝ) (rows : List PRow) (f : ℝ) (i : ℕ)
    (sys' : List Elem) (h : focalLengthSolveOld sys axis l rows f i = some sys') :
    ∃ (n0 n1 n2 : ℝ) (M0 M1 M2 : PM) (rp rk : PRow) (X : ℝ) (e : Elem) (sh : Shape),
      Sys.paraxialMatrix sys l 1 (some (i : ℤ)) = some (n0, M0) ∧
      Sys.paraxialMatrix sys l (i : ℤ) (some ((i : ℤ) + 1)) = some (n1, M1) ∧
      Sys.paraxialMatrix sys l ((i : ℤ) + 1) none = some (n2, M2) ∧
      rows[i - 1]? = some rp ∧ rows[i]? = some rk ∧ sys[i]? = some e ∧ e.shape = some sh ∧
      ((!![M0 (.inl axis) (.inl axis), M0 (.inl axis) (.inr axis);
          M0 (.inr axis) (.inl axis), M0 (.inr axis) (.inr axis)] *
        !![M1 (.inl axis) (.inl axis), M1 (.inl axis) (.inr axis); X, M1 (.inr axis) (.inr axis)] *
        !![M2 (.inl axis) (.inl axis), M2 (.inl axis) (.inr axis);
          M2 (.inr axis) (.inl axis), M2 (.inr axis) (.inr axis)] : Matrix (Fin 2) (Fin 2) ℝ) 1 0)
        * (rp.n * f) = -1 ∧ rp.n ≠ rk.n ∧
      sys' = sys.set i { e with shape := some { sh with curvature := X / (rp.n - rk.n) * rk.n } } := by
  unfold focalLengthSolveOld at h
  split at h
  · cases h
  obtain ⟨⟨n0, M0⟩, h0, h⟩ := Option.bind_eq_some_iff.mp h
  obtain ⟨⟨n1, M1⟩, h1, h⟩ := Option.bind_eq_some_iff.mp h
  obtain ⟨⟨n2, M2⟩, h2, h⟩ := Option.bind_eq_some_iff.mp h
  obtain ⟨rp, hrp, h⟩ := Option.bind_eq_some_iff.mp h
  obtain ⟨rk, hrk, h⟩ := Option.bind_eq_some_iff.mp h
  obtain ⟨q, hq, h⟩ := Option.bind_eq_some_iff.mp h
  obtain ⟨X, hX, h⟩ := Option.bind_eq_some_iff.mp h
  obtain ⟨c, hc, h⟩ := Option.bind_eq_some_iff.mp h
  obtain ⟨e, he, h⟩ := Option.bind_eq_some_iff.mp h
  obtain ⟨sh, hsh, rfl⟩ := Option.map_eq_some_iff.mp h
  unfold qdiv at hq hX hc
  split at hq
  · cases hq
  split at hX
  · cases hX
  split at hc
  · cases hc
  rename_i hne1 hne2 hne3
  obtain rfl := Option.some.inj hq
  have hX' := Option.some.inj hX
  obtain rfl := Option.some.inj hc
  push_cast at h1 h2
  refine ⟨n0, n1, n2, M0, M1, M2, rp, rk, X, e, sh, h0, h1, h2, hrp, hrk, he, hsh, ?_, sub_ne_zero.mp hne3, rfl⟩
  simp only [block, Matrix.of_apply, Matrix.cons_val', Matrix.cons_val_zero, Matrix.cons_val_one,
    Matrix.cons_val_fin_one] at hX' hne2
  rw [div_eq_iff hne2] at hX'
  have hu : 1 / (rp.n * f) * (rp.n * f) = 1 := div_mul_cancel₀ _ hne1
  generalize 1 / (rp.n * f) = u at hX' hu
  simp [Matrix.mul_apply, Fin.sum_univ_two]
  linear_combination -(rp.n * f) * hX' - hu

/-- C66, violation: `_focal_length_solve` asked to give a thin plano-convex lens in air the focal
length `f` (any `f`) gives it the focal length `3 f / 2`. -/
theorem c66_old_solve_violation (c f : ℝ) (hf : f ≠ 0) (axis : Fin 2) (l : ℝ) :
    ∃ rows sys' rows' F, PTrace.trace (plano c) axis l lensStart = some rows ∧
      focalLengthSolveOld (plano c) axis l rows f ((plano c).length - 2) = some sys' ∧
      PTrace.trace sys' axis l lensStart = some rows' ∧ focalLength rows' = some F ∧
      F.2 = 3 / 2 * f ∧ F.2 ≠ f ∧
      (∃ sys'' rows'' G, focalLengthSolve (plano c) rows f = some sys'' ∧
        PTrace.trace sys'' axis l lensStart = some rows'' ∧ focalLength rows'' = some G ∧
        G.2 = f) := by
  obtain ⟨r1, r2, r3, ht, hr1, hr2⟩ := plano_trace c axis l
  have hn1 : r1.n = 3 / 2 := by rw [hr1]
  obtain ⟨M1, M2, M3, -, hm1, hm2, hm3, b1, b2, b3⟩ := plano_matrices c axis l
  have i0 : refractiveIndex (plano c) l 0 = 1 := by
    have := refractiveIndex_nat (plano c) l 0
    simp only [Nat.cast_zero] at this
    rw [this]
    simp [plano, Elem.index?, Elem.mat, vacuum]
  have i1 : refractiveIndex (plano c) l 1 = 3 / 2 := by
    have := refractiveIndex_nat (plano c) l 1
    simp only [Nat.cast_one] at this
    rw [this]
    simp [plano, Elem.index?, Elem.mat, glass]
  have i2 : refractiveIndex (plano c) l 2 = 1 := by
    have := refractiveIndex_nat (plano c) l 2
    simp only [Nat.cast_ofNat] at this
    rw [this]
    simp [plano, Elem.index?, Elem.mat, vacuum]
  have p1 : paraxialMatrix (plano c) l 1 (some ((2 : ℕ) : ℤ)) = some (3 / 2, M1 * 1) := by
    unfold paraxialMatrix paraxialMatrices
    rw [show pySlice (plano c) 1 (some ((2 : ℕ) : ℤ)) = (plano c).tail.take 1 by
      simp [pySlice, pyStop, pyBound, plano], show (1 : ℤ) - 1 = 0 by norm_num, i0, hm1]
    rfl
  have p2 : paraxialMatrix (plano c) l ((2 : ℕ) : ℤ) (some ((2 + 1 : ℕ) : ℤ))
      = some (1, M2 * 1) := by
    unfold paraxialMatrix paraxialMatrices
    rw [show pySlice (plano c) ((2 : ℕ) : ℤ) (some ((2 + 1 : ℕ) : ℤ)) = ((plano c).drop 2).take 1 by
      simp [pySlice, pyStop, pyBound, plano], show ((2 : ℕ) : ℤ) - 1 = 1 by norm_num, i1, hm2]
    rfl
  have p3 : paraxialMatrix (plano c) l ((2 + 1 : ℕ) : ℤ) none = some (1, M3 * 1) := by
    unfold paraxialMatrix paraxialMatrices
    rw [show pySlice (plano c) ((2 + 1 : ℕ) : ℤ) none = (plano c).drop 3 by
      simp [pySlice, pyStop, pyBound, plano], show ((2 + 1 : ℕ) : ℤ) - 1 = 2 by norm_num, i2, hm3]
    rfl
  have hF : ∀ c' r1 r3, c' ≠ 0 → ∃ F, focalLength [lensStart, r1,
      ⟨1, ![1, 1 / 2], ![c' / 2, 1 / 10 + c' / 4]⟩, r3] = some F ∧ F.2 = -2 / c' := by
    intro c' r1 r3 hc
    have h0 : (1 / 10 : ℝ) * (c' / 2) ≠ 0 := by positivity
    refine ⟨_, by
      simp only [focalLength, ends, lagrange, lensStart, qdiv]
      simp [hc]
      rfl, ?_⟩
    simp
    field_simp
  have hs : focalLengthSolveOld (plano c) axis l [lensStart, r1, r2, r3] f ((plano c).length - 2)
      = some (plano (-4 / (3 * f))) := by
    rw [show (plano c).length - 2 = 2 from rfl]
    unfold focalLengthSolveOld
    rw [if_neg (by norm_num), p1, p2, p3]
    simp only [Option.bind_some, Matrix.mul_one, b1, b2, b3]
    have e1 : r1.n * f ≠ 0 := by rw [hn1]; positivity
    simp [qdiv, hf, hn1, hr2, plano]
    norm_num
    field_simp
    norm_num
  obtain ⟨q1, q2, q3, ht', -, hq⟩ := plano_trace (-4 / (3 * f)) axis l
  subst hq
  obtain ⟨F, hF1, hF2⟩ := hF (-4 / (3 * f)) q1 q3 (by
    apply div_ne_zero (by norm_num); positivity)
  have hval : F.2 = 3 / 2 * f := by rw [hF2]; field_simp; norm_num
  have hs2 : focalLengthSolve (plano c) [lensStart, r1, r2, r3] f = some (plano (-2 / f)) := by
    unfold focalLengthSolve
    norm_num [plano, qdiv, hf, lensStart, hr1, hr2]
    field_simp
  obtain ⟨w1, w2, w3, ht2, -, hw⟩ := plano_trace (-2 / f) axis l
  subst hw
  obtain ⟨G, hG1, hG2⟩ := hF (-2 / f) w1 w3 (div_ne_zero (by norm_num) hf)
  refine ⟨_, _, _, F, ht, hs, ht', hF1, hval, ?_, _, _, G, hs2, ht2, hG1, ?_⟩
  · rw [hval]; intro h; apply hf; linarith
  · rw [hG2]; field_simp

/-- The hypothesis of `c66_old_solve` holds for the thin lens and every focal length. -/
example : ∃ rows sys', focalLengthSolveOld (plano (1 / 10)) 0 1 rows 50 2 = some sys' :=
  let ⟨rows, sys', _, _, _, h, _⟩ := c66_old_solve_violation (1 / 10) 50 (by norm_num) 0 1
  ⟨rows, sys', h⟩

end RayOpt
