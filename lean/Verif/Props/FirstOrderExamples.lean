import Verif.Props.FirstOrder

/-!
Concrete systems for C40-C42 and C66: the hypotheses are met by a lens, and the code's focal lengths
are wrong for a lens with different media on its two sides.  C66: `focal_length_solve` and `resize`.
-/

namespace RayOpt

open Matrix Parax Sys PTrace

theorem init_angles (d : ℝ) : (Transform.init d V3.ez 0 none).angles = 0 :=
  Transform.update_angles _ _ _

theorem init_distance {d : ℝ} (h : 0 ≤ d) : (Transform.init d V3.ez 0 none).distance = d := by
  have : (Transform.init d V3.ez 0 none).distance = |d| := Transform.update_distance _ _ _
  rw [this, abs_of_nonneg h]

theorem lens_noRoll : NoRoll lensSystem := by
  intro e he _
  simp only [lensSystem, List.mem_cons, List.not_mem_nil, or_false] at he
  rcases he with rfl | rfl | rfl | rfl <;> simp [init_angles]

/-- Starting row: marginal ray parallel to the axis at height 1, chief ray with slope 1/10. -/
noncomputable def lensStart : PRow := ⟨1, ![1, 0], ![0, 1 / 10]⟩

theorem trace_of_matrices {sys : List Elem} {l : ℝ} {r0 : PRow} {ms : List (ℝ × PM)}
    (h : matricesFrom l sys.tail r0.n = some ms) (axis : Fin 2) :
    ∃ rows, PTrace.trace sys axis l r0 = some rows := by
  obtain ⟨m, hm, _⟩ := matrices_action l _ _ ms h (column r0 0)
  obtain ⟨c, hc, _⟩ := matrices_action l _ _ ms h (column r0 1)
  refine ⟨r0 :: List.zipWith (PTrace.row axis) m c, ?_⟩
  unfold PTrace.trace rowsFrom propagateParaxial
  rw [pySlice_one, hm, hc]
  rfl

theorem lens_index (l : ℝ) : refractiveIndex lensSystem l 0 = 1 := by
  have := refractiveIndex_nat lensSystem l 0
  simp only [Nat.cast_zero] at this
  rw [this]
  simp [lensSystem, Elem.index?, Elem.mat, vacuum]

theorem lens_trace (axis : Fin 2) (l : ℝ) : ∃ r1 r2 r3,
    PTrace.trace lensSystem axis l lensStart = some [lensStart, r1, r2, r3] ∧
    r1 = ⟨3 / 2, ![1, 1 / 2], ![-1 / 20, 3 / 40]⟩ ∧
    r2 = ⟨1, ![29 / 30, 11 / 20], ![-59 / 600, 19 / 400]⟩ := by
  obtain ⟨ms, hms, _⟩ := lensSystem_matrices l
  unfold paraxialMatrices at hms
  rw [pySlice_one, show (1 : ℤ) - 1 = 0 by norm_num, lens_index] at hms
  obtain ⟨rows, ht⟩ := trace_of_matrices (r0 := lensStart) hms axis
  have hlen := trace_length (by simp [lensSystem]) ht
  have hl4 : rows.length = 4 := by rw [hlen]; rfl
  match rows, hl4 with
  | [a0, r1, r2, r3], _ =>
  have ha0 : a0 = lensStart := by
    obtain ⟨m, c, _, _, _, _, hh⟩ := trace_columns ht
    simp at hh; exact hh.1
  subst ha0
  refine ⟨r1, r2, r3, ht, ?_⟩
  have hu1 : Upright (⟨Transform.init 5 V3.ez 0 none, .fin 1, some ⟨1 / 10, 0, none, false⟩,
      some (some glass)⟩ : Elem) lensStart.n l :=
    ⟨init_angles 5, by intro m hm _; simp [Elem.mat] at hm; subst hm; simp [glass, lensStart]⟩
  obtain ⟨_, hn1, P1, hP1, hk1⟩ := rows_step_upright lens_noRoll ht (j := 0) (e := _) (a := lensStart)
    (b := r1) rfl rfl rfl hu1
  have hP1' : P1 = -1 / 20 := by
    simp [uprightPower, Shape.paraxCurv, Elem.mat, glass, lensStart] at hP1
    rw [← hP1]; norm_num
  have hn1' : r1.n = 3 / 2 := by
    rw [hn1]; simp [Elem.paraxN, Elem.index?, Elem.mat, glass]
  have hd1 : (Transform.init 5 V3.ez 0 none).distance = 5 := init_distance (by norm_num)
  have hr1 : r1 = ⟨3 / 2, ![1, 1 / 2], ![-1 / 20, 3 / 40]⟩ := by
    obtain ⟨a1, a2⟩ := hk1 0
    obtain ⟨b1, b2⟩ := hk1 1
    cases r1
    simp only [lensStart, cons_val_zero, cons_val_one, cons_val_fin_one, hd1, hP1'] at *
    subst hn1'
    congr 1 <;> (funext k; fin_cases k <;> simp <;> norm_num [a1, a2, b1, b2])
  have hu2 : Upright (⟨Transform.init 1 V3.ez 0 none, .fin 1, some ⟨-1 / 10, 0, some [0, 1], false⟩,
      some (some vacuum)⟩ : Elem) r1.n l :=
    ⟨init_angles 1, by intro m hm _; simp [Elem.mat] at hm; subst hm; simp [vacuum, hn1']⟩
  obtain ⟨_, hn2, P2, hP2, hk2⟩ := rows_step_upright lens_noRoll ht (j := 1) (e := _) (a := r1)
    (b := r2) rfl rfl rfl hu2
  have hP2' : P2 = -1 / 20 := by
    simp [uprightPower, Shape.paraxCurv, Elem.mat, vacuum, hn1'] at hP2
    rw [← hP2]; norm_num
  have hn2' : r2.n = 1 := by
    rw [hn2]; simp [Elem.paraxN, Elem.index?, Elem.mat, vacuum]
  have hd2 : (Transform.init 1 V3.ez 0 none).distance = 1 := init_distance (by norm_num)
  refine ⟨hr1, ?_⟩
  obtain ⟨a1, a2⟩ := hk2 0
  obtain ⟨b1, b2⟩ := hk2 1
  cases r2
  simp only [hr1, cons_val_zero, cons_val_one, cons_val_fin_one, hd2, hP2'] at *
  subst hn2'
  congr 1 <;> (funext k; fin_cases k <;> simp <;> norm_num [a1, a2, b1, b2])

/-- The hypotheses of the C40 theorems hold for a biconvex lens in air. -/
example (axis : Fin 2) (l : ℝ) : ∃ rows, Traced lensSystem axis l lensStart rows ∧
    (∃ f, focalLength rows = some f) ∧ (∃ d, focalDistance rows = some d) ∧
    (∃ p, principalDistance rows = some p) ∧ (∃ p, nodalDistance rows = some p) ∧
    (∃ p, pupilDistance rows = some p) ∧ (∃ p, pupilHeight rows = some p) ∧ lensStart.n = 1 ∧
    ∃ yk uk, Passes lensSystem axis l lensStart.n 1 0 yk uk 1 := by
  obtain ⟨r1, r2, r3, ht, rfl, rfl⟩ := lens_trace axis l
  have hT : Traced lensSystem axis l lensStart _ := ⟨lens_noRoll, by simp [lensSystem], by
    intro e he
    have : e = ⟨Transform.init 5 V3.ez 0 none, .fin 1, some ⟨1 / 10, 0, none, false⟩,
        some (some glass)⟩ := by simpa [lensSystem] using he.symm
    subst this
    exact ⟨init_angles 5, by intro m hm _; simp [Elem.mat] at hm; subst hm; simp [glass, lensStart]⟩,
    ht⟩
  obtain ⟨yk, uk, nk, hp⟩ := c40_rays_exist hT 1 0
  have hnk : nk = 1 := by
    obtain ⟨a, b, A, B, C, D, h1, _, _, _, h2⟩ := firstOrder_key hT
    simp only [ends] at h1
    simp at h1
    rw [(h2 _ _ _ _ _ hp).1, ← h1.2]
  subst hnk
  refine ⟨_, hT, ?_, ?_, ?_, ?_, ?_, ?_, rfl, yk, uk, hp⟩ <;>
    norm_num [focalLength, focalDistance, principalDistance, nodalDistance, pupilDistance, pupilHeight, ends,
      lagrange, lensStart, qdiv]

/-- C40, violation: for a single refracting surface from air into glass (`immersed`), a parallel ray
at height one leaves the surface with the slope `-1/30`: the back focal length is 30.  The code
returns 20 (and the focal distance 20 instead of 30). -/
noncomputable def immersed : List Elem :=
  [⟨Transform.init 0 V3.ez 0 none, .fin 1, some ⟨0, 0, none, false⟩, some (some vacuum)⟩,
   ⟨Transform.init 5 V3.ez 0 none, .fin 1, some ⟨1 / 10, 0, none, false⟩, some (some glass)⟩,
   ⟨Transform.init 9 V3.ez 0 none, .fin 1, some ⟨0, 0, none, false⟩, some none⟩]

theorem c40_immersed_violation (axis : Fin 2) (l : ℝ) : ∃ rows f d yk uk,
    Traced immersed axis l lensStart rows ∧ focalLength rows = some f ∧
    focalDistance rows = some d ∧ f.2 = 20 ∧ d.2 = 20 ∧
    Passes immersed axis l 1 1 0 yk uk (3 / 2) ∧ yk = 1 ∧ uk / (3 / 2) = -1 / 30 ∧
    yk + 30 * (uk / (3 / 2)) = 0 := by
  have hroll : NoRoll immersed := by
    intro e he _
    simp only [immersed, List.mem_cons, List.not_mem_nil, or_false] at he
    rcases he with rfl | rfl | rfl <;> simp [init_angles]
  obtain ⟨M1, h1⟩ := untilted_defined 5 (.fin 1) ⟨1 / 10, 0, none, false⟩ (some glass) 1 l
    (by norm_num) (by simp) (by intro m hm; cases hm; simp [glass])
  obtain ⟨M3, h3⟩ := untilted_defined 9 (.fin 1) ⟨0, 0, none, false⟩ none (3 / 2) l
    (by norm_num) (by simp) (by intro m hm; cases hm)
  have hms : matricesFrom l immersed.tail lensStart.n = some [(3 / 2, M1), (3 / 2, M3)] := by
    simp only [Option.map_some, Option.getD_some, Option.map_none, Option.getD_none] at h1 h3
    simp only [immersed, List.tail_cons, matricesFrom, lensStart]
    rw [h1]
    simp only [glass, Option.bind_some]
    rw [h3]
    rfl
  obtain ⟨rows, ht⟩ := trace_of_matrices (r0 := lensStart) hms axis
  have hlen := trace_length (by simp [immersed]) ht
  have hl4 : rows.length = 3 := by rw [hlen]; rfl
  match rows, hl4 with
  | [a0, r1, r2], _ =>
  have ha0 : a0 = lensStart := by
    obtain ⟨m, c, _, _, _, _, hh⟩ := trace_columns ht
    simp at hh; exact hh.1
  subst ha0
  have hu1 : Upright (⟨Transform.init 5 V3.ez 0 none, .fin 1, some ⟨1 / 10, 0, none, false⟩,
      some (some glass)⟩ : Elem) lensStart.n l :=
    ⟨init_angles 5, by intro m hm _; simp [Elem.mat] at hm; subst hm; simp [glass, lensStart]⟩
  have hT : Traced immersed axis l lensStart [lensStart, r1, r2] := ⟨hroll, by simp [immersed], by
    intro e he
    have : e = ⟨Transform.init 5 V3.ez 0 none, .fin 1, some ⟨1 / 10, 0, none, false⟩,
        some (some glass)⟩ := by simpa [immersed] using he.symm
    subst this
    exact hu1, ht⟩
  obtain ⟨_, hn1, P1, hP1, hk1⟩ := rows_step_upright hroll ht (j := 0) (e := _) (a := lensStart)
    (b := r1) rfl rfl rfl hu1
  have hP1' : P1 = -1 / 20 := by
    simp [uprightPower, Shape.paraxCurv, Elem.mat, glass, lensStart] at hP1
    rw [← hP1]; norm_num
  have hn1' : r1.n = 3 / 2 := by
    rw [hn1]; simp [Elem.paraxN, Elem.index?, Elem.mat, glass]
  have hd1 : (Transform.init 5 V3.ez 0 none).distance = 5 := init_distance (by norm_num)
  have hr1 : r1 = ⟨3 / 2, ![1, 1 / 2], ![-1 / 20, 3 / 40]⟩ := by
    obtain ⟨a1, a2⟩ := hk1 0
    obtain ⟨b1, b2⟩ := hk1 1
    cases r1
    simp only [lensStart, cons_val_zero, cons_val_one, cons_val_fin_one, hd1, hP1'] at *
    subst hn1'
    congr 1 <;> (funext k; fin_cases k <;> simp <;> norm_num [a1, a2, b1, b2])
  subst hr1
  have hF : focalLength [lensStart, ⟨3 / 2, ![1, 1 / 2], ![-1 / 20, 3 / 40]⟩, r2]
      = some (-30, 20) := by
    norm_num [focalLength, ends, lagrange, lensStart, qdiv]
  have hD : focalDistance [lensStart, ⟨3 / 2, ![1, 1 / 2], ![-1 / 20, 3 / 40]⟩, r2]
      = some (-20, 20) := by
    unfold focalDistance
    rw [hF]
    norm_num [ends, lagrange, lensStart, qdiv]
  obtain ⟨yk, uk, nk, hp⟩ := c40_rays_exist hT 1 0
  have hnk : nk = 3 / 2 := by
    obtain ⟨a, b, A, B, C, D, h1, _, _, _, h2⟩ := firstOrder_key hT
    simp only [ends] at h1
    simp at h1
    rw [(h2 _ _ _ _ _ hp).1, ← h1.2]
  subst hnk
  have g1 := (c40_focal_length_media hT _ hF _ _ _ _ _ hp (by norm_num [lensStart])
    (by norm_num)).1 rfl
  have g2 := (c40_focal_points_media hT _ hD _ _ _ _ _ hp).1 rfl
  have g1' : uk / (3 / 2) = -1 / 30 := by rw [g1]; norm_num [lensStart]
  have g2' : yk + 30 * (uk / (3 / 2)) = 0 := by rw [← g2]; norm_num
  exact ⟨_, _, _, yk, uk, hT, hF, hD, rfl, rfl, hp, by rw [g1'] at g2'; linarith, g1', g2'⟩

/-- The hypotheses of C41 hold for the lens: it refocuses. -/
example (axis : Fin 2) (l : ℝ) : ∃ pre e rows rk, lensSystem = pre ++ [e] ∧ pre ≠ [] ∧
    MarksPlane e ∧ PTrace.trace (pre ++ [e]) axis l lensStart = some rows ∧
    rows[rows.length - 2]? = some rk ∧ rk.y 0 / (rk.u 0 / rk.n) ≤ 0 ∧
    (PTrace.refocus (pre ++ [e]) rows).isSome := by
  obtain ⟨r1, r2, r3, ht, rfl, rfl⟩ := lens_trace axis l
  have hs : lensSystem = lensSystem.take 3 ++ [⟨Transform.init 9 V3.ez 0 none, .fin 1,
      some ⟨0, 0, none, false⟩, some none⟩] := rfl
  refine ⟨_, _, _, _, hs, by simp [lensSystem], ?_, ht, rfl, by norm_num, ?_⟩
  · exact ⟨rfl, by simp [init_angles], by simp⟩
  · rw [← hs]
    norm_num [PTrace.refocus, qdiv, lensSystem]

/-- A finite object of radius 1 with a pupil that follows the stop in distance and aperture. -/
noncomputable def lensObject : Conj :=
  ⟨true, 1, false, false, ⟨.radius 1, 5, 1, true, true, false⟩⟩

theorem lens_entrance (axis : Fin 2) (l : ℝ) :
    entrancePupil lensSystem axis l 1 1 = some (5, 1) := by
  obtain ⟨ms, hms, hlen⟩ := lensSystem_matrices l
  unfold paraxialMatrices at hms
  rw [pySlice_one, show (1 : ℤ) - 1 = 0 by norm_num, lens_index] at hms
  have hsl1 : pySlice lensSystem 1 (some ((1 + 1 : ℕ) : ℤ))
      = [lensSystem[1]'(by simp [lensSystem])] := by
    simp [pySlice, pyStop, pyBound, lensSystem]
  simp only [lensSystem, List.tail_cons, matricesFrom, Option.bind_eq_some_iff,
    Option.map_eq_some_iff] at hms
  obtain ⟨⟨n1, M1⟩, h1, -⟩ := hms
  have u1 : Upright (⟨Transform.init 5 V3.ez 0 none, .fin 1, some ⟨1 / 10, 0, none, false⟩,
      some (some glass)⟩ : Elem) 1 l :=
    ⟨init_angles 5, by intro m hm _; simp [Elem.mat] at hm; subst hm; simp [glass]⟩
  obtain ⟨k1, k2⟩ := upright_height h1 u1 axis
  simp only [init_distance (show (0 : ℝ) ≤ 5 by norm_num)] at k1 k2
  unfold entrancePupil paraxialMatrix paraxialMatrices
  rw [hsl1, show (1 : ℤ) - 1 = 0 by norm_num, lens_index]
  simp only [lensSystem, List.getElem_cons_succ, List.getElem_cons_zero, matricesFrom]
  rw [h1]
  simp [accumulate, block, qdiv, k1, k2]

theorem exitPupil_isSome {sys : List Elem} {axis : Fin 2} {l r n : ℝ} {ai : ℕ} {M : PM}
    (h : paraxialMatrix sys l ((ai + 1 : ℕ) : ℤ) none = some (n, M)) (hd : Decoupled M)
    (hs : M ∈ Matrix.symplecticGroup (Fin 2) ℝ) (h0 : M (.inr axis) (.inr axis) ≠ 0) :
    (exitPupil sys axis l ai r).isSome := by
  have hdet := hd.det hs axis
  unfold exitPupil
  rw [h]
  have hblk : (block M axis).det = 1 := by
    rw [Matrix.det_fin_two]
    simp only [block, Matrix.of_apply, Matrix.cons_val_zero, Matrix.cons_val_one,
      Matrix.cons_val', Matrix.cons_val_fin_one]
    linear_combination hdet
  have hinv : (block M axis)⁻¹ = !![M (.inr axis) (.inr axis), -M (.inl axis) (.inr axis);
      -M (.inr axis) (.inl axis), M (.inl axis) (.inl axis)] := by
    rw [Matrix.inv_def, hblk]
    simp [block, Matrix.adjugate_fin_two]
  simp only [Option.bind_some]
  rw [hblk, hinv]
  norm_num [h0, qdiv]

theorem lens_tail (axis : Fin 2) (l : ℝ) : ∃ M2,
    paraxialMatrix lensSystem l ((1 + 1 : ℕ) : ℤ) none
      = some (1, transfer (Transform.init 9 V3.ez 0 none).distance 1 * M2) ∧
    Decoupled M2 ∧ M2 ∈ Matrix.symplecticGroup (Fin 2) ℝ ∧
    M2 (.inr axis) (.inr axis) = 29 / 30 := by
  have hsl2 : pySlice lensSystem ((1 + 1 : ℕ) : ℤ) none = lensSystem.drop 2 := by
    simp [pySlice, pyStop, pyBound, lensSystem]
  have hidx1 : refractiveIndex lensSystem l 1 = 3 / 2 := by
    have := refractiveIndex_nat lensSystem l 1
    simp only [Nat.cast_one] at this
    rw [this]
    simp [lensSystem, Elem.index?, Elem.mat, glass]
  have u2 : Upright (⟨Transform.init 1 V3.ez 0 none, .fin 1, some ⟨-1 / 10, 0, some [0, 1], false⟩,
      some (some vacuum)⟩ : Elem) (3 / 2) l :=
    ⟨init_angles 1, by intro m hm _; simp [Elem.mat] at hm; subst hm; simp [vacuum]⟩
  have hMP : MarksPlane (⟨Transform.init 9 V3.ez 0 none, .fin 1, some ⟨0, 0, none, false⟩,
      some none⟩ : Elem) := ⟨rfl, by simp [init_angles], by simp⟩
  have h3 := marksPlane_matrix (l := l) hMP one_ne_zero
  have hz2 : Real.sin (2 * (Transform.init 1 V3.ez 0 none).angles.z) = 0 := by simp [init_angles]
  obtain ⟨⟨n2, M2⟩, h2⟩ : ∃ x, Elem.paraxialMatrix (⟨Transform.init 1 V3.ez 0 none, .fin 1,
      some ⟨-1 / 10, 0, some [0, 1], false⟩, some (some vacuum)⟩ : Elem) (3 / 2) l = some x := by
    obtain ⟨ms, hms, -⟩ := lensSystem_matrices l
    unfold paraxialMatrices at hms
    rw [pySlice_one, show (1 : ℤ) - 1 = 0 by norm_num, lens_index] at hms
    simp only [lensSystem, List.tail_cons, matricesFrom, Option.bind_eq_some_iff,
      Option.map_eq_some_iff] at hms
    obtain ⟨⟨n1, M1⟩, h1, _, ⟨⟨n2, M2⟩, h2, -⟩, -⟩ := hms
    have e1 : n1 = 3 / 2 := by
      rw [show n1 = (n1, M1).1 from rfl, paraxialMatrix_fst h1]
      simp [Elem.paraxN, Elem.index?, Elem.mat, glass]
    subst e1
    exact ⟨_, h2⟩
  have e2 : n2 = 1 := by
    rw [show n2 = (n2, M2).1 from rfl, paraxialMatrix_fst h2]
    simp [Elem.paraxN, Elem.index?, Elem.mat, vacuum]
  subst e2
  have hP2 := upright_power h2 u2 axis
  obtain ⟨k3, k4⟩ := upright_height h2 u2 axis
  have hdec := paraxialMatrix_decoupled (by intro _; exact hz2) h2
  have hsym := paraxialMatrix_symplectic (by intro _; exact hz2) h2
  have hdet := hdec.det hsym axis
  have hP2' : M2 (.inr axis) (.inl axis) = -1 / 20 := by
    simp [uprightPower, Shape.paraxCurv, Elem.mat, vacuum] at hP2
    rw [← hP2]; norm_num
  simp only [init_distance (show (0 : ℝ) ≤ 1 by norm_num)] at k3 k4
  simp only [k3, k4, hP2'] at hdet
  refine ⟨M2, ?_, hdec, hsym, by linear_combination hdet⟩
  unfold paraxialMatrix paraxialMatrices
  rw [hsl2, show ((1 + 1 : ℕ) : ℤ) - 1 = 1 by norm_num, hidx1]
  simp only [lensSystem, List.drop_succ_cons, List.drop_zero, matricesFrom]
  rw [h2]
  simp only [Option.bind_some]
  rw [h3]
  simp only [Option.bind_some, Option.map_some, accumulate, List.foldl_cons, List.foldl_nil,
    Matrix.mul_one]

theorem lens_exit (axis : Fin 2) (l : ℝ) : (exitPupil lensSystem axis l 1 1).isSome := by
  obtain ⟨M2, h, hdec, hsym, hD⟩ := lens_tail axis l
  refine exitPupil_isSome h ((transfer_decoupled _ _).mul hdec)
    (mul_mem (transfer_symplectic _ _) hsym) ?_
  generalize (Transform.init 9 V3.ez 0 none).distance = d
  have : (transfer d 1 * M2) (.inr axis) (.inr axis) = M2 (.inr axis) (.inr axis) := by
    simp [transfer, Matrix.mul_apply, Fintype.sum_sum_type, Matrix.one_apply]
  rw [this, hD]
  norm_num

/-- The hypotheses of C42 hold for the lens with the stop at its first surface. -/
example (axis : Fin 2) (l : ℝ) : ∃ o i r0 rows rs, NoRoll lensSystem ∧ 1 < lensSystem.length ∧
    updateConjugates lensSystem axis l 1 1 1 1 lensObject lensObject = some (o, i) ∧
    rays o (refractiveIndex lensSystem l 0) = some r0 ∧
    PTrace.trace lensSystem axis l r0 = some rows ∧ rows[1]? = some rs := by
  obtain ⟨ms, hms, hlen⟩ := lensSystem_matrices l
  unfold paraxialMatrices at hms
  rw [pySlice_one, show (1 : ℤ) - 1 = 0 by norm_num, lens_index] at hms
  obtain ⟨⟨d, hh⟩, hex⟩ := Option.isSome_iff_exists.mp (lens_exit axis l)
  obtain ⟨rows, ht⟩ := trace_of_matrices (sys := lensSystem) (l := l)
    (r0 := (⟨1, ![0, -1], ![1 * (1 / 5), 1 * (1 / 5)]⟩ : PRow)) hms axis
  have hl := trace_length (by simp [lensSystem]) ht
  have hlt : 1 < rows.length := by rw [hl]; simp [lensSystem]
  refine ⟨⟨true, 1, false, false, ⟨.radius 1, 5, 1, true, true, false⟩⟩,
    ⟨true, 1, false, false, ⟨.radius hh, d, 1, true, true, false⟩⟩,
    ⟨1, ![0, -1], ![1 * (1 / 5), 1 * (1 / 5)]⟩, rows, rows[1],
    lens_noRoll, by simp [lensSystem], ?_, ?_, ht, List.getElem?_eq_getElem hlt⟩
  · unfold updateConjugates
    rw [lens_entrance, hex]
    simp [Conj.update, lensObject, Pupil.update, Pupil.setRadius]
  · rw [lens_index]
    simp [rays, Conj.slope, qdiv, Pupil.slope]

/-- An infinite object whose field and pupil follow the elements. -/
noncomputable def lensField : Conj :=
  ⟨false, 1, false, true, ⟨.radius 1, 5, 1, true, true, false⟩⟩

example (axis : Fin 2) (l : ℝ) : ∃ o i r0,
    updateConjugates lensSystem axis l 1 1 2 1 lensField lensObject = some (o, i) ∧
    rays o (refractiveIndex lensSystem l 0) = some r0 ∧ o.pupil.distance ≠ 0 ∧
    lensField.updateRadius = true ∧ lensField.pupil.updateDistance = true ∧
    lensField.pupil.updateRadius = true ∧ lensField.pupil.index ≠ 0 := by
  obtain ⟨⟨d, hh⟩, hex⟩ := Option.isSome_iff_exists.mp (lens_exit axis l)
  refine ⟨⟨false, arctan2 2 5, false, true, ⟨.radius 1, 5, 1, true, true, false⟩⟩,
    ⟨true, 1, false, false, ⟨.radius hh, d, 1, true, true, false⟩⟩, _, ?_, rfl, by norm_num, rfl,
    rfl, rfl, by norm_num [lensField]⟩
  unfold updateConjugates
  rw [lens_entrance, hex]
  simp [Conj.update, lensObject, lensField, Pupil.update, Pupil.setRadius]

/-! ## C66 -/

/-- C66: `focal_length_solve(f)` gives the last surface the curvature with which the marginal ray of
the next trace leaves it with the slope for focal length `f`; for an infinite object the traced back
focal length is then `f`. -/
theorem c66_focal_length_solve (pre : List Elem) (ek ei : Elem) (hpre : pre ≠ []) (axis : Fin 2)
    (l : ℝ) (r0 : PRow) (rows : List PRow) (hes : NoRoll (pre ++ [ek, ei]))
    (ht : PTrace.trace (pre ++ [ek, ei]) axis l r0 = some rows) (f : ℝ) (sys' : List Elem)
    (h : focalLengthSolve (pre ++ [ek, ei]) rows f = some sys') (rows' : List PRow)
    (ht' : PTrace.trace sys' axis l r0 = some rows') (sh : Shape) (m : Material)
    (hsh : ek.shape = some sh) (hasp : sh.aspherics = none) (hm : ek.mat = some m)
    (hmir : m.mirror = false) (hup : ∀ n, 0 < n → Upright ek n l)
    (hpos : ∀ r ∈ rows, 0 < r.n) (hinf : r0.u 0 = 0) (hn0 : r0.n ≠ 0) :
    (∃ rk, rows'[rows'.length - 2]? = some rk ∧ rk.u 0 / r0.n = -r0.y 0 / f) ∧
    (∀ F, focalLength rows' = some F → F.2 = f) ∧
    (∃ c, sys' = pre ++ [{ ek with shape := some { sh with curvature := c } }, ei]) := by
  have hlen := trace_length (by simp) ht
  have hplen := List.length_pos_iff.mpr hpre
  have hsl : (pre ++ [ek, ei]).length = pre.length + 2 := by simp
  rw [hsl] at hlen
  unfold focalLengthSolve at h
  rw [if_neg (by rw [hsl]; omega)] at h
  simp only [Option.bind_eq_some_iff, Option.map_eq_some_iff] at h
  obtain ⟨a0, ha0, rp, hrp, rk, hrk, q, hq, c, hc, e, he, sh', hsh', rfl⟩ := h
  have hr0 : a0 = r0 := by
    obtain ⟨_, _, _, _, _, _, rfl⟩ := trace_columns ht
    simp at ha0; exact ha0.symm
  subst hr0
  have hee : e = ek := by
    rw [hsl, show pre.length + 2 - 2 = pre.length by omega, List.getElem?_append_right le_rfl] at he
    simpa using he.symm
  subst hee
  rw [hsh] at hsh'
  cases hsh'
  obtain ⟨hf0, rfl⟩ := qdiv_some hq
  obtain ⟨hden, rfl⟩ := qdiv_some hc
  set c : ℝ := (-a0.y 0 / f * a0.n - rp.u 0) / (rk.y 0 * (rp.n - rk.n)) with hcdef
  have hset : (pre ++ [e, ei]).set ((pre ++ [e, ei]).length - 2)
      { e with shape := some { sh with curvature := c } }
      = pre ++ [{ e with shape := some { sh with curvature := c } }, ei] := by
    rw [hsl, show pre.length + 2 - 2 = pre.length by omega, List.set_append_right _ _ le_rfl]
    simp
  rw [hset] at ht' ⊢
  set e' : Elem := { e with shape := some { sh with curvature := c } } with he'def
  have hes' : NoRoll (pre ++ [e', ei]) := by
    intro x hx hxs
    simp only [List.mem_append, List.mem_cons, List.not_mem_nil, or_false] at hx
    rcases hx with hx | rfl | rfl
    · exact hes x (by simp [hx]) hxs
    · exact hes e (by simp) (by simp [hsh])
    · exact hes x (by simp) hxs
  have hlen' := trace_length (by simp) ht'
  have hsl' : (pre ++ [e', ei]).length = pre.length + 2 := by simp
  rw [hsl'] at hlen'
  -- the rows up to the surface before are the same
  have hp1 := trace_prefix pre _ hpre axis l a0 rows ht
  have hp2 := trace_prefix pre _ hpre axis l a0 rows' ht'
  rw [hp1] at hp2
  have htake : rows.take pre.length = rows'.take pre.length := Option.some.inj hp2
  have hidx : pre.length - 1 + 1 = pre.length := by omega
  rw [hlen] at hrp hrk
  rw [show pre.length + 2 - 3 = pre.length - 1 by omega] at hrp
  rw [show pre.length + 2 - 2 = pre.length by omega] at hrk
  have hrp' : rows'[pre.length - 1]? = some rp := by
    have := congrArg (fun x => x[pre.length - 1]?) htake
    simp only [List.getElem?_take, if_pos (show pre.length - 1 < pre.length by omega)] at this
    rw [← this]; exact hrp
  have hrk' : ∃ rk', rows'[pre.length]? = some rk' :=
    ⟨_, List.getElem?_eq_getElem (by omega)⟩
  obtain ⟨rk', hrk'⟩ := hrk'
  have hpn : 0 < rp.n := hpos rp (List.mem_of_getElem? hrp)
  have heu : Upright e' rp.n l := by
    have := hup rp.n hpn
    exact ⟨this.1, fun m' hm' => this.2 m' hm'⟩
  have hgk : (pre ++ [e, ei])[pre.length - 1 + 1]? = some e := by
    rw [hidx, List.getElem?_append_right le_rfl]; simp
  have hgk' : (pre ++ [e', ei])[pre.length - 1 + 1]? = some e' := by
    rw [hidx, List.getElem?_append_right le_rfl]; simp
  obtain ⟨_, g1, P, hP, g2⟩ := rows_step_upright hes ht hgk hrp (by rw [hidx]; exact hrk)
    (hup rp.n hpn)
  obtain ⟨_, g3, P', hP', g4⟩ := rows_step_upright hes' ht' hgk' hrp' (by rw [hidx]; exact hrk') heu
  have hn1 : rk.n = m.index l := by rw [g1]; simp [Elem.paraxN, Elem.index?, hsh, hm]
  have hm' : e'.mat = some m := hm
  have hPc : P' = c * (rp.n - m.index l) := by
    unfold uprightPower at hP'
    rw [hm'] at hP'
    simp [he'def, Shape.paraxCurv, hasp, hmir] at hP'
    exact hP'.symm
  have hy : rk'.y 0 = rk.y 0 := by
    rw [(g4 0).1, (g2 0).1]
  have hu : rk'.u 0 = -a0.y 0 / f * a0.n := by
    rw [(g4 0).2, hPc, hy, ← hn1, hcdef]
    have h1 : rk.y 0 ≠ 0 := fun h => hden (by rw [h]; ring)
    have h2 : rp.n - rk.n ≠ 0 := fun h => hden (by rw [h]; ring)
    field_simp
    ring
  have hlast : rows'[rows'.length - 2]? = some rk' := by
    rw [hlen', show pre.length + 2 - 2 = pre.length by omega]; exact hrk'
  refine ⟨⟨rk', hlast, ?_⟩, ?_, c, rfl⟩
  · rw [hu]; field_simp
  · intro F hF
    unfold focalLength at hF
    have : ∃ r1, ends rows' = some (a0, r1, rk') := by
      unfold ends
      rw [if_pos (by omega), hlast]
      have h0 : rows'[0]? = some a0 := by
        obtain ⟨_, _, _, _, _, _, rfl⟩ := trace_columns ht'
        rfl
      rw [h0]
      refine ⟨rows'[1]'(by omega), ?_⟩
      rw [List.getElem?_eq_getElem (by omega)]
      rfl
    obtain ⟨r1, hends⟩ := this
    rw [hends] at hF
    simp only [Option.bind_some, Option.map_eq_some_iff] at hF
    obtain ⟨g, hg, rfl⟩ := hF
    obtain ⟨hd, rfl⟩ := qdiv_some hg
    simp only [lagrange, hinf, hu] at hd ⊢
    have k1 : a0.u 1 ≠ 0 := fun h => hd (by rw [h]; ring)
    have k2 : a0.y 0 ≠ 0 := fun h => hd (by rw [h]; ring)
    field_simp
    ring

/-- C66: `resize` gives every element after the first a radius that lets every ray between the
marginal and the chief ray pass, and no smaller one does; nothing else changes. -/
theorem c66_resize (sys : List Elem) (rows : List PRow) (hl : rows.length = sys.length) (j : ℕ)
    (e : Elem) (r : PRow) (he : sys[j + 1]? = some e) (hr : rows[j + 1]? = some r) :
    ∃ R : ℝ, (resize sys rows)[j + 1]? = some { e with radius := .fin R } ∧
      (∀ s t : ℝ, |s| ≤ 1 → |t| ≤ 1 → |s * r.y 0 + t * r.y 1| ≤ R) ∧
      (∃ s t : ℝ, |s| ≤ 1 ∧ |t| ≤ 1 ∧ s * r.y 0 + t * r.y 1 = R) ∧
      (resize sys rows).length = sys.length ∧ (resize sys rows)[0]? = sys[0]? := by
  have hj : j + 1 < sys.length := by
    by_contra hcon
    rw [List.getElem?_eq_none (by omega)] at he
    cases he
  refine ⟨|r.y 0| + |r.y 1|, ?_, ?_, ?_, ?_, ?_⟩
  · unfold resize
    rw [List.getElem?_append_right (by simp),
      List.getElem?_append_left (by simp [hl]; omega), List.getElem?_zipWith]
    have h1 : min 1 sys.length = 1 := by omega
    simp only [List.length_take, h1, List.getElem?_drop]
    rw [show 1 + (j + 1 - 1) = j + 1 by omega, he, hr]
  · intro s t hs ht
    calc |s * r.y 0 + t * r.y 1| ≤ |s * r.y 0| + |t * r.y 1| := abs_add_le _ _
      _ = |s| * |r.y 0| + |t| * |r.y 1| := by rw [abs_mul, abs_mul]
      _ ≤ 1 * |r.y 0| + 1 * |r.y 1| := by gcongr
      _ = |r.y 0| + |r.y 1| := by ring
  · have key : ∀ x : ℝ, ∃ s : ℝ, |s| ≤ 1 ∧ s * x = |x| := by
      intro x
      rcases le_total 0 x with h | h
      · exact ⟨1, by simp, by rw [abs_of_nonneg h]; ring⟩
      · exact ⟨-1, by simp, by rw [abs_of_nonpos h]; ring⟩
    obtain ⟨s, hs, hs'⟩ := key (r.y 0)
    obtain ⟨t, ht, ht'⟩ := key (r.y 1)
    exact ⟨s, t, hs, ht, by rw [hs', ht']⟩
  · unfold resize
    simp [hl]
    omega
  · unfold resize
    cases sys with
    | nil => simp at he
    | cons a s => simp

/-- A single refracting surface of curvature `c` before an image plane. -/
noncomputable def singlet (c : ℝ) : List Elem :=
  [⟨Transform.init 0 V3.ez 0 none, .inf, some ⟨0, 0, none, false⟩, some (some vacuum)⟩,
   ⟨Transform.init 5 V3.ez 0 none, .fin 1, some ⟨c, 0, none, false⟩, some (some glass)⟩,
   ⟨Transform.init 9 V3.ez 0 none, .fin 1, some ⟨0, 0, none, false⟩, some none⟩]

theorem singlet_trace (c : ℝ) (axis : Fin 2) (l : ℝ) :
    ∃ rows, PTrace.trace (singlet c) axis l lensStart = some rows := by
  obtain ⟨⟨n1, M1⟩, h1⟩ := c17_defined (⟨Transform.init 5 V3.ez 0 none, .fin 1,
    some ⟨c, 0, none, false⟩, some (some glass)⟩ : Elem) 1 l one_ne_zero (by
      intro sh hsh
      cases hsh
      refine ⟨by simp, fun m hm => ?_⟩
      simp [Elem.mat] at hm
      subst hm
      simp [init_angles, glass])
  have hn : n1 = 3 / 2 := by
    rw [show n1 = (n1, M1).1 from rfl, paraxialMatrix_fst h1]
    simp [Elem.paraxN, Elem.index?, Elem.mat, glass]
  obtain ⟨⟨n2, M2⟩, h2⟩ := c17_defined (⟨Transform.init 9 V3.ez 0 none, .fin 1,
    some ⟨0, 0, none, false⟩, some none⟩ : Elem) n1 l (by rw [hn]; norm_num) (by
      intro sh hsh
      cases hsh
      exact ⟨by simp, fun m hm => by simp [Elem.mat] at hm⟩)
  refine trace_of_matrices (ms := [(n1, M1), (n2, M2)]) ?_ axis
  simp only [singlet, List.tail_cons, matricesFrom, lensStart]
  rw [h1]
  simp only [Option.bind_some]
  rw [h2]
  rfl

/-- The hypotheses of `c66_focal_length_solve` hold for a single surface of radius 10 that is given
the focal length 50. -/
example (axis : Fin 2) (l : ℝ) : ∃ (pre : List Elem) (ek ei : Elem) (rows : List PRow)
    (sys' : List Elem) (rows' : List PRow), singlet (1 / 10) = pre ++ [ek, ei] ∧ pre ≠ [] ∧
    NoRoll (singlet (1 / 10)) ∧ PTrace.trace (singlet (1 / 10)) axis l lensStart = some rows ∧
    focalLengthSolve (singlet (1 / 10)) rows 50 = some sys' ∧
    PTrace.trace sys' axis l lensStart = some rows' ∧ ek.shape = some ⟨1 / 10, 0, none, false⟩ ∧
    ek.mat = some glass ∧ (∀ n, 0 < n → Upright ek n l) ∧ (∀ r ∈ rows, 0 < r.n) ∧
    lensStart.u 0 = 0 ∧ lensStart.n ≠ 0 := by
  have hno : NoRoll (singlet (1 / 10)) := by
    intro e he _
    simp only [singlet, List.mem_cons, List.not_mem_nil, or_false] at he
    rcases he with rfl | rfl | rfl <;> simp [init_angles]
  obtain ⟨rows, ht⟩ := singlet_trace (1 / 10) axis l
  have hlen := trace_length (by simp [singlet]) ht
  have hl3 : rows.length = 3 := by rw [hlen]; rfl
  match rows, hl3 with
  | [a0, r1, r2], _ =>
  have ha0 : a0 = lensStart := by
    obtain ⟨m, c, _, _, _, _, hh⟩ := trace_columns ht
    simp at hh; exact hh.1
  subst ha0
  have hu1 : ∀ n, 0 < n → Upright (⟨Transform.init 5 V3.ez 0 none, .fin 1,
      some ⟨1 / 10, 0, none, false⟩, some (some glass)⟩ : Elem) n l := fun n hn =>
    ⟨init_angles 5, by intro m hm _; simp [Elem.mat] at hm; subst hm; simp [glass, hn]⟩
  obtain ⟨_, hn1, P1, hP1, hk1⟩ := rows_step_upright hno ht (j := 0) (e := _) (a := lensStart)
    (b := r1) rfl rfl rfl (hu1 _ (by simp [lensStart]))
  have hn1' : r1.n = 3 / 2 := by
    rw [hn1]; simp [Elem.paraxN, Elem.index?, Elem.mat, glass]
  obtain ⟨nm, hnm, hn2, _⟩ := rows_step hno ht (j := 1) (e := _) (a := r1) (b := r2) rfl rfl rfl
  have hn2' : r2.n = 3 / 2 := by
    rw [hn2, paraxialMatrix_fst hnm]
    simp [Elem.paraxN, Elem.index?, Elem.mat, hn1']
  have hy : r1.y 0 = 1 := by rw [(hk1 0).1]; simp [lensStart]
  obtain ⟨sys', hs, c, rfl⟩ : ∃ sys', focalLengthSolve (singlet (1 / 10)) [lensStart, r1, r2] 50
      = some sys' ∧ ∃ c, sys' = singlet c := by
    unfold focalLengthSolve
    simp only [List.length_cons, List.length_nil, singlet]
    norm_num [qdiv, hy, hn1', lensStart]
  obtain ⟨rows', ht'⟩ := singlet_trace c axis l
  exact ⟨[_], _, _, _, _, rows', rfl, by simp, hno, ht, hs, ht', rfl, rfl, hu1, by
    intro r hr
    simp only [List.mem_cons, List.not_mem_nil, or_false] at hr
    rcases hr with rfl | rfl | rfl
    · simp [lensStart]
    · rw [hn1']; norm_num
    · rw [hn2']; norm_num, by simp [lensStart], by simp [lensStart]⟩

end RayOpt
