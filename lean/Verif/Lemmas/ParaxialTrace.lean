import Verif.Model.ParaxialTrace
import Verif.Props.Paraxial

/-! Lemmas on systems without roll: the two planes are decoupled. -/

namespace RayOpt

open Matrix Parax Sys

/-- The x and y planes do not mix. -/
def Decoupled (M : PM) : Prop := ∀ a b : Fin 2, a ≠ b →
  M (.inl a) (.inl b) = 0 ∧ M (.inl a) (.inr b) = 0 ∧ M (.inr a) (.inl b) = 0 ∧
    M (.inr a) (.inr b) = 0

theorem Decoupled.one : Decoupled 1 := by
  intro a b hab
  simp [Matrix.one_apply, hab]

theorem Decoupled.mul {M N : PM} (hM : Decoupled M) (hN : Decoupled N) : Decoupled (M * N) := by
  have hM1 := hM 0 1 (by decide)
  have hM2 := hM 1 0 (by decide)
  have hN1 := hN 0 1 (by decide)
  have hN2 := hN 1 0 (by decide)
  intro a b hab
  fin_cases a <;> fin_cases b <;>
    simp_all [Matrix.mul_apply, Fintype.sum_sum_type, Fin.sum_univ_two]

theorem Decoupled.mulVec {M : PM} (hM : Decoupled M) (v : PVec) (a : Fin 2) :
    (M *ᵥ v) (.inl a) = M (.inl a) (.inl a) * v (.inl a) + M (.inl a) (.inr a) * v (.inr a) ∧
    (M *ᵥ v) (.inr a) = M (.inr a) (.inl a) * v (.inl a) + M (.inr a) (.inr a) * v (.inr a) := by
  have hM1 := hM 0 1 (by decide)
  have hM2 := hM 1 0 (by decide)
  fin_cases a <;>
    simp_all [Matrix.mulVec, dotProduct, Fintype.sum_sum_type, Fin.sum_univ_two]

theorem Decoupled.det {M : PM} (hM : Decoupled M) (hs : M ∈ symplecticGroup (Fin 2) ℝ)
    (a : Fin 2) : M (.inl a) (.inl a) * M (.inr a) (.inr a)
      - M (.inl a) (.inr a) * M (.inr a) (.inl a) = 1 := by
  have h := symplectic_invariant hs (Pi.single (.inl a) 1) (Pi.single (.inr a) 1)
  have hM1 := hM 0 1 (by decide)
  have hM2 := hM 1 0 (by decide)
  unfold opticalInvariant at h
  fin_cases a <;> simp_all [Matrix.mulVec_single] <;> linarith

theorem rot_decoupled {phi : ℝ} (h : Real.sin (2 * phi) = 0) {N : PM} (hN : Decoupled N) :
    Decoupled (rotMat phi * (N * (rotMat phi)ᵀ)) := by
  have hN1 := hN 0 1 (by decide)
  have hN2 := hN 1 0 (by decide)
  have hsc : Real.sin phi * Real.cos phi = 0 := by
    rw [Real.sin_two_mul] at h; linarith
  rw [rotMat_transpose, ← fromBlocks_toBlocks N]
  unfold rotMat
  rw [fromBlocks_multiply, fromBlocks_multiply]
  rcases mul_eq_zero.mp hsc with h0 | h0 <;>
  · intro a b hab
    fin_cases a <;> fin_cases b <;>
      simp_all [rotBlock, Matrix.mul_apply, Fin.sum_univ_two, toBlocks₁₁, toBlocks₁₂, toBlocks₂₁,
        toBlocks₂₂, Matrix.vecMul, dotProduct]

theorem transfer_decoupled (d n : ℝ) : Decoupled (transfer d n) := by
  intro a b hab
  fin_cases a <;> fin_cases b <;> simp_all [transfer]

theorem surfMat_decoupled {sh : Shape} {m : Option Material} {theta n0 n : ℝ} {M : PM}
    (h : Elem.surfMat sh m theta n0 n = some M) : Decoupled M := by
  unfold Elem.surfMat at h
  rw [Option.bind_eq_some_iff] at h
  obtain ⟨c, _, h⟩ := h
  cases m with
  | none => cases h; exact Decoupled.one
  | some m =>
    simp only at h
    split at h
    · split at h
      · cases h
      · cases h
        intro a b hab
        fin_cases a <;> fin_cases b <;> simp_all [mirrorMat]
    · split at h
      · cases h
      · cases h
        intro a b hab
        fin_cases a <;> fin_cases b <;> simp_all [refractMat]

theorem paraxialMatrix_decoupled {e : Elem} {n0 l : ℝ} {nm : ℝ × PM}
    (hphi : e.shape.isSome → Real.sin (2 * e.tf.angles.z) = 0)
    (h : e.paraxialMatrix n0 l = some nm) : Decoupled nm.2 := by
  unfold Elem.paraxialMatrix at h
  split at h
  · cases h
  · split at h
    · cases h; exact transfer_decoupled _ _
    · rename_i sh hs
      simp only [Option.map_eq_some_iff] at h
      obtain ⟨m, hm, rfl⟩ := h
      exact rot_decoupled (hphi (by simp [hs]))
        ((surfMat_decoupled hm).mul (transfer_decoupled _ _))

theorem matricesFrom_decoupled (l : ℝ) (es : List Elem) (hes : NoRoll es) (n : ℝ)
    (ms : List (ℝ × PM)) (h : matricesFrom l es n = some ms) : ∀ nm ∈ ms, Decoupled nm.2 := by
  induction es generalizing n ms with
  | nil => simp [matricesFrom] at h; subst h; simp
  | cons e es ih =>
    simp only [matricesFrom, Option.bind_eq_some_iff, Option.map_eq_some_iff] at h
    obtain ⟨nm, hnm, r, hr, rfl⟩ := h
    intro x hx
    rcases List.mem_cons.mp hx with rfl | hx
    · exact paraxialMatrix_decoupled (hes e (by simp)) hnm
    · exact ih (fun e he => hes e (by simp [he])) _ r hr x hx

theorem accumulate_decoupled (ms : List (ℝ × PM)) (h : ∀ nm ∈ ms, Decoupled nm.2) :
    Decoupled (accumulate ms).2 := by
  induction ms using List.reverseRecOn with
  | nil => exact Decoupled.one
  | append_singleton ms m ih =>
    rw [accumulate_append]
    refine Decoupled.mul ?_ (ih fun nm hn => h nm (by simp [hn]))
    have := h m (by simp)
    simpa [accumulate] using this

/-- A traced ray shows that the matrices exist. -/
theorem scan_matrices (l : ℝ) (es : List Elem) (n : ℝ) (v : PVec) (o : List (PVec × ℝ))
    (h : scanM (fun e s => e.propagateParaxial s.1 s.2 l) es (v, n) = some o) :
    ∃ ms, matricesFrom l es n = some ms := by
  induction es generalizing n v o with
  | nil => exact ⟨[], rfl⟩
  | cons e es ih =>
    simp only [scanM, Option.bind_eq_some_iff, Option.map_eq_some_iff,
      Elem.propagateParaxial] at h
    obtain ⟨s', ⟨nm, hnm, rfl⟩, r, hr, rfl⟩ := h
    obtain ⟨ms, hms⟩ := ih _ _ _ hr
    exact ⟨nm :: ms, by simp [matricesFrom, hnm, hms]⟩

/-- In a system without roll every row of every traced ray is a fixed unimodular linear map of the
starting row of its plane. -/
theorem plane_map (l : ℝ) (es : List Elem) (hes : NoRoll es) (n : ℝ) (v : PVec)
    (o : List (PVec × ℝ))
    (h : scanM (fun e s => e.propagateParaxial s.1 s.2 l) es (v, n) = some o) (j : ℕ)
    (hj : j < es.length) (a : Fin 2) :
    ∃ A B C D n' : ℝ, A * D - B * C = 1 ∧ ∀ (w : PVec) (ow : List (PVec × ℝ)),
      scanM (fun e s => e.propagateParaxial s.1 s.2 l) es (w, n) = some ow →
      ∃ x, ow[j]? = some x ∧ x.2 = n' ∧ x.1 (.inl a) = A * w (.inl a) + B * w (.inr a) ∧
        x.1 (.inr a) = C * w (.inl a) + D * w (.inr a) := by
  obtain ⟨ms, hms⟩ := scan_matrices l es n v o h
  have hsub : ∀ nm ∈ ms.take (j + 1), nm ∈ ms := fun nm h => List.mem_of_mem_take h
  have hd := accumulate_decoupled (ms.take (j + 1))
    fun nm hn => matricesFrom_decoupled l es hes n ms hms nm (hsub nm hn)
  have hs := accumulate_symplectic (ms.take (j + 1))
    fun nm hn => matricesFrom_symplectic l es hes n ms hms nm (hsub nm hn)
  have hlen : ms.length = es.length := by
    obtain ⟨out, h1, h2, _⟩ := matrices_action l es n ms hms v
    rw [← h2, scanM_length _ _ _ _ h1]
  refine ⟨_, _, _, _, (ms[j]'(by omega)).1, hd.det hs a, fun w ow how => ?_⟩
  obtain ⟨out, h1, h2, h3⟩ := matrices_action l es n ms hms w
  rw [how] at h1
  cases h1
  have := h3 j
  rw [List.getElem?_eq_getElem (by omega : j < ms.length)] at this
  refine ⟨_, this, rfl, ?_, ?_⟩
  · exact (hd.mulVec w a).1
  · exact (hd.mulVec w a).2

/-- A surface without tilt or roll, and without change of the sign of the index. -/
def Upright (e : Elem) (n0 l : ℝ) : Prop :=
  e.tf.angles = 0 ∧ ∀ m, e.mat = some m → m.mirror = false → 0 < m.index l / n0

theorem upright_height {e : Elem} {n0 l : ℝ} {nm : ℝ × PM} (h : e.paraxialMatrix n0 l = some nm)
    (hu : Upright e n0 l) (a : Fin 2) :
    nm.2 (.inl a) (.inl a) = 1 ∧ nm.2 (.inl a) (.inr a) = e.tf.distance / n0 := by
  unfold Elem.paraxialMatrix at h
  split at h
  · cases h
  · split at h
    · cases h
      fin_cases a <;> simp [transfer]
    · rename_i sh hs
      simp only [Option.map_eq_some_iff] at h
      obtain ⟨m, hm, rfl⟩ := h
      have hm0 : ∃ C D, m = fromBlocks 1 0 C D := by
        unfold Elem.surfMat at hm
        rw [Option.bind_eq_some_iff] at hm
        obtain ⟨c, _, hm⟩ := hm
        cases hmat : e.mat with
        | none => rw [hmat] at hm; cases hm; exact ⟨0, 1, fromBlocks_one.symm⟩
        | some mm =>
          rw [hmat] at hm
          simp only at hm
          split at hm
          · split at hm
            · cases hm
            · cases hm; exact ⟨_, _, rfl⟩
          · rename_i hmir
            split at hm
            · cases hm
            · cases hm
              unfold refractMat
              have hpos := hu.2 mm hmat (by simpa using hmir)
              have hn : e.paraxN n0 l = mm.index l := by
                simp [Elem.paraxN, Elem.index?, hs, hmat]
              have h1 : pRoot (e.paraxN n0 l / n0) (Real.cos e.tf.angles.x)
                  / (e.paraxN n0 l / n0 * Real.cos e.tf.angles.x) = 1 := by
                rw [hu.1, hn]
                simp only [V3.zero_x, Real.cos_zero, pRoot]
                rw [show (mm.index l / n0) ^ 2 + 1 ^ 2 - 1 = (mm.index l / n0) ^ 2 by ring,
                  Real.sqrt_sq hpos.le, mul_one, div_self hpos.ne']
              simp only [h1]
              rw [show (!![1, 0; 0, 1] : M2) = 1 from Matrix.one_fin_two.symm]
              exact ⟨_, _, rfl⟩
      obtain ⟨C, D, rfl⟩ := hm0
      rw [hu.1, rotMat_transpose]
      unfold rotMat transfer
      simp only [fromBlocks_multiply]
      fin_cases a <;> simp [rotBlock, Fin.sum_univ_two, Matrix.vecMul, dotProduct]

/-- The refracting or reflecting power (with the sign of the code) of an upright surface. -/
noncomputable def uprightPower (e : Elem) (n0 l : ℝ) : Option ℝ :=
  match e.shape with
  | none => some 0
  | some sh => sh.paraxCurv.map fun c =>
    match e.mat with
    | none => 0
    | some m => if m.mirror then 2 * c else c * (n0 - m.index l)

theorem upright_power {e : Elem} {n0 l : ℝ} {nm : ℝ × PM} (h : e.paraxialMatrix n0 l = some nm)
    (hu : Upright e n0 l) (a : Fin 2) : uprightPower e n0 l = some (nm.2 (.inr a) (.inl a)) := by
  unfold Elem.paraxialMatrix at h
  unfold uprightPower
  split at h
  · cases h
  · rename_i hn0
    split at h
    · rename_i hs
      cases h
      rw [hs]
      fin_cases a <;> simp [transfer]
    · rename_i sh hs
      simp only [Option.map_eq_some_iff] at h
      obtain ⟨m, hm, rfl⟩ := h
      simp only [hs]
      unfold Elem.surfMat at hm
      rw [Option.bind_eq_some_iff] at hm
      obtain ⟨c, hc, hm⟩ := hm
      rw [hc, Option.map_some]
      congr 1
      have hent : ∀ (N : PM), (rotMat 0 * (N * transfer e.tf.distance n0 * (rotMat 0)ᵀ)) (.inr a)
          (.inl a) = N (.inr a) (.inl a) := by
        intro N
        rw [rotMat_transpose, ← fromBlocks_toBlocks N]
        unfold rotMat transfer
        simp only [fromBlocks_multiply]
        fin_cases a <;> simp [rotBlock, Matrix.vecMul, dotProduct, Fin.sum_univ_two, toBlocks₂₁,
          Matrix.mul_apply]
      rw [hu.1]
      simp only [V3.zero_z]
      rw [hent]
      cases hmat : e.mat with
      | none => rw [hmat] at hm; cases hm; simp
      | some mm =>
        rw [hmat] at hm
        simp only [hu.1, V3.zero_x, Real.cos_zero] at hm
        simp only
        split at hm
        · rename_i hmir
          rw [if_pos hmir]
          simp only [one_ne_zero, if_false, Option.some.injEq] at hm
          rw [← hm]
          fin_cases a <;> simp [mirrorMat]
        · rename_i hmir
          rw [if_neg hmir]
          split at hm
          · cases hm
          · rename_i hcond
            cases hm
            have hpos := hu.2 mm hmat (by simpa using hmir)
            have hn : e.paraxN n0 l = mm.index l := by
              simp [Elem.paraxN, Elem.index?, hs, hmat]
            have hp : pRoot (mm.index l / n0) 1 = mm.index l / n0 := by
              unfold pRoot
              rw [show (mm.index l / n0) ^ 2 + 1 ^ 2 - 1 = (mm.index l / n0) ^ 2 by ring,
                Real.sqrt_sq hpos.le]
            unfold refractMat
            simp only [hn, hp]
            have hm0 : mm.index l ≠ 0 := by
              intro h0; rw [h0] at hpos; simp at hpos
            fin_cases a
            · simp; field_simp
            · simp; field_simp

/-- A paraxial ray at an upright element: straight on to the surface, then a change of slope
proportional to the height. -/
theorem upright_step {e : Elem} {n0 l : ℝ} {v : PVec} {x : PVec × ℝ} (hu : Upright e n0 l)
    (hz : e.shape.isSome → Real.sin (2 * e.tf.angles.z) = 0)
    (h : e.propagateParaxial v n0 l = some x) (a : Fin 2) :
    ∃ P, uprightPower e n0 l = some P ∧ x.2 = e.paraxN n0 l ∧
      x.1 (.inl a) = v (.inl a) + e.tf.distance / n0 * v (.inr a) ∧
      x.1 (.inr a) = v (.inr a) + P * x.1 (.inl a) := by
  unfold Elem.propagateParaxial at h
  rw [Option.map_eq_some_iff] at h
  obtain ⟨nm, hnm, rfl⟩ := h
  have hd := paraxialMatrix_decoupled hz hnm
  have hs := paraxialMatrix_symplectic hz hnm
  obtain ⟨h1, h2⟩ := upright_height hnm hu a
  have h3 := hd.det hs a
  refine ⟨_, upright_power hnm hu a, paraxialMatrix_fst hnm, ?_, ?_⟩
  · simp only [(hd.mulVec v a).1, h1, h2]; ring
  · simp only [(hd.mulVec v a).1, (hd.mulVec v a).2, h1, h2]
    rw [h1, h2] at h3
    linear_combination v (.inr a) * h3

/-- Two rays through the same elements see the same indices, and fail together. -/
theorem scan_pair (l : ℝ) (es : List Elem) (n : ℝ) (v w : PVec) (ov : List (PVec × ℝ))
    (h : scanM (fun e s => e.propagateParaxial s.1 s.2 l) es (v, n) = some ov) :
    ∃ ow, scanM (fun e s => e.propagateParaxial s.1 s.2 l) es (w, n) = some ow ∧
      ov.map Prod.snd = ow.map Prod.snd := by
  induction es generalizing n v w ov with
  | nil => simp [scanM] at h; subst h; exact ⟨[], rfl, rfl⟩
  | cons e es ih =>
    simp only [scanM, Option.bind_eq_some_iff, Option.map_eq_some_iff,
      Elem.propagateParaxial] at h
    obtain ⟨s', ⟨nm, hnm, rfl⟩, r, hr, rfl⟩ := h
    obtain ⟨ow, how, hs⟩ := ih _ _ (nm.2 *ᵥ w) _ hr
    exact ⟨(nm.2 *ᵥ w, nm.1) :: ow, by
      simp only [scanM, Elem.propagateParaxial, hnm, Option.map_some, Option.bind_some]
      exact congrArg (Option.map _) how,
      by simp [hs]⟩

theorem pySlice_one {α : Type*} (xs : List α) : pySlice xs 1 none = xs.tail := by
  cases xs <;> simp [pySlice, pyStop, pyBound]

theorem NoRoll.tail {sys : List Elem} (h : NoRoll sys) : NoRoll sys.tail :=
  fun e he => h e (List.mem_of_mem_tail he)

/-- The columns of a paraxial trace are traced rays. -/
theorem trace_columns {sys : List Elem} {axis : Fin 2} {l : ℝ} {r0 : PRow} {rows : List PRow}
    (h : PTrace.trace sys axis l r0 = some rows) :
    ∃ m c, propagateParaxial sys (PTrace.column r0 0) r0.n l 1 none = some m ∧
      propagateParaxial sys (PTrace.column r0 1) r0.n l 1 none = some c ∧
      m.length = sys.length - 1 ∧ c.length = sys.length - 1 ∧
      rows = r0 :: List.zipWith (PTrace.row axis) m c := by
  unfold PTrace.trace PTrace.rowsFrom at h
  simp only [Option.map_eq_some_iff, Option.bind_eq_some_iff] at h
  obtain ⟨o, ⟨m, hm, c, hc, rfl⟩, rfl⟩ := h
  refine ⟨m, c, hm, hc, ?_, ?_, rfl⟩
  · unfold propagateParaxial at hm
    rw [pySlice_one] at hm
    rw [scanM_length _ _ _ _ hm, List.length_tail]
  · unfold propagateParaxial at hc
    rw [pySlice_one] at hc
    rw [scanM_length _ _ _ _ hc, List.length_tail]

/-- All rays through a system without roll share one unimodular map from the first surface (height
at, slope before) to the last surface (height at, slope after); this includes the two traced
rays. -/
theorem ends_map {sys : List Elem} {axis : Fin 2} {l : ℝ} {r0 : PRow} {rows : List PRow}
    (hes : NoRoll sys) (h3 : 3 ≤ sys.length) (hup : ∀ e, sys[1]? = some e → Upright e r0.n l)
    (ht : PTrace.trace sys axis l r0 = some rows) :
    ∃ (r1 rk : PRow) (d A B C D : ℝ), PTrace.ends rows = some (r0, r1, rk) ∧ A * D - B * C = 1 ∧
      (∀ k, r1.y k = r0.y k + d * r0.u k ∧ rk.y k = A * r1.y k + B * r0.u k ∧
        rk.u k = C * r1.y k + D * r0.u k) ∧
      ∀ w ow, propagateParaxial sys w r0.n l 1 none = some ow →
        ∃ x1 xk, ow[0]? = some x1 ∧ ow[sys.length - 3]? = some xk ∧ xk.2 = rk.n ∧
          x1.1 (.inl axis) = w (.inl axis) + d * w (.inr axis) ∧
          xk.1 (.inl axis) = A * x1.1 (.inl axis) + B * w (.inr axis) ∧
          xk.1 (.inr axis) = C * x1.1 (.inl axis) + D * w (.inr axis) := by
  obtain ⟨m, c, hm, hc, hml, hcl, hrows⟩ := trace_columns ht
  match sys, h3 with
  | [], h3 => simp at h3
  | [_], h3 => simp at h3
  | e0 :: e1 :: es, h3 =>
  have hm' := hm
  unfold propagateParaxial at hm'
  rw [pySlice_one, List.tail_cons] at hm'
  obtain ⟨A, B, C, D, nk, hdet, hk⟩ := plane_map l _ hes.tail _ _ _ hm'
    ((e0 :: e1 :: es).length - 3) (by simp) axis
  obtain ⟨A1, B1, C1, D1, n1, hdet1, hk1⟩ := plane_map l _ hes.tail _ _ _ hm' 0 (by simp) axis
  -- the first surface
  have hfirst : ∀ w ow x, propagateParaxial (e0 :: e1 :: es) w r0.n l 1 none = some ow →
      ow[0]? = some x → x.1 (.inl axis) = w (.inl axis)
        + e1.tf.distance / r0.n * w (.inr axis) := by
    intro w ow x how hx
    unfold propagateParaxial at how
    rw [pySlice_one, List.tail_cons] at how
    simp only [scanM, Option.bind_eq_some_iff, Option.map_eq_some_iff,
      Elem.propagateParaxial] at how
    obtain ⟨s', ⟨nm, hnm, rfl⟩, r, hr, rfl⟩ := how
    simp at hx
    subst hx
    have hd := paraxialMatrix_decoupled (hes e1 (by simp)) hnm
    have hh := upright_height hnm (hup e1 rfl) axis
    simp only [(hd.mulVec w axis).1, hh.1, hh.2, one_mul]
  have hall : ∀ w ow, propagateParaxial (e0 :: e1 :: es) w r0.n l 1 none = some ow →
      ∃ x1 xk, ow[0]? = some x1 ∧ ow[(e0 :: e1 :: es).length - 3]? = some xk ∧ xk.2 = nk ∧
          x1.1 (.inl axis) = w (.inl axis) + e1.tf.distance / r0.n * w (.inr axis) ∧
          xk.1 (.inl axis) = A * x1.1 (.inl axis)
            + (B - A * (e1.tf.distance / r0.n)) * w (.inr axis) ∧
          xk.1 (.inr axis) = C * x1.1 (.inl axis)
            + (D - C * (e1.tf.distance / r0.n)) * w (.inr axis) := by
    intro w ow how
    have how' := how
    unfold propagateParaxial at how'
    rw [pySlice_one, List.tail_cons] at how'
    obtain ⟨xk, h1, h2, h4, h5⟩ := hk w ow how'
    obtain ⟨x1, g1, _, _, _⟩ := hk1 w ow how'
    have g2 := hfirst w ow x1 how g1
    refine ⟨x1, xk, g1, h1, h2, g2, ?_, ?_⟩
    · rw [h4, g2]; ring
    · rw [h5, g2]; ring
  obtain ⟨m1, mk, a1, a2, a3, a4, a5, a6⟩ := hall _ _ hm
  obtain ⟨c1, ck, b1, b2, b3, b4, b5, b6⟩ := hall _ _ hc
  refine ⟨PTrace.row axis m1 c1, PTrace.row axis mk ck, e1.tf.distance / r0.n, A,
    B - A * (e1.tf.distance / r0.n), C, D - C * (e1.tf.distance / r0.n), ?_, ?_, ?_, ?_⟩
  · have hl : rows.length = (e0 :: e1 :: es).length := by
      rw [hrows]; simp [hml, hcl]
    have h3' : 3 ≤ rows.length := by omega
    unfold PTrace.ends
    rw [if_pos (by omega)]
    have e1' : rows[0]? = some r0 := by rw [hrows]; rfl
    have e2' : rows[1]? = some (PTrace.row axis m1 c1) := by
      rw [hrows, List.getElem?_cons_succ, List.getElem?_zipWith, a1, b1]
    have e3' : rows[rows.length - 2]? = some (PTrace.row axis mk ck) := by
      rw [hl, hrows, show (e0 :: e1 :: es).length - 2 = ((e0 :: e1 :: es).length - 3) + 1 by omega,
        List.getElem?_cons_succ, List.getElem?_zipWith, a2, b2]
    rw [e1', e2', e3']
    rfl
  · linear_combination hdet
  · intro k
    fin_cases k
    · exact ⟨a4, a5, a6⟩
    · exact ⟨b4, b5, b6⟩
  · intro w ow how
    obtain ⟨x1, xk, g1, g2, g3, g4⟩ := hall w ow how
    exact ⟨x1, xk, g1, g2, by rw [g3]; exact a3.symm, g4⟩

theorem scan_get {α : Type*} (f : Elem → α → Option α) (es : List Elem) (s : α) (o : List α)
    (h : scanM f es s = some o) (j : ℕ) (e : Elem) (a x : α) (he : es[j]? = some e)
    (ha : (s :: o)[j]? = some a) (hx : o[j]? = some x) : f e a = some x := by
  induction es generalizing s o j with
  | nil => simp at he
  | cons e' es ih =>
    simp only [scanM, Option.bind_eq_some_iff, Option.map_eq_some_iff] at h
    obtain ⟨s', hs', r, hr, rfl⟩ := h
    cases j with
    | zero => simp at he ha hx; subst he ha hx; exact hs'
    | succ j =>
      simp only [List.getElem?_cons_succ] at he ha hx
      exact ih s' r hr j he ha hx

/-- One step of a paraxial trace of a system without roll. -/
theorem rows_step {sys : List Elem} {axis : Fin 2} {l : ℝ} {r0 : PRow} {rows : List PRow}
    (hes : NoRoll sys) (ht : PTrace.trace sys axis l r0 = some rows) {j : ℕ} {e : Elem}
    {a b : PRow} (he : sys[j + 1]? = some e) (ha : rows[j]? = some a) (hb : rows[j + 1]? = some b) :
    ∃ nm, e.paraxialMatrix a.n l = some nm ∧ b.n = nm.1 ∧
      ∀ k, b.y k = nm.2 (.inl axis) (.inl axis) * a.y k + nm.2 (.inl axis) (.inr axis) * a.u k ∧
        b.u k = nm.2 (.inr axis) (.inl axis) * a.y k + nm.2 (.inr axis) (.inr axis) * a.u k := by
  obtain ⟨m, c, hm, hc, hml, hcl, rfl⟩ := trace_columns ht
  unfold propagateParaxial at hm hc
  rw [pySlice_one] at hm hc
  have he' : sys.tail[j]? = some e := by rw [List.getElem?_tail]; exact he
  have hz := hes e (List.mem_of_getElem? he)
  rw [List.getElem?_cons_succ, List.getElem?_zipWith] at hb
  cases hmj : m[j]? with
  | none => rw [hmj] at hb; simp at hb
  | some xm =>
  cases hcj : c[j]? with
  | none => rw [hmj, hcj] at hb; simp at hb
  | some xc =>
  rw [hmj, hcj] at hb
  simp at hb
  subst hb
  -- the states before
  have hpre : ∃ sm sc : PVec × ℝ, ((PTrace.column r0 0, r0.n) :: m)[j]? = some sm ∧
      ((PTrace.column r0 1, r0.n) :: c)[j]? = some sc ∧ a.n = sm.2 ∧ sm.2 = sc.2 ∧
      a.y 0 = sm.1 (.inl axis) ∧ a.y 1 = sc.1 (.inl axis) ∧ a.u 0 = sm.1 (.inr axis) ∧
      a.u 1 = sc.1 (.inr axis) := by
    cases j with
    | zero =>
      simp at ha
      subst ha
      exact ⟨_, _, rfl, rfl, rfl, rfl, rfl, rfl, rfl, rfl⟩
    | succ j =>
      rw [List.getElem?_cons_succ, List.getElem?_zipWith] at ha
      cases hm2 : m[j]? with
      | none => rw [hm2] at ha; simp at ha
      | some ym =>
      cases hc2 : c[j]? with
      | none => rw [hm2, hc2] at ha; simp at ha
      | some yc =>
      rw [hm2, hc2] at ha
      simp at ha
      subst ha
      refine ⟨ym, yc, by simpa using hm2, by simpa using hc2, rfl, ?_, rfl, rfl, rfl, rfl⟩
      obtain ⟨c', hc', hs⟩ := scan_pair l _ _ _ (PTrace.column r0 1) m hm
      rw [hc] at hc'
      cases hc'
      have := congrArg (fun x => x[j]?) hs
      simp only [List.getElem?_map, hm2, hc2, Option.map_some, Option.some.injEq] at this
      exact this
  obtain ⟨sm, sc, h1, h2, h3, h4, h5, h6, h7, h8⟩ := hpre
  have g1 := scan_get _ _ _ _ hm j e sm xm he' h1 hmj
  have g2 := scan_get _ _ _ _ hc j e sc xc he' h2 hcj
  unfold Elem.propagateParaxial at g1 g2
  rw [Option.map_eq_some_iff] at g1 g2
  obtain ⟨nm, hnm, rfl⟩ := g1
  obtain ⟨nm2, hnm2, rfl⟩ := g2
  rw [← h4, hnm] at hnm2
  cases hnm2
  have hd := paraxialMatrix_decoupled hz hnm
  refine ⟨nm, by rw [h3]; exact hnm, rfl, fun k => ?_⟩
  fin_cases k
  · have := hd.mulVec sm.1 axis
    simp only [PTrace.row, Fin.zero_eta, h5, h7, ← this.1, ← this.2]
    exact ⟨rfl, rfl⟩
  · have := hd.mulVec sc.1 axis
    simp only [PTrace.row, Fin.mk_one, h6, h8, ← this.1, ← this.2]
    exact ⟨rfl, rfl⟩

/-- One step at an upright element. -/
theorem rows_step_upright {sys : List Elem} {axis : Fin 2} {l : ℝ} {r0 : PRow} {rows : List PRow}
    (hes : NoRoll sys) (ht : PTrace.trace sys axis l r0 = some rows) {j : ℕ} {e : Elem}
    {a b : PRow} (he : sys[j + 1]? = some e) (ha : rows[j]? = some a) (hb : rows[j + 1]? = some b)
    (hu : Upright e a.n l) :
    a.n ≠ 0 ∧ b.n = e.paraxN a.n l ∧ ∃ P, uprightPower e a.n l = some P ∧
      ∀ k, b.y k = a.y k + e.tf.distance / a.n * a.u k ∧ b.u k = a.u k + P * b.y k := by
  obtain ⟨nm, hnm, h1, h2⟩ := rows_step hes ht he ha hb
  have hz := hes e (List.mem_of_getElem? he)
  have hd := (paraxialMatrix_decoupled hz hnm).det (paraxialMatrix_symplectic hz hnm) axis
  obtain ⟨g1, g2⟩ := upright_height hnm hu axis
  refine ⟨?_, by rw [h1, paraxialMatrix_fst hnm], _, upright_power hnm hu axis, fun k => ?_⟩
  · intro h0
    rw [h0] at hnm
    simp [Elem.paraxialMatrix] at hnm
  · obtain ⟨e1, e2⟩ := h2 k
    rw [g1, g2] at e1 hd
    refine ⟨by rw [e1]; ring, ?_⟩
    rw [e2, e1]
    linear_combination a.u k * hd

/-- Every row is a unimodular map of the first one, the same for both rays. -/
theorem rows_map {sys : List Elem} {axis : Fin 2} {l : ℝ} {r0 : PRow} {rows : List PRow}
    (hes : NoRoll sys) (ht : PTrace.trace sys axis l r0 = some rows) {j : ℕ} {b : PRow}
    (hj : j < sys.length) (hb : rows[j]? = some b) :
    ∃ A B C D : ℝ, A * D - B * C = 1 ∧
      ∀ k, b.y k = A * r0.y k + B * r0.u k ∧ b.u k = C * r0.y k + D * r0.u k := by
  induction j generalizing b with
  | zero =>
    obtain ⟨m, c, _, _, _, _, rfl⟩ := trace_columns ht
    simp at hb
    subst hb
    exact ⟨1, 0, 0, 1, by ring, fun k => ⟨by ring, by ring⟩⟩
  | succ j ih =>
    have hlt : j + 1 < rows.length := by
      by_contra hcon
      rw [List.getElem?_eq_none (by omega)] at hb
      cases hb
    obtain ⟨A, B, C, D, hdet, hk⟩ := ih (by omega) (List.getElem?_eq_getElem (by omega))
    obtain ⟨nm, hnm, h1, h2⟩ := rows_step hes ht (List.getElem?_eq_getElem hj)
      (List.getElem?_eq_getElem (by omega)) hb
    have hz := hes sys[j + 1] (List.getElem_mem _)
    have hd := (paraxialMatrix_decoupled hz hnm).det (paraxialMatrix_symplectic hz hnm) axis
    generalize nm.2 (.inl axis) (.inl axis) = a' at *
    generalize nm.2 (.inl axis) (.inr axis) = b' at *
    generalize nm.2 (.inr axis) (.inl axis) = c' at *
    generalize nm.2 (.inr axis) (.inr axis) = d' at *
    refine ⟨a' * A + b' * C, a' * B + b' * D, c' * A + d' * C, c' * B + d' * D, ?_, fun k => ?_⟩
    · linear_combination (a' * d' - b' * c') * hdet + hd
    · obtain ⟨e1, e2⟩ := h2 k
      obtain ⟨f1, f2⟩ := hk k
      rw [e1, e2, f1, f2]
      exact ⟨by ring, by ring⟩

/-- The rows of the first elements do not depend on the later ones. -/
theorem trace_prefix (pre suf : List Elem) (hpre : pre ≠ []) (axis : Fin 2) (l : ℝ) (r0 : PRow)
    (rows : List PRow) (h : PTrace.trace (pre ++ suf) axis l r0 = some rows) :
    PTrace.trace pre axis l r0 = some (rows.take pre.length) := by
  have htail : (pre ++ suf).tail = pre.tail ++ suf := List.tail_append_of_ne_nil hpre
  have hpos := List.length_pos_iff.mpr hpre
  obtain ⟨m, c, hm, hc, hml, hcl, rfl⟩ := trace_columns h
  unfold propagateParaxial at hm hc
  rw [pySlice_one, htail, scanM_append] at hm hc
  simp only [Option.bind_eq_some_iff, Option.map_eq_some_iff] at hm hc
  obtain ⟨m1, hm1, m2, hm2, rfl⟩ := hm
  obtain ⟨c1, hc1, c2, hc2, rfl⟩ := hc
  have l1 := scanM_length _ _ _ _ hm1
  have l2 := scanM_length _ _ _ _ hc1
  rw [List.length_tail] at l1 l2
  unfold PTrace.trace PTrace.rowsFrom propagateParaxial
  rw [pySlice_one, hm1, hc1]
  simp only [Option.bind_some, Option.map_some]
  congr 1
  rw [List.zipWith_append (by omega)]
  have : pre.length = (pre.length - 1) + 1 := by omega
  rw [this, List.take_succ_cons]
  congr 1
  rw [List.take_left' (by simp [l1, l2])]

end RayOpt
