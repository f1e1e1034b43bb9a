import Verif.Model.Beam
import Verif.Props.GaussianModes
import Verif.Props.FirstOrderExamples

/-!
Property C91: the Gaussian beam of a `GaussianTrace` and the paraxial rays.
-/

namespace RayOpt

open Matrix Parax Sys Gauss

/-- Complex beam rays `Yw - i Yd`, `Uw - i Ud` give the moments of the beam. -/
theorem beam_moments {q : QM} {Yw Yd Uw Ud : M2} {c : ℝ}
    (h : q * (toC Yw - Complex.I • toC Yd) = toC Uw - Complex.I • toC Ud)
    (h1 : Yw * Ydᵀ = Yd * Ywᵀ) (h2 : Ud * Ywᵀ - Uw * Ydᵀ = c • 1) :
    q.map Complex.re * (Yw * Ywᵀ + Yd * Ydᵀ) = Uw * Ywᵀ + Ud * Ydᵀ ∧
    q.map Complex.im * (Yw * Ywᵀ + Yd * Ydᵀ) = -c • 1 := by
  have h3 : q * toC (Yw * Ywᵀ + Yd * Ydᵀ) = toC (Uw * Ywᵀ + Ud * Ydᵀ) - Complex.I • toC (c • 1) := by
    have h4 := congrArg (· * (toC Ywᵀ + Complex.I • toC Ydᵀ)) h
    simp only [Matrix.mul_assoc] at h4
    have e : ∀ a b d f : QM, (a - Complex.I • b) * (d + Complex.I • f)
        = (a * d + b * f) + Complex.I • (a * f - b * d) := by
      intro a b d f
      simp only [sub_mul, mul_add, smul_mul_assoc, mul_smul_comm, smul_smul, smul_sub, Complex.I_mul_I]
      simp only [neg_smul, one_smul]
      abel
    rw [e, e] at h4
    simp only [← toC_mul, ← toC_add, ← toC_sub, h1, sub_self] at h4
    rw [smul_zero, add_zero] at h4
    rw [h4, ← h2]
    have : toC (Uw * Ydᵀ - Ud * Ywᵀ) = -toC (Ud * Ywᵀ - Uw * Ydᵀ) := by
      ext i j; simp [toC]
    rw [this, smul_neg, ← sub_eq_add_neg]
  constructor
  · ext i j
    have := congrArg Complex.re (congrFun (congrFun h3 i) j)
    simpa [toC, Matrix.mul_apply, Fin.sum_univ_two] using this
  · ext i j
    have := congrArg Complex.im (congrFun (congrFun h3 i) j)
    rw [neg_smul]
    simpa [toC, Matrix.mul_apply, Fin.sum_univ_two, Matrix.one_apply] using this

/-- Specification: the matrix whose columns are the heights (or slopes) of two rays. -/
def columns (f : Fin 2 → PVec) (s : Fin 2 → Fin 2 ⊕ Fin 2) : M2 := Matrix.of fun i k => f k (s i)

/-- Specification: the ray from the edge of the waist `w`, along the axis, in direction `k`. -/
def waistRay (w : ℝ) (k : Fin 2) : PVec := Sum.elim (Pi.single k w) 0

/-- Specification: the ray from the middle of a waist, with the reduced distance `z` behind it, with the
slope `θ`. -/
def divergenceRay (θ z : ℝ) (k : Fin 2) : PVec := Sum.elim (Pi.single k (θ * z)) (Pi.single k θ)

theorem mulVec_pair (M : PM) (a b : ℝ) (k : Fin 2) (s : Fin 2 ⊕ Fin 2) :
    (M *ᵥ Sum.elim (Pi.single k a) (Pi.single k b)) s = M s (.inl k) * a + M s (.inr k) * b := by
  fin_cases k <;> simp [Matrix.mulVec, dotProduct, Fintype.sum_sum_type, Fin.sum_univ_two]

theorem beam_rays {M : PM} (hp : isProper M) {q : QM} {x : Fin 2 → ℂ} {w θ z : Fin 2 → ℝ} {c : ℝ}
    (h : gaussStep M (Matrix.diagonal x) = some q) (hc : ∀ k, w k * θ k = c)
    (hx : ∀ k, x k * (w k - Complex.I * (θ k * z k)) = -Complex.I * θ k) :
    let fw := fun k => M *ᵥ waistRay (w k) k
    let fd := fun k => M *ᵥ divergenceRay (θ k) (z k) k
    let Yw := columns fw .inl
    let Yd := columns fd .inl
    q.map Complex.re * (Yw * Ywᵀ + Yd * Ydᵀ) = columns fw .inr * Ywᵀ + columns fd .inr * Ydᵀ ∧
    q.map Complex.im * (Yw * Ywᵀ + Yd * Ydᵀ) = -c • 1 := by
  intro fw fd Yw Yd
  have e1 : ∀ s k, fw k s = M s (.inl k) * w k := by
    intro s k
    have : waistRay (w k) k = Sum.elim (Pi.single k (w k)) (Pi.single k 0) := by simp [waistRay]
    simp only [fw, this, mulVec_pair]; ring
  have e2 : ∀ s k, fd k s = M s (.inl k) * (θ k * z k) + M s (.inr k) * θ k := by
    intro s k
    simp only [fd, divergenceRay, mulVec_pair]
  obtain ⟨p1, p2, -⟩ := hp
  have p1' := fun i j => congrFun (congrFun p1 i) j
  have p2' := fun i j => congrFun (congrFun p2 i) j
  simp only [Matrix.sub_apply, Matrix.mul_apply, Fin.sum_univ_two, Matrix.transpose_apply, toBlocks₁₁,
    toBlocks₁₂, toBlocks₂₁, toBlocks₂₂, Matrix.of_apply, Matrix.one_apply] at p1' p2'
  have hc0 := hc 0
  have hc1 := hc 1
  refine beam_moments ?_ ?_ ?_
  · unfold gaussStep at h
    simp only at h
    split_ifs at h with hd
    simp only [Option.some.injEq] at h
    set X := toC M.toBlocks₁₁ + toC M.toBlocks₁₂ * Matrix.diagonal x with hX
    have hX1 : q * X = toC M.toBlocks₂₁ + toC M.toBlocks₂₂ * Matrix.diagonal x := by
      rw [← h, Matrix.mul_assoc, Matrix.nonsing_inv_mul _ (isUnit_iff_ne_zero.mpr hd), Matrix.mul_one]
    have hY : toC Yw - Complex.I • toC Yd
        = X * Matrix.diagonal fun k => (w k - Complex.I * (θ k * z k) : ℂ) := by
      ext i k
      rw [Matrix.mul_diagonal, hX]
      simp only [Matrix.add_apply, Matrix.mul_diagonal, Matrix.sub_apply, Matrix.smul_apply, toC,
        Matrix.map_apply, Yw, Yd, columns, Matrix.of_apply, e1, e2, toBlocks₁₁, toBlocks₁₂, smul_eq_mul]
      push_cast
      linear_combination -(M (.inl i) (.inr k) : ℂ) * hx k
    have hU : toC (columns fw .inr) - Complex.I • toC (columns fd .inr)
        = (toC M.toBlocks₂₁ + toC M.toBlocks₂₂ * Matrix.diagonal x)
          * Matrix.diagonal fun k => (w k - Complex.I * (θ k * z k) : ℂ) := by
      ext i k
      rw [Matrix.mul_diagonal]
      simp only [Matrix.add_apply, Matrix.mul_diagonal, Matrix.sub_apply, Matrix.smul_apply, toC,
        Matrix.map_apply, columns, Matrix.of_apply, e1, e2, toBlocks₂₁, toBlocks₂₂, smul_eq_mul]
      push_cast
      linear_combination -(M (.inr i) (.inr k) : ℂ) * hx k
    rw [hY, ← Matrix.mul_assoc, hX1, hU]
  · ext i j
    simp only [Yw, Yd, Matrix.mul_apply, Fin.sum_univ_two, Matrix.transpose_apply, columns, Matrix.of_apply, e1, e2]
    linear_combination c * p2' i j + (M (.inl i) (.inl 0) * M (.inl j) (.inr 0) - M (.inl i) (.inr 0) * M (.inl j) (.inl 0)) * hc0
      + (M (.inl i) (.inl 1) * M (.inl j) (.inr 1) - M (.inl i) (.inr 1) * M (.inl j) (.inl 1)) * hc1
  · ext i j
    simp only [Yw, Yd, Matrix.sub_apply, Matrix.mul_apply, Fin.sum_univ_two, Matrix.transpose_apply, columns, Matrix.of_apply, e1, e2,
      Matrix.smul_apply, smul_eq_mul, Matrix.one_apply]
    have := p1' j i
    simp only [eq_comm (a := j)] at this
    linear_combination c * this + (M (.inr i) (.inr 0) * M (.inl j) (.inl 0) - M (.inr i) (.inl 0) * M (.inl j) (.inr 0)) * hc0
      + (M (.inr i) (.inr 1) * M (.inl j) (.inl 1) - M (.inr i) (.inl 1) * M (.inl j) (.inr 1)) * hc1

theorem matrices_of_scan {l : ℝ} : ∀ {es : List Elem} {n : ℝ} {yu : PVec} {out : List (PVec × ℝ)},
    scanM (fun e (s : PVec × ℝ) => e.propagateParaxial s.1 s.2 l) es (yu, n) = some out →
    ∃ ms, matricesFrom l es n = some ms
  | [], _, _, _, _ => ⟨[], rfl⟩
  | e :: es, n, yu, out, h => by
    simp only [scanM, Elem.propagateParaxial, Option.bind_eq_some_iff, Option.map_eq_some_iff] at h
    obtain ⟨s, ⟨nm, hnm, rfl⟩, r, hr, -⟩ := h
    obtain ⟨ms, hms⟩ := matrices_of_scan (yu := nm.2 *ᵥ yu) (n := nm.1) (out := r) (by
      simp only [Elem.propagateParaxial]; exact hr)
    exact ⟨nm :: ms, by simp [matricesFrom, hnm, hms]⟩

theorem makeQi_diag {scale l n : ℝ} {w pos : Fin 2 → ℝ} {q0 : QM}
    (h : makeQi scale l n w pos 0 = some q0) : l ≠ 0 ∧ n ≠ 0 ∧
    (∀ k, ((pos k / n : ℝ) : ℂ) + Complex.I * ((Real.pi * w k ^ 2 * scale / l : ℝ) : ℂ) ≠ 0) ∧
    q0 = Matrix.diagonal fun k =>
      1 / (((pos k / n : ℝ) : ℂ) + Complex.I * ((Real.pi * w k ^ 2 * scale / l : ℝ) : ℂ)) := by
  unfold makeQi at h
  simp only at h
  split_ifs at h with hd
  push Not at hd
  obtain ⟨d1, d2, d3, d4⟩ := hd
  refine ⟨d1, d2, fun k => by fin_cases k <;> assumption, ?_⟩
  have e : toC !![Real.cos 0, -Real.sin 0; Real.sin 0, Real.cos 0] = 1 := by
    ext i j; fin_cases i <;> fin_cases j <;> simp [toC]
  simp only [e, transpose_one, Matrix.one_mul, Matrix.mul_one, Option.some.injEq] at h
  rw [← h]
  ext i j; fin_cases i <;> fin_cases j <;> simp

theorem astig_one : isSimpleAstigmatic 1 := by simp [isSimpleAstigmatic]

theorem astig_mul {M N : PM} (hM : isSimpleAstigmatic M) (hN : isSimpleAstigmatic N) :
    isSimpleAstigmatic (M * N) := by
  obtain ⟨a1, a2, a3, a4, a5, a6, a7, a8⟩ := hM
  obtain ⟨b1, b2, b3, b4, b5, b6, b7, b8⟩ := hN
  simp [isSimpleAstigmatic, Matrix.mul_apply, Fintype.sum_sum_type, Fin.sum_univ_two, *]

theorem stig_one : isStigmatic 1 := by simp [isStigmatic]

theorem stig_mul {M N : PM} (hM : isSimpleAstigmatic M) (hN : isSimpleAstigmatic N) (gM : isStigmatic M)
    (gN : isStigmatic N) : isStigmatic (M * N) := by
  obtain ⟨a1, a2, a3, a4, a5, a6, a7, a8⟩ := hM
  obtain ⟨b1, b2, b3, b4, b5, b6, b7, b8⟩ := hN
  obtain ⟨c1, c2, c3, c4⟩ := gM
  obtain ⟨d1, d2, d3, d4⟩ := gN
  simp [isStigmatic, Matrix.mul_apply, Fintype.sum_sum_type, Fin.sum_univ_two, *]

theorem astig_transfer (d n : ℝ) : isSimpleAstigmatic (transfer d n) ∧ isStigmatic (transfer d n) := by
  simp [isSimpleAstigmatic, isStigmatic, transfer]

theorem astig_surf {sh : Shape} {m : Option Material} {θ n0 n : ℝ} {M : PM}
    (h : Elem.surfMat sh m θ n0 n = some M) : isSimpleAstigmatic M ∧
      (Real.cos θ = 1 → 0 < n0 → 0 < n → isStigmatic M) := by
  unfold Elem.surfMat at h
  rw [Option.bind_eq_some_iff] at h
  obtain ⟨c, -, h⟩ := h
  cases m with
  | none =>
    simp only [Option.some.injEq] at h
    subst h
    exact ⟨astig_one, fun _ _ _ => stig_one⟩
  | some m =>
    simp only at h
    split_ifs at h with h1 h2 h3
    · simp only [Option.some.injEq] at h
      subst h
      refine ⟨by simp [isSimpleAstigmatic, mirrorMat], fun hc _ _ => ?_⟩
      rw [hc]
      simp [isStigmatic, mirrorMat]
    · simp only [Option.some.injEq] at h
      subst h
      refine ⟨by simp [isSimpleAstigmatic, refractMat], fun hc g0 g1 => ?_⟩
      rw [hc]
      have hmu : 0 < n / n0 := div_pos g1 g0
      have e : pRoot (n / n0) 1 = n / n0 := by
        unfold pRoot
        rw [show (n / n0) ^ 2 + 1 ^ 2 - 1 = (n / n0) ^ 2 by ring, Real.sqrt_sq hmu.le]
      unfold refractMat
      simp only [e]
      generalize n / n0 = mu at *
      have := hmu.ne'
      simp [isStigmatic]
      field_simp
      simp

theorem astig_rot {M : PM} (hM : isSimpleAstigmatic M) {φ : ℝ} (hφ : Real.sin (2 * φ) = 0) :
    isSimpleAstigmatic (rotMat φ * (M * (rotMat φ)ᵀ)) ∧
    (isStigmatic M → isStigmatic (rotMat φ * (M * (rotMat φ)ᵀ))) := by
  rw [Real.sin_two_mul] at hφ
  have hcs : Real.cos φ * Real.sin φ = 0 := by linarith
  have hsc : Real.sin φ * Real.cos φ = 0 := by linarith
  have h1 := Real.sin_sq_add_cos_sq φ
  obtain ⟨a1, a2, a3, a4, a5, a6, a7, a8⟩ := hM
  constructor
  · simp [isSimpleAstigmatic, Matrix.mul_apply, Fintype.sum_sum_type, Fin.sum_univ_two, rotMat, rotBlock, *]
    refine ⟨?_, ?_, ?_, ?_, ?_, ?_, ?_, ?_⟩
    all_goals
      first
      | linear_combination (M (.inl 0) (.inl 0) + M (.inl 1) (.inl 1)) * hcs
      | linear_combination (M (.inl 0) (.inr 0) + M (.inl 1) (.inr 1)) * hcs
      | linear_combination (M (.inr 0) (.inl 0) + M (.inr 1) (.inl 1)) * hcs
      | linear_combination (M (.inr 0) (.inr 0) + M (.inr 1) (.inr 1)) * hcs
  · rintro ⟨c1, c2, c3, c4⟩
    simp [isStigmatic, Matrix.mul_apply, Fintype.sum_sum_type, Fin.sum_univ_two, rotMat, rotBlock, *]
    refine ⟨?_, ?_, ?_, ?_⟩ <;> ring

theorem paraxialMatrix_astig {e : Elem} {n0 l : ℝ} {nm : ℝ × PM}
    (he : e.shape.isSome → Real.sin (2 * e.tf.angles.z) = 0) (h : e.paraxialMatrix n0 l = some nm) :
    isSimpleAstigmatic nm.2 ∧ ((e.shape.isSome → Real.cos e.tf.angles.x = 1) → 0 < n0 →
      0 < e.paraxN n0 l → isStigmatic nm.2) := by
  unfold Elem.paraxialMatrix at h
  split_ifs at h with h0
  cases hs : e.shape with
  | none =>
    simp only [hs, Option.some.injEq] at h
    subst h
    exact ⟨(astig_transfer _ _).1, fun _ _ _ => (astig_transfer _ _).2⟩
  | some sh =>
    simp only [hs, Option.map_eq_some_iff] at h
    obtain ⟨m, hm, rfl⟩ := h
    obtain ⟨g1, g2⟩ := astig_surf hm
    have g3 := astig_mul g1 (astig_transfer e.tf.distance n0).1
    obtain ⟨g4, g5⟩ := astig_rot g3 (he (by simp [hs]))
    refine ⟨g4, fun k1 k2 k3 => g5 (stig_mul g1 (astig_transfer _ _).1 (g2 (k1 (by simp)) k2 k3)
      (astig_transfer _ _).2)⟩

theorem matricesFrom_astig (l : ℝ) : ∀ (es : List Elem) (_ : NoRoll es) (n : ℝ) (ms : List (ℝ × PM))
    (_ : matricesFrom l es n = some ms), ∀ nm ∈ ms, isSimpleAstigmatic nm.2 ∧
      ((∀ e ∈ es, (e.shape.isSome → Real.cos e.tf.angles.x = 1) ∧ ∀ m, e.index? l = some m → 0 < m) →
        0 < n → isStigmatic nm.2)
  | [], _, _, _, h => by simp only [matricesFrom, Option.some.injEq] at h; subst h; simp
  | e :: es, hes, n, ms, h => by
    simp only [matricesFrom, Option.bind_eq_some_iff, Option.map_eq_some_iff] at h
    obtain ⟨nm, hnm, r, hr, rfl⟩ := h
    have hpos : (∀ m, e.index? l = some m → 0 < m) → 0 < n → 0 < e.paraxN n l := by
      intro h1 h2
      unfold Elem.paraxN
      cases hi : e.index? l with
      | none => simpa using h2
      | some m => simpa using h1 m hi
    have h1 : (∀ m, e.index? l = some m → 0 < m) → 0 < n → 0 < nm.1 := by
      intro h1 h2
      have := hpos h1 h2
      unfold Elem.paraxialMatrix at hnm
      split_ifs at hnm with h0
      cases hs : e.shape with
      | none => simp only [hs, Option.some.injEq] at hnm; subst hnm; exact h2
      | some sh =>
        simp only [hs, Option.map_eq_some_iff] at hnm
        obtain ⟨m, hm, rfl⟩ := hnm
        exact this
    intro x hx
    rcases List.mem_cons.mp hx with rfl | hx
    · obtain ⟨g1, g2⟩ := paraxialMatrix_astig (hes e (by simp)) hnm
      exact ⟨g1, fun k1 k2 => g2 (k1 e (by simp)).1 k2 (hpos (k1 e (by simp)).2 k2)⟩
    · obtain ⟨g1, g2⟩ := matricesFrom_astig l es (fun e he => hes e (by simp [he])) nm.1 r hr x hx
      exact ⟨g1, fun k1 k2 => g2 (fun e he => k1 e (by simp [he])) (h1 (k1 e (by simp)).2 k2)⟩

theorem accumulate_astig (ms : List (ℝ × PM)) (h : ∀ nm ∈ ms, isSimpleAstigmatic nm.2) :
    isSimpleAstigmatic (accumulate ms).2 ∧
    ((∀ nm ∈ ms, isStigmatic nm.2) → isStigmatic (accumulate ms).2) := by
  induction ms using List.reverseRecOn with
  | nil => exact ⟨astig_one, fun _ => stig_one⟩
  | append_singleton ms m ih =>
    rw [accumulate_append]
    have e : (accumulate [m]).2 = m.2 := by simp [accumulate]
    simp only [e]
    obtain ⟨i1, i2⟩ := ih fun nm hn => h nm (by simp [hn])
    exact ⟨astig_mul (h m (by simp)) i1, fun g =>
      stig_mul (h m (by simp)) i1 (g m (by simp)) (i2 fun nm hn => g nm (by simp [hn]))⟩

/-- C91: at every element the beam made of two waists is described by four paraxial rays, the rays from
the edges of the waists along the axis and the rays from their middle with slope `λ/(π w)`: the inverse
beam parameter `Q` times the sum `V` of the products `y yᵀ` of the heights is the sum of the products
`u yᵀ` of (reduced) slopes and heights minus `i λ/π`. -/
theorem c91_moments {sys : List Elem} {l scale : ℝ} (hs : 0 < scale) (hes : NoRoll sys) {w pos : Fin 2 → ℝ}
    (hw : ∀ k, w k ≠ 0) {n0 : ℝ} {q0 : QM} (hq0 : makeQi scale l n0 w pos 0 = some q0)
    {o : List (QM × ℝ)} (ho : propagateGaussian sys q0 n0 l 1 none = some o)
    {ow od : Fin 2 → List (PVec × ℝ)}
    (how : ∀ k, propagateParaxial sys (waistRay (w k) k) n0 l 1 none = some (ow k))
    (hod : ∀ k, propagateParaxial sys (divergenceRay (l / (Real.pi * scale * w k)) (pos k / n0) k) n0 l 1 none
      = some (od k)) {j : ℕ} {x : QM × ℝ} (hx : o[j]? = some x) {fw fd : Fin 2 → PVec × ℝ}
    (hfw : ∀ k, (ow k)[j]? = some (fw k)) (hfd : ∀ k, (od k)[j]? = some (fd k)) :
    let Yw := columns (fun k => (fw k).1) .inl
    let Yd := columns (fun k => (fd k).1) .inl
    let Uw := columns (fun k => (fw k).1) .inr
    let Ud := columns (fun k => (fd k).1) .inr
    x.1.map Complex.re * (Yw * Ywᵀ + Yd * Ydᵀ) = Uw * Ywᵀ + Ud * Ydᵀ ∧
    x.1.map Complex.im * (Yw * Ywᵀ + Yd * Ydᵀ) = -(l / (Real.pi * scale)) • 1 := by
  obtain ⟨hl, hn, hne, rfl⟩ := makeQi_diag hq0
  have hpi := Real.pi_ne_zero
  unfold propagateGaussian at ho
  unfold propagateParaxial at how hod
  obtain ⟨ms, hms⟩ := matrices_of_scan (how 0)
  obtain ⟨-, hlen, h3⟩ := gaussian_run l _ _ ms hms _ o ho
  obtain ⟨h4, -⟩ := h3 j x hx
  have hsym : (accumulate (ms.take (j + 1))).2 ∈ symplecticGroup (Fin 2) ℝ :=
    accumulate_symplectic _ fun m hm => matricesFrom_symplectic l _
      (fun e he => hes e (List.mem_of_mem_take (List.mem_of_mem_drop he))) _ ms hms m (List.mem_of_mem_take hm)
  have hprop : isProper (accumulate (ms.take (j + 1))).2 := by
    have hT := SymplecticGroup.transpose_mem hsym
    rw [← fromBlocks_toBlocks (accumulate (ms.take (j + 1))).2, fromBlocks_transpose,
      SymplecticGroup.fromBlocks_mem_iff] at hT
    obtain ⟨h1, h2, h3⟩ := hT
    simp only [transpose_transpose] at h1 h2 h3
    exact ⟨h3, h1, h2⟩
  have hray : ∀ (yu : PVec) (out : List (PVec × ℝ)) (f : PVec × ℝ),
      scanM (fun e (s : PVec × ℝ) => e.propagateParaxial s.1 s.2 l) (pySlice sys 1 none) (yu, n0) = some out →
      out[j]? = some f → f.1 = (accumulate (ms.take (j + 1))).2 *ᵥ yu := by
    intro yu out f hout hf
    obtain ⟨out', ho', -, hg⟩ := matrices_action l _ n0 ms hms yu
    obtain rfl : out = out' := Option.some.inj (hout.symm.trans ho')
    rw [hg j, Option.map_eq_some_iff] at hf
    obtain ⟨nm, -, rfl⟩ := hf
    rfl
  have e1 : ∀ k, (fw k).1 = _ := fun k => hray _ _ _ (how k) (hfw k)
  have e2 : ∀ k, (fd k).1 = _ := fun k => hray _ _ _ (hod k) (hfd k)
  simp only [e1, e2]
  refine beam_rays hprop h4 (fun k => ?_) fun k => ?_
  · have := hw k
    field_simp
  · have h5 := hne k
    have h6 : (w k : ℂ) ≠ 0 := by exact_mod_cast hw k
    have hl' : (l : ℂ) ≠ 0 := by exact_mod_cast hl
    have hs' : (scale : ℂ) ≠ 0 := by exact_mod_cast hs.ne'
    have hpi' : (Real.pi : ℂ) ≠ 0 := by exact_mod_cast hpi
    rw [div_mul_eq_mul_div, div_eq_iff h5]
    push_cast
    have hn' : (n0 : ℂ) ≠ 0 := by exact_mod_cast hn
    field_simp
    linear_combination ((n0 : ℂ) * Real.pi * scale * w k ^ 2) * Complex.I_sq

/-- A paraxial ray in the plane of one axis stays there. -/
theorem stays {sys : List Elem} {l : ℝ} (hes : NoRoll sys) {n0 : ℝ} {yu : PVec} {out : List (PVec × ℝ)}
    (h : propagateParaxial sys yu n0 l 1 none = some out) {j : ℕ} {f : PVec × ℝ} (hf : out[j]? = some f)
    {i : Fin 2} (hi : yu (.inl i) = 0 ∧ yu (.inr i) = 0) : f.1 (.inl i) = 0 ∧ f.1 (.inr i) = 0 := by
  unfold propagateParaxial at h
  obtain ⟨ms, hms⟩ := matrices_of_scan h
  obtain ⟨out', ho', -, hg⟩ := matrices_action l _ n0 ms hms yu
  obtain rfl : out = out' := Option.some.inj (h.symm.trans ho')
  rw [hg j, Option.map_eq_some_iff] at hf
  obtain ⟨nm, -, rfl⟩ := hf
  obtain ⟨⟨a1, a2, a3, a4, a5, a6, a7, a8⟩, -⟩ := accumulate_astig (ms.take (j + 1)) fun m hm =>
    (matricesFrom_astig l _ (fun e he => hes e (List.mem_of_mem_take (List.mem_of_mem_drop he))) _ ms hms m
      (List.mem_of_mem_take hm)).1
  fin_cases i <;> simp [Matrix.mulVec, dotProduct, Fintype.sum_sum_type, Fin.sum_univ_two, *] <;> simp_all

/-- C91: the spot radius in direction `k` is the root of the sum of the squares of the heights of the two
rays in that direction, and the curvature of the wavefront is the mean of their slopes over heights,
weighted with the squares of the heights. -/
theorem c91_spot {sys : List Elem} {l scale : ℝ} (hl : 0 < l) (hs : 0 < scale) (hes : NoRoll sys)
    {w pos : Fin 2 → ℝ} (hw : ∀ k, w k ≠ 0) {n0 : ℝ} {q0 : QM} (hq0 : makeQi scale l n0 w pos 0 = some q0)
    {o : List (QM × ℝ)} (ho : propagateGaussian sys q0 n0 l 1 none = some o)
    {ow od : Fin 2 → List (PVec × ℝ)}
    (how : ∀ k, propagateParaxial sys (waistRay (w k) k) n0 l 1 none = some (ow k))
    (hod : ∀ k, propagateParaxial sys (divergenceRay (l / (Real.pi * scale * w k)) (pos k / n0) k) n0 l 1 none
      = some (od k)) {j : ℕ} {x : QM × ℝ} (hx : o[j]? = some x) {fw fd : Fin 2 → PVec × ℝ}
    (hfw : ∀ k, (ow k)[j]? = some (fw k)) (hfd : ∀ k, (od k)[j]? = some (fd k))
    (k : Fin 2) :
    let yw := (fw k).1 (.inl k)
    let yd := (fd k).1 (.inl k)
    let S := yw * (fw k).1 (.inr k) + yd * (fd k).1 (.inr k)
    spotRadius x.1 scale l k = some √(yw ^ 2 + yd ^ 2) ∧
    curvatureRadius x.1 x.2 k = if S = 0 then none else some (x.2 * (yw ^ 2 + yd ^ 2) / S) := by
  obtain ⟨h1, h2⟩ := c91_moments hs hes hw hq0 ho how hod hx hfw hfd
  have hpi := Real.pi_pos
  have hstay : ∀ i k, i ≠ k → (fw k).1 (.inl i) = 0 ∧ (fd k).1 (.inl i) = 0 := fun i k hik =>
    ⟨(stays hes (how k) (hfw k) (by simp [waistRay, hik])).1,
     (stays hes (hod k) (hfd k) (by simp [divergenceRay, hik])).1⟩
  have a1 := congrFun (congrFun h1 k) k
  have a2 := congrFun (congrFun h2 k) k
  have key : ∀ f : M2, ∀ i, (f * (columns (fun k => (fw k).1) .inl * (columns (fun k => (fw k).1) .inl)ᵀ
      + columns (fun k => (fd k).1) .inl * (columns (fun k => (fd k).1) .inl)ᵀ)) i k
      = f i k * ((fw k).1 (.inl k) ^ 2 + (fd k).1 (.inl k) ^ 2) := by
    intro f i
    have s1 := hstay 0 1 (by decide)
    have s2 := hstay 1 0 (by decide)
    fin_cases k <;> simp [Matrix.mul_apply, Fin.sum_univ_two, columns, s1.1, s1.2, s2.1, s2.2, pow_two]
  rw [key] at a1 a2
  have a3 : (columns (fun k => (fw k).1) .inr * (columns (fun k => (fw k).1) .inl)ᵀ
      + columns (fun k => (fd k).1) .inr * (columns (fun k => (fd k).1) .inl)ᵀ) k k
      = (fw k).1 (.inl k) * (fw k).1 (.inr k) + (fd k).1 (.inl k) * (fd k).1 (.inr k) := by
    have s1 := hstay 0 1 (by decide)
    have s2 := hstay 1 0 (by decide)
    fin_cases k <;> simp [Matrix.mul_apply, Fin.sum_univ_two, columns, s1.1, s1.2, s2.1, s2.2, mul_comm]
  rw [a3] at a1
  simp only [Matrix.map_apply, Matrix.smul_apply, Matrix.one_apply_eq, smul_eq_mul, mul_one] at a1 a2
  intro yw yd S
  set V := yw ^ 2 + yd ^ 2 with hV
  have hc : 0 < l / (Real.pi * scale) := by positivity
  have hV0 : 0 < V := by
    have : V ≠ 0 := by
      intro h0
      rw [h0, mul_zero] at a2
      linarith
    exact lt_of_le_of_ne (by positivity) (Ne.symm this)
  constructor
  · unfold spotRadius
    have e : -(x.1 k k).im = l / (Real.pi * scale) / V := by
      rw [eq_div_iff hV0.ne']; linarith
    simp only [e]
    have e3 : l / (scale * Real.pi) / (l / (Real.pi * scale) / V) = V := by
      have := hV0.ne'
      field_simp
    rw [if_neg, e3]
    rw [e3]
    push Not
    exact ⟨by positivity, hV0.le⟩
  · unfold curvatureRadius
    have e : (x.1 k k).re = S / V := by rw [eq_div_iff hV0.ne']; exact a1
    simp only [e]
    by_cases hS : S = 0
    · rw [if_pos hS, if_pos (by rw [hS, zero_div])]
    · rw [if_neg hS, if_neg (div_ne_zero hS hV0.ne')]
      congr 1
      have := hV0.ne'
      field_simp

/-- C91: a `GaussianTrace` starts with a round beam: of a finite object the waist is at the object and has
its radius, of an object at infinity it is at the entrance pupil and has its radius. -/
theorem c91_default {c : Conj} {scale l n r : ℝ} (hs : 0 < scale) (hl : 0 < l) (hn : 0 < n) (hr : 0 < r)
    (hc : if c.finite then c.size = r else c.pupil.radius = some r) :
    ∃ q, startQi c scale l n = some q ∧ PhysicalBeam q ∧ ∀ k,
      waistRadius q n scale l k = some r ∧
      waistPosition q n k = if c.finite then 0 else c.pupil.distance := by
  unfold startQi
  cases hf : c.finite
  · simp only [hf, Bool.false_eq_true, if_false] at hc ⊢
    rw [hc, Option.bind_some]
    obtain ⟨q, h1, h2⟩ := c43_make scale l n (fun _ => r) (fun _ => -c.pupil.distance) 0 hs hl hn.ne'
      fun _ => hr.ne'
    refine ⟨q, h1, h2, fun k => ?_⟩
    obtain ⟨⟨q', h3, h4, h5⟩, -⟩ := c43_spot scale l n r (-c.pupil.distance) hs hl hn hr k
    obtain rfl : q = q' := Option.some.inj (h1.symm.trans h3)
    exact ⟨h4, by rw [h5, neg_neg]⟩
  · simp only [hf, if_true] at hc ⊢
    rw [hc]
    obtain ⟨q, h1, h2⟩ := c43_make scale l n (fun _ => r) (fun _ => 0) 0 hs hl hn.ne' fun _ => hr.ne'
    refine ⟨q, h1, h2, fun k => ?_⟩
    obtain ⟨⟨q', h3, h4, h5⟩, -⟩ := c43_spot scale l n r 0 hs hl hn hr k
    obtain rfl : q = q' := Option.some.inj (h1.symm.trans h3)
    exact ⟨h4, by rw [h5, neg_zero]⟩

/-- C91: every beam of a trace is confined. -/
theorem c91_confined {q : QM} (hq : PhysicalBeam q) {n : ℝ} (hn : 0 < n) (k : Fin 2) : confined q n k := by
  have h := hq.2 (Pi.single k 1) (by simp)
  have h1 : (q k k).im < 0 := by
    fin_cases k <;> simpa [Matrix.mulVec, dotProduct, Fin.sum_univ_two] using h
  have h0 : 0 < Complex.normSq (q k k) := Complex.normSq_pos.mpr fun h => by rw [h] at h1; simp at h1
  unfold confined rayleighRange
  rw [one_div, Complex.inv_im]
  exact mul_pos (div_pos (by linarith) h0) hn

/-- C91: a beam with a curved wavefront is diverging exactly if its waist lies before the element; a plane
wavefront is at its waist. -/
theorem c91_diverging {q : QM} {n : ℝ} (hn : 0 < n) (k : Fin 2) :
    ((q k k).re ≠ 0 → (diverging q n k ↔ waistPosition q n k < 0)) ∧
    ((q k k).re = 0 → diverging q n k ∧ waistPosition q n k = 0) := by
  have e : waistPosition q n k = -((q k k).re / Complex.normSq (q k k) * n) := by
    unfold waistPosition
    rw [one_div, Complex.inv_re]
    ring
  constructor
  · intro h0
    have hq : 0 < Complex.normSq (q k k) := Complex.normSq_pos.mpr fun h => h0 (by rw [h]; rfl)
    unfold diverging curvatureRadius
    rw [if_neg h0, e]
    simp only
    rw [neg_lt_zero, mul_pos_iff_of_pos_right hn, div_pos_iff_of_pos_left hn, div_pos_iff_of_pos_right hq]
  · intro h0
    unfold diverging curvatureRadius
    rw [if_pos h0, e, h0]
    simp

/-- C91: a system whose matrix is stigmatic and simple astigmatic keeps round beams round. -/
theorem c91_stigmatic {M : PM} (h1 : isStigmatic M) (h2 : isSimpleAstigmatic M) {s : ℂ} {q : QM}
    (h : gaussStep M (s • 1) = some q) : ∃ s' : ℂ, q = s' • 1 := by
  have e : (s • 1 : QM) = !![s, 0; 0, s] := by
    ext i j; fin_cases i <;> fin_cases j <;> simp
  have h3 := gaussStep_astig h2 fun _ => s
  rw [e, h3] at h
  simp only at h
  split_ifs at h
  simp only [Option.some.injEq] at h
  obtain ⟨g1, g2, g3, g4⟩ := h1
  refine ⟨((M (.inr 1) (.inl 1) : ℂ) + M (.inr 1) (.inr 1) * s) / (M (.inl 1) (.inl 1) + M (.inl 1) (.inr 1) * s), ?_⟩
  rw [← h, g1, g2, g3, g4]
  ext i j; fin_cases i <;> fin_cases j <;> simp

/-- C91: the trace of a system without rolled surfaces has a physical beam at every element, confined
where the index is positive; if no surface is tilted either and all indices are positive, the beam stays
round. -/
theorem c91_trace {sys : List Elem} {c : Conj} {scale l r : ℝ} (hes : NoRoll sys) (hne : sys ≠ [])
    (hms : ∃ ms, paraxialMatrices sys l 1 none = some ms) (hs : 0 < scale) (hl : 0 < l)
    (hn : 0 < refractiveIndex sys l 0) (hr : 0 < r) (hc : if c.finite then c.size = r else c.pupil.radius = some r) :
    ∃ rows, Gauss.trace sys c scale l = some rows ∧ rows.length = sys.length ∧
      (∀ x ∈ rows, PhysicalBeam x.1 ∧ (0 < x.2 → ∀ k, confined x.1 x.2 k)) ∧
      ((∀ e ∈ sys, (e.shape.isSome → Real.cos e.tf.angles.x = 1) ∧ ∀ m, e.index? l = some m → 0 < m) →
        ∀ x ∈ rows, ∃ s : ℂ, x.1 = s • 1) := by
  obtain ⟨ms, hms⟩ := hms
  obtain ⟨q, hq, hphys, -⟩ := c91_default hs hl hn hr hc
  obtain ⟨o, ho, hlen, hall⟩ := c43_physical_system sys l 1 none hes ms hms q hphys
  have h0 : (((1 : ℕ) : ℤ) - 1) = 0 := by norm_num
  rw [h0] at ho
  refine ⟨(q, refractiveIndex sys l 0) :: o, ?_, ?_, ?_, ?_⟩
  · unfold Gauss.trace
    simp only [hq, Option.bind_some]
    rw [show (1 : ℤ) = ((1 : ℕ) : ℤ) by rfl, ho]
    rfl
  · have h1 : o.length = (pySlice sys 1 none).length := by
      unfold propagateGaussian at ho
      exact scanM_length _ _ _ _ ho
    rw [pySlice_one, List.length_tail] at h1
    have := List.length_pos_iff.mpr hne
    rw [List.length_cons, h1]
    omega
  · intro x hx
    have hp : PhysicalBeam x.1 := by
      rcases List.mem_cons.mp hx with rfl | hx
      · exact hphys
      · exact hall x hx
    exact ⟨hp, fun h k => c91_confined hp h k⟩
  · intro hsys x hx
    have hround : ∃ s : ℂ, q = s • 1 := by
      unfold startQi at hq
      have key : ∀ w z : ℝ, makeQi scale l (refractiveIndex sys l 0) (fun _ => w) (fun _ => z) 0 = some q →
          ∃ s : ℂ, q = s • 1 := by
        intro w z h
        obtain ⟨-, -, -, rfl⟩ := makeQi_diag h
        exact ⟨_, (Matrix.smul_one_eq_diagonal _).symm⟩
      split_ifs at hq
      · exact key _ _ hq
      · rw [Option.bind_eq_some_iff] at hq
        obtain ⟨w, -, hq⟩ := hq
        exact key _ _ hq
    obtain ⟨s, rfl⟩ := hround
    rcases List.mem_cons.mp hx with rfl | hx
    · exact ⟨s, rfl⟩
    · obtain ⟨j, hj⟩ := List.mem_iff_getElem?.mp hx
      unfold propagateGaussian at ho
      unfold paraxialMatrices at hms
      rw [sub_self] at hms
      obtain ⟨-, -, h3⟩ := gaussian_run l _ _ ms hms _ o ho
      obtain ⟨h4, -⟩ := h3 j x hj
      have hm := matricesFrom_astig l _ (fun e he => hes e (List.mem_of_mem_take (List.mem_of_mem_drop he))) _
        ms hms
      obtain ⟨g1, g2⟩ := accumulate_astig (ms.take (j + 1)) fun m h => (hm m (List.mem_of_mem_take h)).1
      exact c91_stigmatic (g2 fun m h => (hm m (List.mem_of_mem_take h)).2
        (fun e he => hsys e (List.mem_of_mem_take (List.mem_of_mem_drop he))) hn) g1 h4

/-- C91, violated without the second check: `is_stigmatic` accepts the matrix of a cylinder lens at 45°,
which makes a round beam astigmatic. -/
theorem c91_stigmatic_violation : ∃ M : PM, isProper M ∧ isStigmatic M ∧ ∃ q,
    gaussStep M ((-Complex.I) • 1) = some q ∧ PhysicalBeam q ∧ ¬ ∃ s' : ℂ, q = s' • 1 := by
  refine ⟨fromBlocks 1 0 !![0, 1; 1, 0] 1, ?_, ?_, !![-Complex.I, 1; 1, -Complex.I], ?_, ?_, ?_⟩
  · unfold isProper
    simp only [toBlocks_fromBlocks₁₁, toBlocks_fromBlocks₁₂, toBlocks_fromBlocks₂₁, toBlocks_fromBlocks₂₂]
    refine ⟨by simp, by simp, ?_⟩
    ext i j; fin_cases i <;> fin_cases j <;> simp
  · simp [isStigmatic]
  · have e1 : toC (1 : M2) = 1 := by ext i j; fin_cases i <;> fin_cases j <;> simp [toC]
    have e0 : toC (0 : M2) = 0 := by ext i j; simp [toC]
    unfold gaussStep
    simp only [toBlocks_fromBlocks₁₁, toBlocks_fromBlocks₁₂, toBlocks_fromBlocks₂₁, toBlocks_fromBlocks₂₂, e1, e0,
      Matrix.zero_mul, add_zero, Matrix.det_one, one_ne_zero, if_false, inv_one, Matrix.mul_one, Matrix.one_mul]
    congr 1
    ext i j; fin_cases i <;> fin_cases j <;> simp [toC]
  · refine ⟨by ext i j; fin_cases i <;> fin_cases j <;> rfl, fun v hv => ?_⟩
    have : v 0 ≠ 0 ∨ v 1 ≠ 0 := by
      by_contra hc
      push Not at hc
      exact hv (by ext i; fin_cases i <;> simp [hc.1, hc.2])
    simp [Matrix.mulVec, dotProduct, Fin.sum_univ_two]
    rcases this with h | h
    · nlinarith [mul_self_pos.mpr h, mul_self_nonneg (v 1)]
    · nlinarith [mul_self_pos.mpr h, mul_self_nonneg (v 0)]
  · rintro ⟨s', h⟩
    have := congrFun (congrFun h 0) 1
    simp at this

/-- The hypotheses of `c91_default` and `c91_trace` are met by a lens and a finite object of radius one. -/
example (l : ℝ) : NoRoll lensSystem ∧ lensSystem ≠ [] ∧
    (∃ ms, paraxialMatrices lensSystem l 1 none = some ms) ∧ 0 < refractiveIndex lensSystem l 0 ∧
    ∀ e ∈ lensSystem, (e.shape.isSome → Real.cos e.tf.angles.x = 1) ∧ ∀ m, e.index? l = some m → 0 < m := by
  refine ⟨lens_noRoll, by simp [lensSystem], (lensSystem_matrices l).imp fun _ h => h.1, ?_, ?_⟩
  · rw [lens_index]; exact one_pos
  · have hang : ∀ d, (Transform.init d V3.ez 0 none).angles = 0 := fun d =>
      Transform.update_angles _ _ _
    intro e he
    simp only [lensSystem, List.mem_cons, List.not_mem_nil, or_false] at he
    rcases he with rfl | rfl | rfl | rfl <;>
      simp [hang, Elem.index?, Elem.mat, vacuum, glass]

/-- The hypotheses of `c91_moments` and `c91_spot` are met by a lens and the beam of radius one at the
object, at all of its three elements. -/
example (l : ℝ) (hl : 0 < l) {j : ℕ} (hj : j < 3) : ∃ q0 o, makeQi 1 l 1 (fun _ => 1) (fun _ => 0) 0 = some q0 ∧
    propagateGaussian lensSystem q0 1 l 1 none = some o ∧ (∃ x, o[j]? = some x) ∧
    ∃ ow od : Fin 2 → List (PVec × ℝ),
      (∀ k, propagateParaxial lensSystem (waistRay 1 k) 1 l 1 none = some (ow k)) ∧
      (∀ k, propagateParaxial lensSystem (divergenceRay (l / (Real.pi * 1 * 1)) (0 / 1) k) 1 l 1 none = some (od k)) ∧
      ∀ k, (∃ f, (ow k)[j]? = some f) ∧ ∃ f, (od k)[j]? = some f := by
  obtain ⟨ms, hms, h3⟩ := lensSystem_matrices l
  obtain ⟨q, h1, h2⟩ := c43_make 1 l 1 (fun _ => 1) (fun _ => 0) 0 one_pos hl one_ne_zero fun _ => one_ne_zero
  obtain ⟨o, ho, hlen, -⟩ := c43_physical_system lensSystem l 1 none lens_noRoll ms hms q h2
  have h0 : (((1 : ℕ) : ℤ) - 1) = 0 := by norm_num
  rw [h0, lens_index] at ho
  unfold paraxialMatrices at hms
  rw [sub_self, lens_index] at hms
  have hray : ∀ yu : PVec, ∃ out, propagateParaxial lensSystem yu 1 l 1 none = some out ∧ out.length = 3 := by
    intro yu
    obtain ⟨out, g1, g2, -⟩ := matrices_action l _ 1 ms hms yu
    exact ⟨out, g1, by rw [g2, h3]⟩
  choose f hf hf' using hray
  refine ⟨q, o, h1, ho, ⟨o[j]'(by omega), List.getElem?_eq_getElem _⟩, fun k => f _, fun k => f _,
    fun k => hf _, fun k => hf _, fun k => ⟨⟨(f _)[j]'(by rw [hf']; exact hj), List.getElem?_eq_getElem _⟩,
      ⟨(f _)[j]'(by rw [hf']; exact hj), List.getElem?_eq_getElem _⟩⟩⟩

/-- The hypotheses of `c91_stigmatic` are met by a propagation, and those of `c91_confined` by a beam with
its waist here. -/
example : isStigmatic (transfer 3 1) ∧ isSimpleAstigmatic (transfer 3 1) ∧
    ∃ q, gaussStep (transfer 3 1) ((-Complex.I) • 1) = some q := by
  refine ⟨(astig_transfer 3 1).2, (astig_transfer 3 1).1, ?_⟩
  have hp : PhysicalBeam ((-Complex.I) • 1) := by
    refine ⟨by simp, fun v hv => ?_⟩
    have : v 0 ≠ 0 ∨ v 1 ≠ 0 := by
      by_contra hc
      push Not at hc
      exact hv (by ext i; fin_cases i <;> simp [hc.1, hc.2])
    simp [Matrix.mulVec, dotProduct, Fin.sum_univ_two, Matrix.one_apply]
    rcases this with h | h
    · nlinarith [mul_self_pos.mpr h, mul_self_nonneg (v 1)]
    · nlinarith [mul_self_pos.mpr h, mul_self_nonneg (v 0)]
  obtain ⟨q, hq, -⟩ := c43_physical (transfer_symplectic 3 1) hp
  exact ⟨q, hq⟩

/-- Both cases of `c91_diverging` occur. -/
example : (((1 : ℂ) • (1 : QM)) 0 0).re ≠ 0 ∧ ((Complex.I • (1 : QM)) 0 0).re = 0 := by simp

end RayOpt
