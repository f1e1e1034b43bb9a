import Verif.Model.Gaussian
import Verif.Props.Paraxial
import Mathlib.LinearAlgebra.Matrix.ToLinearEquiv

/-!
Properties C43, C61-C63: Gaussian beams.
-/

namespace RayOpt

open Matrix Parax Sys V3 Gauss

/-! ## Specification -/

/-- A physical Gaussian beam: the inverse complex beam parameter is symmetric and its imaginary part
is negative definite (finite spot sizes in every direction). -/
def PhysicalBeam (q : QM) : Prop :=
  qᵀ = q ∧ ∀ v : Fin 2 → ℝ, v ≠ 0 → v ⬝ᵥ ((q.map Complex.im) *ᵥ v) < 0

/-! ## Helpers -/

theorem toC_mul (a b : M2) : toC (a * b) = toC a * toC b := by
  ext i j; simp [toC, Matrix.mul_apply]

theorem toC_add (a b : M2) : toC (a + b) = toC a + toC b := by
  ext i j; simp [toC]

theorem toC_sub (a b : M2) : toC (a - b) = toC a - toC b := by
  ext i j; simp [toC]

theorem toC_one : toC 1 = 1 := by
  ext i j; simp [toC, Matrix.one_apply]; split <;> simp

theorem toC_transpose (a : M2) : toC aᵀ = (toC a)ᵀ := rfl

theorem toC_conj (a : M2) : (toC a)ᴴ = (toC a)ᵀ := by
  ext i j; simp [toC]

theorem toBlocks_mul (M N : PM) :
    (M * N).toBlocks₁₁ = M.toBlocks₁₁ * N.toBlocks₁₁ + M.toBlocks₁₂ * N.toBlocks₂₁ ∧
    (M * N).toBlocks₁₂ = M.toBlocks₁₁ * N.toBlocks₁₂ + M.toBlocks₁₂ * N.toBlocks₂₂ ∧
    (M * N).toBlocks₂₁ = M.toBlocks₂₁ * N.toBlocks₁₁ + M.toBlocks₂₂ * N.toBlocks₂₁ ∧
    (M * N).toBlocks₂₂ = M.toBlocks₂₁ * N.toBlocks₁₂ + M.toBlocks₂₂ * N.toBlocks₂₂ := by
  refine ⟨?_, ?_, ?_, ?_⟩ <;> ext i j <;>
    simp [toBlocks₁₁, toBlocks₁₂, toBlocks₂₁, toBlocks₂₂, Matrix.mul_apply, Fintype.sum_sum_type]

theorem gaussStep_mul (M N : PM) (q q' : QM) (h : gaussStep N q = some q') :
    gaussStep (M * N) q = gaussStep M q' := by
  unfold gaussStep at h
  simp only at h
  split_ifs at h with hd
  obtain ⟨b11, b12, b21, b22⟩ := toBlocks_mul M N
  simp only [Option.some.injEq] at h
  subst h
  unfold gaussStep
  simp only [b11, b12, b21, b22, toC_add, toC_mul]
  generalize toC M.toBlocks₁₁ = a2
  generalize toC M.toBlocks₁₂ = b2
  generalize toC M.toBlocks₂₁ = c2
  generalize toC M.toBlocks₂₂ = d2
  generalize toC N.toBlocks₁₁ = a1 at *
  generalize toC N.toBlocks₁₂ = b1 at *
  generalize toC N.toBlocks₂₁ = c1 at *
  generalize toC N.toBlocks₂₂ = d1 at *
  have hX : (a1 + b1 * q) * (a1 + b1 * q)⁻¹ = 1 :=
    Matrix.mul_nonsing_inv _ (isUnit_iff_ne_zero.mpr hd)
  have e1 : a2 * a1 + b2 * c1 + (a2 * b1 + b2 * d1) * q
      = (a2 + b2 * ((c1 + d1 * q) * (a1 + b1 * q)⁻¹)) * (a1 + b1 * q) := by
    have : (a1 + b1 * q)⁻¹ * (a1 + b1 * q) = 1 := mul_eq_one_comm.mp hX
    simp only [add_mul, mul_add, Matrix.mul_assoc] at this ⊢
    rw [show (a1 + b1 * q)⁻¹ * a1 = 1 - (a1 + b1 * q)⁻¹ * (b1 * q) from by
      rw [← this]; abel]
    simp only [Matrix.mul_sub, Matrix.mul_one]
    abel
  have e2 : c2 * a1 + d2 * c1 + (c2 * b1 + d2 * d1) * q
      = (c2 + d2 * ((c1 + d1 * q) * (a1 + b1 * q)⁻¹)) * (a1 + b1 * q) := by
    have : (a1 + b1 * q)⁻¹ * (a1 + b1 * q) = 1 := mul_eq_one_comm.mp hX
    simp only [add_mul, mul_add, Matrix.mul_assoc] at this ⊢
    rw [show (a1 + b1 * q)⁻¹ * a1 = 1 - (a1 + b1 * q)⁻¹ * (b1 * q) from by
      rw [← this]; abel]
    simp only [Matrix.mul_sub, Matrix.mul_one]
    abel
  rw [e1, e2, det_mul]
  by_cases h0 : (a2 + b2 * ((c1 + d1 * q) * (a1 + b1 * q)⁻¹)).det = 0
  · rw [if_pos (by rw [h0, zero_mul]), if_pos h0]
  · rw [if_neg (mul_ne_zero h0 hd), if_neg h0]
    congr 1
    rw [Matrix.mul_inv_rev, Matrix.mul_assoc, ← Matrix.mul_assoc (a1 + b1 * q), hX,
      Matrix.one_mul]

theorem gaussStep_one (q : QM) : gaussStep 1 q = some q := by
  unfold gaussStep
  have h11 : (1 : PM).toBlocks₁₁ = 1 := by ext i j; simp [toBlocks₁₁, Matrix.one_apply]
  have h12 : (1 : PM).toBlocks₁₂ = 0 := by ext i j; simp [toBlocks₁₂]
  have h21 : (1 : PM).toBlocks₂₁ = 0 := by ext i j; simp [toBlocks₂₁]
  have h22 : (1 : PM).toBlocks₂₂ = 1 := by ext i j; simp [toBlocks₂₂, Matrix.one_apply]
  have h0 : toC 0 = 0 := by ext i j; simp [toC]
  simp [h11, h12, h21, h22, toC_one, h0]

/-! ## C43: composition -/

theorem gaussian_run (l : ℝ) (es : List Elem) (n : ℝ) (ms : List (ℝ × PM))
    (hms : matricesFrom l es n = some ms) (q : QM) (o : List (QM × ℝ))
    (ho : scanM (fun e (s : QM × ℝ) => e.propagateGaussian s.1 s.2 l) es (q, n) = some o) :
    gaussStep (accumulate ms).2 q = some (o.getLast?.getD (q, n)).1 ∧
      o.length = ms.length ∧ ∀ (j : ℕ) (x : QM × ℝ), o[j]? = some x →
        gaussStep (accumulate (ms.take (j + 1))).2 q = some x.1 ∧
        (ms[j]?).map Prod.fst = some x.2 := by
  induction es generalizing n ms q o with
  | nil =>
    simp [matricesFrom] at hms; simp [scanM] at ho
    subst hms ho
    refine ⟨?_, rfl, ?_⟩
    · simp [accumulate, gaussStep_one]
    · intro j x hx; simp at hx
  | cons e es ih =>
    simp only [matricesFrom, Option.bind_eq_some_iff, Option.map_eq_some_iff] at hms
    obtain ⟨nm, hnm, r, hr, rfl⟩ := hms
    simp only [scanM, Option.bind_eq_some_iff, Option.map_eq_some_iff,
      Elem.propagateGaussian] at ho
    obtain ⟨s, ⟨nm', hnm', q', hq', rfl⟩, r', hr', rfl⟩ := ho
    rw [hnm] at hnm'; cases hnm'
    obtain ⟨h1, h2, h3⟩ := ih nm.1 r hr q' r' hr'
    have hacc : ∀ t : List (ℝ × PM), (accumulate (nm :: t)).2 = (accumulate t).2 * nm.2 := by
      intro t
      have := accumulate_append [nm] t
      rw [List.singleton_append] at this
      rw [this]; simp [accumulate]
    refine ⟨?_, by simp [h2], ?_⟩
    · rw [hacc, gaussStep_mul _ _ _ _ hq', h1, List.getLast?_cons]
      cases r'.getLast? <;> rfl
    · intro j x hx
      cases j with
      | zero =>
        simp at hx; subst hx
        simp only [Nat.zero_add, List.take_succ_cons, List.take_zero]
        refine ⟨?_, by simp⟩
        rw [hacc]; simpa [accumulate] using hq'
      | succ j =>
        simp only [List.getElem?_cons_succ] at hx
        obtain ⟨h4, h5⟩ := h3 j x hx
        refine ⟨?_, by simpa using h5⟩
        rw [List.take_succ_cons, hacc, gaussStep_mul _ _ _ _ hq', h4]

/-- C43: propagating a Gaussian beam element by element gives at every element the same inverse q
as applying the paraxial matrix of all elements up to there at once. -/
theorem c43_compose (sys : List Elem) (l : ℝ) (start m : ℕ) (stop : Option ℤ) (hs : start < m)
    (hm : m ≤ pyStop sys.length stop) (q : QM) (o : List (QM × ℝ)) (n : ℝ) (M : PM)
    (hM : paraxialMatrix sys l start (some m) = some (n, M))
    (ho : propagateGaussian sys q (refractiveIndex sys l (start - 1)) l start stop = some o) :
    ∃ x, o[m - 1 - start]? = some x ∧ gaussStep M q = some x.1 ∧ n = x.2 := by
  have hsp := c13_gaussian_split sys q (refractiveIndex sys l (start - 1)) l start m stop hs.le hm
  rw [ho] at hsp
  have hsp := hsp.symm
  rw [Option.bind_eq_some_iff] at hsp
  obtain ⟨o1, ho1, h2⟩ := hsp
  rw [Option.map_eq_some_iff] at h2
  obtain ⟨o2, -, rfl⟩ := h2
  unfold paraxialMatrix paraxialMatrices at hM
  rw [Option.map_eq_some_iff] at hM
  obtain ⟨ms, hms, hacc⟩ := hM
  obtain ⟨h3, h4, h5⟩ := gaussian_run l _ _ ms hms q o1 ho1
  have hle := pyStop_le sys.length stop
  have hlen : o1.length = m - start := by
    rw [scanM_length _ _ _ _ ho1, pySlice_length _ _ (by omega)]
    congr 1
    exact pyBound_nat _ _ (by omega)
  have hx : o1[m - 1 - start]? = some (o1[m - 1 - start]'(by omega)) :=
    List.getElem?_eq_getElem _
  refine ⟨_, by rw [List.getElem?_append_left (by omega)]; exact hx, ?_⟩
  obtain ⟨h6, h7⟩ := h5 _ _ hx
  rw [List.take_of_length_le (by omega), hacc] at h6
  refine ⟨h6, ?_⟩
  have h8 : n = (accumulate ms).1 := by rw [hacc]
  rw [h8, accumulate_fst, List.getLast?_eq_getElem?, show ms.length - 1 = m - 1 - start by omega,
    h7]
  rfl

/-! ## C43: physicality -/

theorem quad_form (q : QM) (hq : qᵀ = q) (v : Fin 2 → ℂ) :
    (star v ⬝ᵥ (q *ᵥ v)).im =
      (fun i => (v i).re) ⬝ᵥ ((q.map Complex.im) *ᵥ fun i => (v i).re) +
      (fun i => (v i).im) ⬝ᵥ ((q.map Complex.im) *ᵥ fun i => (v i).im) := by
  have h01 : q 1 0 = q 0 1 := congrFun (congrFun hq 0) 1
  simp [dotProduct, Matrix.mulVec, Fin.sum_univ_two, h01]
  ring

/-- Physicality in terms of complex vectors. -/
theorem physical_iff (q : QM) : PhysicalBeam q ↔
    qᵀ = q ∧ ∀ v : Fin 2 → ℂ, v ≠ 0 → (star v ⬝ᵥ (q *ᵥ v)).im < 0 := by
  constructor
  · rintro ⟨h1, h2⟩
    refine ⟨h1, fun v hv => ?_⟩
    rw [quad_form q h1]
    by_cases hre : (fun i => (v i).re) = 0
    · have him : (fun i => (v i).im) ≠ 0 := by
        intro him
        apply hv
        funext i
        exact Complex.ext (congrFun hre i) (congrFun him i)
      rw [hre]; simpa using h2 _ him
    · by_cases him : (fun i => (v i).im) = 0
      · rw [him]; simpa using h2 _ hre
      · exact add_neg (h2 _ hre) (h2 _ him)
  · rintro ⟨h1, h2⟩
    refine ⟨h1, fun v hv => ?_⟩
    have := h2 (fun i => (v i : ℂ)) (by
      intro h; apply hv; funext i
      have := congrFun h i
      simpa using this)
    rw [quad_form q h1] at this
    simpa [Pi.zero_def] using this

/-- The block relations of a symplectic matrix, over the complex numbers. -/
theorem symplectic_blocks {M : PM} (h : M ∈ symplecticGroup (Fin 2) ℝ) :
    (toC M.toBlocks₁₁)ᵀ * toC M.toBlocks₂₁ = (toC M.toBlocks₂₁)ᵀ * toC M.toBlocks₁₁ ∧
    (toC M.toBlocks₁₂)ᵀ * toC M.toBlocks₂₂ = (toC M.toBlocks₂₂)ᵀ * toC M.toBlocks₁₂ ∧
    (toC M.toBlocks₁₁)ᵀ * toC M.toBlocks₂₂ - (toC M.toBlocks₂₁)ᵀ * toC M.toBlocks₁₂ = 1 := by
  rw [← fromBlocks_toBlocks M, SymplecticGroup.fromBlocks_mem_iff] at h
  obtain ⟨h1, h2, h3⟩ := h
  refine ⟨?_, ?_, ?_⟩
  · rw [← toC_transpose, ← toC_transpose, ← toC_mul, ← toC_mul, h1]
  · rw [← toC_transpose, ← toC_transpose, ← toC_mul, ← toC_mul, h2]
  · rw [← toC_transpose, ← toC_transpose, ← toC_mul, ← toC_mul, ← toC_sub, h3, toC_one]

/-- C43: an element with symplectic paraxial matrix maps every physical beam to a physical beam
(and never fails). -/
theorem c43_physical {M : PM} (h : M ∈ symplecticGroup (Fin 2) ℝ) {q : QM}
    (hq : PhysicalBeam q) : ∃ q', gaussStep M q = some q' ∧ PhysicalBeam q' := by
  obtain ⟨b1, b2, b3⟩ := symplectic_blocks h
  have ca := toC_conj M.toBlocks₁₁
  have cb := toC_conj M.toBlocks₁₂
  have cc := toC_conj M.toBlocks₂₁
  have cd := toC_conj M.toBlocks₂₂
  unfold gaussStep
  simp only
  generalize toC M.toBlocks₁₁ = a at *
  generalize toC M.toBlocks₁₂ = b at *
  generalize toC M.toBlocks₂₁ = c at *
  generalize toC M.toBlocks₂₂ = d at *
  obtain ⟨hsym, hdef⟩ := (physical_iff q).mp hq
  have b3' : dᵀ * a - bᵀ * c = 1 := by
    have := congrArg Matrix.transpose b3
    simpa [transpose_sub, transpose_mul] using this
  have e1 : aᵀ * d = 1 + cᵀ * b := by rw [← b3]; abel
  have e2 : dᵀ * a = 1 + bᵀ * c := by rw [← b3']; abel
  -- the two bilinear identities
  have hT : (a + b * q)ᵀ * (c + d * q) = (c + d * q)ᵀ * (a + b * q) := by
    rw [transpose_add, transpose_add, transpose_mul, transpose_mul, hsym]
    have : (aᵀ + q * bᵀ) * (c + d * q) - (cᵀ + q * dᵀ) * (a + b * q)
        = (aᵀ * c - cᵀ * a) + (aᵀ * d - cᵀ * b) * q - q * (dᵀ * a - bᵀ * c)
          + q * (bᵀ * d - dᵀ * b) * q := by
      simp only [add_mul, mul_add, sub_mul, mul_sub, Matrix.mul_assoc]; abel
    rw [b1, b2, b3, b3'] at this
    rw [← sub_eq_zero, this]; simp
  have hH : (a + b * q)ᴴ * (c + d * q) - (c + d * q)ᴴ * (a + b * q) = q - qᴴ := by
    rw [conjTranspose_add, conjTranspose_add, conjTranspose_mul, conjTranspose_mul, ca, cb, cc, cd]
    have : (aᵀ + qᴴ * bᵀ) * (c + d * q) - (cᵀ + qᴴ * dᵀ) * (a + b * q)
        = (aᵀ * c - cᵀ * a) + (aᵀ * d - cᵀ * b) * q - qᴴ * (dᵀ * a - bᵀ * c)
          + qᴴ * (bᵀ * d - dᵀ * b) * q := by
      simp only [add_mul, mul_add, sub_mul, mul_sub, Matrix.mul_assoc]; abel
    rw [this, b1, b2, b3, b3']; simp
  -- the quadratic form of the right hand side
  have hform : ∀ (N : QM) (v : Fin 2 → ℂ),
      star v ⬝ᵥ (Nᴴ *ᵥ v) = star (star v ⬝ᵥ (N *ᵥ v)) := by
    intro N v
    simp [dotProduct, Matrix.mulVec, Fin.sum_univ_two, conjTranspose_apply]
    ring
  have himq : ∀ v : Fin 2 → ℂ, star v ⬝ᵥ ((q - qᴴ) *ᵥ v)
      = 2 * ((star v ⬝ᵥ (q *ᵥ v)).im : ℂ) * Complex.I := by
    intro v
    rw [sub_mulVec, dotProduct_sub, hform]
    generalize star v ⬝ᵥ (q *ᵥ v) = z
    apply Complex.ext <;> simp; ring
  have hX : (a + b * q).det ≠ 0 := by
    intro h0
    obtain ⟨v, hv, hv0⟩ := Matrix.exists_mulVec_eq_zero_iff.mpr h0
    have h1 : star v ⬝ᵥ ((q - qᴴ) *ᵥ v) = 0 := by
      rw [← hH, sub_mulVec, dotProduct_sub, ← mulVec_mulVec, ← mulVec_mulVec, hv0]
      rw [dotProduct_mulVec, ← star_mulVec, hv0]; simp
    rw [himq] at h1
    have h2 := hdef v hv
    have h3 : ((star v ⬝ᵥ (q *ᵥ v)).im : ℂ) = 0 := by
      rcases mul_eq_zero.mp h1 with h | h
      · rcases mul_eq_zero.mp h with h | h
        · norm_num at h
        · exact h
      · exact absurd h Complex.I_ne_zero
    rw [Complex.ofReal_eq_zero] at h3
    linarith
  rw [if_neg hX]
  generalize hXd : a + b * q = X at *
  generalize hYd : c + d * q = Y at *
  have hXi : X * X⁻¹ = 1 := Matrix.mul_nonsing_inv _ (isUnit_iff_ne_zero.mpr hX)
  have hXi' : X⁻¹ * X = 1 := mul_eq_one_comm.mp hXi
  refine ⟨_, rfl, (physical_iff _).mpr ⟨?_, ?_⟩⟩
  · rw [transpose_mul]
    have hXT : (X⁻¹)ᵀ * Xᵀ = 1 := by rw [← transpose_mul, hXi, transpose_one]
    calc (X⁻¹)ᵀ * Yᵀ = (X⁻¹)ᵀ * (Yᵀ * X) * X⁻¹ := by
          rw [Matrix.mul_assoc, Matrix.mul_assoc, hXi, Matrix.mul_one]
      _ = (X⁻¹)ᵀ * Xᵀ * (Y * X⁻¹) := by rw [← hT]; simp only [Matrix.mul_assoc]
      _ = Y * X⁻¹ := by rw [hXT, Matrix.one_mul]
  · intro v hv
    set w := X⁻¹ *ᵥ v with hw
    have hvw : v = X *ᵥ w := by rw [hw, mulVec_mulVec, hXi, one_mulVec]
    have hw0 : w ≠ 0 := by
      intro h0; apply hv; rw [hvw, h0, mulVec_zero]
    have h1 : star v ⬝ᵥ ((Y * X⁻¹) *ᵥ v) = star w ⬝ᵥ ((Xᴴ * Y) *ᵥ w) := by
      rw [← mulVec_mulVec, ← hw]
      conv_lhs => rw [hvw]
      rw [star_mulVec, ← dotProduct_mulVec, mulVec_mulVec]
    have h2 := himq w
    rw [← hH, sub_mulVec, dotProduct_sub] at h2
    have h3 : star w ⬝ᵥ ((Yᴴ * X) *ᵥ w) = star (star w ⬝ᵥ ((Xᴴ * Y) *ᵥ w)) := by
      rw [← hform, conjTranspose_mul, conjTranspose_conjTranspose]
    rw [h3] at h2
    rw [h1]
    have h4 := congrArg Complex.im h2
    have h5 := hdef w hw0
    generalize star w ⬝ᵥ ((Xᴴ * Y) *ᵥ w) = z at *
    generalize (star w ⬝ᵥ (q *ᵥ w)).im = t at *
    simp at h4
    linarith

/-- C43: through a system without rolled surfaces whose paraxial matrices are finite every physical
beam propagates without failure and is physical behind every element. -/
theorem c43_physical_system (sys : List Elem) (l : ℝ) (start : ℕ) (stop : Option ℤ)
    (hes : NoRoll sys) (ms : List (ℝ × PM))
    (hms : paraxialMatrices sys l start stop = some ms) (q : QM) (hq : PhysicalBeam q) :
    ∃ o, propagateGaussian sys q (refractiveIndex sys l (start - 1)) l start stop = some o ∧
      o.length = ms.length ∧ ∀ x ∈ o, PhysicalBeam x.1 := by
  unfold paraxialMatrices at hms
  unfold propagateGaussian
  have hes' : NoRoll (pySlice sys start stop) :=
    fun e he => hes e (List.mem_of_mem_take (List.mem_of_mem_drop he))
  generalize pySlice sys start stop = es at *
  generalize refractiveIndex sys l (start - 1) = n at *
  induction es generalizing n q ms with
  | nil => simp [matricesFrom] at hms; subst hms; exact ⟨[], rfl, rfl, by simp⟩
  | cons e es ih =>
    simp only [matricesFrom, Option.bind_eq_some_iff, Option.map_eq_some_iff] at hms
    obtain ⟨nm, hnm, r, hr, rfl⟩ := hms
    obtain ⟨q', hq', hp'⟩ := c43_physical (paraxialMatrix_symplectic (hes' e (by simp)) hnm) hq
    obtain ⟨o, ho, hl, hall⟩ := ih r q' hp' (fun e he => hes' e (by simp [he])) nm.1 hr
    refine ⟨(q', nm.1) :: o, ?_, by simp [hl], ?_⟩
    · simp only [Elem.propagateGaussian] at ho
      simp only [scanM, Elem.propagateGaussian, hnm, Option.bind_some, hq', Option.map_some, ho]
    · intro x hx
      rcases List.mem_cons.mp hx with rfl | hx
      · exact hp'
      · exact hall x hx

/-! ## C43: the beams the library makes -/

theorem rect_im (x y : ℝ) : ((x : ℂ) + Complex.I * (y : ℂ)).im = y := by simp

theorem rect_re (x y : ℝ) : ((x : ℂ) + Complex.I * (y : ℂ)).re = x := by simp

theorem inv_im_neg {z : ℂ} (h : 0 < z.im) : (1 / z).im < 0 := by
  rw [one_div, Complex.inv_im]
  have : 0 < Complex.normSq z := Complex.normSq_pos.mpr (by rintro rfl; simp at h)
  exact div_neg_of_neg_of_pos (by linarith) this

/-- C43: `make_qi` yields a physical beam for non-zero waists, every waist position and every
rotation angle. -/
theorem c43_make (scale l n : ℝ) (waist position : Fin 2 → ℝ) (angle : ℝ) (hs : 0 < scale)
    (hl : 0 < l) (hn : n ≠ 0) (hw : ∀ i, waist i ≠ 0) :
    ∃ q, makeQi scale l n waist position angle = some q ∧ PhysicalBeam q := by
  have hz : ∀ i, 0 < (((position i / n : ℝ) : ℂ) +
      Complex.I * ((Real.pi * waist i ^ 2 * scale / l : ℝ) : ℂ)).im := by
    intro i
    have : 0 < Real.pi * waist i ^ 2 * scale / l := by
      have := hw i
      have := Real.pi_pos
      positivity
    rw [rect_im]; exact this
  unfold makeQi
  simp only
  have hz0 := hz 0
  have hz1 := hz 1
  generalize ((position 1 / n : ℝ) : ℂ) + Complex.I *
    ((Real.pi * waist 1 ^ 2 * scale / l : ℝ) : ℂ) = q1 at *
  generalize ((position 0 / n : ℝ) : ℂ) + Complex.I *
    ((Real.pi * waist 0 ^ 2 * scale / l : ℝ) : ℂ) = q0 at *
  have h0 : q0 ≠ 0 := by rintro rfl; simp at hz0
  have h1 : q1 ≠ 0 := by rintro rfl; simp at hz1
  rw [if_neg (by
    rintro (h | h | h | h)
    · exact hl.ne' h
    · exact hn h
    · exact h0 h
    · exact h1 h)]
  refine ⟨_, rfl, ?_⟩
  have i0 := inv_im_neg hz0
  have i1 := inv_im_neg hz1
  generalize 1 / q0 = p0 at *
  generalize 1 / q1 = p1 at *
  have hcs := Real.sin_sq_add_cos_sq angle
  generalize Real.sin angle = sa at *
  generalize Real.cos angle = ca at *
  constructor
  · ext i j
    fin_cases i <;> fin_cases j <;>
      simp [toC, Matrix.mul_apply, Fin.sum_univ_two, Matrix.vecMul, dotProduct] <;> ring
  · intro v hv
    have key : v ⬝ᵥ ((((toC !![ca, -sa; sa, ca])ᵀ * (!![p0, 0; 0, p1] *
        toC !![ca, -sa; sa, ca])).map Complex.im) *ᵥ v)
        = p0.im * (ca * v 0 - sa * v 1) ^ 2 + p1.im * (sa * v 0 + ca * v 1) ^ 2 := by
      simp [toC, Matrix.mul_apply, Fin.sum_univ_two, dotProduct, Matrix.mulVec, Matrix.vecMul]
      ring
    rw [key]
    have hsum : (ca * v 0 - sa * v 1) ^ 2 + (sa * v 0 + ca * v 1) ^ 2 = v 0 ^ 2 + v 1 ^ 2 := by
      linear_combination (v 0 ^ 2 + v 1 ^ 2) * hcs
    have hpos : 0 < v 0 ^ 2 + v 1 ^ 2 := by
      by_contra hc
      apply hv
      have a0 : v 0 = 0 := by nlinarith [sq_nonneg (v 0), sq_nonneg (v 1)]
      have a1 : v 1 = 0 := by nlinarith [sq_nonneg (v 0), sq_nonneg (v 1)]
      funext i; fin_cases i
      · exact a0
      · exact a1
    have s0 := sq_nonneg (ca * v 0 - sa * v 1)
    have s1 := sq_nonneg (sa * v 0 + ca * v 1)
    by_cases hcase : 0 < (ca * v 0 - sa * v 1) ^ 2
    · have := mul_neg_of_neg_of_pos i0 hcase
      have := mul_nonpos_of_nonpos_of_nonneg i1.le s1
      linarith
    · have : 0 < (sa * v 0 + ca * v 1) ^ 2 := by linarith
      have := mul_neg_of_neg_of_pos i1 this
      have := mul_nonpos_of_nonpos_of_nonneg i0.le s0
      linarith

/-- C43: the spot radius of a beam made with waist `w` at the position of the waist is `w`, its
waist radius is `w` wherever it is made, and the waist is where it was asked for. -/
theorem c43_spot (scale l n w pos : ℝ) (hs : 0 < scale) (hl : 0 < l) (hn : 0 < n) (hw : 0 < w)
    (axis : Fin 2) :
    (∃ q, makeQi scale l n (fun _ => w) (fun _ => pos) 0 = some q ∧
      waistRadius q n scale l axis = some w ∧ waistPosition q n axis = -pos) ∧
    (∃ q, makeQi scale l n (fun _ => w) (fun _ => 0) 0 = some q ∧
      spotRadius q scale l axis = some w) := by
  have hpi := Real.pi_pos
  have hz0 : 0 < Real.pi * w ^ 2 * scale / l := by positivity
  have hne : ∀ x : ℝ, ((x / n : ℝ) : ℂ) + Complex.I * ((Real.pi * w ^ 2 * scale / l : ℝ) : ℂ)
      ≠ 0 := by
    intro x h
    have := congrArg Complex.im h
    rw [rect_im, Complex.zero_im] at this
    linarith
  have hq : ∀ x : ℝ, ∃ q, makeQi scale l n (fun _ => w) (fun _ => x) 0 = some q ∧
      ∀ i, q i i = 1 / (((x / n : ℝ) : ℂ) +
        Complex.I * ((Real.pi * w ^ 2 * scale / l : ℝ) : ℂ)) := by
    intro x
    unfold makeQi
    simp only
    rw [if_neg (by
      rintro (h | h | h | h)
      · exact hl.ne' h
      · exact hn.ne' h
      · exact hne x h
      · exact hne x h)]
    refine ⟨_, rfl, fun i => ?_⟩
    generalize 1 / (((x / n : ℝ) : ℂ) +
        Complex.I * ((Real.pi * w ^ 2 * scale / l : ℝ) : ℂ)) = p
    fin_cases i <;> simp [toC, Matrix.mul_apply, Fin.sum_univ_two, Matrix.vecMul, dotProduct]
  constructor
  · obtain ⟨q, hq1, hq2⟩ := hq pos
    refine ⟨q, hq1, ?_, ?_⟩
    · unfold waistRadius rayleighRange
      rw [hq2, one_div_one_div]
      have : (((pos / n : ℝ) : ℂ) + Complex.I * ((Real.pi * w ^ 2 * scale / l : ℝ) : ℂ)).im
        = Real.pi * w ^ 2 * scale / l := rect_im _ _
      simp only [this]
      have hw2 : Real.pi * w ^ 2 * scale / l * n / Real.pi / n * l / scale = w ^ 2 := by
        field_simp
      rw [hw2, if_neg (not_lt.mpr (sq_nonneg w)), Real.sqrt_sq hw.le]
    · unfold waistPosition
      rw [hq2, one_div_one_div]
      have : (((pos / n : ℝ) : ℂ) + Complex.I * ((Real.pi * w ^ 2 * scale / l : ℝ) : ℂ)).re
        = pos / n := rect_re _ _
      rw [this]; field_simp
  · obtain ⟨q, hq1, hq2⟩ := hq 0
    refine ⟨q, hq1, ?_⟩
    unfold spotRadius
    have : (q axis axis).im = -(1 / (Real.pi * w ^ 2 * scale / l)) := by
      rw [hq2]
      generalize Real.pi * w ^ 2 * scale / l = t at *
      simp only [zero_div, Complex.ofReal_zero, zero_add, one_div, Complex.inv_im]
      simp [Complex.normSq_apply]
      field_simp
    simp only [this, neg_neg]
    have hw2 : l / (scale * Real.pi) / (1 / (Real.pi * w ^ 2 * scale / l)) = w ^ 2 := by
      field_simp
    rw [hw2, if_neg, Real.sqrt_sq hw.le]
    rintro (h | h)
    · have : 0 < 1 / (Real.pi * w ^ 2 * scale / l) := by positivity
      linarith
    · have := sq_nonneg w; linarith

/-- The hypotheses of `c43_physical_system` are met by a beam of unit waist in front of a lens. -/
example : (∃ ms, paraxialMatrices lensSystem 1 1 none = some ms) ∧
    ∃ q, makeQi 1 1 1 (fun _ => 1) (fun _ => 3) 0 = some q ∧ PhysicalBeam q :=
  ⟨(lensSystem_matrices 1).imp fun _ h => h.1,
   c43_make 1 1 1 _ _ 0 one_pos one_pos one_ne_zero (fun _ => one_ne_zero)⟩

end RayOpt
