import Verif.Props.Gaussian
import Mathlib.Data.List.Sort

/-!
Properties C61-C63: Gaussian beams between elements, resonator modes, refocusing.
-/

namespace RayOpt

open Matrix Parax Sys V3 Gauss

/-! ## C61: the beam between two elements -/

theorem transfer_blocks (d n : ℝ) : (transfer d n).toBlocks₁₁ = 1 ∧
    (transfer d n).toBlocks₁₂ = !![d / n, 0; 0, d / n] ∧ (transfer d n).toBlocks₂₁ = 0 ∧
    (transfer d n).toBlocks₂₂ = 1 := by
  unfold transfer
  exact ⟨toBlocks_fromBlocks₁₁ .., toBlocks_fromBlocks₁₂ .., toBlocks_fromBlocks₂₁ ..,
    toBlocks_fromBlocks₂₂ ..⟩

theorem toC_zero : toC 0 = 0 := by ext i j; simp [toC]

theorem gaussStep_transfer (d n : ℝ) (q : QM) : gaussStep (transfer d n) q =
    if (1 + toC !![d / n, 0; 0, d / n] * q).det = 0 then none
    else some (q * (1 + toC !![d / n, 0; 0, d / n] * q)⁻¹) := by
  obtain ⟨h1, h2, h3, h4⟩ := transfer_blocks d n
  unfold gaussStep
  simp only [h1, h2, h3, h4, toC_one, toC_zero, zero_add, Matrix.one_mul]

/-- The closed formula of `qin_at` is propagation by the paraxial matrix of free space. -/
theorem freeSpace_eq (q : QM) (hq : qᵀ = q) (d n : ℝ) :
    freeSpace q (d / n) = gaussStep (transfer d n) q := by
  have h01 : q 1 0 = q 0 1 := congrFun (congrFun hq 0) 1
  rw [gaussStep_transfer]
  unfold freeSpace
  simp only
  generalize hx : d / n = x
  have hM : (1 + toC !![x, 0; 0, x] * q : QM)
      = !![1 + x * q 0 0, x * q 0 1; x * q 0 1, 1 + x * q 1 1] := by
    ext i j
    fin_cases i <;> fin_cases j <;> simp [toC, Matrix.mul_apply, Fin.sum_univ_two, h01]
  have hdet : (1 + toC !![x, 0; 0, x] * q : QM).det
      = (1 + x * q 0 0) * (1 + x * q 1 1) - x ^ 2 * q 0 1 ^ 2 := by
    rw [hM, det_fin_two_of]; ring
  rw [hdet]
  by_cases h0 : (1 + x * q 0 0) * (1 + x * q 1 1) - x ^ 2 * q 0 1 ^ 2 = 0
  · rw [if_pos h0, if_pos h0]
  · rw [if_neg h0, if_neg h0]
    congr 1
    rw [Matrix.inv_def, hdet, hM, adjugate_fin_two_of, Ring.inverse_eq_inv']
    ext i j
    fin_cases i <;> fin_cases j <;>
      simp [Matrix.mul_apply, Fin.sum_univ_two, h01] <;> ring

theorem searchsorted_eq (path : List ℝ) (hs : path.Pairwise (· ≤ ·)) (i : ℕ) (z p : ℝ)
    (hp : path[i]? = some p) (hz : p < z) (hn : ∀ p', path[i + 1]? = some p' → z ≤ p') :
    searchsorted path z = i + 1 := by
  obtain ⟨hi, rfl⟩ := List.getElem?_eq_some_iff.mp hp
  unfold searchsorted
  rw [← List.take_append_drop (i + 1) path, List.countP_append]
  have h1 : (path.take (i + 1)).countP (fun p => p < z) = (path.take (i + 1)).length := by
    rw [List.countP_eq_length]
    intro a ha
    obtain ⟨j, hj, rfl⟩ := List.mem_iff_getElem.mp ha
    simp only [List.length_take] at hj
    rw [List.getElem_take]
    simp only [decide_eq_true_eq]
    refine lt_of_le_of_lt ?_ hz
    rcases Nat.lt_or_ge j i with h | h
    · exact List.pairwise_iff_getElem.mp hs j i (by omega) hi h
    · have : j = i := by omega
      subst this; exact le_rfl
  have h2 : (path.drop (i + 1)).countP (fun p => p < z) = 0 := by
    rw [List.countP_eq_zero]
    intro a ha
    obtain ⟨j, hj, rfl⟩ := List.mem_iff_getElem.mp ha
    simp only [List.length_drop] at hj
    rw [List.getElem_drop]
    simp only [decide_eq_true_eq, not_lt]
    have h3 := hn _ (List.getElem?_eq_getElem (by omega : i + 1 < path.length))
    refine h3.trans ?_
    rcases Nat.eq_zero_or_pos j with h | h
    · subst h; exact le_rfl
    · exact List.pairwise_iff_getElem.mp hs (i + 1) (i + 1 + j) (by omega) (by omega) (by omega)
  rw [h1, h2, List.length_take]; omega

/-- C61: at a path length behind element `i` and not beyond element `i+1`, the beam is the one
behind element `i` carried over the remaining distance by the free space matrix in the medium behind
element `i`. -/
theorem c61_between (path : List ℝ) (rows : List (QM × ℝ)) (hs : path.Pairwise (· ≤ ·)) (i : ℕ)
    (z p : ℝ) (q : QM) (n : ℝ) (hp : path[i]? = some p) (hr : rows[i]? = some (q, n))
    (hz : p < z) (hn : ∀ p', path[i + 1]? = some p' → z ≤ p') (hn0 : n ≠ 0) (hq : qᵀ = q) :
    qinAt path rows z = (gaussStep (transfer (z - p) n) q).map fun q' => (q', n) := by
  unfold qinAt
  simp only [searchsorted_eq path hs i z p hp hz hn, Nat.add_sub_cancel, hr, hp, if_neg hn0,
    freeSpace_eq q hq]

/-- C61: a physical beam is physical everywhere between the elements. -/
theorem c61_physical (path : List ℝ) (rows : List (QM × ℝ)) (hs : path.Pairwise (· ≤ ·)) (i : ℕ)
    (z p : ℝ) (q : QM) (n : ℝ) (hp : path[i]? = some p) (hr : rows[i]? = some (q, n))
    (hz : p < z) (hn : ∀ p', path[i + 1]? = some p' → z ≤ p') (hn0 : n ≠ 0)
    (hq : PhysicalBeam q) :
    ∃ q', qinAt path rows z = some (q', n) ∧ PhysicalBeam q' := by
  obtain ⟨q', h1, h2⟩ := c43_physical (transfer_symplectic (z - p) n) hq
  refine ⟨q', ?_, h2⟩
  rw [c61_between path rows hs i z p q n hp hr hz hn hn0 hq.1, h1]; rfl

/-- C61, start: at or before the first element's path position the first row is carried back. -/
theorem c61_first (path : List ℝ) (rows : List (QM × ℝ)) (z p : ℝ) (hs : path.Pairwise (· ≤ ·))
    (q : QM) (n : ℝ) (hp : path[0]? = some p) (hr : rows[0]? = some (q, n)) (hz : z ≤ p)
    (hn0 : n ≠ 0) (hq : qᵀ = q) :
    qinAt path rows z = (gaussStep (transfer (z - p) n) q).map fun q' => (q', n) := by
  have h0 : searchsorted path z = 0 := by
    unfold searchsorted
    rw [List.countP_eq_zero]
    intro a ha
    obtain ⟨j, hj, rfl⟩ := List.mem_iff_getElem.mp ha
    simp only [decide_eq_true_eq, not_lt]
    obtain ⟨hi, rfl⟩ := List.getElem?_eq_some_iff.mp hp
    refine hz.trans ?_
    rcases Nat.eq_zero_or_pos j with h | h
    · subst h; exact le_rfl
    · exact List.pairwise_iff_getElem.mp hs 0 j (by omega) hj h
  unfold qinAt
  simp only [h0, Nat.zero_sub, hr, hp, if_neg hn0, freeSpace_eq q hq]

/-- C61, violation: exactly at the position of an element the code returns the beam *before* that
element (for every system and every element but the first), although the comment in `qin_at` promises
the one behind it.  Whenever the element changes the beam the result differs from the row. -/
theorem c61_at_element_violation (path : List ℝ) (rows : List (QM × ℝ))
    (hs : path.Pairwise (· ≤ ·)) (i : ℕ) (p p' : ℝ) (q q1 : QM) (n n1 : ℝ)
    (hp : path[i]? = some p) (hp' : path[i + 1]? = some p') (hlt : p < p')
    (hr : rows[i]? = some (q, n)) (_hr1 : rows[i + 1]? = some (q1, n1)) (hn0 : n ≠ 0)
    (hq : qᵀ = q) (M : PM)
    (hstep : gaussStep (M * transfer (p' - p) n) q = some q1)
    (q' : QM) (hfree : gaussStep (transfer (p' - p) n) q = some q') :
    qinAt path rows p' = some (q', n) ∧ gaussStep M q' = some q1 ∧
      (gaussStep M q' ≠ some q' → qinAt path rows p' ≠ some (q1, n1)) := by
  have h1 := c61_between path rows hs i p' p q n hp hr hlt
    (fun x hx => by rw [hp'] at hx; cases hx; exact le_rfl) hn0 hq
  rw [hfree] at h1
  have h2 : gaussStep M q' = some q1 := by rw [← gaussStep_mul _ _ _ _ hfree, hstep]
  refine ⟨h1, h2, fun h3 h4 => ?_⟩
  rw [h1] at h4
  cases h4
  exact h3 h2

/-! ## C62: proper systems, eigenmodes, stability -/

/-- C62: `is_proper` never raises for a system without rolled surfaces. -/
theorem c62_proper (sys : List Elem) (l : ℝ) (start : ℕ) (stop : Option ℤ) (hes : NoRoll sys)
    (n : ℝ) (M : PM) (hM : paraxialMatrix sys l start stop = some (n, M)) : isProper M := by
  have h := (c18_symplectic sys l start stop hes n M hM).1
  have hT := SymplecticGroup.transpose_mem h
  rw [← fromBlocks_toBlocks M, fromBlocks_transpose, SymplecticGroup.fromBlocks_mem_iff] at hT
  obtain ⟨h1, h2, h3⟩ := hT
  simp only [transpose_transpose] at h1 h2 h3
  exact ⟨h3, h1, h2⟩

/-- The four blocks of a simple astigmatic matrix are diagonal. -/
theorem astig_blocks {M : PM} (h : isSimpleAstigmatic M) :
    M.toBlocks₁₁ = !![M (.inl 0) (.inl 0), 0; 0, M (.inl 1) (.inl 1)] ∧
    M.toBlocks₁₂ = !![M (.inl 0) (.inr 0), 0; 0, M (.inl 1) (.inr 1)] ∧
    M.toBlocks₂₁ = !![M (.inr 0) (.inl 0), 0; 0, M (.inr 1) (.inl 1)] ∧
    M.toBlocks₂₂ = !![M (.inr 0) (.inr 0), 0; 0, M (.inr 1) (.inr 1)] := by
  obtain ⟨h1, h2, h3, h4, h5, h6, h7, h8⟩ := h
  refine ⟨?_, ?_, ?_, ?_⟩ <;> ext i j <;> fin_cases i <;> fin_cases j <;>
    simp [toBlocks₁₁, toBlocks₁₂, toBlocks₂₁, toBlocks₂₂, *]

/-- The determinant of the matrix of one axis. -/
theorem astig_det {M : PM} (h : isSimpleAstigmatic M) (hp : isProper M) (axis : Fin 2) :
    M (.inl axis) (.inl axis) * M (.inr axis) (.inr axis)
      - M (.inl axis) (.inr axis) * M (.inr axis) (.inl axis) = 1 := by
  obtain ⟨h1, h2, h3, h4⟩ := astig_blocks h
  have hp1 := hp.1
  rw [h1, h2, h3, h4] at hp1
  have := congrFun (congrFun hp1 axis) axis
  fin_cases axis <;> simpa [Matrix.mul_apply, Fin.sum_univ_two, Matrix.vecMul, dotProduct] using this

/-- The action of a simple astigmatic matrix on a beam aligned with the axes. -/
theorem gaussStep_astig {M : PM} (h : isSimpleAstigmatic M) (x : Fin 2 → ℂ) :
    gaussStep M !![x 0, 0; 0, x 1] =
      let den : Fin 2 → ℂ := fun i => M (.inl i) (.inl i) + M (.inl i) (.inr i) * x i
      let num : Fin 2 → ℂ := fun i => M (.inr i) (.inl i) + M (.inr i) (.inr i) * x i
      if den 0 * den 1 = 0 then none
      else some !![num 0 / den 0, 0; 0, num 1 / den 1] := by
  obtain ⟨h1, h2, h3, h4⟩ := astig_blocks h
  unfold gaussStep
  simp only [h1, h2, h3, h4]
  generalize M (.inl 0) (.inl 0) = a0
  generalize M (.inl 1) (.inl 1) = a1
  generalize M (.inl 0) (.inr 0) = b0
  generalize M (.inl 1) (.inr 1) = b1
  generalize M (.inr 0) (.inl 0) = c0
  generalize M (.inr 1) (.inl 1) = c1
  generalize M (.inr 0) (.inr 0) = d0
  generalize M (.inr 1) (.inr 1) = d1
  have e1 : toC !![a0, 0; 0, a1] + toC !![b0, 0; 0, b1] * !![x 0, 0; 0, x 1]
      = !![a0 + b0 * x 0, 0; 0, a1 + b1 * x 1] := by
    ext i j; fin_cases i <;> fin_cases j <;>
      simp [toC, Matrix.mul_apply, Fin.sum_univ_two]
  have e2 : toC !![c0, 0; 0, c1] + toC !![d0, 0; 0, d1] * !![x 0, 0; 0, x 1]
      = !![c0 + d0 * x 0, 0; 0, c1 + d1 * x 1] := by
    ext i j; fin_cases i <;> fin_cases j <;>
      simp [toC, Matrix.mul_apply, Fin.sum_univ_two]
  rw [e1, e2, det_fin_two_of]
  simp only [mul_zero, sub_zero]
  by_cases h0 : ((a0 : ℂ) + b0 * x 0) * (a1 + b1 * x 1) = 0
  · rw [if_pos h0, if_pos h0]
  · rw [if_neg h0, if_neg h0]
    have h0a : (a0 : ℂ) + b0 * x 0 ≠ 0 := left_ne_zero_of_mul h0
    have h0b : (a1 : ℂ) + b1 * x 1 ≠ 0 := right_ne_zero_of_mul h0
    congr 1
    rw [Matrix.inv_eq_right_inv (B := !![1 / ((a0 : ℂ) + b0 * x 0), 0; 0, 1 / (a1 + b1 * x 1)])]
    · ext i j; fin_cases i <;> fin_cases j <;>
        simp [Matrix.mul_apply, Fin.sum_univ_two, div_eq_mul_inv]
    · ext i j; fin_cases i <;> fin_cases j <;>
        simp [Matrix.mul_apply, Fin.sum_univ_two, h0a, h0b]

/-- One axis: a root of the polynomial of the code reproduces itself under the matrix. -/
theorem root_fixed {a b c d : ℝ} (hdet : a * d - b * c = 1) {q : ℂ} (hq : q ≠ 0) :
    (c * q ^ 2 + (d - a) * q - b = 0 ↔
      (a : ℂ) + b * (1 / q) ≠ 0 ∧ ((c : ℂ) + d * (1 / q)) / (a + b * (1 / q)) = 1 / q) := by
  have hdet' : (a : ℂ) * d - b * c = 1 := by exact_mod_cast hdet
  constructor
  · intro h
    have h1 : (a : ℂ) + b * (1 / q) ≠ 0 := by
      intro h0
      have h2 : (a : ℂ) * q + b = 0 := by field_simp at h0; simpa using h0
      have h3 : (c : ℂ) * q + d = 0 := by
        have : q * (c * q + d) = 0 := by linear_combination h + h2
        exact (mul_eq_zero.mp this).resolve_left hq
      have : (1 : ℂ) = 0 := by
        linear_combination -hdet' + d * h2 * 0 + (a : ℂ) * h3 - c * h2
      exact one_ne_zero this
    refine ⟨h1, ?_⟩
    rw [div_eq_iff h1]
    field_simp
    linear_combination h
  · rintro ⟨h1, h2⟩
    rw [div_eq_iff h1] at h2
    field_simp at h2
    linear_combination h2

/-- C62: for a simple astigmatic system matrix, a beam aligned with the axes whose complex beam
parameters are non-zero reproduces itself after one round trip iff these parameters are roots of the
polynomials `eigenmodes` solves. -/
theorem c62_eigenmode (M : PM) (h : isSimpleAstigmatic M) (hp : isProper M) (q : Fin 2 → ℂ)
    (hq : ∀ i, q i ≠ 0) :
    gaussStep M (eigenMode q) = some (eigenMode q) ↔ ∀ i, eigenPoly M i (q i) = 0 := by
  have hst := gaussStep_astig h (fun i => 1 / q i)
  have h0 := root_fixed (astig_det h hp 0) (hq 0)
  have h1 := root_fixed (astig_det h hp 1) (hq 1)
  unfold eigenMode
  simp only at hst
  rw [hst, Fin.forall_fin_two]
  unfold eigenPoly
  simp only
  rw [h0, h1]
  constructor
  · intro hh
    split_ifs at hh with hd
    rw [mul_eq_zero, not_or] at hd
    rw [Option.some.injEq] at hh
    have e0 := congrFun (congrFun hh 0) 0
    have e1 := congrFun (congrFun hh 1) 1
    simp only [of_apply, cons_val', cons_val_zero, cons_val_one, cons_val_fin_one] at e0 e1
    exact ⟨⟨hd.1, e0⟩, hd.2, e1⟩
  · rintro ⟨⟨d0, e0⟩, d1, e1⟩
    rw [if_neg (mul_ne_zero d0 d1), e0, e1]

/-- C62: a resonator the code calls stable along an axis has exactly one root with positive
Rayleigh range there, and an unstable one (with a focusing round trip) has only real roots: no
confined mode. -/
theorem c62_stable (M : PM) (h : isSimpleAstigmatic M) (hp : isProper M) (axis : Fin 2) :
    (stable M axis → ∃! q : ℂ, eigenPoly M axis q = 0 ∧ 0 < q.im) ∧
    (¬ stable M axis → (M (.inl axis) (.inr axis) ≠ 0 ∨ M (.inr axis) (.inl axis) ≠ 0) →
      ∀ q : ℂ, eigenPoly M axis q = 0 → q.im = 0) := by
  have hdet := astig_det h hp axis
  unfold stable halfTrace eigenPoly
  simp only
  generalize M (.inl axis) (.inl axis) = a at *
  generalize M (.inl axis) (.inr axis) = b at *
  generalize M (.inr axis) (.inl axis) = c at *
  generalize M (.inr axis) (.inr axis) = d at *
  have split : ∀ q : ℂ, ((c : ℂ) * q ^ 2 + (d - a) * q - b = 0 ↔
      c * (q.re ^ 2 - q.im ^ 2) + (d - a) * q.re - b = 0 ∧
      q.im * (2 * c * q.re + (d - a)) = 0) := by
    intro q
    rw [Complex.ext_iff]
    have hre : ((c : ℂ) * q ^ 2 + (d - a) * q - b).re
        = c * (q.re ^ 2 - q.im ^ 2) + (d - a) * q.re - b := by
      simp [pow_two]
    have him : ((c : ℂ) * q ^ 2 + (d - a) * q - b).im = q.im * (2 * c * q.re + (d - a)) := by
      simp [pow_two]; ring
    rw [hre, him]; simp
  constructor
  · intro hst
    have hdisc : (d - a) ^ 2 + 4 * b * c < 0 := by nlinarith
    have hc : c ≠ 0 := by rintro rfl; nlinarith [sq_nonneg (d - a)]
    set s := Real.sqrt (-((d - a) ^ 2 + 4 * b * c)) with hs
    have hs2 : s ^ 2 = -((d - a) ^ 2 + 4 * b * c) := Real.sq_sqrt (by linarith)
    have hspos : 0 < s := Real.sqrt_pos.mpr (by linarith)
    refine ⟨⟨(a - d) / (2 * c), s / (2 * |c|)⟩, ⟨?_, by positivity⟩, ?_⟩
    · rw [split]
      have habs : |c| ^ 2 = c ^ 2 := sq_abs c
      constructor
      · have : (s / (2 * |c|)) ^ 2 = s ^ 2 / (4 * c ^ 2) := by
          rw [div_pow, mul_pow, habs]; norm_num
        simp only [this, hs2]
        field_simp
        ring
      · simp only
        have : 2 * c * ((a - d) / (2 * c)) + (d - a) = 0 := by field_simp; ring
        rw [this, mul_zero]
    · rintro q ⟨hq, hpos⟩
      rw [split] at hq
      obtain ⟨h1, h2⟩ := hq
      have h3 : 2 * c * q.re + (d - a) = 0 := (mul_eq_zero.mp h2).resolve_left hpos.ne'
      have hre : q.re = (a - d) / (2 * c) := by field_simp; linarith
      have him2 : (2 * |c| * q.im) ^ 2 = s ^ 2 := by
        rw [hs2, mul_pow, mul_pow, sq_abs]
        have : (d - a) = -(2 * c * q.re) := by linarith
        rw [this] at h1 ⊢
        linear_combination (-4 * c) * h1
      have him : 2 * |c| * q.im = s :=
        (sq_eq_sq₀ (by positivity) hspos.le).mp him2
      apply Complex.ext
      · exact hre
      · simp only
        rw [← him]
        have : |c| ≠ 0 := abs_ne_zero.mpr hc
        field_simp
  · intro hst hbc q hq
    rw [split] at hq
    obtain ⟨h1, h2⟩ := hq
    by_contra him
    have h3 : 2 * c * q.re + (d - a) = 0 := (mul_eq_zero.mp h2).resolve_left him
    have hdisc : 0 ≤ (d - a) ^ 2 + 4 * b * c := by nlinarith
    have h4 : (d - a) ^ 2 + 4 * b * c = -(4 * (c * q.im) ^ 2) := by
      have : (d - a) = -(2 * c * q.re) := by linarith
      rw [this] at h1 ⊢
      linear_combination (-4 * c) * h1
    have hc : c = 0 := by
      have : (c * q.im) ^ 2 = 0 := le_antisymm (by nlinarith) (sq_nonneg _)
      exact (mul_eq_zero.mp (pow_eq_zero_iff (two_ne_zero)|>.mp this)).resolve_right him
    subst hc
    have hda : d - a = 0 := by linarith
    rcases hbc with hb | hb
    · apply hb; rw [hda] at h1; linarith
    · exact hb rfl

/-! ## C63: refocusing -/

/-- A last element that only marks a plane: a bare element, or a surface without material that is
not rolled (any shape; an empty aspherics list would raise). -/
def MarksPlane (e : Elem) : Prop :=
  match e.shape with
  | none => True
  | some sh => e.mat = none ∧ Real.sin (2 * e.tf.angles.z) = 0 ∧ sh.aspherics ≠ some []

theorem rotMat_conj_transfer {phi : ℝ} (h : Real.sin (2 * phi) = 0) (d n : ℝ) :
    rotMat phi * (transfer d n * (rotMat phi)ᵀ) = transfer d n := by
  have h1 := rotBlock_mul_transpose phi
  rw [h] at h1
  have h2 : rotBlock phi * (rotBlock phi)ᵀ = 1 := by
    rw [h1]; ext i j; fin_cases i <;> fin_cases j <;> simp
  rw [rotMat_transpose]
  unfold rotMat transfer
  have h3 : (!![d / n, 0; 0, d / n] : M2) = (d / n) • (1 : M2) := by
    ext i j; fin_cases i <;> fin_cases j <;> simp
  rw [h3, fromBlocks_multiply, fromBlocks_multiply]
  simp [h2]

theorem marksPlane_matrix {e : Elem} (h : MarksPlane e) {n : ℝ} (hn : n ≠ 0) (l : ℝ) :
    e.paraxialMatrix n l = some (n, transfer e.tf.distance n) := by
  unfold MarksPlane at h
  unfold Elem.paraxialMatrix
  rw [if_neg hn]
  cases hs : e.shape with
  | none => rfl
  | some sh =>
    rw [hs] at h
    obtain ⟨h1, h2, h3⟩ := h
    have hc : ∃ c, sh.paraxCurv = some c := by
      unfold Shape.paraxCurv
      cases ha : sh.aspherics with
      | none => exact ⟨_, rfl⟩
      | some l => cases l with
        | nil => exact absurd ha h3
        | cons a l => exact ⟨_, rfl⟩
    obtain ⟨c, hc⟩ := hc
    have hpn : e.paraxN n l = n := by simp [Elem.paraxN, Elem.index?, hs, h1]
    simp only [Elem.surfMat, hc, h1, Option.bind_some, Option.map_some, hpn, Matrix.one_mul,
      rotMat_conj_transfer h2]

theorem transfer_add (d d' n : ℝ) : transfer d' n * transfer d n = transfer (d + d') n := by
  unfold transfer
  rw [fromBlocks_multiply]
  congr 1 <;> (ext i j; fin_cases i <;> fin_cases j <;> simp <;> ring)

theorem gaussStep_transfer_diag (d n : ℝ) (q : QM) (h01 : q 0 1 = 0) (h10 : q 1 0 = 0) :
    gaussStep (transfer d n) q =
      let den : Fin 2 → ℂ := fun i => 1 + (d / n : ℝ) * q i i
      if den 0 * den 1 = 0 then none
      else some !![q 0 0 / den 0, 0; 0, q 1 1 / den 1] := by
  have h : isSimpleAstigmatic (transfer d n) := by
    simp [isSimpleAstigmatic, transfer]
  have hq : q = !![q 0 0, 0; 0, q 1 1] := by
    ext i j; fin_cases i <;> fin_cases j <;> simp [h01, h10]
  conv_lhs => rw [hq]
  have := gaussStep_astig h (fun i => q i i)
  simp only at this
  rw [this]
  simp [transfer]

theorem waist_after_shift (q q' : QM) (n d : ℝ) (hn : n ≠ 0) (h01 : q 0 1 = 0) (h10 : q 1 0 = 0)
    (axis : Fin 2) (hq : q axis axis ≠ 0) (h : gaussStep (transfer d n) q = some q') :
    waistPosition q' n axis = waistPosition q n axis - d := by
  rw [gaussStep_transfer_diag d n q h01 h10] at h
  simp only at h
  split_ifs at h with hd
  rw [mul_eq_zero, not_or] at hd
  rw [Option.some.injEq] at h
  subst h
  unfold waistPosition
  have key : ∀ x : ℂ, x ≠ 0 → 1 + ((d / n : ℝ) : ℂ) * x ≠ 0 →
      (1 / (x / (1 + ((d / n : ℝ) : ℂ) * x))).re = (1 / x).re + d / n := by
    intro x hx hx1
    rw [one_div_div, add_div, mul_div_assoc, div_self hx, mul_one, Complex.add_re,
      Complex.ofReal_re]
  fin_cases axis
  · have := key _ hq hd.1
    simp only [Fin.zero_eta, of_apply, cons_val', cons_val_zero, cons_val_fin_one]
    simp only [Fin.zero_eta] at this
    rw [this]; field_simp; ring
  · have := key _ hq hd.2
    simp only [Fin.mk_one, of_apply, cons_val', cons_val_one, cons_val_fin_one]
    simp only [Fin.mk_one] at this
    rw [this]; field_simp; ring

/-- What `refocus(axis)` does to the waist position, also for negative new distances. -/
theorem refocus_shift (pre : List Elem) (e : Elem) (hpre : pre ≠ []) (hpl : MarksPlane e) (l : ℝ)
    (q0 : QM) (n0 : ℝ) (o : List (QM × ℝ))
    (ho : propagateGaussian (pre ++ [e]) q0 n0 l 1 none = some o) (q : QM) (n : ℝ)
    (hlast : o.getLast? = some (q, n)) (hphys : PhysicalBeam q) (h01 : q 0 1 = 0) (axis : Fin 2) :
    ∃ sys' o' q', refocus (pre ++ [e]) o axis = some sys' ∧
      propagateGaussian sys' q0 n0 l 1 none = some o' ∧ o'.getLast? = some (q', n) ∧
      o'.dropLast = o.dropLast ∧ waistPosition q' n axis =
        e.tf.distance + waistPosition q n axis - |e.tf.distance + waistPosition q n axis| := by
  set w := waistPosition q n axis with hw
  set e' : Elem := { e with tf := e.tf.setDistance (e.tf.distance + w) } with he'
  have hdist : e'.tf.distance = |e.tf.distance + w| := by
    rw [he']; simp only [Transform.setDistance]
    rw [Transform.update_distance]
  have hpl' : MarksPlane e' := by
    have hang : e'.tf.angles = e.tf.angles := Transform.update_angles _ _ _
    unfold MarksPlane at hpl ⊢
    rw [hang]; exact hpl
  have hsl : ∀ x : Elem, pySlice (pre ++ [x]) 1 none = pre.tail ++ [x] := by
    intro x
    cases pre with
    | nil => exact absurd rfl hpre
    | cons a t => simp [pySlice, pyStop, pyBound]
  unfold propagateGaussian at ho
  rw [hsl, scanM_append, Option.bind_eq_some_iff] at ho
  obtain ⟨o1, ho1, ho2⟩ := ho
  rw [Option.map_eq_some_iff] at ho2
  obtain ⟨o2, ho2, rfl⟩ := ho2
  simp only [scanM, Option.bind_eq_some_iff, Option.map_some, Option.some.injEq] at ho2
  obtain ⟨s, hs, rfl⟩ := ho2
  rw [List.getLast?_concat, Option.some.injEq] at hlast
  subst hlast
  generalize hin : o1.getLast?.getD (q0, n0) = sin at *
  have hn : sin.2 ≠ 0 := by
    intro h0
    simp [Elem.propagateGaussian, Elem.paraxialMatrix, h0] at hs
  simp only [Elem.propagateGaussian, marksPlane_matrix hpl hn, Option.bind_some,
    Option.map_eq_some_iff, Prod.mk.injEq] at hs
  obtain ⟨q1, hq1, rfl, rfl⟩ := hs
  obtain ⟨q', hq', hphys'⟩ := c43_physical
    (transfer_symplectic (|e.tf.distance + w| - e.tf.distance) sin.2) hphys
  have hstep : gaussStep (transfer |e.tf.distance + w| sin.2) sin.1 = some q' := by
    rw [show |e.tf.distance + w| = e.tf.distance + (|e.tf.distance + w| - e.tf.distance) by ring,
      ← transfer_add, gaussStep_mul _ _ _ _ hq1, hq']
  have h10 : q1 1 0 = 0 := by rw [← h01]; exact congrFun (congrFun hphys.1 0) 1
  have hqa : q1 axis axis ≠ 0 := by
    intro h0
    have := hphys.2 (Pi.single axis 1) (by
      intro h; have := congrFun h axis; simp at this)
    simp [Matrix.mulVec_single, h0] at this
  refine ⟨pre ++ [e'], o1 ++ [(q', sin.2)], q', ?_, ?_, ?_, ?_, ?_⟩
  · unfold refocus
    rw [List.getLast?_concat, List.getLast?_concat, List.dropLast_concat]
  · unfold propagateGaussian
    rw [hsl, scanM_append, ho1]
    simp only [Option.bind_some, hin, scanM, Elem.propagateGaussian, marksPlane_matrix hpl' hn,
      hdist, hstep, Option.map_some]
  · rw [List.getLast?_concat]
  · rw [List.dropLast_concat, List.dropLast_concat]
  · rw [waist_after_shift q1 q' sin.2 _ hn h01 h10 axis hqa hq', ← hw]; ring

/-- C63: after `refocus(axis)` of a beam aligned with the axes the re-propagated trace has its waist
along that axis exactly at the last element, and the beam at all earlier elements is as before,
provided that the new last distance is not negative. -/
theorem c63_refocus (pre : List Elem) (e : Elem) (hpre : pre ≠ []) (hpl : MarksPlane e) (l : ℝ)
    (q0 : QM) (n0 : ℝ) (o : List (QM × ℝ))
    (ho : propagateGaussian (pre ++ [e]) q0 n0 l 1 none = some o) (q : QM) (n : ℝ)
    (hlast : o.getLast? = some (q, n)) (hphys : PhysicalBeam q) (h01 : q 0 1 = 0) (axis : Fin 2)
    (hd : 0 ≤ e.tf.distance + waistPosition q n axis) :
    ∃ sys' o' q', refocus (pre ++ [e]) o axis = some sys' ∧
      propagateGaussian sys' q0 n0 l 1 none = some o' ∧ o'.getLast? = some (q', n) ∧
      o'.dropLast = o.dropLast ∧ waistPosition q' n axis = 0 := by
  have := refocus_shift pre e hpre hpl l q0 n0 o ho q n hlast hphys h01 axis
  rwa [abs_of_nonneg hd, sub_self] at this

/-- C63, violation: if the waist lies in front of the previous element the new distance is negative;
the `distance` setter then stores its absolute value (and flips the direction), and the re-propagated
beam never has its waist at the last element. -/
theorem c63_negative_violation (pre : List Elem) (e : Elem) (hpre : pre ≠ []) (hpl : MarksPlane e) (l : ℝ)
    (q0 : QM) (n0 : ℝ) (o : List (QM × ℝ))
    (ho : propagateGaussian (pre ++ [e]) q0 n0 l 1 none = some o) (q : QM) (n : ℝ)
    (hlast : o.getLast? = some (q, n)) (hphys : PhysicalBeam q) (h01 : q 0 1 = 0) (axis : Fin 2)
    (hd : e.tf.distance + waistPosition q n axis < 0) :
    ∃ sys' o' q', refocus (pre ++ [e]) o axis = some sys' ∧
      propagateGaussian sys' q0 n0 l 1 none = some o' ∧ o'.getLast? = some (q', n) ∧
      waistPosition q' n axis ≠ 0 := by
  obtain ⟨sys', o', q', h1, h2, h3, -, h4⟩ :=
    refocus_shift pre e hpre hpl l q0 n0 o ho q n hlast hphys h01 axis
  refine ⟨sys', o', q', h1, h2, h3, ?_⟩
  rw [h4, abs_of_neg hd]
  intro h; linarith

/-- Two planes at distance `d`. -/
noncomputable def twoPlanes (d : ℝ) : List Elem :=
  [⟨Transform.init 0 ez 0 none, .fin 1, none, none⟩, ⟨Transform.init d ez 0 none, .fin 1, none, none⟩]

/-- The hypotheses of `c63_refocus` and `c63_negative_violation` are met by a diverging or a
converging beam between two planes: the waist is at `p` behind the last plane for both signs. -/
example (p : ℝ) : ∃ o q, propagateGaussian (twoPlanes 1)
      !![1 / (⟨-p - 1, 1⟩ : ℂ), 0; 0, 1 / (⟨-p - 1, 1⟩ : ℂ)] 1 1 1 none = some o ∧
    o.getLast? = some (q, 1) ∧ PhysicalBeam q ∧ q 0 1 = 0 ∧ waistPosition q 1 0 = p := by
  have hdist : (Transform.init 1 ez 0 none).distance = 1 := by
    simp [Transform.init, Transform.update_distance]
  have hx : (⟨-p - 1, 1⟩ : ℂ) ≠ 0 := by intro h; have := congrArg Complex.im h; simp at this
  have hphys : PhysicalBeam !![1 / (⟨-p - 1, 1⟩ : ℂ), 0; 0, 1 / (⟨-p - 1, 1⟩ : ℂ)] := by
    have him := inv_im_neg (z := ⟨-p - 1, 1⟩) (by norm_num)
    generalize 1 / (⟨-p - 1, 1⟩ : ℂ) = x at *
    refine ⟨by ext i j; fin_cases i <;> fin_cases j <;> rfl, fun v hv => ?_⟩
    have key : v ⬝ᵥ (((!![x, 0; 0, x] : QM).map Complex.im) *ᵥ v) = x.im * (v 0 ^ 2 + v 1 ^ 2) := by
      simp [dotProduct, Matrix.mulVec, Fin.sum_univ_two]; ring
    rw [key]
    apply mul_neg_of_neg_of_pos him
    by_contra hc
    apply hv
    have a0 : v 0 = 0 := by nlinarith [sq_nonneg (v 0), sq_nonneg (v 1)]
    have a1 : v 1 = 0 := by nlinarith [sq_nonneg (v 0), sq_nonneg (v 1)]
    funext i; fin_cases i
    · exact a0
    · exact a1
  obtain ⟨q', hq', hp'⟩ := c43_physical (transfer_symplectic 1 1) hphys
  refine ⟨[(q', 1)], q', ?_, rfl, hp', ?_, ?_⟩
  · have : MarksPlane (⟨Transform.init 1 ez 0 none, .fin 1, none, none⟩ : Elem) := trivial
    simp only [propagateGaussian, twoPlanes, pySlice, pyStop, pyBound]
    have hq2 := hq'
    simp only [one_div] at hq2
    simp [scanM, Elem.propagateGaussian, marksPlane_matrix this one_ne_zero, hdist, hq2]
  · rw [gaussStep_transfer_diag _ _ _ rfl rfl] at hq'
    simp only at hq'
    split_ifs at hq'
    cases hq'; rfl
  · rw [waist_after_shift _ q' 1 1 one_ne_zero rfl rfl 0 (by simpa using hx) hq']
    simp [waistPosition]

/-- The hypotheses of `c62_eigenmode` and `c62_stable` are met by a matrix with a quarter turn in
both axes (`i` is its mode, so is `1` replaced by any real shift of a stable resonator). -/
example : isSimpleAstigmatic (fromBlocks 0 1 (-1) 0) ∧ isProper (fromBlocks 0 1 (-1) 0) ∧
    (∀ i, stable (fromBlocks 0 1 (-1) 0) i) ∧
    ∀ i, eigenPoly (fromBlocks 0 1 (-1) 0) i Complex.I = 0 := by
  refine ⟨by simp [isSimpleAstigmatic], by simp [isProper], fun i => ?_, fun i => ?_⟩
  · simp [stable, halfTrace]
  · simp [eigenPoly]

end RayOpt
