import Verif.Model.Resolution
import Verif.Model.Gaussian
import Verif.Props.FirstOrderExamples
import Verif.Props.Symmetry
import Verif.Props.Aiming
import Verif.Props.System

/-!
C84: numerical aperture, f-numbers, diffraction figures of the paraxial trace; scaling of the paraxial
trace.
-/

namespace RayOpt

open Matrix Parax Sys PTrace Util Transform

/-! ## Numerical aperture -/

theorem sinarctan_eq (u : ℝ) : sinarctan u = Real.sin (Real.arctan u) := by
  rw [Real.sin_arctan]; simp [sinarctan, div_eq_mul_inv]

theorem abs_sinarctan_lt (u : ℝ) : |sinarctan u| < 1 := by
  rw [sinarctan_eq]
  have h := Real.cos_arctan_pos u
  rw [← sq_lt_one_iff_abs_lt_one]
  nlinarith [Real.sin_sq_add_cos_sq (Real.arctan u)]

section
variable {sys : List Elem} {axis : Fin 2} {l : ℝ} {r0 r1 rk : PRow} {rows : List PRow}

/-- C84, numerical aperture: unless both ends are at a finite distance, each numerical aperture is the
index times the sine of the angle whose tangent is the slope of the marginal ray; it is smaller than
the index. -/
theorem c84_na (he : ends rows = some (r0, r1, rk)) {of im : Bool} (hf : ¬(of = true ∧ im = true))
    {na : ℝ × ℝ} (h : numericalAperture rows of im = some na) :
    (∃ t, |t| < Real.pi / 2 ∧ r0.u 0 = r0.n * Real.tan t ∧ na.1 = |r0.n| * |Real.sin t|) ∧
    (∃ t, |t| < Real.pi / 2 ∧ rk.u 0 = rk.n * Real.tan t ∧ na.2 = |rk.n| * |Real.sin t|) ∧
    na.1 < |r0.n| ∧ na.2 < |rk.n| := by
  unfold numericalAperture at h
  rw [he] at h
  simp only [Option.bind_some, Option.bind_eq_some_iff] at h
  obtain ⟨s0, h0, s1, h1, h⟩ := h
  rw [if_neg (by simpa using hf)] at h
  cases h
  obtain ⟨n0, rfl⟩ := qdiv_some h0
  obtain ⟨nk, rfl⟩ := qdiv_some h1
  have ht : ∀ x : ℝ, |Real.arctan x| < Real.pi / 2 := fun x =>
    abs_lt.mpr ⟨Real.neg_pi_div_two_lt_arctan x, Real.arctan_lt_pi_div_two x⟩
  refine ⟨⟨_, ht (r0.u 0 / r0.n), ?_, ?_⟩, ⟨_, ht (rk.u 0 / rk.n), ?_, ?_⟩, ?_, ?_⟩
  · rw [Real.tan_arctan]; field_simp
  · rw [← sinarctan_eq]; exact abs_mul _ _
  · rw [Real.tan_arctan]; field_simp
  · rw [← sinarctan_eq]; exact abs_mul _ _
  · simp only [abs_mul]
    exact mul_lt_of_lt_one_right (abs_pos.mpr n0) (abs_sinarctan_lt _)
  · simp only [abs_mul]
    exact mul_lt_of_lt_one_right (abs_pos.mpr nk) (abs_sinarctan_lt _)

/-- C84, sine condition: with object and image at finite distances, the object side numerical aperture
is the index times the sine of the angle of the marginal ray, and the two numerical apertures are
related by the transverse magnification, the ratio of the optical slopes of the marginal ray. -/
theorem c84_abbe (he : ends rows = some (r0, r1, rk)) {na : ℝ × ℝ}
    (h : numericalAperture rows true true = some na) :
    (∃ t, |t| < Real.pi / 2 ∧ r0.u 0 = r0.n * Real.tan t ∧ na.1 = |r0.n| * |Real.sin t|) ∧
    na.1 * |rk.u 0| = na.2 * |r0.u 0| := by
  unfold numericalAperture at h
  rw [he] at h
  simp only [Option.bind_some, Option.bind_eq_some_iff, Bool.and_self, if_true,
    Option.map_eq_some_iff] at h
  obtain ⟨s0, h0, s1, h1, mt, hm, a, ha, rfl⟩ := h
  obtain ⟨n0, rfl⟩ := qdiv_some h0
  obtain ⟨nk, rfl⟩ := qdiv_some h1
  obtain ⟨hk, rfl⟩ := qdiv_some hm
  obtain ⟨hmt, rfl⟩ := qdiv_some ha
  refine ⟨⟨_, abs_lt.mpr ⟨Real.neg_pi_div_two_lt_arctan (r0.u 0 / r0.n),
    Real.arctan_lt_pi_div_two (r0.u 0 / r0.n)⟩, ?_, ?_⟩, ?_⟩
  · rw [Real.tan_arctan]; field_simp
  · rw [← sinarctan_eq, abs_mul]
  · have h00 : r0.u 0 ≠ 0 := fun h => hmt (by rw [h]; simp)
    simp only
    rw [← abs_mul, ← abs_mul]
    congr 1
    field_simp

/-- C84: for a conjugate pair of planes (the marginal ray starts on the axis and ends on it) the
numerical apertures are in the inverse ratio of the heights of object and image. -/
theorem c84_abbe_size (pre : List Elem) (hpre : pre ≠ []) (e : Elem) (he : MarksPlane e)
    (hes : NoRoll (pre ++ [e])) (ht : PTrace.trace (pre ++ [e]) axis l r0 = some rows)
    {mm : ℝ × ℝ} (hm : magnification rows = some mm) {last : PRow} (hl : rows.getLast? = some last)
    (hobj : r0.y 0 = 0) (himg : last.y 0 = 0) {na : ℝ × ℝ}
    (h : numericalAperture rows true true = some na) : na.1 * |r0.y 1| = na.2 * |last.y 1| := by
  have hy := c40_magnification pre hpre e he hes axis l r0 rows ht mm hm last hl hobj himg
  obtain ⟨x, he'⟩ : ∃ x, ends rows = some x := by
    unfold magnification at hm
    rw [Option.bind_eq_some_iff] at hm
    exact ⟨_, hm.choose_spec.1⟩
  obtain ⟨r0', r1, rk⟩ := x
  have h0 : r0' = r0 := by
    obtain ⟨m, c, _, _, _, _, rfl⟩ := trace_columns ht
    unfold ends at he'
    split at he'
    · simp only [List.getElem?_cons_zero, Option.bind_some, Option.bind_eq_some_iff,
        Option.map_eq_some_iff, Prod.mk.injEq] at he'
      obtain ⟨_, _, _, _, h, _⟩ := he'
      exact h.symm
    · cases he'
  subst h0
  have h2 := (c84_abbe he' h).2
  unfold magnification at hm
  rw [he'] at hm
  simp only [Option.bind_some, Option.bind_eq_some_iff, Option.map_eq_some_iff] at hm
  obtain ⟨mt, hmt, _, _, rfl⟩ := hm
  obtain ⟨hk, rfl⟩ := qdiv_some hmt
  simp only at hy
  rw [hy, abs_mul, abs_div]
  have : 0 < |rk.u 0| := abs_pos.mpr hk
  field_simp
  linear_combination |r0'.y 1| * h2

/-! ## f-numbers -/

/-- C84, f-number: for a marginal ray that enters parallel to the axis the object side f-number is
`1/(2 s)` with the slope `s` of the marginal ray in image space; for one that leaves parallel to the
axis the image side f-number is `1/(2 s)` with its slope in object space (any media). -/
theorem c84_fnumber (hT : Traced sys axis l r0 rows) (he : ends rows = some (r0, r1, rk))
    {fn : ℝ × ℝ} (h : fNumber rows = some fn) :
    (r0.u 0 = 0 → fn.1 * (2 * |rk.u 0 / rk.n|) = 1) ∧
    (rk.u 0 = 0 → fn.2 * (2 * |r0.u 0 / r0.n|) = 1) := by
  unfold fNumber at h
  simp only [Option.bind_eq_some_iff, Option.map_eq_some_iff] at h
  obtain ⟨f, hf, q, hq, a, ha, b, hb, rfl⟩ := h
  obtain ⟨ha0, rfl⟩ := qdiv_some ha
  obtain ⟨hb0, rfl⟩ := qdiv_some hb
  have hnn : r0.n ≠ 0 ∧ rk.n ≠ 0 := by
    unfold pupilHeight at hq
    rw [he] at hq
    simp only [Option.bind_some, Option.bind_eq_some_iff, Option.map_eq_some_iff] at hq
    obtain ⟨_, _, _, hs, _, ht, _⟩ := hq
    exact ⟨(qdiv_some hs).1, (qdiv_some ht).1⟩
  obtain ⟨rk', hrk', q1, q2⟩ := c40_pupil_height hT q hq hnn.1
  have hrk : rk' = rk := by
    unfold ends at he
    split at he
    · rw [hrk'] at he
      simp only [Option.bind_eq_some_iff, Option.map_some, Option.some.injEq, Prod.mk.injEq] at he
      obtain ⟨_, _, _, _, _, _, h⟩ := he
      exact h
    · cases he
  subst hrk
  unfold focalLength at hf
  rw [he] at hf
  simp only [Option.bind_some, Option.map_eq_some_iff] at hf
  obtain ⟨g, hg, rfl⟩ := hf
  obtain ⟨hden, rfl⟩ := qdiv_some hg
  have hq1 : q.1 ≠ 0 := fun h => ha0 (by rw [h]; ring)
  have hq2 : q.2 ≠ 0 := fun h => hb0 (by rw [h]; ring)
  have n0 := abs_pos.mpr hnn.1
  have nk := abs_pos.mpr hnn.2
  change _ = |lagrange r0| at q1 q2
  have hpos : 0 < q.1 ∧ 0 < q.2 := by
    unfold pupilHeight at hq
    rw [he] at hq
    simp only [Option.bind_some, Option.bind_eq_some_iff, Option.map_eq_some_iff] at hq
    obtain ⟨_, _, _, _, _, _, rfl⟩ := hq
    exact ⟨lt_of_le_of_ne (abs_nonneg _) (Ne.symm hq1), lt_of_le_of_ne (abs_nonneg _) (Ne.symm hq2)⟩
  simp only
  constructor
  · intro h0
    rw [h0, zero_mul, sub_zero] at hden ⊢
    have u1 := abs_pos.mpr (left_ne_zero_of_mul hden)
    have u2 := abs_pos.mpr (right_ne_zero_of_mul hden)
    simp only [abs_div, abs_mul, abs_neg, abs_one, abs_of_pos hpos.1, ← q1, abs_two]
    field_simp
  · intro h0
    rw [h0, mul_zero, zero_sub] at hden ⊢
    have u1 := abs_pos.mpr (left_ne_zero_of_mul (neg_ne_zero.mp hden))
    have u2 := abs_pos.mpr (right_ne_zero_of_mul (neg_ne_zero.mp hden))
    simp only [abs_div, abs_mul, abs_neg, abs_one, abs_of_pos hpos.2, ← q2, abs_two]
    field_simp

/-- C84, working f-number: it is `1/(2 sin t)` for the angle `t` of the marginal ray, and for an object
at infinity its square exceeds the square of the f-number by a quarter. -/
theorem c84_working (hT : Traced sys axis l r0 rows) (he : ends rows = some (r0, r1, rk))
    {im : Bool} {na : ℝ × ℝ} (h : numericalAperture rows false im = some na) (hn : 0 < rk.n) {w : ℝ}
    (hw : workingFNumber rk.n na.2 = some w) :
    (∃ t, |t| < Real.pi / 2 ∧ rk.u 0 / rk.n = Real.tan t ∧ w * (2 * |Real.sin t|) = 1) ∧
    (∀ fn, fNumber rows = some fn → r0.u 0 = 0 → w ^ 2 = fn.1 ^ 2 + 1 / 4) := by
  obtain ⟨-, ⟨t, ht, htan, hna⟩, -⟩ := c84_na he (by simp) h
  obtain ⟨h2, rfl⟩ := qdiv_some hw
  rw [abs_of_pos hn] at hna
  have hs : |Real.sin t| ≠ 0 := fun h0 => h2 (by rw [hna, h0]; ring)
  have htan' : rk.u 0 / rk.n = Real.tan t := by rw [htan]; field_simp
  refine ⟨⟨t, ht, htan', by rw [hna]; field_simp⟩, fun fn hfn h0 => ?_⟩
  have hf := (c84_fnumber hT he hfn).1 h0
  rw [htan', Real.tan_eq_sin_div_cos, abs_div] at hf
  have hc : 0 < Real.cos t := Real.cos_pos_of_mem_Ioo (abs_lt.mp ht)
  rw [abs_of_pos hc] at hf
  have hf' : fn.1 = Real.cos t / (2 * |Real.sin t|) := by
    field_simp at hf ⊢
    linear_combination hf
  have hone := Real.sin_sq_add_cos_sq t
  rw [hna, hf', div_pow, div_pow, mul_pow, mul_pow, mul_pow, sq_abs]
  have hs2 : Real.sin t ≠ 0 := abs_ne_zero.mp hs
  field_simp
  linear_combination -4 * hone

end

/-! ## Diffraction -/

/-- C84, Airy radius: in metres (`scale` metres per unit) it is `0.61 l/NA`. -/
theorem c84_airy {l scale na r : ℝ} (h : airyRadius l scale na = some r) :
    r * scale * na = 0.61 * l ∧ ∀ n w, 0 < n → workingFNumber n na = some w →
      r * scale = 1.22 * (l / n) * w := by
  unfold airyRadius at h
  rw [Option.bind_eq_some_iff] at h
  obtain ⟨a, ha, h⟩ := h
  obtain ⟨h1, rfl⟩ := qdiv_some ha
  obtain ⟨h2, rfl⟩ := qdiv_some h
  have hna : na ≠ 0 := fun h => h1 (by rw [h]; ring)
  refine ⟨by field_simp; ring, fun n w hn hw => ?_⟩
  obtain ⟨_, rfl⟩ := qdiv_some hw
  field_simp

/-- C84, Rayleigh range: for a Gaussian beam focused to a waist of the Airy radius in a medium of index
`n`, the Rayleigh range is `n` times the one returned by the paraxial trace: the value is right in
air. -/
theorem c84_rayleigh {l scale na r z n : ℝ} (h : airyRadius l scale na = some r)
    (hz : rayleigh l scale na = some z) {q : QM}
    (hq : Gauss.makeQi scale l n (fun _ => r) (fun _ => 0) 0 = some q) (axis : Fin 2) :
    Gauss.rayleighRange q n axis = n * z := by
  unfold rayleigh at hz
  rw [h] at hz
  simp only [Option.bind_some, Option.map_eq_some_iff] at hz
  obtain ⟨a, ha, rfl⟩ := hz
  obtain ⟨hl, rfl⟩ := qdiv_some ha
  unfold Gauss.makeQi at hq
  dsimp only at hq
  split at hq
  · cases hq
  cases hq
  unfold Gauss.rayleighRange
  have e : ∀ x : ℝ, ((0 / n : ℝ) : ℂ) + Complex.I * (x : ℂ) = ⟨0, x⟩ := fun x => by
    apply Complex.ext <;> simp
  have : (toC !![Real.cos 0, -Real.sin 0; Real.sin 0, Real.cos 0]) = 1 := by
    ext i j; fin_cases i <;> fin_cases j <;> simp [toC]
  simp only [e, this]
  fin_cases axis <;> simp [Matrix.mul_apply, Fin.sum_univ_two] <;> ring

/-! ## Scaling -/

/-- `rescale` of a conjugate, rayopt/conjugates.py 74-75, 125-127. -/
noncomputable def Conj.rescale (o : Conj) (s : ℝ) : Conj :=
  { o with pupil := o.pupil.rescale s, size := if o.finite then o.size * s else o.size }

/-- A row of the paraxial trace in units smaller by `s`. -/
noncomputable def PRow.scale (s : ℝ) (r : PRow) : PRow := ⟨r.n, fun k => r.y k * s, r.u⟩

/-- The change of unit for paraxial rays. -/
noncomputable def unitMat (s : ℝ) : PM := fromBlocks (s • (1 : M2)) 0 0 1

theorem unitMat_inv {s : ℝ} (hs : s ≠ 0) : unitMat s * unitMat s⁻¹ = 1 := by
  simp [unitMat, fromBlocks_multiply, smul_smul, hs, fromBlocks_one]

theorem unitMat_rot (s phi : ℝ) : unitMat s * rotMat phi = rotMat phi * unitMat s := by
  simp [unitMat, rotMat, fromBlocks_multiply]

theorem unitMat_rotT (s phi : ℝ) : unitMat s * (rotMat phi)ᵀ = (rotMat phi)ᵀ * unitMat s := by
  simp [unitMat, rotMat, fromBlocks_multiply, fromBlocks_transpose]

theorem unitMat_mulVec (s : ℝ) (r : PRow) (k : Fin 2) :
    unitMat s *ᵥ column r k = column (r.scale s) k := by
  funext i
  rcases i with i | i <;>
    simp [unitMat, column, PRow.scale, Matrix.mulVec, dotProduct, Fintype.sum_sum_type,
      Matrix.one_apply]; fin_cases i <;> simp [mul_comm]

theorem paraxCurv_rescale {s : ℝ} (sh : Shape) :
    (sh.rescale s).paraxCurv = sh.paraxCurv.map (· / s) := by
  obtain ⟨c, k, asp, alt⟩ := sh
  match asp with
  | none => simp [Shape.rescale, Shape.paraxCurv]
  | some [] => simp [Shape.rescale, Shape.paraxCurv, Shape.rescaleAsph]
  | some (a :: as) =>
    simp [Shape.rescale, Shape.paraxCurv, Shape.rescaleAsph, List.zipIdx_cons]
    ring

theorem surfMat_rescale {s : ℝ} (hs : s ≠ 0) (sh : Shape) (m : Option Material) (theta n0 n : ℝ) :
    Elem.surfMat (sh.rescale s) m theta n0 n
      = (Elem.surfMat sh m theta n0 n).map fun M => unitMat s * M * unitMat s⁻¹ := by
  unfold Elem.surfMat
  rw [paraxCurv_rescale]
  cases sh.paraxCurv with
  | none => rfl
  | some c =>
    simp only [Option.map_some, Option.bind_some]
    match m with
    | none => simp [unitMat_inv hs]
    | some m =>
      simp only
      split
      · split
        · rfl
        · simp only [Option.map_some, Option.some.injEq, mirrorMat, unitMat, fromBlocks_multiply]
          congr 1 <;> (ext i j; fin_cases i <;> fin_cases j <;> simp [hs]) <;> ring
      · split
        · rfl
        · simp only [Option.map_some, Option.some.injEq, refractMat, unitMat, fromBlocks_multiply]
          congr 1 <;> (ext i j; fin_cases i <;> fin_cases j <;> simp [hs]) <;> ring

theorem transfer_rescale {s : ℝ} (hs : s ≠ 0) (d n : ℝ) :
    transfer (d * s) n = unitMat s * transfer d n * unitMat s⁻¹ := by
  simp only [transfer, unitMat, fromBlocks_multiply]
  congr 1 <;> (ext i j; fin_cases i <;> fin_cases j <;> simp [hs]) <;> ring

theorem unitMat_conj {s : ℝ} (hs : s ≠ 0) (M N : PM) :
    (unitMat s * M * unitMat s⁻¹) * (unitMat s * N * unitMat s⁻¹)
      = unitMat s * (M * N) * unitMat s⁻¹ := by
  have h : unitMat s⁻¹ * unitMat s = 1 := by
    have := unitMat_inv (inv_ne_zero hs); rwa [inv_inv] at this
  calc _ = unitMat s * M * (unitMat s⁻¹ * unitMat s) * N * unitMat s⁻¹ := by
        simp only [Matrix.mul_assoc]
    _ = _ := by rw [h]; simp only [Matrix.mul_assoc, Matrix.one_mul]

theorem rot_conj {s : ℝ} (hs : s ≠ 0) (phi : ℝ) :
    unitMat s * rotMat phi * unitMat s⁻¹ = rotMat phi := by
  rw [unitMat_rot, Matrix.mul_assoc, unitMat_inv hs, Matrix.mul_one]

theorem rotT_conj {s : ℝ} (hs : s ≠ 0) (phi : ℝ) :
    unitMat s * (rotMat phi)ᵀ * unitMat s⁻¹ = (rotMat phi)ᵀ := by
  rw [unitMat_rotT, Matrix.mul_assoc, unitMat_inv hs, Matrix.mul_one]

/-- The paraxial matrix of a rescaled element is the one of the element in the new unit. -/
theorem paraxialMatrix_rescale {s : ℝ} (hs : 0 < s) (e : Elem) (he : Reachable e.tf)
    (n0 l : ℝ) : (e.rescale s).paraxialMatrix n0 l
      = (e.paraxialMatrix n0 l).map fun nm => (nm.1, unitMat s * nm.2 * unitMat s⁻¹) := by
  have hd : (e.rescale s).tf.distance = e.tf.distance * s := by
    have : (e.rescale s).tf.distance = |e.tf.distance * s| := setDistance_distance _ _
    rw [this, abs_of_nonneg (mul_nonneg (c12_invariant he).1 hs.le)]
  have ha : (e.rescale s).tf.angles = e.tf.angles := Transform.update_angles _ _ _
  have hm : (e.rescale s).mat = e.mat := rfl
  have hsh : (e.rescale s).shape = e.shape.map (Shape.rescale s) := rfl
  have hN : (e.rescale s).paraxN n0 l = e.paraxN n0 l := by
    unfold Elem.paraxN Elem.index?
    rw [hm, hsh]
    cases e.shape <;> rfl
  unfold Elem.paraxialMatrix
  split
  · rfl
  rw [hsh, hd, ha, hm, hN]
  cases e.shape with
  | none => simp [transfer_rescale hs.ne']
  | some sh =>
    simp only [Option.map_some, surfMat_rescale hs.ne', Option.map_map]
    congr 1
    funext M
    simp only [Function.comp_apply, Prod.mk.injEq, true_and]
    rw [transfer_rescale hs.ne', unitMat_conj hs.ne']
    rw [← unitMat_conj hs.ne' (rotMat _), ← unitMat_conj hs.ne' _ (rotMat _)ᵀ, rot_conj hs.ne',
      rotT_conj hs.ne']

theorem unitMat_cancel {s : ℝ} (hs : s ≠ 0) (v : PVec) : unitMat s⁻¹ *ᵥ (unitMat s *ᵥ v) = v := by
  have := unitMat_inv (inv_ne_zero hs)
  rw [inv_inv] at this
  rw [mulVec_mulVec, this, one_mulVec]

theorem scan_rescale {s : ℝ} (hs : 0 < s) (l : ℝ) (es : List Elem) (hes : ∀ e ∈ es, Reachable e.tf)
    (v : PVec) (n : ℝ) :
    scanM (fun e st => e.propagateParaxial st.1 st.2 l) (es.map (Elem.rescale s)) (unitMat s *ᵥ v, n)
      = (scanM (fun e st => e.propagateParaxial st.1 st.2 l) es (v, n)).map
          (·.map fun x => (unitMat s *ᵥ x.1, x.2)) := by
  induction es generalizing v n with
  | nil => rfl
  | cons e es ih =>
    simp only [List.map_cons, scanM, Elem.propagateParaxial,
      paraxialMatrix_rescale hs e (hes e (by simp))]
    cases e.paraxialMatrix n l with
    | none => rfl
    | some nm =>
      simp only [Option.map_some, Option.bind_some]
      have : (unitMat s * nm.2 * unitMat s⁻¹) *ᵥ (unitMat s *ᵥ v) = unitMat s *ᵥ (nm.2 *ᵥ v) := by
        rw [← mulVec_mulVec, unitMat_cancel hs.ne', mulVec_mulVec]
      rw [this, show (fun (e : Elem) (st : PVec × ℝ) => Option.map (fun nm => (nm.2 *ᵥ st.1, nm.1))
        (e.paraxialMatrix st.2 l)) = (fun e st => e.propagateParaxial st.1 st.2 l) from rfl,
        ih (fun e he => hes e (by simp [he]))]
      simp only [Option.map_map]
      rfl

theorem refractiveIndex_rescale (s : ℝ) (sys : List Elem) (l : ℝ) (i : ℤ) :
    refractiveIndex (rescale s sys) l i = refractiveIndex sys l i := by
  have hi : ∀ e : Elem, (e.rescale s).index? l = e.index? l := fun e => by
    unfold Elem.index?
    have hsh : (e.rescale s).shape = e.shape.map (Shape.rescale s) := rfl
    rw [hsh]
    cases e.shape <;> rfl
  unfold refractiveIndex sliceDown Sys.rescale
  split <;> simp [← List.map_take, ← List.map_reverse, List.findSome?_map, Function.comp_def, hi]

/-- C84, scaling: rescaling the system (by a positive factor, as `System.rescale` does) and the
starting row gives the same trace with all heights rescaled; indices and slopes stay. -/
theorem c84_rescale_trace {s : ℝ} (hs : 0 < s) (sys : List Elem) (hsys : ∀ e ∈ sys, Reachable e.tf)
    (axis : Fin 2) (l : ℝ) (r0 : PRow) :
    PTrace.trace (rescale s sys) axis l (r0.scale s)
      = (PTrace.trace sys axis l r0).map (·.map (PRow.scale s)) := by
  have ht : ∀ e ∈ sys.tail, Reachable e.tf := fun e he => hsys e (List.mem_of_mem_tail he)
  have hcol : ∀ k, scanM (fun e st => e.propagateParaxial st.1 st.2 l) (rescale s sys).tail
      (column (r0.scale s) k, (r0.scale s).n)
      = (scanM (fun e st => e.propagateParaxial st.1 st.2 l) sys.tail (column r0 k, r0.n)).map
          (·.map fun x => (unitMat s *ᵥ x.1, x.2)) := fun k => by
    rw [← unitMat_mulVec, ← scan_rescale hs l _ ht]
    unfold Sys.rescale
    rw [List.map_tail]
    rfl
  unfold PTrace.trace rowsFrom propagateParaxial
  rw [pySlice_one, pySlice_one, hcol, hcol]
  cases scanM (fun e st => e.propagateParaxial st.1 st.2 l) sys.tail (column r0 0, r0.n) with
  | none => rfl
  | some m =>
    cases scanM (fun e st => e.propagateParaxial st.1 st.2 l) sys.tail (column r0 1, r0.n) with
    | none => rfl
    | some c =>
      simp only [Option.map_some, Option.bind_some, List.map_cons, Option.some.injEq, List.cons.injEq,
        true_and, List.zipWith_map, List.map_zipWith]
      congr 1
      funext a b
      simp only [PTrace.row, PRow.scale, PRow.mk.injEq, true_and]
      have hv : ∀ (v : PVec) (j : Fin 2), (unitMat s *ᵥ v) (.inl j) = v (.inl j) * s ∧
          (unitMat s *ᵥ v) (.inr j) = v (.inr j) := fun v j => by
        constructor <;> fin_cases j <;>
          simp [unitMat, Matrix.mulVec, dotProduct, Fintype.sum_sum_type, Fin.sum_univ_two, mul_comm]
      constructor <;> funext k <;> fin_cases k <;> simp [hv]

/-- C84, scaling of the starting row: the conjugates rescale with the system. -/
theorem c84_rescale_rays {s : ℝ} (hs : 0 < s) (o : Conj) (n0 : ℝ) :
    rays (o.rescale s) n0 = (rays o n0).map (PRow.scale s) := by
  obtain ⟨h1, h2, h3, -, -⟩ := Pupil.c39_rescale o.pupil s hs.ne'
  unfold rays
  obtain ⟨fin, size, wide, upd, p⟩ := o
  cases fin with
  | true =>
    simp only [Conj.rescale, if_true, h3, Conj.slope, h1]
    cases p.slope with
    | none => rfl
    | some ps =>
      simp only [Option.bind_some]
      have : qdiv (size * s) (p.distance * s) = qdiv size p.distance := by
        unfold qdiv
        by_cases h : p.distance = 0
        · simp [h]
        · rw [if_neg h, if_neg (mul_ne_zero h hs.ne')]
          congr 1; field_simp
      rw [this]
      cases qdiv size p.distance with
      | none => rfl
      | some q =>
        simp only [Option.map_some, PRow.scale, Option.some.injEq, PRow.mk.injEq, true_and, and_true]
        funext k; fin_cases k <;> simp
  | false =>
    simp only [Conj.rescale, Bool.false_eq_true, if_false, h2, Conj.slope, h1]
    cases p.radius with
    | none => rfl
    | some pr =>
      simp only [Option.map_some, Option.bind_some, PRow.scale, Option.some.injEq, PRow.mk.injEq,
        true_and, and_true]
      funext k; fin_cases k <;> simp; ring

theorem qdiv_scale {s : ℝ} (hs : s ≠ 0) (a b : ℝ) :
    qdiv (a * s) b = (qdiv a b).map (· * s) ∧ qdiv (a * s) (b * s) = qdiv a b ∧
      qdiv a (b * s) = (qdiv a b).map (· / s) := by
  unfold qdiv
  by_cases h : b = 0
  · simp [h]
  · simp only [if_neg h, if_neg (mul_ne_zero h hs), Option.map_some, Option.some.injEq]
    refine ⟨?_, ?_, ?_⟩ <;> field_simp

theorem ends_scale (s : ℝ) (rows : List PRow) : ends (rows.map (PRow.scale s))
    = (ends rows).map fun r => (r.1.scale s, r.2.1.scale s, r.2.2.scale s) := by
  unfold ends
  simp only [List.length_map, List.getElem?_map]
  split
  · cases rows[0]? <;> cases rows[1]? <;> cases rows[rows.length - 2]? <;> rfl
  · rfl

theorem lagrange_scale (s : ℝ) (r : PRow) : lagrange (r.scale s) = lagrange r * s := by
  simp only [lagrange, PRow.scale]; ring

theorem focalLength_scale {s : ℝ} (hs : 0 < s) (rows : List PRow) :
    focalLength (rows.map (PRow.scale s)) = (focalLength rows).map fun f => (f.1 * s, f.2 * s) := by
  unfold focalLength
  rw [ends_scale]
  cases ends rows with
  | none => rfl
  | some r =>
    obtain ⟨r0, r1, rk⟩ := r
    simp only [Option.map_some, Option.bind_some, lagrange_scale]
    simp only [PRow.scale]
    rw [(qdiv_scale hs.ne' _ _).1, Option.map_map, Option.map_map]
    congr 1
    funext f
    simp only [Function.comp_apply, Prod.mk.injEq]
    constructor <;> ring

theorem pupilDistance_scale {s : ℝ} (hs : 0 < s) (rows : List PRow) :
    pupilDistance (rows.map (PRow.scale s))
      = (pupilDistance rows).map fun f => (f.1 * s, f.2 * s) := by
  unfold pupilDistance
  rw [ends_scale]
  cases ends rows with
  | none => rfl
  | some r =>
    obtain ⟨r0, r1, rk⟩ := r
    simp only [Option.map_some, Option.bind_some, PRow.scale, ← neg_mul]
    rw [(qdiv_scale hs.ne' _ _).1, (qdiv_scale hs.ne' _ _).1]
    cases qdiv (-r1.y 1) (r0.u 1) <;> cases qdiv (-rk.y 1) (rk.u 1) <;> simp
    constructor <;> ring

theorem pupilHeight_scale {s : ℝ} (hs : 0 < s) (rows : List PRow) :
    pupilHeight (rows.map (PRow.scale s))
      = (pupilHeight rows).map fun f => (f.1 * s, f.2 * s) := by
  unfold pupilHeight
  rw [ends_scale, pupilDistance_scale hs]
  cases ends rows with
  | none => rfl
  | some r =>
    obtain ⟨r0, r1, rk⟩ := r
    simp only [Option.map_some, Option.bind_some]
    cases pupilDistance rows with
    | none => rfl
    | some p =>
      simp only [Option.map_some, Option.bind_some, PRow.scale, mul_right_comm _ s]
      rw [(qdiv_scale hs.ne' _ _).1, (qdiv_scale hs.ne' _ _).1]
      cases qdiv (p.1 * r0.u 0) r0.n <;> cases qdiv (p.2 * rk.u 0) rk.n <;>
        simp [← add_mul, abs_mul, abs_of_pos hs]

/-- C84, scaling of the figures: with the rows and the length unit of a rescaled system, focal lengths,
pupil distances and heights, Airy radii and Rayleigh ranges scale like lengths, numerical apertures and
f-numbers stay. -/
theorem c84_rescale_figures {s : ℝ} (hs : 0 < s) (rows : List PRow) (of im : Bool) (l scale na : ℝ) :
    focalLength (rows.map (PRow.scale s)) = (focalLength rows).map (fun f => (f.1 * s, f.2 * s)) ∧
    pupilDistance (rows.map (PRow.scale s))
      = (pupilDistance rows).map (fun f => (f.1 * s, f.2 * s)) ∧
    pupilHeight (rows.map (PRow.scale s)) = (pupilHeight rows).map (fun f => (f.1 * s, f.2 * s)) ∧
    numericalAperture (rows.map (PRow.scale s)) of im = numericalAperture rows of im ∧
    fNumber (rows.map (PRow.scale s)) = fNumber rows ∧
    airyRadius l (scale / s) na = (airyRadius l scale na).map (· * s) ∧
    rayleigh l (scale / s) na = (rayleigh l scale na).map (· * s) := by
  have hA : airyRadius l (scale / s) na = (airyRadius l scale na).map (· * s) := by
    unfold airyRadius
    cases qdiv (1.22 * l) (2 * na) with
    | none => rfl
    | some a =>
      simp only [Option.bind_some]
      have := (qdiv_scale (inv_ne_zero hs.ne') a scale).2.2
      simpa [div_eq_mul_inv] using this
  refine ⟨focalLength_scale hs rows, pupilDistance_scale hs rows, pupilHeight_scale hs rows, ?_, ?_,
    hA, ?_⟩
  · unfold numericalAperture
    rw [ends_scale]
    cases ends rows with
    | none => rfl
    | some r => rfl
  · unfold fNumber
    rw [focalLength_scale hs, pupilHeight_scale hs]
    cases focalLength rows with
    | none => rfl
    | some f =>
      simp only [Option.map_some, Option.bind_some]
      cases pupilHeight rows with
      | none => rfl
      | some h =>
        simp only [Option.map_some, Option.bind_some, ← mul_assoc]
        rw [(qdiv_scale hs.ne' _ _).2.1, (qdiv_scale hs.ne' _ _).2.1]
  · unfold rayleigh
    rw [hA]
    cases airyRadius l scale na with
    | none => rfl
    | some r =>
      simp only [Option.map_some, Option.bind_some, mul_pow, ← mul_assoc]
      rw [(qdiv_scale (pow_ne_zero 2 hs.ne') _ _).1]
      cases qdiv (Real.pi * r ^ 2) l with
      | none => rfl
      | some z => simp only [Option.map_some, Option.some.injEq]; field_simp

/-- C84: the number of points is the square of twice the Lagrange invariant over the wavelength. -/
theorem c84_points (r0 : PRow) (l x : ℝ) : numberOfPoints r0 l = some x ↔
    l ≠ 0 ∧ x = (2 * lagrange r0 / l) ^ 2 := by
  unfold numberOfPoints qdiv
  by_cases h : l = 0
  · simp [h]
  · rw [if_neg (pow_ne_zero 2 h), Option.some.injEq]
    constructor
    · rintro rfl; exact ⟨h, by field_simp; ring⟩
    · rintro ⟨-, rfl⟩; field_simp; ring

/-- C84, violation: the number of resolvable points is a pure number, but the code's value is
multiplied by the square of the factor when the system is rescaled. -/
theorem c84_points_violation {s : ℝ} (r0 : PRow) (l : ℝ) :
    numberOfPoints (r0.scale s) l = (numberOfPoints r0 l).map (· * s ^ 2) := by
  unfold numberOfPoints
  rw [lagrange_scale]
  unfold qdiv
  split
  · rfl
  · simp only [Option.map_some, Option.some.injEq]; ring

/-- C84, track length: the distance along z from the first to the last surface, the sum of the z
components of the offsets of the elements after the first surface up to the last one. -/
theorem c84_track (sys : List Elem) (h : 3 ≤ sys.length) :
    trackLength sys = some (((sys.drop 2).dropLast.map fun e => e.tf.offset.z).sum) := by
  unfold trackLength
  have hl := (c25_path sys 0 (by omega)).2.2.2.2
  have h1 := (c25_path sys 1 (by omega)).2.1
  have h2 := (c25_path sys (sys.length - 2) (by omega)).2.1
  simp only [hl]
  rw [if_pos (by omega), h1, h2]
  simp only [Option.bind_some, Option.map_some, Option.some.injEq]
  have e1 : sys.take (sys.length - 2 + 1) = sys.take 2 ++ (sys.drop 2).dropLast := by
    rw [List.dropLast_eq_take, List.length_drop, show sys.length - 2 + 1 = 2 + (sys.length - 2 - 1) by omega,
      List.take_add]
  rw [e1]
  simp

/-! ## Examples -/

/-- A strong surface: an object point at distance 5 is imaged at distance 15/8 in glass. -/
noncomputable def strong : List Elem :=
  [⟨Transform.init 0 V3.ez 0 none, .fin 1, some ⟨0, 0, none, false⟩, some (some vacuum)⟩,
   ⟨Transform.init 5 V3.ez 0 none, .fin 1, some ⟨2, 0, none, false⟩, some (some glass)⟩,
   ⟨Transform.init (15 / 8) V3.ez 0 none, .fin 1, some ⟨0, 0, none, false⟩, some none⟩]

/-- Marginal ray from the axial object point with slope 1, chief ray from height -1 with slope 1/5. -/
noncomputable def strongStart : PRow := ⟨1, ![0, -1], ![1, 1 / 5]⟩

theorem strong_noRoll : NoRoll strong := by
  intro e he _
  simp only [strong, List.mem_cons, List.not_mem_nil, or_false] at he
  rcases he with rfl | rfl | rfl <;> simp [init_angles]

theorem strong_trace (axis : Fin 2) (l : ℝ) : ∃ r1 r2,
    PTrace.trace strong axis l strongStart = some [strongStart, r1, r2] ∧
    r1 = ⟨3 / 2, ![5, 0], ![-4, 1 / 5]⟩ ∧ r2 = ⟨3 / 2, ![0, 1 / 4], ![-4, 1 / 5]⟩ := by
  obtain ⟨M1, h1⟩ := untilted_defined 5 (.fin 1) ⟨2, 0, none, false⟩ (some glass) 1 l
    (by norm_num) (by simp) (by intro m hm; cases hm; simp [glass])
  obtain ⟨M3, h3⟩ := untilted_defined (15 / 8) (.fin 1) ⟨0, 0, none, false⟩ none (3 / 2) l
    (by norm_num) (by simp) (by intro m hm; cases hm)
  have hms : matricesFrom l strong.tail strongStart.n = some [(3 / 2, M1), (3 / 2, M3)] := by
    simp only [Option.map_some, Option.getD_some, Option.map_none, Option.getD_none] at h1 h3
    simp only [strong, List.tail_cons, matricesFrom, strongStart]
    rw [h1]
    simp only [glass, Option.bind_some]
    rw [h3]
    rfl
  obtain ⟨rows, ht⟩ := trace_of_matrices (r0 := strongStart) hms axis
  have hlen := trace_length (by simp [strong]) ht
  have hl4 : rows.length = 3 := by rw [hlen]; rfl
  match rows, hl4 with
  | [a0, r1, r2], _ =>
  have ha0 : a0 = strongStart := by
    obtain ⟨m, c, _, _, _, _, hh⟩ := trace_columns ht
    simp at hh; exact hh.1
  subst ha0
  have hu1 : Upright (⟨Transform.init 5 V3.ez 0 none, .fin 1, some ⟨2, 0, none, false⟩,
      some (some glass)⟩ : Elem) strongStart.n l :=
    ⟨init_angles 5, by intro m hm _; simp [Elem.mat] at hm; subst hm; simp [glass, strongStart]⟩
  obtain ⟨_, hn1, P1, hP1, hk1⟩ := rows_step_upright strong_noRoll ht (j := 0) (e := _)
    (a := strongStart) (b := r1) rfl rfl rfl hu1
  have hP1' : P1 = -1 := by
    simp [uprightPower, Shape.paraxCurv, Elem.mat, glass, strongStart] at hP1
    rw [← hP1]; norm_num
  have hn1' : r1.n = 3 / 2 := by
    rw [hn1]; simp [Elem.paraxN, Elem.index?, Elem.mat, glass]
  have hd1 : (Transform.init 5 V3.ez 0 none).distance = 5 := init_distance (by norm_num)
  have hr1 : r1 = ⟨3 / 2, ![5, 0], ![-4, 1 / 5]⟩ := by
    obtain ⟨a1, a2⟩ := hk1 0
    obtain ⟨b1, b2⟩ := hk1 1
    cases r1
    simp only [strongStart, cons_val_zero, cons_val_one, cons_val_fin_one, hd1, hP1'] at *
    subst hn1'
    congr 1 <;> (funext k; fin_cases k <;> simp <;> norm_num [a1, a2, b1, b2])
  have hu2 : Upright (⟨Transform.init (15 / 8) V3.ez 0 none, .fin 1, some ⟨0, 0, none, false⟩,
      some none⟩ : Elem) r1.n l :=
    ⟨init_angles _, by intro m hm _; simp [Elem.mat] at hm⟩
  obtain ⟨_, hn2, P2, hP2, hk2⟩ := rows_step_upright strong_noRoll ht (j := 1) (e := _) (a := r1)
    (b := r2) rfl rfl rfl hu2
  have hP2' : P2 = 0 := by
    simp [uprightPower, Shape.paraxCurv, Elem.mat] at hP2
    exact hP2.symm
  have hn2' : r2.n = 3 / 2 := by
    rw [hn2]; simp [Elem.paraxN, Elem.index?, Elem.mat, hn1']
  have hd2 : (Transform.init (15 / 8) V3.ez 0 none).distance = 15 / 8 := init_distance (by norm_num)
  refine ⟨r1, r2, ht, hr1, ?_⟩
  obtain ⟨a1, a2⟩ := hk2 0
  obtain ⟨b1, b2⟩ := hk2 1
  cases r2
  simp only [hr1, cons_val_zero, cons_val_one, cons_val_fin_one, hd2, hP2'] at *
  subst hn2'
  congr 1 <;> (funext k; fin_cases k <;> simp <;> norm_num [a1, a2, b1, b2])

/-- C84, violation: for finite object and image the image side numerical aperture can exceed the
index of the image medium, which no angle can explain: here it is `sqrt 8` in glass of index 3/2. -/
theorem c84_na_violation (axis : Fin 2) (l : ℝ) : ∃ rows r1 r2 na,
    PTrace.trace strong axis l strongStart = some rows ∧ ends rows = some (strongStart, r1, r2) ∧
    numericalAperture rows true true = some na ∧ r2.n = 3 / 2 ∧ na.2 ^ 2 = 8 ∧ r2.n < na.2 := by
  obtain ⟨r1, r2, ht, rfl, rfl⟩ := strong_trace axis l
  have hpos := Real.sqrt_pos.mpr (show (0 : ℝ) < 1 + 1 by norm_num)
  have hsq := Real.sq_sqrt (show (0 : ℝ) ≤ 1 + 1 by norm_num)
  have hna : numericalAperture [strongStart, ⟨3 / 2, ![5, 0], ![-4, 1 / 5]⟩,
      ⟨3 / 2, ![0, 1 / 4], ![-4, 1 / 5]⟩] true true
      = some (1 / Real.sqrt (1 + 1), 4 / Real.sqrt (1 + 1)) := by
    have hs : sinarctan 1 = 1 / Real.sqrt (1 + 1) := by simp [sinarctan]
    simp [numericalAperture, ends, strongStart, qdiv, hs]
    rw [abs_div, abs_neg, abs_inv, abs_of_pos (show 0 < Real.sqrt (1 + 1) from hpos)]
    norm_num
    ring
  refine ⟨_, _, _, _, ht, rfl, hna, rfl, ?_, ?_⟩
  · rw [div_pow, hsq]; norm_num
  · simp only
    rw [lt_div_iff₀ hpos]
    have : Real.sqrt (1 + 1) < 2 := by rw [Real.sqrt_lt' (by norm_num)]; norm_num
    calc (3 / 2 : ℝ) * Real.sqrt (1 + 1) ≤ 3 / 2 * 2 := by gcongr
      _ < 4 := by norm_num

/-- The hypotheses of `c84_abbe` and `c84_abbe_size`: the strong surface. -/
example (axis : Fin 2) (l : ℝ) : ∃ pre e rows last mm na, strong = pre ++ [e] ∧ pre ≠ [] ∧
    MarksPlane e ∧ NoRoll (pre ++ [e]) ∧
    PTrace.trace (pre ++ [e]) axis l strongStart = some rows ∧
    magnification rows = some mm ∧ rows.getLast? = some last ∧ strongStart.y 0 = 0 ∧
    last.y 0 = 0 ∧ numericalAperture rows true true = some na := by
  obtain ⟨rows, r1, r2, na, ht, he, hna, -, -, -⟩ := c84_na_violation axis l
  obtain ⟨r1', r2', ht', rfl, rfl⟩ := strong_trace axis l
  rw [ht'] at ht
  cases ht
  have hs : strong = strong.take 2 ++ [⟨Transform.init (15 / 8) V3.ez 0 none, .fin 1,
      some ⟨0, 0, none, false⟩, some none⟩] := rfl
  obtain ⟨mm, hmm⟩ : ∃ mm, magnification [strongStart, ⟨3 / 2, ![5, 0], ![-4, 1 / 5]⟩,
      ⟨3 / 2, ![0, 1 / 4], ![-4, 1 / 5]⟩] = some mm := by
    norm_num [magnification, ends, qdiv, strongStart]
  refine ⟨_, _, _, _, mm, na, hs, by simp [strong], ⟨rfl, by simp [init_angles], by simp⟩,
    hs ▸ strong_noRoll, hs ▸ ht', hmm, rfl, by simp [strongStart], by simp, hna⟩

/-- The hypotheses of `c84_na`, `c84_fnumber`, `c84_working`: a lens and an object at infinity. -/
example (axis : Fin 2) (l : ℝ) : ∃ rows r1 rk na fn w, Traced lensSystem axis l lensStart rows ∧
    ends rows = some (lensStart, r1, rk) ∧ numericalAperture rows false true = some na ∧
    0 < rk.n ∧ workingFNumber rk.n na.2 = some w ∧ fNumber rows = some fn ∧ lensStart.u 0 = 0 := by
  obtain ⟨r1, r2, r3, ht, rfl, rfl⟩ := lens_trace axis l
  have hT : Traced lensSystem axis l lensStart _ := ⟨lens_noRoll, by simp [lensSystem], by
    intro e he
    have : e = ⟨Transform.init 5 V3.ez 0 none, .fin 1, some ⟨1 / 10, 0, none, false⟩,
        some (some glass)⟩ := by simpa [lensSystem] using he.symm
    subst this
    exact ⟨init_angles 5, by intro m hm _; simp [Elem.mat] at hm; subst hm; simp [glass, lensStart]⟩,
    ht⟩
  have hna : ∃ na, numericalAperture [lensStart, ⟨3 / 2, ![1, 1 / 2], ![-1 / 20, 3 / 40]⟩,
      ⟨1, ![29 / 30, 11 / 20], ![-59 / 600, 19 / 400]⟩, r3] false true = some na ∧ na.2 ≠ 0 := by
    refine ⟨_, by simp [numericalAperture, ends, lensStart, qdiv]; rfl, ?_⟩
    have : Real.sqrt (1 + (-59 / 600) ^ 2) ≠ 0 := (Real.sqrt_pos.mpr (by positivity)).ne'
    simp only [sinarctan]
    positivity
  obtain ⟨na, hna, h2⟩ := hna
  have hfn : (fNumber [lensStart, ⟨3 / 2, ![1, 1 / 2], ![-1 / 20, 3 / 40]⟩,
      ⟨1, ![29 / 30, 11 / 20], ![-59 / 600, 19 / 400]⟩, r3]).isSome := by
    norm_num [fNumber, focalLength, pupilHeight, pupilDistance, ends, lensStart, qdiv, lagrange]
  obtain ⟨fn, hfn⟩ := Option.isSome_iff_exists.mp hfn
  exact ⟨_, _, _, na, fn, _, hT, rfl, hna, by norm_num, if_neg (by simpa using h2), hfn,
    by simp [lensStart]⟩

/-- The hypotheses of `c84_airy` and `c84_rayleigh`. -/
example : ∃ r z q, airyRadius (1 / 2) 1 (1 / 4) = some r ∧ rayleigh (1 / 2) 1 (1 / 4) = some z ∧
    Gauss.makeQi 1 (1 / 2) (3 / 2) (fun _ => r) (fun _ => 0) 0 = some q := by
  obtain ⟨r, hr⟩ : ∃ r, airyRadius (1 / 2) 1 (1 / 4) = some r ∧ r ≠ 0 := by
    norm_num [airyRadius, qdiv]
  obtain ⟨z, hz⟩ : ∃ z, rayleigh (1 / 2) 1 (1 / 4) = some z := by
    norm_num [rayleigh, airyRadius, qdiv]
  obtain ⟨q, hq⟩ : ∃ q, Gauss.makeQi 1 (1 / 2) (3 / 2) (fun _ => r) (fun _ => 0) 0 = some q := by
    unfold Gauss.makeQi
    dsimp only
    rw [if_neg]
    · exact ⟨_, rfl⟩
    · norm_num
      exact hr.2
  exact ⟨r, z, q, hr.1, hz, hq⟩

/-- The hypothesis of `c84_rescale_trace`: the lens. -/
example : ∀ e ∈ lensSystem, Reachable e.tf := by
  intro e he
  simp only [lensSystem, List.mem_cons, List.not_mem_nil, or_false] at he
  rcases he with rfl | rfl | rfl | rfl <;> exact ⟨_, V3.ez, 0, none, [], rfl⟩

end RayOpt
