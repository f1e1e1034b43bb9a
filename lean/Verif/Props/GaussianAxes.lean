import Verif.Props.GaussianModes

/-!
# C82: principal axes, spot radii and wavefronts of a Gaussian beam
-/

namespace RayOpt

open Matrix Parax Sys V3 Gauss

/-! ## Specification -/

/-- The field of a beam at the transverse position `x`: `exp(-i (k/2) x^T Q x)` with the wave number
`k = 2 pi / l` of vacuum, in the length units of the system. -/
noncomputable def beamField (q : QM) (scale l : ℝ) (x : Fin 2 → ℝ) : ℂ :=
  Complex.exp (-Complex.I * (Real.pi * scale / l : ℝ) *
    (q 0 0 * x 0 ^ 2 + (q 0 1 + q 1 0) * (x 0 * x 1) + q 1 1 * x 1 ^ 2))

/-- The intensity of a beam relative to its centre. -/
noncomputable def beamIntensity (q : QM) (scale l : ℝ) (x : Fin 2 → ℝ) : ℝ :=
  ‖beamField q scale l x‖ ^ 2

/-! ## The angle -/

theorem intensity_eq (q : QM) (scale l : ℝ) (x : Fin 2 → ℝ) : beamIntensity q scale l x =
    Real.exp (2 * (Real.pi * scale / l * ((q 0 0).im * x 0 ^ 2 + ((q 0 1).im + (q 1 0).im) * (x 0 * x 1)
      + (q 1 1).im * x 1 ^ 2))) := by
  unfold beamIntensity beamField
  rw [Complex.norm_exp, ← Real.exp_nat_mul]
  congr 1
  generalize Real.pi * scale / l = c
  have h : ∀ r : ℝ, ((r : ℂ) ^ 2) = ((r ^ 2 : ℝ) : ℂ) := fun r => by push_cast; rfl
  have h2 : ((x 0 : ℂ) * (x 1 : ℂ)) = ((x 0 * x 1 : ℝ) : ℂ) := by push_cast; rfl
  rw [h, h, h2]
  simp only [Complex.mul_re, Complex.mul_im, Complex.add_re, Complex.add_im, Complex.neg_re,
    Complex.neg_im, Complex.I_re, Complex.I_im, Complex.ofReal_re, Complex.ofReal_im]
  push_cast
  ring

/-- C82: the angle is that of a principal axis, the one within 45 degrees of the first coordinate
axis. -/
theorem c82_angle (m : M2) (hm : m 1 0 = m 0 1) :
    (∃ a b : ℝ, m *ᵥ ![Real.cos (angle m), Real.sin (angle m)]
        = a • ![Real.cos (angle m), Real.sin (angle m)] ∧
      m *ᵥ ![-Real.sin (angle m), Real.cos (angle m)]
        = b • ![-Real.sin (angle m), Real.cos (angle m)]) ∧
    -(Real.pi / 4) ≤ angle m ∧ angle m < Real.pi / 4 := by
  have hpi := Real.pi_pos
  have hoff : 2 * m 0 1 * Real.cos (2 * angle m) = (m 0 0 - m 1 1) * Real.sin (2 * angle m) := by
    set z : ℂ := ⟨m 0 0 - m 1 1, 2 * m 0 1⟩ with hz
    have h1 : ‖z‖ * Real.cos z.arg = m 0 0 - m 1 1 := Complex.norm_mul_cos_arg z
    have h2 : ‖z‖ * Real.sin z.arg = 2 * m 0 1 := Complex.norm_mul_sin_arg z
    have h3 : ∃ k : ℤ, 2 * angle m = z.arg - k * Real.pi := by
      refine ⟨⌊(z.arg / 2 + Real.pi / 4) / (Real.pi / 2)⌋, ?_⟩
      unfold angle
      simp only [← hz]
      ring
    obtain ⟨k, hk⟩ := h3
    have h4 : Real.sin (z.arg - 2 * angle m) = 0 := by
      rw [hk, show z.arg - (z.arg - k * Real.pi) = k * Real.pi by ring]
      exact Real.sin_int_mul_pi k
    rw [Real.sin_sub] at h4
    rw [← h1, ← h2]
    linear_combination ‖z‖ * h4
  rw [Real.cos_two_mul, Real.sin_two_mul] at hoff
  have hsc := Real.sin_sq_add_cos_sq (angle m)
  refine ⟨?_, ?_, ?_⟩
  · generalize Real.cos (angle m) = c at *
    generalize Real.sin (angle m) = s at *
    refine ⟨m 0 0 * c ^ 2 + 2 * m 0 1 * (s * c) + m 1 1 * s ^ 2,
      m 0 0 * s ^ 2 - 2 * m 0 1 * (s * c) + m 1 1 * c ^ 2, ?_, ?_⟩
    · ext i
      fin_cases i <;> simp [Matrix.mulVec, dotProduct, Fin.sum_univ_two, hm]
      · linear_combination (-s / 2) * hoff - m 0 0 * c * hsc
      · linear_combination (c / 2) * hoff - (m 1 1 * s + 2 * m 0 1 * c) * hsc
    · ext i
      fin_cases i <;> simp [Matrix.mulVec, dotProduct, Fin.sum_univ_two, hm]
      · linear_combination (c / 2) * hoff + (m 0 0 * s - 2 * m 0 1 * c) * hsc
      · linear_combination (s / 2) * hoff - m 1 1 * c * hsc
  · unfold angle
    simp only
    generalize Complex.arg _ / 2 + Real.pi / 4 = b
    have := Int.floor_le (b / (Real.pi / 2))
    rw [le_div_iff₀ (by positivity)] at this
    linarith
  · unfold angle
    simp only
    generalize Complex.arg _ / 2 + Real.pi / 4 = b
    have := Int.lt_floor_add_one (b / (Real.pi / 2))
    rw [div_lt_iff₀ (by positivity)] at this
    linarith

/-- The entries of the matrix product in `normal`. -/
theorem turned (m : M2) (c s : ℝ) :
    ((!![c, -s; s, c] : M2) * m * !![c, -s; s, c]) 0 0
      = m 0 0 * c ^ 2 - m 1 1 * s ^ 2 + (m 0 1 - m 1 0) * (s * c) ∧
    ((!![c, -s; s, c] : M2) * m * !![c, -s; s, c]) 1 1
      = m 1 1 * c ^ 2 - m 0 0 * s ^ 2 + (m 0 1 - m 1 0) * (s * c) ∧
    ((!![c, -s; s, c] : M2) * m * !![c, -s; s, c]) 0 1
      = -(m 0 0 + m 1 1) * (s * c) + m 0 1 * c ^ 2 + m 1 0 * s ^ 2 ∧
    ((!![c, -s; s, c] : M2) * m * !![c, -s; s, c]) 1 0
      = (m 0 0 + m 1 1) * (s * c) + m 1 0 * c ^ 2 + m 0 1 * s ^ 2 := by
  refine ⟨?_, ?_, ?_, ?_⟩ <;> simp only [Matrix.mul_apply, Fin.sum_univ_two] <;> simp <;> ring

/-- C82 is violated by beams whose axes are turned: `normal` multiplies by the rotation from both sides
where one should be transposed, and its assertion fails. -/
theorem c82_turned_violation (m : M2) (hm : m 1 0 = m 0 1) (h : 1 / 10 ^ 8 < |m 0 1|) :
    normal m = none := by
  unfold normal
  simp only
  rw [if_neg]
  rintro ⟨h1, h2⟩
  obtain ⟨-, -, e1, e2⟩ := turned m (Real.cos (angle m)) (Real.sin (angle m))
  have hsc := Real.sin_sq_add_cos_sq (angle m)
  rw [e1] at h1
  rw [e2] at h2
  generalize Real.cos (angle m) = c at *
  generalize Real.sin (angle m) = s at *
  simp only [close, sub_zero, abs_zero, mul_zero, add_zero] at h1 h2
  have h3 : 2 * m 0 1 = (-(m 0 0 + m 1 1) * (s * c) + m 0 1 * c ^ 2 + m 1 0 * s ^ 2)
      + ((m 0 0 + m 1 1) * (s * c) + m 1 0 * c ^ 2 + m 0 1 * s ^ 2) := by
    rw [hm]
    linear_combination (-2 * m 0 1) * hsc
  have h4 : |2 * m 0 1| ≤ 1 / 10 ^ 8 + 1 / 10 ^ 8 := by
    rw [h3]
    exact (abs_add_le _ _).trans (add_le_add h1 h2)
  rw [abs_mul, abs_two] at h4
  linarith

theorem angle_diagonal {m : M2} (h : m 0 1 = 0) : angle m = 0 := by
  have hpi := Real.pi_pos
  unfold angle
  simp only [h, mul_zero]
  rcases le_or_gt 0 (m 0 0 - m 1 1) with hd | hd
  · have h0 : Complex.arg ⟨m 0 0 - m 1 1, 0⟩ = 0 := Complex.arg_ofReal_of_nonneg hd
    rw [h0]
    have hf : ⌊(0 / 2 + Real.pi / 4) / (Real.pi / 2)⌋ = 0 := by
      rw [show (0 / 2 + Real.pi / 4) / (Real.pi / 2) = 1 / 2 by field_simp; ring]
      norm_num
    rw [hf]
    simp
  · have h0 : Complex.arg ⟨m 0 0 - m 1 1, 0⟩ = Real.pi := Complex.arg_ofReal_of_neg hd
    rw [h0]
    have hf : ⌊(Real.pi / 2 + Real.pi / 4) / (Real.pi / 2)⌋ = 1 := by
      rw [show (Real.pi / 2 + Real.pi / 4) / (Real.pi / 2) = 3 / 2 by field_simp; norm_num]
      norm_num
    rw [hf]
    push_cast
    ring

/-- C82: for beams along the coordinate axes `normal` returns the diagonal and no turn. -/
theorem c82_normal (m : M2) (h : m 0 1 = 0) (h' : m 1 0 = 0) : normal m = some (m 0 0, m 1 1, 0) := by
  unfold normal
  dsimp only
  obtain ⟨e0, e1, e2, e3⟩ := turned m (Real.cos (angle m)) (Real.sin (angle m))
  have ha := angle_diagonal h
  rw [if_pos]
  · rw [e0, e1, h, h', ha]
    simp
  · rw [e2, e3, h, h', ha]
    simp [close]

/-! ## Spots and wavefronts -/

theorem physical_im {q : QM} (hq : PhysicalBeam q) (axis : Fin 2) : (q axis axis).im < 0 := by
  have h := hq.2 (Pi.single axis 1) (by simp)
  fin_cases axis <;>
    simpa [Matrix.mulVec, dotProduct, Fin.sum_univ_two, Pi.single_apply] using h

/-- C82: at the distance of the spot radius along a coordinate axis, the intensity is `1/e^2` of that in
the centre. -/
theorem c82_spot {q : QM} (hq : PhysicalBeam q) {scale l : ℝ} (hs : 0 < scale) (hl : 0 < l)
    (axis : Fin 2) : ∃ w, spotRadius q scale l axis = some w ∧ 0 < w ∧
      beamIntensity q scale l (Pi.single axis w) = Real.exp (-2) := by
  have hpi := Real.pi_pos
  have hi := physical_im hq axis
  have hc : 0 < l / (scale * Real.pi) / -(q axis axis).im := by
    have : 0 < -(q axis axis).im := by linarith
    positivity
  refine ⟨Real.sqrt (l / (scale * Real.pi) / -(q axis axis).im), ?_, Real.sqrt_pos.mpr hc, ?_⟩
  · unfold spotRadius
    simp only
    rw [if_neg]
    rintro (h | h) <;> linarith
  · rw [intensity_eq]
    congr 1
    have hw := Real.sq_sqrt hc.le
    generalize Real.sqrt (l / (scale * Real.pi) / -(q axis axis).im) = w at hw
    have hne : (q axis axis).im ≠ 0 := hi.ne
    have key : Real.pi * scale / l * ((q axis axis).im * w ^ 2) = -1 := by
      rw [hw]
      field_simp
    fin_cases axis <;> simp at key ⊢ <;> linear_combination 2 * key

/-- C82: for beams along the coordinate axes the radii along the principal axes are those along the
coordinate axes, and they describe the whole intensity. -/
theorem c82_spot_normal {q : QM} (hq : PhysicalBeam q) (h : (q 0 1).im = 0) {scale l : ℝ}
    (hs : 0 < scale) (hl : 0 < l) : ∃ a b, spotNormal q scale l = some (a, b, 0) ∧
      spotRadius q scale l 0 = some a ∧ spotRadius q scale l 1 = some b ∧
      ∀ x, beamIntensity q scale l x = Real.exp (-2 * ((x 0 / a) ^ 2 + (x 1 / b) ^ 2)) := by
  have hpi := Real.pi_pos
  have hsym : q 1 0 = q 0 1 := congrFun (congrFun hq.1 0) 1
  have h' : (q 1 0).im = 0 := by rw [hsym]; exact h
  have hc : ∀ axis, 0 < l / (scale * Real.pi) / -(q axis axis).im := by
    intro axis
    have : 0 < -(q axis axis).im := by linarith [physical_im hq axis]
    positivity
  have hsp : ∀ axis, spotRadius q scale l axis = some (Real.sqrt (l / (scale * Real.pi) / -(q axis axis).im)) := by
    intro axis
    unfold spotRadius
    simp only
    rw [if_neg]
    rintro (h | h) <;> linarith [hc axis, physical_im hq axis]
  refine ⟨_, _, ?_, hsp 0, hsp 1, fun x => ?_⟩
  · unfold spotNormal
    simp only
    rw [c82_normal _ (by simp [h]) (by simp [h'])]
    simp only [Option.bind_some, Matrix.map_apply]
    rw [if_neg]
    rintro (h | h | h | h) <;> linarith [hc 0, hc 1, physical_im hq 0, physical_im hq 1]
  · rw [intensity_eq, h, h']
    congr 1
    have h0 := Real.sq_sqrt (hc 0).le
    have h1 := Real.sq_sqrt (hc 1).le
    rw [div_pow, div_pow, h0, h1]
    have := (physical_im hq 0).ne
    have := (physical_im hq 1).ne
    field_simp
    ring

/-- C82: at an interface with the radius of curvature `R` the phase is that of a spherical wave in the
medium: the sag `x^2/(2 R)` times the wave number there. -/
theorem c82_curvature {q : QM} {n scale l R : ℝ} {axis : Fin 2}
    (h : curvatureRadius q n axis = some R) (hn : n ≠ 0) (x : ℝ) :
    ∃ a : ℝ, 0 < a ∧ beamField q scale l (Pi.single axis x)
      = a * Complex.exp (-Complex.I * ((2 * Real.pi * scale * n / l) * (x ^ 2 / (2 * R)) : ℝ)) := by
  unfold curvatureRadius at h
  simp only at h
  split at h
  · cases h
  rename_i hr
  cases h
  refine ⟨Real.exp (Real.pi * scale / l * ((q axis axis).im * x ^ 2)), Real.exp_pos _, ?_⟩
  have hb : beamField q scale l (Pi.single axis x)
      = Complex.exp (-Complex.I * (Real.pi * scale / l : ℝ) * (q axis axis * (x : ℂ) ^ 2)) := by
    unfold beamField
    congr 1
    fin_cases axis <;> simp
  rw [hb, Complex.ofReal_exp, ← Complex.exp_add]
  congr 1
  have hc : 2 * Real.pi * scale * n / l * (x ^ 2 / (2 * (n / (q axis axis).re)))
      = Real.pi * scale / l * ((q axis axis).re * x ^ 2) := by
    field_simp
  rw [hc]
  conv_lhs => rw [← Complex.re_add_im (q axis axis)]
  push_cast
  linear_combination (-(Real.pi * scale / l : ℂ) * (q axis axis).im * x ^ 2) * Complex.I_sq

/-- C82: a wavefront diverges (positive radius) exactly when the waist lies before the element. -/
theorem c82_diverging {q : QM} {n R : ℝ} {axis : Fin 2} (h : curvatureRadius q n axis = some R)
    (hn : 0 < n) : 0 < R ↔ waistPosition q n axis < 0 := by
  unfold curvatureRadius at h
  simp only at h
  split at h
  · cases h
  rename_i hr
  cases h
  have h0 : 0 < Complex.normSq (q axis axis) := Complex.normSq_pos.mpr (fun h => hr (by rw [h]; rfl))
  unfold waistPosition
  rw [one_div, Complex.inv_re]
  constructor
  · intro h
    have h1 : 0 < (q axis axis).re := by
      by_contra hc
      exact absurd h (not_lt.mpr (div_nonpos_of_nonneg_of_nonpos hn.le (not_lt.mp hc)))
    have : 0 < (q axis axis).re / Complex.normSq (q axis axis) * n := by positivity
    linarith
  · intro h
    have h1 : 0 < (q axis axis).re := by
      by_contra hc
      have : (q axis axis).re / Complex.normSq (q axis axis) * n ≤ 0 :=
        mul_nonpos_of_nonpos_of_nonneg (div_nonpos_of_nonpos_of_nonneg (not_lt.mp hc) h0.le) hn.le
      linarith
    positivity

/-- C82: the beam made by `make_qi` with an angle has its first axis turned by the opposite angle, as
`angle` counts it. -/
theorem c82_make (scale l n : ℝ) (waist position : Fin 2 → ℝ) (angle : ℝ) {q : QM}
    (h : makeQi scale l n waist position angle = some q) :
    q *ᵥ ![(Real.cos angle : ℂ), -(Real.sin angle : ℂ)]
      = (1 / ((position 0 / n : ℝ) + Complex.I * (Real.pi * waist 0 ^ 2 * scale / l : ℝ)))
        • ![(Real.cos angle : ℂ), -(Real.sin angle : ℂ)] ∧
    q *ᵥ ![(Real.sin angle : ℂ), (Real.cos angle : ℂ)]
      = (1 / ((position 1 / n : ℝ) + Complex.I * (Real.pi * waist 1 ^ 2 * scale / l : ℝ)))
        • ![(Real.sin angle : ℂ), (Real.cos angle : ℂ)] := by
  unfold makeQi at h
  simp only at h
  split at h
  · cases h
  cases h
  have hsc : (Real.sin angle : ℂ) ^ 2 + (Real.cos angle : ℂ) ^ 2 = 1 := by
    rw [← Complex.ofReal_pow, ← Complex.ofReal_pow, ← Complex.ofReal_add, Real.sin_sq_add_cos_sq]
    rfl
  generalize (1 / ((position 0 / n : ℝ) + Complex.I * (Real.pi * waist 0 ^ 2 * scale / l : ℝ)) : ℂ) = A
  generalize (1 / ((position 1 / n : ℝ) + Complex.I * (Real.pi * waist 1 ^ 2 * scale / l : ℝ)) : ℂ) = B
  have ha : toC !![Real.cos angle, -Real.sin angle; Real.sin angle, Real.cos angle]
      = !![(Real.cos angle : ℂ), -(Real.sin angle : ℂ); (Real.sin angle : ℂ), (Real.cos angle : ℂ)] := by
    ext i j
    fin_cases i <;> fin_cases j <;> simp [toC]
  rw [ha]
  generalize (Real.sin angle : ℂ) = s at hsc
  generalize (Real.cos angle : ℂ) = c at hsc
  constructor <;> ext i <;> fin_cases i <;>
    simp [Matrix.mulVec, dotProduct, Fin.sum_univ_two, Matrix.mul_apply, Matrix.transpose_apply]
  · linear_combination (A * c) * hsc
  · linear_combination (-A * s) * hsc
  · linear_combination (B * s) * hsc
  · linear_combination (B * c) * hsc

/-! ## Resizing -/

theorem mapM_map_some {α β : Type} {f : α → Option β} {g : α → β} :
    ∀ {l : List α}, (∀ a ∈ l, f a = some (g a)) → l.mapM f = some (l.map g)
  | [], _ => rfl
  | a :: l, h => by
    rw [List.mapM_cons, h a (by simp), mapM_map_some (l := l) (fun b hb => h b (by simp [hb]))]
    rfl

/-- C82: `resize` of a beam along the coordinate axes sets the radius of every element but the object to
the given number of spot radii, and changes nothing else. -/
theorem c82_resize {sys : List Elem} {rows : List QM} (hlen : rows.length = sys.length)
    (hrows : ∀ q ∈ rows, PhysicalBeam q ∧ (q 0 1).im = 0) {scale l : ℝ} (hs : 0 < scale) (hl : 0 < l)
    (waists : ℝ) : ∃ out, resize sys rows scale l waists = some out ∧ out.length = sys.length ∧
      out.head? = sys.head? ∧
      ∀ i, 0 < i → ∀ (h : i < sys.length) (h' : i < out.length), ∃ a b,
        spotRadius (rows[i]'(by omega)) scale l 0 = some a ∧
        spotRadius (rows[i]'(by omega)) scale l 1 = some b ∧
        out[i] = { sys[i] with radius := .fin (max a b * waists) } := by
  choose! f g hfg using fun (q : QM) (hq : q ∈ rows) => c82_spot_normal (hrows q hq).1 (hrows q hq).2 hs hl
  have hm := mapM_map_some (f := fun q => spotNormal q scale l) (g := fun q => (f q, g q, (0 : ℝ)))
    (l := rows) (fun q hq => (hfg q hq).1)
  cases sys with
  | nil =>
    refine ⟨[], ?_, rfl, rfl, fun i _ h => absurd h (by simp)⟩
    unfold resize
    rw [hm]
    simp
  | cons e sys =>
    cases rows with
    | nil => simp at hlen
    | cons q rows =>
      unfold resize
      rw [hm]
      simp only [List.length_cons, Nat.add_right_cancel_iff] at hlen
      refine ⟨_, rfl, ?_, ?_, ?_⟩
      · simp [hlen]
      · simp
      · intro i hi h h'
        obtain ⟨j, rfl⟩ : ∃ j, i = j + 1 := ⟨i - 1, by omega⟩
        have hj : j < rows.length := by simpa [hlen] using h
        have hspec := hfg rows[j] (by simp)
        refine ⟨f rows[j], g rows[j], hspec.2.1, hspec.2.2.1, ?_⟩
        simp [hlen]

theorem mapM_none {α β : Type} {f : α → Option β} : ∀ {l : List α} {a : α}, a ∈ l → f a = none →
    l.mapM f = none
  | b :: l, a, ha, hf => by
    rw [List.mapM_cons]
    rcases List.mem_cons.mp ha with rfl | h
    · rw [hf]
      rfl
    · rw [mapM_none h hf]
      cases f b <;> rfl

/-- C82 is violated by any beam with turned axes: `resize` (like `print_trace`) raises. -/
theorem c82_resize_violation {sys : List Elem} {rows : List QM} {q : QM} (hq : q ∈ rows)
    (hsym : q 1 0 = q 0 1) (h : 1 / 10 ^ 8 < |(q 0 1).im|) (scale l waists : ℝ) :
    resize sys rows scale l waists = none := by
  unfold resize
  rw [mapM_none hq]
  · rfl
  · unfold spotNormal
    simp only
    rw [c82_turned_violation]
    · rfl
    · simp [hsym]
    · simpa using h

/-! ## Eigenvalues of a resonator -/

theorem eigenvalues_sq (m : PM) (axis : Fin 2) :
    (((halfTrace m axis : ℂ) ^ 2 - 1) ^ (1 / 2 : ℂ)) ^ 2 = (halfTrace m axis : ℂ) ^ 2 - 1 := by
  have h := Complex.cpow_nat_inv_pow ((halfTrace m axis : ℂ) ^ 2 - 1) (two_ne_zero)
  rw [show (1 / 2 : ℂ) = ((2 : ℕ) : ℂ)⁻¹ by norm_num]
  exact h

/-- C62: the eigenvalues of an axis are those of its block of the round trip matrix. -/
theorem c62_eigenvalues (M : PM) (h : isSimpleAstigmatic M) (hp : isProper M) (axis : Fin 2) (v : ℂ) :
    (∃ x y : ℂ, (x ≠ 0 ∨ y ≠ 0) ∧
      M (.inl axis) (.inl axis) * x + M (.inl axis) (.inr axis) * y = v * x ∧
      M (.inr axis) (.inl axis) * x + M (.inr axis) (.inr axis) * y = v * y) ↔
    v = (eigenvalues M axis).1 ∨ v = (eigenvalues M axis).2 := by
  have hdet := astig_det h hp axis
  have hsq := eigenvalues_sq M axis
  have key : (v = (eigenvalues M axis).1 ∨ v = (eigenvalues M axis).2) ↔
      (M (.inl axis) (.inl axis) - v) * (M (.inr axis) (.inr axis) - v)
        = M (.inl axis) (.inr axis) * M (.inr axis) (.inl axis) := by
    unfold eigenvalues
    dsimp only
    rw [← sub_eq_zero (a := v), ← sub_eq_zero (a := v) (b := _ - _), ← mul_eq_zero]
    generalize ((halfTrace M axis : ℂ) ^ 2 - 1) ^ (1 / 2 : ℂ) = r at hsq
    have hdet' : ((M (.inl axis) (.inl axis) : ℂ) * M (.inr axis) (.inr axis)
        - M (.inl axis) (.inr axis) * M (.inr axis) (.inl axis)) = 1 := by
      rw [← Complex.ofReal_mul, ← Complex.ofReal_mul, ← Complex.ofReal_sub, hdet]
      rfl
    have hh : (halfTrace M axis : ℂ) = (M (.inl axis) (.inl axis) + M (.inr axis) (.inr axis)) / 2 := by
      unfold halfTrace
      push_cast
      rfl
    rw [hh] at hsq ⊢
    constructor <;> intro e
    · linear_combination e + hsq + hdet'
    · linear_combination e - hsq - hdet'
  rw [key]
  generalize (M (.inl axis) (.inl axis) : ℂ) = a
  generalize (M (.inl axis) (.inr axis) : ℂ) = b
  generalize (M (.inr axis) (.inl axis) : ℂ) = c
  generalize (M (.inr axis) (.inr axis) : ℂ) = d
  constructor
  · rintro ⟨x, y, hxy, e1, e2⟩
    rcases hxy with hx | hy
    · apply mul_right_cancel₀ hx
      linear_combination (d - v) * e1 - b * e2
    · apply mul_right_cancel₀ hy
      linear_combination (a - v) * e2 - c * e1
  · intro e
    by_cases hb : b = 0 ∧ a - v = 0
    · by_cases hc : c = 0 ∧ d - v = 0
      · exact ⟨1, 0, Or.inl one_ne_zero, by linear_combination hb.2, by linear_combination hc.1⟩
      · refine ⟨d - v, -c, ?_, by linear_combination (d - v) * hb.2 - c * hb.1, by ring⟩
        by_contra hcon
        push Not at hcon
        exact hc ⟨by simpa using hcon.2, hcon.1⟩
    · refine ⟨-b, a - v, ?_, by ring, by linear_combination e⟩
      by_contra hcon
      push Not at hcon
      exact hb ⟨by simpa using hcon.1, hcon.2⟩

/-- C62: an axis is stable exactly when its eigenvalues lie on the unit circle off the real axis. -/
theorem c62_unit_circle (M : PM) (axis : Fin 2) : stable M axis ↔
    ‖(eigenvalues M axis).1‖ = 1 ∧ ‖(eigenvalues M axis).2‖ = 1 ∧
    (eigenvalues M axis).1.im ≠ 0 ∧ (eigenvalues M axis).2.im ≠ 0 := by
  have hsq := eigenvalues_sq M axis
  unfold stable eigenvalues
  dsimp only
  generalize ((halfTrace M axis : ℂ) ^ 2 - 1) ^ (1 / 2 : ℂ) = r at hsq
  generalize halfTrace M axis = t at *
  have h1 := congrArg Complex.re hsq
  have h2 := congrArg Complex.im hsq
  simp [pow_two] at h1 h2
  have n1 : ∀ z : ℂ, ‖z‖ = 1 ↔ z.re ^ 2 + z.im ^ 2 = 1 := by
    intro z
    rw [← sq_eq_sq₀ (norm_nonneg z) zero_le_one, ← Complex.normSq_eq_norm_sq, Complex.normSq_apply]
    constructor <;> intro h <;> nlinarith
  rw [n1, n1]
  simp [-sq_lt_one_iff_abs_lt_one]
  have hz : r.re = 0 ∨ r.im = 0 := by
    have : r.re * r.im = 0 := by linarith
    exact mul_eq_zero.mp this
  constructor
  · intro ht
    have hi : r.im ≠ 0 := by
      intro h0
      rw [h0] at h1
      nlinarith
    have hr : r.re = 0 := hz.resolve_right hi
    rw [hr] at h1
    exact ⟨by rw [hr]; nlinarith, by rw [hr]; nlinarith, hi⟩
  · rintro ⟨-, -, hi⟩
    have hr : r.re = 0 := hz.resolve_right hi
    rw [hr] at h1
    have : 0 < r.im ^ 2 := by positivity
    nlinarith

/-! ## Examples -/

/-- The hypotheses of `c82_spot`, `c82_spot_normal` and `c82_resize` are met by an elliptic beam, which
has a wavefront as `c82_curvature` and `c82_diverging` ask for. -/
example : PhysicalBeam !![1 - Complex.I, 0; 0, 1 - 4 * Complex.I] ∧
    ((!![1 - Complex.I, 0; 0, 1 - 4 * Complex.I] : QM) 0 1).im = 0 ∧
    curvatureRadius !![1 - Complex.I, 0; 0, 1 - 4 * Complex.I] 3 1 = some 3 ∧
    waistPosition !![1 - Complex.I, 0; 0, 1 - 4 * Complex.I] 3 1 < 0 := by
  refine ⟨⟨?_, fun x hx => ?_⟩, by simp, ?_, ?_⟩
  · ext i j
    fin_cases i <;> fin_cases j <;> simp
  · have : x 0 ≠ 0 ∨ x 1 ≠ 0 := by
      by_contra hcon
      push Not at hcon
      exact hx (by ext i; fin_cases i <;> simp [hcon])
    simp [Matrix.mulVec, dotProduct, Fin.sum_univ_two]
    rcases this with h | h
    · nlinarith [sq_pos_of_ne_zero h, sq_nonneg (x 1)]
    · nlinarith [sq_pos_of_ne_zero h, sq_nonneg (x 0)]
  · simp [curvatureRadius]
  · simp only [waistPosition, one_div, Complex.inv_re]
    simp [Complex.normSq_apply]
    norm_num

/-- A symmetric matrix with turned axes, as `c82_angle` and `c82_turned_violation` ask for. -/
example : (!![2, 1; 1, 2] : M2) 1 0 = (!![2, 1; 1, 2] : M2) 0 1 ∧
    (1 / 10 ^ 8 : ℝ) < |(!![2, 1; 1, 2] : M2) 0 1| := by
  norm_num

/-- The code's own `make_qi` makes beams that `resize` and `print_trace` reject: waists of one and two,
turned by 45 degrees (the hypotheses of `c82_make` and `c82_resize_violation`). -/
example : ∃ q, makeQi 1 1 1 ![1, 2] 0 (Real.pi / 4) = some q ∧ q 1 0 = q 0 1 ∧
    1 / 10 ^ 8 < |(q 0 1).im| := by
  have hpi := Real.pi_pos
  have hpi4 := Real.pi_le_four
  have hpc : (Real.pi : ℂ) ≠ 0 := by exact_mod_cast hpi.ne'
  unfold makeQi
  simp only
  rw [if_neg (by simp [Complex.ext_iff, hpi.ne'])]
  refine ⟨_, rfl, ?_, ?_⟩
  · simp only [toC, Matrix.mul_apply, Fin.sum_univ_two]
    simp
  · have h2 : Real.sqrt 2 * Real.sqrt 2 = 2 := Real.mul_self_sqrt (by norm_num)
    simp only [toC, Matrix.mul_apply, Fin.sum_univ_two]
    simp
    have e : (Real.sqrt 2 / 2 * (Real.pi⁻¹ * (Real.sqrt 2 / 2))
        + -(Real.sqrt 2 / 2 * (((2 : ℂ) ^ 2).re / (2 * 2) ^ 2 * Real.pi⁻¹ * (Real.sqrt 2 / 2)))) = 3 / (8 * Real.pi) := by
      have h4 : ((2 : ℂ) ^ 2).re = 4 := by norm_num [pow_two]
      rw [h4]
      field_simp
      linear_combination 96 * h2
    rw [e]
    rw [abs_of_pos (by positivity), lt_div_iff₀ (by positivity)]
    norm_num
    linarith

end RayOpt
