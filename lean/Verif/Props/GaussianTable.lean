import Verif.Model.GaussianTable
import Verif.Props.GaussianAxes
import Verif.Props.Tables

/-!
C102: what a Gaussian trace prints about its elements.
-/

namespace RayOpt.Tables

open Gauss Sys Matrix

/-- Moving a beam along the coordinate axes to its waist. -/
theorem waist_of {q : QM} (hq : PhysicalBeam q) (h : q 0 1 = 0) {n : ℝ} (hn : n ≠ 0) {scale l : ℝ} (hs : 0 < scale)
    (hl : 0 < l) (k : Fin 2) : ∃ q' w, waistRadius q n scale l k = some w ∧
      freeSpace q (waistPosition q n k / n) = some q' ∧ (q' k k).re = 0 ∧ spotRadius q' scale l k = some w := by
  have hpi := Real.pi_pos
  set d := waistPosition q n k / n with hd
  have hdr : d = -(1 / q k k).re := by
    rw [hd]
    unfold waistPosition
    field_simp
  have him : ∀ i, 0 < (1 / q i i).im := by
    intro i
    have h1 := physical_im hq i
    have h2 : q i i ≠ 0 := fun h0 => by rw [h0] at h1; simp at h1
    rw [one_div, Complex.inv_im]
    exact div_pos (by linarith) (Complex.normSq_pos.mpr h2)
  have hne : ∀ i, q i i ≠ 0 := fun i h0 => by
    have := him i
    rw [h0] at this
    simp at this
  have hfac : ∀ i, 1 + (d : ℂ) * q i i ≠ 0 := by
    intro i h0
    have h1 : 1 / q i i = -(d : ℂ) := by
      have := hne i
      field_simp
      linear_combination h0
    have := him i
    rw [h1] at this
    simp at this
  have hden : (1 + (d : ℂ) * q 0 0) * (1 + (d : ℂ) * q 1 1) - (d : ℂ) ^ 2 * q 0 1 ^ 2 ≠ 0 := by
    rw [h]
    simpa using ⟨hfac 0, hfac 1⟩
  have hval : ∀ q', freeSpace q d = some q' → q' k k = 1 / (1 / q k k + d) := by
    intro q' hq'
    unfold freeSpace at hq'
    dsimp only at hq'
    rw [if_neg hden] at hq'
    cases hq'
    have h0 := hfac 0
    have h1 := hfac 1
    have e : ∀ i, 1 / q i i + (d : ℂ) = (1 + d * q i i) / q i i := fun i => by
      have := hne i
      field_simp
    rw [e, h]
    fin_cases k <;> simp <;> field_simp
  have hex : ∃ q', freeSpace q d = some q' := by
    unfold freeSpace
    dsimp only
    rw [if_neg hden]
    exact ⟨_, rfl⟩
  obtain ⟨q', hq'⟩ := hex
  have hv := hval q' hq'
  have hz : 1 / q k k + (d : ℂ) = Complex.I * ((1 / q k k).im : ℂ) := by
    rw [hdr]
    apply Complex.ext <;> simp
  rw [hz] at hv
  have hv' : q' k k = ((-1 / (1 / q k k).im : ℝ) : ℂ) * Complex.I := by
    rw [hv]
    have h1 : ((1 / q k k).im : ℂ) ≠ 0 := by exact_mod_cast (him k).ne'
    push_cast
    field_simp
    simp
  have hpos := him k
  have hw : rayleighRange q n k / Real.pi / n * l / scale = l / (scale * Real.pi) * (1 / q k k).im := by
    unfold rayleighRange
    field_simp
  refine ⟨q', Real.sqrt (l / (scale * Real.pi) * (1 / q k k).im), ?_, hq', ?_, ?_⟩
  · unfold waistRadius
    dsimp only
    rw [hw, if_neg (not_lt.mpr (by positivity))]
  · rw [hv', Complex.re_ofReal_mul, Complex.I_re, mul_zero]
  · unfold spotRadius
    dsimp only
    have e : -(q' k k).im = 1 / (1 / q k k).im := by
      rw [hv', Complex.im_ofReal_mul, Complex.I_im]
      ring
    rw [e, if_neg]
    · congr 2
      field_simp
    · rintro (h0 | h0)
      · exact absurd h0 (by positivity)
      · exact absurd h0 (not_lt.mpr (by positivity))

/-- C102: the printed trace of a beam along the coordinate axes has one line per element: the distance from the first
element along the axis; the radii at the element, which describe the intensity there, and no turn; how far behind the
element the wave fronts are plane along each axis; and the radii there. -/
theorem c102_gaussian (letters : List Char) (sys : List Elem) (rows : List (QM × ℝ)) (hne : sys ≠ [])
    (hlen : rows.length = sys.length) (hl : letters.length = sys.length)
    (hrows : ∀ r ∈ rows, PhysicalBeam r.1 ∧ r.1 0 1 = 0 ∧ r.2 ≠ 0) {scale l : ℝ} (hs : 0 < scale) (hw : 0 < l) :
    ∃ out, gaussianTable letters sys rows scale l = .ok out ∧ out.length = sys.length + 1 ∧
      out[0]? = some (.header ["path", "spot a", "spot b", "spot ang", "waistx dz", "waisty dz", "waist x", "waist y"]) ∧
      ∀ (j : ℕ) (q : QM) (n : ℝ), rows[j]? = some (q, n) → ∃ c a b zx zy wx wy, letters[j]? = some c ∧
        out[j + 1]? = some (.row j c
          [((sys.take (j + 1)).map fun e => e.tf.distance).sum, a, b, 0, zx, zy, wx, wy]) ∧
        (∀ x, beamIntensity q scale l x = Real.exp (-2 * ((x 0 / a) ^ 2 + (x 1 / b) ^ 2))) ∧
        (∃ q', freeSpace q (zx / n) = some q' ∧ (q' 0 0).re = 0 ∧ spotRadius q' scale l 0 = some wx) ∧
        (∃ q', freeSpace q (zy / n) = some q' ∧ (q' 1 1).re = 0 ∧ spotRadius q' scale l 1 = some wy) := by
  choose! f g hfg using fun (r : QM × ℝ) (hr : r ∈ rows) =>
    c82_spot_normal (hrows r hr).1 (by rw [(hrows r hr).2.1]; rfl) hs hw
  choose! q0 w0 h0 using fun (r : QM × ℝ) (hr : r ∈ rows) =>
    waist_of (hrows r hr).1 (hrows r hr).2.1 (hrows r hr).2.2 hs hw 0
  choose! q1 w1 h1 using fun (r : QM × ℝ) (hr : r ∈ rows) =>
    waist_of (hrows r hr).1 (hrows r hr).2.1 (hrows r hr).2.2 hs hw 1
  have m0 := mapM_map_some (f := fun r : QM × ℝ => spotNormal r.1 scale l) (g := fun r => (f r, g r, (0 : ℝ)))
    (l := rows) (fun r hr => (hfg r hr).1)
  have m1 := mapM_map_some (f := fun r : QM × ℝ => waistRadius r.1 r.2 scale l 0) (g := w0)
    (l := rows) (fun r hr => (h0 r hr).1)
  have m2 := mapM_map_some (f := fun r : QM × ℝ => waistRadius r.1 r.2 scale l 1) (g := w1)
    (l := rows) (fun r hr => (h1 r hr).1)
  have hpl : (path sys).length = sys.length := by simp [path]
  obtain ⟨t, hst, htl, htg⟩ := stack_ok [path sys, (rows.map fun r => (f r, g r, (0 : ℝ))).map fun x => x.1,
    (rows.map fun r => (f r, g r, (0 : ℝ))).map fun x => x.2.1,
    (rows.map fun r => (f r, g r, (0 : ℝ))).map fun x => rad2deg x.2.2,
    rows.map fun r => waistPosition r.1 r.2 0, rows.map fun r => waistPosition r.1 r.2 1, rows.map w0, rows.map w1]
    sys.length (by simp) (by simp [hlen, hpl])
  have hwid : ∀ a ∈ t, a.length =
      ["path", "spot a", "spot b", "spot ang", "waistx dz", "waisty dz", "waist x", "waist y"].length := by
    intro a ha
    obtain ⟨j, hj⟩ := List.mem_iff_getElem?.mp ha
    have hjl : j < sys.length := by rw [← htl]; exact (List.getElem?_eq_some_iff.mp hj).1
    rw [htg j hjl] at hj
    cases hj
    simp
  obtain ⟨out, ho, hol, hhd, hg, -⟩ := c102_rows letters t
    ["path", "spot a", "spot b", "spot ang", "waistx dz", "waisty dz", "waist x", "waist y"] false hwid (by omega)
  refine ⟨out, ?_, by rw [hol, htl]; simp; omega, hhd, ?_⟩
  · simp only [gaussianTable, m0, m1, m2, number, bind, Except.bind, hst]
    exact ho
  · intro j q n hr
    have hjl : j < sys.length := by rw [← hlen]; exact (List.getElem?_eq_some_iff.mp hr).1
    have hmem : (q, n) ∈ rows := List.mem_of_getElem? hr
    obtain ⟨c, e1, e2⟩ := hg j _ (htg j hjl)
    refine ⟨c, f (q, n), g (q, n), waistPosition q n 0, waistPosition q n 1, w0 (q, n), w1 (q, n), e1, ?_,
      (hfg _ hmem).2.2.2, ⟨_, (h0 _ hmem).2⟩, ⟨_, (h1 _ hmem).2⟩⟩
    rw [e2]
    simp [List.getD_eq_getElem?_getD, hr, (c25_path sys j hjl).1, rad2deg]

/-- C102 is violated by a beam with turned axes at any of the elements: nothing of the trace is printed. -/
theorem c102_gaussian_violation (letters : List Char) (sys : List Elem) (rows : List (QM × ℝ)) (r : QM × ℝ)
    (hr : r ∈ rows) (hsym : r.1 1 0 = r.1 0 1) (h : 1 / 10 ^ 8 < |(r.1 0 1).im|) (scale l : ℝ) :
    gaussianTable letters sys rows scale l = .error .assertion := by
  have e : spotNormal r.1 scale l = none := by
    unfold spotNormal
    dsimp only
    rw [c82_turned_violation]
    · rfl
    · simp [hsym]
    · simpa using h
  have hm := mapM_none (f := fun r : QM × ℝ => spotNormal r.1 scale l) hr e
  simp only [gaussianTable, hm, number, bind, Except.bind]

/-- The hypotheses of `c102_gaussian` are met by an elliptic beam behind its waists in glass. -/
example : let r : QM × ℝ := (!![1 - Complex.I, 0; 0, 1 - 4 * Complex.I], 3)
    PhysicalBeam r.1 ∧ r.1 0 1 = 0 ∧ r.2 ≠ 0 ∧ waistPosition r.1 r.2 0 = -(3 / 2) ∧
      waistRadius r.1 r.2 1 (2 * Real.pi) 0 = some 1 := by
  refine ⟨⟨?_, fun x hx => ?_⟩, by simp, by norm_num, ?_, ?_⟩
  · ext i j
    fin_cases i <;> fin_cases j <;> simp
  · have : x 0 ≠ 0 ∨ x 1 ≠ 0 := by
      by_contra hcon
      push Not at hcon
      exact hx (by ext i; fin_cases i <;> simp [hcon])
    simp [Matrix.mulVec, dotProduct, Fin.sum_univ_two]
    rcases this with h | h
    · nlinarith [sq_pos_of_ne_zero h, sq_nonneg (x 1)]
    · nlinarith [sq_pos_of_ne_zero h, sq_nonneg (x 0)]
  · simp only [waistPosition, one_div, Complex.inv_re]
    simp [Complex.normSq_apply]
    norm_num
  · have hpi := Real.pi_pos
    have e : rayleighRange !![1 - Complex.I, 0; 0, 1 - 4 * Complex.I] 3 0 / Real.pi / 3 * (2 * Real.pi) / 1 = 1 := by
      simp only [rayleighRange, one_div, Complex.inv_im]
      simp [Complex.normSq_apply]
      field_simp
      norm_num
    unfold waistRadius
    dsimp only
    rw [e, if_neg (by norm_num), Real.sqrt_one]

/-- The hypotheses of `c102_gaussian_violation` are met by a beam turned by 45 degrees. -/
example : let r : QM × ℝ := (!![-2 * Complex.I, -Complex.I; -Complex.I, -2 * Complex.I], 1)
    r.1 1 0 = r.1 0 1 ∧ 1 / 10 ^ 8 < |(r.1 0 1).im| := by
  norm_num

end RayOpt.Tables
