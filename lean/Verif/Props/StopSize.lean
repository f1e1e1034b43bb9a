import Verif.Props.Resolution

/-!
C85: `update_stop` after `update_conjugates`.
-/

namespace RayOpt

open Matrix Parax Sys PTrace Util Transform

theorem map_swap (y lo hi : ℝ × ℝ) (f : Bool) : Pupil.map y lo hi f = Pupil.map y hi lo f := by
  unfold Pupil.map
  have h1 : max (max |lo.1| |lo.2|) (max |hi.1| |hi.2|) = max (max |hi.1| |hi.2|) (max |lo.1| |lo.2|) :=
    max_comm _ _
  have h2 : (lo.1 - hi.1) / 2 = -((hi.1 - lo.1) / 2) := by ring
  have h3 : (lo.2 - hi.2) / 2 = -((hi.2 - lo.2) / 2) := by ring
  simp only [h1, add_comm lo.1 hi.1, add_comm lo.2 hi.2, h2, h3, neg_sq, neg_eq_zero]

theorem finite_aperture_neg (R z h : ℝ) (tel : Bool) (yo yp : ℝ × ℝ) (f : Bool) :
    Finite.aim R tel yo (some yp) z (aperture (-h)) none f
      = Finite.aim R tel yo (some yp) z (aperture h) none f := by
  have : Finite.pupilPoint yp (aperture (-h)) z f = Finite.pupilPoint yp (aperture h) z f := by
    unfold Finite.pupilPoint aperture
    simp only [neg_neg]
    rw [map_swap]
  unfold Finite.aim
  simp only [this]

theorem infinite_aperture_neg (pr : Projection) (R z h : ℝ) (yo yp : ℝ × ℝ) (f : Bool) :
    Infinite.aim pr R yo (some yp) z (aperture (-h)) none f
      = Infinite.aim pr R yo (some yp) z (aperture h) none f := by
  unfold Infinite.aim
  have : Pupil.map yp (aperture (-h)).1 (aperture (-h)).2 f
      = Pupil.map yp (aperture h).1 (aperture h).2 f := by
    unfold aperture
    simp only [neg_neg]
    rw [map_swap]
  simp only [this]

/-- The marginal ray aimed from the axial point at the edge of a pupil at a finite distance. -/
theorem finite_edge (R z h s : ℝ) (tel : Bool) (hz : z ≠ 0) (hh : h ≠ 0) (hs : s = 1 ∨ s = -1)
    (m : M2) : ∃ y u, Finite.aim R tel (0, 0) (some (0, s)) z (aperture h) none true = some (y, u) ∧
      stopHeight m y u = some (m 0 1 * (s * (|h| / |z|))) := by
  have key : Finite.aim R tel (0, 0) (some (0, s)) z (aperture h) none true
      = Finite.aim R tel (0, 0) (some (0, s)) z (aperture |h|) none true := by
    rcases abs_choice h with e | e <;> rw [e]
    rw [finite_aperture_neg]
  rw [key]
  have hp := abs_pos.mpr hh
  have hpp : Finite.pupilPoint (0, s) (aperture |h|) z true = some (0, s * |h|) := by
    have := Finite.c37_edge hp hz true
    rcases hs with rfl | rfl
    · rw [this.2.2.1]; simp
    · rw [this.2.2.2.1]; simp
  obtain ⟨⟨y, u⟩, ha⟩ := Finite.c37_defined R z tel (0, 0) (0, s) (aperture |h|) true hz hpp
  obtain ⟨rfl, hd, p, q, hpq, t, ht, hl⟩ := Finite.c37_axis hz ha
  rw [hpp] at hpq
  cases hpq
  refine ⟨_, u, ha, ?_⟩
  have ht0 : t ≠ 0 := fun h => by rw [h] at ht; simp at ht
  have hx := congrArg V3.x hl
  have hy := congrArg V3.y hl
  have hzz := congrArg V3.z hl
  simp only [V3.smul_x, V3.smul_y, V3.smul_z] at hx hy hzz
  have huz : u.z ≠ 0 := fun h => hz (by rw [← hzz, h]; ring)
  have hslope : u.y / u.z = s * (|h| / |z|) := by
    have e1 : u.y / u.z = (t * u.y) / (t * u.z) := by field_simp
    rw [e1, hy, hzz]
    rcases lt_or_gt_of_ne hz with h0 | h0
    · rw [abs_of_neg h0, sign_neg h0]
      simp only [SignType.coe_neg_one]
      field_simp
    · rw [abs_of_pos h0, sign_pos h0]
      simp only [SignType.coe_one]
      field_simp
  unfold stopHeight tanarcsinRow
  simp only [if_neg huz, Option.bind_some, List.getElem?_cons_succ, List.getElem?_cons_zero,
    Option.map_some, Option.some.injEq]
  simp [Matrix.mulVec, dotProduct, Fin.sum_univ_two, hslope]

/-- The same for a pupil seen from infinity. -/
theorem infinite_edge (pr : Projection) (R z h s : ℝ) (hpr : Infinite.map pr (0, 0) R = some ⟨0, 0, 1⟩)
    (hh : h ≠ 0) (hs : s = 1 ∨ s = -1) (m : M2) :
    ∃ y u, Infinite.aim pr R (0, 0) (some (0, s)) z (aperture h) none true = some (y, u) ∧
      stopHeight m y u = some (m 0 0 * (s * |h|)) := by
  have key : Infinite.aim pr R (0, 0) (some (0, s)) z (aperture h) none true
      = Infinite.aim pr R (0, 0) (some (0, s)) z (aperture |h|) none true := by
    rcases abs_choice h with e | e <;> rw [e]
    rw [infinite_aperture_neg]
  rw [key]
  have hp := abs_pos.mpr hh
  generalize |h| = g at *
  have hmap : Pupil.map (0, s) (aperture g).1 (aperture g).2 true = some (0, s * g) := by
    have : s ^ 2 = 1 := by rcases hs with rfl | rfl <;> norm_num
    unfold Pupil.map aperture
    have e : (g - -g) / 2 = g := by ring
    simp only [abs_neg, max_self, abs_of_pos hp, if_true, zero_mul, neg_add_cancel, zero_div, sub_zero, e,
      hp.ne', or_self, if_false, mul_pow, this]
    rw [if_pos]
    have := hp.ne'
    field_simp
    norm_num
  have hfr : sagittalMeridional ⟨0, 0, 1⟩ ⟨0, 0, z⟩ = some (⟨1, 0, 0⟩, ⟨0, 1, 0⟩) := by
    have hc : (⟨0, 0, 1⟩ : V3).cross ⟨0, 0, z⟩ = 0 := by ext <;> simp [V3.cross]
    have hc2 : (⟨0, 0, 1⟩ : V3).cross ⟨1, 0, 0⟩ = ⟨0, 1, 0⟩ := by ext <;> simp [V3.cross]
    have n1 : (⟨1, 0, 0⟩ : V3).norm = 1 := by simp [V3.norm, V3.dot]
    have n2 : (⟨0, 1, 0⟩ : V3).norm = 1 := by simp [V3.norm, V3.dot]
    simp only [sagittalMeridional, hc, if_true, hc2, Util.normalize, n1, n2, one_ne_zero, if_false,
      Option.bind_some, Option.map_some, Option.some.injEq, Prod.mk.injEq]
    constructor <;> ext <;> simp
  refine ⟨_, _, by simp only [Infinite.aim, hpr, Option.bind_some, hmap, hfr, Option.map_some]; rfl, ?_⟩
  unfold stopHeight tanarcsinRow
  simp [Matrix.mulVec, dotProduct, Fin.sum_univ_two]

theorem sign_mul_div {x y : ℝ} (hx : x ≠ 0) (hy : y ≠ 0) :
    x * (|y| / |x|) = SignType.sign (x * y) * y := by
  rcases lt_or_gt_of_ne hx with h1 | h1 <;> rcases lt_or_gt_of_ne hy with h2 | h2
  · rw [abs_of_neg h1, abs_of_neg h2, sign_pos (mul_pos_of_neg_of_neg h1 h2)]; simp; field_simp
  · rw [abs_of_neg h1, abs_of_pos h2, sign_neg (mul_neg_of_neg_of_pos h1 h2)]; simp; field_simp
  · rw [abs_of_pos h1, abs_of_neg h2, sign_neg (mul_neg_of_pos_of_neg h1 h2)]; simp; field_simp
  · rw [abs_of_pos h1, abs_of_pos h2, sign_pos (mul_pos h1 h2)]; simp; field_simp

/-- C85, object end: with the entrance pupil `(d, h)` that `update_conjugates` computes for a stop of
radius `r`, `update_stop("object")` sets the radius to `r/n0` for a finite object (`n0` is the index in
object space), with the sign of `d h`, and to `r` with the sign of `h` for one at infinity. -/
theorem c85_object (sys : List Elem) (axis : Fin 2) (l : ℝ) (ai : ℕ) (r d h : ℝ) (hr : r ≠ 0)
    (hp : entrancePupil sys axis l ai r = some (d, h)) (hn : refractiveIndex sys l 0 ≠ 0)
    (o : Conj) (hd : o.pupil.distance = d) (hh : o.pupil.radius = some h) (pr : Projection) :
    (o.finite = true → d ≠ 0 →
      updateStop sys axis l ai .object o pr
        = some (SignType.sign (d * h) * (r / refractiveIndex sys l 0))) ∧
    (o.finite = false → Infinite.map pr (0, 0) o.size = some ⟨0, 0, 1⟩ →
      updateStop sys axis l ai .object o pr = some (SignType.sign h * r)) := by
  unfold entrancePupil at hp
  simp only [Option.bind_eq_some_iff, Option.map_eq_some_iff] at hp
  obtain ⟨nm, hnm, d', hd', h', hh', heq⟩ := hp
  cases heq
  obtain ⟨ha, rfl⟩ := qdiv_some hd'
  obtain ⟨-, rfl⟩ := qdiv_some hh'
  set m := block nm.2 axis with hm
  set n0 := refractiveIndex sys l 0 with hn0
  have hh0 : r / m 0 0 ≠ 0 := div_ne_zero hr ha
  unfold updateStop Conj.aim
  rw [hnm, hh]
  simp only [Option.bind_some]
  constructor
  · intro hf hd0
    obtain ⟨y, u, h1, h2⟩ := finite_edge o.size o.pupil.distance _ 1 o.pupil.telecentric
      (by rw [hd]; exact hd0) hh0 (Or.inl rfl) m
    rw [if_pos hf, h1]
    simp only [Option.bind_some]
    rw [h2, hd, one_mul]
    congr 1
    have hsg := sign_mul_div hd0 hh0
    rw [← mul_div_assoc, ← mul_div_assoc, eq_div_iff hn]
    have : m 0 1 = m 0 1 * n0 / m 0 0 * (m 0 0 / n0) := by field_simp
    calc _ = (m 0 1 * n0 / m 0 0 * (|r / m 0 0| / |m 0 1 * n0 / m 0 0|)) * m 0 0 := by
          rw [mul_div_assoc']; field_simp
      _ = _ := by rw [hsg]; field_simp
  · intro hf hpr
    obtain ⟨y, u, h1, h2⟩ := infinite_edge pr o.size o.pupil.distance _ 1 hpr hh0 (Or.inl rfl) m
    rw [if_neg (by simp [hf]), h1]
    simp only [Option.bind_some]
    rw [h2, one_mul]
    congr 1
    rcases lt_or_gt_of_ne hh0 with h0 | h0
    · rw [abs_of_neg h0, sign_neg h0]; simp; field_simp
    · rw [abs_of_pos h0, sign_pos h0]; simp; field_simp

/-- C85, image end: with the exit pupil `(d, h)` that `update_conjugates` computes for a stop of radius
`r`, `update_stop("image")` sets the radius to `r/n` for a finite image (`n` is the index in image
space), with the sign of `-d h`, and to `r` with the sign of `-h` for one at infinity. -/
theorem c85_image (sys : List Elem) (axis : Fin 2) (l : ℝ) (ai : ℕ) (r d h : ℝ) (hr : r ≠ 0)
    (hp : exitPupil sys axis l ai r = some (d, h)) {nm : ℝ × PM}
    (hnm : paraxialMatrix sys l ((ai + 1 : ℕ) : ℤ) none = some nm) (hn : nm.1 ≠ 0)
    (o : Conj) (hd : o.pupil.distance = d) (hh : o.pupil.radius = some h) (pr : Projection) :
    (o.finite = true → d ≠ 0 →
      updateStop sys axis l ai .image o pr = some (-SignType.sign (d * h) * (r / nm.1))) ∧
    (o.finite = false → Infinite.map pr (0, 0) o.size = some ⟨0, 0, 1⟩ →
      updateStop sys axis l ai .image o pr = some (-SignType.sign h * r)) := by
  unfold exitPupil at hp
  rw [hnm] at hp
  simp only [Option.bind_some] at hp
  split at hp
  · cases hp
  rename_i hdet
  simp only [Option.bind_eq_some_iff, Option.map_eq_some_iff] at hp
  obtain ⟨d', hd', h', hh', heq⟩ := hp
  cases heq
  obtain ⟨ha, rfl⟩ := qdiv_some hd'
  obtain ⟨-, rfl⟩ := qdiv_some hh'
  unfold updateStop Conj.aim
  rw [hnm, hh]
  simp only [Option.bind_some]
  rw [if_neg hdet]
  generalize (block nm.2 axis)⁻¹ = m at *
  generalize nm.1 = n0 at *
  have hh0 : r / m 0 0 ≠ 0 := div_ne_zero hr ha
  constructor
  · intro hf hd0
    obtain ⟨y, u, h1, h2⟩ := finite_edge o.size o.pupil.distance _ (-1) o.pupil.telecentric
      (by rw [hd]; exact hd0) hh0 (Or.inr rfl) m
    rw [if_pos hf, h1]
    simp only [Option.bind_some]
    rw [h2, hd]
    congr 1
    have hsg := sign_mul_div hd0 hh0
    refine Eq.trans ?_ (mul_div_assoc _ _ _)
    rw [eq_div_iff hn]
    calc _ = -((m 0 1 * n0 / m 0 0 * (|r / m 0 0| / |m 0 1 * n0 / m 0 0|)) * m 0 0) := by
          rw [mul_div_assoc']; field_simp
      _ = _ := by rw [hsg]; field_simp
  · intro hf hpr
    obtain ⟨y, u, h1, h2⟩ := infinite_edge pr o.size o.pupil.distance _ (-1) hpr hh0 (Or.inr rfl) m
    rw [if_neg (by simp [hf]), h1]
    simp only [Option.bind_some]
    rw [h2]
    congr 1
    rcases lt_or_gt_of_ne hh0 with h0 | h0
    · rw [abs_of_neg h0, sign_neg h0]; simp; field_simp
    · rw [abs_of_pos h0, sign_pos h0]; simp; field_simp

/-- The rectilinear, stereographic and equisolid projections map the centre of the field to the
axis. -/
theorem map_axis (R : ℝ) : ∀ pr ∈ [Projection.rectilinear, .stereographic, .equisolid],
    Infinite.map pr (0, 0) R = some ⟨0, 0, 1⟩ := by
  intro pr h
  simp only [List.mem_cons, List.not_mem_nil, or_false] at h
  rcases h with rfl | rfl | rfl <;> norm_num [Infinite.map]

/-- C85, in air: whatever the signs, the size of the stop is recovered at both ends. -/
theorem c85_size (sys : List Elem) (axis : Fin 2) (l : ℝ) (ai : ℕ) (r d h d' h' : ℝ) (hr : r ≠ 0)
    (hp : entrancePupil sys axis l ai r = some (d, h)) (hn : refractiveIndex sys l 0 = 1)
    (hp' : exitPupil sys axis l ai r = some (d', h')) {nm : ℝ × PM}
    (hnm : paraxialMatrix sys l ((ai + 1 : ℕ) : ℤ) none = some nm) (hn' : nm.1 = 1)
    (o i : Conj) (ho : o.pupil.distance = d ∧ o.pupil.radius = some h) (hd : d ≠ 0)
    (hi : i.pupil.distance = d' ∧ i.pupil.radius = some h') (hd' : d' ≠ 0) (hh : h ≠ 0) (hh' : h' ≠ 0) :
    (∃ x, updateStop sys axis l ai .object o .rectilinear = some x ∧ |x| = |r|) ∧
    (∃ x, updateStop sys axis l ai .image i .rectilinear = some x ∧ |x| = |r|) := by
  have hsg : ∀ x : ℝ, x ≠ 0 → |((SignType.sign x : SignType) : ℝ)| = 1 := fun x hx => by
    rcases lt_or_gt_of_ne hx with h0 | h0
    · rw [sign_neg h0]; simp
    · rw [sign_pos h0]; simp
  obtain ⟨a1, a2⟩ := c85_object sys axis l ai r d h hr hp (by rw [hn]; norm_num) o ho.1 ho.2 .rectilinear
  obtain ⟨b1, b2⟩ := c85_image sys axis l ai r d' h' hr hp' hnm (by rw [hn']; norm_num) i hi.1 hi.2
    .rectilinear
  constructor
  · cases hf : o.finite with
    | true => exact ⟨_, a1 hf hd, by rw [abs_mul, hsg _ (mul_ne_zero hd hh), hn, div_one, one_mul]⟩
    | false => exact ⟨_, a2 hf (map_axis _ _ (by simp)), by rw [abs_mul, hsg _ hh, one_mul]⟩
  · cases hf : i.finite with
    | true =>
      exact ⟨_, b1 hf hd', by rw [abs_mul, abs_neg, hsg _ (mul_ne_zero hd' hh'), hn', div_one, one_mul]⟩
    | false => exact ⟨_, b2 hf (map_axis _ _ (by simp)), by rw [abs_mul, abs_neg, hsg _ hh', one_mul]⟩

theorem immersed_tail (axis : Fin 2) (l : ℝ) :
    paraxialMatrix immersed l ((1 + 1 : ℕ) : ℤ) none = some (3 / 2, transfer 9 (3 / 2)) ∧
    exitPupil immersed axis l 1 1 = some (-9, 1) := by
  have hsl2 : pySlice immersed ((1 + 1 : ℕ) : ℤ) none = immersed.drop 2 := by
    simp [pySlice, pyStop, pyBound, immersed]
  have hidx1 : refractiveIndex immersed l 1 = 3 / 2 := by
    have := refractiveIndex_nat immersed l 1
    simp only [Nat.cast_one] at this
    rw [this]
    simp [immersed, Elem.index?, Elem.mat, glass]
  have hMP : MarksPlane (⟨Transform.init 9 V3.ez 0 none, .fin 1, some ⟨0, 0, none, false⟩,
      some none⟩ : Elem) := ⟨rfl, by simp [init_angles], by simp⟩
  have h3 := marksPlane_matrix (l := l) hMP (show (3 / 2 : ℝ) ≠ 0 by norm_num)
  have hd2 : (Transform.init 9 V3.ez 0 none).distance = 9 := init_distance (by norm_num)
  have hm : paraxialMatrix immersed l ((1 + 1 : ℕ) : ℤ) none = some (3 / 2, transfer 9 (3 / 2)) := by
    unfold paraxialMatrix paraxialMatrices
    rw [hsl2, show ((1 + 1 : ℕ) : ℤ) - 1 = 1 by norm_num, hidx1]
    simp only [immersed, List.drop_succ_cons, List.drop_zero, matricesFrom]
    rw [h3]
    simp only [Option.bind_some, Option.map_some, accumulate, List.foldl_cons, List.foldl_nil,
      Matrix.mul_one, hd2]
  refine ⟨hm, ?_⟩
  have hb : block (transfer 9 (3 / 2)) axis = !![1, 6; 0, 1] := by
    ext i j; fin_cases i <;> fin_cases j <;> fin_cases axis <;> norm_num [block, transfer]
  have hinv : (!![1, 6; 0, 1] : M2)⁻¹ = !![1, -6; 0, 1] := by
    rw [Matrix.inv_def, Matrix.adjugate_fin_two]
    simp [Matrix.det_fin_two]
  unfold exitPupil
  rw [hm]
  simp only [Option.bind_some, hb, hinv]
  norm_num [Matrix.det_fin_two, qdiv]

/-- C85, violation: behind a surface into glass, with a stop of radius 1 on the surface and a finite
image in the glass, `update_conjugates` finds the exit pupil of radius 1 at the stop, but `update_stop`
then sets the radius of the stop to 2/3; for an image at infinity it sets it to -1. -/
theorem c85_image_violation (axis : Fin 2) (l : ℝ) (o : Conj)
    (ho : o.pupil.distance = -9 ∧ o.pupil.radius = some 1) :
    exitPupil immersed axis l 1 1 = some (-9, 1) ∧
    (o.finite = true → updateStop immersed axis l 1 .image o .rectilinear = some (2 / 3)) ∧
    (o.finite = false → updateStop immersed axis l 1 .image o .rectilinear = some (-1)) := by
  obtain ⟨hm, hx⟩ := immersed_tail axis l
  obtain ⟨h1, h2⟩ := c85_image immersed axis l 1 1 (-9) 1 one_ne_zero hx hm (by norm_num) o ho.1 ho.2
    .rectilinear
  refine ⟨hx, fun hf => ?_, fun hf => ?_⟩
  · rw [h1 hf (by norm_num), sign_neg (by norm_num)]
    norm_num
  · rw [h2 hf (map_axis _ _ (by simp)), sign_pos one_pos]
    norm_num

/-- The hypotheses of `c85_object` and `c85_size` at the object end: the lens with the stop on its first
surface (entrance pupil of radius 1 at distance 5) and an object as `update_conjugates` leaves it. -/
example (axis : Fin 2) (l : ℝ) : entrancePupil lensSystem axis l 1 1 = some (5, 1) ∧
    refractiveIndex lensSystem l 0 = 1 ∧ lensObject.pupil.distance = 5 ∧
    lensObject.pupil.radius = some 1 ∧ lensObject.finite = true ∧
    updateStop lensSystem axis l 1 .object lensObject .rectilinear = some 1 := by
  refine ⟨lens_entrance axis l, lens_index l, rfl, rfl, rfl, ?_⟩
  rw [(c85_object lensSystem axis l 1 1 5 1 one_ne_zero (lens_entrance axis l)
    (by rw [lens_index]; norm_num) lensObject rfl rfl .rectilinear).1 rfl (by norm_num), lens_index,
    sign_pos (by norm_num)]
  norm_num

/-- The hypotheses of `c85_image`. -/
example (axis : Fin 2) (l : ℝ) : ∃ o : Conj, exitPupil immersed axis l 1 1 = some (-9, 1) ∧
    paraxialMatrix immersed l ((1 + 1 : ℕ) : ℤ) none = some (3 / 2, transfer 9 (3 / 2)) ∧
    o.finite = true ∧ o.pupil.distance = -9 ∧ o.pupil.radius = some 1 :=
  ⟨⟨true, 1, false, false, ⟨.radius 1, -9, 3 / 2, true, true, false⟩⟩, (immersed_tail axis l).2,
    (immersed_tail axis l).1, rfl, rfl, rfl⟩

end RayOpt
