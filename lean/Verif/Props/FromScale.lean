import Verif.Props.FromMatrix

/-!
C98: `scale_from_matrix` and `shear_from_matrix` (rayopt/transformations.py 418-456, 677-719).
-/

namespace RayOpt

open V3 H4

/-- C98: `scale_from_matrix` of a uniform scaling by a factor not within 1e-8 of one gives the factor, the origin
and no direction. -/
theorem c98_scale (eig3 : M3 → List Eig3) (eig4 : H4 → List Eig4) (f : ℝ) (o : V3) (hf : 1 / 10 ^ 8 ≤ |f - 1|)
    (h3 : IsEig3 (scaling f (some o) none).a (eig3 (scaling f (some o) none).a))
    (h4 : IsEig4 (scaling f (some o) none) (eig4 (scaling f (some o) none))) :
    scaleFrom eig3 eig4 (scaling f (some o) none) = .ok (f, some o, none) := by
  have hM : scaling f (some o) none = ⟨smul3 f M3.one, (1 - f) • o, 0, 1⟩ := rfl
  obtain ⟨m, hm⟩ : ∃ m, scaling f (some o) none = m := ⟨_, rfl⟩
  rw [hm] at hM h3 h4 ⊢
  have hf1 : f - 1 ≠ 0 := by
    intro h; rw [h, abs_zero] at hf; exact absurd hf (not_le.mpr eps_pos)
  have hfix : m.app (o, 1) = (o, 1) := by
    rw [hM]; ext <;> simp [app, M3.mulVec, smul3, M3.one, dot] <;> ring
  have hsq4 : ∀ v, m.app (m.app v) =
      ((1 + f) • (m.app v).1 - (1 * f) • v.1, (1 + f) * (m.app v).2 - 1 * f * v.2) := by
    intro v; rw [hM]
    ext <;> simp [app, M3.mulVec, smul3, M3.one, dot] <;> ring
  obtain ⟨e, hlast, hu, hv, hq⟩ := fixed_last h4 (by
    intro e he hen
    obtain ⟨him, hre, -⟩ := h4.roots hsq4 he
    refine ⟨hre.resolve_right fun h => ?_, him⟩
    rw [h] at hen; exact absurd hen (not_lt.mpr hf)) hfix
  have hq0 : dehom e.vr = some o := by
    have hvx := hv
    rw [hM] at hvx
    simp only [app, M3.mulVec, smul3, M3.one, Prod.ext_iff, V3.ext_iff, smul_x, smul_y, smul_z, add_x, add_y, add_z]
      at hvx
    obtain ⟨⟨hx, hy, hz⟩, -⟩ := hvx
    have hx : e.vr.1.x = e.vr.2 * o.x := by
      have : (f - 1) * (e.vr.1.x - e.vr.2 * o.x) = 0 := by linear_combination hx
      linarith [(mul_eq_zero.mp this).resolve_left hf1]
    have hy : e.vr.1.y = e.vr.2 * o.y := by
      have : (f - 1) * (e.vr.1.y - e.vr.2 * o.y) = 0 := by linear_combination hy
      linarith [(mul_eq_zero.mp this).resolve_left hf1]
    have hz : e.vr.1.z = e.vr.2 * o.z := by
      have : (f - 1) * (e.vr.1.z - e.vr.2 * o.z) = 0 := by linear_combination hz
      linarith [(mul_eq_zero.mp this).resolve_left hf1]
    have h0 : e.vr.2 ≠ 0 := by
      intro h0
      simp only [dot] at hu
      rw [hx, hy, hz, h0] at hu
      norm_num at hu
    unfold dehom point
    rw [if_neg h0]
    congr 1
    ext <;> simp only [smul_x, smul_y, smul_z]
    · rw [hx]; field_simp
    · rw [hy]; field_simp
    · rw [hz]; field_simp
  have htr : tr m.a - 2 = 3 * f - 2 := by rw [hM]; simp [tr, smul3, M3.one]; ring
  have hnone : (near3 (eig3 m.a) (3 * f - 2) (1 / 10 ^ 8)).head? = none := by
    rw [List.head?_eq_none_iff]
    refine List.eq_nil_iff_forall_not_mem.mpr fun x hx => ?_
    obtain ⟨hxl, hxn⟩ := near3_mem.mp hx
    obtain ⟨-, hre, -⟩ := h3.roots (a := f) (b := f) (by
      intro v; rw [hM]
      ext <;> simp [M3.mulVec, smul3, M3.one] <;> ring) hxl
    rw [or_self_iff] at hre
    rw [hre, show f - (3 * f - 2) = -2 * (f - 1) by ring, abs_mul] at hxn
    norm_num at hxn hf
    linarith [abs_nonneg (f - 1)]
  simp only [scaleFrom, htr, hnone, fixedPoint, hlast, Except.map, hq0]
  congr 2; ring

/-- C98: `scale_from_matrix` of a scaling along a direction by a factor not within 1e-8 of one gives the factor and
the direction, up to the sign; if the origin found is finite, the scaling found is the same. -/
theorem c98_scale_direction (eig3 : M3 → List Eig3) (eig4 : H4 → List Eig4) (f : ℝ) (o d : V3) (hd : d ≠ 0)
    (hf : 1 / 10 ^ 8 ≤ |f - 1|)
    (h3 : IsEig3 (scaling f (some o) (some d)).a (eig3 (scaling f (some o) (some d)).a))
    (h4 : IsEig4 (scaling f (some o) (some d)) (eig4 (scaling f (some o) (some d)))) :
    ∃ q v, scaleFrom eig3 eig4 (scaling f (some o) (some d)) = .ok (f, q, some v) ∧
      (v = unitVector d ∨ v = -unitVector d) ∧
      ∀ q', q = some q' → scaling f (some q') (some v) = scaling f (some o) (some d) := by
  obtain ⟨u, l, hu, hu1, hl, -⟩ := unit_spec hd
  have hu1' := hu1
  simp only [dot] at hu1'
  have hM : scaling f (some o) (some d) =
      ⟨add3 M3.one (smul3 (-(1 - f)) (outer u u)), ((1 - f) * o.dot u) • u, 0, 1⟩ := by
    unfold scaling; simp only [hu]
  obtain ⟨m, hm⟩ : ∃ m, scaling f (some o) (some d) = m := ⟨_, rfl⟩
  rw [hm] at hM h3 h4 ⊢
  have hf1 : f - 1 ≠ 0 := by
    intro h; rw [h, abs_zero] at hf; exact absurd hf (not_le.mpr eps_pos)
  have hfix : m.app (o, 1) = (o, 1) := by
    rw [hM]; ext <;> simp [app, M3.mulVec, add3, smul3, outer, M3.one, dot] <;> ring
  have ha : ∀ v, m.a.mulVec v = v + ((f - 1) * u.dot v) • u := by
    intro v; rw [hM]; ext <;> simp [M3.mulVec, add3, smul3, outer, M3.one, dot] <;> ring
  have hb : m.b = ((1 - f) * o.dot u) • u := by rw [hM]
  have hc : ∀ v, m.c.dot v = 0 := by intro v; rw [hM]; simp [dot]
  have hd1 : m.d = 1 := by rw [hM]
  have hsq3 : ∀ v, m.a.mulVec (m.a.mulVec v) = (1 + f) • m.a.mulVec v - (1 * f) • v := by
    intro v; simp only [ha]
    have : u.dot (v + ((f - 1) * u.dot v) • u) = f * u.dot v := by
      simp only [dot, add_x, add_y, add_z, smul_x, smul_y, smul_z]
      linear_combination (f - 1) * (u.x * v.x + u.y * v.y + u.z * v.z) * hu1'
    rw [this]
    ext <;> simp only [add_x, add_y, add_z, smul_x, smul_y, smul_z, sub_x, sub_y, sub_z] <;> ring
  have hsq4 : ∀ v, m.app (m.app v) =
      ((1 + f) • (m.app v).1 - (1 * f) • v.1, (1 + f) * (m.app v).2 - 1 * f * v.2) := by
    intro v; simp only [app, ha, hb, hc, hd1]
    have : u.dot (v.1 + ((f - 1) * u.dot v.1) • u + v.2 • ((1 - f) * o.dot u) • u) =
        f * u.dot v.1 + v.2 * (1 - f) * o.dot u := by
      simp only [dot, add_x, add_y, add_z, smul_x, smul_y, smul_z]
      linear_combination ((f - 1) * (u.x * v.1.x + u.y * v.1.y + u.z * v.1.z) +
        v.2 * (1 - f) * (o.x * u.x + o.y * u.y + o.z * u.z)) * hu1'
    rw [this]
    ext <;> simp only [add_x, add_y, add_z, smul_x, smul_y, smul_z, sub_x, sub_y, sub_z] <;> ring
  obtain ⟨q, hq, hq1⟩ := fixedPoint_spec h4 hsq4 (Or.inr hf) hfix
  have hun : u ≠ 0 := by rintro rfl; simp [dot] at hu1
  obtain ⟨e0, he0, hre0, -⟩ := h3.complete (v := u) (w := f) hun (by
    rw [ha, hu1]; ext <;> simp <;> ring)
  obtain ⟨e, he, hhead⟩ := head_of_mem (near3_mem.mpr ⟨he0, by rw [hre0, sub_self, abs_zero]; exact eps_pos⟩ :
    e0 ∈ near3 (eig3 m.a) f (1 / 10 ^ 8))
  obtain ⟨hel, hen⟩ := near3_mem.mp he
  obtain ⟨-, hre, hv1, hv⟩ := h3.roots hsq3 hel
  have hre : e.re = f := by
    rcases hre with h | h
    · rw [h, abs_sub_comm] at hen; exact absurd hen (not_lt.mpr hf)
    · exact h
  have hpar : e.vr = u.dot e.vr • u := by
    rw [hre, ha] at hv
    simp only [V3.ext_iff, add_x, add_y, add_z, smul_x, smul_y, smul_z] at hv
    obtain ⟨hx, hy, hz⟩ := hv
    ext <;> simp only [smul_x, smul_y, smul_z]
    · exact mul_left_cancel₀ hf1 (by linear_combination -hx)
    · exact mul_left_cancel₀ hf1 (by linear_combination -hy)
    · exact mul_left_cancel₀ hf1 (by linear_combination -hz)
  obtain ⟨k, hk, hvk⟩ := unit_parallel hu1 hv1 hpar
  have htr : tr m.a - 2 = f := by
    rw [hM]; simp only [tr, add3, smul3, outer, M3.one]; linear_combination (f - 1) * hu1'
  refine ⟨q, e.vr, by simp only [scaleFrom, htr, hhead, hq, Except.map, unitVector_of_unit hv1], ?_, ?_⟩
  · rw [hu, hvk]
    have : (k - 1) * (k + 1) = 0 := by linear_combination hk
    rcases mul_eq_zero.mp this with h | h
    · left; rw [show k = 1 by linarith]; ext <;> simp
    · right; rw [show k = -1 by linarith]; ext <;> simp
  · intro q' hq'
    have hf' := congrArg Prod.fst (hq1 q' hq')
    simp only [app, ha, hb, V3.ext_iff, add_x, add_y, add_z, smul_x, smul_y, smul_z] at hf'
    obtain ⟨hx, hy, hz⟩ := hf'
    have hplane : q'.dot u = o.dot u := by
      apply mul_left_cancel₀ hf1
      simp only [dot] at hx hy hz ⊢
      linear_combination u.x * hx + u.y * hy + u.z * hz -
        (f - 1) * ((q'.x * u.x + q'.y * u.y + q'.z * u.z) - (o.x * u.x + o.y * u.y + o.z * u.z)) * hu1'
    rw [hM]
    unfold scaling
    have huv : unitVector (k • u) = k • u := by rw [← hvk]; exact unitVector_of_unit hv1
    simp only [hvk, huv]
    have hd' : q'.dot (k • u) = k * o.dot u := by
      rw [← hplane]; simp only [dot, smul_x, smul_y, smul_z]; ring
    simp only [hd']
    ext <;> simp only [add3, smul3, outer, M3.one, smul_x, smul_y, smul_z]
    · linear_combination (f - 1) * u.x * u.x * hk
    · linear_combination (f - 1) * u.x * u.y * hk
    · linear_combination (f - 1) * u.x * u.z * hk
    · linear_combination (f - 1) * u.y * u.x * hk
    · linear_combination (f - 1) * u.y * u.y * hk
    · linear_combination (f - 1) * u.y * u.z * hk
    · linear_combination (f - 1) * u.z * u.x * hk
    · linear_combination (f - 1) * u.z * u.y * hk
    · linear_combination (f - 1) * u.z * u.z * hk
    · linear_combination (1 - f) * o.dot u * u.x * hk
    · linear_combination (1 - f) * o.dot u * u.y * hk
    · linear_combination (1 - f) * o.dot u * u.z * hk

/-- Doubling about the origin, and tripling along z. -/
example : scaleFrom (fun _ => diag3 2 2 2) (fun _ => diag4 2 2 2 1) (scaling 2 (some 0) none) =
      .ok (2, some 0, none) ∧
    ∃ q v, scaleFrom (fun _ => diag3 1 1 3) (fun _ => diag4 1 1 3 1) (scaling 3 (some 0) (some ⟨0, 0, 2⟩)) =
      .ok (3, q, some v) := by
  constructor
  · have hM : scaling 2 (some 0) none = ⟨⟨2, 0, 0, 0, 2, 0, 0, 0, 2⟩, 0, 0, 1⟩ := by
      unfold scaling; ext <;> simp [smul3, M3.one]
    exact c98_scale _ _ 2 0 (by norm_num) (by rw [hM]; exact isEig3_diag 2 2 2) (by rw [hM]; exact isEig4_diag 2 2 2 1)
  · have hM : scaling 3 (some 0) (some ⟨0, 0, 2⟩) = ⟨⟨1, 0, 0, 0, 1, 0, 0, 0, 3⟩, 0, 0, 1⟩ := by
      unfold scaling; simp only [unit_two_z]; ext <;> simp [smul3, add3, outer, M3.one, dot]
    obtain ⟨q, v, h, -⟩ := c98_scale_direction (fun _ => diag3 1 1 3) (fun _ => diag4 1 1 3 1) 3 0 ⟨0, 0, 2⟩ two_z_ne
      (by norm_num) (by rw [hM]; exact isEig3_diag 1 1 3) (by rw [hM]; exact isEig4_diag 1 1 3 1)
    exact ⟨q, v, h⟩

/-- C98: a uniform scaling by a factor near one is not found again: it is taken for a scaling along a direction,
whatever the eigenvectors. -/
theorem c98_scale_violation : ∃ f : ℝ, f ≠ 1 ∧ ∀ (eig3 : M3 → List Eig3) (eig4 : H4 → List Eig4) (o : V3),
    IsEig3 (scaling f (some o) none).a (eig3 (scaling f (some o) none).a) →
    IsEig4 (scaling f (some o) none) (eig4 (scaling f (some o) none)) →
    ∃ f' q v, scaleFrom eig3 eig4 (scaling f (some o) none) = .ok (f', q, some v) ∧
      ∀ q', scaling f' (some q') (some v) ≠ scaling f (some o) none := by
  refine ⟨1 + 1 / 2 ^ 28, by norm_num, fun eig3 eig4 o h3 h4 => ?_⟩
  obtain ⟨f, hf⟩ : ∃ f : ℝ, 1 + 1 / 2 ^ 28 = f := ⟨_, rfl⟩
  have hf1 : f - 1 ≠ 0 := by rw [← hf]; norm_num
  have hfn : |f - (3 * f - 2)| < 1 / 10 ^ 8 := by rw [← hf, abs_lt]; constructor <;> norm_num
  rw [hf] at h3 h4 ⊢
  have hM : scaling f (some o) none = ⟨smul3 f M3.one, (1 - f) • o, 0, 1⟩ := rfl
  obtain ⟨m, hm⟩ : ∃ m, scaling f (some o) none = m := ⟨_, rfl⟩
  rw [hm] at hM h3 h4 ⊢
  have hfix : m.app (o, 1) = (o, 1) := by
    rw [hM]; ext <;> simp [app, M3.mulVec, smul3, M3.one, dot] <;> ring
  obtain ⟨e0, he0, hre0, -⟩ := h4.complete (v := (o, 1)) (w := 1) one_ne_zero
    (by rw [hfix]; ext <;> simp)
  obtain ⟨e, -, hlast⟩ := last_of_mem (near4_mem.mpr ⟨he0, by rw [hre0, sub_self, abs_zero]; exact eps_pos⟩ :
    e0 ∈ near4 (eig4 m) 1 (1 / 10 ^ 8))
  have htr : tr m.a - 2 = 3 * f - 2 := by rw [hM]; simp [tr, smul3, M3.one]; ring
  obtain ⟨e1, he1, hre1, -⟩ := h3.complete (v := ⟨1, 0, 0⟩) (w := f) (fun h => by simpa using congrArg V3.x h)
    (by rw [hM]; ext <;> simp [M3.mulVec, smul3, M3.one])
  obtain ⟨e2, he2, hhead⟩ := head_of_mem (near3_mem.mpr ⟨he1, by rw [hre1]; exact hfn⟩ :
    e1 ∈ near3 (eig3 m.a) (3 * f - 2) (1 / 10 ^ 8))
  refine ⟨3 * f - 2, dehom e.vr, unitVector e2.vr, by
    simp only [scaleFrom, htr, hhead, fixedPoint, hlast, Except.map], fun q' h => ?_⟩
  obtain ⟨w, hw⟩ : ∃ w, unitVector (unitVector e2.vr) = w := ⟨_, rfl⟩
  rw [hM] at h
  unfold scaling at h
  simp only [hw, H4.ext_iff, M3.ext_iff, add3, smul3, outer, M3.one] at h
  obtain ⟨⟨h00, h01, -, -, h11, -⟩, -⟩ := h
  have a0 : 3 * (w.x * w.x) = 1 := mul_left_cancel₀ hf1 (by linear_combination h00)
  have a1 : 3 * (w.y * w.y) = 1 := mul_left_cancel₀ hf1 (by linear_combination h11)
  have a2 : w.x * w.y = 0 := mul_left_cancel₀ hf1 (by linear_combination h01 / 3)
  have : (3 * (w.x * w.x)) * (3 * (w.y * w.y)) = 9 * (w.x * w.y) ^ 2 := by ring
  rw [a0, a1, a2] at this
  norm_num at this

namespace H4

theorem cross_in_plane {u v w : V3} (hu : u.dot u = 1) (hv : u.dot v = 0) (hw : u.dot w = 0) :
    v.cross w = u.dot (v.cross w) • u := by
  simp only [dot] at hu hv hw
  ext <;> simp only [cross, dot, smul_x, smul_y, smul_z]
  · linear_combination -(v.y * w.z - v.z * w.y) * hu + (u.y * w.z - u.z * w.y) * hv - (u.y * v.z - u.z * v.y) * hw
  · linear_combination -(v.z * w.x - v.x * w.z) * hu + (u.z * w.x - u.x * w.z) * hv - (u.z * v.x - u.x * v.z) * hw
  · linear_combination -(v.x * w.y - v.y * w.x) * hu + (u.x * w.y - u.y * w.x) * hv - (u.x * v.y - u.y * v.x) * hw

theorem longer_spec {u v w : V3} (hu : u.dot u = 1) (hv : u.dot v = 0) (hw : u.dot w = 0) {s : ℝ × V3}
    (hs : s.1 = -1 ∨ ∃ k : ℝ, s = (|k|, k • u)) :
    ∃ k : ℝ, longer s v w = (|k|, k • u) ∧ s.1 ≤ |k| ∧ |u.dot (v.cross w)| ≤ |k| := by
  obtain ⟨k, hk⟩ : ∃ k, u.dot (v.cross w) = k := ⟨_, rfl⟩
  have hc : v.cross w = k • u := by rw [← hk]; exact cross_in_plane hu hv hw
  have hn : (k • u).norm = |k| := norm_smul_unit hu k
  unfold longer
  simp only [hc, hn]
  rw [← hc, hk]
  split_ifs with h
  · exact ⟨k, by rw [hc], h.le, le_rfl⟩
  · rcases hs with hs | ⟨k', rfl⟩
    · exact absurd (by rw [hs]; linarith [abs_nonneg k]) h
    · exact ⟨k', rfl, le_rfl, not_lt.mp h⟩

end H4

/-- C98: `shear_from_matrix` of a shear along its plane gives the plane, the direction and the angle; if the point
found is finite, the shear found is the same. -/
theorem c98_shear (eig3 : M3 → List Eig3) (eig4 : H4 → List Eig4) (a : ℝ) (d p n : V3) (m : H4) (hd : d ≠ 0) (hn : n ≠ 0)
    (hdn : d.dot n = 0) (ha : Real.tan a ≠ 0) (hm : shear a d p n = some m) (h3 : IsEig3 m.a (eig3 m.a))
    (h4 : IsEig4 m (eig4 m)) :
    ∃ a' d' q n', shearFrom eig3 eig4 m = .ok (a', some d', q, n') ∧ Real.tan a' = |Real.tan a| ∧
      (n' = unitVector n ∨ n' = -unitVector n) ∧
      ∀ q', q = some q' → shear a' d' q' n' = some m := by
  obtain ⟨u, l, hu, hu1, hl, hul⟩ := unit_spec hn
  obtain ⟨w, l', hw, hw1, hl', hwl⟩ := unit_spec hd
  obtain ⟨t, ht⟩ : ∃ t, Real.tan a = t := ⟨_, rfl⟩
  have huw : u.dot w = 0 := by
    have : d.dot n = l' * l * u.dot w := by
      rw [hul, hwl]; simp only [dot, smul_x, smul_y, smul_z]; ring
    rw [this] at hdn
    exact (mul_eq_zero.mp hdn).resolve_left (mul_pos hl' hl).ne'
  have hs0 : ¬ |(0 : ℝ)| > 1 / 10 ^ 6 := by rw [abs_zero]; norm_num
  have hM : m = ⟨add3 M3.one (smul3 t (outer w u)), (-t * p.dot u) • w, 0, 1⟩ := by
    unfold shear at hm
    simp only [hu, hw, huw, ht] at hm
    rw [if_neg hs0] at hm
    exact (Option.some.inj hm).symm
  rw [ht] at ha ⊢
  have haV : ∀ v, m.a.mulVec v = v + (t * u.dot v) • w := by
    intro v; rw [hM]; ext <;> simp [M3.mulVec, add3, smul3, outer, M3.one, dot] <;> ring
  have hb : m.b = (-t * p.dot u) • w := by rw [hM]
  have hc : ∀ v, m.c.dot v = 0 := by intro v; rw [hM]; simp [dot]
  have hd1 : m.d = 1 := by rw [hM]
  have hua : ∀ (v : V3) (k : ℝ), u.dot (v + k • w) = u.dot v := by
    intro v k
    have : u.dot (v + k • w) = u.dot v + k * u.dot w := by
      simp only [dot, add_x, add_y, add_z, smul_x, smul_y, smul_z]; ring
    rw [this, huw]; ring
  have hsq3 : ∀ v, m.a.mulVec (m.a.mulVec v) = (1 + 1 : ℝ) • m.a.mulVec v - (1 * 1 : ℝ) • v := by
    intro v; simp only [haV, hua]
    ext <;> simp only [add_x, add_y, add_z, smul_x, smul_y, smul_z, sub_x, sub_y, sub_z] <;> ring
  have hsq4 : ∀ v, m.app (m.app v) =
      ((1 + 1 : ℝ) • (m.app v).1 - (1 * 1 : ℝ) • v.1, (1 + 1 : ℝ) * (m.app v).2 - 1 * 1 * v.2) := by
    intro v; simp only [app, haV, hb, hc, hd1]
    have : u.dot (v.1 + (t * u.dot v.1) • w + v.2 • (-t * p.dot u) • w) = u.dot v.1 := by
      have e : v.1 + (t * u.dot v.1) • w + v.2 • (-t * p.dot u) • w =
          v.1 + (t * u.dot v.1 + v.2 * (-t * p.dot u)) • w := by
        ext <;> simp only [add_x, add_y, add_z, smul_x, smul_y, smul_z] <;> ring
      rw [e, hua]
    rw [this]
    ext <;> simp only [add_x, add_y, add_z, smul_x, smul_y, smul_z, sub_x, sub_y, sub_z] <;> ring
  have hup : ∀ v, u.dot v = v.dot u := fun v => by simp only [dot]; ring
  have hfix : m.app (p, 1) = (p, 1) := by
    simp only [app, haV, hb, hc, hd1, hup]
    ext <;> simp only [add_x, add_y, add_z, smul_x, smul_y, smul_z] <;> ring
  obtain ⟨q, hq, hq1⟩ := fixedPoint_spec h4 hsq4 (Or.inl rfl) hfix
  have hw0 : w ≠ 0 := by rintro rfl; simp [dot] at hw1
  -- every listed vector lies in the plane
  have hall : ∀ e ∈ eig3 m.a, e.re = 1 ∧ e.im = 0 ∧ e.vr.dot e.vr = 1 ∧ u.dot e.vr = 0 := by
    intro e he
    obtain ⟨him, hre, hv1, hv⟩ := h3.roots hsq3 he
    rw [or_self_iff] at hre
    refine ⟨hre, him, hv1, ?_⟩
    rw [hre, haV] at hv
    have : (t * u.dot e.vr) • w = 0 := by
      simp only [V3.ext_iff, add_x, add_y, add_z, smul_x, smul_y, smul_z, zero_x, zero_y, zero_z] at hv ⊢
      exact ⟨by linarith [hv.1], by linarith [hv.2.1], by linarith [hv.2.2]⟩
    have h2 : (t * u.dot e.vr) * w.dot w = 0 := by
      have := congrArg (w.dot ·) this
      simp only [dot, smul_x, smul_y, smul_z, zero_x, zero_y, zero_z] at this ⊢
      linear_combination this
    rw [hw1, mul_one] at h2
    exact (mul_eq_zero.mp h2).resolve_left ha
  have hlen := h3.length
  obtain ⟨e0, e1, e2, hl3⟩ : ∃ e0 e1 e2, eig3 m.a = [e0, e1, e2] := by
    obtain ⟨x, hx⟩ : ∃ x, eig3 m.a = x := ⟨_, rfl⟩
    rw [hx] at hlen ⊢
    match x, hlen with
    | [e0, e1, e2], _ => exact ⟨e0, e1, e2, rfl⟩
  have hnear : near3 (eig3 m.a) 1 (1 / 10 ^ 4) = [e0, e1, e2] := by
    rw [← hl3]
    unfold near3
    rw [List.filter_eq_self]
    intro e he
    rw [(hall e he).1, sub_self, abs_zero]
    norm_num
  obtain ⟨-, -, g0, p0⟩ := hall e0 (by rw [hl3]; simp)
  obtain ⟨-, -, g1, p1⟩ := hall e1 (by rw [hl3]; simp)
  obtain ⟨-, -, g2, p2⟩ := hall e2 (by rw [hl3]; simp)
  obtain ⟨k1, hk1, -, b1⟩ := longer_spec hu1 p0 p1 (s := (-1, 0)) (Or.inl rfl)
  obtain ⟨k2, hk2, m2, b2⟩ := longer_spec hu1 p0 p2 (s := (|k1|, k1 • u)) (Or.inr ⟨k1, rfl⟩)
  obtain ⟨k, hk, m3, b3⟩ := longer_spec hu1 p1 p2 (s := (|k2|, k2 • u)) (Or.inr ⟨k2, rfl⟩)
  have hk0 : k ≠ 0 := by
    rintro rfl
    rw [abs_zero] at m3 b3
    have z1 : u.dot (e0.vr.cross e1.vr) = 0 := abs_nonpos_iff.mp (b1.trans (m2.trans m3))
    have z2 : u.dot (e0.vr.cross e2.vr) = 0 := abs_nonpos_iff.mp (b2.trans m3)
    have hsp := h3.span 1 (u.cross e0.vr) (by
      intro e he _ _
      rw [hl3] at he
      simp only [List.mem_cons, List.not_mem_nil, or_false] at he
      rcases he with rfl | rfl | rfl
      · simp only [dot, cross]; ring
      · simp only [dot, cross] at z1 ⊢; linear_combination z1
      · simp only [dot, cross] at z2 ⊢; linear_combination z2) (u.cross e0.vr) (by
      rw [haV]
      have : u.dot (u.cross e0.vr) = 0 := by simp only [dot, cross]; ring
      rw [this]; ext <;> simp)
    have : (u.cross e0.vr).dot (u.cross e0.vr) = u.dot u * e0.vr.dot e0.vr - u.dot e0.vr ^ 2 := by
      simp only [dot, cross]; ring
    rw [this, hu1, g0, p0] at hsp
    norm_num at hsp
  obtain ⟨ε, hε⟩ : ∃ ε, 1 / |k| * k = ε := ⟨_, rfl⟩
  have hε2 : ε * ε = 1 := by
    have h1 : |k| ≠ 0 := abs_ne_zero.mpr hk0
    rw [← hε, show 1 / |k| * k * (1 / |k| * k) = k ^ 2 / |k| ^ 2 by field_simp, sq_abs, div_self (pow_ne_zero 2 hk0)]
  have hnorm : (1 / |k|) • k • u = ε • u := by rw [← hε]; ext <;> simp only [smul_x, smul_y, smul_z] <;> ring
  have hdir : (add3 m.a (smul3 (-1) M3.one)).mulVec (ε • u) = (ε * t) • w := by
    have e1 : ∀ v, (add3 m.a (smul3 (-1) M3.one)).mulVec v = m.a.mulVec v - v := by
      intro v; ext <;> simp only [M3.mulVec, add3, smul3, M3.one, sub_x, sub_y, sub_z] <;> ring
    rw [e1, haV]
    have : u.dot (ε • u) = ε := by
      have : u.dot (ε • u) = ε * u.dot u := by simp only [dot, smul_x, smul_y, smul_z]; ring
      rw [this, hu1, mul_one]
    rw [this]
    ext <;> simp only [add_x, add_y, add_z, smul_x, smul_y, smul_z, sub_x, sub_y, sub_z] <;> ring
  have hang : ((ε * t) • w).norm = |t| := by
    rw [norm_smul_unit hw1, abs_mul]
    have : |ε| = 1 := by
      have := abs_mul_abs_self ε
      rw [hε2] at this
      nlinarith [abs_nonneg ε]
    rw [this, one_mul]
  have ht0 : |t| ≠ 0 := abs_ne_zero.mpr ha
  refine ⟨Real.arctan |t|, (1 / |t|) • (ε * t) • w, q, ε • u, ?_, ?_, ?_, ?_⟩
  · simp only [shearFrom, hnear, List.map, hk1, hk2, hk, hnorm, hdir, hang, if_neg ht0, hq, Except.map]
  · exact Real.tan_arctan _
  · rw [hu]
    have : (ε - 1) * (ε + 1) = 0 := by linear_combination hε2
    rcases mul_eq_zero.mp this with h | h
    · left; rw [show ε = 1 by linarith]; ext <;> simp
    · right; rw [show ε = -1 by linarith]; ext <;> simp
  · intro q' hq'
    have hf' := congrArg Prod.fst (hq1 q' hq')
    simp only [app, haV, hb] at hf'
    have hplane : q'.dot u = p.dot u := by
      have h2 : t * (u.dot q' - p.dot u) * w.dot w = 0 := by
        simp only [V3.ext_iff, add_x, add_y, add_z, smul_x, smul_y, smul_z] at hf'
        obtain ⟨hx, hy, hz⟩ := hf'
        simp only [dot] at hx hy hz ⊢
        linear_combination w.x * hx + w.y * hy + w.z * hz
      rw [hw1, mul_one] at h2
      have := (mul_eq_zero.mp h2).resolve_left ha
      rw [hup] at this; linarith
    obtain ⟨σ, hσ⟩ : ∃ σ, 1 / |t| * (ε * t) = σ := ⟨_, rfl⟩
    have hσt : |t| * σ = ε * t := by rw [← hσ]; field_simp
    have hσ2 : σ * σ = 1 := by
      have h1 : (|t| * |t|) * (σ * σ) = t * t * (ε * ε) := by linear_combination (|t| * σ + ε * t) * hσt
      rw [abs_mul_abs_self, hε2] at h1
      exact mul_left_cancel₀ (mul_ne_zero ha ha) h1
    have hdσ : (1 / |t|) • (ε * t) • w = σ • w := by
      rw [← hσ]; ext <;> simp only [smul_x, smul_y, smul_z] <;> ring
    have huε : unitVector (ε • u) = ε • u := unitVector_of_unit (by
      have : (ε • u).dot (ε • u) = ε * ε * u.dot u := by simp only [dot, smul_x, smul_y, smul_z]; ring
      rw [this, hε2, hu1, one_mul])
    have hwσ : unitVector (σ • w) = σ • w := unitVector_of_unit (by
      have : (σ • w).dot (σ • w) = σ * σ * w.dot w := by simp only [dot, smul_x, smul_y, smul_z]; ring
      rw [this, hσ2, hw1, one_mul])
    have hz : (ε • u).dot (σ • w) = 0 := by
      have : (ε • u).dot (σ • w) = ε * σ * u.dot w := by simp only [dot, smul_x, smul_y, smul_z]; ring
      rw [this, huw, mul_zero]
    have hqε : q'.dot (ε • u) = ε * p.dot u := by
      rw [← hplane]; simp only [dot, smul_x, smul_y, smul_z]; ring
    have hts : |t| * σ * ε = t := by rw [hσt]; linear_combination t * hε2
    unfold shear
    simp only [hdσ, huε, hwσ, hz, Real.tan_arctan, hqε]
    rw [if_neg hs0, hM]
    congr 1
    ext <;> simp only [add3, smul3, outer, M3.one, smul_x, smul_y, smul_z]
    · linear_combination w.x * u.x * hts
    · linear_combination w.x * u.y * hts
    · linear_combination w.x * u.z * hts
    · linear_combination w.y * u.x * hts
    · linear_combination w.y * u.y * hts
    · linear_combination w.y * u.z * hts
    · linear_combination w.z * u.x * hts
    · linear_combination w.z * u.y * hts
    · linear_combination w.z * u.z * hts
    · linear_combination -p.dot u * w.x * hts
    · linear_combination -p.dot u * w.y * hts
    · linear_combination -p.dot u * w.z * hts

/-- C98: the shear by the angle zero comes back with a direction that is not a number. -/
theorem c98_shear_zero_violation (eig3 : M3 → List Eig3) (eig4 : H4 → List Eig4) (d p n : V3) (m : H4)
    (hm : shear 0 d p n = some m) (h3 : IsEig3 m.a (eig3 m.a)) (h4 : IsEig4 m (eig4 m)) :
    ∃ q n', shearFrom eig3 eig4 m = .ok (0, none, q, n') := by
  have hM : m = H4.one := by
    unfold shear at hm
    dsimp only at hm
    split_ifs at hm
    have := (Option.some.inj hm).symm
    simp only [Real.tan_zero] at this
    rw [this]
    ext <;> simp [H4.one, add3, smul3, outer, M3.one]
  have ha : ∀ v, m.a.mulVec v = v := by intro v; rw [hM]; ext <;> simp [H4.one, M3.mulVec, M3.one]
  have happ : ∀ v, m.app v = v := by intro v; rw [hM]; ext <;> simp [H4.one, app, M3.mulVec, M3.one, dot]
  obtain ⟨q, hq, -⟩ := fixedPoint_spec (b := 1) h4 (by
    intro v; simp only [happ]
    ext <;> simp only [smul_x, smul_y, smul_z, sub_x, sub_y, sub_z] <;> ring) (Or.inl rfl) (happ (0, 1))
  have hall : ∀ e ∈ eig3 m.a, e.re = 1 := by
    intro e he
    obtain ⟨-, hre, -⟩ := h3.roots (a := 1) (b := 1) (by
      intro v; simp only [ha]
      ext <;> simp only [smul_x, smul_y, smul_z, sub_x, sub_y, sub_z] <;> ring) he
    rwa [or_self_iff] at hre
  have hlen := h3.length
  obtain ⟨e0, e1, e2, hl3⟩ : ∃ e0 e1 e2, eig3 m.a = [e0, e1, e2] := by
    obtain ⟨x, hx⟩ : ∃ x, eig3 m.a = x := ⟨_, rfl⟩
    rw [hx] at hlen ⊢
    match x, hlen with
    | [e0, e1, e2], _ => exact ⟨e0, e1, e2, rfl⟩
  have hnear : near3 (eig3 m.a) 1 (1 / 10 ^ 4) = [e0, e1, e2] := by
    rw [← hl3]
    unfold near3
    rw [List.filter_eq_self]
    intro e he
    rw [hall e he, sub_self, abs_zero]
    norm_num
  have hz : ∀ v, (add3 m.a (smul3 (-1) M3.one)).mulVec v = 0 := by
    intro v; rw [hM]; ext <;> simp [M3.mulVec, add3, smul3, M3.one, H4.one]
  have h0 : (0 : V3).norm = 0 := by rw [V3.norm]; simp [dot]
  simp only [shearFrom, hnear, List.map, hz, h0, if_true, hq, Except.map, Real.arctan_zero]
  exact ⟨_, _, rfl⟩

/-- C98: a shear that `shear_matrix` accepts, with a direction out of its plane by 5e-7, makes `shear_from_matrix`
raise an IndexError: only two eigenvalues are near one, but three vectors are compared. -/
theorem c98_shear_index_violation : ∃ (a : ℝ) (d p n : V3) (m : H4), d ≠ 0 ∧ n ≠ 0 ∧ shear a d p n = some m ∧
    ∀ (eig3 : M3 → List Eig3) (eig4 : H4 → List Eig4), IsEig3 m.a (eig3 m.a) →
      shearFrom eig3 eig4 m = .error .index := by
  obtain ⟨x, hx⟩ : ∃ x : ℝ, (1 - (1 / 2 ^ 22) ^ 2) / (1 + (1 / 2 ^ 22) ^ 2) = x := ⟨_, rfl⟩
  obtain ⟨z, hz⟩ : ∃ z : ℝ, 2 * (1 / 2 ^ 22) / (1 + (1 / 2 ^ 22) ^ 2) = z := ⟨_, rfl⟩
  have hxz : x * x + z * z = 1 := by rw [← hx, ← hz]; norm_num
  have hz6 : ¬ |z| > 1 / 10 ^ 6 := by rw [← hz, not_lt, abs_le]; constructor <;> norm_num
  have hz4 : ¬ |1000 * z| < 1 / 10 ^ 4 := by rw [← hz, abs_of_pos (by norm_num)]; norm_num
  have hz0 : z ≠ 0 := by rw [← hz]; norm_num
  have hx0 : x ≠ 0 := by rw [← hx]; norm_num
  clear hx hz
  have hw : unitVector (⟨x, 0, z⟩ : V3) = ⟨x, 0, z⟩ := unitVector_of_unit (by simp only [dot]; linarith)
  have hu : unitVector (⟨0, 0, 1⟩ : V3) = ⟨0, 0, 1⟩ := unitVector_of_unit (by simp [dot])
  refine ⟨Real.arctan 1000, ⟨x, 0, z⟩, 0, ⟨0, 0, 1⟩, ⟨⟨1, 0, 1000 * x, 0, 1, 0, 0, 0, 1 + 1000 * z⟩, 0, 0, 1⟩,
    fun h => hx0 (congrArg V3.x h), fun h => one_ne_zero (congrArg V3.z h), ?_, ?_⟩
  · unfold shear
    simp only [hw, hu, Real.tan_arctan]
    rw [show (⟨0, 0, 1⟩ : V3).dot ⟨x, 0, z⟩ = z by simp [dot], if_neg hz6]
    congr 1
    ext <;> simp [add3, smul3, outer, M3.one, dot]
  intro eig3 eig4 h3
  obtain ⟨M, hM⟩ : ∃ M : M3, (⟨1, 0, 1000 * x, 0, 1, 0, 0, 0, 1 + 1000 * z⟩ : M3) = M := ⟨_, rfl⟩
  have haV : ∀ v : V3, M.mulVec v = v + (1000 * v.z) • ⟨x, 0, z⟩ := by
    intro v; rw [← hM]; ext <;> simp only [M3.mulVec, add_x, add_y, add_z, smul_x, smul_y, smul_z] <;> ring
  dsimp only at h3
  rw [hM] at h3 ⊢
  have hsq : ∀ v, M.mulVec (M.mulVec v) = (1 + (1 + 1000 * z)) • M.mulVec v - (1 * (1 + 1000 * z)) • v := by
    intro v; simp only [haV]
    ext <;> simp only [add_x, add_y, add_z, smul_x, smul_y, smul_z, sub_x, sub_y, sub_z] <;> ring
  have hlen := h3.length
  -- the other eigenvalue is listed, so at most two are near one
  obtain ⟨e, he, hre, -⟩ := h3.complete (v := ⟨x, 0, z⟩) (w := 1 + 1000 * z) (fun h => hx0 (congrArg V3.x h)) (by
    rw [haV]; ext <;> simp <;> ring)
  have hlt : (near3 (eig3 M) 1 (1 / 10 ^ 4)).length < 3 := by
    rw [← hlen]
    unfold near3
    rw [List.length_filter_lt_length_iff_exists]
    refine ⟨e, he, ?_⟩
    rw [hre, show 1 + 1000 * z - 1 = 1000 * z by ring]
    simpa using hz4
  have hone : ∀ v : V3, v.z = 0 → M.mulVec v = (1 : ℝ) • v := by
    intro v hv; rw [haV, hv]; ext <;> simp
  have hmem : ∀ e ∈ eig3 M, e.re = 1 → e ∈ near3 (eig3 M) 1 (1 / 10 ^ 4) := by
    intro e he h1
    refine near3_mem.mpr ⟨he, ?_⟩
    rw [h1, sub_self, abs_zero]; norm_num
  obtain ⟨L, hL⟩ : ∃ L, near3 (eig3 M) 1 (1 / 10 ^ 4) = L := ⟨_, rfl⟩
  rw [hL] at hlt hmem
  match L, hlt, hL, hmem with
  | [], _, _, hmem =>
    obtain ⟨e, he, h1, -⟩ := h3.complete (v := ⟨1, 0, 0⟩) (w := 1) (fun h => one_ne_zero (congrArg V3.x h))
      (hone _ rfl)
    cases hmem e he h1
  | [f], _, hL, hmem =>
    have hf : f ∈ near3 (eig3 M) 1 (1 / 10 ^ 4) := by rw [hL]; simp
    obtain ⟨hfl, hfn⟩ := near3_mem.mp hf
    obtain ⟨-, hfre, hf1, hfv⟩ := h3.roots hsq hfl
    have hfre : f.re = 1 := by
      refine hfre.resolve_right fun h => ?_
      rw [h, show 1 + 1000 * z - 1 = 1000 * z by ring] at hfn
      exact hz4 hfn
    have hfz : f.vr.z = 0 := by
      rw [hfre, haV] at hfv
      have := congrArg V3.z hfv
      simp only [add_z, smul_z] at this
      have : f.vr.z * z = 0 := by linarith
      exact (mul_eq_zero.mp this).resolve_right hz0
    have hsp := h3.span 1 ⟨-f.vr.y, f.vr.x, 0⟩ (by
      intro e he h1 _
      have := hmem e he h1
      simp only [List.mem_cons, List.not_mem_nil, or_false] at this
      rw [this]; simp only [dot]; ring) ⟨-f.vr.y, f.vr.x, 0⟩ (hone _ rfl)
    simp only [dot] at hsp hf1
    rw [hfz] at hf1
    linarith
  | [_, _], _, hL, _ => simp only [shearFrom, hL, List.map]

/-- The shear along x of the planes z = const: the eigenvectors are x and y; numpy lists x twice. -/
example : ∃ a' d' q n', shearFrom (fun _ => [⟨1, 0, ⟨1, 0, 0⟩, 0⟩, ⟨1, 0, ⟨0, 1, 0⟩, 0⟩, ⟨1, 0, ⟨-1, 0, 0⟩, 0⟩])
      (fun _ => [⟨1, 0, (⟨1, 0, 0⟩, 0), (0, 0)⟩, ⟨1, 0, (⟨0, 1, 0⟩, 0), (0, 0)⟩, ⟨1, 0, (0, 1), (0, 0)⟩])
      ⟨⟨1, 0, 2, 0, 1, 0, 0, 0, 1⟩, 0, 0, 1⟩ = .ok (a', some d', q, n') ∧ Real.tan a' = 2 := by
  have hu : unitVector (⟨1, 0, 0⟩ : V3) = ⟨1, 0, 0⟩ := unitVector_of_unit (by simp [dot])
  have hm : shear (Real.arctan 2) ⟨1, 0, 0⟩ 0 ⟨0, 0, 2⟩ = some ⟨⟨1, 0, 2, 0, 1, 0, 0, 0, 1⟩, 0, 0, 1⟩ := by
    unfold shear
    simp only [unit_two_z, hu, Real.tan_arctan]
    rw [show (⟨0, 0, 1⟩ : V3).dot ⟨1, 0, 0⟩ = 0 by simp [dot], if_neg (by rw [abs_zero]; norm_num)]
    congr 1
    ext <;> simp [add3, smul3, outer, M3.one, dot]
  have h3 : IsEig3 ⟨1, 0, 2, 0, 1, 0, 0, 0, 1⟩
      [⟨1, 0, ⟨1, 0, 0⟩, 0⟩, ⟨1, 0, ⟨0, 1, 0⟩, 0⟩, ⟨1, 0, ⟨-1, 0, 0⟩, 0⟩] := by
    refine ⟨rfl, ?_, ?_, ?_, ?_, ?_⟩
    · intro e he
      simp only [List.mem_cons, List.not_mem_nil, or_false] at he
      rcases he with rfl | rfl | rfl <;> ext <;> simp [M3.mulVec]
    · intro e he
      simp only [List.mem_cons, List.not_mem_nil, or_false] at he
      rcases he with rfl | rfl | rfl <;> ext <;> simp [M3.mulVec]
    · intro e he
      simp only [List.mem_cons, List.not_mem_nil, or_false] at he
      rcases he with rfl | rfl | rfl <;> simp [dot]
    · intro e he _
      simp only [List.mem_cons, List.not_mem_nil, or_false] at he
      rcases he with rfl | rfl | rfl <;> rfl
    · intro w n hn v hv
      simp only [M3.mulVec, V3.ext_iff, smul_x, smul_y, smul_z] at hv
      obtain ⟨hx, hy, hz⟩ := hv
      by_cases hw : w = 1
      · have h1 := hn ⟨1, 0, ⟨1, 0, 0⟩, 0⟩ (by simp) hw.symm rfl
        have h2 := hn ⟨1, 0, ⟨0, 1, 0⟩, 0⟩ (by simp) hw.symm rfl
        simp only [dot] at h1 h2 ⊢
        rw [hw] at hx
        rw [show n.x = 0 by linarith, show n.y = 0 by linarith, show v.z = 0 by linarith]; ring
      · have z0 : v.z = 0 := by
          have : (1 - w) * v.z = 0 := by linarith
          exact (mul_eq_zero.mp this).resolve_left (sub_ne_zero.mpr (Ne.symm hw))
        have y0 : v.y = 0 := by
          have : (1 - w) * v.y = 0 := by linarith
          exact (mul_eq_zero.mp this).resolve_left (sub_ne_zero.mpr (Ne.symm hw))
        have x0 : v.x = 0 := by
          have : (1 - w) * v.x = 0 := by rw [z0] at hx; linarith
          exact (mul_eq_zero.mp this).resolve_left (sub_ne_zero.mpr (Ne.symm hw))
        simp only [dot]; rw [x0, y0, z0]; ring
  have h4 : IsEig4 ⟨⟨1, 0, 2, 0, 1, 0, 0, 0, 1⟩, 0, 0, 1⟩
      [⟨1, 0, (⟨1, 0, 0⟩, 0), (0, 0)⟩, ⟨1, 0, (⟨0, 1, 0⟩, 0), (0, 0)⟩, ⟨1, 0, (0, 1), (0, 0)⟩] := by
    refine ⟨?_, ?_, ?_, ?_, ?_⟩
    · intro e he
      simp only [List.mem_cons, List.not_mem_nil, or_false] at he
      rcases he with rfl | rfl | rfl <;> ext <;> simp [app, M3.mulVec, dot]
    · intro e he
      simp only [List.mem_cons, List.not_mem_nil, or_false] at he
      rcases he with rfl | rfl | rfl <;> ext <;> simp [app, M3.mulVec, dot]
    · intro e he
      simp only [List.mem_cons, List.not_mem_nil, or_false] at he
      rcases he with rfl | rfl | rfl <;> simp [dot]
    · intro e he _
      simp only [List.mem_cons, List.not_mem_nil, or_false] at he
      rcases he with rfl | rfl | rfl <;> rfl
    · rintro w n hn ⟨v, t⟩ hv
      simp only [app, M3.mulVec, Prod.ext_iff, V3.ext_iff, smul_x, smul_y, smul_z, add_x, add_y, add_z, dot, zero_x,
        zero_y, zero_z] at hv
      obtain ⟨⟨hx, hy, hz⟩, ht⟩ := hv
      by_cases hw : w = 1
      · have h1 := hn ⟨1, 0, (⟨1, 0, 0⟩, 0), (0, 0)⟩ (by simp) hw.symm rfl
        have h2 := hn ⟨1, 0, (⟨0, 1, 0⟩, 0), (0, 0)⟩ (by simp) hw.symm rfl
        have h3 := hn ⟨1, 0, (0, 1), (0, 0)⟩ (by simp) hw.symm rfl
        simp only [dot, zero_x, zero_y, zero_z] at h1 h2 h3 ⊢
        rw [hw] at hx
        rw [show n.1.x = 0 by linarith, show n.1.y = 0 by linarith, show v.z = 0 by linarith,
          show n.2 = 0 by linarith]
        ring
      · have hw' := sub_ne_zero.mpr (Ne.symm hw)
        have z0 : v.z = 0 := by
          have : (1 - w) * v.z = 0 := by linarith
          exact (mul_eq_zero.mp this).resolve_left hw'
        have y0 : v.y = 0 := by
          have : (1 - w) * v.y = 0 := by linarith
          exact (mul_eq_zero.mp this).resolve_left hw'
        have x0 : v.x = 0 := by
          have : (1 - w) * v.x = 0 := by rw [z0] at hx; linarith
          exact (mul_eq_zero.mp this).resolve_left hw'
        have t0 : t = 0 := by
          have : (1 - w) * t = 0 := by linarith
          exact (mul_eq_zero.mp this).resolve_left hw'
        simp only [dot]; rw [x0, y0, z0, t0]; ring
  obtain ⟨a', d', q, n', h, ht, -⟩ := c98_shear
    (fun _ => [⟨1, 0, ⟨1, 0, 0⟩, 0⟩, ⟨1, 0, ⟨0, 1, 0⟩, 0⟩, ⟨1, 0, ⟨-1, 0, 0⟩, 0⟩])
    (fun _ => [⟨1, 0, (⟨1, 0, 0⟩, 0), (0, 0)⟩, ⟨1, 0, (⟨0, 1, 0⟩, 0), (0, 0)⟩, ⟨1, 0, (0, 1), (0, 0)⟩])
    (Real.arctan 2) ⟨1, 0, 0⟩ 0 ⟨0, 0, 2⟩ _ (fun h => one_ne_zero (congrArg V3.x h)) two_z_ne (by simp [dot])
    (by rw [Real.tan_arctan]; norm_num) hm h3 h4
  refine ⟨a', d', q, n', h, ?_⟩
  rw [ht, Real.tan_arctan, abs_of_pos (by norm_num)]

end RayOpt
