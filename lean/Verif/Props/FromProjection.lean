import Verif.Props.FromMatrix

/-!
C98: `projection_from_matrix` (rayopt/transformations.py 520-591).
-/

namespace RayOpt

open V3 H4

/-- C98: `projection_from_matrix` of a parallel projection gives the plane and the direction; if the point found is
finite, the projection found is the same. -/
theorem c98_parallel (eig3 : M3 → List Eig3) (eig4 : H4 → List Eig4) (p n d : V3) (hdn : d.dot n ≠ 0)
    (h3 : IsEig3 (parallel p n d).a (eig3 (parallel p n d).a))
    (h3' : IsEig3 (parallel p n d).a.T (eig3 (parallel p n d).a.T))
    (h4 : IsEig4 (parallel p n d) (eig4 (parallel p n d))) :
    ∃ q n' d', projectionFrom eig3 eig4 (parallel p n d) false = .ok (.parallel q n' d') ∧
      (n' = unitVector n ∨ n' = -unitVector n) ∧ (d' = unitVector d ∨ d' = -unitVector d) ∧
      ∀ q', q = some q' → parallel q' n' d' = parallel p n d := by
  have hn : n ≠ 0 := by rintro rfl; simp [dot] at hdn
  have hd : d ≠ 0 := by rintro rfl; simp [dot] at hdn
  obtain ⟨u, l, hu, hu1, hl, hul⟩ := unit_spec hn
  obtain ⟨w, l', hw, hw1, hl', hwl⟩ := unit_spec hd
  obtain ⟨κ, hκ⟩ : ∃ κ, w.dot u = κ := ⟨_, rfl⟩
  have hκ0 : κ ≠ 0 := by
    rintro rfl
    apply hdn
    have : d.dot n = l' * l * w.dot u := by
      rw [hul, hwl]; simp only [dot, smul_x, smul_y, smul_z]; ring
    rw [this, hκ, mul_zero]
  have hM : parallel p n d = ⟨add3 M3.one (smul3 (-(1 / κ)) (outer w u)), (p.dot u / κ) • w, 0, 1⟩ := by
    have hdu : d.dot u = l' * κ := by rw [← hκ, hwl]; simp only [dot, smul_x, smul_y, smul_z]; ring
    unfold parallel
    simp only [hu, hdu]
    rw [hwl]
    have e1 : 1 / (l' * κ) * l' = 1 / κ := by field_simp
    have e2 : p.dot u / (l' * κ) * l' = p.dot u / κ := by field_simp
    ext <;> simp only [add3, smul3, outer, M3.one, smul_x, smul_y, smul_z]
    · linear_combination -w.x * u.x * e1
    · linear_combination -w.x * u.y * e1
    · linear_combination -w.x * u.z * e1
    · linear_combination -w.y * u.x * e1
    · linear_combination -w.y * u.y * e1
    · linear_combination -w.y * u.z * e1
    · linear_combination -w.z * u.x * e1
    · linear_combination -w.z * u.y * e1
    · linear_combination -w.z * u.z * e1
    · linear_combination w.x * e2
    · linear_combination w.y * e2
    · linear_combination w.z * e2
  obtain ⟨m, hm⟩ : ∃ m, parallel p n d = m := ⟨_, rfl⟩
  rw [hm] at hM h3 h3' h4 ⊢
  have hup : ∀ v w : V3, v.dot w = w.dot v := fun v w => by simp only [dot]; ring
  have ha : ∀ v, m.a.mulVec v = v - (u.dot v / κ) • w := by
    intro v; rw [hM]; ext <;> simp [M3.mulVec, add3, smul3, outer, M3.one, dot] <;> ring
  have haT : ∀ v, m.a.T.mulVec v = v - (w.dot v / κ) • u := by
    intro v; rw [hM]; ext <;> simp [M3.mulVec, M3.T, add3, smul3, outer, M3.one, dot] <;> ring
  have hb : m.b = (p.dot u / κ) • w := by rw [hM]
  have hc : ∀ v, m.c.dot v = 0 := by intro v; rw [hM]; simp [dot]
  have hd1 : m.d = 1 := by rw [hM]
  have hlin : ∀ (a v b : V3) (k : ℝ), a.dot (v - k • b) = a.dot v - k * a.dot b := by
    intro a v b k; simp only [dot, sub_x, sub_y, sub_z, smul_x, smul_y, smul_z]; ring
  have hsq3 : ∀ v, m.a.mulVec (m.a.mulVec v) = (1 + 0 : ℝ) • m.a.mulVec v - (1 * 0 : ℝ) • v := by
    intro v; simp only [ha, hlin]
    rw [hup u w, hκ, div_mul_cancel₀ _ hκ0]
    ext <;> simp only [smul_x, smul_y, smul_z, sub_x, sub_y, sub_z] <;> ring
  have hsq3' : ∀ v, m.a.T.mulVec (m.a.T.mulVec v) = (1 + 0 : ℝ) • m.a.T.mulVec v - (1 * 0 : ℝ) • v := by
    intro v; simp only [haT, hlin]
    rw [hκ, div_mul_cancel₀ _ hκ0]
    ext <;> simp only [smul_x, smul_y, smul_z, sub_x, sub_y, sub_z] <;> ring
  have hsq4 : ∀ v, m.app (m.app v) =
      ((1 + 0 : ℝ) • (m.app v).1 - (1 * 0 : ℝ) • v.1, (1 + 0 : ℝ) * (m.app v).2 - 1 * 0 * v.2) := by
    intro v; simp only [app, ha, hb, hc, hd1]
    have : u.dot (v.1 - (u.dot v.1 / κ) • w + v.2 • (p.dot u / κ) • w) = v.2 * p.dot u := by
      have e : v.1 - (u.dot v.1 / κ) • w + v.2 • (p.dot u / κ) • w =
          v.1 - (u.dot v.1 / κ - v.2 * (p.dot u / κ)) • w := by
        ext <;> simp only [add_x, add_y, add_z, sub_x, sub_y, sub_z, smul_x, smul_y, smul_z] <;> ring
      rw [e, hlin, hup u w, hκ]; field_simp; ring
    rw [this]
    ext <;> simp only [add_x, add_y, add_z, smul_x, smul_y, smul_z, sub_x, sub_y, sub_z] <;> ring
  have hfix : m.app (p, 1) = (p, 1) := by
    simp only [app, ha, hb, hc, hd1]
    rw [hup u p]
    ext <;> simp only [add_x, add_y, add_z, sub_x, sub_y, sub_z, smul_x, smul_y, smul_z] <;> ring
  obtain ⟨e, hlast, -, -, hq⟩ := fixed_last h4 (by
    intro e he hen
    obtain ⟨him, hre, -⟩ := h4.roots hsq4 he
    refine ⟨hre.resolve_right fun h => ?_, him⟩
    rw [h] at hen; norm_num at hen) hfix
  have hw0 : w ≠ 0 := by rintro rfl; simp [dot] at hw1
  have hu0 : u ≠ 0 := by rintro rfl; simp [dot] at hu1
  obtain ⟨f0, hf0, hrf0, -⟩ := h3.complete (v := w) (w := 0) hw0 (by
    rw [ha, hup u w, hκ, div_self hκ0]; ext <;> simp)
  obtain ⟨f, hf, hheadf⟩ := head_of_mem (near3_mem.mpr ⟨hf0, by rw [hrf0, sub_self, abs_zero]; exact eps_pos⟩ :
    f0 ∈ near3 (eig3 m.a) 0 (1 / 10 ^ 8))
  obtain ⟨g0, hg0, hrg0, -⟩ := h3'.complete (v := u) (w := 0) hu0 (by
    rw [haT, hκ, div_self hκ0]; ext <;> simp)
  obtain ⟨g, hg, hheadg⟩ := head_of_mem (near3_mem.mpr ⟨hg0, by rw [hrg0, sub_self, abs_zero]; exact eps_pos⟩ :
    g0 ∈ near3 (eig3 m.a.T) 0 (1 / 10 ^ 8))
  have hpar : ∀ {b c v : V3}, b.dot b = 1 → v.dot v = 1 → v - (c.dot v / κ) • b = (0 : ℝ) • v →
      ∃ k : ℝ, k * k = 1 ∧ v = k • b := by
    intro b c v hb hv h
    obtain ⟨k, hk⟩ : ∃ k, c.dot v / κ = k := ⟨_, rfl⟩
    rw [hk] at h
    have hvk : v = k • b := by
      simp only [V3.ext_iff, sub_x, sub_y, sub_z, smul_x, smul_y, smul_z, zero_mul] at h ⊢
      exact ⟨by linarith [h.1], by linarith [h.2.1], by linarith [h.2.2]⟩
    refine ⟨k, ?_, hvk⟩
    have : v.dot v = k * k * b.dot b := by rw [hvk]; simp only [dot, smul_x, smul_y, smul_z]; ring
    rw [← hv, this, hb, mul_one]
  obtain ⟨kf, hkf, hvf, hf1⟩ : ∃ k : ℝ, k * k = 1 ∧ f.vr = k • w ∧ f.vr.dot f.vr = 1 := by
    obtain ⟨hfl, hfn⟩ := near3_mem.mp hf
    obtain ⟨-, hre, hv1, hv⟩ := h3.roots hsq3 hfl
    have hre : f.re = 0 := by
      refine hre.resolve_left fun h => ?_
      rw [h] at hfn; norm_num at hfn
    rw [hre, ha] at hv
    obtain ⟨k, hk, hvk⟩ := hpar hw1 hv1 hv
    exact ⟨k, hk, hvk, hv1⟩
  obtain ⟨kg, hkg, hvg, hg1⟩ : ∃ k : ℝ, k * k = 1 ∧ g.vr = k • u ∧ g.vr.dot g.vr = 1 := by
    obtain ⟨hgl, hgn⟩ := near3_mem.mp hg
    obtain ⟨-, hre, hv1, hv⟩ := h3'.roots hsq3' hgl
    have hre : g.re = 0 := by
      refine hre.resolve_left fun h => ?_
      rw [h] at hgn; norm_num at hgn
    rw [hre, haT] at hv
    obtain ⟨k, hk, hvk⟩ := hpar hu1 hv1 hv
    exact ⟨k, hk, hvk, hv1⟩
  have hsign : ∀ {k : ℝ} {v : V3}, k * k = 1 → k • v = v ∨ k • v = -v := by
    intro k v hk
    have : (k - 1) * (k + 1) = 0 := by linear_combination hk
    rcases mul_eq_zero.mp this with h | h
    · left; rw [show k = 1 by linarith]; ext <;> simp
    · right; rw [show k = -1 by linarith]; ext <;> simp
  refine ⟨dehom e.vr, g.vr, f.vr, ?_, ?_, ?_, ?_⟩
  · simp only [projectionFrom, hlast, hheadf, hheadg, unitVector_of_unit hf1, unitVector_of_unit hg1]
  · rw [hu, hvg]; exact hsign hkg
  · rw [hw, hvf]; exact hsign hkf
  · intro q' hq'
    have hf' := congrArg Prod.fst (hq q' hq')
    simp only [app, ha, hb] at hf'
    have hplane : q'.dot u = p.dot u := by
      have h2 : (u.dot q' / κ - p.dot u / κ) * w.dot w = 0 := by
        obtain ⟨x1, hx1⟩ : ∃ x1, u.dot q' / κ = x1 := ⟨_, rfl⟩
        obtain ⟨x2, hx2⟩ : ∃ x2, p.dot u / κ = x2 := ⟨_, rfl⟩
        rw [hx1, hx2] at hf' ⊢
        simp only [V3.ext_iff, sub_x, sub_y, sub_z, add_x, add_y, add_z, smul_x, smul_y, smul_z] at hf'
        obtain ⟨hx, hy, hz⟩ := hf'
        simp only [dot]
        linear_combination -w.x * hx - w.y * hy - w.z * hz
      rw [hw1, mul_one, ← sub_div, div_eq_zero_iff] at h2
      have := h2.resolve_right hκ0
      rw [hup u q'] at this; linarith
    have hug : unitVector (kg • u) = kg • u := by rw [← hvg]; exact unitVector_of_unit hg1
    have hs : (kf • w).dot (kg • u) = kf * kg * κ := by
      rw [← hκ]; simp only [dot, smul_x, smul_y, smul_z]; ring
    have hqu : q'.dot (kg • u) = kg * p.dot u := by
      rw [← hplane]; simp only [dot, smul_x, smul_y, smul_z]; ring
    have hkf0 : kf ≠ 0 := by rintro rfl; norm_num at hkf
    have hkg0 : kg ≠ 0 := by rintro rfl; norm_num at hkg
    rw [hM]
    unfold parallel
    simp only [hvg, hvf, hug, hs, hqu]
    have e1 : 1 / (kf * kg * κ) * (kf * kg) = 1 / κ := by field_simp
    have e2 : kg * p.dot u / (kf * kg * κ) * kf = p.dot u / κ := by field_simp
    ext <;> simp only [add3, smul3, outer, M3.one, smul_x, smul_y, smul_z]
    · linear_combination -w.x * u.x * e1
    · linear_combination -w.x * u.y * e1
    · linear_combination -w.x * u.z * e1
    · linear_combination -w.y * u.x * e1
    · linear_combination -w.y * u.y * e1
    · linear_combination -w.y * u.z * e1
    · linear_combination -w.z * u.x * e1
    · linear_combination -w.z * u.y * e1
    · linear_combination -w.z * u.z * e1
    · linear_combination w.x * e2
    · linear_combination w.y * e2
    · linear_combination w.z * e2

/-- C98: an orthogonal projection comes back as the parallel projection along the normal. -/
theorem c98_orthogonal (eig3 : M3 → List Eig3) (eig4 : H4 → List Eig4) (p n : V3) (hn : n ≠ 0)
    (h3 : IsEig3 (projection p n).a (eig3 (projection p n).a))
    (h3' : IsEig3 (projection p n).a.T (eig3 (projection p n).a.T))
    (h4 : IsEig4 (projection p n) (eig4 (projection p n))) :
    ∃ q n' d', projectionFrom eig3 eig4 (projection p n) false = .ok (.parallel q n' d') ∧
      (n' = unitVector n ∨ n' = -unitVector n) ∧ (d' = unitVector n ∨ d' = -unitVector n) ∧
      ∀ q', q = some q' → parallel q' n' d' = projection p n := by
  obtain ⟨u, l, hu, hu1, hl, hul⟩ := unit_spec hn
  have hP : projection p n = parallel p n u := by
    unfold projection parallel
    simp only [hu, hu1]
    norm_num
  rw [hP] at h3 h3' h4 ⊢
  have hnu : u.dot n = l := by
    have : u.dot n = l * u.dot u := by rw [hul]; simp only [dot, smul_x, smul_y, smul_z]; ring
    rw [this, hu1, mul_one]
  obtain ⟨q, n', d', h, h1, h2, h5⟩ := c98_parallel eig3 eig4 p n u (by rw [hnu]; exact hl.ne') h3 h3' h4
  refine ⟨q, n', d', h, h1, ?_, h5⟩
  rwa [unitVector_of_unit hu1, ← hu] at h2

/-- The projection along z onto the plane z = 0. -/
example : ∃ q n' d', projectionFrom (fun _ => diag3 1 1 0) (fun _ => diag4 1 1 0 1) (projection 0 ⟨0, 0, 2⟩) false =
    .ok (.parallel q n' d') := by
  have hM : projection 0 ⟨0, 0, 2⟩ = ⟨⟨1, 0, 0, 0, 1, 0, 0, 0, 0⟩, 0, 0, 1⟩ := by
    unfold projection; simp only [unit_two_z]; ext <;> simp [smul3, add3, outer, M3.one, dot]
  obtain ⟨q, n', d', h, -⟩ := c98_orthogonal (fun _ => diag3 1 1 0) (fun _ => diag4 1 1 0 1) 0 ⟨0, 0, 2⟩ two_z_ne
    (by rw [hM]; exact isEig3_diag 1 1 0) (by rw [hM]; exact isEig3_diag 1 1 0) (by rw [hM]; exact isEig4_diag 1 1 0 1)
  exact ⟨q, n', d', h⟩

namespace H4

/-- A perspective projection is a multiple of the identity but for multiples of the eye `c`. -/
theorem perspective_app {p n e u : V3} (hu : unitVector n = u) (v : V3 × ℝ) :
    (perspective p n e false).app v = ((e - p).dot u • v.1 + (v.2 * p.dot u - u.dot v.1) • e,
      (e - p).dot u * v.2 + (v.2 * p.dot u - u.dot v.1)) := by
  unfold perspective
  simp only [hu]
  ext <;> simp [app, M3.mulVec, add3, smul3, outer, M3.one, dot] <;> ring

/-- The same with `pseudo`. -/
theorem pseudo_app {p n e u : V3} (hu : unitVector n = u) (v : V3 × ℝ) :
    (perspective p n e true).app v = ((e - p).dot u • v.1 + (v.2 * p.dot u - u.dot v.1) • (e + u),
      (e - p).dot u * v.2 + (v.2 * p.dot u - u.dot v.1)) := by
  unfold perspective
  simp only [hu]
  ext <;> simp [app, M3.mulVec, add3, smul3, outer, M3.one, dot] <;> ring

/-- The quadratic equation of such a matrix. -/
theorem central_sq {k : ℝ} {p u c : V3} {m : H4} (hm : ∀ v, m.app v =
    (k • v.1 + (v.2 * p.dot u - u.dot v.1) • c, k * v.2 + (v.2 * p.dot u - u.dot v.1))) (v : V3 × ℝ) :
    m.app (m.app v) = ((k + (k + (p - c).dot u)) • (m.app v).1 - (k * (k + (p - c).dot u)) • v.1,
      (k + (k + (p - c).dot u)) * (m.app v).2 - k * (k + (p - c).dot u) * v.2) := by
  simp only [hm]
  ext <;> simp only [dot, add_x, add_y, add_z, smul_x, smul_y, smul_z, sub_x, sub_y, sub_z] <;> ring

/-- The points of the plane are those with the eigenvalue `k`. -/
theorem central_plane {k : ℝ} {p u c q : V3} {m : H4} (hm : ∀ v, m.app v =
    (k • v.1 + (v.2 * p.dot u - u.dot v.1) • c, k * v.2 + (v.2 * p.dot u - u.dot v.1)))
    (h : m.app (q, 1) = (k • q, k)) : q.dot u = p.dot u := by
  rw [hm] at h
  have := congrArg Prod.snd h
  simp only [dot] at this ⊢
  linarith

end H4

/-- C98: `projection_from_matrix` of a perspective projection gives the plane and the eye, if the plane does not
contain the origin, and the distance of the eye from it is not within 1e-8 of zero or one; and the projection found
is the same. -/
theorem c98_perspective (eig3 : M3 → List Eig3) (eig4 : H4 → List Eig4) (p n e : V3) (hn : n ≠ 0)
    (h0 : 1 / 10 ^ 8 < |(e - p).dot (unitVector n)|) (h1 : 1 / 10 ^ 8 ≤ |(e - p).dot (unitVector n) - 1|)
    (hp : p.dot n ≠ 0)
    (h4 : IsEig4 (perspective p n e false) (eig4 (perspective p n e false))) :
    ∃ q eye, projectionFrom eig3 eig4 (perspective p n e false) false = .ok (.perspective q (unitVector n) eye) ∧
      ∀ q', q = some q' → eye = some e ∧ perspective q' (unitVector n) e false = perspective p n e false := by
  obtain ⟨u, l, hu, hu1, hl, hul⟩ := unit_spec hn
  have happ := fun v => perspective_app (p := p) (e := e) hu v
  have hc : (perspective p n e false).c = -u := by unfold perspective; simp only [hu]; rfl
  have hb : (perspective p n e false).b = p.dot u • e := by unfold perspective; simp only [hu]; rfl
  obtain ⟨m, hm⟩ : ∃ m, perspective p n e false = m := ⟨_, rfl⟩
  rw [hm] at happ hc hb h4 ⊢
  rw [hu] at h0 h1 ⊢
  have hpu : p.dot u ≠ 0 := by
    intro h
    apply hp
    have : p.dot n = l * p.dot u := by rw [hul]; simp only [dot, smul_x, smul_y, smul_z]; ring
    rw [this, h, mul_zero]
  obtain ⟨k, hk⟩ : ∃ k, (e - p).dot u = k := ⟨_, rfl⟩
  rw [hk] at h0 h1 happ
  have hk0 : k + (p - e).dot u = 0 := by
    rw [← hk]; simp only [dot, sub_x, sub_y, sub_z]; ring
  have hroots : ∀ x ∈ eig4 m, x.im = 0 ∧ (x.re = k ∨ x.re = 0) ∧ m.app x.vr = (x.re • x.vr.1, x.re * x.vr.2) := by
    intro x hx
    obtain ⟨a1, a2, -, a4⟩ := h4.roots (a := k) (b := 0) (by
      intro v
      have := central_sq happ v
      rw [hk0] at this
      exact this) hx
    exact ⟨a1, a2, a4⟩
  have hnone : (near4 (eig4 m) 1 (1 / 10 ^ 8)).getLast? = none := by
    rw [List.getLast?_eq_none_iff]
    refine List.eq_nil_iff_forall_not_mem.mpr fun x hx => ?_
    obtain ⟨hxl, hxn⟩ := near4_mem.mp hx
    rcases (hroots x hxl).2.1 with h | h
    · rw [h] at hxn; exact absurd hxn (not_lt.mpr h1)
    · rw [h] at hxn; norm_num at hxn
  have hup : u.dot p = p.dot u := by simp only [dot]; ring
  obtain ⟨x0, hx0, hxr0, -⟩ := h4.complete (v := (p, 1)) (w := k) one_ne_zero (by
    rw [happ]; simp only [hup]
    ext <;> simp)
  have hkn : k ≠ 0 := by rintro rfl; rw [abs_zero] at h0; exact absurd h0 (not_lt.mpr eps_pos.le)
  obtain ⟨x, hx, hlast⟩ := last_of_mem (List.mem_filter.mpr ⟨hx0, by simpa [hxr0] using h0⟩ :
    x0 ∈ (eig4 m).filter fun e => |e.re| > 1 / 10 ^ 8)
  rw [List.mem_filter] at hx
  obtain ⟨hxl, hxb⟩ := hx
  obtain ⟨-, hxr, hxv⟩ := hroots x hxl
  have hxr : x.re = k := by
    refine hxr.resolve_right fun h => ?_
    rw [h] at hxb
    norm_num at hxb
  rw [hxr] at hxv
  refine ⟨dehom x.vr, (dehom x.vr).bind fun p => if p.dot u = 0 then none else some ((1 / p.dot u) • m.b), ?_, ?_⟩
  · have hnn : - -u = u := by ext <;> simp
    simp only [projectionFrom, hnone, hlast, hc, hnn]
    simp
  · intro q' hq'
    have hplane := central_plane happ (dehom_fixed hxv hq')
    have hone : (1 / p.dot u) • p.dot u • e = e := by
      ext <;> simp only [smul_x, smul_y, smul_z] <;> field_simp
    refine ⟨?_, ?_⟩
    · rw [hq']
      simp only [Option.bind_some]
      rw [hplane, if_neg hpu, hb, hone]
    · rw [← hm]
      unfold perspective
      rw [hu, unitVector_of_unit hu1]
      have hs : (e - q').dot u = (e - p).dot u := by
        have e1 : ∀ a b : V3, (a - b).dot u = a.dot u - b.dot u := by
          intro a b; simp only [dot, sub_x, sub_y, sub_z]; ring
        rw [e1, e1, hplane]
      simp only [hs, hplane]

/-- C98: the same for a pseudo perspective projection, if the eigenvalue that is listed last is the distance of the
eye from the plane. -/
theorem c98_pseudo (eig3 : M3 → List Eig3) (eig4 : H4 → List Eig4) (p n e : V3) (hn : n ≠ 0)
    (h0 : 1 / 10 ^ 8 < |(e - p).dot (unitVector n)|) (hp : p.dot n ≠ 0)
    (h4 : IsEig4 (perspective p n e true) (eig4 (perspective p n e true)))
    (hlast : ∀ x, (eig4 (perspective p n e true)).getLast? = some x → x.re = (e - p).dot (unitVector n)) :
    ∃ q eye, projectionFrom eig3 eig4 (perspective p n e true) true = .ok (.perspective q (unitVector n) eye) ∧
      ∀ q', q = some q' → eye = some e ∧ perspective q' (unitVector n) e true = perspective p n e true := by
  obtain ⟨u, l, hu, hu1, hl, hul⟩ := unit_spec hn
  have happ := fun v => pseudo_app (p := p) (e := e) hu v
  have hc : (perspective p n e true).c = -u := by unfold perspective; simp only [hu]; rfl
  have hb : (perspective p n e true).b = p.dot u • (e + u) := by unfold perspective; simp only [hu]; rfl
  obtain ⟨m, hm⟩ : ∃ m, perspective p n e true = m := ⟨_, rfl⟩
  rw [hm] at happ hc hb h4 hlast ⊢
  rw [hu] at h0 hlast ⊢
  have hpu : p.dot u ≠ 0 := by
    intro h
    apply hp
    have : p.dot n = l * p.dot u := by rw [hul]; simp only [dot, smul_x, smul_y, smul_z]; ring
    rw [this, h, mul_zero]
  obtain ⟨k, hk⟩ : ∃ k, (e - p).dot u = k := ⟨_, rfl⟩
  rw [hk] at h0 happ hlast
  have hk0 : k + (p - (e + u)).dot u = -1 := by
    rw [← hk]; simp only [dot, sub_x, sub_y, sub_z, add_x, add_y, add_z] at hu1 ⊢; linear_combination -hu1
  have hroots : ∀ x ∈ eig4 m, (x.re = k ∨ x.re = -1) ∧ m.app x.vr = (x.re • x.vr.1, x.re * x.vr.2) := by
    intro x hx
    obtain ⟨-, a2, -, a4⟩ := h4.roots (a := k) (b := -1) (by
      intro v
      have := central_sq happ v
      rw [hk0] at this
      exact this) hx
    exact ⟨a2, a4⟩
  have hup : u.dot p = p.dot u := by simp only [dot]; ring
  obtain ⟨x0, hx0, hxr0, -⟩ := h4.complete (v := (p, 1)) (w := k) one_ne_zero (by
    rw [happ]; simp only [hup]
    ext <;> simp)
  obtain ⟨x, hxl, hlast'⟩ := last_of_mem hx0
  have hxr := hlast x hlast'
  have hfil : ((eig4 m).filter fun e => |e.re| > 1 / 10 ^ 8) = eig4 m := by
    rw [List.filter_eq_self]
    intro y hy
    rcases (hroots y hy).1 with h | h
    · rw [h]; simpa using h0
    · rw [h]; norm_num
  have hxv := (hroots x hxl).2
  rw [hxr] at hxv
  refine ⟨dehom x.vr, (dehom x.vr).bind fun p => if p.dot u = 0 then none else some ((1 / p.dot u) • m.b - u), ?_, ?_⟩
  · have hnn : - -u = u := by ext <;> simp
    simp only [projectionFrom, hfil, hlast', hc, hnn]
    simp
  · intro q' hq'
    have hplane := central_plane happ (dehom_fixed hxv hq')
    have hone : (1 / p.dot u) • p.dot u • (e + u) - u = e := by
      ext <;> simp only [smul_x, smul_y, smul_z, sub_x, sub_y, sub_z, add_x, add_y, add_z] <;> field_simp <;> ring
    refine ⟨?_, ?_⟩
    · rw [hq']
      simp only [Option.bind_some]
      rw [hplane, if_neg hpu, hb, hone]
    · rw [← hm]
      unfold perspective
      rw [hu, unitVector_of_unit hu1]
      have hs : (e - q').dot u = (e - p).dot u := by
        have e1 : ∀ a b : V3, (a - b).dot u = a.dot u - b.dot u := by
          intro a b; simp only [dot, sub_x, sub_y, sub_z]; ring
        rw [e1, e1, hplane]
      simp only [hs, hplane]

/-- C98: a perspective projection with the eye at the distance one from the plane is not recognised. -/
theorem c98_unit_distance_violation (eig3 : M3 → List Eig3) (eig4 : H4 → List Eig4) (p n e : V3) (hn : n ≠ 0)
    (h1 : (e - p).dot (unitVector n) = 1)
    (h4 : IsEig4 (perspective p n e false) (eig4 (perspective p n e false))) (q eye : Option V3) (n' : V3) :
    projectionFrom eig3 eig4 (perspective p n e false) false ≠ .ok (.perspective q n' eye) := by
  obtain ⟨u, l, hu, hu1, hl, hul⟩ := unit_spec hn
  have happ := fun v => perspective_app (p := p) (e := e) hu v
  obtain ⟨m, hm⟩ : ∃ m, perspective p n e false = m := ⟨_, rfl⟩
  rw [hm] at happ h4 ⊢
  rw [hu] at h1
  have hup : u.dot p = p.dot u := by simp only [dot]; ring
  obtain ⟨x0, hx0, hxr0, -⟩ := h4.complete (v := (p, 1)) (w := 1) one_ne_zero (by
    rw [happ]; simp only [hup, h1]
    ext <;> simp)
  obtain ⟨x, -, hlast⟩ := last_of_mem (near4_mem.mpr ⟨hx0, by rw [hxr0, sub_self, abs_zero]; exact eps_pos⟩ :
    x0 ∈ near4 (eig4 m) 1 (1 / 10 ^ 8))
  simp only [projectionFrom, hlast]
  intro h
  split at h
  · cases h
  · split at h <;> cases h

/-- C98: the eye of a perspective projection onto a plane through the origin is lost: it is not finite. -/
theorem c98_origin_violation (eig3 : M3 → List Eig3) (eig4 : H4 → List Eig4) (p n e : V3) (hn : n ≠ 0)
    (h0 : 1 / 10 ^ 8 < |(e - p).dot (unitVector n)|) (h1 : 1 / 10 ^ 8 ≤ |(e - p).dot (unitVector n) - 1|)
    (hp : p.dot n = 0)
    (h4 : IsEig4 (perspective p n e false) (eig4 (perspective p n e false))) :
    ∃ q, projectionFrom eig3 eig4 (perspective p n e false) false = .ok (.perspective q (unitVector n) none) := by
  obtain ⟨u, l, hu, hu1, hl, hul⟩ := unit_spec hn
  have happ := fun v => perspective_app (p := p) (e := e) hu v
  have hc : (perspective p n e false).c = -u := by unfold perspective; simp only [hu]; rfl
  obtain ⟨m, hm⟩ : ∃ m, perspective p n e false = m := ⟨_, rfl⟩
  rw [hm] at happ hc h4 ⊢
  rw [hu] at h0 h1 ⊢
  have hpu : p.dot u = 0 := by
    have : p.dot n = l * p.dot u := by rw [hul]; simp only [dot, smul_x, smul_y, smul_z]; ring
    rw [this] at hp
    exact (mul_eq_zero.mp hp).resolve_left hl.ne'
  obtain ⟨k, hk⟩ : ∃ k, (e - p).dot u = k := ⟨_, rfl⟩
  rw [hk] at h0 h1 happ
  have hk0 : k + (p - e).dot u = 0 := by
    rw [← hk]; simp only [dot, sub_x, sub_y, sub_z]; ring
  have hroots : ∀ x ∈ eig4 m, x.im = 0 ∧ (x.re = k ∨ x.re = 0) ∧ m.app x.vr = (x.re • x.vr.1, x.re * x.vr.2) := by
    intro x hx
    obtain ⟨a1, a2, -, a4⟩ := h4.roots (a := k) (b := 0) (by
      intro v
      have := central_sq happ v
      rw [hk0] at this
      exact this) hx
    exact ⟨a1, a2, a4⟩
  have hnone : (near4 (eig4 m) 1 (1 / 10 ^ 8)).getLast? = none := by
    rw [List.getLast?_eq_none_iff]
    refine List.eq_nil_iff_forall_not_mem.mpr fun x hx => ?_
    obtain ⟨hxl, hxn⟩ := near4_mem.mp hx
    rcases (hroots x hxl).2.1 with h | h
    · rw [h] at hxn; exact absurd hxn (not_lt.mpr h1)
    · rw [h] at hxn; norm_num at hxn
  have hup : u.dot p = p.dot u := by simp only [dot]; ring
  obtain ⟨x0, hx0, hxr0, -⟩ := h4.complete (v := (p, 1)) (w := k) one_ne_zero (by
    rw [happ]; simp only [hup]
    ext <;> simp)
  obtain ⟨x, hx, hlast⟩ := last_of_mem (List.mem_filter.mpr ⟨hx0, by simpa [hxr0] using h0⟩ :
    x0 ∈ (eig4 m).filter fun e => |e.re| > 1 / 10 ^ 8)
  rw [List.mem_filter] at hx
  obtain ⟨hxl, hxb⟩ := hx
  obtain ⟨-, hxr, hxv⟩ := hroots x hxl
  have hxr : x.re = k := by
    refine hxr.resolve_right fun h => ?_
    rw [h] at hxb
    norm_num at hxb
  rw [hxr] at hxv
  refine ⟨dehom x.vr, ?_⟩
  have hnn : - -u = u := by ext <;> simp
  simp only [projectionFrom, hnone, hlast, hc, hnn]
  simp only [Except.ok.injEq, Projection.perspective.injEq, true_and]
  cases hq : dehom x.vr with
  | none => rfl
  | some q' =>
    simp only [Option.bind_some]
    rw [central_plane happ (dehom_fixed hxv hq), hpu, if_pos rfl]

namespace H4

/-- The eigenvectors of a matrix that is diagonal but for a block of z and the homogeneous coordinate, with the
eigenvectors `(x1, y1)` and `(x2, y2)`. -/
def block4 (a b r1 x1 y1 r2 x2 y2 : ℝ) : List Eig4 :=
  [⟨a, 0, (⟨1, 0, 0⟩, 0), (0, 0)⟩, ⟨b, 0, (⟨0, 1, 0⟩, 0), (0, 0)⟩, ⟨r1, 0, (⟨0, 0, x1⟩, y1), (0, 0)⟩,
    ⟨r2, 0, (⟨0, 0, x2⟩, y2), (0, 0)⟩]

theorem isEig4_block {a b r1 x1 y1 r2 x2 y2 f g h i : ℝ} (h1 : x1 ^ 2 + y1 ^ 2 = 1) (h2 : x2 ^ 2 + y2 ^ 2 = 1)
    (e1 : f * x1 + g * y1 = r1 * x1) (e2 : h * x1 + i * y1 = r1 * y1) (e3 : f * x2 + g * y2 = r2 * x2)
    (e4 : h * x2 + i * y2 = r2 * y2) (hdet : x1 * y2 - x2 * y1 ≠ 0) :
    IsEig4 ⟨⟨a, 0, 0, 0, b, 0, 0, 0, f⟩, ⟨0, 0, g⟩, ⟨0, 0, h⟩, i⟩ (block4 a b r1 x1 y1 r2 x2 y2) := by
  refine ⟨?_, ?_, ?_, ?_, ?_⟩
  · intro e he
    simp only [block4, List.mem_cons, List.not_mem_nil, or_false] at he
    rcases he with rfl | rfl | rfl | rfl <;> ext <;> simp [app, M3.mulVec, dot] <;> linarith
  · intro e he
    simp only [block4, List.mem_cons, List.not_mem_nil, or_false] at he
    rcases he with rfl | rfl | rfl | rfl <;> ext <;> simp [app, M3.mulVec, dot]
  · intro e he
    simp only [block4, List.mem_cons, List.not_mem_nil, or_false] at he
    rcases he with rfl | rfl | rfl | rfl <;> simp [dot] <;> linarith
  · intro e he _
    simp only [block4, List.mem_cons, List.not_mem_nil, or_false] at he
    rcases he with rfl | rfl | rfl | rfl <;> rfl
  · rintro w n hn ⟨v, t⟩ hv
    simp only [app, M3.mulVec, Prod.ext_iff, V3.ext_iff, smul_x, smul_y, smul_z, add_x, add_y, add_z, dot] at hv
    obtain ⟨⟨hx, hy, hz⟩, ht⟩ := hv
    have n1 := hn ⟨a, 0, (⟨1, 0, 0⟩, 0), (0, 0)⟩ (by simp [block4])
    have n2 := hn ⟨b, 0, (⟨0, 1, 0⟩, 0), (0, 0)⟩ (by simp [block4])
    have n3 := hn ⟨r1, 0, (⟨0, 0, x1⟩, y1), (0, 0)⟩ (by simp [block4])
    have n4 := hn ⟨r2, 0, (⟨0, 0, x2⟩, y2), (0, 0)⟩ (by simp [block4])
    simp only [dot] at n1 n2 n3 n4 ⊢
    -- coordinates in the basis of the block
    obtain ⟨α, hα⟩ : ∃ α, (v.z * y2 - x2 * t) / (x1 * y2 - x2 * y1) = α := ⟨_, rfl⟩
    obtain ⟨β, hβ⟩ : ∃ β, (x1 * t - v.z * y1) / (x1 * y2 - x2 * y1) = β := ⟨_, rfl⟩
    rw [div_eq_iff hdet] at hα hβ
    have hz' : v.z = α * x1 + β * x2 := mul_right_cancel₀ hdet (by linear_combination x1 * hα + x2 * hβ)
    have ht' : t = α * y1 + β * y2 := mul_right_cancel₀ hdet (by linear_combination y1 * hα + y2 * hβ)
    rw [hz', ht'] at hz ht
    have c1 : r1 * α = w * α := mul_right_cancel₀ hdet (by
      linear_combination y2 * hz - x2 * ht - α * y2 * e1 - β * y2 * e3 + α * x2 * e2 + β * x2 * e4)
    have c2 : r2 * β = w * β := mul_right_cancel₀ hdet (by
      linear_combination x1 * ht - y1 * hz + α * y1 * e1 + β * y1 * e3 - α * x1 * e2 - β * x1 * e4)
    have m1 := diag_comp (n := n.1.z * x1 + n.2 * y1) c1 (fun h => by linarith [n3 h trivial])
    have m2 := diag_comp (n := n.1.z * x2 + n.2 * y2) c2 (fun h => by linarith [n4 h trivial])
    have m3 := diag_comp (a := a) (w := w) (n := n.1.x) (v := v.x) (by linarith) (fun h => by linarith [n1 h trivial])
    have m4 := diag_comp (a := b) (w := w) (n := n.1.y) (v := v.y) (by linarith) (fun h => by linarith [n2 h trivial])
    rw [hz', ht']
    linear_combination m1 + m2 + m3 + m4

theorem sqrt_inv_sq {x : ℝ} (hx : 0 < x) : (1 / Real.sqrt x) ^ 2 = 1 / x := by
  rw [div_pow, Real.sq_sqrt hx.le, one_pow]

end H4

/-- The projection from (0, 0, 3) onto the plane z = 1 is found again. -/
example : ∃ q eye, projectionFrom (fun _ => []) (fun _ => block4 2 2 0 (3 * (1 / Real.sqrt 10)) (1 / Real.sqrt 10) 2
      (1 / Real.sqrt 2) (1 / Real.sqrt 2)) (perspective ⟨0, 0, 1⟩ ⟨0, 0, 2⟩ ⟨0, 0, 3⟩ false) false =
      .ok (.perspective q ⟨0, 0, 1⟩ eye) ∧ ∀ q', q = some q' → eye = some ⟨0, 0, 3⟩ := by
  have hk : ((⟨0, 0, 3⟩ : V3) - ⟨0, 0, 1⟩).dot ⟨0, 0, 1⟩ = 2 := by simp [dot]; norm_num
  have hM : perspective ⟨0, 0, 1⟩ ⟨0, 0, 2⟩ ⟨0, 0, 3⟩ false =
      ⟨⟨2, 0, 0, 0, 2, 0, 0, 0, -1⟩, ⟨0, 0, 3⟩, ⟨0, 0, -1⟩, 3⟩ := by
    unfold perspective; simp only [unit_two_z, hk]
    ext <;> simp [smul3, add3, outer, M3.one, dot]; norm_num
  have hp1 : 0 < 1 / Real.sqrt 10 := by positivity
  have hp2 : 0 < 1 / Real.sqrt 2 := by positivity
  obtain ⟨q, eye, h, h'⟩ := c98_perspective (fun _ => []) (fun _ => block4 2 2 0 (3 * (1 / Real.sqrt 10))
      (1 / Real.sqrt 10) 2 (1 / Real.sqrt 2) (1 / Real.sqrt 2)) ⟨0, 0, 1⟩ ⟨0, 0, 2⟩ ⟨0, 0, 3⟩ two_z_ne
    (by rw [unit_two_z, hk]; norm_num) (by rw [unit_two_z, hk]; norm_num) (by simp [dot]) (by
      rw [hM]
      refine isEig4_block ?_ ?_ (by ring) (by ring) (by ring) (by ring) ?_
      · rw [mul_pow, sqrt_inv_sq (by norm_num)]; norm_num
      · rw [sqrt_inv_sq (by norm_num)]; norm_num
      · have : 3 * (1 / Real.sqrt 10) * (1 / Real.sqrt 2) - 1 / Real.sqrt 2 * (1 / Real.sqrt 10) =
            2 * ((1 / Real.sqrt 10) * (1 / Real.sqrt 2)) := by ring
        rw [this]
        positivity)
  rw [unit_two_z] at h
  exact ⟨q, eye, h, fun q' hq => (h' q' hq).1⟩

/-- C98: a pseudo perspective projection is not found again if the eigenvalue -1 is listed last: the eye of the
projection from (0, 0, 3) onto the plane z = 1 is found at the origin. -/
theorem c98_pseudo_violation : ∃ eig4 : H4 → List Eig4,
    let m := perspective ⟨0, 0, 1⟩ ⟨0, 0, 1⟩ ⟨0, 0, 3⟩ true
    IsEig4 m (eig4 m) ∧ ∀ eig3 : M3 → List Eig3,
      projectionFrom eig3 eig4 m true = .ok (.perspective (some ⟨0, 0, 4⟩) ⟨0, 0, 1⟩ (some 0)) ∧
      perspective ⟨0, 0, 4⟩ ⟨0, 0, 1⟩ 0 true ≠ m := by
  have hu : unitVector (⟨0, 0, 1⟩ : V3) = ⟨0, 0, 1⟩ := unitVector_of_unit (by simp [dot])
  have hk : ((⟨0, 0, 3⟩ : V3) - ⟨0, 0, 1⟩).dot ⟨0, 0, 1⟩ = 2 := by simp [dot]; norm_num
  have hM : perspective ⟨0, 0, 1⟩ ⟨0, 0, 1⟩ ⟨0, 0, 3⟩ true =
      ⟨⟨2, 0, 0, 0, 2, 0, 0, 0, -2⟩, ⟨0, 0, 4⟩, ⟨0, 0, -1⟩, 3⟩ := by
    unfold perspective; simp only [hu, hk]
    ext <;> simp [smul3, add3, outer, M3.one, dot] <;> norm_num
  have hp1 : 0 < 1 / Real.sqrt 17 := by positivity
  have hp2 : 0 < 1 / Real.sqrt 2 := by positivity
  refine ⟨fun _ => block4 2 2 2 (1 / Real.sqrt 2) (1 / Real.sqrt 2) (-1) (4 * (1 / Real.sqrt 17)) (1 / Real.sqrt 17),
    ?_⟩
  dsimp only
  rw [hM]
  refine ⟨?_, fun eig3 => ⟨?_, ?_⟩⟩
  · refine isEig4_block ?_ ?_ (by ring) (by ring) (by ring) (by ring) ?_
    · rw [sqrt_inv_sq (by norm_num)]; norm_num
    · rw [mul_pow, sqrt_inv_sq (by norm_num)]; norm_num
    · have : 1 / Real.sqrt 2 * (1 / Real.sqrt 17) - 4 * (1 / Real.sqrt 17) * (1 / Real.sqrt 2) =
          -(3 * ((1 / Real.sqrt 17) * (1 / Real.sqrt 2))) := by ring
      rw [this, neg_ne_zero]
      positivity
  · obtain ⟨r, hr⟩ : ∃ r, 1 / Real.sqrt 17 = r := ⟨_, rfl⟩
    obtain ⟨s, hs⟩ : ∃ s, 1 / Real.sqrt 2 = s := ⟨_, rfl⟩
    rw [hr] at hp1 ⊢
    rw [hs]
    have hlast : ((block4 2 2 2 s s (-1) (4 * r) r).filter fun e => |e.re| > 1 / 10 ^ 8).getLast? =
        some ⟨-1, 0, (⟨0, 0, 4 * r⟩, r), (0, 0)⟩ := by
      unfold block4
      rw [List.filter_cons_of_pos (by norm_num), List.filter_cons_of_pos (by norm_num),
        List.filter_cons_of_pos (by norm_num), List.filter_cons_of_pos (by norm_num)]
      rfl
    have hde : dehom ((⟨0, 0, 4 * r⟩ : V3), r) = some ⟨0, 0, 4⟩ := by
      unfold dehom
      rw [if_neg hp1.ne']
      congr 1
      ext <;> simp [point]
      field_simp
    have hnn : -(⟨0, 0, -1⟩ : V3) = ⟨0, 0, 1⟩ := by ext <;> simp
    have hdot : (⟨0, 0, 4⟩ : V3).dot ⟨0, 0, 1⟩ = 4 := by simp [dot]
    simp only [projectionFrom, hlast, hde, hnn, Option.bind_some, hdot]
    rw [if_neg (by norm_num)]
    simp only [if_true]
    congr 3
    ext <;> simp
  · intro h
    have := congrArg H4.d h
    unfold perspective at this
    simp [hu, dot] at this

end RayOpt
