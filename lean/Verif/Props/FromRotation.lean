import Verif.Props.FromMatrix

/-!
C98: `rotation_from_matrix` (rayopt/transformations.py 344-381).
-/

namespace RayOpt

open V3 H4

namespace H4

/-- The rotation with the cosine `c` and the sine `s` about `u`. -/
def rotM (c s : ℝ) (u : V3) : M3 :=
  ⟨c + u.x * u.x * (1 - c), u.x * u.y * (1 - c) - s * u.z, u.x * u.z * (1 - c) + s * u.y,
   u.y * u.x * (1 - c) + s * u.z, c + u.y * u.y * (1 - c), u.y * u.z * (1 - c) - s * u.x,
   u.z * u.x * (1 - c) - s * u.y, u.z * u.y * (1 - c) + s * u.x, c + u.z * u.z * (1 - c)⟩

theorem rotM_mulVec (c s : ℝ) (u v : V3) :
    (rotM c s u).mulVec v = c • v + ((1 - c) * u.dot v) • u + s • u.cross v := by
  ext <;> simp [rotM, M3.mulVec, dot, cross] <;> ring

theorem rotM_T (c s : ℝ) (u : V3) : (rotM c s u).T = rotM c (-s) u := by
  ext <;> simp only [rotM, M3.T] <;> ring

/-- The eigenvalues of a rotation are one and two with the cosine as real part. -/
theorem rotM_eig {c s re im : ℝ} {u vr vi : V3} (hu : u.dot u = 1)
    (hr : (rotM c s u).mulVec vr = re • vr - im • vi) (hi : (rotM c s u).mulVec vi = re • vi + im • vr)
    (h1 : vr.dot vr + vi.dot vi = 1) : (re = 1 ∧ im = 0) ∨ re = c := by
  rw [rotM_mulVec] at hr hi
  have gr : u.dot vr = re * u.dot vr - im * u.dot vi := by
    have h := congrArg (u.dot ·) hr
    have hl : u.dot (c • vr + ((1 - c) * u.dot vr) • u + s • u.cross vr) = c * u.dot vr + (1 - c) * u.dot vr * u.dot u := by
      simp only [dot, cross, add_x, add_y, add_z, smul_x, smul_y, smul_z]; ring
    have hr : u.dot (re • vr - im • vi) = re * u.dot vr - im * u.dot vi := by
      simp only [dot, sub_x, sub_y, sub_z, smul_x, smul_y, smul_z]; ring
    simp only [hl, hr, hu] at h
    linarith
  have gi : u.dot vi = re * u.dot vi + im * u.dot vr := by
    have h := congrArg (u.dot ·) hi
    have hl : u.dot (c • vi + ((1 - c) * u.dot vi) • u + s • u.cross vi) = c * u.dot vi + (1 - c) * u.dot vi * u.dot u := by
      simp only [dot, cross, add_x, add_y, add_z, smul_x, smul_y, smul_z]; ring
    have hr : u.dot (re • vi + im • vr) = re * u.dot vi + im * u.dot vr := by
      simp only [dot, add_x, add_y, add_z, smul_x, smul_y, smul_z]; ring
    simp only [hl, hr, hu] at h
    linarith
  by_cases hw : (re - 1) ^ 2 + im ^ 2 = 0
  · left
    constructor <;> nlinarith [sq_nonneg (re - 1), sq_nonneg im]
  · right
    have zr : u.dot vr = 0 := by
      have : ((re - 1) ^ 2 + im ^ 2) * u.dot vr = 0 := by linear_combination -(re - 1) * gr - im * gi
      exact (mul_eq_zero.mp this).resolve_left hw
    have zi : u.dot vi = 0 := by
      have : ((re - 1) ^ 2 + im ^ 2) * u.dot vi = 0 := by linear_combination -(re - 1) * gi + im * gr
      exact (mul_eq_zero.mp this).resolve_left hw
    rw [zr] at hr
    rw [zi] at hi
    simp only [dot] at zr zi hu h1
    simp only [V3.ext_iff, add_x, add_y, add_z, sub_x, sub_y, sub_z, smul_x, smul_y, smul_z, cross] at hr hi
    obtain ⟨h1x, h1y, h1z⟩ := hr
    obtain ⟨h2x, h2y, h2z⟩ := hi
    obtain ⟨hA, hB⟩ := vanish (A := (re - c) ^ 2 - im ^ 2 + s ^ 2) (B := 2 * (re - c) * im) (w := 0) (w' := 0)
      (x := vr.x) (y := vr.y) (z := vr.z) (x' := vi.x) (y' := vi.y) (z' := vi.z) (by linarith)
      (by linear_combination -(re - c) * h1x + im * h2x - s * (u.y * h1z - u.z * h1y) + s ^ 2 * u.x * zr -
        s ^ 2 * vr.x * hu)
      (by linear_combination -(re - c) * h1y + im * h2y - s * (u.z * h1x - u.x * h1z) + s ^ 2 * u.y * zr -
        s ^ 2 * vr.y * hu)
      (by linear_combination -(re - c) * h1z + im * h2z - s * (u.x * h1y - u.y * h1x) + s ^ 2 * u.z * zr -
        s ^ 2 * vr.z * hu)
      (by ring)
      (by linear_combination -(re - c) * h2x - im * h1x - s * (u.y * h2z - u.z * h2y) + s ^ 2 * u.x * zi -
        s ^ 2 * vi.x * hu)
      (by linear_combination -(re - c) * h2y - im * h1y - s * (u.z * h2x - u.x * h2z) + s ^ 2 * u.y * zi -
        s ^ 2 * vi.y * hu)
      (by linear_combination -(re - c) * h2z - im * h1z - s * (u.x * h2y - u.y * h2x) + s ^ 2 * u.z * zi -
        s ^ 2 * vi.z * hu)
      (by ring)
    rcases mul_eq_zero.mp hB with h | h
    · linarith
    · rw [h] at hA
      have : (re - c) ^ 2 = 0 := by nlinarith [sq_nonneg (re - c), sq_nonneg s]
      have := pow_eq_zero_iff two_ne_zero |>.mp this
      linarith

/-- Only the axis is fixed. -/
theorem rotM_axis {c s : ℝ} {u v : V3} (hu : u.dot u = 1) (hc : c ≠ 1) (h : (rotM c s u).mulVec v = v) :
    v = u.dot v • u := by
  rw [rotM_mulVec] at h
  obtain ⟨x, hx⟩ : ∃ x, v - u.dot v • u = x := ⟨_, rfl⟩
  have hv : v = x + u.dot v • u := by rw [← hx]; ext <;> simp
  obtain ⟨k, hk⟩ : ∃ k, u.dot v = k := ⟨_, rfl⟩
  have hux : u.dot x = 0 := by
    rw [← hx]
    have : u.dot (v - u.dot v • u) = u.dot v - u.dot v * u.dot u := by
      simp only [dot, sub_x, sub_y, sub_z, smul_x, smul_y, smul_z]; ring
    rw [this, hu]; ring
  rw [hk] at h hv ⊢
  rw [hv] at h
  simp only [V3.ext_iff, add_x, add_y, add_z, smul_x, smul_y, smul_z, cross] at h
  obtain ⟨hx1, hy1, hz1⟩ := h
  have h0 : (1 - c) * x.dot x = 0 := by
    simp only [dot]
    linear_combination -x.x * hx1 - x.y * hy1 - x.z * hz1
  have h1 := (mul_eq_zero.mp h0).resolve_left (sub_ne_zero.mpr (Ne.symm hc))
  rw [dot_self_eq_zero] at h1
  rw [hv, h1]; ext <;> simp

end H4

/-- C98: `rotation_from_matrix` of a rotation by an angle whose cosine is not within 1e-8 of one gives its axis, up
to the sign, and its angle; if the point found is finite, the rotation found is the same. -/
theorem c98_rotation (eig3 : M3 → List Eig3) (eig4 : H4 → List Eig4) (a : ℝ) (d p : V3) (hd : d ≠ 0)
    (ha : 1 / 10 ^ 8 ≤ 1 - Real.cos a)
    (h3 : IsEig3 (rotation a d (some p)).a.T (eig3 (rotation a d (some p)).a.T))
    (h4 : IsEig4 (rotation a d (some p)) (eig4 (rotation a d (some p)))) :
    ∃ a' d' q, rotationFrom eig3 eig4 (rotation a d (some p)) = .ok (a', d', q) ∧
      a' ∈ Set.Ioc (-Real.pi) Real.pi ∧
      (d' = unitVector d ∧ Real.cos a' = Real.cos a ∧ Real.sin a' = Real.sin a ∨
        d' = -unitVector d ∧ Real.cos a' = Real.cos a ∧ Real.sin a' = -Real.sin a) ∧
      ∀ q', q = some q' → rotation a' d' (some q') = rotation a d (some p) := by
  obtain ⟨u, l, hu, hu1, hl, -⟩ := unit_spec hd
  have hc1 : Real.cos a ≠ 1 := by
    intro h; rw [h] at ha; norm_num at ha
  have hne : ∀ x : ℝ, x = Real.cos a → ¬ |x - 1| < 1 / 10 ^ 8 := by
    intro x hx h
    rw [hx, abs_sub_comm] at h
    exact absurd (lt_of_le_of_lt (le_abs_self _) h) (not_lt.mpr ha)
  have hR : rotation a d (some p) =
      ⟨rotM (Real.cos a) (Real.sin a) u, p - (rotM (Real.cos a) (Real.sin a) u).mulVec p, 0, 1⟩ := by
    unfold rotation rotationMatrix rotM; rw [hu]
  have hRT : (rotation a d (some p)).a.T = rotM (Real.cos a) (-Real.sin a) u := by rw [hR]; exact rotM_T _ _ _
  obtain ⟨m, hm⟩ : ∃ m, rotation a d (some p) = m := ⟨_, rfl⟩
  rw [hm] at hR hRT h3 h4 ⊢
  have hfix : m.app (p, 1) = (p, 1) := by
    rw [hR]; ext <;> simp [app, dot]
  obtain ⟨q, hq, hq1⟩ := fixedPoint_of h4 (by
    intro e he hen
    have hr := h4.pairR e he
    have hi := h4.pairI e he
    have h1 := h4.unit e he
    rw [hR] at hr hi
    have d0 : ∀ v : V3, dot 0 v = 0 := by intro v; simp [dot]
    simp only [app, Prod.ext_iff, d0, zero_add, one_mul] at hr hi
    by_cases hw : (e.re - 1) ^ 2 + e.im ^ 2 = 0
    · constructor <;> nlinarith [sq_nonneg (e.re - 1), sq_nonneg e.im]
    · have zr : e.vr.2 = 0 := by
        have : ((e.re - 1) ^ 2 + e.im ^ 2) * e.vr.2 = 0 := by linear_combination -(e.re - 1) * hr.2 - e.im * hi.2
        exact (mul_eq_zero.mp this).resolve_left hw
      have zi : e.vi.2 = 0 := by
        have : ((e.re - 1) ^ 2 + e.im ^ 2) * e.vi.2 = 0 := by linear_combination -(e.re - 1) * hi.2 + e.im * hr.2
        exact (mul_eq_zero.mp this).resolve_left hw
      rw [zr, zi] at hr hi h1
      have z0 : ∀ v w : V3, v + (0 : ℝ) • w = v := by intro v w; ext <;> simp
      rw [z0] at hr hi
      rcases rotM_eig hu1 hr.1 hi.1 (by linarith) with h | h
      · exact h
      · exact absurd hen (hne _ h)) hfix
  have hun : u ≠ 0 := by rintro rfl; simp [dot] at hu1
  obtain ⟨e0, he0, hre0, -⟩ := h3.complete (v := u) (w := 1) hun (by
    rw [hRT, rotM_mulVec, hu1]
    ext <;> simp [cross] <;> ring)
  obtain ⟨e, he, hlast⟩ := last_of_mem (near3_mem.mpr ⟨he0, by rw [hre0, sub_self, abs_zero]; exact eps_pos⟩ :
    e0 ∈ near3 (eig3 m.a.T) 1 (1 / 10 ^ 8))
  obtain ⟨hel, hen⟩ := near3_mem.mp he
  have hr := h3.pairR e hel
  have hi := h3.pairI e hel
  have h1 := h3.unit e hel
  rw [hRT] at hr hi
  obtain ⟨hre, him⟩ := (rotM_eig hu1 hr hi h1).resolve_right (fun h => absurd hen (hne _ h))
  have hvi := h3.real e hel him
  have hv1 : e.vr.dot e.vr = 1 := by rw [hvi] at h1; simpa [dot] using h1
  obtain ⟨k, hk, hvk⟩ := unit_parallel hu1 hv1 (rotM_axis (s := -Real.sin a) hu1 hc1 (by
    rw [hr, hre, him]; ext <;> simp))
  have hk0 : k ≠ 0 := by rintro rfl; norm_num at hk
  have hu1' := hu1
  simp only [dot] at hu1'
  have hcos : (tr m.a - 1) / 2 = Real.cos a := by
    rw [hR]; simp only [tr, rotM]; linear_combination (1 - Real.cos a) / 2 * hu1'
  have key : ∀ t : ℝ, k * t ≠ 0 → Real.sin a * t / (k * t) = k * Real.sin a := by
    intro t ht
    rw [div_eq_iff ht]; linear_combination -Real.sin a * t * hk
  have hsin : (if |e.vr.z| > 1 / 10 ^ 8 then (m.a.a10 + (Real.cos a - 1) * e.vr.x * e.vr.y) / e.vr.z
        else if |e.vr.y| > 1 / 10 ^ 8 then (m.a.a02 + (Real.cos a - 1) * e.vr.x * e.vr.z) / e.vr.y
        else (m.a.a21 + (Real.cos a - 1) * e.vr.y * e.vr.z) / e.vr.x) = k * Real.sin a := by
    have hx : e.vr.x = k * u.x := by rw [hvk]; rfl
    have hy : e.vr.y = k * u.y := by rw [hvk]; rfl
    have hz : e.vr.z = k * u.z := by rw [hvk]; rfl
    rw [hR, hx, hy, hz]
    simp only [rotM]
    have hpos : ∀ t : ℝ, |t| > 1 / 10 ^ 8 → t ≠ 0 := by
      rintro t ht rfl; rw [abs_zero] at ht; exact absurd ht (not_lt.mpr eps_pos.le)
    split_ifs with hz' hy'
    · rw [← key _ (hpos _ hz')]; congr 1
      linear_combination (Real.cos a - 1) * u.x * u.y * hk
    · rw [← key _ (hpos _ hy')]; congr 1
      linear_combination (Real.cos a - 1) * u.x * u.z * hk
    · have hx0 : k * u.x ≠ 0 := by
        intro h0
        have hx0 : u.x = 0 := (mul_eq_zero.mp h0).resolve_left hk0
        push Not at hz' hy'
        have a1 : (k * u.z) ^ 2 ≤ (1 / 10 ^ 8) ^ 2 := by rw [← sq_abs]; exact pow_le_pow_left₀ (abs_nonneg _) hz' 2
        have a2 : (k * u.y) ^ 2 ≤ (1 / 10 ^ 8) ^ 2 := by rw [← sq_abs]; exact pow_le_pow_left₀ (abs_nonneg _) hy' 2
        have a3 : (k * u.y) ^ 2 + (k * u.z) ^ 2 = 1 := by
          rw [hx0] at hu1'
          linear_combination hk + k * k * hu1'
        norm_num at a1 a2
        linarith
      rw [← key _ hx0]; congr 1
      linear_combination (Real.cos a - 1) * u.y * u.z * hk
  have hang := atan2_cos_sin (y := k * Real.sin a) (x := Real.cos a) one_pos (by
    have := Real.sin_sq_add_cos_sq a
    linear_combination this + Real.sin a ^ 2 * hk)
  rw [div_one, div_one] at hang
  refine ⟨mathAtan2 (k * Real.sin a) (Real.cos a), e.vr, q, ?_, ?_, ?_, ?_⟩
  · simp only [rotationFrom, hlast, hq, Except.map, hcos, hsin]
  · unfold mathAtan2
    exact ⟨Complex.neg_pi_lt_arg _, Complex.arg_le_pi _⟩
  · rw [hu, hvk, hang.1, hang.2]
    have : (k - 1) * (k + 1) = 0 := by linear_combination hk
    rcases mul_eq_zero.mp this with h | h
    · left; rw [show k = 1 by linarith]
      exact ⟨by ext <;> simp, rfl, by ring⟩
    · right; rw [show k = -1 by linarith]
      exact ⟨by ext <;> simp, rfl, by ring⟩
  · intro q' hq'
    have hf := hq1 q' hq'
    have ha' : rotationMatrix (mathAtan2 (k * Real.sin a) (Real.cos a)) e.vr = m.a := by
      unfold rotationMatrix
      rw [unitVector_of_unit hv1, hang.1, hang.2, hvk, hR]
      ext <;> simp only [rotM, smul_x, smul_y, smul_z]
      · linear_combination (1 - Real.cos a) * u.x * u.x * hk
      · linear_combination ((1 - Real.cos a) * u.x * u.y - Real.sin a * u.z) * hk
      · linear_combination ((1 - Real.cos a) * u.x * u.z + Real.sin a * u.y) * hk
      · linear_combination ((1 - Real.cos a) * u.x * u.y + Real.sin a * u.z) * hk
      · linear_combination (1 - Real.cos a) * u.y * u.y * hk
      · linear_combination ((1 - Real.cos a) * u.y * u.z - Real.sin a * u.x) * hk
      · linear_combination ((1 - Real.cos a) * u.x * u.z - Real.sin a * u.y) * hk
      · linear_combination ((1 - Real.cos a) * u.y * u.z + Real.sin a * u.x) * hk
      · linear_combination (1 - Real.cos a) * u.z * u.z * hk
    unfold rotation
    rw [ha']
    have hmb : m.b = q' - m.a.mulVec q' := by
      have := congrArg Prod.fst hf
      simp only [app, V3.ext_iff, add_x, add_y, add_z, smul_x, smul_y, smul_z, one_mul] at this
      obtain ⟨fx, fy, fz⟩ := this
      ext <;> simp only [sub_x, sub_y, sub_z] <;> linarith
    have hmc : m.c = 0 := by rw [hR]
    have hmd : m.d = 1 := by rw [hR]
    show (⟨m.a, q' - m.a.mulVec q', 0, 1⟩ : H4) = m
    rw [← hmb, ← hmc, ← hmd]

/-- The half turn about z is found again. -/
example : ∃ a' d' q, rotationFrom (fun _ => diag3 (-1) (-1) 1) (fun _ => diag4 (-1) (-1) 1 1)
      (rotation Real.pi ⟨0, 0, 2⟩ (some 0)) = .ok (a', d', q) ∧ Real.cos a' = -1 := by
  have hM : rotation Real.pi ⟨0, 0, 2⟩ (some 0) = ⟨⟨-1, 0, 0, 0, -1, 0, 0, 0, 1⟩, 0, 0, 1⟩ := by
    unfold rotation rotationMatrix; rw [unit_two_z, Real.cos_pi, Real.sin_pi]
    ext <;> simp [M3.mulVec]
  obtain ⟨a', d', q, h, -, hd, -⟩ := c98_rotation (fun _ => diag3 (-1) (-1) 1) (fun _ => diag4 (-1) (-1) 1 1) Real.pi
    ⟨0, 0, 2⟩ 0 two_z_ne (by rw [Real.cos_pi]; norm_num) (by rw [hM]; exact isEig3_diag (-1) (-1) 1)
    (by rw [hM]; exact isEig4_diag (-1) (-1) 1 1)
  refine ⟨a', d', q, h, ?_⟩
  rw [← Real.cos_pi]
  rcases hd with h | h <;> exact h.2.1

/-- The vectors of the eigenvalues of the transposed rotation by the angle with half tangent 1/2^14 about x. -/
noncomputable def tinyEig3 : List Eig3 :=
  [⟨1, 0, ⟨1, 0, 0⟩, 0⟩,
   ⟨(1 - (1 / 2 ^ 14) ^ 2) / (1 + (1 / 2 ^ 14) ^ 2), -(2 * (1 / 2 ^ 14) / (1 + (1 / 2 ^ 14) ^ 2)),
     ⟨0, Real.sqrt (1 / 2), 0⟩, ⟨0, 0, -Real.sqrt (1 / 2)⟩⟩,
   ⟨(1 - (1 / 2 ^ 14) ^ 2) / (1 + (1 / 2 ^ 14) ^ 2), 2 * (1 / 2 ^ 14) / (1 + (1 / 2 ^ 14) ^ 2),
     ⟨0, Real.sqrt (1 / 2), 0⟩, ⟨0, 0, Real.sqrt (1 / 2)⟩⟩]

/-- The same for the homogeneous matrix. -/
noncomputable def tinyEig4 : List Eig4 :=
  [⟨1, 0, (⟨1, 0, 0⟩, 0), (0, 0)⟩,
   ⟨(1 - (1 / 2 ^ 14) ^ 2) / (1 + (1 / 2 ^ 14) ^ 2), 2 * (1 / 2 ^ 14) / (1 + (1 / 2 ^ 14) ^ 2),
     (⟨0, Real.sqrt (1 / 2), 0⟩, 0), (⟨0, 0, -Real.sqrt (1 / 2)⟩, 0)⟩,
   ⟨(1 - (1 / 2 ^ 14) ^ 2) / (1 + (1 / 2 ^ 14) ^ 2), -(2 * (1 / 2 ^ 14) / (1 + (1 / 2 ^ 14) ^ 2)),
     (⟨0, Real.sqrt (1 / 2), 0⟩, 0), (⟨0, 0, Real.sqrt (1 / 2)⟩, 0)⟩,
   ⟨1, 0, (0, 1), (0, 0)⟩]

theorem tiny_cos : Real.cos (2 * Real.arctan (1 / 2 ^ 14)) = (1 - (1 / 2 ^ 14) ^ 2) / (1 + (1 / 2 ^ 14) ^ 2) := by
  rw [Real.cos_two_mul, Real.cos_sq_arctan]; norm_num

theorem tiny_sin : Real.sin (2 * Real.arctan (1 / 2 ^ 14)) = 2 * (1 / 2 ^ 14) / (1 + (1 / 2 ^ 14) ^ 2) := by
  rw [Real.sin_two_mul, mul_assoc, Real.sin_arctan, Real.cos_arctan]
  have h : Real.sqrt (1 + (1 / 2 ^ 14) ^ 2) * Real.sqrt (1 + (1 / 2 ^ 14) ^ 2) = 1 + (1 / 2 ^ 14) ^ 2 :=
    Real.mul_self_sqrt (by positivity)
  rw [div_mul_div_comm, h]; ring

/-- C98: a small rotation is not found again: the two complex eigenvalues of a rotation by 1.2e-4 have a real part
within 1e-8 of one, and the real part of a complex eigenvector is taken for the axis. -/
theorem c98_rotation_violation : ∃ (eig3 : M3 → List Eig3) (eig4 : H4 → List Eig4) (a : ℝ),
    let m := rotation a ⟨1, 0, 0⟩ (some 0)
    IsEig3 m.a.T (eig3 m.a.T) ∧ IsEig4 m (eig4 m) ∧
    ∃ d', rotationFrom eig3 eig4 m = .ok (0, d', some 0) ∧ d'.x = 0 ∧
      rotation 0 d' (some 0) ≠ m := by
  have hu : unitVector (⟨1, 0, 0⟩ : V3) = ⟨1, 0, 0⟩ := unitVector_of_unit (by simp [dot])
  refine ⟨fun _ => tinyEig3, fun _ => tinyEig4, 2 * Real.arctan (1 / 2 ^ 14), ?_⟩
  obtain ⟨c, hc⟩ : ∃ c : ℝ, (1 - (1 / 2 ^ 14) ^ 2) / (1 + (1 / 2 ^ 14) ^ 2) = c := ⟨_, rfl⟩
  obtain ⟨s, hs⟩ : ∃ s : ℝ, 2 * (1 / 2 ^ 14) / (1 + (1 / 2 ^ 14) ^ 2) = s := ⟨_, rfl⟩
  obtain ⟨r, hr⟩ : ∃ r, Real.sqrt (1 / 2) = r := ⟨_, rfl⟩
  have hr2 : r * r = 1 / 2 := by rw [← hr]; exact Real.mul_self_sqrt (by norm_num)
  have hr0 : 0 < r := by rw [← hr]; exact Real.sqrt_pos.mpr (by norm_num)
  have hcn : |c - 1| < 1 / 10 ^ 8 := by rw [← hc, abs_lt]; constructor <;> norm_num
  have hc1 : c ≠ 1 := by rw [← hc]; norm_num
  have hc0 : 0 < c := by rw [← hc]; norm_num
  have hs0 : s ≠ 0 := by rw [← hs]; norm_num
  have hR : rotation (2 * Real.arctan (1 / 2 ^ 14)) ⟨1, 0, 0⟩ (some 0) =
      ⟨⟨1, 0, 0, 0, c, -s, 0, s, c⟩, 0, 0, 1⟩ := by
    unfold rotation rotationMatrix
    rw [hu, tiny_cos, tiny_sin, hc, hs]
    ext <;> simp [M3.mulVec]
  have e3 : tinyEig3 = [⟨1, 0, ⟨1, 0, 0⟩, 0⟩, ⟨c, -s, ⟨0, r, 0⟩, ⟨0, 0, -r⟩⟩, ⟨c, s, ⟨0, r, 0⟩, ⟨0, 0, r⟩⟩] := by
    unfold tinyEig3; rw [hc, hs, hr]
  have e4 : tinyEig4 = [⟨1, 0, (⟨1, 0, 0⟩, 0), (0, 0)⟩, ⟨c, s, (⟨0, r, 0⟩, 0), (⟨0, 0, -r⟩, 0)⟩,
      ⟨c, -s, (⟨0, r, 0⟩, 0), (⟨0, 0, r⟩, 0)⟩, ⟨1, 0, (0, 1), (0, 0)⟩] := by
    unfold tinyEig4; rw [hc, hs, hr]
  dsimp only
  rw [hR, e3, e4]
  have hplane : ∀ w y z : ℝ, c * y + s * z = w * y → c * z - s * y = w * z → y = 0 ∧ z = 0 := by
    intro w y z h1 h2
    have hp : 0 < (w - c) ^ 2 + s ^ 2 := by positivity
    constructor
    · have : ((w - c) ^ 2 + s ^ 2) * y = 0 := by linear_combination -(w - c) * h1 - s * h2
      exact (mul_eq_zero.mp this).resolve_left hp.ne'
    · have : ((w - c) ^ 2 + s ^ 2) * z = 0 := by linear_combination -(w - c) * h2 + s * h1
      exact (mul_eq_zero.mp this).resolve_left hp.ne'
  refine ⟨⟨rfl, ?_, ?_, ?_, ?_, ?_⟩, ⟨?_, ?_, ?_, ?_, ?_⟩, ⟨0, r, 0⟩, ?_, rfl, ?_⟩
  · intro e he
    simp only [List.mem_cons, List.not_mem_nil, or_false] at he
    rcases he with rfl | rfl | rfl <;> ext <;> simp [M3.mulVec, M3.T]
  · intro e he
    simp only [List.mem_cons, List.not_mem_nil, or_false] at he
    rcases he with rfl | rfl | rfl <;> ext <;> simp [M3.mulVec, M3.T]
  · intro e he
    simp only [List.mem_cons, List.not_mem_nil, or_false] at he
    rcases he with rfl | rfl | rfl <;> simp [dot] <;> linarith
  · intro e he hi
    simp only [List.mem_cons, List.not_mem_nil, or_false] at he
    rcases he with rfl | rfl | rfl
    · rfl
    · exact absurd (neg_eq_zero.mp hi) hs0
    · exact absurd hi hs0
  · intro w n hn v hv
    simp only [M3.mulVec, M3.T, V3.ext_iff, smul_x, smul_y, smul_z] at hv
    obtain ⟨hx, hy, hz⟩ := hv
    obtain ⟨y0, z0⟩ := hplane w v.y v.z (by linarith) (by linarith)
    by_cases hw : w = 1
    · have := hn ⟨1, 0, ⟨1, 0, 0⟩, 0⟩ List.mem_cons_self hw.symm rfl
      simp only [dot] at this ⊢
      rw [y0, z0, show n.x = 0 by linarith]; ring
    · have : (w - 1) * v.x = 0 := by linarith
      have x0 := (mul_eq_zero.mp this).resolve_left (sub_ne_zero.mpr hw)
      simp only [dot]; rw [x0, y0, z0]; ring
  · intro e he
    simp only [List.mem_cons, List.not_mem_nil, or_false] at he
    rcases he with rfl | rfl | rfl | rfl <;> ext <;> simp [app, M3.mulVec, dot]
  · intro e he
    simp only [List.mem_cons, List.not_mem_nil, or_false] at he
    rcases he with rfl | rfl | rfl | rfl <;> ext <;> simp [app, M3.mulVec, dot]
  · intro e he
    simp only [List.mem_cons, List.not_mem_nil, or_false] at he
    rcases he with rfl | rfl | rfl | rfl <;> simp [dot] <;> linarith
  · intro e he hi
    simp only [List.mem_cons, List.not_mem_nil, or_false] at he
    rcases he with rfl | rfl | rfl | rfl
    · rfl
    · exact absurd hi hs0
    · exact absurd (neg_eq_zero.mp hi) hs0
    · rfl
  · rintro w n hn ⟨v, t⟩ hv
    simp only [app, M3.mulVec, Prod.ext_iff, V3.ext_iff, smul_x, smul_y, smul_z, add_x, add_y, add_z, dot, zero_x,
      zero_y, zero_z] at hv
    obtain ⟨⟨hx, hy, hz⟩, ht⟩ := hv
    obtain ⟨z0, y0⟩ := hplane w v.z v.y (by linarith) (by linarith)
    by_cases hw : w = 1
    · have h1 := hn ⟨1, 0, (⟨1, 0, 0⟩, 0), (0, 0)⟩ (by simp) hw.symm rfl
      have h2 := hn ⟨1, 0, (0, 1), (0, 0)⟩ (by simp) hw.symm rfl
      simp only [dot, zero_x, zero_y, zero_z] at h1 h2 ⊢
      rw [y0, z0, show n.1.x = 0 by linarith, show n.2 = 0 by linarith]; ring
    · have : (w - 1) * v.x = 0 := by linarith
      have x0 := (mul_eq_zero.mp this).resolve_left (sub_ne_zero.mpr hw)
      have : (w - 1) * t = 0 := by linarith
      have t0 := (mul_eq_zero.mp this).resolve_left (sub_ne_zero.mpr hw)
      simp only [dot]; rw [x0, y0, z0, t0]; ring
  · have hp : |(0 : ℝ)| < 1 / 10 ^ 8 := by rw [abs_zero]; exact eps_pos
    have n3 : (near3 [⟨1, 0, ⟨1, 0, 0⟩, 0⟩, ⟨c, -s, ⟨0, r, 0⟩, ⟨0, 0, -r⟩⟩, ⟨c, s, ⟨0, r, 0⟩, ⟨0, 0, r⟩⟩] 1
        (1 / 10 ^ 8)).getLast? = some ⟨c, s, ⟨0, r, 0⟩, ⟨0, 0, r⟩⟩ := by
      unfold near3
      rw [List.filter_cons_of_pos (by simp), List.filter_cons_of_pos (by simpa using hcn),
        List.filter_cons_of_pos (by simpa using hcn)]
      rfl
    have n4 : (near4 [⟨1, 0, (⟨1, 0, 0⟩, 0), (0, 0)⟩, ⟨c, s, (⟨0, r, 0⟩, 0), (⟨0, 0, -r⟩, 0)⟩,
      ⟨c, -s, (⟨0, r, 0⟩, 0), (⟨0, 0, r⟩, 0)⟩, ⟨1, 0, (0, 1), (0, 0)⟩] 1
        (1 / 10 ^ 8)).getLast? = some ⟨1, 0, (0, 1), (0, 0)⟩ := by
      unfold near4
      rw [List.filter_cons_of_pos (by simp), List.filter_cons_of_pos (by simpa using hcn),
        List.filter_cons_of_pos (by simpa using hcn), List.filter_cons_of_pos (by simp)]
      rfl
    have hrb : |r| > 1 / 10 ^ 8 := by
      rw [abs_of_pos hr0]
      by_contra h
      push Not at h
      have : r * r ≤ 1 / 10 ^ 8 * (1 / 10 ^ 8) := mul_le_mul h h hr0.le (by positivity)
      rw [hr2] at this; norm_num at this
    have hz : ¬ |(0 : ℝ)| > 1 / 10 ^ 8 := not_lt.mpr hp.le
    have hd : dehom (0, 1) = some 0 := by
      unfold dehom; rw [if_neg one_ne_zero]; congr 1; ext <;> simp [point]
    have hat : mathAtan2 0 c = 0 := by
      unfold mathAtan2
      rw [show (⟨c, 0⟩ : ℂ) = (c : ℂ) from rfl, Complex.arg_ofReal_of_nonneg hc0.le]
    simp only [rotationFrom, fixedPoint, n3, n4, Except.map, hd]
    rw [if_neg hz, if_pos hrb]
    congr 2
    rw [show (tr ⟨1, 0, 0, 0, c, -s, 0, s, c⟩ - 1) / 2 = c by simp only [tr]; ring]
    rw [show (0 + (c - 1) * 0 * 0) / r = 0 by ring, hat]
  · intro h
    have := congrArg (fun m => m.a.a21) h
    simp [rotation, rotationMatrix, unitVector] at this
    exact hs0 this.symm

end RayOpt
