import Verif.Model.FromMatrix
import Verif.Props.Homog
import Verif.Props.Euler

/-!
C98: the arguments of a transformation from its matrix (rayopt/transformations.py 271-719).
-/

namespace RayOpt

open V3 H4

namespace H4

/-- The contract of `numpy.linalg.eig` for a 3x3 matrix: three pairs of an eigenvalue and an eigenvector of length
one, real vectors for real eigenvalues; the vectors of a real eigenvalue span its eigenspace. -/
structure IsEig3 (m : M3) (l : List Eig3) : Prop where
  length : l.length = 3
  pairR : ∀ e ∈ l, m.mulVec e.vr = e.re • e.vr - e.im • e.vi
  pairI : ∀ e ∈ l, m.mulVec e.vi = e.re • e.vi + e.im • e.vr
  unit : ∀ e ∈ l, e.vr.dot e.vr + e.vi.dot e.vi = 1
  real : ∀ e ∈ l, e.im = 0 → e.vi = 0
  span : ∀ (w : ℝ) (n : V3), (∀ e ∈ l, e.re = w → e.im = 0 → n.dot e.vr = 0) →
    ∀ v, m.mulVec v = w • v → n.dot v = 0

/-- The contract of `numpy.linalg.eig` for a 4x4 matrix. -/
structure IsEig4 (m : H4) (l : List Eig4) : Prop where
  pairR : ∀ e ∈ l, m.app e.vr = (e.re • e.vr.1 - e.im • e.vi.1, e.re * e.vr.2 - e.im * e.vi.2)
  pairI : ∀ e ∈ l, m.app e.vi = (e.re • e.vi.1 + e.im • e.vr.1, e.re * e.vi.2 + e.im * e.vr.2)
  unit : ∀ e ∈ l, e.vr.1.dot e.vr.1 + e.vr.2 ^ 2 + e.vi.1.dot e.vi.1 + e.vi.2 ^ 2 = 1
  real : ∀ e ∈ l, e.im = 0 → e.vi = (0, 0)
  span : ∀ (w : ℝ) (n : V3 × ℝ), (∀ e ∈ l, e.re = w → e.im = 0 → n.1.dot e.vr.1 + n.2 * e.vr.2 = 0) →
    ∀ v : V3 × ℝ, m.app v = (w • v.1, w * v.2) → n.1.dot v.1 + n.2 * v.2 = 0

/-- A real eigenvalue is found. -/
theorem IsEig3.complete {m : M3} {l : List Eig3} (h : IsEig3 m l) {w : ℝ} {v : V3} (hv : v ≠ 0)
    (he : m.mulVec v = w • v) : ∃ e ∈ l, e.re = w ∧ e.im = 0 := by
  by_contra hc
  push Not at hc
  exact hv (dot_self_eq_zero.mp (h.span w v (fun e he hr hi => absurd hi (hc e he hr)) v he))

theorem IsEig4.complete {m : H4} {l : List Eig4} (h : IsEig4 m l) {w : ℝ} {v : V3 × ℝ} (hv : v.2 ≠ 0)
    (he : m.app v = (w • v.1, w * v.2)) : ∃ e ∈ l, e.re = w ∧ e.im = 0 := by
  by_contra hc
  push Not at hc
  have := h.span w v (fun e he hr hi => absurd hi (hc e he hr)) v he
  have h1 := dot_self_nonneg v.1
  have h2 : 0 < v.2 * v.2 := mul_self_pos.mpr hv
  linarith

/-- The eigenvalues of a matrix with a quadratic minimal polynomial with real roots. -/
theorem two_roots {re im a b : ℝ} (h1 : re ^ 2 - im ^ 2 = (a + b) * re - a * b) (h2 : im * (2 * re - (a + b)) = 0) :
    im = 0 ∧ (re = a ∨ re = b) := by
  have him : im = 0 := by
    by_contra hi
    have hre : 2 * re = a + b := by
      rcases mul_eq_zero.mp h2 with h | h
      · exact absurd h hi
      · linarith
    have : im ^ 2 = -((a - b) ^ 2 / 4) := by
      have : re = (a + b) / 2 := by linarith
      rw [this] at h1
      linear_combination -h1
    have h3 : 0 < im ^ 2 := by positivity
    nlinarith [sq_nonneg (a - b)]
  refine ⟨him, ?_⟩
  rw [him] at h1
  have : (re - a) * (re - b) = 0 := by linear_combination h1
  rcases mul_eq_zero.mp this with h | h
  · left; linarith
  · right; linarith

theorem mulVec_lin (m : M3) (a b : ℝ) (v w : V3) :
    m.mulVec (a • v - b • w) = a • m.mulVec v - b • m.mulVec w := by
  ext <;> simp [M3.mulVec] <;> ring

theorem mulVec_lin' (m : M3) (a b : ℝ) (v w : V3) :
    m.mulVec (a • v + b • w) = a • m.mulVec v + b • m.mulVec w := by
  ext <;> simp [M3.mulVec] <;> ring

/-- A complex number whose multiples of a vector vanish. -/
theorem vanish {A B x y z w x' y' z' w' : ℝ} (hu : x * x + y * y + z * z + w ^ 2 + (x' * x' + y' * y' + z' * z') + w' ^ 2 = 1)
    (k1x : A * x - B * x' = 0) (k1y : A * y - B * y' = 0) (k1z : A * z - B * z' = 0) (k1w : A * w - B * w' = 0)
    (k2x : A * x' + B * x = 0) (k2y : A * y' + B * y = 0) (k2z : A * z' + B * z = 0) (k2w : A * w' + B * w = 0) :
    A = 0 ∧ B = 0 := by
  have hs : A ^ 2 + B ^ 2 = 0 := by
    linear_combination -(A ^ 2 + B ^ 2) * hu + (A * x - B * x') * k1x + (A * y - B * y') * k1y +
      (A * z - B * z') * k1z + (A * w - B * w') * k1w + (A * x' + B * x) * k2x + (A * y' + B * y) * k2y +
      (A * z' + B * z) * k2z + (A * w' + B * w) * k2w
  exact ⟨pow_eq_zero_iff two_ne_zero |>.mp (by linarith [sq_nonneg A, sq_nonneg B]),
    pow_eq_zero_iff two_ne_zero |>.mp (by linarith [sq_nonneg A, sq_nonneg B])⟩

theorem part_re {re im a b x x' : ℝ}
    (h : re * (re * x - im * x') - im * (re * x' + im * x) = (a + b) * (re * x - im * x') - a * b * x) :
    (re ^ 2 - im ^ 2 - ((a + b) * re - a * b)) * x - im * (2 * re - (a + b)) * x' = 0 := by
  linear_combination h

theorem part_im {re im a b x x' : ℝ}
    (h : re * (re * x' + im * x) + im * (re * x - im * x') = (a + b) * (re * x' + im * x) - a * b * x') :
    (re ^ 2 - im ^ 2 - ((a + b) * re - a * b)) * x' + im * (2 * re - (a + b)) * x = 0 := by
  linear_combination h

theorem IsEig3.roots {m : M3} {l : List Eig3} (h : IsEig3 m l) {a b : ℝ}
    (hm : ∀ v, m.mulVec (m.mulVec v) = (a + b) • m.mulVec v - (a * b) • v) {e : Eig3} (he : e ∈ l) :
    e.im = 0 ∧ (e.re = a ∨ e.re = b) ∧ e.vr.dot e.vr = 1 ∧ m.mulVec e.vr = e.re • e.vr := by
  have hr := h.pairR e he
  have hi := h.pairI e he
  have h1 := hm e.vr
  have h2 := hm e.vi
  rw [hr, mulVec_lin, hr, hi] at h1
  rw [hi, mulVec_lin', hr, hi] at h2
  have hu := h.unit e he
  simp only [V3.ext_iff, smul_x, smul_y, smul_z, sub_x, sub_y, sub_z, add_x, add_y, add_z] at h1 h2
  obtain ⟨h1x, h1y, h1z⟩ := h1
  obtain ⟨h2x, h2y, h2z⟩ := h2
  simp only [dot] at hu
  obtain ⟨hA0, hB0⟩ := vanish (w := 0) (w' := 0) (by linarith) (part_re h1x) (part_re h1y) (part_re h1z) (by ring)
    (part_im h2x) (part_im h2y) (part_im h2z) (by ring)
  obtain ⟨him, hre⟩ := two_roots (by linarith) hB0
  have hvi := h.real e he him
  have hu := h.unit e he
  refine ⟨him, hre, ?_, ?_⟩
  · rw [hvi] at hu; simpa [dot] using hu
  · rw [hr, him]; ext <;> simp

theorem IsEig4.roots {m : H4} {l : List Eig4} (h : IsEig4 m l) {a b : ℝ}
    (hm : ∀ v, m.app (m.app v) = ((a + b) • (m.app v).1 - (a * b) • v.1, (a + b) * (m.app v).2 - a * b * v.2))
    {e : Eig4} (he : e ∈ l) :
    e.im = 0 ∧ (e.re = a ∨ e.re = b) ∧ e.vr.1.dot e.vr.1 + e.vr.2 ^ 2 = 1 ∧
      m.app e.vr = (e.re • e.vr.1, e.re * e.vr.2) := by
  have hr := h.pairR e he
  have hi := h.pairI e he
  have h1 := hm e.vr
  have h2 := hm e.vi
  have l1 : m.app (e.re • e.vr.1 - e.im • e.vi.1, e.re * e.vr.2 - e.im * e.vi.2) =
      (e.re • (m.app e.vr).1 - e.im • (m.app e.vi).1, e.re * (m.app e.vr).2 - e.im * (m.app e.vi).2) := by
    ext <;> simp [app, M3.mulVec, dot] <;> ring
  have l2 : m.app (e.re • e.vi.1 + e.im • e.vr.1, e.re * e.vi.2 + e.im * e.vr.2) =
      (e.re • (m.app e.vi).1 + e.im • (m.app e.vr).1, e.re * (m.app e.vi).2 + e.im * (m.app e.vr).2) := by
    ext <;> simp [app, M3.mulVec, dot] <;> ring
  rw [hr, l1, hr, hi] at h1
  rw [hi, l2, hr, hi] at h2
  have hu := h.unit e he
  simp only [Prod.ext_iff, V3.ext_iff, smul_x, smul_y, smul_z, sub_x, sub_y, sub_z, add_x, add_y, add_z] at h1 h2
  obtain ⟨⟨h1x, h1y, h1z⟩, h1w⟩ := h1
  obtain ⟨⟨h2x, h2y, h2z⟩, h2w⟩ := h2
  simp only [dot] at hu
  obtain ⟨hA0, hB0⟩ := vanish hu (part_re h1x) (part_re h1y) (part_re h1z) (part_re h1w) (part_im h2x) (part_im h2y)
    (part_im h2z) (part_im h2w)
  obtain ⟨him, hre⟩ := two_roots (by linarith) hB0
  have hvi := h.real e he him
  have hu := h.unit e he
  refine ⟨him, hre, ?_, ?_⟩
  · rw [hvi] at hu; simpa [dot] using hu
  · rw [hr, him]; ext <;> simp

theorem near3_mem {l : List Eig3} {t eps : ℝ} {e : Eig3} : e ∈ near3 l t eps ↔ e ∈ l ∧ |e.re - t| < eps := by
  simp [near3]

theorem near4_mem {l : List Eig4} {t eps : ℝ} {e : Eig4} : e ∈ near4 l t eps ↔ e ∈ l ∧ |e.re - t| < eps := by
  simp [near4]

theorem head_of_mem {α : Type*} {l : List α} {a : α} (h : a ∈ l) : ∃ e ∈ l, l.head? = some e := by
  cases l with
  | nil => cases h
  | cons b l => exact ⟨b, List.mem_cons_self, rfl⟩

theorem last_of_mem {α : Type*} {l : List α} {a : α} (h : a ∈ l) : ∃ e ∈ l, l.getLast? = some e := by
  have hl : l ≠ [] := by rintro rfl; cases h
  exact ⟨l.getLast hl, List.getLast_mem hl, List.getLast?_eq_getLast_of_ne_nil hl⟩

theorem eps_pos : (0 : ℝ) < 1 / 10 ^ 8 := by positivity

/-- A point given by a fixed vector is fixed. -/
theorem dehom_fixed {m : H4} {v : V3 × ℝ} {k : ℝ} (hv : m.app v = (k • v.1, k * v.2)) {q : V3} (hq : dehom v = some q) :
    m.app (q, 1) = (k • q, k) := by
  unfold dehom at hq
  split_ifs at hq with h0
  obtain rfl := Option.some.inj hq
  have : (point v, (1 : ℝ)) = ((1 / v.2) • v.1, 1 / v.2 * v.2) := by
    rw [one_div_mul_cancel h0]; rfl
  have hlin : m.app ((1 / v.2) • v.1, 1 / v.2 * v.2) = ((1 / v.2) • (m.app v).1, 1 / v.2 * (m.app v).2) := by
    ext <;> simp only [app, M3.mulVec, dot, smul_x, smul_y, smul_z, add_x, add_y, add_z] <;> ring
  rw [this, hlin, hv]
  ext <;> simp only [point, smul_x, smul_y, smul_z]
  · ring
  · ring
  · ring
  · field_simp

/-- The vector taken for the point is fixed, if only vectors that are fixed are taken. -/
theorem fixed_last {eig4 : H4 → List Eig4} {m : H4} (h : IsEig4 m (eig4 m))
    (hm : ∀ e ∈ eig4 m, |e.re - 1| < 1 / 10 ^ 8 → e.re = 1 ∧ e.im = 0) {p : V3} (hp : m.app (p, 1) = (p, 1)) :
    ∃ e, (near4 (eig4 m) 1 (1 / 10 ^ 8)).getLast? = some e ∧ e.vr.1.dot e.vr.1 + e.vr.2 ^ 2 = 1 ∧ m.app e.vr = e.vr ∧
      ∀ q', dehom e.vr = some q' → m.app (q', 1) = (q', 1) := by
  obtain ⟨e0, he0, hre0, -⟩ := h.complete (v := (p, 1)) (w := 1) one_ne_zero
    (by rw [hp]; ext <;> simp)
  obtain ⟨e, he, hlast⟩ := last_of_mem (near4_mem.mpr ⟨he0, by rw [hre0, sub_self, abs_zero]; exact eps_pos⟩ :
    e0 ∈ near4 (eig4 m) 1 (1 / 10 ^ 8))
  obtain ⟨hel, hen⟩ := near4_mem.mp he
  obtain ⟨hre, him⟩ := hm e hel hen
  have hv := h.pairR e hel
  have hu := h.unit e hel
  rw [h.real e hel him] at hu
  rw [hre, him] at hv
  have hv : m.app e.vr = ((1 : ℝ) • e.vr.1, 1 * e.vr.2) := by rw [hv]; ext <;> simp
  refine ⟨e, hlast, by simpa [dot] using hu, by rw [hv]; ext <;> simp, fun q' hq => ?_⟩
  rw [dehom_fixed hv hq]
  ext <;> simp

/-- The point found is fixed, if only vectors that are fixed are taken. -/
theorem fixedPoint_of {eig4 : H4 → List Eig4} {m : H4} (h : IsEig4 m (eig4 m))
    (hm : ∀ e ∈ eig4 m, |e.re - 1| < 1 / 10 ^ 8 → e.re = 1 ∧ e.im = 0) {p : V3} (hp : m.app (p, 1) = (p, 1)) :
    ∃ q, fixedPoint eig4 m = .ok q ∧ ∀ q', q = some q' → m.app (q', 1) = (q', 1) := by
  obtain ⟨e, hlast, -, -, hq⟩ := fixed_last h hm hp
  exact ⟨dehom e.vr, by simp only [fixedPoint, hlast], hq⟩

/-- A matrix with eigenvalues one and `b` apart, and with a fixed point: the point found is fixed. -/
theorem fixedPoint_spec {eig4 : H4 → List Eig4} {m : H4} (h : IsEig4 m (eig4 m)) {b : ℝ}
    (hm : ∀ v, m.app (m.app v) = ((1 + b) • (m.app v).1 - (1 * b) • v.1, (1 + b) * (m.app v).2 - 1 * b * v.2))
    (hb : b = 1 ∨ 1 / 10 ^ 8 ≤ |b - 1|) {p : V3} (hp : m.app (p, 1) = (p, 1)) :
    ∃ q, fixedPoint eig4 m = .ok q ∧ ∀ q', q = some q' → m.app (q', 1) = (q', 1) := by
  refine fixedPoint_of h (fun e hel hen => ?_) hp
  obtain ⟨him, hre, -⟩ := h.roots hm hel
  refine ⟨?_, him⟩
  rcases hre with hre | hre
  · exact hre
  · rcases hb with hb | hb
    · rw [hre, hb]
    · rw [hre] at hen; exact absurd hen (not_lt.mpr hb)

/-- Vectors that are parallel to a unit vector. -/
theorem unit_parallel {n v : V3} (hn : n.dot n = 1) (hv : v.dot v = 1) (h : v = n.dot v • n) :
    ∃ k : ℝ, k * k = 1 ∧ v = k • n := by
  refine ⟨n.dot v, ?_, h⟩
  have : v.dot v = n.dot v * n.dot v * n.dot n := by
    conv_lhs => rw [h]
    simp only [dot, smul_x, smul_y, smul_z]; ring
  rw [← hv, this, hn, mul_one]

theorem unitVector_of_unit {v : V3} (h : v.dot v = 1) : unitVector v = v := by
  have : v.norm = 1 := by rw [V3.norm, h, Real.sqrt_one]
  unfold unitVector
  rw [this]
  ext <;> simp

end H4

/-- C98: `reflection_from_matrix` of a reflection gives the mirror plane; if the point found is finite, the
reflection in the plane found is the same. -/
theorem c98_reflection (eig3 : M3 → List Eig3) (eig4 : H4 → List Eig4) (p n : V3) (hn : n ≠ 0)
    (h3 : IsEig3 (reflection p n).a (eig3 (reflection p n).a))
    (h4 : IsEig4 (reflection p n) (eig4 (reflection p n))) :
    ∃ q v, reflectionFrom eig3 eig4 (reflection p n) = .ok (q, v) ∧
      (v = unitVector n ∨ v = -unitVector n) ∧
      ∀ q', q = some q' → (q' - p).dot n = 0 ∧ reflection q' v = reflection p n := by
  obtain ⟨u, l, hu, hu1, hl, hnl⟩ := unit_spec hn
  have hu1' := hu1
  simp only [dot] at hu1'
  have hR : reflection p n = ⟨add3 M3.one (smul3 (-2) (outer u u)), (2 * p.dot u) • u, 0, 1⟩ := by
    unfold reflection; rw [hu]
  have hsq3 : ∀ v, (reflection p n).a.mulVec ((reflection p n).a.mulVec v) =
      (1 + -1 : ℝ) • (reflection p n).a.mulVec v - (1 * -1 : ℝ) • v := by
    intro v; rw [hR]
    ext <;> simp only [M3.mulVec, add3, smul3, outer, M3.one, smul_x, smul_y, smul_z, sub_x, sub_y, sub_z]
    · linear_combination 4 * u.x * (u.x * v.x + u.y * v.y + u.z * v.z) * hu1'
    · linear_combination 4 * u.y * (u.x * v.x + u.y * v.y + u.z * v.z) * hu1'
    · linear_combination 4 * u.z * (u.x * v.x + u.y * v.y + u.z * v.z) * hu1'
  have hsq4 : ∀ v, (reflection p n).app ((reflection p n).app v) =
      ((1 + -1 : ℝ) • ((reflection p n).app v).1 - (1 * -1 : ℝ) • v.1,
        (1 + -1 : ℝ) * ((reflection p n).app v).2 - 1 * -1 * v.2) := by
    intro v; rw [hR]
    ext <;> simp only [app, M3.mulVec, add3, smul3, outer, M3.one, smul_x, smul_y, smul_z, sub_x, sub_y, sub_z,
      add_x, add_y, add_z, dot, zero_x, zero_y, zero_z]
    · linear_combination (4 * u.x * (u.x * v.1.x + u.y * v.1.y + u.z * v.1.z) -
        4 * v.2 * u.x * (p.x * u.x + p.y * u.y + p.z * u.z)) * hu1'
    · linear_combination (4 * u.y * (u.x * v.1.x + u.y * v.1.y + u.z * v.1.z) -
        4 * v.2 * u.y * (p.x * u.x + p.y * u.y + p.z * u.z)) * hu1'
    · linear_combination (4 * u.z * (u.x * v.1.x + u.y * v.1.y + u.z * v.1.z) -
        4 * v.2 * u.z * (p.x * u.x + p.y * u.y + p.z * u.z)) * hu1'
    · ring
  have hfix : (reflection p n).app (p, 1) = (p, 1) := by
    rw [hR]; ext <;> simp [app, M3.mulVec, add3, smul3, outer, M3.one, dot] <;> ring
  obtain ⟨q, hq, hq1⟩ := fixedPoint_spec h4 hsq4 (Or.inr (by norm_num)) hfix
  have hun : u ≠ 0 := by rintro rfl; simp [dot] at hu1
  obtain ⟨e0, he0, hre0, -⟩ := h3.complete (v := u) (w := -1) hun (by
    rw [hR]
    ext <;> simp only [M3.mulVec, add3, smul3, outer, M3.one, smul_x, smul_y, smul_z]
    · linear_combination -2 * u.x * hu1'
    · linear_combination -2 * u.y * hu1'
    · linear_combination -2 * u.z * hu1')
  obtain ⟨e, he, hhead⟩ := head_of_mem (near3_mem.mpr ⟨he0, by rw [hre0, sub_self, abs_zero]; exact eps_pos⟩ :
    e0 ∈ near3 (eig3 (reflection p n).a) (-1) (1 / 10 ^ 8))
  obtain ⟨hel, hen⟩ := near3_mem.mp he
  obtain ⟨-, hre, hv1, hv⟩ := h3.roots hsq3 hel
  have hre : e.re = -1 := by
    rcases hre with h | h
    · rw [h] at hen; norm_num at hen
    · exact h
  have hpar : e.vr = u.dot e.vr • u := by
    rw [hre, hR] at hv
    simp only [M3.mulVec, add3, smul3, outer, M3.one, V3.ext_iff, smul_x, smul_y, smul_z] at hv
    obtain ⟨hx, hy, hz⟩ := hv
    ext <;> simp only [smul_x, smul_y, smul_z, dot] <;> linarith
  obtain ⟨k, hk, hvk⟩ := unit_parallel hu1 hv1 hpar
  refine ⟨q, e.vr, by simp only [reflectionFrom, hhead, hq, Except.map], ?_, ?_⟩
  · rw [hu, hvk]
    have : (k - 1) * (k + 1) = 0 := by linear_combination hk
    rcases mul_eq_zero.mp this with h | h
    · left; rw [show k = 1 by linarith]; ext <;> simp
    · right; rw [show k = -1 by linarith]; ext <;> simp
  · intro q' hq'
    have hf := hq1 q' hq'
    have hplane : q'.dot u = p.dot u := by
      rw [hR] at hf
      simp only [app, M3.mulVec, add3, smul3, outer, M3.one, Prod.ext_iff, V3.ext_iff, smul_x, smul_y, smul_z, add_x,
        add_y, add_z, dot] at hf
      obtain ⟨⟨hx, hy, hz⟩, -⟩ := hf
      simp only [dot]
      linear_combination -(1 / 2) * (u.x * hx + u.y * hy + u.z * hz) -
        (q'.x * u.x + q'.y * u.y + q'.z * u.z - (p.x * u.x + p.y * u.y + p.z * u.z)) * hu1'
    refine ⟨?_, ?_⟩
    · have : (q' - p).dot n = l * (q'.dot u - p.dot u) := by
        rw [hnl]; simp only [dot, sub_x, sub_y, sub_z, smul_x, smul_y, smul_z]; ring
      rw [this, hplane]; ring
    · rw [hR]
      unfold reflection
      rw [unitVector_of_unit hv1, hvk]
      have hd : q'.dot (k • u) = k * p.dot u := by
        rw [← hplane]; simp only [dot, smul_x, smul_y, smul_z]; ring
      simp only [hd]
      ext <;> simp only [add3, smul3, outer, M3.one, smul_x, smul_y, smul_z]
      · linear_combination -2 * u.x * u.x * hk
      · linear_combination -2 * u.x * u.y * hk
      · linear_combination -2 * u.x * u.z * hk
      · linear_combination -2 * u.y * u.x * hk
      · linear_combination -2 * u.y * u.y * hk
      · linear_combination -2 * u.y * u.z * hk
      · linear_combination -2 * u.z * u.x * hk
      · linear_combination -2 * u.z * u.y * hk
      · linear_combination -2 * u.z * u.z * hk
      · linear_combination 2 * p.dot u * u.x * hk
      · linear_combination 2 * p.dot u * u.y * hk
      · linear_combination 2 * p.dot u * u.z * hk

namespace H4

/-- The eigenvectors of a diagonal matrix. -/
def diag3 (a b c : ℝ) : List Eig3 := [⟨a, 0, ⟨1, 0, 0⟩, 0⟩, ⟨b, 0, ⟨0, 1, 0⟩, 0⟩, ⟨c, 0, ⟨0, 0, 1⟩, 0⟩]

/-- The eigenvectors of a diagonal homogeneous matrix. -/
def diag4 (a b c d : ℝ) : List Eig4 :=
  [⟨a, 0, (⟨1, 0, 0⟩, 0), (0, 0)⟩, ⟨b, 0, (⟨0, 1, 0⟩, 0), (0, 0)⟩, ⟨c, 0, (⟨0, 0, 1⟩, 0), (0, 0)⟩,
    ⟨d, 0, (0, 1), (0, 0)⟩]

/-- A vector with a component that is zero, or whose factor is. -/
theorem diag_comp {w a n v : ℝ} (hv : a * v = w * v) (hn : a = w → n = 0) : n * v = 0 := by
  by_cases h : a = w
  · rw [hn h, zero_mul]
  · have : (a - w) * v = 0 := by linarith
    rw [(mul_eq_zero.mp this).resolve_left (sub_ne_zero.mpr h), mul_zero]

theorem isEig3_diag (a b c : ℝ) : IsEig3 ⟨a, 0, 0, 0, b, 0, 0, 0, c⟩ (diag3 a b c) := by
  refine ⟨rfl, ?_, ?_, ?_, ?_, ?_⟩
  · intro e he
    simp only [diag3, List.mem_cons, List.not_mem_nil, or_false] at he
    rcases he with rfl | rfl | rfl <;> ext <;> simp [M3.mulVec]
  · intro e he
    simp only [diag3, List.mem_cons, List.not_mem_nil, or_false] at he
    rcases he with rfl | rfl | rfl <;> ext <;> simp [M3.mulVec]
  · intro e he
    simp only [diag3, List.mem_cons, List.not_mem_nil, or_false] at he
    rcases he with rfl | rfl | rfl <;> simp [dot]
  · intro e he _
    simp only [diag3, List.mem_cons, List.not_mem_nil, or_false] at he
    rcases he with rfl | rfl | rfl <;> rfl
  · intro w n hn v hv
    simp only [M3.mulVec, V3.ext_iff, smul_x, smul_y, smul_z] at hv
    have h1 := hn ⟨a, 0, ⟨1, 0, 0⟩, 0⟩ (by simp [diag3])
    have h2 := hn ⟨b, 0, ⟨0, 1, 0⟩, 0⟩ (by simp [diag3])
    have h3 := hn ⟨c, 0, ⟨0, 0, 1⟩, 0⟩ (by simp [diag3])
    simp only [dot] at h1 h2 h3 ⊢
    rw [diag_comp (a := a) (w := w) (by linarith) (fun h => by linarith [h1 h trivial]),
      diag_comp (a := b) (w := w) (by linarith) (fun h => by linarith [h2 h trivial]),
      diag_comp (a := c) (w := w) (by linarith) (fun h => by linarith [h3 h trivial])]
    ring

theorem isEig4_diag (a b c d : ℝ) : IsEig4 ⟨⟨a, 0, 0, 0, b, 0, 0, 0, c⟩, 0, 0, d⟩ (diag4 a b c d) := by
  refine ⟨?_, ?_, ?_, ?_, ?_⟩
  · intro e he
    simp only [diag4, List.mem_cons, List.not_mem_nil, or_false] at he
    rcases he with rfl | rfl | rfl | rfl <;> ext <;> simp [app, M3.mulVec, dot]
  · intro e he
    simp only [diag4, List.mem_cons, List.not_mem_nil, or_false] at he
    rcases he with rfl | rfl | rfl | rfl <;> ext <;> simp [app, M3.mulVec, dot]
  · intro e he
    simp only [diag4, List.mem_cons, List.not_mem_nil, or_false] at he
    rcases he with rfl | rfl | rfl | rfl <;> simp [dot]
  · intro e he _
    simp only [diag4, List.mem_cons, List.not_mem_nil, or_false] at he
    rcases he with rfl | rfl | rfl | rfl <;> rfl
  · rintro w n hn ⟨v, t⟩ hv
    simp only [app, M3.mulVec, Prod.ext_iff, V3.ext_iff, smul_x, smul_y, smul_z, add_x, add_y, add_z, dot, zero_x,
      zero_y, zero_z] at hv
    have h1 := hn ⟨a, 0, (⟨1, 0, 0⟩, 0), (0, 0)⟩ (by simp [diag4])
    have h2 := hn ⟨b, 0, (⟨0, 1, 0⟩, 0), (0, 0)⟩ (by simp [diag4])
    have h3 := hn ⟨c, 0, (⟨0, 0, 1⟩, 0), (0, 0)⟩ (by simp [diag4])
    have h4 := hn ⟨d, 0, (0, 1), (0, 0)⟩ (by simp [diag4])
    simp only [dot, zero_x, zero_y, zero_z] at h1 h2 h3 h4 ⊢
    rw [diag_comp (a := a) (w := w) (by linarith) (fun h => by linarith [h1 h trivial]),
      diag_comp (a := b) (w := w) (by linarith) (fun h => by linarith [h2 h trivial]),
      diag_comp (a := c) (w := w) (by linarith) (fun h => by linarith [h3 h trivial]),
      diag_comp (a := d) (w := w) (by linarith) (fun h => by linarith [h4 h trivial])]
    ring

theorem unit_two_z : unitVector (⟨0, 0, 2⟩ : V3) = ⟨0, 0, 1⟩ := by
  have : (⟨0, 0, 2⟩ : V3).norm = 2 := by
    rw [V3.norm, show (⟨0, 0, 2⟩ : V3).dot ⟨0, 0, 2⟩ = 2 ^ 2 by simp [dot]; norm_num, Real.sqrt_sq (by norm_num)]
  unfold unitVector; rw [this]; ext <;> simp

theorem two_z_ne : (⟨0, 0, 2⟩ : V3) ≠ 0 := fun h => by simpa using congrArg V3.z h

end H4

/-- The mirror in the plane z = 0, with the eigenvectors along the axes, is found again. -/
example : ∃ v, reflectionFrom (fun _ => diag3 1 1 (-1)) (fun _ => diag4 1 1 (-1) 1) (reflection ⟨4, 5, 0⟩ ⟨0, 0, 2⟩) =
      .ok (some 0, v) ∧ reflection 0 v = reflection ⟨4, 5, 0⟩ ⟨0, 0, 2⟩ := by
  have hM : reflection ⟨4, 5, 0⟩ ⟨0, 0, 2⟩ = ⟨⟨1, 0, 0, 0, 1, 0, 0, 0, -1⟩, 0, 0, 1⟩ := by
    unfold reflection; rw [unit_two_z]
    ext <;> simp [add3, smul3, outer, M3.one, dot]; norm_num
  obtain ⟨q, v, h, -, hq⟩ := c98_reflection (fun _ => diag3 1 1 (-1)) (fun _ => diag4 1 1 (-1) 1) ⟨4, 5, 0⟩ ⟨0, 0, 2⟩
    two_z_ne (by rw [hM]; exact isEig3_diag 1 1 (-1)) (by rw [hM]; exact isEig4_diag 1 1 (-1) 1)
  have h0 : q = some 0 := by
    have h' := h
    unfold reflectionFrom at h'
    split at h'
    · cases h'
    · have hl : (near4 (diag4 1 1 (-1) 1) 1 (1 / 10 ^ 8)).getLast? = some ⟨1, 0, (0, 1), (0, 0)⟩ := by
        unfold near4 diag4
        rw [List.filter_cons_of_pos (by simp), List.filter_cons_of_pos (by simp),
          List.filter_cons_of_neg (by norm_num), List.filter_cons_of_pos (by simp)]
        rfl
      simp only [fixedPoint, hl, Except.map, Except.ok.injEq, Prod.mk.injEq] at h'
      rw [← h'.1]
      unfold dehom; rw [if_neg one_ne_zero]; congr 1; ext <;> simp [point]
  exact ⟨v, by rw [h, h0], (hq 0 h0).2⟩

end RayOpt
