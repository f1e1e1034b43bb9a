import Verif.Model.Homog
import Verif.Props.Placement
import Mathlib.Analysis.SpecialFunctions.Trigonometric.Arctan

/-!
C94: homogeneous transformation matrices do what their names say (rayopt/transformations.py 205-884, 1796-1872).
-/

namespace RayOpt

open V3 H4

namespace H4

/-- A unit vector is the direction of the vector it comes from. -/
theorem unit_spec {v : V3} (h : v ≠ 0) :
    ∃ (n : V3) (l : ℝ), unitVector v = n ∧ n.dot n = 1 ∧ 0 < l ∧ v = l • n := by
  have hn : v.norm ≠ 0 := fun h0 => h (norm_eq_zero.mp h0)
  have hp : 0 < v.norm := lt_of_le_of_ne (Real.sqrt_nonneg _) (Ne.symm hn)
  refine ⟨unitVector v, v.norm, rfl, unitVector_unit h, hp, ?_⟩
  unfold unitVector; ext <;> simp <;> field_simp

/-- The component along a direction does not depend on the length of the direction vector. -/
theorem along {n : V3} {l : ℝ} (hn : n.dot n = 1) (hl : 0 < l) (p : V3) :
    (p.dot (l • n) / (l • n).dot (l • n)) • (l • n) = p.dot n • n := by
  have e : (l • n).dot (l • n) = l ^ 2 := by
    have : (l • n).dot (l • n) = l ^ 2 * n.dot n := by simp [dot]; ring
    rw [this, hn, mul_one]
  have e2 : p.dot (l • n) = l * p.dot n := by simp [dot]; ring
  rw [e, e2]
  ext <;> simp <;> field_simp

/-- Length of a multiple of a unit vector. -/
theorem norm_smul_unit {n : V3} (hn : n.dot n = 1) (l : ℝ) : (l • n).norm = |l| := by
  have e : (l • n).dot (l • n) = l ^ 2 := by
    have : (l • n).dot (l • n) = l ^ 2 * n.dot n := by simp [dot]; ring
    rw [this, hn, mul_one]
  rw [V3.norm, e, Real.sqrt_sq_eq_abs]

/-- The 4x4 trace. -/
def tr4 (m : H4) : ℝ := tr m.a + m.d

end H4

/-- C94: the product of homogeneous matrices is the composition of the maps, on every homogeneous
coordinate; it is associative with the identity matrix as unit. -/
theorem c94_compose (m n k : H4) (v : V3 × ℝ) :
    (m.mul n).app v = m.app (n.app v) ∧ (m.mul n).mul k = m.mul (n.mul k) ∧
    H4.one.mul m = m ∧ m.mul H4.one = m := by
  refine ⟨?_, ?_, ?_, ?_⟩
  · ext <;> simp [app, mul, add3, outer, M3.mul, M3.mulVec, M3.vecMul, dot] <;> ring
  · ext <;> simp [mul, add3, outer, M3.mul, M3.mulVec, M3.vecMul, dot] <;> ring
  · ext <;> simp [H4.one, mul, add3, outer, M3.one, M3.mul, M3.mulVec, M3.vecMul, dot]
  · ext <;> simp [H4.one, mul, add3, outer, M3.one, M3.mul, M3.mulVec, M3.vecMul, dot]

/-- Shift after scaling is not scaling after shift. -/
example : ((translation ⟨1, 0, 0⟩).mul (scaling 2 none none)).app (⟨1, 1, 1⟩, 1) = (⟨3, 2, 2⟩, 1) ∧
    ((scaling 2 none none).mul (translation ⟨1, 0, 0⟩)).app (⟨1, 1, 1⟩, 1) = (⟨4, 2, 2⟩, 1) := by
  rw [(c94_compose _ _ H4.one _).1, (c94_compose _ _ H4.one _).1]
  constructor <;> ext <;> simp [app, translation, scaling, smul3, M3.one, M3.mulVec, dot] <;> norm_num

/-- C94: `concatenate_matrices` of any number of matrices applies the last matrix first. -/
theorem c94_concat (ms : List H4) (v : V3 × ℝ) : (concat ms).app v = ms.foldr app v := by
  have key : ∀ (ms : List H4) (m : H4), (ms.foldl mul m).app v = m.app (ms.foldr app v) := by
    intro ms
    induction ms with
    | nil => intro m; rfl
    | cons k ms ih => intro m; simp only [List.foldl_cons, List.foldr_cons]; rw [ih, (c94_compose m k k _).1]
  unfold concat
  rw [key]
  ext <;> simp [app, H4.one, M3.one, M3.mulVec, dot]

/-- The last of three matrices acts first. -/
example : (concat [translation ⟨1, 0, 0⟩, scaling 2 none none, translation ⟨0, 1, 0⟩]).app (0, 1) =
    (⟨1, 2, 0⟩, 1) := by
  rw [c94_concat]
  ext <;> simp [app, translation, scaling, smul3, M3.one, M3.mulVec, dot]

/-- C94: a translation matrix moves every point by the vector and no direction; the vector is read back,
translations add up and are undone by the opposite vector. -/
theorem c94_translation (v w p : V3) :
    (translation v).app (p, 1) = (p + v, 1) ∧ (translation v).app (p, 0) = (p, 0) ∧
    translationFrom (translation v) = v ∧
    (translation v).mul (translation w) = translation (v + w) ∧
    (translation v).mul (translation (-v)) = H4.one := by
  refine ⟨?_, ?_, rfl, ?_, ?_⟩
  · ext <;> simp [app, translation, M3.one, M3.mulVec, dot]
  · ext <;> simp [app, translation, M3.one, M3.mulVec, dot]
  · ext <;> simp [mul, translation, add3, outer, M3.one, M3.mul, M3.mulVec, M3.vecMul, dot]; all_goals ring
  · ext <;> simp [mul, translation, H4.one, add3, outer, M3.one, M3.mul, M3.mulVec, M3.vecMul, dot]

example : (translation ⟨1, 2, 3⟩).app (⟨1, 1, 1⟩, 1) = (⟨2, 3, 4⟩, 1) := by
  rw [(c94_translation ⟨1, 2, 3⟩ 0 ⟨1, 1, 1⟩).1]
  ext <;> simp <;> norm_num

/-- C94: a reflection moves every point to its mirror image in the plane through `q` with the normal: along
the normal by twice the distance.  The points of the plane and no others stay; reflecting twice does nothing;
handedness changes; the trace is two. -/
theorem c94_reflection {normal : V3} (h : normal ≠ 0) (q p : V3) :
    (reflection q normal).app (p, 1) =
      (p - (2 * ((p - q).dot normal / normal.dot normal)) • normal, 1) ∧
    ((reflection q normal).app (p, 1) = (p, 1) ↔ (p - q).dot normal = 0) ∧
    (reflection q normal).mul (reflection q normal) = H4.one ∧
    (reflection q normal).a.det = -1 ∧ tr4 (reflection q normal) = 2 := by
  obtain ⟨n, l, hu, hn, hl, hv⟩ := unit_spec h
  have e1 : (reflection q normal).app (p, 1) = (p - (2 * (p - q).dot n) • n, 1) := by
    simp only [reflection, hu]
    ext <;> simp [app, add3, smul3, outer, M3.one, M3.mulVec, dot] <;> ring
  have e2 : (2 * ((p - q).dot normal / normal.dot normal)) • normal = (2 * (p - q).dot n) • n := by
    have := along hn hl (p - q)
    rw [← hv] at this
    have hx := congrArg V3.x this
    have hy := congrArg V3.y this
    have hz := congrArg V3.z this
    simp only [smul_x, smul_y, smul_z] at hx hy hz
    ext <;> simp only [smul_x, smul_y, smul_z]
    · linear_combination 2 * hx
    · linear_combination 2 * hy
    · linear_combination 2 * hz
  have hn' := hn
  simp only [dot] at hn'
  refine ⟨by rw [e1, e2], ?_, ?_, ?_, ?_⟩
  · rw [e1]
    have e3 : (p - q).dot normal = l * (p - q).dot n := by rw [hv]; simp [dot]; ring
    rw [e3]
    constructor
    · intro hh
      have h1 := congrArg Prod.fst hh
      have hx := congrArg V3.x h1
      have hy := congrArg V3.y h1
      have hz := congrArg V3.z h1
      simp only [sub_x, sub_y, sub_z, smul_x, smul_y, smul_z] at hx hy hz
      have : (p - q).dot n = 0 := by
        linear_combination (-(p - q).dot n) * hn' - n.x / 2 * hx - n.y / 2 * hy - n.z / 2 * hz
      rw [this, mul_zero]
    · intro hh
      have : (p - q).dot n = 0 := by
        rcases mul_eq_zero.mp hh with h0 | h0
        · exact absurd h0 hl.ne'
        · exact h0
      rw [this]
      ext <;> simp
  · simp only [reflection, hu]
    ext <;> simp [mul, H4.one, add3, smul3, outer, M3.one, M3.mul, M3.mulVec, M3.vecMul, dot]
    · linear_combination 4 * n.x * n.x * hn'
    · linear_combination 4 * n.x * n.y * hn'
    · linear_combination 4 * n.x * n.z * hn'
    · linear_combination 4 * n.y * n.x * hn'
    · linear_combination 4 * n.y * n.y * hn'
    · linear_combination 4 * n.y * n.z * hn'
    · linear_combination 4 * n.z * n.x * hn'
    · linear_combination 4 * n.z * n.y * hn'
    · linear_combination 4 * n.z * n.z * hn'
    · linear_combination (-4 * (q.x * n.x + q.y * n.y + q.z * n.z) * n.x) * hn'
    · linear_combination (-4 * (q.x * n.x + q.y * n.y + q.z * n.z) * n.y) * hn'
    · linear_combination (-4 * (q.x * n.x + q.y * n.y + q.z * n.z) * n.z) * hn'
  · simp only [reflection, hu]
    simp [M3.det, add3, smul3, outer, M3.one]
    linear_combination (-2) * hn'
  · simp only [reflection, hu]
    simp [tr4, tr, add3, smul3, outer, M3.one]
    linear_combination (-2) * hn'

/-- The mirror `z = 1`, given by a normal of length two, takes the height 3 to -1. -/
example : (reflection ⟨5, 5, 1⟩ ⟨0, 0, 2⟩).app (⟨7, 8, 3⟩, 1) = (⟨7, 8, -1⟩, 1) := by
  have h : (⟨0, 0, 2⟩ : V3) ≠ 0 := fun h => by simpa using congrArg V3.z h
  rw [(c94_reflection h ⟨5, 5, 1⟩ ⟨7, 8, 3⟩).1]
  ext <;> simp [dot]
  norm_num

/-- C94: a rotation about a point leaves the points of the axis through it, acts as the rotation about the
origin carried there, keeps distances, adds up angles, and has the trace `2 + 2 cos`. -/
theorem c94_rotation (angle b : ℝ) {d : V3} (h : d ≠ 0) (q p r : V3) (s : ℝ) :
    (rotation angle d (some q)).app (q + s • d, 1) = (q + s • d, 1) ∧
    rotation angle d (some q) =
      ((translation q).mul (rotation angle d none)).mul (translation (-q)) ∧
    (let f := fun x => ((rotation angle d (some q)).app (x, 1)).1; (f p - f r).norm = (p - r).norm) ∧
    (rotation angle d (some q)).mul (rotation b d (some q)) = rotation (angle + b) d (some q) ∧
    rotation angle d (some q) = rotation (angle - 2 * Real.pi) d (some q) ∧
    tr4 (rotation angle d (some q)) = 2 + 2 * Real.cos angle := by
  have hr := c58_rotation angle h
  have hf := c58_axis_fixed angle h
  have hadd := (c58_additive angle b h).2
  refine ⟨?_, ?_, ?_, ?_, ?_, ?_⟩
  · have hx := congrArg V3.x hf
    have hy := congrArg V3.y hf
    have hz := congrArg V3.z hf
    simp only [M3.mulVec] at hx hy hz
    ext <;> simp [app, rotation, M3.mulVec, dot]
    · linear_combination s * hx
    · linear_combination s * hy
    · linear_combination s * hz
  · ext <;> simp [rotation, translation, mul, add3, outer, M3.one, M3.mul, M3.mulVec, M3.vecMul, dot]; all_goals ring
  · simp only [V3.norm]
    congr 1
    have hl := hr.right
    generalize hR : rotationMatrix angle d = R at hl
    have h00 := congrArg M3.a00 hl; have h01 := congrArg M3.a01 hl; have h02 := congrArg M3.a02 hl
    have h11 := congrArg M3.a11 hl; have h12 := congrArg M3.a12 hl; have h22 := congrArg M3.a22 hl
    simp only [M3.mul, M3.T, M3.one] at h00 h01 h02 h11 h12 h22
    simp only [rotation, hR]
    simp [app, M3.mulVec, dot]
    linear_combination (p.x - r.x) ^ 2 * h00 + (p.y - r.y) ^ 2 * h11 + (p.z - r.z) ^ 2 * h22 +
      2 * (p.x - r.x) * (p.y - r.y) * h01 + 2 * (p.x - r.x) * (p.z - r.z) * h02 +
      2 * (p.y - r.y) * (p.z - r.z) * h12
  · have : ∀ (A B : M3), (⟨A, q - A.mulVec q, 0, 1⟩ : H4).mul ⟨B, q - B.mulVec q, 0, 1⟩ =
        ⟨A.mul B, q - (A.mul B).mulVec q, 0, 1⟩ := by
      intro A B
      ext <;> simp [mul, add3, outer, M3.mul, M3.mulVec, M3.vecMul, dot]; all_goals ring
    simp only [rotation]
    rw [this, hadd]
  · simp only [rotation, rotationMatrix, Real.sin_sub_two_pi, Real.cos_sub_two_pi]
  · have hu := unitVector_unit h
    simp only [dot] at hu
    simp [tr4, tr, rotation, rotationMatrix]
    linear_combination (1 - Real.cos angle) * hu

/-- The rotation by a right angle about the vertical axis through (1, 0, 0) leaves (1, 0, 4) and takes the
origin to (1, -1, 0). -/
example : (rotation (Real.pi / 2) ⟨0, 0, 2⟩ (some ⟨1, 0, 0⟩)).app (⟨1, 0, 4⟩, 1) = (⟨1, 0, 4⟩, 1) ∧
    (rotation (Real.pi / 2) ⟨0, 0, 2⟩ (some ⟨1, 0, 0⟩)).app (0, 1) = (⟨1, -1, 0⟩, 1) := by
  have h : (⟨0, 0, 2⟩ : V3) ≠ 0 := fun h => by simpa using congrArg V3.z h
  have hu : unitVector (⟨0, 0, 2⟩ : V3) = ⟨0, 0, 1⟩ := by
    have : (⟨0, 0, 2⟩ : V3).norm = 2 := by
      rw [V3.norm, show (⟨0, 0, 2⟩ : V3).dot ⟨0, 0, 2⟩ = 2 ^ 2 by simp [dot]; norm_num, Real.sqrt_sq (by norm_num)]
    unfold unitVector; rw [this]; ext <;> simp
  constructor
  · have := (c94_rotation (Real.pi / 2) 0 h ⟨1, 0, 0⟩ 0 0 2).1
    rw [show (⟨1, 0, 0⟩ : V3) + (2 : ℝ) • ⟨0, 0, 2⟩ = ⟨1, 0, 4⟩ by ext <;> simp; norm_num] at this
    exact this
  · simp only [rotation, rotationMatrix, hu]
    ext <;> simp [app, M3.mulVec, dot]

/-- C94: scaling by a factor about an origin, in all directions or along one. -/
theorem c94_scaling (f : ℝ) (o p : V3) {d : V3} (h : d ≠ 0) :
    (scaling f (some o) none).app (p, 1) = (o + f • (p - o), 1) ∧
    (scaling f none none).app (p, 1) = (f • p, 1) ∧
    (scaling f (some o) (some d)).app (p, 1) =
      (p + ((f - 1) * ((p - o).dot d / d.dot d)) • d, 1) ∧
    (scaling f none (some d)).app (p, 1) = (p + ((f - 1) * (p.dot d / d.dot d)) • d, 1) ∧
    (scaling f (some o) none).a.det = f ^ 3 ∧ (scaling f (some o) (some d)).a.det = f := by
  obtain ⟨n, l, hu, hn, hl, hv⟩ := unit_spec h
  have hn' := hn
  simp only [dot] at hn'
  have e2 : ∀ x : V3, ((f - 1) * (x.dot d / d.dot d)) • d = ((f - 1) * x.dot n) • n := by
    intro x
    have := along hn hl x
    rw [← hv] at this
    have hx := congrArg V3.x this
    have hy := congrArg V3.y this
    have hz := congrArg V3.z this
    simp only [smul_x, smul_y, smul_z] at hx hy hz
    ext <;> simp only [smul_x, smul_y, smul_z]
    · linear_combination (f - 1) * hx
    · linear_combination (f - 1) * hy
    · linear_combination (f - 1) * hz
  refine ⟨?_, ?_, ?_, ?_, ?_, ?_⟩
  · ext <;> simp [scaling, app, smul3, M3.one, M3.mulVec, dot] <;> ring
  · ext <;> simp [scaling, app, smul3, M3.one, M3.mulVec, dot]
  · rw [e2]; simp only [scaling, hu]
    ext <;> simp [app, add3, smul3, outer, M3.one, M3.mulVec, dot] <;> ring
  · rw [e2]; simp only [scaling, hu]
    ext <;> simp [app, add3, smul3, outer, M3.one, M3.mulVec, dot] <;> ring
  · simp [scaling, M3.det, smul3, M3.one]; ring
  · simp only [scaling, hu]
    simp [M3.det, add3, smul3, outer, M3.one]
    linear_combination (f - 1) * hn'

example : (scaling 3 (some ⟨1, 0, 0⟩) none).app (⟨2, 1, 0⟩, 1) = (⟨4, 3, 0⟩, 1) ∧
    (scaling 3 (some ⟨1, 0, 0⟩) (some ⟨5, 0, 0⟩)).app (⟨2, 1, 0⟩, 1) = (⟨4, 1, 0⟩, 1) := by
  have h : (⟨5, 0, 0⟩ : V3) ≠ 0 := fun h => by simpa using congrArg V3.x h
  obtain ⟨h1, -, h2, -⟩ := c94_scaling 3 ⟨1, 0, 0⟩ ⟨2, 1, 0⟩ h
  rw [h1, h2]
  constructor <;> ext <;> simp [dot] <;> norm_num

/-- C94: the orthogonal projection moves every point along the normal into the plane through `q`, to the
point of the plane nearest to it; projecting again does nothing. -/
theorem c94_projection {normal : V3} (h : normal ≠ 0) (q p : V3) :
    (∃ s : ℝ, (projection q normal).app (p, 1) = (p + s • normal, 1) ∧ (p + s • normal - q).dot normal = 0 ∧
      ∀ r : V3, (r - q).dot normal = 0 → (s • normal).norm ≤ (p - r).norm) ∧
    (projection q normal).mul (projection q normal) = projection q normal := by
  obtain ⟨n, l, hu, hn, hl, hv⟩ := unit_spec h
  have hn' := hn
  simp only [dot] at hn'
  refine ⟨⟨-((p - q).dot n) / l, ?_, ?_, ?_⟩, ?_⟩
  · simp only [projection, hu]
    rw [hv]
    ext <;> simp [app, add3, smul3, outer, M3.one, M3.mulVec, dot] <;> field_simp <;> ring
  · rw [hv]
    simp [dot]
    field_simp
    linear_combination (-l * ((p.x - q.x) * n.x + (p.y - q.y) * n.y + (p.z - q.z) * n.z)) * hn'
  · intro r hr
    have hr' : (r - q).dot n = 0 := by
      rw [hv] at hr
      have : (r - q).dot (l • n) = l * (r - q).dot n := by simp [dot]; ring
      rw [this] at hr
      exact (mul_eq_zero.mp hr).resolve_left hl.ne'
    have e : (-(p - q).dot n / l) • normal = (-(p - r).dot n) • n := by
      have : (p - q).dot n = (p - r).dot n := by
        have : (p - q).dot n = (p - r).dot n + (r - q).dot n := by simp [dot]; ring
        rw [this, hr', add_zero]
      rw [hv, this]
      ext <;> simp <;> field_simp
    rw [e]
    apply Real.sqrt_le_sqrt
    generalize p - r = w
    have e3 : (-w.dot n • n).dot (-w.dot n • n) = w.dot n ^ 2 * n.dot n := by simp [dot]; ring
    rw [e3, hn, mul_one]
    have e4 : w.dot w * n.dot n - w.dot n ^ 2 =
        (w.y * n.z - w.z * n.y) ^ 2 + (w.z * n.x - w.x * n.z) ^ 2 + (w.x * n.y - w.y * n.x) ^ 2 := by
      simp only [dot]; ring
    rw [hn, mul_one] at e4
    nlinarith [sq_nonneg (w.y * n.z - w.z * n.y), sq_nonneg (w.z * n.x - w.x * n.z),
      sq_nonneg (w.x * n.y - w.y * n.x)]
  · simp only [projection, hu]
    ext <;> simp [mul, add3, smul3, outer, M3.one, M3.mul, M3.mulVec, M3.vecMul, dot]
    · linear_combination n.x * n.x * hn'
    · linear_combination n.x * n.y * hn'
    · linear_combination n.x * n.z * hn'
    · linear_combination n.y * n.x * hn'
    · linear_combination n.y * n.y * hn'
    · linear_combination n.y * n.z * hn'
    · linear_combination n.z * n.x * hn'
    · linear_combination n.z * n.y * hn'
    · linear_combination n.z * n.z * hn'
    · linear_combination (-(q.x * n.x + q.y * n.y + q.z * n.z) * n.x) * hn'
    · linear_combination (-(q.x * n.x + q.y * n.y + q.z * n.z) * n.y) * hn'
    · linear_combination (-(q.x * n.x + q.y * n.y + q.z * n.z) * n.z) * hn'

example : ∃ s : ℝ, (projection ⟨0, 0, 1⟩ ⟨0, 0, 2⟩).app (⟨7, 8, 3⟩, 1) =
    ((⟨7, 8, 3⟩ : V3) + s • ⟨0, 0, 2⟩, 1) := by
  have h : (⟨0, 0, 2⟩ : V3) ≠ 0 := fun h => by simpa using congrArg V3.z h
  obtain ⟨s, h1, -⟩ := (c94_projection h ⟨0, 0, 1⟩ ⟨7, 8, 3⟩).1
  exact ⟨s, h1⟩

/-- C94: the parallel projection along a direction that is not in the plane. -/
theorem c94_parallel {normal d : V3} (h : d.dot normal ≠ 0) (q p : V3) :
    (∃ s : ℝ, (parallel q normal d).app (p, 1) = (p + s • d, 1) ∧ (p + s • d - q).dot normal = 0) ∧
    (parallel q normal d).mul (parallel q normal d) = parallel q normal d := by
  have h0 : normal ≠ 0 := by rintro rfl; exact h (by simp [dot])
  obtain ⟨n, l, hu, hn, hl, hv⟩ := unit_spec h0
  have e : d.dot normal = l * d.dot n := by rw [hv]; simp [dot]; ring
  have hd : d.dot n ≠ 0 := by intro h1; rw [e, h1, mul_zero] at h; exact h rfl
  obtain ⟨k, hk⟩ : ∃ k, d.dot n = k := ⟨_, rfl⟩
  have hk' := hk
  simp only [dot] at hk'
  rw [hk] at hd
  refine ⟨⟨-((p - q).dot n) / k, ?_, ?_⟩, ?_⟩
  · simp only [parallel, hu, hk]
    ext <;> simp [app, add3, smul3, outer, M3.one, M3.mulVec, dot] <;> field_simp <;> ring
  · rw [hv]
    simp [dot]
    field_simp
    linear_combination (-l * ((p.x - q.x) * n.x + (p.y - q.y) * n.y + (p.z - q.z) * n.z)) * hk'
  · simp only [parallel, hu, hk]
    have hi : k * k⁻¹ = 1 := mul_inv_cancel₀ hd
    simp only [div_eq_mul_inv, one_mul]
    generalize k⁻¹ = i at hi
    have hj : (d.x * n.x + d.y * n.y + d.z * n.z) * i = 1 := by rw [hk', hi]
    ext <;> simp [mul, add3, smul3, outer, M3.one, M3.mul, M3.mulVec, M3.vecMul, dot]
    · linear_combination i * d.x * n.x * hj
    · linear_combination i * d.x * n.y * hj
    · linear_combination i * d.x * n.z * hj
    · linear_combination i * d.y * n.x * hj
    · linear_combination i * d.y * n.y * hj
    · linear_combination i * d.y * n.z * hj
    · linear_combination i * d.z * n.x * hj
    · linear_combination i * d.z * n.y * hj
    · linear_combination i * d.z * n.z * hj
    · linear_combination (-(q.x * n.x + q.y * n.y + q.z * n.z) * i * d.x) * hj
    · linear_combination (-(q.x * n.x + q.y * n.y + q.z * n.z) * i * d.y) * hj
    · linear_combination (-(q.x * n.x + q.y * n.y + q.z * n.z) * i * d.z) * hj

/-- The plane and direction of the docstring: `projection_matrix([3, 0, 0], [1, 1, 0], [1, 0, 0])`. -/
example (p : V3) : ∃ s : ℝ, (parallel ⟨3, 0, 0⟩ ⟨1, 1, 0⟩ ⟨1, 0, 0⟩).app (p, 1) = (p + s • ⟨1, 0, 0⟩, 1) ∧
    p.x + s = 3 - p.y := by
  obtain ⟨s, h1, h2⟩ := (c94_parallel (normal := ⟨1, 1, 0⟩) (d := ⟨1, 0, 0⟩) (by simp [dot]) ⟨3, 0, 0⟩ p).1
  refine ⟨s, h1, ?_⟩
  simp [dot] at h2
  linarith

/-- C94: the perspective projection of every point that is not in the plane through the eye parallel to the
plane: the image lies in the plane and on the line from the eye through the point.  Depth is measured along
the normal. -/
theorem c94_perspective {normal : V3} (h : normal ≠ 0) (q e p : V3) (hp : (e - p).dot normal ≠ 0) :
    ∃ s : ℝ, H4.point ((perspective q normal e false).app (p, 1)) = e + s • (p - e) ∧
      (e + s • (p - e) - q).dot normal = 0 ∧ ((perspective q normal e false).app (p, 1)).2 ≠ 0 := by
  obtain ⟨n, l, hu, hn, hl, hv⟩ := unit_spec h
  have e1 : ∀ x : V3, x.dot normal = l * x.dot n := by intro x; rw [hv]; simp [dot]; ring
  rw [e1] at hp
  obtain ⟨k, hk⟩ : ∃ k, (e - p).dot n = k := ⟨_, rfl⟩
  have hk0 : k ≠ 0 := by rintro rfl; rw [hk, mul_zero] at hp; exact hp rfl
  have hk' := hk
  simp only [dot, sub_x, sub_y, sub_z] at hk'
  have hw : ((perspective q normal e false).app (p, 1)).2 = k := by
    simp only [perspective, hu]
    simp [app, dot]
    linear_combination hk'
  refine ⟨(e - q).dot n / k, ?_, ?_, by rw [hw]; exact hk0⟩
  · unfold H4.point
    rw [hw]
    simp only [perspective, hu]
    ext <;> simp [app, add3, smul3, outer, M3.one, M3.mulVec, dot] <;> field_simp
    · linear_combination e.x * hk'
    · linear_combination e.y * hk'
    · linear_combination e.z * hk'
  · rw [e1]
    simp [dot]
    right
    field_simp
    linear_combination (-((e.x - q.x) * n.x + (e.y - q.y) * n.y + (e.z - q.z) * n.z)) * hk'

/-- The eye at height 2 sees the point (1, 0, 1) at (2, 0, 0) of the ground plane. -/
example : H4.point ((perspective 0 ⟨0, 0, 3⟩ ⟨0, 0, 2⟩ false).app (⟨1, 0, 1⟩, 1)) = ⟨2, 0, 0⟩ := by
  have h : (⟨0, 0, 3⟩ : V3) ≠ 0 := fun h => by simpa using congrArg V3.z h
  obtain ⟨s, h1, h2, -⟩ := c94_perspective h 0 ⟨0, 0, 2⟩ ⟨1, 0, 1⟩ (by simp [dot]; norm_num)
  have : s = 2 := by simp [dot] at h2; linarith
  rw [h1, this]
  ext <;> simp
  norm_num

/-- C94: the pseudo-perspective projection followed by the orthogonal projection is the perspective
projection, and it keeps the order of depth: of two points on the plane's side of an eye in front of the
plane, the one farther from the eye has the greater image depth. -/
theorem c94_pseudo {normal : V3} (h : normal ≠ 0) (q e p r : V3) (he : 0 < (e - q).dot normal)
    (hp : 0 < (e - p).dot normal) (hr : 0 < (e - r).dot normal) :
    (projection q normal).mul (perspective q normal e true) = perspective q normal e false ∧
    ((H4.point ((perspective q normal e true).app (p, 1)) - q).dot normal <
        (H4.point ((perspective q normal e true).app (r, 1)) - q).dot normal ↔
      (e - p).dot normal < (e - r).dot normal) := by
  obtain ⟨n, l, hu, hn, hl, hv⟩ := unit_spec h
  have hn' := hn
  simp only [dot] at hn'
  have e1 : ∀ x : V3, x.dot normal = l * x.dot n := by intro x; rw [hv]; simp [dot]; ring
  simp only [e1] at he hp hr ⊢
  replace he := (mul_pos_iff_of_pos_left hl).mp he
  replace hp := (mul_pos_iff_of_pos_left hl).mp hp
  replace hr := (mul_pos_iff_of_pos_left hl).mp hr
  constructor
  · simp only [perspective, projection, hu]
    ext <;> simp [mul, add3, smul3, outer, M3.one, M3.mul, M3.mulVec, M3.vecMul, dot]
    · linear_combination n.x * n.x * hn'
    · linear_combination n.x * n.y * hn'
    · linear_combination n.x * n.z * hn'
    · linear_combination n.y * n.x * hn'
    · linear_combination n.y * n.y * hn'
    · linear_combination n.y * n.z * hn'
    · linear_combination n.z * n.x * hn'
    · linear_combination n.z * n.y * hn'
    · linear_combination n.z * n.z * hn'
    · linear_combination (-(q.x * n.x + q.y * n.y + q.z * n.z) * n.x) * hn'
    · linear_combination (-(q.x * n.x + q.y * n.y + q.z * n.z) * n.y) * hn'
    · linear_combination (-(q.x * n.x + q.y * n.y + q.z * n.z) * n.z) * hn'
  · have key : ∀ x : V3, 0 < (e - x).dot n →
        (H4.point ((perspective q normal e true).app (x, 1)) - q).dot n = 1 - (e - q).dot n / (e - x).dot n := by
      intro x hx
      obtain ⟨k, hk⟩ : ∃ k, (e - x).dot n = k := ⟨_, rfl⟩
      have hk' := hk
      simp only [dot, sub_x, sub_y, sub_z] at hk'
      rw [hk] at hx
      have hw : ((perspective q normal e true).app (x, 1)).2 = k := by
        simp only [perspective, hu]
        simp [app, dot]
        linear_combination hk'
      unfold H4.point
      rw [hw, hk]
      simp only [perspective, hu]
      simp [app, add3, smul3, outer, M3.one, M3.mulVec, dot]
      field_simp
      linear_combination (q.x * n.x + q.y * n.y + q.z * n.z - (x.x * n.x + x.y * n.y + x.z * n.z)) * hn' +
        (q.x * n.x + q.y * n.y + q.z * n.z + 1) * hk'
    rw [key p hp, key r hr, mul_lt_mul_iff_right₀ hl, mul_lt_mul_iff_right₀ hl, sub_lt_sub_iff_left]
    exact div_lt_div_iff_of_pos_left he hr hp

example : (projection 0 ⟨0, 0, 3⟩).mul (perspective 0 ⟨0, 0, 3⟩ ⟨0, 0, 2⟩ true) =
    perspective 0 ⟨0, 0, 3⟩ ⟨0, 0, 2⟩ false :=
  (c94_pseudo (fun h => by simpa using congrArg V3.z h) 0 ⟨0, 0, 2⟩ ⟨1, 0, 1⟩ ⟨1, 0, -1⟩
    (by norm_num [dot]) (by norm_num [dot]) (by norm_num [dot])).1

/-- C94: the orthographic clip matrix puts exactly the points of the box into the normalized cube. -/
theorem c94_clip_box (l r b t n f : ℝ) (m : H4) (h : clip l r b t n f false = some m) (p : V3) :
    (l < r ∧ b < t ∧ n < f) ∧ (m.app (p, 1)).2 = 1 ∧
    ((l ≤ p.x ∧ p.x ≤ r ∧ b ≤ p.y ∧ p.y ≤ t ∧ n ≤ p.z ∧ p.z ≤ f) ↔
      (|(H4.point (m.app (p, 1))).x| ≤ 1 ∧ |(H4.point (m.app (p, 1))).y| ≤ 1 ∧
        |(H4.point (m.app (p, 1))).z| ≤ 1)) := by
  simp only [clip, Bool.false_eq_true, if_false] at h
  split_ifs at h with h0
  · simp only [ge_iff_le, not_or, not_le] at h0
    obtain ⟨h1, h2, h3⟩ := h0
    obtain rfl := Option.some.inj h
    have d1 : 0 < r - l := by linarith
    have d2 : 0 < t - b := by linarith
    have d3 : 0 < f - n := by linarith
    have key : ∀ lo hi x : ℝ, 0 < hi - lo → ((lo ≤ x ∧ x ≤ hi) ↔
        |2 / (hi - lo) * x + (hi + lo) / (lo - hi)| ≤ 1) := by
      intro lo hi x hd
      have e : 2 / (hi - lo) * x + (hi + lo) / (lo - hi) = (2 * x - (hi + lo)) / (hi - lo) := by
        have : lo - hi ≠ 0 := by linarith
        have h' : hi - lo ≠ 0 := hd.ne'
        rw [show lo - hi = -(hi - lo) by ring, div_neg]
        field_simp
        ring
      rw [e, abs_le, div_le_iff₀ hd, le_div_iff₀ hd]
      constructor
      · rintro ⟨a, b⟩; constructor <;> linarith
      · rintro ⟨a, b⟩; constructor <;> linarith
    refine ⟨⟨h1, h2, h3⟩, by simp [app, dot], ?_⟩
    have ex := key l r p.x d1
    have ey := key b t p.y d2
    have ez := key n f p.z d3
    simp [H4.point, app, dot, M3.mulVec]
    tauto

example : ∃ m, clip 0 1 2 4 (-1) 1 false = some m :=
  ⟨_, by simp only [clip]; norm_num; rfl⟩

/-- C94: a clip matrix is refused iff the bounds are out of order or, for a perspective one, begin at or
behind the eye up to the rounding threshold. -/
theorem c94_clip_refused (l r b t n f : ℝ) (persp : Bool) :
    clip l r b t n f persp = none ↔
      (r ≤ l ∨ t ≤ b ∨ f ≤ n ∨ (persp = true ∧ n ≤ tfEps)) := by
  unfold clip
  by_cases h0 : l ≥ r ∨ b ≥ t ∨ n ≥ f
  · rw [if_pos h0]
    simp only [ge_iff_le] at h0
    tauto
  · rw [if_neg h0]
    simp only [ge_iff_le, not_or, not_le] at h0
    cases persp
    · simpa using h0
    · by_cases h1 : n ≤ tfEps
      · simp [h1]
      · simp only [if_true, if_neg h1]
        simp only [not_le] at h1
        simpa using ⟨h0.1, h0.2.1, h0.2.2, h1⟩

example : clip 0 1 0 1 (-1) 1 true = none ∧ clip 0 1 0 1 (-1) 1 false ≠ none := by
  constructor
  · rw [c94_clip_refused]; right; right; right; exact ⟨rfl, by unfold tfEps; norm_num⟩
  · rw [Ne, c94_clip_refused]; norm_num

/-- C94: the perspective clip matrix puts exactly the frustum into the normalized cube: the points between
the near and the far plane whose central projection to the near plane is in the window.  No point in or
behind the plane of the eye comes to lie in the cube. -/
theorem c94_clip_frustum (l r b t n f : ℝ) (m : H4) (h : clip l r b t n f true = some m) (p : V3)
    (hz : p.z ≠ 0) :
    (0 < n ∧ l < r ∧ b < t ∧ n < f) ∧ (m.app (p, 1)).2 ≠ 0 ∧
    ((n ≤ p.z ∧ p.z ≤ f ∧ l ≤ p.x * n / p.z ∧ p.x * n / p.z ≤ r ∧ b ≤ p.y * n / p.z ∧ p.y * n / p.z ≤ t) ↔
      (|(H4.point (m.app (p, 1))).x| ≤ 1 ∧ |(H4.point (m.app (p, 1))).y| ≤ 1 ∧
        |(H4.point (m.app (p, 1))).z| ≤ 1)) := by
  simp only [clip, if_true] at h
  split_ifs at h with h0 h4
  simp only [ge_iff_le, not_or, not_le] at h0 h4
  obtain ⟨h1, h2, h3⟩ := h0
  have hn : 0 < n := lt_trans (by unfold tfEps; positivity) h4
  have hf : 0 < f := by linarith
  obtain rfl := Option.some.inj h
  have d1 : 0 < r - l := by linarith
  have d2 : 0 < t - b := by linarith
  have d3 : 0 < f - n := by linarith
  have key : ∀ lo hi x : ℝ, 0 < hi - lo → ((lo ≤ x * n / p.z ∧ x * n / p.z ≤ hi) ↔
      |1 / (-p.z) * (2 * n / (lo - hi) * x + (hi + lo) / (hi - lo) * p.z)| ≤ 1) := by
    intro lo hi x hd
    have e : 1 / (-p.z) * (2 * n / (lo - hi) * x + (hi + lo) / (hi - lo) * p.z) =
        (2 * (x * n / p.z) - (hi + lo)) / (hi - lo) := by
      have h' : hi - lo ≠ 0 := hd.ne'
      rw [show lo - hi = -(hi - lo) by ring]
      generalize hi - lo = k at h' ⊢
      field_simp
      ring
    rw [e, abs_le, div_le_iff₀ hd, le_div_iff₀ hd]
    constructor
    · rintro ⟨a, b⟩; constructor <;> linarith
    · rintro ⟨a, b⟩; constructor <;> linarith
  have keyz : (n ≤ p.z ∧ p.z ≤ f) ↔
      |1 / (-p.z) * ((f + n) / (n - f) * p.z + 2 * n * f / (f - n))| ≤ 1 := by
    have e : 1 / (-p.z) * ((f + n) / (n - f) * p.z + 2 * n * f / (f - n)) =
        ((f + n) - 2 * n * f / p.z) / (f - n) := by
      have h' : f - n ≠ 0 := d3.ne'
      rw [show n - f = -(f - n) by ring]
      generalize f - n = k at h' ⊢
      field_simp
      ring
    rw [e, abs_le, div_le_iff₀ d3, le_div_iff₀ d3]
    rcases lt_or_gt_of_ne hz with hneg | hpos
    · have hq : 2 * n * f / p.z < 0 := div_neg_of_pos_of_neg (by positivity) hneg
      constructor
      · rintro ⟨a, -⟩; linarith
      · rintro ⟨-, a⟩; linarith
    · constructor
      · rintro ⟨a, b⟩
        have u1 : 2 * n * f / p.z ≤ 2 * f := by rw [div_le_iff₀ hpos]; nlinarith
        have u2 : 2 * n ≤ 2 * n * f / p.z := by rw [le_div_iff₀ hpos]; nlinarith
        constructor <;> linarith
      · rintro ⟨a, b⟩
        have u1 : 2 * n * f / p.z ≤ 2 * f := by linarith
        have u2 : 2 * n ≤ 2 * n * f / p.z := by linarith
        rw [div_le_iff₀ hpos] at u1
        rw [le_div_iff₀ hpos] at u2
        constructor <;> nlinarith
  have ex := key l r p.x d1
  have ey := key b t p.y d2
  refine ⟨⟨hn, h1, h2, h3⟩, by simp [app, dot, hz], ?_⟩
  simp only [H4.point, app, dot, M3.mulVec]
  simp only [smul_x, smul_y, smul_z, add_x, add_y, add_z, mul_zero, zero_mul, add_zero, zero_add, neg_mul,
    one_mul] at ex ey keyz ⊢
  tauto

/-- A point of the frustum: the window [-1, 1] at distance one, seen to distance three. -/
example : ∃ m, clip (-1) 1 (-1) 1 1 3 true = some m ∧ |(H4.point (m.app (⟨1, -2, 2⟩, 1))).x| ≤ 1 := by
  have h : clip (-1) 1 (-1) 1 1 3 true ≠ none := by
    rw [Ne, c94_clip_refused]; unfold tfEps; norm_num
  obtain ⟨m, hm⟩ := Option.ne_none_iff_exists'.mp h
  exact ⟨m, hm, ((c94_clip_frustum _ _ _ _ _ _ m hm ⟨1, -2, 2⟩ (by norm_num)).2.2.mp (by norm_num)).1⟩

/-- C94: a shear moves every point along the direction by the tangent of the angle times its distance from
the plane; the plane stays.  The vectors are refused when they are not orthogonal within 1e-6, and for
orthogonal ones the volume is kept and the shear by the opposite angle is the inverse. -/
theorem c94_shear (angle : ℝ) {d normal : V3} (hd : d ≠ 0) (h : normal ≠ 0) (q p : V3) (m : H4)
    (hm : shear angle d q normal = some m) :
    (∃ s : ℝ, m.app (p, 1) = (p + s • d, 1) ∧
      (s • d).norm = |Real.tan angle| * |(p - q).dot normal / normal.norm| ∧
      s * d.norm = Real.tan angle * ((p - q).dot normal / normal.norm)) ∧
    ((p - q).dot normal = 0 → m.app (p, 1) = (p, 1)) ∧
    (normal.dot d = 0 → m.a.det = 1 ∧ ∃ k, shear (-angle) d q normal = some k ∧ m.mul k = H4.one ∧
      k.mul m = H4.one) := by
  obtain ⟨n, l, hu, hn, hl, hv⟩ := unit_spec h
  obtain ⟨w, k, hw, hww, hk, hdw⟩ := unit_spec hd
  have hs : ∀ a : ℝ, |n.dot w| ≤ 1 / 10 ^ 6 → shear a d q normal =
      some ⟨add3 M3.one (smul3 (Real.tan a) (outer w n)), (-Real.tan a * q.dot n) • w, 0, 1⟩ := by
    intro a ha
    simp only [shear, hu, hw]
    rw [if_neg (not_lt.mpr ha)]
  have hacc : |n.dot w| ≤ 1 / 10 ^ 6 := by
    simp only [shear, hu, hw] at hm
    split_ifs at hm with h0
    exact not_lt.mp h0
  rw [hs angle hacc] at hm
  obtain rfl := Option.some.inj hm
  obtain ⟨τ, hτ⟩ : ∃ τ, Real.tan angle = τ := ⟨_, rfl⟩
  rw [hτ]
  have hnl : normal.norm = l := by rw [hv, norm_smul_unit hn, abs_of_pos hl]
  have hdk : d.norm = k := by rw [hdw, norm_smul_unit hww, abs_of_pos hk]
  have e1 : (p - q).dot normal = l * (p - q).dot n := by rw [hv]; simp [dot]; ring
  have e2 : (p - q).dot normal / normal.norm = (p - q).dot n := by rw [e1, hnl]; field_simp
  have ea : (⟨add3 M3.one (smul3 τ (outer w n)), (-τ * q.dot n) • w, 0, 1⟩ : H4).app (p, 1) =
      (p + (τ * (p - q).dot n) • w, 1) := by
    ext <;> simp [app, add3, smul3, outer, M3.one, M3.mulVec, dot] <;> ring
  have es : (τ * (p - q).dot n / k) • d = (τ * (p - q).dot n) • w := by
    rw [hdw]; ext <;> simp <;> field_simp
  refine ⟨⟨τ * (p - q).dot n / k, by rw [ea, es], ?_, ?_⟩, ?_, ?_⟩
  · rw [es, norm_smul_unit hww, e2, abs_mul]
  · rw [hdk, e2]; field_simp
  · intro h0
    rw [ea]
    rw [e1] at h0
    rw [(mul_eq_zero.mp h0).resolve_left hl.ne']
    ext <;> simp
  · intro h0
    have h1 : n.dot w = 0 := by
      have : normal.dot d = l * k * n.dot w := by rw [hv, hdw]; simp [dot]; ring
      rw [this] at h0
      exact (mul_eq_zero.mp h0).resolve_left (mul_pos hl hk).ne'
    simp only [dot] at h1
    have hk' := hs (-angle) hacc
    rw [Real.tan_neg, hτ] at hk'
    refine ⟨?_, _, hk', ?_, ?_⟩
    · simp [M3.det, add3, smul3, outer, M3.one]
      linear_combination τ * h1
    · ext <;> simp [mul, H4.one, add3, smul3, outer, M3.one, M3.mul, M3.mulVec, M3.vecMul, dot]
      · linear_combination (-τ ^ 2 * w.x * n.x) * h1
      · linear_combination (-τ ^ 2 * w.x * n.y) * h1
      · linear_combination (-τ ^ 2 * w.x * n.z) * h1
      · linear_combination (-τ ^ 2 * w.y * n.x) * h1
      · linear_combination (-τ ^ 2 * w.y * n.y) * h1
      · linear_combination (-τ ^ 2 * w.y * n.z) * h1
      · linear_combination (-τ ^ 2 * w.z * n.x) * h1
      · linear_combination (-τ ^ 2 * w.z * n.y) * h1
      · linear_combination (-τ ^ 2 * w.z * n.z) * h1
      · linear_combination (τ ^ 2 * (q.x * n.x + q.y * n.y + q.z * n.z) * w.x) * h1
      · linear_combination (τ ^ 2 * (q.x * n.x + q.y * n.y + q.z * n.z) * w.y) * h1
      · linear_combination (τ ^ 2 * (q.x * n.x + q.y * n.y + q.z * n.z) * w.z) * h1
    · ext <;> simp [mul, H4.one, add3, smul3, outer, M3.one, M3.mul, M3.mulVec, M3.vecMul, dot]
      · linear_combination (-τ ^ 2 * w.x * n.x) * h1
      · linear_combination (-τ ^ 2 * w.x * n.y) * h1
      · linear_combination (-τ ^ 2 * w.x * n.z) * h1
      · linear_combination (-τ ^ 2 * w.y * n.x) * h1
      · linear_combination (-τ ^ 2 * w.y * n.y) * h1
      · linear_combination (-τ ^ 2 * w.y * n.z) * h1
      · linear_combination (-τ ^ 2 * w.z * n.x) * h1
      · linear_combination (-τ ^ 2 * w.z * n.y) * h1
      · linear_combination (-τ ^ 2 * w.z * n.z) * h1
      · linear_combination (τ ^ 2 * (q.x * n.x + q.y * n.y + q.z * n.z) * w.x) * h1
      · linear_combination (τ ^ 2 * (q.x * n.x + q.y * n.y + q.z * n.z) * w.y) * h1
      · linear_combination (τ ^ 2 * (q.x * n.x + q.y * n.y + q.z * n.z) * w.z) * h1

example (angle : ℝ) : ∃ m, shear angle ⟨1, 0, 0⟩ 0 ⟨0, 0, 1⟩ = some m ∧ m.a.det = 1 := by
  have hd : (⟨1, 0, 0⟩ : V3) ≠ 0 := fun h => by simpa using congrArg V3.x h
  have hn : (⟨0, 0, 1⟩ : V3) ≠ 0 := fun h => by simpa using congrArg V3.z h
  have h : shear angle ⟨1, 0, 0⟩ 0 ⟨0, 0, 1⟩ ≠ none := by
    simp only [shear]
    rw [if_neg]
    · simp
    · simp [unitVector, dot]
  obtain ⟨m, hm⟩ := Option.ne_none_iff_exists'.mp h
  exact ⟨m, hm, ((c94_shear angle hd hn 0 0 m hm).2.2 (by simp [dot])).1⟩

/-- C94, violation: vectors that are orthogonal only within the tolerance give a shear that is not one: the
matrix can even be singular. -/
theorem c94_shear_violation : ∃ (angle : ℝ) (d q normal : V3) (m : H4), d ≠ 0 ∧ normal ≠ 0 ∧
    shear angle d q normal = some m ∧ m.a.det = 0 := by
  obtain ⟨δ, hδ⟩ : ∃ δ : ℝ, δ = 2 * 10 ^ 7 / (10 ^ 14 + 1) := ⟨_, rfl⟩
  have hu : unitVector (⟨(10 ^ 14 - 1) / (10 ^ 14 + 1), 0, -δ⟩ : V3) =
      ⟨(10 ^ 14 - 1) / (10 ^ 14 + 1), 0, -δ⟩ := by
    have : (⟨(10 ^ 14 - 1) / (10 ^ 14 + 1), 0, -δ⟩ : V3).norm = 1 := by
      rw [V3.norm, Real.sqrt_eq_one, hδ]
      norm_num [dot]
    unfold unitVector
    rw [this]
    ext <;> simp
  have hv : unitVector (⟨0, 0, 1⟩ : V3) = ⟨0, 0, 1⟩ := by
    have : (⟨0, 0, 1⟩ : V3).norm = 1 := by simp [V3.norm, dot]
    unfold unitVector
    rw [this]
    ext <;> simp
  have hpos : 0 < δ := by rw [hδ]; norm_num
  have hsm : δ ≤ 1 / 10 ^ 6 := by rw [hδ]; norm_num
  refine ⟨Real.arctan (1 / δ), ⟨(10 ^ 14 - 1) / (10 ^ 14 + 1), 0, -δ⟩, 0, ⟨0, 0, 1⟩,
    ⟨add3 M3.one (smul3 (1 / δ) (outer ⟨(10 ^ 14 - 1) / (10 ^ 14 + 1), 0, -δ⟩ ⟨0, 0, 1⟩)),
      (-(1 / δ) * (0 : V3).dot ⟨0, 0, 1⟩) • ⟨(10 ^ 14 - 1) / (10 ^ 14 + 1), 0, -δ⟩, 0, 1⟩, ?_, ?_, ?_, ?_⟩
  · intro h
    have := congrArg V3.z h
    simp at this
    linarith
  · intro h
    have := congrArg V3.z h
    simp at this
  · simp only [shear, hu, hv, Real.tan_arctan]
    rw [if_neg]
    have e : (⟨0, 0, 1⟩ : V3).dot ⟨(10 ^ 14 - 1) / (10 ^ 14 + 1), 0, -δ⟩ = -δ := by simp [dot]
    rw [e, abs_neg, abs_of_pos hpos, gt_iff_lt, not_lt]
    exact hsm
  · simp [M3.det, add3, smul3, outer, M3.one]
    field_simp
    ring

/-- C94: the cell of an orthogonalization matrix: the columns have the given lengths and enclose the given
angles, the first one is in the half space of positive `x`, and the matrix is refused iff no such cell
exists. -/
theorem c94_cell (a b c α β γ : ℝ) (ha : 0 < a) (hb : 0 < b) (hc : 0 < c)
    (hα : 0 < α ∧ α < 180) (hβ : 0 < β ∧ β < 180) :
    (∀ m, orthogonalization a b c α β γ = some m →
      let v0 : V3 := m.a.mulVec ⟨1, 0, 0⟩
      let v1 : V3 := m.a.mulVec ⟨0, 1, 0⟩
      let v2 : V3 := m.a.mulVec ⟨0, 0, 1⟩
      v0.norm = a ∧ v1.norm = b ∧ v2.norm = c ∧
      v1.dot v2 = b * c * Real.cos (α * (Real.pi / 180)) ∧ v0.dot v2 = a * c * Real.cos (β * (Real.pi / 180)) ∧
      v0.dot v1 = a * b * Real.cos (γ * (Real.pi / 180)) ∧ 0 ≤ v0.triple v1 v2 ∧ m.b = 0 ∧ m.c = 0 ∧ m.d = 1) ∧
    (orthogonalization a b c α β γ = none ↔ ¬ ∃ v0 v1 v2 : V3,
      v0.norm = a ∧ v1.norm = b ∧ v2.norm = c ∧
      v1.dot v2 = b * c * Real.cos (α * (Real.pi / 180)) ∧ v0.dot v2 = a * c * Real.cos (β * (Real.pi / 180)) ∧
      v0.dot v1 = a * b * Real.cos (γ * (Real.pi / 180))) := by
  have hpi := Real.pi_pos
  have hsa : 0 < Real.sin (α * (Real.pi / 180)) :=
    Real.sin_pos_of_pos_of_lt_pi (mul_pos hα.1 (by positivity)) (by nlinarith [hα.2])
  have hsb : 0 < Real.sin (β * (Real.pi / 180)) :=
    Real.sin_pos_of_pos_of_lt_pi (mul_pos hβ.1 (by positivity)) (by nlinarith [hβ.2])
  have ga := Real.sin_sq_add_cos_sq (α * (Real.pi / 180))
  have gb := Real.sin_sq_add_cos_sq (β * (Real.pi / 180))
  simp only [orthogonalization, radians]
  obtain ⟨sa, esa⟩ : ∃ x, Real.sin (α * (Real.pi / 180)) = x := ⟨_, rfl⟩
  obtain ⟨ca, eca⟩ : ∃ x, Real.cos (α * (Real.pi / 180)) = x := ⟨_, rfl⟩
  obtain ⟨sb, esb⟩ : ∃ x, Real.sin (β * (Real.pi / 180)) = x := ⟨_, rfl⟩
  obtain ⟨cb, ecb⟩ : ∃ x, Real.cos (β * (Real.pi / 180)) = x := ⟨_, rfl⟩
  obtain ⟨cg, ecg⟩ : ∃ x, Real.cos (γ * (Real.pi / 180)) = x := ⟨_, rfl⟩
  simp only [esa, eca, esb, ecb, ecg] at hsa hsb ga gb ⊢
  obtain ⟨co, hco⟩ : ∃ co, (ca * cb - cg) / (sa * sb) = co := ⟨_, rfl⟩
  simp only [hco]
  rw [div_eq_iff (by positivity)] at hco
  have norm_eq : ∀ (v : V3) (x : ℝ), 0 < x → (v.norm = x ↔ v.dot v = x ^ 2) := by
    intro v x hx
    have h0 : 0 ≤ v.dot v := by simp only [dot]; nlinarith [mul_self_nonneg v.x, mul_self_nonneg v.y, mul_self_nonneg v.z]
    rw [V3.norm, Real.sqrt_eq_iff_mul_self_eq h0 hx.le, pow_two]
  have key : ∀ m, (if 1 - co * co < 0 then none else some (⟨⟨a * sb * √(1 - co * co), 0, 0, -a * sb * co, b * sa,
        0, a * cb, b * ca, c⟩, 0, 0, 1⟩ : H4)) = some m →
      let v0 : V3 := m.a.mulVec ⟨1, 0, 0⟩
      let v1 : V3 := m.a.mulVec ⟨0, 1, 0⟩
      let v2 : V3 := m.a.mulVec ⟨0, 0, 1⟩
      v0.norm = a ∧ v1.norm = b ∧ v2.norm = c ∧ v1.dot v2 = b * c * ca ∧ v0.dot v2 = a * c * cb ∧
      v0.dot v1 = a * b * cg ∧ 0 ≤ v0.triple v1 v2 ∧ m.b = 0 ∧ m.c = 0 ∧ m.d = 1 := by
    intro m hm
    split_ifs at hm with h0
    obtain rfl := Option.some.inj hm
    have hr := Real.mul_self_sqrt (not_lt.mp h0)
    have hr0 := Real.sqrt_nonneg (1 - co * co)
    generalize √(1 - co * co) = r at *
    dsimp only
    rw [norm_eq _ _ ha, norm_eq _ _ hb, norm_eq _ _ hc]
    simp only [M3.mulVec, dot, triple, cross, mul_zero, mul_one, add_zero, zero_add, zero_mul, and_self, and_true]
    refine ⟨?_, ?_, ?_, ?_, ?_, ?_, ?_⟩
    · linear_combination a ^ 2 * sb ^ 2 * hr + a ^ 2 * gb
    · linear_combination b ^ 2 * ga
    · ring
    · ring
    · ring
    · linear_combination a * b * hco
    · have : 0 ≤ a * sb * r * (b * sa * c) := by positivity
      linarith
  refine ⟨key, ?_⟩
  constructor
  · rintro hnone ⟨v0, v1, v2, h0, h1, h2, h12, h02, h01⟩
    split_ifs at hnone with hneg
    rw [norm_eq _ _ ha] at h0
    rw [norm_eq _ _ hb] at h1
    rw [norm_eq _ _ hc] at h2
    have hg : v0.triple v1 v2 ^ 2 = v0.dot v0 * v1.dot v1 * v2.dot v2 + 2 * v0.dot v1 * v1.dot v2 * v0.dot v2
        - v0.dot v0 * v1.dot v2 ^ 2 - v1.dot v1 * v0.dot v2 ^ 2 - v2.dot v2 * v0.dot v1 ^ 2 := by
      simp only [triple, cross, dot]; ring
    rw [h0, h1, h2, h12, h02, h01] at hg
    have hG : v0.triple v1 v2 ^ 2 = (a * b * c * (sa * sb)) ^ 2 * (1 - co * co) := by
      have e : (sa * sb) ^ 2 * (1 - co * co) = sa ^ 2 * sb ^ 2 - (ca * cb - cg) ^ 2 := by
        rw [hco]; ring
      have e' : sa ^ 2 * sb ^ 2 = (1 - ca ^ 2) * (1 - cb ^ 2) := by
        rw [show sa ^ 2 = 1 - ca ^ 2 by linarith, show sb ^ 2 = 1 - cb ^ 2 by linarith]
      rw [hg]
      linear_combination (-(a * b * c) ^ 2) * (e.trans (by rw [e']))
    have hp : 0 < (a * b * c * (sa * sb)) ^ 2 := by positivity
    nlinarith [sq_nonneg (v0.triple v1 v2), mul_neg_of_pos_of_neg hp hneg]
  · intro hno
    by_contra hne
    obtain ⟨m, hm⟩ := Option.ne_none_iff_exists'.mp hne
    obtain ⟨h0, h1, h2, h3, h4, h5, -⟩ := key m hm
    exact hno ⟨_, _, _, h0, h1, h2, h3, h4, h5⟩

/-- The cubic cell exists; a cell with the angles 60, 60 and 180 does not. -/
example : orthogonalization 1 1 1 90 90 90 ≠ none ∧ orthogonalization 1 1 1 60 60 180 = none := by
  have h90 : (90 : ℝ) * (Real.pi / 180) = Real.pi / 2 := by ring
  have h60 : (60 : ℝ) * (Real.pi / 180) = Real.pi / 3 := by ring
  have h180 : (180 : ℝ) * (Real.pi / 180) = Real.pi := by ring
  constructor
  · simp [orthogonalization, radians, h90]
  · simp only [orthogonalization, radians, h60, h180, Real.cos_pi_div_three, Real.sin_pi_div_three, Real.cos_pi]
    rw [if_pos]
    have h3 : √3 * √3 = (3 : ℝ) := Real.mul_self_sqrt (by norm_num)
    rw [show √3 / 2 * (√3 / 2) = (3 : ℝ) / 4 by linear_combination h3 / 4]
    norm_num

/-- C94: the angle between two vectors that are not zero, in `[0, π]`, is the one with `v·w = |v||w| cos`; it
does not depend on lengths or order; reversing a vector gives the supplement; undirected it is at most a right
angle and does not depend on the signs. -/
theorem c94_angle {v w : V3} (hv : v ≠ 0) (hw : w ≠ 0) :
    (0 ≤ angleBetween v w true ∧ angleBetween v w true ≤ Real.pi) ∧
    v.dot w = v.norm * w.norm * Real.cos (angleBetween v w true) ∧
    angleBetween v w true = angleBetween w v true ∧
    (∀ s t : ℝ, 0 < s → 0 < t → angleBetween (s • v) (t • w) true = angleBetween v w true) ∧
    angleBetween (-v) w true = Real.pi - angleBetween v w true ∧
    angleBetween v w false = min (angleBetween v w true) (Real.pi - angleBetween v w true) := by
  have hc : |v.dot w| ≤ v.norm * w.norm := by
    have e : (v.norm * w.norm) = √(v.dot v * w.dot w) := by
      rw [V3.norm, V3.norm, Real.sqrt_mul]
      simp only [dot]; nlinarith [mul_self_nonneg v.x, mul_self_nonneg v.y, mul_self_nonneg v.z]
    rw [e]
    apply Real.abs_le_sqrt
    have : v.dot v * w.dot w - v.dot w ^ 2 =
        (v.y * w.z - v.z * w.y) ^ 2 + (v.z * w.x - v.x * w.z) ^ 2 + (v.x * w.y - v.y * w.x) ^ 2 := by
      simp only [dot]; ring
    nlinarith [sq_nonneg (v.y * w.z - v.z * w.y), sq_nonneg (v.z * w.x - v.x * w.z),
      sq_nonneg (v.x * w.y - v.y * w.x)]
  have pv : 0 < v.norm := lt_of_le_of_ne (Real.sqrt_nonneg _) (fun h => hv (norm_eq_zero.mp h.symm))
  have pw : 0 < w.norm := lt_of_le_of_ne (Real.sqrt_nonneg _) (fun h => hw (norm_eq_zero.mp h.symm))
  have pp := mul_pos pv pw
  obtain ⟨c, hcd⟩ : ∃ c, v.dot w / (v.norm * w.norm) = c := ⟨_, rfl⟩
  have hc1 : |c| ≤ 1 := by rw [← hcd, abs_div, abs_of_pos pp, div_le_one pp]; exact hc
  have hcc := abs_le.mp hc1
  have hA : angleBetween v w true = Real.arccos c := by simp [angleBetween, hcd]
  have hneg : (-v).norm = v.norm := by simp [V3.norm, dot]
  have hsm : ∀ (s : ℝ) (x : V3), 0 < s → (s • x).norm = s * x.norm := by
    intro s x hs
    have : (s • x).dot (s • x) = s ^ 2 * x.dot x := by simp [dot]; ring
    rw [V3.norm, this, Real.sqrt_mul (sq_nonneg s), Real.sqrt_sq hs.le, ← V3.norm]
  refine ⟨?_, ?_, ?_, ?_, ?_, ?_⟩
  · rw [hA]; exact ⟨Real.arccos_nonneg c, Real.arccos_le_pi c⟩
  · rw [hA, Real.cos_arccos hcc.1 hcc.2, ← hcd]; field_simp
  · simp only [angleBetween, if_true]
    rw [show v.dot w = w.dot v by simp [dot]; ring, mul_comm]
  · intro s t hs ht
    simp only [angleBetween, if_true]
    rw [hsm s v hs, hsm t w ht, show (s • v).dot (t • w) = s * t * v.dot w by simp [dot]; ring]
    congr 1
    field_simp
  · rw [hA]
    simp only [angleBetween, if_true]
    rw [hneg, show (-v).dot w = -v.dot w by simp [dot]; ring, neg_div, hcd, Real.arccos_neg]
  · rw [hA]
    simp only [angleBetween, Bool.false_eq_true, if_false, hcd]
    rcases le_total 0 c with h | h
    · rw [abs_of_nonneg h, min_eq_left]
      rw [← Real.arccos_neg]
      exact Real.arccos_le_arccos (by linarith)
    · rw [abs_of_nonpos h, Real.arccos_neg, min_eq_right]
      rw [← Real.arccos_neg]
      exact Real.arccos_le_arccos (by linarith)

example : angleBetween ⟨1, 0, 0⟩ ⟨0, 3, 0⟩ true = angleBetween ⟨0, 3, 0⟩ ⟨1, 0, 0⟩ true :=
  (c94_angle (fun h => by simpa using congrArg V3.x h) (fun h => by simpa using congrArg V3.y h)).2.2.1

/-- C94: `is_same_transform` holds for matrices that differ by a factor, as long as the last entry is not
zero. -/
theorem c94_same (m : H4) (s : ℝ) (hs : s ≠ 0) (hd : m.d ≠ 0) :
    same m ⟨smul3 s m.a, s • m.b, s • m.c, s * m.d⟩ := by
  have c0 : ∀ x : ℝ, close x x := by intro x; unfold close; rw [sub_self, abs_zero]; positivity
  have e : (⟨smul3 s m.a, s • m.b, s • m.c, s * m.d⟩ : H4).unit = m.unit := by
    ext <;> simp [H4.unit, smul3] <;> field_simp
  refine ⟨hd, mul_ne_zero hs hd, ?_⟩
  rw [e]
  exact ⟨⟨c0 _, c0 _, c0 _, c0 _, c0 _, c0 _, c0 _, c0 _, c0 _⟩, ⟨c0 _, c0 _, c0 _⟩, ⟨c0 _, c0 _, c0 _⟩, c0 _⟩

example : same (translation ⟨1, 2, 3⟩) ⟨smul3 2 M3.one, (2 : ℝ) • ⟨1, 2, 3⟩, (2 : ℝ) • 0, 2 * 1⟩ :=
  c94_same (translation ⟨1, 2, 3⟩) 2 (by norm_num) (by simp [translation])

/-- C94, violation: no perspective clip matrix is the same transform as itself. -/
theorem c94_same_violation (l r b t n f : ℝ) (m : H4) (h : clip l r b t n f true = some m) : ¬ same m m := by
  simp only [clip, if_true] at h
  split_ifs at h
  obtain rfl := Option.some.inj h
  exact fun h => h.1 rfl

/-- Such a clip matrix exists. -/
example : ∃ m, clip (-1) 1 (-1) 1 1 3 true = some m ∧ ¬ same m m := by
  have h : clip (-1) 1 (-1) 1 1 3 true ≠ none := by
    rw [Ne, c94_clip_refused]; unfold tfEps; norm_num
  obtain ⟨m, hm⟩ := Option.ne_none_iff_exists'.mp h
  exact ⟨m, hm, c94_same_violation _ _ _ _ _ _ m hm⟩


end RayOpt
