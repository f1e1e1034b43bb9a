import Verif.Lemmas.Vec
import Mathlib.Tactic.LinearCombination
import Mathlib.Tactic.FinCases

/-! Helper lemmas: rotation matrices and `TransformMixin.update`. -/

namespace RayOpt

open V3

namespace M3

/-- The 3x3 matrix with the given entries, rows and columns looked up through `p`. -/
def ofTable (e : Fin 3 → Fin 3 → ℝ) (p : ℕ → Fin 3) : M3 :=
  ⟨e (p 0) (p 0), e (p 0) (p 1), e (p 0) (p 2),
   e (p 1) (p 0), e (p 1) (p 1), e (p 1) (p 2),
   e (p 2) (p 0), e (p 2) (p 1), e (p 2) (p 2)⟩

theorem isRot_one : IsRot one :=
  ⟨by ext <;> simp [one, T, mul], by ext <;> simp [one, T, mul], by simp [one, det]⟩

theorem T_T (r : M3) : r.T.T = r := rfl

theorem mul_assoc (a b c : M3) : (a.mul b).mul c = a.mul (b.mul c) := by
  ext <;> simp [mul] <;> ring

theorem T_mul (a b : M3) : (a.mul b).T = b.T.mul a.T := by
  ext <;> simp [mul, T] <;> ring

theorem det_mul (a b : M3) : (a.mul b).det = a.det * b.det := by simp [mul, det]; ring

theorem det_T (a : M3) : a.T.det = a.det := by simp [T, det]; ring

theorem one_mul (a : M3) : one.mul a = a := by ext <;> simp [mul, one]

theorem IsRot.mul {a b : M3} (ha : IsRot a) (hb : IsRot b) : IsRot (a.mul b) := by
  refine ⟨?_, ?_, by rw [det_mul, ha.det1, hb.det1]; norm_num⟩
  · rw [T_mul, mul_assoc, ← mul_assoc b, hb.left, one_mul, ha.left]
  · rw [T_mul, mul_assoc, ← mul_assoc a.T, ha.right, one_mul, hb.right]

theorem IsRot.T {a : M3} (ha : IsRot a) : IsRot a.T :=
  ⟨ha.right, ha.left, by rw [det_T, ha.det1]⟩

theorem vecMul_vecMul (v : V3) (a b : M3) : vecMul (vecMul v a) b = vecMul v (a.mul b) := by
  ext <;> simp [vecMul, M3.mul] <;> ring

theorem vecMul_one (v : V3) : vecMul v one = v := by ext <;> simp [vecMul, one]

theorem IsRot.dot {a : M3} (ha : IsRot a) (v w : V3) :
    (vecMul v a).dot (vecMul w a) = v.dot w := by
  have h := ha.left
  simp only [M3.mul, M3.T, one, M3.mk.injEq] at h
  obtain ⟨h00, h01, h02, h10, h11, h12, h20, h21, h22⟩ := h
  simp only [V3.dot, vecMul]
  linear_combination v.x * w.x * h00 + v.x * w.y * h01 + v.x * w.z * h02 + v.y * w.x * h10
    + v.y * w.y * h11 + v.y * w.z * h12 + v.z * w.x * h20 + v.z * w.y * h21 + v.z * w.z * h22

/-- A rotation equals its cofactor matrix. -/
theorem IsRot.cofactor {a : M3} (ha : IsRot a) :
    a.a11 * a.a22 - a.a12 * a.a21 = a.a00 ∧ a.a12 * a.a20 - a.a10 * a.a22 = a.a01 ∧
    a.a10 * a.a21 - a.a11 * a.a20 = a.a02 ∧ a.a02 * a.a21 - a.a01 * a.a22 = a.a10 ∧
    a.a00 * a.a22 - a.a02 * a.a20 = a.a11 ∧ a.a01 * a.a20 - a.a00 * a.a21 = a.a12 ∧
    a.a01 * a.a12 - a.a02 * a.a11 = a.a20 ∧ a.a02 * a.a10 - a.a00 * a.a12 = a.a21 ∧
    a.a00 * a.a11 - a.a01 * a.a10 = a.a22 := by
  have h := ha.right
  have hd := ha.det1
  simp only [M3.mul, M3.T, one, M3.mk.injEq] at h
  obtain ⟨h00, h01, h02, h10, h11, h12, h20, h21, h22⟩ := h
  simp only [det] at hd
  -- cof(a)ᵀ a = det a, so cof(a) = det a * a because aᵀ a = 1
  have hl := ha.left
  simp only [M3.mul, M3.T, one, M3.mk.injEq] at hl
  obtain ⟨l00, l01, l02, l10, l11, l12, l20, l21, l22⟩ := hl
  refine ⟨?_, ?_, ?_, ?_, ?_, ?_, ?_, ?_, ?_⟩ <;> grind

theorem IsRot.cross {a : M3} (ha : IsRot a) (v w : V3) :
    (vecMul v a).cross (vecMul w a) = vecMul (v.cross w) a := by
  obtain ⟨c00, c01, c02, c10, c11, c12, c20, c21, c22⟩ := ha.cofactor
  ext <;> simp only [V3.cross, vecMul]
  · linear_combination (v.y * w.z - v.z * w.y) * c00 + (v.z * w.x - v.x * w.z) * c10
      + (v.x * w.y - v.y * w.x) * c20
  · linear_combination (v.y * w.z - v.z * w.y) * c01 + (v.z * w.x - v.x * w.z) * c11
      + (v.x * w.y - v.y * w.x) * c21
  · linear_combination (v.y * w.z - v.z * w.y) * c02 + (v.z * w.x - v.x * w.z) * c12
      + (v.x * w.y - v.y * w.x) * c22

end M3

theorem unitVector_unit {v : V3} (h : v ≠ 0) : (unitVector v).dot (unitVector v) = 1 := by
  have : v.norm ≠ 0 := fun h0 => h (norm_eq_zero.mp h0)
  rw [unitVector, dot_smul_smul, ← norm_sq]; field_simp

theorem rodrigues_isRot {c s : ℝ} {d : V3} (h1 : c ^ 2 + s ^ 2 = 1) (h2 : d.dot d = 1) :
    M3.IsRot ⟨c + d.x * d.x * (1 - c), d.x * d.y * (1 - c) - s * d.z,
     d.x * d.z * (1 - c) + s * d.y,
   d.y * d.x * (1 - c) + s * d.z, c + d.y * d.y * (1 - c),
     d.y * d.z * (1 - c) - s * d.x,
   d.z * d.x * (1 - c) - s * d.y, d.z * d.y * (1 - c) + s * d.x,
     c + d.z * d.z * (1 - c)⟩ := by
  simp only [V3.dot] at h2
  refine ⟨?_, ?_, ?_⟩
  · ext <;> simp only [M3.mul, M3.T, M3.one]
    · linear_combination (1 - d.x * d.x) * h1 + ((1 - c) ^ 2 * (d.x * d.x) + s ^ 2) * h2
    · linear_combination (- d.x * d.y) * h1 + ((1 - c) ^ 2 * (d.x * d.y)) * h2
    · linear_combination (- d.x * d.z) * h1 + ((1 - c) ^ 2 * (d.x * d.z)) * h2
    · linear_combination (- d.x * d.y) * h1 + ((1 - c) ^ 2 * (d.x * d.y)) * h2
    · linear_combination (1 - d.y * d.y) * h1 + ((1 - c) ^ 2 * (d.y * d.y) + s ^ 2) * h2
    · linear_combination (- d.y * d.z) * h1 + ((1 - c) ^ 2 * (d.y * d.z)) * h2
    · linear_combination (- d.x * d.z) * h1 + ((1 - c) ^ 2 * (d.x * d.z)) * h2
    · linear_combination (- d.y * d.z) * h1 + ((1 - c) ^ 2 * (d.y * d.z)) * h2
    · linear_combination (1 - d.z * d.z) * h1 + ((1 - c) ^ 2 * (d.z * d.z) + s ^ 2) * h2
  · ext <;> simp only [M3.mul, M3.T, M3.one]
    · linear_combination (1 - d.x * d.x) * h1 + ((1 - c) ^ 2 * (d.x * d.x) + s ^ 2) * h2
    · linear_combination (- d.x * d.y) * h1 + ((1 - c) ^ 2 * (d.x * d.y)) * h2
    · linear_combination (- d.x * d.z) * h1 + ((1 - c) ^ 2 * (d.x * d.z)) * h2
    · linear_combination (- d.x * d.y) * h1 + ((1 - c) ^ 2 * (d.x * d.y)) * h2
    · linear_combination (1 - d.y * d.y) * h1 + ((1 - c) ^ 2 * (d.y * d.y) + s ^ 2) * h2
    · linear_combination (- d.y * d.z) * h1 + ((1 - c) ^ 2 * (d.y * d.z)) * h2
    · linear_combination (- d.x * d.z) * h1 + ((1 - c) ^ 2 * (d.x * d.z)) * h2
    · linear_combination (- d.y * d.z) * h1 + ((1 - c) ^ 2 * (d.y * d.z)) * h2
    · linear_combination (1 - d.z * d.z) * h1 + ((1 - c) ^ 2 * (d.z * d.z) + s ^ 2) * h2
  · simp only [M3.det]
    have hq : d.x ^ 2 + d.y ^ 2 + d.z ^ 2 = 1 := by linarith
    have hexp : (c + (1 - c) * (d.x ^ 2 + d.y ^ 2 + d.z ^ 2))
        * (c ^ 2 + s ^ 2 * (d.x ^ 2 + d.y ^ 2 + d.z ^ 2)) = 1 := by
      rw [hq]; linear_combination h1
    linear_combination hexp

theorem rotationMatrix_isRot (angle : ℝ) {dir : V3} (h : dir ≠ 0) :
    (rotationMatrix angle dir).IsRot :=
  rodrigues_isRot (Real.cos_sq_add_sin_sq angle) (unitVector_unit h)

theorem M3.isRot_ofTable_rep (ci si cj sj ck sk : ℝ) (hi : ci ^ 2 + si ^ 2 = 1)
    (hj : cj ^ 2 + sj ^ 2 = 1) (hk : ck ^ 2 + sk ^ 2 = 1) (p : ℕ → Fin 3)
    (hp : p 0 ≠ p 1 ∧ p 1 ≠ p 2 ∧ p 0 ≠ p 2) :
    (ofTable (fun r c => match r, c with
        | 0, 0 => cj
        | 0, 1 => sj * si
        | 0, 2 => sj * ci
        | 1, 0 => sj * sk
        | 1, 1 => -cj * (si * sk) + ci * ck
        | 1, 2 => -cj * (ci * sk) - si * ck
        | 2, 0 => -sj * ck
        | 2, 1 => cj * (si * ck) + ci * sk
        | 2, 2 => cj * (ci * ck) - si * sk) p).IsRot := by
  obtain ⟨h01, h12, h02⟩ := hp
  unfold ofTable
  generalize p 0 = a at *
  generalize p 1 = b at *
  generalize p 2 = c at *
  fin_cases a <;> fin_cases b <;> first | exact absurd rfl h01 | skip
  all_goals fin_cases c <;> first | exact absurd rfl h12 | exact absurd rfl h02 | skip
  all_goals
    refine ⟨?_, ?_, ?_⟩
    · ext <;> simp only [M3.mul, M3.T, M3.one] <;> grind
    · ext <;> simp only [M3.mul, M3.T, M3.one] <;> grind
    · simp only [M3.det]; grind

theorem M3.isRot_ofTable_norep (ci si cj sj ck sk : ℝ) (hi : ci ^ 2 + si ^ 2 = 1)
    (hj : cj ^ 2 + sj ^ 2 = 1) (hk : ck ^ 2 + sk ^ 2 = 1) (p : ℕ → Fin 3)
    (hp : p 0 ≠ p 1 ∧ p 1 ≠ p 2 ∧ p 0 ≠ p 2) :
    (ofTable (fun r c => match r, c with
        | 0, 0 => cj * ck
        | 0, 1 => sj * (si * ck) - ci * sk
        | 0, 2 => sj * (ci * ck) + si * sk
        | 1, 0 => cj * sk
        | 1, 1 => sj * (si * sk) + ci * ck
        | 1, 2 => sj * (ci * sk) - si * ck
        | 2, 0 => -sj
        | 2, 1 => cj * si
        | 2, 2 => cj * ci) p).IsRot := by
  obtain ⟨h01, h12, h02⟩ := hp
  unfold ofTable
  generalize p 0 = a at *
  generalize p 1 = b at *
  generalize p 2 = c at *
  fin_cases a <;> fin_cases b <;> first | exact absurd rfl h01 | skip
  all_goals fin_cases c <;> first | exact absurd rfl h12 | exact absurd rfl h02 | skip
  all_goals
    refine ⟨?_, ?_, ?_⟩
    · ext <;> simp only [M3.mul, M3.T, M3.one] <;> grind
    · ext <;> simp only [M3.mul, M3.T, M3.one] <;> grind
    · simp only [M3.det]; grind

theorem axisPos_inj (axes : Axes) :
    axisPos axes.ijk 0 ≠ axisPos axes.ijk 1 ∧ axisPos axes.ijk 1 ≠ axisPos axes.ijk 2 ∧
      axisPos axes.ijk 0 ≠ axisPos axes.ijk 2 := by
  rcases axes with ⟨f, p, r, fr⟩
  fin_cases f <;> cases p <;> simp [axisPos, Axes.ijk, nextAxis]

theorem eulerMatrix_isRot (ai aj ak : ℝ) (axes : Axes) : (eulerMatrix ai aj ak axes).IsRot := by
  unfold eulerMatrix
  by_cases hr : axes.repetition
  · simp only [hr, if_true]
    exact M3.isRot_ofTable_rep _ _ _ _ _ _ (Real.cos_sq_add_sin_sq _) (Real.cos_sq_add_sin_sq _)
      (Real.cos_sq_add_sin_sq _) _ (axisPos_inj axes)
  · simp only [hr]
    exact M3.isRot_ofTable_norep _ _ _ _ _ _ (Real.cos_sq_add_sin_sq _)
      (Real.cos_sq_add_sin_sq _) (Real.cos_sq_add_sin_sq _) _ (axisPos_inj axes)

theorem ez_dot : ez.dot ez = 1 := by simp [ez, V3.dot]

theorem ex_ne : (⟨1, 0, 0⟩ : V3) ≠ 0 := by intro h; have := congrArg V3.x h; norm_num at this

namespace Transform

theorem updDir_unit (d : ℝ) (v : V3) : (updDir d v).dot (updDir d v) = 1 := by
  have hneg : ∀ a : V3, (-a).dot (-a) = a.dot a := by intro a; simp [V3.dot]
  have : ∀ u : V3, u.dot u = 1 → (if d < 0 then -u else u).dot (if d < 0 then -u else u) = 1 := by
    intro u hu; split
    · rw [hneg, hu]
    · exact hu
  unfold updDir
  apply this
  by_cases h : v.norm = 0
  · simp only [h, if_true]; rw [dot_smul_smul, ez_dot]; norm_num
  · simp only [h, if_false]; rw [dot_smul_smul, ← norm_sq]; field_simp

theorem close_self (a : ℝ) : close a a := by unfold close; simp; positivity

theorem updRot_isRot (u : V3) : (updRot u).IsRot := by
  unfold updRot
  apply rotationMatrix_isRot
  split
  · exact ex_ne
  · rename_i h
    intro h0; apply h; rw [h0]; exact ⟨close_self _, close_self _, close_self _⟩

theorem update_distance (d : ℝ) (v a : V3) : (update d v a).distance = |d| := by
  unfold update
  simp only
  have : (if d < 0 then -d else d) = |d| := by
    split
    · rw [abs_of_neg]; assumption
    · rw [abs_of_nonneg]; linarith
  split <;> exact this

theorem update_direction (d : ℝ) (v a : V3) : (update d v a).direction = updDir d v := by
  unfold update
  simp only
  split <;> rfl

theorem update_offset (d : ℝ) (v a : V3) :
    (update d v a).offset = (update d v a).distance • (update d v a).direction := by
  unfold update
  simp only
  split <;> rfl

theorem update_angles (d : ℝ) (v a : V3) : (update d v a).angles = a := by
  unfold update
  simp only
  split <;> rfl

theorem update_straight (d : ℝ) (v a : V3) :
    (update d v a).straight = allclose (updDir d v) ez := by
  unfold update
  simp only
  split <;> rfl

theorem update_normal (d : ℝ) (v a : V3) :
    (update d v a).normal = allclose a 0 := by
  unfold update
  simp only
  split <;> rfl

open Classical in
theorem update_rotAxis (d : ℝ) (v a : V3) : (update d v a).rotAxis =
    if allclose (updDir d v) ez then none else some (updRot (updDir d v)) := by
  unfold update
  simp only
  split
  · rename_i h; simp [h.2]
  · rfl

open Classical in
theorem update_rotNormal (d : ℝ) (v a : V3) :
    (update d v a).rotNormal =
      if allclose a 0 ∧ allclose (updDir d v) ez then none else
      let r := if allclose (updDir d v) ez then M3.one else M3.one.mul (updRot (updDir d v))
      some (if allclose a 0 then r else r.mul (eulerMatrix a.x a.y a.z Axes.rxyz)) := by
  unfold update
  simp only
  split <;> rfl

/-- The model keys rotation on the presence of a matrix; in the code the flags `not straight`
and `rotated` are used: they agree. -/
theorem update_flags (d : ℝ) (v a : V3) :
    ((update d v a).rotAxis = none ↔ (update d v a).straight) ∧
    ((update d v a).rotNormal = none ↔
      ((update d v a).normal ∧ (update d v a).straight)) := by
  rw [update_rotAxis, update_rotNormal, update_straight, update_normal]
  constructor
  · by_cases h : allclose (updDir d v) ez <;> simp [h]
  · by_cases h : allclose a 0 ∧ allclose (updDir d v) ez <;> simp [h]

theorem update_rotAxis_isRot (d : ℝ) (v a : V3) (r : M3)
    (h : (update d v a).rotAxis = some r) : r.IsRot := by
  rw [update_rotAxis] at h
  split at h
  · cases h
  · cases h; exact updRot_isRot _

open Classical in
theorem update_rotNormal_isRot (d : ℝ) (v a : V3) (r : M3)
    (h : (update d v a).rotNormal = some r) : r.IsRot := by
  rw [update_rotNormal] at h
  split at h
  · cases h
  · have : ∀ r0 : M3, r0.IsRot → (if allclose a 0 then r0 else
        r0.mul (eulerMatrix a.x a.y a.z Axes.rxyz)).IsRot := by
      intro r0 h0; split
      · exact h0
      · exact h0.mul (eulerMatrix_isRot _ _ _ _)
    rw [← Option.some.inj h]
    apply this
    split
    · exact M3.isRot_one
    · exact M3.isRot_one.mul (updRot_isRot _)

/-- Isometry facts of `_do_rotate`. -/
structure RotOK (r : Option M3) : Prop where
  rot : ∀ m, r = some m → m.IsRot

theorem doRotate_inv {r : Option M3} (h : RotOK r) (b : Bool) (v : V3) :
    doRotate r (!b) (doRotate r b v) = v := by
  cases r with
  | none => rfl
  | some m =>
    have := h.rot m rfl
    cases b
    · simp only [doRotate, Bool.not_false, if_true, Bool.false_eq_true, if_false]
      rw [M3.vecMul_vecMul, this.left, M3.vecMul_one]
    · simp only [doRotate, Bool.not_true, if_true, Bool.false_eq_true, if_false]
      rw [M3.vecMul_vecMul, this.right, M3.vecMul_one]

theorem doRotate_dot {r : Option M3} (h : RotOK r) (b : Bool) (v w : V3) :
    (doRotate r b v).dot (doRotate r b w) = v.dot w := by
  cases r with
  | none => rfl
  | some m =>
    have := h.rot m rfl
    cases b
    · exact this.dot v w
    · exact this.T.dot v w

theorem doRotate_cross {r : Option M3} (h : RotOK r) (b : Bool) (v w : V3) :
    (doRotate r b v).cross (doRotate r b w) = doRotate r b (v.cross w) := by
  cases r with
  | none => rfl
  | some m =>
    have := h.rot m rfl
    cases b
    · exact this.cross v w
    · exact this.T.cross v w

theorem doRotate_linear (r : Option M3) (b : Bool) (s : ℝ) (v w : V3) :
    doRotate r b (v + s • w) = doRotate r b v + s • doRotate r b w := by
  cases r with
  | none => rfl
  | some m =>
    cases b <;> ext <;> simp [doRotate, M3.vecMul] <;> ring

theorem update_ok_normal (d : ℝ) (v a : V3) : RotOK (update d v a).rotNormal :=
  ⟨update_rotNormal_isRot d v a⟩
theorem update_ok_axis (d : ℝ) (v a : V3) : RotOK (update d v a).rotAxis :=
  ⟨update_rotAxis_isRot d v a⟩

end Transform

end RayOpt
