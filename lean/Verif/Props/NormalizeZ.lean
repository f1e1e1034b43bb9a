import Verif.Model.NormalizeZ
import Verif.Props.Angles

/-!
Property C121: completing directions from two cosines.
-/

namespace RayOpt

open V3 Util

/-- C121: the result of `normalize_z` is the unit vector with the same first two entries that does not point backwards,
and there is no other. -/
theorem c121_complete (u v : V3) :
    normalizeZ u = some v ↔ v.x = u.x ∧ v.y = u.y ∧ 0 ≤ v.z ∧ v.dot v = 1 := by
  unfold normalizeZ
  constructor
  · intro h
    split_ifs at h with h0
    cases h
    refine ⟨rfl, rfl, Real.sqrt_nonneg _, ?_⟩
    have := Real.mul_self_sqrt (not_lt.mp h0)
    simp only [V3.dot]
    linarith
  · rintro ⟨hx, hy, hz, h⟩
    obtain ⟨x, y, z⟩ := v
    dsimp only at hx hy hz
    subst hx hy
    simp only [V3.dot] at h
    have h0 : 1 - (u.x ^ 2 + u.y ^ 2) = z ^ 2 := by linarith
    rw [h0, if_neg (not_lt.mpr (sq_nonneg z)), Real.sqrt_sq hz]

/-- C121: it fails for exactly the vectors whose first two entries are longer than one. -/
theorem c121_fails (u : V3) : normalizeZ u = none ↔ 1 < u.x ^ 2 + u.y ^ 2 := by
  unfold normalizeZ
  split_ifs with h
  · exact ⟨fun _ => by linarith, fun _ => rfl⟩
  · exact ⟨fun h' => h'.elim, fun h' => absurd (by linarith) h⟩

/-- C121: the third entry does not matter, and a second call changes nothing. -/
theorem c121_twice (x y z z' : ℝ) : normalizeZ ⟨x, y, z⟩ = normalizeZ ⟨x, y, z'⟩ ∧
    (normalizeZ ⟨x, y, z⟩).bind normalizeZ = normalizeZ ⟨x, y, z⟩ := by
  refine ⟨rfl, ?_⟩
  cases h : normalizeZ ⟨x, y, z⟩ with
  | none => rfl
  | some v =>
    obtain ⟨-, -, h3, h4⟩ := (c121_complete _ v).mp h
    exact (c121_complete v v).mpr ⟨rfl, rfl, h3, h4⟩

/-- C121: on the sines of slopes it gives the same forward direction as `sinarctan` with a positive sign. -/
theorem c121_sinarctan (x y v : ℝ) (hv : 0 < v) {a b c : ℝ} (h : sinarctanRow [x, y] (some v) = some [a, b, c])
    (z : ℝ) : normalizeZ ⟨a, b, z⟩ = some ⟨a, b, c⟩ := by
  simp only [sinarctanRow, sumsq, List.length_cons, List.length_nil, List.map_cons, List.map_nil, List.sum_cons,
    List.sum_nil, add_zero] at h
  norm_num [sign_pos hv] at h
  obtain ⟨rfl, rfl, rfl⟩ := h
  have hp := sq_pos_one x y
  have hs := Real.mul_self_sqrt hp.le
  have hq := Real.sqrt_pos.mpr hp
  refine (c121_complete _ _).mpr ⟨rfl, rfl, by positivity, ?_⟩
  simp only [V3.dot]
  field_simp
  linarith

/-- C121 is violated for directions that run backwards, as behind a mirror: they are turned forward. -/
theorem c121_backward_violation (u : V3) (hu : u.dot u = 1) (hz : u.z < 0) :
    normalizeZ u = some ⟨u.x, u.y, -u.z⟩ ∧ normalizeZ u ≠ some u := by
  have h : normalizeZ u = some ⟨u.x, u.y, -u.z⟩ :=
    (c121_complete _ _).mpr ⟨rfl, rfl, by simpa using hz.le, by simpa [V3.dot] using hu⟩
  refine ⟨h, fun h' => ?_⟩
  have := congrArg V3.z (Option.some.inj (h.symm.trans h'))
  dsimp only at this
  linarith

example : normalizeZ ⟨2 / 3, -(1 / 3), 7⟩ = some ⟨2 / 3, -(1 / 3), 2 / 3⟩ :=
  (c121_complete _ _).mpr ⟨rfl, rfl, by norm_num, by norm_num [V3.dot]⟩

example : normalizeZ ⟨1, 1, 0⟩ = none := (c121_fails _).mpr (by norm_num)

example : sinarctanRow [3 / 4, 0] (some 1) = some [3 / 5, 0, 4 / 5] := by
  have h : Real.sqrt (1 + (3 / 4) ^ 2) = 5 / 4 := by
    rw [show (1 : ℝ) + (3 / 4) ^ 2 = (5 / 4) ^ 2 by norm_num, Real.sqrt_sq (by norm_num)]
  simp [sinarctanRow, sumsq, h]
  norm_num

example : normalizeZ ⟨3 / 5, 0, -(4 / 5)⟩ = some ⟨3 / 5, 0, 4 / 5⟩ := by
  have := (c121_backward_violation ⟨3 / 5, 0, -(4 / 5)⟩ (by norm_num [V3.dot]) (by norm_num)).1
  simpa using this

end RayOpt
