import Verif.Model.Compiled
import Verif.Props.Homog
import Verif.Props.Euler

/-!
# C106: the compiled matrices are those of the Python module

When the extension can be imported, `rotation_matrix`, `euler_matrix`, `euler_from_matrix` and the other functions are
those of `_transformations.c`.
-/

namespace RayOpt.Compiled

open RayOpt V3

theorem sqrt_norm (v : V3) : √(v.x * v.x + v.y * v.y + v.z * v.z) = v.norm := by
  simp only [V3.norm, V3.dot]

theorem eps_pos : 0 < tfEps := by unfold tfEps; positivity

theorem ne_zero_of_long {v : V3} (h : ¬ v.norm < tfEps) : v.norm ≠ 0 := by
  intro h0; rw [h0] at h; exact h eps_pos

/-- `rotation_matrix` gives the matrix of the Python module, and raises `ValueError` exactly for directions shorter
than 2^-50. -/
theorem c106_rotation (angle : ℝ) (d : V3) (point : Option V3) :
    rotation angle d point =
      if d.norm < tfEps then .error .value else .ok (H4.rotation angle d point) := by
  unfold rotation
  dsimp only
  by_cases h : d.norm < tfEps
  · rw [if_pos h, if_pos (show √(d.x * d.x + d.y * d.y + d.z * d.z) < tfEps from h)]
  · rw [if_neg h, if_neg (show ¬ √(d.x * d.x + d.y * d.y + d.z * d.z) < tfEps from h)]
    simp only [sqrt_norm]
    cases point <;>
    · dsimp only
      congr 1
      ext <;> simp [mat, H4.rotation, rotationMatrix, RayOpt.unitVector, M3.mulVec, -mul_eq_mul_right_iff, -mul_eq_mul_left_iff] <;>
      ring

example : rotation 1 ⟨0, 0, 0⟩ none = .error .value := by
  rw [c106_rotation, if_pos]
  simp [V3.norm, V3.dot, eps_pos]

/-- `reflection_matrix`. -/
theorem c106_reflection (p n : V3) :
    reflection p n = if n.norm < tfEps then .error .value else .ok (H4.reflection p n) := by
  unfold reflection
  dsimp only
  by_cases h : n.norm < tfEps
  · rw [if_pos h, if_pos (show √(n.x * n.x + n.y * n.y + n.z * n.z) < tfEps from h)]
  · rw [if_neg h, if_neg (show ¬ √(n.x * n.x + n.y * n.y + n.z * n.z) < tfEps from h)]
    simp only [sqrt_norm]
    congr 1
    ext <;> simp [mat, H4.reflection, RayOpt.unitVector, H4.add3, H4.smul3, H4.outer, M3.one, V3.dot, -mul_eq_mul_right_iff, -mul_eq_mul_left_iff] <;>
      ring

/-- `identity_matrix` and `translation_matrix`. -/
theorem c106_translation (v : V3) : identity = H4.one ∧ translation v = H4.translation v := ⟨rfl, rfl⟩

/-- `projection_matrix`: the eye goes before the direction, as in the Python module. -/
theorem c106_projection (p n : V3) (direction perspective : Option V3) (pseudo : Bool) :
    projection p n direction perspective pseudo =
      if n.norm < tfEps then .error .value else
        match perspective, direction with
        | some e, _ => .ok (H4.perspective p n e pseudo)
        | none, some d =>
          if |d.dot (RayOpt.unitVector n)| < tfEps then .error .value else .ok (H4.parallel p n d)
        | none, none => .ok (H4.projection p n) := by
  unfold projection
  dsimp only
  by_cases h : n.norm < tfEps
  · rw [if_pos h, if_pos (show √(n.x * n.x + n.y * n.y + n.z * n.z) < tfEps from h)]
  · rw [if_neg h, if_neg (show ¬ √(n.x * n.x + n.y * n.y + n.z * n.z) < tfEps from h)]
    simp only [sqrt_norm]
    rcases perspective with _ | e
    · rcases direction with _ | d
      · dsimp only
        congr 1
        ext <;> simp [mat, H4.projection, RayOpt.unitVector, H4.add3, H4.smul3, H4.outer, M3.one, V3.dot, -mul_eq_mul_right_iff, -mul_eq_mul_left_iff] <;>
      ring
      · dsimp only
        have hs : d.x * (n.x / n.norm) + d.y * (n.y / n.norm) + d.z * (n.z / n.norm) =
            d.dot (RayOpt.unitVector n) := by
          simp [RayOpt.unitVector, V3.dot]; ring
        by_cases h : |d.dot (RayOpt.unitVector n)| < tfEps
        · rw [if_pos h, if_pos]
          rw [sqrt_norm, hs]
          exact ⟨(abs_lt.1 h).2, (abs_lt.1 h).1⟩
        · rw [if_neg h, if_neg (by rw [sqrt_norm, hs]; exact fun h' => h (abs_lt.2 ⟨h'.2, h'.1⟩)), hs]
          congr 1
          ext <;> simp [mat, H4.parallel, H4.add3, H4.smul3, H4.outer, M3.one, V3.dot] <;>
            simp [RayOpt.unitVector] <;> ring
    · dsimp only
      cases pseudo <;> simp only [if_true, Bool.false_eq_true, if_false] <;>
      · congr 1
        ext <;> simp [mat, H4.perspective, RayOpt.unitVector, H4.add3, H4.smul3, H4.outer, M3.one, V3.dot, -mul_eq_mul_right_iff, -mul_eq_mul_left_iff] <;>
      ring

/-- `clip_matrix`: the only difference is that a perspective with the near plane at exactly 2^-50 is accepted. -/
theorem c106_clip (l r b t n f : ℝ) (persp : Bool) (h : persp = true → n ≠ tfEps) :
    clip l r b t n f persp = match H4.clip l r b t n f persp with
      | none => .error .value
      | some m => .ok m := by
  unfold clip H4.clip
  split
  · rfl
  · cases persp
    · rfl
    · have h' := h rfl
      simp only [if_true]
      by_cases hn : n < tfEps
      · rw [if_pos hn, if_pos hn.le]
      · rw [if_neg hn, if_neg (fun hh => hn (lt_of_le_of_ne hh h'))]
        rfl

example : clip 0 2 0 2 1 3 true =
    .ok ⟨⟨-1, 0, 1, 0, -1, 1, 0, 0, -2⟩, ⟨0, 0, 3⟩, ⟨0, 0, -1⟩, 0⟩ := by
  rw [c106_clip _ _ _ _ _ _ _ (fun _ => by unfold tfEps; norm_num)]
  have he : ¬ (1 : ℝ) ≤ tfEps := by unfold tfEps; norm_num
  simp [H4.clip, he]
  norm_num

/-- `shear_matrix`. -/
theorem c106_shear (angle : ℝ) (d p n : V3) :
    shear angle d p n =
      if d.norm < tfEps ∨ n.norm < tfEps then .error .value else
        match H4.shear angle d p n with
        | none => .error .value
        | some m => .ok m := by
  unfold shear H4.shear
  dsimp only
  by_cases hd : d.norm < tfEps
  · rw [if_pos (show √(d.x * d.x + d.y * d.y + d.z * d.z) < tfEps from hd), if_pos (Or.inl hd)]
  rw [if_neg (show ¬ √(d.x * d.x + d.y * d.y + d.z * d.z) < tfEps from hd)]
  by_cases hn : n.norm < tfEps
  · rw [if_pos (show √(n.x * n.x + n.y * n.y + n.z * n.z) < tfEps from hn), if_pos (Or.inr hn)]
  rw [if_neg (show ¬ √(n.x * n.x + n.y * n.y + n.z * n.z) < tfEps from hn), if_neg (not_or.2 ⟨hd, hn⟩)]
  simp only [sqrt_norm]
  have hs : n.x / n.norm * (d.x / d.norm) + n.y / n.norm * (d.y / d.norm) + n.z / n.norm * (d.z / d.norm) =
      (RayOpt.unitVector n).dot (RayOpt.unitVector d) := by
    simp [RayOpt.unitVector, V3.dot]; ring
  by_cases h : |(RayOpt.unitVector n).dot (RayOpt.unitVector d)| > 1 / 10 ^ 6
  · rw [if_pos h, if_pos (by rw [hs]; exact h)]
  · rw [if_neg h, if_neg (by rw [hs]; exact h)]
    dsimp only
    congr 1
    ext <;> simp [mat, RayOpt.unitVector, H4.add3, H4.smul3, H4.outer, M3.one, V3.dot, -mul_eq_mul_right_iff, -mul_eq_mul_left_iff] <;>
      ring

/-- `scale_matrix` is that of the Python module without direction, and for unit directions. -/
theorem c106_scaling (f : ℝ) (origin direction : Option V3) (h : ∀ d ∈ direction, d.norm = 1) :
    scaling f origin direction = H4.scaling f origin direction := by
  rcases direction with _ | d
  · cases origin <;> ext <;> simp [scaling, mat, H4.scaling, H4.smul3, M3.one]
  · have h1 := h d rfl
    cases origin <;> ext <;>
      simp [scaling, mat, H4.scaling, H4.smul3, H4.add3, H4.outer, M3.one, RayOpt.unitVector, h1, V3.dot, -mul_eq_mul_right_iff, -mul_eq_mul_left_iff] <;>
      ring

example : scaling (-1) none (some ⟨0, 0, 1⟩) = H4.scaling (-1) none (some ⟨0, 0, 1⟩) :=
  c106_scaling _ _ _ (by intro d hd; rw [← Option.some.inj hd]; simp [V3.norm, V3.dot])

/-- A direction that is not a unit vector: asked to double lengths along z, the compiled `scale_matrix` multiplies them
by five. -/
theorem c106_scaling_violation :
    (scaling 2 none (some ⟨0, 0, 2⟩)).app (⟨0, 0, 1⟩, 1) = (⟨0, 0, 5⟩, 1) ∧
      (H4.scaling 2 none (some ⟨0, 0, 2⟩)).app (⟨0, 0, 1⟩, 1) = (⟨0, 0, 2⟩, 1) := by
  have hn : (⟨0, 0, 2⟩ : V3).norm = 2 := by
    simp only [V3.norm, V3.dot]
    rw [show (0 * 0 + 0 * 0 + 2 * 2 : ℝ) = 2 ^ 2 by norm_num]
    exact Real.sqrt_sq (by norm_num)
  constructor
  · refine Prod.ext ?_ ?_
    · ext <;> simp [scaling, mat, H4.app, M3.mulVec] <;> norm_num
    · simp [scaling, mat, H4.app, V3.dot]
  · refine Prod.ext ?_ ?_
    · ext <;> simp [H4.scaling, RayOpt.unitVector, hn, H4.app, M3.mulVec, H4.add3, H4.smul3, H4.outer, M3.one] <;>
        norm_num
    · simp [H4.scaling, H4.app, V3.dot]

/-- `orthogonalization_matrix` is that of the Python module, if it is not refused; where the Python function raises
because the cell does not exist, the compiled one returns NaN. -/
theorem c106_cell (l a : V3) (m : Option H4) (h : orthogonalization l a = .ok m) :
    m = H4.orthogonalization l.x l.y l.z a.x a.y a.z := by
  unfold orthogonalization at h
  simp only at h
  split at h
  · cases h
  · have hr : ∀ x, H4.radians x = x * (Real.pi / 180) := fun _ => rfl
    unfold H4.orthogonalization
    simp only [hr]
    split at h
    · rename_i h1
      rw [if_pos h1]
      exact (Except.ok.inj h).symm
    · rename_i h1
      rw [if_neg h1]
      exact (Except.ok.inj h).symm

/-- `is_same_transform`: the same answer if no last entry is between zero and 2^-50. -/
theorem c106_same (m n : H4) (hm : m.d = 0 ∨ tfEps ≤ |m.d|) (hn : n.d = 0 ∨ tfEps ≤ |n.d|) :
    same m n = true ↔ H4.same m n := by
  have z : ∀ x : ℝ, (x = 0 ∨ tfEps ≤ |x|) → (isZero x ↔ x = 0) := by
    intro x hx
    constructor
    · intro h
      rcases hx with hx | hx
      · exact hx
      · exact absurd (abs_lt.2 ⟨h.2, h.1⟩) (not_lt.2 hx)
    · rintro rfl
      exact ⟨eps_pos, by simpa using eps_pos⟩
  unfold same
  simp only [show toArray m 15 = m.d from rfl, show toArray n 15 = n.d from rfl, z _ hm, z _ hn]
  by_cases h1 : m.d = 0
  · simp [h1, H4.same]
  by_cases h2 : n.d = 0
  · simp [h2, H4.same]
  rw [if_neg (not_or.2 ⟨h1, h2⟩)]
  simp only [List.all_eq_true, List.mem_range, Bool.not_eq_true', decide_eq_false_iff_not, not_lt]
  have hc : ∀ x y : ℝ, (|x / m.d - y / n.d| ≤ 1 / 10 ^ 8 + 1 / 10 ^ 5 * |y / n.d|) ↔
      close (1 / m.d * x) (1 / n.d * y) := by
    intro x y
    unfold close
    rw [show 1 / m.d * x = x / m.d by ring, show 1 / n.d * y = y / n.d by ring]
  simp only [gt_iff_lt, not_lt, hc]
  constructor
  · intro h
    exact ⟨h1, h2, ⟨h 0 (by norm_num), h 1 (by norm_num), h 2 (by norm_num), h 4 (by norm_num), h 5 (by norm_num),
      h 6 (by norm_num), h 8 (by norm_num), h 9 (by norm_num), h 10 (by norm_num)⟩,
      ⟨h 3 (by norm_num), h 7 (by norm_num), h 11 (by norm_num)⟩,
      ⟨h 12 (by norm_num), h 13 (by norm_num), h 14 (by norm_num)⟩, h 15 (by norm_num)⟩
  · rintro ⟨-, -, ⟨a0, a1, a2, a4, a5, a6, a8, a9, a10⟩, ⟨b0, b1, b2⟩, ⟨c0, c1, c2⟩, d⟩ i hi
    interval_cases i
    exacts [a0, a1, a2, b0, a4, a5, a6, b1, a8, a9, a10, b2, c0, c1, c2, d]

example : same H4.one ⟨⟨2, 0, 0, 0, 2, 0, 0, 0, 2⟩, 0, 0, 2⟩ = true := by
  rw [c106_same _ _ (Or.inr (by simp [H4.one]; unfold tfEps; norm_num)) (Or.inr (by simp; unfold tfEps; norm_num))]
  norm_num [H4.same, H4.one, M3.one, H4.close3, close, H4.unit, H4.smul3, allclose]

set_option maxHeartbeats 1600000 in
/-- `euler_matrix` is that of the Python module for all axis sequences, and no entry is left uninitialised. -/
theorem c106_euler (junk : ℕ → ℝ) (ai aj ak : ℝ) (axes : Axes) :
    eulerMatrix junk ai aj ak axes = ⟨RayOpt.eulerMatrix ai aj ak axes, 0, 0, 1⟩ := by
  obtain ⟨f, p, r, s⟩ := axes
  fin_cases f <;> cases p <;> cases r <;> cases s <;> ext <;>
    simp [eulerMatrix, RayOpt.eulerMatrix, Axes.ijk, axisPos, nextAxis, next, ofArray, mat, store, Function.update]

/-- `euler_from_matrix` is that of the Python module. -/
theorem c106_euler_from (m : H4) (axes : Axes) : eulerFrom m axes = eulerFromMatrix m.a axes := by
  obtain ⟨f, p, r, s⟩ := axes
  fin_cases f <;> cases p <;> cases r <;> cases s <;> rfl

/-- The bytes of the letters of a name of an axis sequence. -/
def letters (e : Bool × (AxisName × AxisName × AxisName) × Axes) : List ℕ :=
  let c : AxisName → ℕ := fun | .x => 120 | .y => 121 | .z => 122
  [if e.1 then 115 else 114, c e.2.1.1, c e.2.1.2.1, c e.2.1.2.2]

/-- The 24 names have the tuples of the Python table on machines of both byte orders, and four integers are accepted
exactly if they are one of the tuples. -/
theorem c106_axes (little : Bool) :
    (∀ e ∈ axes2tuple, axis2tuple little (some (letters e)) = .ok e.2.2) ∧
      axis2tuple little none = .ok ⟨0, false, false, false⟩ ∧
      (∀ s : List ℕ, s.length ≠ 4 → axis2tuple little (some s) = .error .value) ∧
      ∀ (f p r s : ℤ) (a : Axes), axisSequence f p r s = .ok a ↔
        (f = a.first ∧ p = (if a.parity then 1 else 0) ∧ r = (if a.repetition then 1 else 0) ∧
          s = if a.frame then 1 else 0) := by
  refine ⟨by cases little <;> decide +kernel, rfl, fun s hs => by simp [axis2tuple, hs], ?_⟩
  intro f p r s a
  unfold axisSequence
  split
  · rename_i h
    constructor
    · intro h; cases h
    · rintro ⟨rfl, rfl, rfl, rfl⟩
      exfalso
      obtain ⟨f, p, r, s⟩ := a
      revert h
      fin_cases f <;> cases p <;> cases r <;> cases s <;> simp
  · rename_i h
    simp only [not_or, not_and_or, not_not] at h
    obtain ⟨hf, hp, hr, hs⟩ := h
    obtain ⟨f', p', r', s'⟩ := a
    rcases hf with rfl | rfl | rfl <;> rcases hp with rfl | rfl <;> rcases hr with rfl | rfl <;>
      rcases hs with rfl | rfl <;> fin_cases f' <;> cases p' <;> cases r' <;> cases s' <;> simp

/-- The four bytes of a number, the lowest first. -/
def digits (n : ℕ) : List ℕ := [n % 256, n / 256 % 256, n / 65536 % 256, n / 16777216]

theorem word_digits (s : List ℕ) (hs : s.length = 4) (hb : ∀ b ∈ s, b < 256) :
    s = digits (word true s) ∧ s.reverse = digits (word false s) := by
  obtain ⟨a, b, c, d, rfl⟩ : ∃ a b c d, s = [a, b, c, d] := by
    match s, hs with
    | [a, b, c, d], _ => exact ⟨a, b, c, d, rfl⟩
  have ha := hb a (by simp)
  have hb' := hb b (by simp)
  have hc := hb c (by simp)
  have hd := hb d (by simp)
  simp only [word, digits, if_true, Bool.false_eq_true, if_false, List.reverse_cons, List.reverse_nil, List.nil_append,
    List.cons_append, List.foldl_cons, List.foldl_nil, List.cons.injEq, and_true]
  constructor <;> refine ⟨?_, ?_, ?_, ?_⟩ <;> omega

/-- Besides the 24 names, the compiled function accepts only the names spelled backwards, on machines of both byte
orders. -/
theorem c106_axes_only (little : Bool) (s : List ℕ) (hs : s.length = 4) (hb : ∀ b ∈ s, b < 256) (a : Axes) :
    axis2tuple little (some s) = .ok a ↔
      ∃ e ∈ axes2tuple, e.2.2 = a ∧ (s = letters e ∨ s = (letters e).reverse) := by
  constructor
  · intro h
    unfold axis2tuple at h
    simp only [hs, if_true] at h
    split at h
    · rename_i c hc
      obtain ⟨hw, hm⟩ : _ ∧ _ := ⟨List.find?_some hc, List.mem_of_find?_eq_some hc⟩
      have hw' : word little s = c.1 ∨ word little s = c.2.1 := by simpa using hw
      have ha : c.2.2 = a := Except.ok.inj h
      have key : ∀ c ∈ cases, ∃ e ∈ axes2tuple, e.2.2 = c.2.2 ∧
          digits c.1 = letters e ∧ digits c.2.1 = (letters e).reverse := by decide +kernel
      obtain ⟨e, he, h1, h2, h3⟩ := key c hm
      refine ⟨e, he, h1.trans ha, ?_⟩
      obtain ⟨w1, w2⟩ := word_digits s hs hb
      cases little
      · rcases hw' with hw' | hw' <;> rw [hw'] at w2
        · right; rw [← h2, ← w2, List.reverse_reverse]
        · left; rw [h3] at w2; exact List.reverse_injective w2
      · rcases hw' with hw' | hw' <;> rw [hw'] at w1
        · left; rw [← h2]; exact w1
        · right; rw [← h3]; exact w1
    · cases h
  · rintro ⟨e, he, rfl, rfl | rfl⟩
    · exact (c106_axes little).1 e he
    · have : ∀ e ∈ axes2tuple, axis2tuple little (some (letters e).reverse) = .ok e.2.2 := by
        cases little <;> decide +kernel
      exact this e he

/-- The Python module has no axes `zyxs`; the compiled one takes them for `sxyz`. -/
theorem c106_axes_reversed_violation (little : Bool) :
    axis2tuple little (some [122, 121, 120, 115]) = .ok ⟨0, false, false, false⟩ ∧
      ∀ e ∈ axes2tuple, letters e ≠ [122, 121, 120, 115] := by
  refine ⟨by cases little <;> decide +kernel, by decide +kernel⟩

/-- Upper case letters, which the Python module accepts (`axes.lower()`), are refused. -/
theorem c106_axes_violation (little : Bool) : axis2tuple little (some [83, 88, 89, 90]) = .error .value := by
  cases little <;> decide +kernel

theorem norm_far {v : V3} (h : ¬ allclose v 0) : ¬ v.norm < tfEps := by
  intro hv
  apply h
  have hb : ∀ x : ℝ, |x| ≤ v.norm → close x 0 := by
    intro x hx
    unfold close
    rw [sub_zero, abs_zero, mul_zero, add_zero]
    refine hx.trans (hv.le.trans ?_)
    unfold tfEps
    norm_num
  exact ⟨hb _ (Real.abs_le_sqrt (by simp only [V3.dot]; nlinarith [sq_nonneg v.y, sq_nonneg v.z])),
    hb _ (Real.abs_le_sqrt (by simp only [V3.dot]; nlinarith [sq_nonneg v.x, sq_nonneg v.z])),
    hb _ (Real.abs_le_sqrt (by simp only [V3.dot]; nlinarith [sq_nonneg v.x, sq_nonneg v.y]))⟩

open Classical in
theorem rotation_safe (a : ℝ) (v : V3) :
    rotation a (if allclose v 0 then ⟨1, 0, 0⟩ else v) none =
      .ok (H4.rotation a (if allclose v 0 then ⟨1, 0, 0⟩ else v) none) := by
  rw [c106_rotation, if_neg]
  split
  · have : (⟨1, 0, 0⟩ : V3).norm = 1 := by simp [V3.norm, V3.dot]
    rw [this]
    unfold tfEps
    norm_num
  · rename_i h
    exact norm_far h

/-- The elements are placed the same with and without the extension, which never raises for them. -/
theorem c106_update (junk : ℕ → ℝ) (distance : ℝ) (direction angles : V3) :
    update junk distance direction angles = .ok (Transform.update distance direction angles) := by
  unfold update Transform.update
  dsimp only
  simp only [rotation_safe, c106_euler]
  split
  · rfl
  · by_cases hs : allclose (Transform.updDir distance direction) V3.ez
    · simp only [if_pos hs]
      rfl
    · simp only [if_neg hs]
      rfl

/-- The same for `align`. -/
theorem c106_align (junk : ℕ → ℝ) (t : Transform) (direction : V3) (mu : ℝ) :
    align junk t direction mu = .ok (t.align direction mu) := by
  unfold align
  dsimp only
  simp only [rotation_safe]
  show update junk _ _ _ = _
  rw [c106_update, c106_euler_from]
  rfl

end RayOpt.Compiled
