import Verif.Model.Spot
import Verif.Props.LimitSystem
import Mathlib.Algebra.BigOperators.Group.List.Basic
import Mathlib.Tactic.LinearCombination
import Mathlib.Tactic.Module

/-!
Properties of the spot (C48, C49), of apertures sized by a ray bundle (C78) and of the optical path
difference (C77).
-/

namespace RayOpt.Spot

open RayOpt.Elem (Row)
open RayOpt.Glass (pyGet?)

/-! ## C48 -/

@[simp] theorem dot_def (a b : V2) : dot a b = a.1 * b.1 + a.2 * b.2 := rfl

theorem dot_self_nonneg (a : V2) : 0 ≤ dot a a := by
  rw [dot_def]; nlinarith [mul_self_nonneg a.1, mul_self_nonneg a.2]

theorem dot_self_eq_zero {a : V2} (h : dot a a = 0) : a = 0 := by
  rw [dot_def] at h
  have h1 : a.1 = 0 := by nlinarith [mul_self_nonneg a.1, mul_self_nonneg a.2]
  have h2 : a.2 = 0 := by nlinarith [mul_self_nonneg a.1, mul_self_nonneg a.2]
  exact Prod.ext h1 h2

/-- The rays extended by `t` along the axis. -/
def extend (l : List Good) (t : ℝ) : List (V2 × ℝ) := l.map fun g => (g.y + t • g.u, g.w)

theorem mean_extend (l : List Good) (t : ℝ) : mean ((extend l t).map Prod.fst) =
    mean (l.map Good.y) + t • mean (l.map Good.u) := by
  have h : ((extend l t).map Prod.fst).sum = (l.map Good.y).sum + t • (l.map Good.u).sum := by
    induction l with
    | nil => simp [extend]
    | cons g l ih =>
      simp only [extend, List.map_cons, List.sum_cons] at ih ⊢
      rw [ih]
      module
  unfold mean
  rw [h]
  simp only [extend, List.length_map]
  module

/-- Sum of the weighted squared distances after the shift `t`, as a polynomial. -/
theorem sum_extend (l : List Good) (t : ℝ) (m m' : V2) :
    ((extend l t).map fun p => dot (p.1 - (m + t • m')) (p.1 - (m + t • m')) * p.2).sum =
      (l.map fun g => g.w * dot (g.y - m) (g.y - m)).sum +
      2 * t * (l.map fun g => g.w * dot (g.y - m) (g.u - m')).sum +
      t ^ 2 * (l.map fun g => g.w * dot (g.u - m') (g.u - m')).sum := by
  induction l with
  | nil => simp [extend]
  | cons g l ih =>
    simp only [extend, List.map_cons, List.sum_cons] at ih ⊢
    rw [ih]
    simp only [dot_def, Prod.fst_sub, Prod.snd_sub, Prod.fst_add, Prod.snd_add, Prod.smul_fst,
      Prod.smul_snd, smul_eq_mul]
    ring

theorem sum_nonneg_of {α : Type*} (l : List α) (f : α → ℝ) (h : ∀ a ∈ l, 0 ≤ f a) :
    0 ≤ (l.map f).sum := by
  apply List.sum_nonneg
  intro x hx
  obtain ⟨a, ha, rfl⟩ := List.mem_map.mp hx
  exact h a ha

theorem sum_eq_zero_of {α : Type*} (l : List α) (f : α → ℝ) (h : ∀ a ∈ l, 0 ≤ f a)
    (h0 : (l.map f).sum = 0) : ∀ a ∈ l, f a = 0 := by
  induction l with
  | nil => simp
  | cons a l ih =>
    rw [List.map_cons, List.sum_cons] at h0
    have h1 := sum_nonneg_of l f fun b hb => h b (by simp [hb])
    have h2 := h a (by simp)
    intro b hb
    rcases List.mem_cons.mp hb with rfl | hb
    · linarith
    · exact ih (fun b hb => h b (by simp [hb])) (by linarith) b hb

/-- `rms` about the mean, for non-negative weights. -/
theorem rms_mean (l : List (V2 × ℝ)) (hw : ∀ p ∈ l, 0 ≤ p.2) :
    rms l true none = some (Real.sqrt (l.map fun p =>
      dot (p.1 - mean (l.map Prod.fst)) (p.1 - mean (l.map Prod.fst)) * p.2).sum) ∧
    0 ≤ (l.map fun p =>
      dot (p.1 - mean (l.map Prod.fst)) (p.1 - mean (l.map Prod.fst)) * p.2).sum := by
  have h := sum_nonneg_of l (fun p =>
    dot (p.1 - mean (l.map Prod.fst)) (p.1 - mean (l.map Prod.fst)) * p.2)
    fun p hp => mul_nonneg (dot_self_nonneg _) (hw p hp)
  refine ⟨?_, h⟩
  unfold rms center
  simp only [Option.bind_some, if_true]
  rw [if_neg (not_lt.mpr h)]

/-- C48: the shift of `refocus` minimises the spot: for non-negative weights the `rms` after the shift
is smaller than after any other shift of the plane, the rays being straight. -/
theorem c48_min (l : List Good) (t : ℝ) (h : shift l = some t) (hw : ∀ g ∈ l, 0 ≤ g.w) :
    ∃ a, rms (extend l t) true none = some a ∧
      ∀ s, s ≠ t → ∃ b, rms (extend l s) true none = some b ∧ a < b := by
  have hw' : ∀ s, ∀ p ∈ extend l s, 0 ≤ p.2 := by
    intro s p hp
    obtain ⟨g, hg, rfl⟩ := List.mem_map.mp hp
    exact hw g hg
  have key : ∀ s, (((extend l s).map fun p =>
      dot (p.1 - mean ((extend l s).map Prod.fst)) (p.1 - mean ((extend l s).map Prod.fst)) *
        p.2).sum) =
      (l.map fun g => g.w * dot (g.y - mean (l.map Good.y)) (g.y - mean (l.map Good.y))).sum +
      2 * s * (l.map fun g =>
        g.w * dot (g.y - mean (l.map Good.y)) (g.u - mean (l.map Good.u))).sum +
      s ^ 2 * (l.map fun g =>
        g.w * dot (g.u - mean (l.map Good.u)) (g.u - mean (l.map Good.u))).sum := fun s => by
    rw [mean_extend]
    exact sum_extend l s (mean (l.map Good.y)) (mean (l.map Good.u))
  unfold shift at h
  simp only at h
  split at h
  · cases h
  rename_i hb
  set A := (l.map fun g => g.w * dot (g.y - mean (l.map Good.y)) (g.u - mean (l.map Good.u))).sum
  set B := (l.map fun g => g.w * dot (g.u - mean (l.map Good.u)) (g.u - mean (l.map Good.u))).sum
    with hB
  have hBpos : 0 < B := lt_of_le_of_ne (sum_nonneg_of l _ fun g hg =>
    mul_nonneg (hw g hg) (dot_self_nonneg _)) (Ne.symm hb)
  have ht : t * B = -A := by
    have := Option.some.inj h
    rw [← this]
    field_simp
  obtain ⟨r1, r2⟩ := rms_mean _ (hw' t)
  refine ⟨_, r1, ?_⟩
  intro s hs
  obtain ⟨q1, q2⟩ := rms_mean _ (hw' s)
  refine ⟨_, q1, ?_⟩
  apply Real.sqrt_lt_sqrt r2
  rw [key t, key s]
  have h2 : 0 < (s - t) ^ 2 * B := by
    have : s - t ≠ 0 := sub_ne_zero.mpr hs
    positivity
  have hA : A = -(t * B) := by linarith
  rw [hA]
  nlinarith [h2]

/-- Without weights (`self.w` is `None`, all weights one) the minimised quantity is the plain root mean
square. -/
theorem rms_unweighted (l : List (V2 × ℝ)) (hw : ∀ p ∈ l, p.2 = 1) (ref : Option ℤ) :
    rms l false ref = (rms l true ref).map fun r => r / Real.sqrt l.length := by
  unfold rms
  cases center l ref with
  | none => rfl
  | some y0 =>
    simp only [Option.bind_some, Bool.false_eq_true, if_false, if_true]
    have h1 : (l.map fun p => dot (p.1 - y0) (p.1 - y0) * (1 / (l.length : ℝ))).sum =
        (l.map fun p => dot (p.1 - y0) (p.1 - y0)).sum / l.length := by
      rw [List.sum_map_mul_right]; ring
    have h2 : (l.map fun p => dot (p.1 - y0) (p.1 - y0) * p.2).sum =
        (l.map fun p => dot (p.1 - y0) (p.1 - y0)).sum := by
      congr 1
      apply List.map_congr_left
      intro p hp
      rw [hw p hp, mul_one]
    rw [h1, h2]
    have h3 := sum_nonneg_of l (fun p => dot (p.1 - y0) (p.1 - y0)) fun p _ => dot_self_nonneg _
    rw [if_neg (not_lt.mpr (div_nonneg h3 (Nat.cast_nonneg _))), if_neg (not_lt.mpr h3),
      Option.map_some, Real.sqrt_div h3]

/-- C48: exactly the bundles whose slopes all agree (positive weights) have no focus; the distance
becomes NaN for them. -/
theorem c48_collimated (l : List Good) (hw : ∀ g ∈ l, 0 < g.w) :
    shift l = none ↔ ∀ g ∈ l, ∀ g' ∈ l, g.u = g'.u := by
  unfold shift
  simp only
  set m := mean (l.map Good.u) with hm
  have hnn : ∀ g ∈ l, 0 ≤ g.w * dot (g.u - m) (g.u - m) := fun g hg =>
    mul_nonneg (hw g hg).le (dot_self_nonneg _)
  constructor
  · intro h
    split at h
    · rename_i hb
      have h0 := sum_eq_zero_of l _ hnn hb
      have h1 : ∀ g ∈ l, g.u = m := fun g hg => by
        have := h0 g hg
        have h2 : dot (g.u - m) (g.u - m) = 0 := by
          rcases mul_eq_zero.mp this with h | h
          · exact absurd h (hw g hg).ne'
          · exact h
        exact sub_eq_zero.mp (dot_self_eq_zero h2)
      intro g hg g' hg'
      rw [h1 g hg, h1 g' hg']
    · cases h
  · intro h
    rw [if_pos]
    apply List.sum_eq_zero
    intro x hx
    obtain ⟨g, hg, rfl⟩ := List.mem_map.mp hx
    have hmean : m = g.u := by
      have hrep : l.map Good.u = List.replicate l.length g.u := by
        rw [List.eq_replicate_iff]
        refine ⟨by simp, ?_⟩
        intro b hb
        obtain ⟨g', hg', rfl⟩ := List.mem_map.mp hb
        exact h g' hg' g hg
      rw [hm, mean, hrep, List.length_replicate, List.sum_replicate, ← Nat.cast_smul_eq_nsmul ℝ,
        smul_smul, inv_mul_cancel₀, one_smul]
      have : l.length ≠ 0 := by
        rintro h0
        rw [List.length_eq_zero_iff] at h0
        rw [h0] at hg
        cases hg
      exact_mod_cast this
    rw [hmean]
    simp

/-- Sum of the weighted squared distances from the *weighted* mean (one dimension): the usual spot of
a bundle with weights. -/
noncomputable def weightedSpread (l : List (V2 × ℝ)) : ℝ :=
  let W := (l.map Prod.snd).sum
  let m : V2 := W⁻¹ • (l.map fun p => p.2 • p.1).sum
  (l.map fun p => p.2 * dot (p.1 - m) (p.1 - m)).sum

/-- C48, violation: for weights that differ the spot about its own (weighted) centroid is not minimal
at the shift of `refocus`, which centres with the unweighted mean. -/
theorem c48_weighted_violation :
    let l : List Good := [⟨(1, 0), (0, 0), 1⟩, ⟨(0, 0), (1, 0), 1⟩, ⟨(0, 0), (-1, 0), 2⟩]
    shift l = some (-1 / 9) ∧
      weightedSpread (extend l (-1 / 11)) < weightedSpread (extend l (-1 / 9)) := by
  constructor
  · norm_num [shift, mean]
  · norm_num [weightedSpread, extend]

theorem goods_append (a b : List (Row × ℝ)) :
    goods (a ++ b) = (goods a).bind fun x => (goods b).map (x ++ ·) := by
  induction a with
  | nil => simp [goods]
  | cons p a ih =>
    obtain ⟨r, w⟩ := p
    simp only [List.cons_append, goods]
    cases slope r.i with
    | none => exact ih
    | some u =>
      cases r.y with
      | none => rfl
      | some y =>
        simp only [Option.bind_some, ih]
        cases goods a <;> cases goods b <;> rfl

/-- C48: rays that did not make it to the last surface do not matter to `refocus`. -/
theorem c48_missing (sys : List Elem) (a b : List (Row × ℝ)) (r : Row) (w : ℝ) (h : r.i = none) :
    refocus sys (a ++ (r, w) :: b) = refocus sys (a ++ b) := by
  have h1 : goods ((r, w) :: b) = goods b := by
    simp only [goods, h, slope]
    rfl
  have h2 : goods (a ++ (r, w) :: b) = goods (a ++ b) := by
    rw [goods_append, goods_append, h1]
  unfold refocus
  rw [h2]

example (e : Elem) (r : Row) : refocus [e] ([(r, 1)] ++ [(⟨none, none, 1, none, none⟩, 2)]) =
    refocus [e] ([(r, 1)] ++ []) := c48_missing [e] [(r, 1)] [] _ 2 rfl

/-! ### The refocused trace -/

section trace

variable (nwt : Shape.NewtonFn) (l : ℝ)

/-- The ray behind a list of elements. -/
noncomputable def after (es : List Elem) (r : Elem.Ray) : Elem.Ray :=
  es.foldl (fun r e => (Elem.step nwt l false e r).2) r

theorem rows_concat (es : List Elem) (e : Elem) (r : Elem.Ray) :
    Sys.rows nwt l false (es ++ [e]) r =
      Sys.rows nwt l false es r ++ [(Elem.step nwt l false e (after nwt l es r)).1] := by
  induction es generalizing r with
  | nil => rfl
  | cons e' es ih => simp [Sys.rows, ih, after]

/-- The rows of the last surface of a bundle of rays with weights. -/
noncomputable def imageRows (sys : List Elem) (b : List (Elem.Ray × ℝ)) : List (Row × ℝ) :=
  b.filterMap fun p => ((Sys.rows nwt l false sys p.1).getLast?).map (·, p.2)

theorem imageRows_concat (es : List Elem) (e : Elem) (b : List (Elem.Ray × ℝ)) :
    imageRows nwt l (es ++ [e]) b =
      b.map fun p => ((Elem.step nwt l false e (after nwt l es p.1)).1, p.2) := by
  unfold imageRows
  rw [← List.filterMap_eq_map']
  congr 1
  funext p
  rw [rows_concat]
  simp

/-- The spot of a bundle on the last surface: `rms()` after tracing the system. -/
noncomputable def spot (sys : List Elem) (b : List (Elem.Ray × ℝ)) : Option ℝ :=
  (allSome ((imageRows nwt l sys b).map fun p => p.1.y.map fun y => (xy y, p.2))).bind
    (rms · true none)

/-- A reference plane or a flat surface. -/
def IsPlane (e : Elem) : Prop := ∀ s, e.shape = some s → s.curvature = 0 ∧ s.aspherics = none

/-- Where a ray meets the plane at `z`, the second coordinate reversed if `s = -1`. -/
noncomputable def meet (s z : ℝ) (Y U : V3) : V2 :=
  (Y.x + (z - Y.z) / U.z * U.x, s * (Y.y + (z - Y.z) / U.z * U.y))

theorem step_i (clp : Bool) (e : Elem) (r : Elem.Ray) :
    (Elem.step nwt l clp e r).1.i = r.u.map e.tf.toNormal := rfl

theorem step_y (clp : Bool) (e : Elem) (r : Elem.Ray) : (Elem.step nwt l clp e r).1.y =
    (r.y.map fun y => e.tf.toNormal (y - e.tf.offset)).bind fun y =>
      (r.u.map e.tf.toNormal).bind fun u => (e.intercept nwt y u).map fun t => y + t • u := by
  unfold Elem.step Elem.propagate
  cases hy : r.y with
  | none => cases e.shape <;> simp
  | some y =>
    cases hu : r.u with
    | none => cases e.shape <;> simp
    | some u => cases e.shape <;> simp

theorem intercept_plane {e : Elem} (h : IsPlane e) (y u : V3) :
    e.intercept nwt y u = Shape.interceptPlane y u := by
  unfold Elem.intercept
  cases hs : e.shape with
  | none => rfl
  | some s =>
    obtain ⟨h1, h2⟩ := h s hs
    simp [Shape.intercept, h2, Shape.interceptConic, h1]

theorem plane_row {e : Elem} (h : IsPlane e) {s : ℝ} (ha : OnAxis s e.tf) (Y U : V3) (n : ℝ) :
    (Elem.step nwt l false e ⟨some Y, some U, n⟩).1.y.map xy =
      if U.z = 0 then none else some (meet s (s * e.tf.distance) Y U) := by
  have hs : s * s = 1 := by rcases ha.sign with h | h <;> simp [h]
  have hs0 : s ≠ 0 := by rcases ha.sign with h | h <;> simp [h]
  rw [step_y]
  simp only [Option.map_some, Option.bind_some, intercept_plane nwt h, Shape.interceptPlane, ha.into,
    ha.off, V3.turn]
  by_cases hu : U.z = 0
  · simp [hu]
  · have : s * U.z ≠ 0 := mul_ne_zero hs0 hu
    rw [if_neg this, if_neg hu]
    simp only [Option.map_some, xy, V3.add_x, V3.add_y, V3.smul_x, V3.smul_y, V3.sub_x, V3.sub_y,
      V3.sub_z, meet]
    congr 1
    ext
    · simp only; field_simp; ring
    · simp only; field_simp; ring

theorem update_neg {D : ℝ} (hD : D < 0) (v a : V3) (hv : v ≠ 0) :
    Transform.update D v a = Transform.update (-D) (-v) a := by
  have hdir : Transform.updDir D v = Transform.updDir (-D) (-v) := by
    have hn : (-v).norm = v.norm := by simp [V3.norm, V3.dot]
    have hv' : v.norm ≠ 0 := by rwa [ne_eq, V3.norm_eq_zero]
    simp only [Transform.updDir, hn, if_neg hv', if_pos hD, if_neg (by linarith : ¬-D < 0)]
    ext <;> simp
  unfold Transform.update
  rw [hdir, if_pos hD, if_neg (by linarith : ¬-D < 0)]

/-- An axial element moved by `t`: it is still axial, turned over if the distance becomes negative,
and its plane is at the distance moved by `t` in the old sense. -/
theorem moveElem_axial {e : Elem} {d s : ℝ} (htf : e.tf = Transform.update d ⟨0, 0, s⟩ 0)
    (hd : 0 ≤ d) (hs : s = 1 ∨ s = -1) (t : ℝ) :
    ∃ s', (s' = s ∨ s' = -s) ∧ OnAxis s' (moveElem e t).tf ∧
      s' * (moveElem e t).tf.distance = s * (d + t) := by
  have hne : (⟨0, 0, s⟩ : V3) ≠ 0 := by
    intro h
    have := congrArg V3.z h
    rcases hs with h | h <;> simp [h] at this
  have hdir : Transform.updDir d ⟨0, 0, s⟩ = ⟨0, 0, s⟩ := by
    have hn : V3.norm ⟨0, 0, s⟩ = 1 := V3.norm_eq_one (by rcases hs with h | h <;> simp [V3.dot, h])
    simp only [Transform.updDir, hn, if_neg (one_ne_zero), if_neg hd.not_gt]
    ext <;> simp
  have hm : (moveElem e t).tf = Transform.update (d + t) ⟨0, 0, s⟩ 0 := by
    simp only [moveElem, Transform.setDistance, htf, Transform.update_distance,
      Transform.update_direction, Transform.update_angles, hdir, abs_of_nonneg hd]
  by_cases hD : d + t < 0
  · refine ⟨-s, .inr rfl, ?_, ?_⟩
    · rw [hm, update_neg hD _ _ hne]
      have : -(⟨0, 0, s⟩ : V3) = ⟨0, 0, -s⟩ := by ext <;> simp
      rw [this]
      exact onAxis_update _ _ (by linarith) (by rcases hs with h | h <;> simp [h])
    · rw [hm, Transform.update_distance, abs_of_neg hD]; ring
  · refine ⟨s, .inl rfl, ?_, ?_⟩
    · rw [hm]; exact onAxis_update _ _ (not_lt.mp hD) hs
    · rw [hm, Transform.update_distance, abs_of_nonneg (not_lt.mp hD)]

/-- Reverse the second coordinate if `s = -1`. -/
def turn2 (s : ℝ) (p : V2 × ℝ) : V2 × ℝ := ((p.1.1, s * p.1.2), p.2)

theorem sum_turn2 (s : ℝ) (l : List (V2 × ℝ)) : ((l.map (turn2 s)).map Prod.fst).sum =
    ((l.map Prod.fst).sum.1, s * (l.map Prod.fst).sum.2) := by
  induction l with
  | nil => simp; rfl
  | cons p l ih =>
    simp only [List.map_cons, List.sum_cons, ih, turn2]
    ext
    · simp
    · simp only [Prod.snd_add]; ring

theorem rms_turn2 {s : ℝ} (hs : s = 1 ∨ s = -1) (l : List (V2 × ℝ)) :
    rms (l.map (turn2 s)) true none = rms l true none := by
  have hss : s * s = 1 := by rcases hs with h | h <;> simp [h]
  have hm : mean ((l.map (turn2 s)).map Prod.fst) =
      ((mean (l.map Prod.fst)).1, s * (mean (l.map Prod.fst)).2) := by
    unfold mean
    rw [sum_turn2]
    ext
    · simp
    · simp only [List.length_map, Prod.smul_snd, smul_eq_mul]; ring
  have : ((l.map (turn2 s)).map fun p => dot (p.1 - mean ((l.map (turn2 s)).map Prod.fst))
      (p.1 - mean ((l.map (turn2 s)).map Prod.fst)) * p.2) =
      l.map fun p => dot (p.1 - mean (l.map Prod.fst)) (p.1 - mean (l.map Prod.fst)) * p.2 := by
    rw [List.map_map]
    apply List.map_congr_left
    intro p _
    rw [hm]
    simp only [Function.comp, turn2, dot_def, Prod.fst_sub, Prod.snd_sub]
    linear_combination (p.1.2 - (mean (l.map Prod.fst)).2) ^ 2 * p.2 * hss
  unfold rms center
  simp only [Option.bind_some, if_true]
  rw [this]

theorem allSome_map_some {α β : Type*} (l : List α) (f : α → β) :
    allSome (l.map fun a => some (f a)) = some (l.map f) := by
  induction l with
  | nil => rfl
  | cons a l ih => simp [allSome, ih]

/-- C48 for traces: in a system ending in a flat surface across the axis which every ray of the bundle
reaches, `refocus` moves that surface to the position with the smallest spot: the spot traced after
any other shift, to either side, is larger. -/
theorem c48_refocus (es : List Elem) (e : Elem) (hp : IsPlane e) (d s : ℝ)
    (htf : e.tf = Transform.update d ⟨0, 0, s⟩ 0) (hd : 0 ≤ d) (hs : s = 1 ∨ s = -1)
    (b : List (Elem.Ray × ℝ)) (hw : ∀ p ∈ b, 0 ≤ p.2)
    (hy : ∀ p ∈ imageRows nwt l (es ++ [e]) b, p.1.y ≠ none) (sys' : List Elem)
    (h : refocus (es ++ [e]) (imageRows nwt l (es ++ [e]) b) = some sys') :
    ∃ t a, sys' = es ++ [moveElem e t] ∧ spot nwt l sys' b = some a ∧
      ∀ t', t' ≠ t → ∃ a', spot nwt l (es ++ [moveElem e t']) b = some a' ∧ a < a' := by
  have hax : OnAxis s e.tf := by rw [htf]; exact onAxis_update d s hd hs
  have hdist : e.tf.distance = d := by rw [htf, Transform.update_distance, abs_of_nonneg hd]
  have hss : s * s = 1 := by rcases hs with h | h <;> simp [h]
  have hs0 : s ≠ 0 := by rcases hs with h | h <;> simp [h]
  -- the rays before the last surface
  have hray : ∀ p ∈ b, ∃ Y U n, after nwt l es p.1 = ⟨some Y, some U, n⟩ ∧ U.z ≠ 0 := by
    intro p hpb
    have h1 := hy ((Elem.step nwt l false e (after nwt l es p.1)).1, p.2) (by
      rw [imageRows_concat]; exact List.mem_map_of_mem hpb)
    simp only at h1
    generalize after nwt l es p.1 = r at h1
    obtain ⟨y, u, n⟩ := r
    cases y with
    | none => simp [step_y] at h1
    | some Y =>
      cases u with
      | none => simp [step_y] at h1
      | some U =>
        refine ⟨Y, U, n, rfl, ?_⟩
        intro hU
        have := plane_row nwt l hp hax Y U n
        rw [if_pos hU] at this
        exact h1 (Option.map_eq_none_iff.mp this)
  -- the good rays
  let good : Elem.Ray × ℝ → Good := fun p =>
    match after nwt l es p.1 with
    | ⟨some Y, some U, _⟩ => ⟨meet s (s * d) Y U, (s * U.x / U.z, U.y / U.z), p.2⟩
    | _ => ⟨0, 0, p.2⟩
  have hgood : ∀ p Y U n, after nwt l es p.1 = ⟨some Y, some U, n⟩ →
      good p = ⟨meet s (s * d) Y U, (s * U.x / U.z, U.y / U.z), p.2⟩ := by
    intro p Y U n h
    simp only [good, h]
  have hgoods : ∀ b' : List (Elem.Ray × ℝ), (∀ p ∈ b', p ∈ b) →
      goods (imageRows nwt l (es ++ [e]) b') = some (b'.map good) := by
    intro b' hb'
    rw [imageRows_concat]
    induction b' with
    | nil => rfl
    | cons p b' ih =>
      obtain ⟨Y, U, n, hr, hU⟩ := hray p (hb' p (by simp))
      have hrow := plane_row nwt l hp hax Y U n
      rw [if_neg hU, Option.map_eq_some_iff] at hrow
      obtain ⟨y, hy1, hy2⟩ := hrow
      rw [List.map_cons, goods, step_i, hr]
      have hsl : slope (Option.map e.tf.toNormal (some U)) = some (s * U.x / U.z, U.y / U.z) := by
        simp only [slope, Option.map_some, Option.bind_some, hax.into, V3.turn]
        rw [if_neg (mul_ne_zero hs0 hU)]
        congr 1
        ext
        · simp only; field_simp; linear_combination -(U.x) * hss
        · simp only; field_simp
      simp only at hsl ⊢
      rw [hsl]
      simp only
      rw [hy1, ih fun q hq => hb' q (by simp [hq])]
      simp only [Option.bind_some, Option.map_some, List.map_cons, hgood p Y U n hr, hy2, hdist]
  -- the spot after a shift
  have hspot : ∀ t, spot nwt l (es ++ [moveElem e t]) b = rms (extend (b.map good) t) true none := by
    intro t
    obtain ⟨s', hs', hax', hd'⟩ := moveElem_axial htf hd hs t
    have hsig : s' * s = 1 ∨ s' * s = -1 := by
      rcases hs' with rfl | rfl
      · exact .inl hss
      · right; linarith
    have hpl : IsPlane (moveElem e t) := hp
    unfold spot
    rw [imageRows_concat, List.map_map]
    have hl : (b.map ((fun p : Row × ℝ => p.1.y.map fun y => (xy y, p.2)) ∘ fun p =>
        ((Elem.step nwt l false (moveElem e t) (after nwt l es p.1)).1, p.2))) =
        b.map fun p => some (turn2 (s' * s) ((good p).y + t • (good p).u, (good p).w)) := by
      apply List.map_congr_left
      intro p hpb
      obtain ⟨Y, U, n, hr, hU⟩ := hray p hpb
      have hrow := plane_row nwt l hpl hax' Y U n
      rw [if_neg hU, Option.map_eq_some_iff] at hrow
      obtain ⟨y, hy1, hy2⟩ := hrow
      simp only [Function.comp, hr, hy1, Option.map_some, hy2, hd', hgood p Y U n hr, turn2]
      congr 1
      ext
      · simp only [meet, Prod.fst_add, Prod.smul_fst, smul_eq_mul]; field_simp; ring
      · simp only [meet, Prod.snd_add, Prod.smul_snd, smul_eq_mul]
        field_simp
        linear_combination (-(s' * (U.z * Y.y + U.y * (s * d - Y.z)))) * hss
      · rfl
    rw [hl, allSome_map_some, Option.bind_some]
    have : (b.map fun p => turn2 (s' * s) ((good p).y + t • (good p).u, (good p).w)) =
        (extend (b.map good) t).map (turn2 (s' * s)) := by
      simp [extend, Function.comp_def]
    rw [this, rms_turn2 hsig]
  unfold refocus at h
  rw [hgoods b fun _ h => h] at h
  simp only [List.getLast?_append, List.getLast?_singleton, Option.bind_some, Option.some_or,
    List.dropLast_concat, Option.map_eq_some_iff] at h
  obtain ⟨t, ht, rfl⟩ := h
  have hwg : ∀ g ∈ b.map good, 0 ≤ g.w := by
    intro g hg
    obtain ⟨p, hpb, rfl⟩ := List.mem_map.mp hg
    obtain ⟨Y, U, n, hr, hU⟩ := hray p hpb
    rw [hgood p Y U n hr]
    exact hw p hpb
  obtain ⟨a, h1, h2⟩ := c48_min _ t ht hwg
  refine ⟨t, a, rfl, by rw [hspot, h1], ?_⟩
  intro t' ht'
  rw [hspot]
  exact h2 t' ht'

end trace

/-- Turned over by its angles. -/
theorem turned_toNormal (d : ℝ) (hd : 0 ≤ d) (v : V3) :
    (Transform.update d V3.ez ⟨Real.pi, 0, 0⟩).toNormal v = ⟨v.x, -v.y, -v.z⟩ := by
  have hdir : Transform.updDir d V3.ez = V3.ez := by
    have hn : V3.norm V3.ez = 1 := V3.norm_eq_one (by simp [V3.dot, V3.ez])
    simp only [Transform.updDir, hn, if_neg (one_ne_zero), if_neg hd.not_gt]
    ext <;> simp
  have hcl : allclose V3.ez V3.ez :=
    ⟨Transform.close_self _, Transform.close_self _, Transform.close_self _⟩
  have hns : ¬allclose ⟨Real.pi, 0, 0⟩ 0 := by
    rintro ⟨h, _, _⟩
    simp only [close, V3.zero_x, sub_zero, abs_zero, mul_zero, add_zero] at h
    rw [abs_of_pos Real.pi_pos] at h
    have := Real.two_le_pi
    norm_num at h
    linarith
  have hr : (Transform.update d V3.ez ⟨Real.pi, 0, 0⟩).rotNormal
      = some ⟨1, 0, 0, 0, -1, 0, 0, 0, -1⟩ := by
    rw [Transform.update_rotNormal, hdir, if_neg (fun h => hns h.1), if_pos hcl]
    dsimp only
    rw [if_neg hns]
    have : eulerMatrix Real.pi 0 0 Axes.rxyz = ⟨1, 0, 0, 0, -1, 0, 0, 0, -1⟩ := by
      simp [eulerMatrix, Axes.rxyz, Axes.ijk, nextAxis, axisPos]
    simp only [this]
    simp [M3.one, M3.mul]
  simp only [Transform.toNormal, hr, Transform.doRotate]
  ext <;> simp [M3.vecMul, M3.T]

/-- The image plane of the example: turned over by its angles, at distance `d`. -/
noncomputable def exTurned (d : ℝ) : Elem :=
  ⟨Transform.update d V3.ez ⟨Real.pi, 0, 0⟩, .inf, none, none⟩

/-- Two rays that meet at distance 4/3. -/
noncomputable def exPair : List (Elem.Ray × ℝ) :=
  [(⟨some ⟨1, 0, 0⟩, some ⟨-(3 / 5), 0, 4 / 5⟩, 1⟩, 1 / 2),
   (⟨some ⟨-1, 0, 0⟩, some ⟨3 / 5, 0, 4 / 5⟩, 1⟩, 1 / 2)]

theorem exTurned_rows (nwt : Shape.NewtonFn) (l d : ℝ) (hd : 0 ≤ d) :
    (imageRows nwt l [exTurned d] exPair).map (fun p => (p.1.y, p.1.i, p.2)) =
      [(some ⟨1 - 3 / 4 * d, 0, 0⟩, some ⟨-(3 / 5), 0, -(4 / 5)⟩, 1 / 2),
       (some ⟨-(1 - 3 / 4 * d), 0, 0⟩, some ⟨3 / 5, 0, -(4 / 5)⟩, 1 / 2)] := by
  have hdir : Transform.updDir d V3.ez = V3.ez := by
    have hn : V3.norm V3.ez = 1 := V3.norm_eq_one (by simp [V3.dot, V3.ez])
    simp only [Transform.updDir, hn, if_neg (one_ne_zero), if_neg hd.not_gt]
    ext <;> simp
  have hoff : (exTurned d).tf.offset = ⟨0, 0, d⟩ := by
    unfold exTurned
    rw [Transform.update_offset, Transform.update_direction, hdir, Transform.update_distance,
      abs_of_nonneg hd]
    ext <;> simp [V3.ez]
  have htn : ∀ v, (exTurned d).tf.toNormal v = ⟨v.x, -v.y, -v.z⟩ := turned_toNormal d hd
  have h0 := imageRows_concat nwt l [] (exTurned d) exPair
  rw [List.nil_append] at h0
  rw [h0, List.map_map]
  simp only [exPair, List.map_cons, List.map_nil, Function.comp, step_y, step_i, after,
    List.foldl_nil, Option.map_some, Option.bind_some, htn, hoff, V3.sub_x, V3.sub_y, V3.sub_z,
    intercept_plane nwt (show IsPlane (exTurned d) from fun s h => by cases h), Shape.interceptPlane]
  norm_num
  refine ⟨?_, ?_⟩ <;> ext <;> simp <;> ring

/-- C48, violation: for an image plane turned over by its angles `refocus` moves the plane away from
the focus: the spot grows from 1/4 to 1/2. -/
theorem c48_turned_violation (nwt : Shape.NewtonFn) (l : ℝ) :
    ∃ sys', refocus [exTurned 1] (imageRows nwt l [exTurned 1] exPair) = some sys' ∧
      spot nwt l [exTurned 1] exPair = some (1 / 4) ∧ spot nwt l sys' exPair = some (1 / 2) := by
  have hspot : ∀ d, 0 ≤ d → spot nwt l [exTurned d] exPair = some |1 - 3 / 4 * d| := by
    intro d hd
    have h := exTurned_rows nwt l d hd
    have h2 : (imageRows nwt l [exTurned d] exPair).map (fun p => p.1.y.map fun y => (xy y, p.2)) =
        [some ((1 - 3 / 4 * d, 0), 1 / 2), some ((-(1 - 3 / 4 * d), 0), 1 / 2)] := by
      have := congrArg (List.map fun q : Option V3 × Option V3 × ℝ => q.1.map fun y => (xy y, q.2.2)) h
      rw [List.map_map] at this
      simpa [Function.comp_def, xy] using this
    unfold spot
    rw [h2]
    simp only [allSome, Option.bind_some, Option.map_some, rms, center, mean, List.map_cons,
      List.map_nil, List.sum_cons, List.sum_nil, if_true, dot_def]
    have hz : (([1 - 3 / 4 * d, -(1 - 3 / 4 * d)] : List ℝ).length : ℝ)⁻¹ •
        (((1 - 3 / 4 * d, 0) : V2) + ((-(1 - 3 / 4 * d), 0) + 0)) = 0 := by
      ext <;> simp
    simp only [List.length_cons, List.length_nil] at hz ⊢
    rw [hz]
    simp only [sub_zero, mul_zero, add_zero]
    have hsum : (1 - 3 / 4 * d) * (1 - 3 / 4 * d) * (1 / 2) +
        -(1 - 3 / 4 * d) * -(1 - 3 / 4 * d) * (1 / 2) = (1 - 3 / 4 * d) ^ 2 := by ring
    rw [hsum, if_neg (not_lt.mpr (sq_nonneg _)), Real.sqrt_sq_eq_abs]
  have hgoods : goods (imageRows nwt l [exTurned 1] exPair) =
      some [⟨(1 / 4, 0), (3 / 4, 0), 1 / 2⟩, ⟨(-(1 / 4), 0), (-(3 / 4), 0), 1 / 2⟩] := by
    have h := exTurned_rows nwt l 1 zero_le_one
    generalize imageRows nwt l [exTurned 1] exPair = rs at h
    match rs, h with
    | [], h => simp at h
    | [_], h => simp at h
    | _ :: _ :: _ :: _, h => simp at h
    | [a, b], h =>
      simp only [List.map_cons, List.map_nil, List.cons.injEq, Prod.mk.injEq, and_true] at h
      obtain ⟨⟨a1, a2, a3⟩, b1, b2, b3⟩ := h
      obtain ⟨ra, wa⟩ := a
      obtain ⟨rb, wb⟩ := b
      simp only at a1 a2 a3 b1 b2 b3
      norm_num [goods, slope, a1, a2, a3, b1, b2, b3, xy]
  have hshift : shift [⟨(1 / 4, 0), (3 / 4, 0), 1 / 2⟩, ⟨(-(1 / 4), 0), (-(3 / 4), 0), 1 / 2⟩] =
      some (-1 / 3) := by
    norm_num [shift, mean]
  refine ⟨[exTurned (2 / 3)], ?_, ?_, ?_⟩
  · unfold refocus
    rw [hgoods]
    simp only [List.getLast?_singleton, Option.bind_some, hshift, Option.map_some]
    have hdir : Transform.updDir 1 V3.ez = V3.ez := by
      have hn : V3.norm V3.ez = 1 := V3.norm_eq_one (by simp [V3.dot, V3.ez])
      simp only [Transform.updDir, hn, if_neg (one_ne_zero), if_neg (zero_le_one.not_gt)]
      ext <;> simp
    simp only [moveElem, exTurned, Transform.setDistance, Transform.update_distance,
      Transform.update_direction, Transform.update_angles, hdir, abs_one]
    norm_num
  · rw [hspot 1 zero_le_one]
    norm_num [abs_of_pos]
  · rw [hspot (2 / 3) (by norm_num)]
    norm_num [abs_of_pos]

/-! ## C49 -/

theorem pyGet?_map {α β : Type*} (f : α → β) (l : List α) (i : ℤ) :
    pyGet? (l.map f) i = (pyGet? l i).map f := by
  unfold pyGet?
  simp only [List.length_map]
  split
  · simp
  · split
    · simp
    · rfl

/-- C49: `rms` is not negative. -/
theorem c49_nonneg (l : List (V2 × ℝ)) (weighted : Bool) (ref : Option ℤ) (r : ℝ)
    (h : rms l weighted ref = some r) : 0 ≤ r := by
  unfold rms at h
  rw [Option.bind_eq_some_iff] at h
  obtain ⟨y0, -, h⟩ := h
  dsimp only at h
  generalize (l.map fun p => dot (p.1 - y0) (p.1 - y0) *
    (if weighted = true then p.2 else 1 / (l.length : ℝ))).sum = S at h
  split at h
  · cases h
  · cases h; exact Real.sqrt_nonneg _

theorem sum_add_const (l : List (V2 × ℝ)) (v : V2) :
    ((l.map fun p => (p.1 + v, p.2)).map Prod.fst).sum =
      (l.map Prod.fst).sum + (l.length : ℝ) • v := by
  induction l with
  | nil => simp
  | cons p l ih =>
    simp only [List.map_cons, List.sum_cons, ih, List.length_cons, Nat.cast_add, Nat.cast_one]
    module

/-- C49: the square of `rms` is the mean of the squared distances from the centre, the mean position or
that of the reference ray; with weights it is their weighted sum. -/
theorem c49_value (l : List (V2 × ℝ)) (hl : l ≠ []) (hw : ∀ p ∈ l, 0 ≤ p.2) :
    (∃ r, rms l false none = some r ∧ ∀ x y : ℝ, x * l.length = (l.map fun p => p.1.1).sum →
      y * l.length = (l.map fun p => p.1.2).sum →
      r ^ 2 * l.length = (l.map fun p => (p.1.1 - x) ^ 2 + (p.1.2 - y) ^ 2).sum) ∧
    (∃ r, rms l true none = some r ∧ ∀ x y : ℝ, x * l.length = (l.map fun p => p.1.1).sum →
      y * l.length = (l.map fun p => p.1.2).sum →
      r ^ 2 = (l.map fun p => ((p.1.1 - x) ^ 2 + (p.1.2 - y) ^ 2) * p.2).sum) ∧
    (∀ (i : ℕ) c, l[i]? = some c →
      (∃ r, rms l false (some i) = some r ∧
        r ^ 2 * l.length = (l.map fun p => (p.1.1 - c.1.1) ^ 2 + (p.1.2 - c.1.2) ^ 2).sum) ∧
      ∃ r, rms l true (some i) = some r ∧
        r ^ 2 = (l.map fun p => ((p.1.1 - c.1.1) ^ 2 + (p.1.2 - c.1.2) ^ 2) * p.2).sum) := by
  have hn : (0 : ℝ) < l.length := by exact_mod_cast List.length_pos_iff.mpr hl
  have key : ∀ (wt : Bool) (ref : Option ℤ) (c : V2), center l ref = some c →
      ∃ r, rms l wt ref = some r ∧ r ^ 2 = (l.map fun p => ((p.1.1 - c.1) ^ 2 + (p.1.2 - c.2) ^ 2) *
        (if wt then p.2 else 1 / (l.length : ℝ))).sum := by
    intro wt ref c hc
    have e : (l.map fun p => dot (p.1 - c) (p.1 - c) * (if wt then p.2 else 1 / (l.length : ℝ))).sum =
        (l.map fun p => ((p.1.1 - c.1) ^ 2 + (p.1.2 - c.2) ^ 2) *
          (if wt then p.2 else 1 / (l.length : ℝ))).sum := by
      congr 1
      refine List.map_congr_left fun p _ => ?_
      simp only [dot, Prod.fst_sub, Prod.snd_sub]
      ring
    have h0 : 0 ≤ (l.map fun p => ((p.1.1 - c.1) ^ 2 + (p.1.2 - c.2) ^ 2) *
        (if wt then p.2 else 1 / (l.length : ℝ))).sum := by
      refine List.sum_nonneg fun x hx => ?_
      obtain ⟨p, hp, rfl⟩ := List.mem_map.mp hx
      have := hw p hp
      cases wt <;> simp <;> positivity
    refine ⟨_, ?_, Real.sq_sqrt h0⟩
    unfold rms
    rw [hc, Option.bind_some]
    simp only
    rw [e, if_neg (not_lt.mpr h0)]
  have scale : ∀ x y : ℝ, (l.map fun p => ((p.1.1 - x) ^ 2 + (p.1.2 - y) ^ 2) *
      (1 / (l.length : ℝ))).sum * (l.length : ℝ) =
        (l.map fun p => (p.1.1 - x) ^ 2 + (p.1.2 - y) ^ 2).sum := by
    intro x y
    rw [List.sum_map_mul_right]
    field_simp
  have hsum : (l.map Prod.fst).sum = ((l.map fun p => p.1.1).sum, (l.map fun p => p.1.2).sum) := by
    clear hl hw hn key scale
    induction l with
    | nil => rfl
    | cons p l ih =>
      simp only [List.map_cons, List.sum_cons, ih]
      rfl
  have hmean : ∀ x y : ℝ, x * l.length = (l.map fun p => p.1.1).sum →
      y * l.length = (l.map fun p => p.1.2).sum → center l none = some (x, y) := by
    intro x y hx hy
    unfold center mean
    rw [hsum, ← hx, ← hy]
    simp only [List.length_map, Prod.smul_mk, smul_eq_mul, Option.some.injEq, Prod.mk.injEq]
    constructor <;> field_simp
  have hm := fun x y hx hy => (hmean x y hx hy : center l none = some (x, y))
  have hone : ∀ wt, ∃ r, rms l wt none = some r := fun wt => by
    obtain ⟨r, h, -⟩ := key wt none _ rfl
    exact ⟨r, h⟩
  have hat : ∀ (i : ℕ) c, l[i]? = some c → center l (some (i : ℤ)) = some c.1 := by
    intro i c hc
    have hi := (List.getElem?_eq_some_iff.mp hc).1
    simp [center, pyGet?, hc]
  refine ⟨?_, ?_, fun i c hc => ⟨?_, ?_⟩⟩
  · obtain ⟨r, h⟩ := hone false
    refine ⟨r, h, fun x y hx hy => ?_⟩
    obtain ⟨r', h', e⟩ := key false none _ (hm x y hx hy)
    rw [h] at h'
    cases h'
    rw [e, ← scale x y]
    simp
  · obtain ⟨r, h⟩ := hone true
    refine ⟨r, h, fun x y hx hy => ?_⟩
    obtain ⟨r', h', e⟩ := key true none _ (hm x y hx hy)
    rw [h] at h'
    cases h'
    simpa using e
  · obtain ⟨r, h, e⟩ := key false _ _ (hat i c hc)
    refine ⟨r, h, ?_⟩
    rw [e, ← scale c.1.1 c.1.2]
    simp
  · obtain ⟨r, h, e⟩ := key true _ _ (hat i c hc)
    exact ⟨r, h, by simpa using e⟩

/-- The corners of a square of side two have the spot `√2`; the spot about one of them is `2`. -/
example : let l : List (V2 × ℝ) := [((1, 1), 1), ((1, -1), 1), ((-1, 1), 1), ((-1, -1), 1)]
    rms l false none = some (Real.sqrt 2) ∧ rms l false (some 0) = some 2 := by
  intro l
  obtain ⟨⟨r, h, e⟩, -, h2⟩ := c49_value l (by simp [l]) (by simp [l])
  obtain ⟨⟨r', h', e'⟩, -⟩ := h2 0 ((1, 1), 1) rfl
  have e := e 0 0 (by simp [l]) (by simp [l])
  have n1 := c49_nonneg _ _ _ _ h
  have n2 := c49_nonneg _ _ _ _ h'
  norm_num [l] at e e'
  constructor
  · rw [h, Option.some.injEq, eq_comm, Real.sqrt_eq_iff_mul_self_eq (by norm_num) n1]
    nlinarith
  · rw [show (some 0 : Option ℤ) = some ((0 : ℕ) : ℤ) from rfl, h', Option.some.injEq]
    nlinarith

/-- C49: `rms` does not change when all positions are translated. -/
theorem c49_translate (l : List (V2 × ℝ)) (weighted : Bool) (ref : Option ℤ) (v : V2) :
    rms (l.map fun p => (p.1 + v, p.2)) weighted ref = rms l weighted ref := by
  cases l with
  | nil => rfl
  | cons p0 l0 =>
  generalize hl : p0 :: l0 = l
  have hlen : (l.length : ℝ) ≠ 0 := by rw [← hl]; simp; positivity
  have hc : center (l.map fun p => (p.1 + v, p.2)) ref = (center l ref).map (· + v) := by
    cases ref with
    | none =>
      simp only [center, Option.map_some, mean, sum_add_const, List.length_map]
      congr 1
      rw [smul_add, smul_smul, inv_mul_cancel₀ hlen, one_smul]
    | some i =>
      simp only [center, pyGet?_map, Option.map_map]
      rfl
  unfold rms
  rw [hc]
  cases center l ref with
  | none => rfl
  | some y0 =>
    simp only [Option.map_some, Option.bind_some, List.map_map, List.length_map, Function.comp_def,
      add_sub_add_right_eq_sub]

theorem sum_smul_const (l : List (V2 × ℝ)) (c : ℝ) :
    ((l.map fun p => (c • p.1, p.2)).map Prod.fst).sum = c • (l.map Prod.fst).sum := by
  induction l with
  | nil => simp
  | cons p l ih => simp only [List.map_cons, List.sum_cons, ih]; module

/-- C49: `rms` scales with the positions. -/
theorem c49_scale (l : List (V2 × ℝ)) (weighted : Bool) (ref : Option ℤ) (c : ℝ) (hc : c ≠ 0) :
    rms (l.map fun p => (c • p.1, p.2)) weighted ref =
      (rms l weighted ref).map (|c| * ·) := by
  have hcen : center (l.map fun p => (c • p.1, p.2)) ref = (center l ref).map (c • ·) := by
    cases ref with
    | none =>
      simp only [center, Option.map_some, mean, sum_smul_const, List.length_map]
      congr 1
      module
    | some i =>
      simp only [center, pyGet?_map, Option.map_map]
      rfl
  unfold rms
  rw [hcen]
  cases center l ref with
  | none => rfl
  | some y0 =>
    simp only [Option.map_some, Option.bind_some, List.map_map, List.length_map, Function.comp_def]
    have : (l.map fun p => dot (c • p.1 - c • y0) (c • p.1 - c • y0) *
        (if weighted = true then p.2 else 1 / (l.length : ℝ))).sum =
        c ^ 2 * (l.map fun p => dot (p.1 - y0) (p.1 - y0) *
          (if weighted = true then p.2 else 1 / (l.length : ℝ))).sum := by
      rw [← List.sum_map_mul_left]
      congr 1
      apply List.map_congr_left
      intro p _
      simp only [dot_def, Prod.fst_sub, Prod.snd_sub, Prod.smul_fst, Prod.smul_snd, smul_eq_mul]
      ring
    rw [this]
    set S := (l.map fun p => dot (p.1 - y0) (p.1 - y0) *
          (if weighted = true then p.2 else 1 / (l.length : ℝ))).sum
    have hc2 : 0 < c ^ 2 := by positivity
    by_cases hS : S < 0
    · rw [if_pos hS, if_pos (mul_neg_of_pos_of_neg hc2 hS)]; rfl
    · rw [if_neg hS, if_neg (not_lt.mpr (mul_nonneg hc2.le (not_lt.mp hS))),
        Real.sqrt_mul hc2.le, Real.sqrt_sq_eq_abs]
      rfl

/-- C49: with positive weights or none `rms` is zero exactly if all rays hit the same point. -/
theorem c49_zero (l : List (V2 × ℝ)) (weighted : Bool) (ref : Option ℤ)
    (hw : weighted = true → ∀ p ∈ l, 0 < p.2) (hc : center l ref ≠ none) :
    rms l weighted ref = some 0 ↔ ∀ p ∈ l, ∀ q ∈ l, p.1 = q.1 := by
  obtain ⟨y0, hy0⟩ := Option.ne_none_iff_exists'.mp hc
  have hpos : ∀ p ∈ l, 0 < (if weighted = true then p.2 else 1 / (l.length : ℝ)) := by
    intro p hp
    split
    · rename_i h; exact hw h p hp
    · have : 0 < l.length := List.length_pos_of_mem hp
      positivity
  have hnn : ∀ p ∈ l, 0 ≤ dot (p.1 - y0) (p.1 - y0) *
      (if weighted = true then p.2 else 1 / (l.length : ℝ)) := fun p hp =>
    mul_nonneg (dot_self_nonneg _) (hpos p hp).le
  have hS := sum_nonneg_of l _ hnn
  have hmean : (∀ p ∈ l, ∀ q ∈ l, p.1 = q.1) → ∀ p ∈ l, p.1 = y0 := by
    intro h p hp
    cases ref with
    | none =>
      simp only [center, Option.some.injEq] at hy0
      have hrep : l.map Prod.fst = List.replicate l.length p.1 := by
        rw [List.eq_replicate_iff]
        refine ⟨by simp, ?_⟩
        intro b hb
        obtain ⟨q, hq, rfl⟩ := List.mem_map.mp hb
        exact h q hq p hp
      rw [← hy0, mean, hrep, List.length_replicate, List.sum_replicate, ← Nat.cast_smul_eq_nsmul ℝ,
        smul_smul, inv_mul_cancel₀, one_smul]
      have : 0 < l.length := List.length_pos_of_mem hp
      exact_mod_cast this.ne'
    | some i =>
      simp only [center, Option.map_eq_some_iff] at hy0
      obtain ⟨q, hq, rfl⟩ := hy0
      have hq' : q ∈ l := by
        unfold pyGet? at hq
        split at hq
        · exact List.mem_of_getElem? hq
        · split at hq
          · exact List.mem_of_getElem? hq
          · cases hq
      exact h p hp q hq'
  unfold rms
  rw [hy0]
  simp only [Option.bind_some]
  rw [if_neg (not_lt.mpr hS), Option.some.injEq, Real.sqrt_eq_zero hS]
  constructor
  · intro h0
    have h1 := sum_eq_zero_of l _ hnn h0
    have h2 : ∀ p ∈ l, p.1 = y0 := by
      intro p hp
      rcases mul_eq_zero.mp (h1 p hp) with h | h
      · exact sub_eq_zero.mp (dot_self_eq_zero h)
      · exact absurd h (hpos p hp).ne'
    intro p hp q hq
    rw [h2 p hp, h2 q hq]
  · intro h
    apply List.sum_eq_zero
    intro x hx
    obtain ⟨p, hp, rfl⟩ := List.mem_map.mp hx
    rw [hmean h p hp]
    simp

/-- C49: rays of weight zero are not seen: the spot can be zero though the rays are apart. -/
theorem c49_zero_weight :
    rms [((0, 0), 1), ((1, 0), 0)] true (some 0) = some 0 := by
  norm_num [rms, center, pyGet?]

example : rms [((1, 0), 1 / 2), ((-1, 0), 1 / 2)] true none = some 1 := by
  norm_num [rms, center, mean]

/-! ### Example for C48 -/

/-- The image plane of the example. -/
noncomputable def exPlane : Elem := ⟨Transform.update 1 ⟨0, 0, 1⟩ 0, .inf, none, none⟩

theorem exPlane_plane : IsPlane exPlane := fun s h => by cases h

theorem exPlane_axis : OnAxis 1 exPlane.tf := onAxis_update 1 1 zero_le_one (.inl rfl)

/-- The hypotheses of `c48_refocus` hold for two rays that meet behind the plane. -/
example (nwt : Shape.NewtonFn) (l : ℝ) :
    (∀ p ∈ imageRows nwt l ([] ++ [exPlane]) exPair, p.1.y ≠ none) ∧
    refocus ([] ++ [exPlane]) (imageRows nwt l ([] ++ [exPlane]) exPair) =
      some [moveElem exPlane (1 / 3)] := by
  have hdist : exPlane.tf.distance = 1 := by
    simp [exPlane, Transform.update_distance]
  have h1 := plane_row nwt l exPlane_plane exPlane_axis ⟨1, 0, 0⟩ ⟨-(3 / 5), 0, 4 / 5⟩ 1
  have h2 := plane_row nwt l exPlane_plane exPlane_axis ⟨-1, 0, 0⟩ ⟨3 / 5, 0, 4 / 5⟩ 1
  norm_num [hdist, meet] at h1 h2
  obtain ⟨y1, hy1, hx1⟩ := h1
  obtain ⟨y2, hy2, hx2⟩ := h2
  have hrows : imageRows nwt l ([] ++ [exPlane]) exPair =
      [((Elem.step nwt l false exPlane ⟨some ⟨1, 0, 0⟩, some ⟨-(3 / 5), 0, 4 / 5⟩, 1⟩).1, 1 / 2),
       ((Elem.step nwt l false exPlane ⟨some ⟨-1, 0, 0⟩, some ⟨3 / 5, 0, 4 / 5⟩, 1⟩).1, 1 / 2)] := by
    rw [imageRows_concat]
    rfl
  constructor
  · rw [hrows]
    intro p hp
    rcases List.mem_cons.mp hp with rfl | hp
    · simp [hy1]
    · rcases List.mem_cons.mp hp with rfl | hp
      · simp [hy2]
      · cases hp
  · have hgoods : goods (imageRows nwt l ([] ++ [exPlane]) exPair) =
        some [⟨(1 / 4, 0), (-(3 / 4), 0), 1 / 2⟩, ⟨(-(1 / 4), 0), (3 / 4, 0), 1 / 2⟩] := by
      rw [hrows]
      norm_num [goods, hy1, hy2, step_i, exPlane_axis.into, V3.turn, slope, hx1, hx2]
    unfold refocus
    rw [hgoods]
    norm_num [shift, mean]

end RayOpt.Spot
