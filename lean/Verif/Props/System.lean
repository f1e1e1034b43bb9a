import Verif.Lemmas.Symmetry
import Verif.Model.Paraxial

/-!
Properties C22, C24, C25, C26, C29: methods of `System` on the list of elements.
-/

namespace RayOpt

open V3 Transform Sys

/-! ## C25 -/

/-- Componentwise sum of a list of vectors. -/
def sumV3 (l : List V3) : V3 := ⟨(l.map V3.x).sum, (l.map V3.y).sum, (l.map V3.z).sum⟩

theorem sumV3_append_singleton (l : List V3) (v : V3) : sumV3 (l ++ [v]) = sumV3 l + v := by
  ext <;> simp [sumV3]

theorem scanl_take {α β : Type*} (f : β → α → β) (b : β) (xs : List α) (j : ℕ)
    (hj : j ≤ xs.length) : (xs.scanl f b)[j]? = some ((xs.take j).foldl f b) := by
  induction xs generalizing b j with
  | nil => simp at hj; subst hj; simp
  | cons a xs ih =>
    cases j with
    | zero => simp [List.scanl_cons]
    | succ j =>
      simp only [List.scanl_cons, List.getElem?_cons_succ, List.take_succ_cons, List.foldl_cons]
      exact ih _ _ (by simpa using hj)

theorem foldl_add_V3 (l : List V3) (b : V3) : l.foldl (· + ·) b = b + sumV3 l := by
  induction l generalizing b with
  | nil => ext <;> simp [sumV3]
  | cons a l ih => rw [List.foldl_cons, ih]; ext <;> simp [sumV3] <;> ring

/-- C25: `origins[i]` is the sum of the offsets of elements `0..i`. -/
theorem c25_origins (sys : List Elem) (i : ℕ) (hi : i < sys.length) :
    (origins sys)[i]? = some (sumV3 ((sys.take (i + 1)).map fun e => e.tf.offset)) := by
  unfold origins
  rw [List.getElem?_tail, scanl_take _ _ _ _ (by simp; omega), foldl_add_V3]
  simp only [List.map_take]
  congr 1
  ext <;> simp

theorem foldl_add_real (l : List ℝ) (b : ℝ) : l.foldl (· + ·) b = b + l.sum := by
  induction l generalizing b with
  | nil => simp
  | cons a l ih => rw [List.foldl_cons, ih]; simp; ring

/-- C25: `path[i]` is the sum of the distances of elements `0..i`; `track[i]` is the z component
of `origins[i]`; all have one entry per element. -/
theorem c25_path (sys : List Elem) (i : ℕ) (hi : i < sys.length) :
    (path sys)[i]? = some ((sys.take (i + 1)).map fun e => e.tf.distance).sum ∧
    (track sys)[i]? = some ((sys.take (i + 1)).map fun e => e.tf.offset.z).sum ∧
    (origins sys).length = sys.length ∧ (path sys).length = sys.length ∧
    (track sys).length = sys.length := by
  refine ⟨?_, ?_, ?_, ?_, ?_⟩
  · unfold path
    rw [List.getElem?_tail, scanl_take _ _ _ _ (by simp; omega), foldl_add_real]
    simp [List.map_take]
  · unfold track
    rw [List.getElem?_map, c25_origins sys i hi]
    simp [sumV3, Function.comp_def]
  · simp [origins]
  · simp [path]
  · simp [track, origins]

/-- For a straight system the path is the z position of the surfaces. -/
theorem c25_straight (sys : List Elem) (h : ∀ e ∈ sys, Reachable e.tf ∧ e.tf.direction = ez) :
    track sys = path sys := by
  apply List.ext_getElem?
  intro i
  by_cases hi : i < sys.length
  · obtain ⟨h1, h2, _⟩ := c25_path sys i hi
    rw [h1, h2]
    congr 2
    apply List.map_congr_left
    intro e he
    obtain ⟨hr, hd⟩ := h e (List.mem_of_mem_take he)
    rw [(c12_invariant hr).2.2, hd]; simp [ez]
  · rw [List.getElem?_eq_none (by simp [track, origins]; omega),
      List.getElem?_eq_none (by simp [path]; omega)]

theorem take_all {α : Type*} (l : List α) (n : ℕ) (h : l.length ≤ n) : l.take n = l :=
  List.take_of_length_le h

theorem origins_last (sys : List Elem) (h : sys ≠ []) :
    (origins sys).getLast? = some (sumV3 (sys.map fun e => e.tf.offset)) := by
  have hl : 0 < sys.length := List.length_pos_iff.mpr h
  rw [List.getLast?_eq_getElem?, show (origins sys).length = sys.length by simp [origins],
    c25_origins sys _ (by omega), take_all _ _ (by omega)]

theorem sumV3_set (l : List V3) (i : ℕ) (v w : V3) (h : l[i]? = some v) :
    sumV3 (l.set i w) = sumV3 l + (w - v) := by
  induction l generalizing i with
  | nil => simp at h
  | cons a l ih =>
    cases i with
    | zero => simp at h; subst h; ext <;> simp [sumV3] <;> ring
    | succ i =>
      have := ih i (by simpa using h)
      have hx := congrArg V3.x this
      have hy := congrArg V3.y this
      have hz := congrArg V3.z this
      simp [sumV3] at hx hy hz
      ext <;> simp [sumV3] <;> linarith

/-- C25: `close(index)` succeeds for every valid (also negative) index; afterwards the last origin
is zero, every other element is unchanged, and the changed element keeps its angles, aperture,
shape and material. -/
theorem c25_close (sys : List Elem) (index : ℤ) (h1 : -(sys.length : ℤ) ≤ index)
    (h2 : index < sys.length) :
    ∃ out, Sys.close sys index = some out ∧ out.length = sys.length ∧
      (origins out).getLast? = some 0 ∧
      ∃ i : ℕ, (i : ℤ) = (if index < 0 then index + sys.length else index) ∧
        (∀ j, j ≠ i → out[j]? = sys[j]?) ∧
        ∃ e e', sys[i]? = some e ∧ out[i]? = some e' ∧ e'.tf.angles = e.tf.angles ∧
          e'.radius = e.radius ∧ e'.shape = e.shape ∧ e'.material = e.material := by
  have hk : ∃ k : ℕ, (if index < 0 then index + (sys.length : ℤ) else index) = k ∧
      k < sys.length := by
    by_cases h : index < 0
    · rw [if_pos h]
      exact ⟨(index + sys.length).toNat, by omega, by omega⟩
    · rw [if_neg h]
      exact ⟨index.toNat, by omega, by omega⟩
  obtain ⟨k, hk1, hk2⟩ := hk
  have hne : sys ≠ [] := by rintro rfl; simp at hk2
  have he : sys[k]? = some sys[k] := List.getElem?_eq_getElem hk2
  unfold Sys.close
  simp only [hk1]
  rw [if_neg (by omega)]
  simp only [Int.toNat_natCast, he, origins_last sys hne]
  refine ⟨_, rfl, by simp, ?_, k, rfl, ?_, sys[k], _, he,
    List.getElem?_set_self hk2, ?_, rfl, rfl, rfl⟩
  · rw [origins_last _ (by simp [hne]), List.map_set]
    congr 1
    rw [(c12_offset_readback _ _).1, sumV3_set _ _ sys[k].tf.offset _ (by simp [he])]
    ext <;> simp
  · intro j hj
    rw [List.getElem?_set_ne (Ne.symm hj)]
  · exact (c12_offset_readback _ _).2.2

/-- `close` raises `IndexError` for an index out of range and leaves nothing changed. -/
theorem c25_close_error (sys : List Elem) (index : ℤ)
    (h : index < -(sys.length : ℤ) ∨ (sys.length : ℤ) ≤ index) : Sys.close sys index = none := by
  unfold Sys.close
  by_cases h0 : index < 0
  · simp only [h0, if_true]
    rw [if_pos (by omega)]
  · simp only [h0, if_false]
    rw [List.getElem?_eq_none (by omega)]

example : (-(([⟨Transform.init 1 ez 0 none, .inf, none, none⟩] : List Elem).length : ℤ) ≤ -1) ∧
    (-1 : ℤ) < ([⟨Transform.init 1 ez 0 none, .inf, none, none⟩] : List Elem).length := by
  simp

/-! ## C29 -/

/-- C29: `mirrored[i]` is minus one to the number of mirrors among elements `0..i`. -/
theorem c29_parity (sys : List Elem) (i : ℕ) (hi : i < sys.length) :
    (mirrored sys)[i]? = some ((-1) ^ ((sys.take (i + 1)).countP Elem.isMirror)) := by
  unfold mirrored
  rw [List.getElem?_tail, scanl_take _ _ _ _ (by simp; omega)]
  congr 1
  rw [← List.map_take]
  generalize sys.take (i + 1) = l
  have : ∀ b : ℤ, (l.map fun e => if e.isMirror then (-1 : ℤ) else 1).foldl (· * ·) b =
      b * (-1) ^ l.countP Elem.isMirror := by
    induction l with
    | nil => simp
    | cons e l ih =>
      intro b
      rw [List.map_cons, List.foldl_cons, ih, List.countP_cons]
      by_cases h : e.isMirror = true
      · simp [h, pow_succ]
      · simp [h]
  rw [this]; simp

/-- C29: a mirror flips the sign, anything else keeps it. -/
theorem c29_step (sys : List Elem) (i : ℕ) (e : Elem) (hi : sys[i + 1]? = some e) (s : ℤ)
    (hs : (mirrored sys)[i]? = some s) :
    (mirrored sys)[i + 1]? = some (if e.isMirror then -s else s) := by
  have hl : i + 1 < sys.length := (List.getElem?_eq_some_iff.mp hi).1
  rw [c29_parity sys i (by omega)] at hs
  rw [c29_parity sys (i + 1) hl, List.take_add_one (l := sys) (i := i + 1), hi,
    List.countP_append]
  cases hs
  by_cases h : e.isMirror = true
  · simp [h, pow_succ]
  · simp [h]

/-! ## C26 -/

/-- The edge of an element at its aperture radius is at axial position `z` in the element's own
frame. -/
def EdgeAt (e : Elem) (z : ℝ) : Prop :=
  match e.shape with
  | none => z = 0
  | some sh => match e.radius with
    | .fin r => sh.surfaceSag ⟨0, r, z⟩ = some 0
    | .inf => sh.curvature = 0 ∧ sh.aspherics = none ∧ z = 0

theorem surfaceSag_z (sh : Shape) (x y z : ℝ) :
    sh.surfaceSag ⟨x, y, z⟩ = (sh.surfaceSag ⟨x, y, 0⟩).map (z + ·) := by
  unfold Shape.surfaceSag
  simp only [Shape.rsq]
  by_cases h : sh.curvature = 0 ∧ sh.aspherics = none
  · simp [h]
  · rw [if_neg h, if_neg h]
    by_cases hc : sh.curvature = 0
    · simp only [hc, ne_eq, not_true_eq_false, if_false]
      cases sh.aspherics <;> simp; ring
    · simp only [ne_eq, hc, not_false_eq_true, if_true]
      by_cases hq : 1 - (1 + sh.conic) * sh.curvature ^ 2 * (x * x + y * y) < 0
      · simp only [hq, if_true]
        cases sh.aspherics <;> rfl
      · simp only [hq, if_false]
        cases sh.aspherics <;> simp only [Option.map_some, Option.some.injEq] <;> ring

/-- Sag of an element as used by the loop of `edge_thickness`. -/
noncomputable def edgeSag' (e : Elem) : Option ℝ :=
  match e.shape with
  | none => some 0
  | some sh => sh.edgeSag e.radius

theorem edgeSag'_iff (e : Elem) (z : ℝ) : edgeSag' e = some (-z) ↔ EdgeAt e z := by
  unfold edgeSag' EdgeAt
  cases hs : e.shape with
  | none => simp [eq_comm]
  | some sh =>
    cases hr : e.radius with
    | inf =>
      simp only [Shape.edgeSag]
      by_cases h : sh.curvature = 0 ∧ sh.aspherics = none
      · simp [h, eq_comm]
      · simp only [h, if_false]
        constructor
        · intro h'; cases h'
        · rintro ⟨a, b, _⟩; exact absurd ⟨a, b⟩ h
    | fin r =>
      simp only [Shape.edgeSag]
      rw [surfaceSag_z sh 0 r z]
      cases sh.surfaceSag ⟨0, r, 0⟩ with
      | none => simp
      | some a => 
        simp only [Option.some.injEq, Option.map_some]
        constructor <;> intro h <;> linarith

theorem edgeThicknessFrom_cons (dz0 : Option ℝ) (e : Elem) (es : List Elem) :
    edgeThicknessFrom dz0 (e :: es) =
      ((edgeSag' e).bind fun a => dz0.map fun b => e.tf.distance - a + b) ::
        edgeThicknessFrom (edgeSag' e) es := rfl

theorem edgeThicknessFrom_get (dz0 : Option ℝ) (es : List Elem) (i : ℕ) (e : Elem)
    (h : es[i]? = some e) :
    (edgeThicknessFrom dz0 es)[i]? = some ((edgeSag' e).bind fun a =>
      ((if i = 0 then dz0 else (es[i - 1]?).bind edgeSag')).map fun b =>
        e.tf.distance - a + b) := by
  induction es generalizing dz0 i with
  | nil => simp at h
  | cons e0 es ih =>
    rw [edgeThicknessFrom_cons]
    cases i with
    | zero => simp at h; subst h; simp
    | succ i =>
      simp only [List.getElem?_cons_succ] at h ⊢
      rw [ih _ i h]
      cases i with
      | zero => simp
      | succ i => simp

/-- C26: `edge_thickness[i]` is the axial distance between the edge of surface `i` and the edge of
surface `i - 1`, each at its own aperture radius (vertex distance plus difference of the axial edge
positions); it is a number exactly if both edges exist. -/
theorem c26_edge (sys : List Elem) (i : ℕ) (e p : Elem) (he : sys[i + 1]? = some e)
    (hp : sys[i]? = some p) :
    ∃ r, (edgeThickness sys)[i + 1]? = some r ∧
      ∀ t, r = some t ↔ ∃ z z', EdgeAt e z ∧ EdgeAt p z' ∧ t = e.tf.distance + z - z' := by
  refine ⟨_, edgeThicknessFrom_get _ _ _ _ he, fun t => ?_⟩
  simp only [Nat.add_eq_zero_iff, one_ne_zero, and_false, if_false, Nat.add_sub_cancel, hp,
    Option.bind_some, Option.bind_eq_some_iff, Option.map_eq_some_iff]
  constructor
  · rintro ⟨a, ha, b, hb, rfl⟩
    refine ⟨-a, -b, (edgeSag'_iff e _).mp (by simpa using ha),
      (edgeSag'_iff p _).mp (by simpa using hb), by ring⟩
  · rintro ⟨z, z', hz, hz', rfl⟩
    exact ⟨-z, (edgeSag'_iff e z).mpr hz, -z', (edgeSag'_iff p z').mpr hz', by ring⟩

/-- C26: the first entry is measured from the origin; there is one entry per element. -/
theorem c26_first (e : Elem) (sys : List Elem) :
    (∃ r, (edgeThickness (e :: sys))[0]? = some r ∧
      ∀ t, r = some t ↔ ∃ z, EdgeAt e z ∧ t = e.tf.distance + z) ∧
    (edgeThickness (e :: sys)).length = sys.length + 1 := by
  constructor
  · refine ⟨_, edgeThicknessFrom_get _ _ 0 e (by simp), fun t => ?_⟩
    simp only [if_true, Option.map_some, Option.bind_eq_some_iff, Option.some.injEq]
    constructor
    · rintro ⟨a, ha, rfl⟩
      exact ⟨-a, (edgeSag'_iff e _).mp (by simpa using ha), by ring⟩
    · rintro ⟨z, hz, rfl⟩
      exact ⟨-z, (edgeSag'_iff e z).mpr hz, by ring⟩
  · have : ∀ (es : List Elem) dz0, (edgeThicknessFrom dz0 es).length = es.length := by
      intro es
      induction es with
      | nil => intro; rfl
      | cons a es ih => intro dz0; rw [edgeThicknessFrom_cons]; simp [ih]
    exact this _ _

/-- A spherical cap of curvature 1/5 at radius 3: the edge is at z = 1, in front of it a plane. -/
example : EdgeAt ⟨Transform.init 2 ez 0 none, .fin 3, some ⟨1 / 5, 0, none, false⟩, some none⟩ 1 ∧
    EdgeAt ⟨Transform.init 0 ez 0 none, .inf, none, none⟩ 0 := by
  refine ⟨?_, rfl⟩
  have h : √(1 - (5 ^ 2)⁻¹ * (3 * 3) : ℝ) = 4 / 5 := by
    rw [show (1 - (5 ^ 2)⁻¹ * (3 * 3) : ℝ) = (4 / 5) ^ 2 by norm_num]
    exact Real.sqrt_sq (by norm_num)
  simp only [EdgeAt, Shape.surfaceSag, Shape.rsq]
  norm_num
  norm_num at h
  rw [h]; norm_num

/-! ## C24 -/

/-- Element `i` exists and is a surface in front of a solid. -/
def SolidAt (sys : List Elem) (i : ℕ) : Prop := ∃ e, sys[i]? = some e ∧ e.isSolid = true

/-- Element `i` exists and is a mirror. -/
def MirrorAt (sys : List Elem) (i : ℕ) : Prop := ∃ e, sys[i]? = some e ∧ e.isMirror = true

/-- Element `i` exists and has no `material` attribute. -/
def BareAt (sys : List Elem) (i : ℕ) : Prop := ∃ e, sys[i]? = some e ∧ e.material = none

/-- What a group of element indices is: a run `a, ..., a+k` that starts with a surface in front of a
solid (or is a single mirror), continues over solids and bare elements, and ends with the first
other surface or at the end of the system. -/
def IsGroup (sys : List Elem) (g : List ℕ) : Prop :=
  ∃ a k, g = List.range' a (k + 1) ∧ a + k < sys.length ∧
    (SolidAt sys a ∨ k = 0 ∧ MirrorAt sys a) ∧
    (∀ i, a ≤ i → i < a + k → SolidAt sys i ∨ BareAt sys i) ∧
    (a + k + 1 = sys.length ∨ ¬SolidAt sys (a + k) ∧ ¬BareAt sys (a + k))

/-- Loop invariant of `groups` after `p` elements. -/
structure GInv (sys : List Elem) (p : ℕ) (st : List (List ℕ) × List ℕ) : Prop where
  groups : ∀ g ∈ st.1, IsGroup sys g
  sorted : (st.1.flatten ++ st.2).Pairwise (· < ·)
  bound : ∀ i ∈ st.1.flatten ++ st.2, i < p
  opened : st.2 = [] ∨ ∃ a, a < p ∧ st.2 = List.range' a (p - a) ∧ SolidAt sys a ∧
    ∀ i, a ≤ i → i < p → SolidAt sys i ∨ BareAt sys i
  cover : ∀ i, i < p → SolidAt sys i ∨ MirrorAt sys i → i ∈ st.1.flatten ++ st.2

theorem sorted_push {l : List ℕ} {p : ℕ} (h : l.Pairwise (· < ·)) (hb : ∀ i ∈ l, i < p) :
    (l ++ [p]).Pairwise (· < ·) := by
  rw [List.pairwise_append]
  exact ⟨h, by simp, fun a ha b hb' => by simp at hb'; subst hb'; exact hb a ha⟩

theorem range'_push {a p : ℕ} (h : a ≤ p) :
    List.range' a (p - a) ++ [p] = List.range' a (p + 1 - a) := by
  rw [show p + 1 - a = (p - a) + 1 by omega, List.range'_concat]
  congr 2; omega

theorem GInv.step {sys : List Elem} {p : ℕ} {st : List (List ℕ) × List ℕ} (h : GInv sys p st)
    {e : Elem} (he : sys[p]? = some e) : GInv sys (p + 1) (groupStep st (p, e)) := by
  obtain ⟨done, group⟩ := st
  obtain ⟨hg, hs, hb, ho, hc⟩ := h
  simp only at hg hs hb ho hc
  have hp : p < sys.length := (List.getElem?_eq_some_iff.mp he).1
  have solidAt_p : SolidAt sys p ↔ e.isSolid = true := by
    constructor
    · rintro ⟨e', h1, h2⟩; rw [he] at h1; cases h1; exact h2
    · intro h; exact ⟨e, he, h⟩
  have mirrorAt_p : MirrorAt sys p ↔ e.isMirror = true := by
    constructor
    · rintro ⟨e', h1, h2⟩; rw [he] at h1; cases h1; exact h2
    · intro h; exact ⟨e, he, h⟩
  have bareAt_p : BareAt sys p ↔ e.material = none := by
    constructor
    · rintro ⟨e', h1, h2⟩; rw [he] at h1; cases h1; exact h2
    · intro h; exact ⟨e, he, h⟩
  have push_sorted : (done.flatten ++ (group ++ [p])).Pairwise (· < ·) := by
    rw [← List.append_assoc]; exact sorted_push hs hb
  have push_bound : ∀ i ∈ done.flatten ++ (group ++ [p]), i < p + 1 := by
    intro i hi
    rw [← List.append_assoc, List.mem_append] at hi
    rcases hi with hi | hi
    · have := hb i hi; omega
    · simp at hi; omega
  have push_cover : ∀ i, i < p + 1 → SolidAt sys i ∨ MirrorAt sys i →
      i ∈ done.flatten ++ (group ++ [p]) := by
    intro i hi hsm
    rw [← List.append_assoc, List.mem_append]
    by_cases hip : i = p
    · right; simp [hip]
    · left; exact hc i (by omega) hsm
  unfold groupStep
  simp only
  cases hm : e.material with
  | none =>
    simp only
    by_cases hgr : group = []
    · simp only [hgr, ne_eq, not_true_eq_false, if_false]
      subst hgr
      refine ⟨hg, hs, fun i hi => ?_, Or.inl rfl, fun i hi hsm => ?_⟩
      · have := hb i hi; omega
      · by_cases hip : i = p
        · subst hip
          exfalso
          rcases hsm with h | h
          · rw [solidAt_p] at h; simp [Elem.isSolid, Elem.mat, hm] at h
          · rw [mirrorAt_p] at h; simp [Elem.isMirror, Elem.mat, hm] at h
        · exact hc i (by omega) hsm
    · simp only [ne_eq, hgr, not_false_eq_true, if_true]
      refine ⟨hg, push_sorted, push_bound, Or.inr ?_, push_cover⟩
      rcases ho with ho | ⟨a, ha, hga, hsa, hall⟩
      · exact absurd ho hgr
      · refine ⟨a, by omega, by simp only [hga]; exact range'_push (by omega), hsa,
          fun i h1 h2 => ?_⟩
        by_cases hip : i = p
        · subst hip; right; exact bareAt_p.mpr hm
        · exact hall i h1 (by omega)
  | some m =>
    simp only
    by_cases hsol : e.isSolid = true
    · simp only [hsol, if_true]
      refine ⟨hg, push_sorted, push_bound, Or.inr ?_, push_cover⟩
      rcases ho with ho | ⟨a, ha, hga, hsa, hall⟩
      · refine ⟨p, by omega, by simp [ho], solidAt_p.mpr hsol, fun i h1 h2 => ?_⟩
        have : i = p := by omega
        subst this; left; exact solidAt_p.mpr hsol
      · refine ⟨a, by omega, by simp only [hga]; exact range'_push (by omega), hsa,
          fun i h1 h2 => ?_⟩
        by_cases hip : i = p
        · subst hip; left; exact solidAt_p.mpr hsol
        · exact hall i h1 (by omega)
    · simp only [hsol]
      by_cases hcl : group ≠ [] ∨ e.isMirror = true
      · rw [if_neg (by simp), if_pos hcl]
        refine ⟨?_, ?_, ?_, Or.inl rfl, ?_⟩
        · intro g hgm
          rw [List.mem_append] at hgm
          rcases hgm with hgm | hgm
          · exact hg g hgm
          · simp only [List.mem_singleton] at hgm
            subst hgm
            have hlast : ¬SolidAt sys p ∧ ¬BareAt sys p :=
              ⟨fun h => hsol (solidAt_p.mp h), fun h => by rw [bareAt_p, hm] at h; cases h⟩
            rcases ho with ho | ⟨a, ha, hga, hsa, hall⟩
            · refine ⟨p, 0, by simp [ho], by omega, Or.inr ⟨rfl, ?_⟩, fun i h1 h2 => by omega,
                Or.inr hlast⟩
              rcases hcl with h | h
              · exact absurd ho h
              · exact mirrorAt_p.mpr h
            · refine ⟨a, p - a, ?_, by omega, Or.inl hsa, fun i h1 h2 => hall i h1 (by omega),
                Or.inr ?_⟩
              · rw [hga, range'_push (by omega)]; congr 1; omega
              · rw [show a + (p - a) = p by omega]; exact hlast
        · simpa [List.flatten_append] using push_sorted
        · simpa [List.flatten_append] using push_bound
        · simpa [List.flatten_append] using push_cover
      · rw [if_neg (by simp), if_neg hcl]
        simp only [not_or, not_not] at hcl
        refine ⟨hg, hs, fun i hi => ?_, ?_, fun i hi hsm => ?_⟩
        · have := hb i hi; omega
        · left; exact hcl.1
        · by_cases hip : i = p
          · subst hip
            exfalso
            rcases hsm with h | h
            · exact hsol (solidAt_p.mp h)
            · exact hcl.2 (mirrorAt_p.mp h)
          · exact hc i (by omega) hsm

theorem GInv.run {sys : List Elem} (es : List Elem) {p : ℕ} {st : List (List ℕ) × List ℕ}
    (h : GInv sys p st) (hes : sys.drop p = es) :
    GInv sys sys.length (((es.zipIdx p).map fun ei => (ei.2, ei.1)).foldl groupStep st) := by
  induction es generalizing p st with
  | nil =>
    have hp : sys.length ≤ p := List.drop_eq_nil_iff.mp hes
    simp only [List.zipIdx_nil, List.map_nil, List.foldl_nil]
    refine ⟨h.groups, h.sorted, ?_, ?_, fun i hi => h.cover i (by omega)⟩
    · intro i hi
      rw [List.mem_append] at hi
      rcases hi with hi | hi
      · rw [List.mem_flatten] at hi
        obtain ⟨g, hg, hig⟩ := hi
        obtain ⟨a, k, rfl, hk, _⟩ := h.groups g hg
        rw [List.mem_range'_1] at hig; omega
      · rcases h.opened with ho | ⟨a, ha, hga, hsa, hall⟩
        · rw [ho] at hi; cases hi
        · have hi' := hi
          rw [hga, List.mem_range'_1] at hi'
          rcases hall i (by omega) (by omega) with ⟨e, he, _⟩ | ⟨e, he, _⟩ <;>
            exact (List.getElem?_eq_some_iff.mp he).1
    · rcases h.opened with ho | ⟨a, ha, hga, hsa, hall⟩
      · left; exact ho
      · have : p = sys.length := by
          rcases hall (p - 1) (by omega) (by omega) with ⟨e, he, _⟩ | ⟨e, he, _⟩ <;>
            · have := (List.getElem?_eq_some_iff.mp he).1
              omega
        subst this
        right; exact ⟨a, ha, hga, hsa, hall⟩
  | cons e es ih =>
    have he : sys[p]? = some e := by
      have := congrArg (fun l => l[0]?) hes
      simpa using this
    simp only [List.zipIdx_cons, List.map_cons, List.foldl_cons]
    refine ih (h.step he) ?_
    have := congrArg List.tail hes
    simpa using this

/-- C24: the groups are non-empty runs of consecutive indices, in increasing order and disjoint
(the concatenation is strictly increasing); every group has the documented structure; every surface
in front of a solid and every mirror is in a group. -/
theorem c24_groups (sys : List Elem) :
    (∀ g ∈ groups sys, IsGroup sys g) ∧ (groups sys).flatten.Pairwise (· < ·) ∧
    (∀ i, SolidAt sys i ∨ MirrorAt sys i → ∃ g ∈ groups sys, i ∈ g) := by
  have h0 : GInv sys 0 ([], []) :=
    ⟨by simp, by simp, by simp, Or.inl rfl, fun i hi => by omega⟩
  have h := h0.run sys rfl
  unfold groups
  simp only
  generalize ((sys.zipIdx 0).map fun ei => (ei.2, ei.1)).foldl groupStep ([], []) = st at h ⊢
  have hlen : ∀ i, SolidAt sys i ∨ MirrorAt sys i → i < sys.length := by
    rintro i (⟨e, he, _⟩ | ⟨e, he, _⟩) <;> exact (List.getElem?_eq_some_iff.mp he).1
  obtain ⟨done, group⟩ := st
  by_cases hg : group = []
  · subst hg
    simp only [ne_eq, not_true_eq_false, if_false]
    refine ⟨h.groups, by simpa using h.sorted, fun i hi => ?_⟩
    have := h.cover i (hlen i hi) hi
    simpa [List.mem_flatten] using this
  · simp only [ne_eq, hg, not_false_eq_true, if_true]
    refine ⟨?_, by simpa [List.flatten_append] using h.sorted, fun i hi => ?_⟩
    · intro g hgm
      rw [List.mem_append] at hgm
      rcases hgm with hgm | hgm
      · exact h.groups g hgm
      · simp only [List.mem_singleton] at hgm
        subst hgm
        rcases h.opened with ho | ⟨a, ha, hga, hsa, hall⟩
        · exact absurd ho hg
        · refine ⟨a, sys.length - a - 1, ?_, by omega, Or.inl hsa,
            fun i h1 h2 => hall i h1 (by omega), Or.inl (by omega)⟩
          simp only at hga
          rw [hga]; congr 1; omega
    · have := h.cover i (hlen i hi) hi
      simp only [List.mem_append, List.mem_flatten] at this
      rcases this with ⟨g, hg', hi'⟩ | hi'
      · exact ⟨g, by simp [hg'], hi'⟩
      · exact ⟨group, by simp, hi'⟩

/-- C24: an index is in at most one group (at most one position of the list of groups). -/
theorem c24_unique (sys : List Elem) (j k : ℕ) (g g' : List ℕ) (i : ℕ)
    (hj : (groups sys)[j]? = some g) (hk : (groups sys)[k]? = some g') (hi : i ∈ g)
    (hi' : i ∈ g') : j = k := by
  have hs := (c24_groups sys).2.1
  rw [List.pairwise_flatten] at hs
  have hp := hs.2
  rw [List.pairwise_iff_getElem] at hp
  obtain ⟨hj1, hj2⟩ := List.getElem?_eq_some_iff.mp hj
  obtain ⟨hk1, hk2⟩ := List.getElem?_eq_some_iff.mp hk
  rcases lt_trichotomy j k with h | h | h
  · have := hp j k hj1 hk1 h i (by rw [hj2]; exact hi) i (by rw [hk2]; exact hi')
    omega
  · exact h
  · have := hp k j hk1 hj1 h i (by rw [hk2]; exact hi') i (by rw [hj2]; exact hi)
    omega

/-- A singlet followed by a mirror: two groups. -/
noncomputable example :
    let air : Material := ⟨false, false, fun _ => 1⟩
    let bk7 : Material := ⟨false, true, fun _ => 3 / 2⟩
    let mir : Material := ⟨true, false, fun _ => 1⟩
    let el (m : Material) : Elem :=
      ⟨Transform.init 1 ez 0 none, .inf, some ⟨0, 0, none, false⟩, some (some m)⟩
    groups [el air, el bk7, el air, el mir, el air] = [[1, 2], [3]] := by
  simp [groups, groupStep, Elem.isSolid, Elem.isMirror, Elem.mat]

/-! ## C22 -/

/-- The reversed shape: what a surface looks like from the other side. -/
def flipShape (sh : Shape) : Shape :=
  ⟨-sh.curvature, sh.conic, sh.aspherics.map (·.map fun a => -a), sh.alternate⟩

theorem reverse_get (sys : List Elem) (j : ℕ) (hj : j < sys.length) (e : Elem)
    (he : sys[sys.length - 1 - j]? = some e) :
    (reverse sys)[j]? = some
      { e.reverse with
        tf := e.tf.setDistance (((sys[sys.length - j]?).map fun e => e.tf.distance).getD 0)
        material := some (if j + 1 < sys.length then
          ((sys[sys.length - 2 - j]?).map Elem.mat).getD none else none) } := by
  unfold reverse
  rw [List.getElem?_reverse (by simpa using hj)]
  simp only [List.length_map, List.length_zipIdx, List.getElem?_map, List.getElem?_zipIdx, he,
    Option.map_some, Nat.zero_add, Option.some.injEq]
  congr 1
  · congr 1
    rw [List.getD_eq_getElem?_getD]
    by_cases h0 : j = 0
    · subst h0
      rw [List.getElem?_append_right (by simp; omega)]
      simp [show sys.length - 1 + 1 - sys.length = 0 by omega]
    · rw [List.getElem?_append_left (by simp; omega), List.getElem?_map,
        show sys.length - 1 - j + 1 = sys.length - j by omega]
  · congr 1
    rw [List.getD_eq_getElem?_getD]
    by_cases h1 : j + 1 < sys.length
    · rw [if_pos h1, show sys.length - 1 - j = (sys.length - 2 - j) + 1 by omega,
        List.getElem?_cons_succ, List.getElem?_map]
    · rw [if_neg h1, show sys.length - 1 - j = 0 by omega]; simp

/-- C22: reversing puts element `N-1-j` at position `j` with its curvature and aspheric
coefficients negated and conic, aperture and angles kept; every gap keeps its thickness
(`distance` of the later element) and its glass (`material` of the earlier element); the first
distance becomes zero and the last material `None`. -/
theorem c22_reverse (sys : List Elem) (hsys : ∀ e ∈ sys, Reachable e.tf) :
    (reverse sys).length = sys.length ∧
    ∀ (j : ℕ) (e' e : Elem), (reverse sys)[j]? = some e' → sys[sys.length - 1 - j]? = some e →
      e'.shape = e.shape.map flipShape ∧ e'.radius = e.radius ∧ e'.tf.angles = e.tf.angles ∧
      e'.tf.direction = e.tf.direction ∧ Reachable e'.tf ∧
      (j = 0 → e'.tf.distance = 0) ∧
      (∀ g, 0 < j → sys[sys.length - j]? = some g → e'.tf.distance = g.tf.distance) ∧
      (∀ g, j + 1 < sys.length → sys[sys.length - 2 - j]? = some g → e'.mat = g.mat) ∧
      (j + 1 = sys.length → e'.mat = none) := by
  refine ⟨by simp [reverse], fun j e' e hj he => ?_⟩
  have hjl : j < sys.length := by
    have := (List.getElem?_eq_some_iff.mp hj).1
    simpa [reverse] using this
  rw [reverse_get sys j hjl e he] at hj
  cases hj
  have hr : Reachable e.tf := hsys e (List.mem_of_getElem? he)
  have hd0 : 0 ≤ ((sys[sys.length - j]?).map fun e => e.tf.distance).getD 0 := by
    cases hx : sys[sys.length - j]? with
    | none => simp
    | some x => simpa using (c12_invariant (hsys x (List.mem_of_getElem? hx))).1
  have hr' : Reachable (e.tf.setDistance
      (((sys[sys.length - j]?).map fun e => e.tf.distance).getD 0)) := by
    obtain ⟨d, u, a, o, ops, h⟩ := hr
    exact ⟨d, u, a, o, ops ++ [.distance _], by rw [List.foldl_append, ← h]; rfl⟩
  obtain ⟨-, h2, h3⟩ := c12_distance hr
    (((sys[sys.length - j]?).map fun e => e.tf.distance).getD 0)
  refine ⟨?_, rfl, h3, ?_, hr', ?_, ?_, ?_, ?_⟩
  · simp only [Elem.reverse]
    congr 1
    funext sh
    simp [Shape.reverse, flipShape]
  · simp only [setDistance]
    rw [update_direction, updDir_of_unit (c12_invariant hr).2.1, if_neg (not_lt.mpr hd0)]
  · rintro rfl
    rw [h2]; simp
  · intro g h0 hg
    rw [h2]
    simp only [hg, Option.map_some, Option.getD_some]
    exact abs_of_nonneg (c12_invariant (hsys g (List.mem_of_getElem? hg))).1
  · intro g h1 hg
    simp only [Elem.mat, if_pos h1, hg, Option.map_some, Option.getD_some]
  · intro h1
    simp only [Elem.mat, if_neg (show ¬ j + 1 < sys.length by omega), Option.getD_some]

/-- The system that remains after reversing twice: the first distance is zero, the last material is
`None`, everything else is restored (elements without a `material` attribute now have
`material = None`). -/
noncomputable def forgetEnds (sys : List Elem) : List Elem :=
  sys.zipIdx.map fun ei =>
    { ei.1 with
      tf := if ei.2 = 0 then ei.1.tf.setDistance 0 else ei.1.tf
      material := some (if ei.2 + 1 = sys.length then none else ei.1.mat) }

theorem flipShape_flipShape (sh : Shape) : flipShape (flipShape sh) = sh := by
  simp [flipShape]

/-- C22: reversing twice restores the system except for the first distance and the last
material. -/
theorem c22_involution (sys : List Elem) (hsys : ∀ e ∈ sys, Reachable e.tf) :
    reverse (reverse sys) = forgetEnds sys := by
  obtain ⟨hlen, hrev⟩ := c22_reverse sys hsys
  have hsys' : ∀ e ∈ reverse sys, Reachable e.tf := by
    intro e' he'
    obtain ⟨j, hj⟩ := List.mem_iff_getElem?.mp he'
    have hjl : j < sys.length := by
      have := (List.getElem?_eq_some_iff.mp hj).1
      simpa [reverse] using this
    exact (hrev j e' sys[sys.length - 1 - j] hj (List.getElem?_eq_getElem _)).2.2.2.2.1
  apply List.ext_getElem?
  intro j
  by_cases hj : j < sys.length
  swap
  · rw [List.getElem?_eq_none (by simp [reverse]; omega),
      List.getElem?_eq_none (by simp [forgetEnds]; omega)]
  have he : sys[j]? = some sys[j] := List.getElem?_eq_getElem hj
  have hk : sys.length - 1 - j < sys.length := by omega
  have hkk : sys.length - 1 - (sys.length - 1 - j) = j := by omega
  have h1 := reverse_get sys (sys.length - 1 - j) hk sys[j] (by rw [hkk]; exact he)
  have h2 := reverse_get (reverse sys) j (by omega) _ (by rw [hlen]; exact h1)
  rw [h2]
  unfold forgetEnds
  simp only [List.getElem?_map, List.getElem?_zipIdx, he, Option.map_some, Nat.zero_add,
    Option.some.injEq]
  have hr : Reachable sys[j].tf := hsys _ (List.getElem_mem hj)
  obtain ⟨hd, hu, -⟩ := c12_invariant hr
  have setset : ∀ a b : ℝ, 0 ≤ a → (sys[j].tf.setDistance a).setDistance b
      = sys[j].tf.setDistance b := by
    intro a b ha
    simp only [setDistance]
    rw [update_direction, update_angles, updDir_of_unit hu, if_neg (not_lt.mpr ha)]
  have hnn : 0 ≤ ((sys[sys.length - (sys.length - 1 - j)]?).map fun e => e.tf.distance).getD 0 := by
    cases hx : sys[sys.length - (sys.length - 1 - j)]? with
    | none => simp
    | some x => simpa using (c12_invariant (hsys x (List.mem_of_getElem? hx))).1
  congr 1
  · rw [setset _ _ hnn, hlen]
    by_cases h0 : j = 0
    · subst h0
      rw [if_pos rfl, List.getElem?_eq_none (by omega)]; rfl
    · rw [if_neg h0]
      have hk2 : sys.length - j < sys.length := by omega
      have h3 := reverse_get sys (sys.length - j) hk2 sys[j - 1] (by
        rw [show sys.length - 1 - (sys.length - j) = j - 1 by omega]
        exact List.getElem?_eq_getElem _)
      rw [h3]
      simp only [Option.map_some, Option.getD_some]
      rw [show sys.length - (sys.length - j) = j by omega, he]
      simp only [Option.map_some, Option.getD_some]
      have hr' : Reachable sys[j - 1].tf := hsys _ (List.getElem_mem _)
      rw [(c12_distance hr' _).2.1, abs_of_nonneg hd]
      exact setDistance_self hr
  · simp only [Elem.reverse]
    cases sys[j].shape with
    | none => rfl
    | some sh => simp [Shape.reverse, Function.comp_def]
  · simp only [hlen]
    congr 1
    by_cases h1 : j + 1 = sys.length
    · rw [if_pos h1, if_neg (by omega)]
    · rw [if_neg h1, if_pos (by omega)]
      have hk2 : sys.length - 2 - j < sys.length := by omega
      have h3 := reverse_get sys (sys.length - 2 - j) hk2 sys[j + 1] (by
        rw [show sys.length - 1 - (sys.length - 2 - j) = j + 1 by omega]
        exact List.getElem?_eq_getElem _)
      rw [h3]
      simp only [Option.map_some, Option.getD_some, Elem.mat]
      rw [if_pos (by omega), show sys.length - 2 - (sys.length - 2 - j) = j by omega, he]
      simp [Elem.mat]

example (d : ℝ) : Reachable (Transform.init d ez 0 none) := ⟨d, ez, 0, none, [], rfl⟩

end RayOpt
