import Verif.Model.Plot
import Verif.Props.Trace
import Verif.Props.System
import Verif.Props.GaussianModes

/-!
Property C92: what the traces draw.
-/

namespace RayOpt

open Sys V3 Plot Gauss

/-! ## Helpers -/

theorem vsplit_get {α β : Type*} (y : List α) (f : ℕ → α → β) : ∀ (i : List ℕ) (a c k : ℕ),
    i.Pairwise (· ≤ ·) → (∀ b ∈ i, a ≤ b ∧ b ≤ y.length) →
    (((vsplit y a i).zipIdx c).flatMap fun cj => cj.1.map (f cj.2))[k]?
      = (y[a + k]?).map (f (c + i.countP (· ≤ a + k)))
  | [], a, c, k, _, _ => by simp [vsplit]
  | b :: i, a, c, k, hp, hb => by
    obtain ⟨hp1, hp2⟩ := List.pairwise_cons.mp hp
    obtain ⟨h1, h2⟩ := hb b (by simp)
    simp only [vsplit, List.zipIdx_cons, List.flatMap_cons]
    have hlen : (((y.take b).drop a).map (f c)).length = b - a := by simp; omega
    by_cases hk : k < b - a
    · rw [List.getElem?_append_left (by omega)]
      have h0 : (b :: i).countP (· ≤ a + k) = 0 := by
        rw [List.countP_eq_zero]
        intro x hx
        have : b ≤ x := by
          rcases List.mem_cons.mp hx with rfl | hx
          · exact le_refl _
          · exact hp1 x hx
        simp only [decide_eq_true_eq]
        omega
      rw [h0, List.getElem?_map, List.getElem?_drop, List.getElem?_take_of_lt (by omega), Nat.add_zero]
    · rw [List.getElem?_append_right (by omega), hlen,
        vsplit_get y f i b (c + 1) (k - (b - a)) hp2 (fun x hx => ⟨hp1 x hx, (hb x (by simp [hx])).2⟩),
        List.countP_cons_of_pos (by simp; omega), show b + (k - (b - a)) = a + k by omega,
        show c + 1 + i.countP (· ≤ a + k) = c + (i.countP (· ≤ a + k) + 1) by omega]

/-- In a sorted list the entries up to `z` come first. -/
theorem countP_le_sorted : ∀ {l : List ℝ}, l.Pairwise (· ≤ ·) → ∀ (z : ℝ) (m : ℕ) (d : ℝ), l[m]? = some d →
    (d ≤ z ↔ m < l.countP (fun p => p ≤ z))
  | [], _, z, m, d, h => by simp at h
  | a :: l, hp, z, m, d, h => by
    obtain ⟨hp1, hp2⟩ := List.pairwise_cons.mp hp
    by_cases ha : a ≤ z
    · rw [List.countP_cons_of_pos (by simpa using ha)]
      cases m with
      | zero =>
        simp only [List.getElem?_cons_zero, Option.some.injEq] at h
        subst h
        exact ⟨fun _ => by omega, fun _ => ha⟩
      | succ m =>
        rw [List.getElem?_cons_succ] at h
        rw [countP_le_sorted hp2 z m d h]
        omega
    · have h0 : (a :: l).countP (fun p => p ≤ z) = 0 := by
        rw [List.countP_eq_zero]
        intro x hx
        rcases List.mem_cons.mp hx with rfl | hx
        · simpa using ha
        · have := hp1 x hx
          simp only [decide_eq_true_eq]
          linarith
      rw [h0]
      constructor
      · intro hd
        have : a ≤ d := by
          cases m with
          | zero => simp only [List.getElem?_cons_zero, Option.some.injEq] at h; exact h.le
          | succ m => exact hp1 d (List.mem_of_getElem? (by rwa [List.getElem?_cons_succ] at h))
        exact absurd (this.trans hd) ha
      · omega

/-- The number of entries below `v` is at most `k` iff the entry `k` is not below `v`. -/
theorem searchsorted_le {zs : List ℝ} (hp : zs.Pairwise (· ≤ ·)) (v : ℝ) {k : ℕ} {z : ℝ} (hk : zs[k]? = some z) :
    searchsorted zs v ≤ k ↔ v ≤ z := by
  unfold searchsorted
  induction zs generalizing k with
  | nil => simp at hk
  | cons a l ih =>
    obtain ⟨hp1, hp2⟩ := List.pairwise_cons.mp hp
    by_cases ha : a < v
    · rw [List.countP_cons_of_pos (by simpa using ha)]
      cases k with
      | zero =>
        simp only [List.getElem?_cons_zero, Option.some.injEq] at hk
        subst hk
        constructor
        · omega
        · intro h; linarith
      | succ k =>
        rw [List.getElem?_cons_succ] at hk
        rw [← ih hp2 hk]
        omega
    · have h0 : (a :: l).countP (fun p => p < v) = 0 := by
        rw [List.countP_eq_zero]
        intro x hx
        rcases List.mem_cons.mp hx with rfl | hx
        · simpa using ha
        · have := hp1 x hx
          simp only [decide_eq_true_eq, not_lt]
          linarith [not_lt.mp ha]
      rw [h0]
      have : a ≤ z := by
        cases k with
        | zero => simp only [List.getElem?_cons_zero, Option.some.injEq] at hk; exact hk.le
        | succ k => exact hp1 z (List.mem_of_getElem? (by rwa [List.getElem?_cons_succ] at hk))
      constructor
      · intro _; linarith [not_lt.mp ha]
      · omega

theorem searchsorted_mono (zs : List ℝ) {v w : ℝ} (h : v ≤ w) : searchsorted zs v ≤ searchsorted zs w := by
  unfold searchsorted
  apply List.countP_mono_left
  intro x _ hx
  simp only [decide_eq_true_eq] at hx ⊢
  linarith

theorem path_succ (sys : List Elem) (m : ℕ) (hm : m + 1 < sys.length) :
    (path sys).getD (m + 1) 0 = (path sys).getD m 0 + sys[m + 1].tf.distance := by
  obtain ⟨h1, -⟩ := c25_path sys m (by omega)
  obtain ⟨h2, -⟩ := c25_path sys (m + 1) hm
  rw [List.getD_eq_getElem?_getD, List.getD_eq_getElem?_getD, h1, h2]
  simp only [Option.getD_some]
  rw [List.take_succ_eq_append_getElem (i := m + 1) hm, List.map_append, List.sum_append]
  simp

theorem reachable_distance {t : Transform} (h : Reachable t) : 0 ≤ t.distance := by
  obtain ⟨d, u, a, rfl⟩ := h.is_update
  rw [Transform.update_distance]
  exact abs_nonneg d

theorem reachable_offset {t : Transform} (h : Reachable t) : t.offset = t.distance • t.direction := by
  obtain ⟨d, u, a, rfl⟩ := h.is_update
  rw [Transform.update_offset, Transform.update_distance, Transform.update_direction]

theorem path_sorted {sys : List Elem} (h : ∀ e ∈ sys, Reachable e.tf) : (path sys).Pairwise (· ≤ ·) := by
  have key : ∀ (l : List ℝ) (a : ℝ), (∀ x ∈ l, 0 ≤ x) → (l.scanl (· + ·) a).Pairwise (· ≤ ·) ∧
      ∀ x ∈ l.scanl (· + ·) a, a ≤ x := by
    intro l
    induction l with
    | nil => intro a _; simp
    | cons b l ih =>
      intro a hl
      obtain ⟨h1, h2⟩ := ih (a + b) fun x hx => hl x (by simp [hx])
      have hb := hl b (by simp)
      rw [List.scanl_cons]
      refine ⟨List.pairwise_cons.mpr ⟨fun x hx => by linarith [h2 x hx], h1⟩, fun x hx => ?_⟩
      rcases List.mem_cons.mp hx with rfl | hx
      · exact le_refl _
      · linarith [h2 x hx]
  unfold path
  refine (key _ 0 ?_).1.sublist (List.tail_sublist _)
  intro x hx
  obtain ⟨e, he, rfl⟩ := List.mem_map.mp hx
  exact reachable_distance (h e he)

theorem fromAxis_linear (t : Transform) (v w : V3) (c : ℝ) :
    t.fromAxis (v + c • w) = t.fromAxis v + c • t.fromAxis w := by
  unfold Transform.fromAxis
  rw [Transform.doRotate_linear]

theorem fromAxis_up {t : Transform} (h : Reachable t) (hd : t.direction = ez) (v : V3) : t.fromAxis v = v := by
  obtain ⟨d, u, a, rfl⟩ := h.is_update
  rw [Transform.update_direction] at hd
  unfold Transform.fromAxis
  rw [Transform.update_rotAxis, hd, if_pos ⟨Transform.close_self _, Transform.close_self _, Transform.close_self _⟩]
  rfl

theorem fromAxis_down {t : Transform} (h : Reachable t) (hd : t.direction = -ez) (v : V3) :
    t.fromAxis v = ⟨v.x, -v.y, -v.z⟩ := by
  obtain ⟨d, u, a, rfl⟩ := h.is_update
  rw [Transform.update_direction] at hd
  unfold Transform.fromAxis
  have hns : ¬allclose (-ez) ez := by
    rintro ⟨_, _, hz⟩; simp [close, ez] at hz; norm_num [abs_of_neg] at hz
  have h0 : (-ez).cross ez = 0 := by ext <;> simp [cross, ez]
  have hcl : allclose (0 : V3) 0 := ⟨Transform.close_self _, Transform.close_self _, Transform.close_self _⟩
  rw [Transform.update_rotAxis, hd, if_neg hns]
  have hn : (0 : V3).norm = 0 := by simp [V3.norm, dot]
  have hz : (-ez).z < 0 := by simp [ez]
  have hrot : Transform.updRot (-ez) = rotationMatrix Real.pi ⟨1, 0, 0⟩ := by
    unfold Transform.updRot
    simp only
    rw [if_pos hz, if_pos (by rw [h0]; exact hcl), h0, hn, Real.arcsin_zero, sub_zero]
  simp only [Transform.doRotate, hrot, Bool.false_eq_true, if_false]
  ext <;> simp [rotationMatrix, unitVector, M3.vecMul, V3.norm, dot]

/-- The vertex of the element before `j`: the sum of the offsets up to it. -/
theorem place_eq {sys : List Elem} {j : ℕ} (hj : j < sys.length) (hr : Reachable sys[j].tf) (p : V3) :
    place sys j p = sumV3 ((sys.take j).map fun e => e.tf.offset)
      + sys[j].tf.distance • sys[j].tf.direction
      + sys[j].tf.fromAxis (p - ⟨0, 0, ((sys.take j).map fun e => e.tf.distance).sum + sys[j].tf.distance⟩) := by
  unfold place
  have hm : min (sys.length - 1) j = j := by omega
  simp only [hm]
  rw [List.getElem?_eq_getElem hj]
  simp only [Option.map_some, Option.getD_some]
  rw [List.getD_eq_getElem?_getD, List.getD_eq_getElem?_getD, c25_origins sys j hj, (c25_path sys j hj).1,
    List.take_succ_eq_append_getElem hj, List.map_append, List.map_append, List.map_singleton, List.map_singleton,
    sumV3_append_singleton, List.sum_append, reachable_offset hr]
  simp

theorem mapM_get {α β : Type*} {f : α → Option β} : ∀ {l : List α} {r : List β}, l.mapM f = some r →
    r.length = l.length ∧ ∀ (k : ℕ) (x : α), l[k]? = some x → ∃ b, f x = some b ∧ r[k]? = some b
  | [], r, h => by
    simp only [List.mapM_nil, Option.pure_def, Option.some.injEq] at h
    subst h
    simp
  | a :: l, r, h => by
    simp only [List.mapM_cons, Option.bind_eq_bind, Option.bind_eq_some_iff, Option.pure_def, Option.some.injEq] at h
    obtain ⟨b, hb, r', hr', rfl⟩ := h
    obtain ⟨h1, h2⟩ := mapM_get hr'
    refine ⟨by simp [h1], fun k x hk => ?_⟩
    cases k with
    | zero =>
      simp only [List.getElem?_cons_zero, Option.some.injEq] at hk
      subst hk
      exact ⟨b, hb, rfl⟩
    | succ k => exact h2 k x hk

/-! ## C92 -/

/-- C92: a point `p` drawn with element `j` is the point of the straight line from the vertex before it in
its direction, as far behind that vertex as `p.z` is behind it along the path, and beside the line as far
as `p` is beside the axis; points behind the last element are drawn with that element. -/
theorem c92_place {sys : List Elem} {j : ℕ} (hj : j < sys.length) (hr : Reachable sys[j].tf)
    (hpole : sys[j].tf.direction = ez ∨ sys[j].tf.direction = -ez ∨ ¬allclose (sys[j].tf.direction.cross ez) 0)
    (p : V3) :
    let t := sys[j].tf
    let w := t.fromAxis ⟨p.x, p.y, 0⟩
    place sys j p = sumV3 ((sys.take j).map fun e => e.tf.offset)
      + (p.z - ((sys.take j).map fun e => e.tf.distance).sum) • t.direction + w ∧
    w.dot t.direction = 0 ∧ w.dot w = p.x ^ 2 + p.y ^ 2 ∧
    ∀ j', sys.length ≤ j' → place sys j' p = place sys (sys.length - 1) p := by
  intro t w
  have hez : t.fromAxis ez = t.direction := c11_axis_exact hr hpole
  refine ⟨?_, ?_, ?_, fun j' hj' => ?_⟩
  · rw [place_eq hj hr]
    have e1 : p - ⟨0, 0, ((sys.take j).map fun e => e.tf.distance).sum + sys[j].tf.distance⟩
        = ⟨p.x, p.y, 0⟩ + (p.z - (((sys.take j).map fun e => e.tf.distance).sum + sys[j].tf.distance)) • ez := by
      ext <;> simp [ez]
    rw [e1, fromAxis_linear, hez]
    ext <;> simp [t, w] <;> ring
  · rw [← hez, (c10_dot hr _ _).2.2.1]
    simp [dot, ez]
  · rw [(c10_dot hr _ _).2.2.1]
    simp only [dot]
    ring
  · unfold place
    rw [show min (sys.length - 1) j' = min (sys.length - 1) (sys.length - 1) by omega]

/-- C92: `from_axis` keeps the rows, and draws each with the element in front of which it lies on the path;
rows at a vertex belong to the next element. -/
theorem c92_from_axis {sys : List Elem} (hr : ∀ e ∈ sys, Reachable e.tf) {y : List (List V3)} {ref : ℕ}
    {i : List ℕ} (hi : splits sys y ref = some i)
    (hs : ∀ (k k' : ℕ) (r r' : List V3) (p p' : V3), k ≤ k' → y[k]? = some r → y[k']? = some r' → r[ref]? = some p → r'[ref]? = some p' →
      p.z ≤ p'.z) :
    (Plot.fromAxis sys y i).length = y.length ∧
    ∀ (k : ℕ) (r : List V3) (p : V3), y[k]? = some r → r[ref]? = some p → ∃ j, (Plot.fromAxis sys y i)[k]? = some (r.map (place sys j)) ∧
      j ≤ sys.length ∧ ∀ m d, (path sys)[m]? = some d → (d ≤ p.z ↔ m < j) := by
  unfold splits at hi
  rw [Option.map_eq_some_iff] at hi
  obtain ⟨zs, hzs, rfl⟩ := hi
  have hpath := path_sorted hr
  obtain ⟨hzlen, hzget⟩ := mapM_get hzs
  have hzsort : zs.Pairwise (· ≤ ·) := by
    rw [List.pairwise_iff_getElem]
    intro a b ha hb hab
    obtain ⟨z, h1, h2⟩ := hzget a (y[a]'(by omega)) (List.getElem?_eq_getElem _)
    obtain ⟨z', h1', h2'⟩ := hzget b (y[b]'(by omega)) (List.getElem?_eq_getElem _)
    rw [Option.map_eq_some_iff] at h1 h1'
    obtain ⟨q, hq, rfl⟩ := h1
    obtain ⟨q', hq', rfl⟩ := h1'
    rw [List.getElem?_eq_getElem ha, Option.some.injEq] at h2
    rw [List.getElem?_eq_getElem hb, Option.some.injEq] at h2'
    rw [h2, h2']
    exact hs a b _ _ q q' hab.le (List.getElem?_eq_getElem _) (List.getElem?_eq_getElem _) hq hq'
  have hget := fun k => vsplit_get y (fun j (r : List V3) => r.map (place sys j))
    ((path sys).map (searchsorted zs)) 0 0 k
    (by
      rw [List.pairwise_map]
      exact hpath.imp fun h => searchsorted_mono zs h)
    (by
      intro b hb
      obtain ⟨d, -, rfl⟩ := List.mem_map.mp hb
      exact ⟨Nat.zero_le _, by rw [← hzlen]; exact List.countP_le_length⟩)
  simp only [Nat.zero_add] at hget
  have hget' : ∀ k, (Plot.fromAxis sys y ((path sys).map (searchsorted zs)))[k]? = _ := hget
  constructor
  · apply le_antisymm
    · rw [← List.getElem?_eq_none_iff, hget', List.getElem?_eq_none (le_refl _)]
      rfl
    · have := hget' (Plot.fromAxis sys y ((path sys).map (searchsorted zs))).length
      rw [List.getElem?_eq_none (le_refl _)] at this
      rw [← List.getElem?_eq_none_iff]
      exact Option.map_eq_none_iff.mp this.symm
  · intro k r p hk hp
    refine ⟨_, by rw [hget', hk, Option.map_some], ?_, ?_⟩
    · exact List.countP_le_length.trans (by simp [path])
    · intro m d hm
      obtain ⟨z, h1, h2⟩ := hzget k r hk
      rw [hp, Option.map_some, Option.some.injEq] at h1
      subst h1
      rw [List.countP_map]
      have : (path sys).countP ((fun x => decide (x ≤ k)) ∘ searchsorted zs) = (path sys).countP fun d => d ≤ p.z := by
        apply List.countP_congr
        intro x _
        simp only [Function.comp, decide_eq_true_eq]
        exact searchsorted_le hzsort x h2
      rw [this]
      exact countP_le_sorted hpath p.z m d hm

/-- C92: a paraxial trace is drawn with its heights at the vertices, perpendicular to the axis behind each
of them; in a straight system this is the height over the position along the axis. -/
theorem c92_paraxial {sys : List Elem} (hr : ∀ e ∈ sys, Reachable e.tf)
    (hpole : ∀ e ∈ sys, e.tf.direction = ez ∨ e.tf.direction = -ez ∨ ¬allclose (e.tf.direction.cross ez) 0)
    {rows : List PRow} (hlen : rows.length = sys.length) :
    (Plot.paraxial sys rows).length = sys.length ∧
    ∀ (i : ℕ) (r : PRow) (o : V3) (e : Elem), rows[i]? = some r → (origins sys)[i]? = some o →
      sys[min (sys.length - 1) (i + 1)]? = some e →
      (Plot.paraxial sys rows)[i]? = some [o + e.tf.fromAxis ⟨r.y 0, r.y 0, 0⟩, o + e.tf.fromAxis ⟨r.y 1, r.y 1, 0⟩] ∧
      (e.tf.direction = ez → (Plot.paraxial sys rows)[i]? =
        some [o + ⟨r.y 0, r.y 0, 0⟩, o + ⟨r.y 1, r.y 1, 0⟩]) := by
  have hpl : (path sys).length = sys.length := by simp [path]
  set y := List.zipWith (fun (r : PRow) z => ([⟨r.y 0, r.y 0, z⟩, ⟨r.y 1, r.y 1, z⟩] : List V3)) rows (path sys) with hy
  have hyl : y.length = sys.length := by rw [hy, List.length_zipWith, hlen, hpl, min_self]
  have hget := fun k => vsplit_get y (fun j (r : List V3) => r.map (place sys j))
    (List.range sys.length) 0 0 k
    (by
      rw [List.pairwise_iff_getElem]
      intro a b ha hb hab
      simp only [List.getElem_range]
      exact hab.le)
    (by
      intro b hb
      rw [List.mem_range] at hb
      exact ⟨Nat.zero_le _, by omega⟩)
  simp only [Nat.zero_add] at hget
  have hget' : ∀ k, (Plot.paraxial sys rows)[k]? = _ := hget
  have hcount : ∀ k, k < sys.length → (List.range sys.length).countP (· ≤ k) = k + 1 := by
    intro k hk
    have h1 : ∀ n, (List.range n).countP (· ≤ k) = min n (k + 1) := by
      intro n
      induction n with
      | zero => simp
      | succ n ih =>
        rw [List.range_succ, List.countP_append, ih, List.countP_singleton]
        split_ifs with h
        · simp only [decide_eq_true_eq] at h; omega
        · simp only [decide_eq_true_eq] at h; omega
    rw [h1]; omega
  constructor
  · apply le_antisymm
    · rw [← List.getElem?_eq_none_iff, hget', List.getElem?_eq_none (by omega)]
      rfl
    · have := hget' (Plot.paraxial sys rows).length
      rw [List.getElem?_eq_none (le_refl _)] at this
      rw [← hyl, ← List.getElem?_eq_none_iff]
      exact Option.map_eq_none_iff.mp this.symm
  · intro i r o e hri ho he
    have hi : i < sys.length := by rw [← hlen]; exact (List.getElem?_eq_some_iff.mp hri).1
    have hyi : y[i]? = some [⟨r.y 0, r.y 0, (path sys)[i]'(by omega)⟩, ⟨r.y 1, r.y 1, (path sys)[i]'(by omega)⟩] := by
      rw [hy, List.getElem?_zipWith, hri, List.getElem?_eq_getElem (by omega)]
    have hem := List.mem_of_getElem? he
    have hplace : ∀ a b : ℝ, place sys (i + 1) ⟨a, b, (path sys)[i]'(by omega)⟩ = o + e.tf.fromAxis ⟨a, b, 0⟩ := by
      intro a b
      have hez : e.tf.fromAxis ez = e.tf.direction := c11_axis_exact (hr e hem) (hpole e hem)
      have hoff := reachable_offset (hr e hem)
      by_cases h : i + 1 < sys.length
      · have hm : min (sys.length - 1) (i + 1) = i + 1 := by omega
        rw [hm] at he
        have hes : sys[i + 1] = e := by
          rw [List.getElem?_eq_getElem h, Option.some.injEq] at he; exact he
        obtain ⟨o', h1, h2⟩ := origins_succ sys i h
        obtain rfl : o = o' := Option.some.inj (ho.symm.trans h1)
        unfold place
        simp only [hm, he, Option.map_some, Option.getD_some]
        rw [List.getD_eq_getElem?_getD (l := origins sys), h2, path_succ sys i h, hes, hoff, Option.getD_some,
          List.getD_eq_getElem?_getD, List.getElem?_eq_getElem (by omega : i < (path sys).length), Option.getD_some]
        have e1 : (⟨a, b, (path sys)[i]'(by omega)⟩ : V3) - ⟨0, 0, (path sys)[i]'(by omega) + e.tf.distance⟩
            = ⟨a, b, 0⟩ + (-e.tf.distance) • ez := by ext <;> simp [ez]
        rw [e1, fromAxis_linear, hez]
        ext <;> simp <;> ring
      · have hm : min (sys.length - 1) (i + 1) = i := by omega
        rw [hm] at he
        unfold place
        simp only [hm, he, Option.map_some, Option.getD_some]
        rw [List.getD_eq_getElem?_getD (l := origins sys), ho, Option.getD_some,
          List.getD_eq_getElem?_getD, List.getElem?_eq_getElem (by omega : i < (path sys).length), Option.getD_some]
        congr 2
        ext <;> simp
    have hmain : (Plot.paraxial sys rows)[i]? =
        some [o + e.tf.fromAxis ⟨r.y 0, r.y 0, 0⟩, o + e.tf.fromAxis ⟨r.y 1, r.y 1, 0⟩] := by
      rw [hget', hyi, hcount i hi]
      simp [hplace]
    refine ⟨hmain, fun hd => ?_⟩
    rw [hmain, fromAxis_up (hr e hem) hd, fromAxis_up (hr e hem) hd]

theorem count_take_same {sys : List Elem} {a b : ℕ} (hab : a ≤ b)
    (h : ∀ m e, a ≤ m → m < b → sys[m]? = some e → ¬ e.isMirror) :
    (sys.take b).countP Elem.isMirror = (sys.take a).countP Elem.isMirror := by
  induction b, hab using Nat.le_induction with
  | base => rfl
  | succ b hb ih =>
    rw [List.take_add_one, List.countP_append, ih fun m e h1 h2 => h m e h1 (by omega)]
    cases he : sys[b]? with
    | none => simp
    | some e => simp [h b e hb (by omega) he]

/-- C92: in a system whose axis is folded by its mirrors, the meridional cut of a beam is drawn with its
radius on the same side everywhere, and both sides at the same position along the axis, between the first
and the last element, except at a mirror. -/
theorem c92_beam {sys : List Elem} (hr : ∀ e ∈ sys, Reachable e.tf)
    (hfold : ∀ (j : ℕ) (e : Elem), sys[j]? = some e →
      e.tf.direction = ((-1 : ℝ) ^ (sys.take j).countP Elem.isMirror) • ez)
    {zs : List ℝ} (hs : zs.Pairwise (· ≤ ·)) {w : ℝ → ℝ × ℝ} {out : List (List V3)}
    (h : beam sys zs w = some out) {k : ℕ} {z : ℝ} (hk : zs[k]? = some z)
    (hfirst : ∃ d, (path sys)[0]? = some d ∧ d < z) (hlast : ∃ d ∈ path sys, z ≤ d)
    (hm : ∀ (m : ℕ) (e : Elem), m + 1 < sys.length → sys[m]? = some e → (path sys)[m]? = some z → ¬ e.isMirror) :
    ∃ a b c d j, out[k]? = some [a, b, c, d] ∧ a.y = (w z).1 ∧ b.y = (w z).2 ∧ c.y = -(w z).1 ∧ d.y = -(w z).2 ∧
      (∀ q ∈ [a, b, c, d], q.z = (place sys j ⟨0, 0, z⟩).z) ∧
      ∀ m d, (path sys)[m]? = some d → (d ≤ z ↔ m < j) := by
  have hpl : (path sys).length = sys.length := by simp [path]
  unfold beam at h
  simp only [Option.map_eq_some_iff] at h
  obtain ⟨i, hi, rfl⟩ := h
  set y := zs.map fun z => beamRow sys z (w z).1 (w z).2 with hy
  have hyget : ∀ (k : ℕ) (r : List V3) (p : V3), y[k]? = some r → r[0]? = some p → zs[k]? = some p.z := by
    intro k r p h1 h2
    rw [hy, List.getElem?_map, Option.map_eq_some_iff] at h1
    obtain ⟨z, hz, rfl⟩ := h1
    rw [hz]
    simp only [beamRow, List.getElem?_cons_zero, Option.some.injEq] at h2
    rw [← h2]
  obtain ⟨-, hrow⟩ := c92_from_axis hr hi (by
    intro k k' r r' p p' hkk h1 h2 h3 h4
    have g1 := hyget k r p h1 h3
    have g2 := hyget k' r' p' h2 h4
    obtain ⟨e1, rfl'⟩ := List.getElem?_eq_some_iff.mp g1
    obtain ⟨e2, rfl''⟩ := List.getElem?_eq_some_iff.mp g2
    rcases hkk.eq_or_lt with rfl | hlt
    · rw [← rfl', ← rfl'']
    · rw [← rfl', ← rfl'']
      exact (List.pairwise_iff_getElem.mp hs) k k' e1 e2 hlt)
  have hyk : y[k]? = some (beamRow sys z (w z).1 (w z).2) := by rw [hy, List.getElem?_map, hk]; rfl
  obtain ⟨j, hj, hjl, hjm⟩ := hrow k _ _ hyk rfl
  have hjm' : ∀ m d, (path sys)[m]? = some d → (d ≤ z ↔ m < j) := hjm
  -- the sign
  obtain ⟨d0, hd0, hd0z⟩ := hfirst
  have hpos : 0 < sys.length := by rw [← hpl]; exact (List.getElem?_eq_some_iff.mp hd0).1
  set c := searchsorted (path sys) z with hc
  have hcm : ∀ m d, (path sys)[m]? = some d → (d < z ↔ m < c) := by
    intro m d hmd
    have := searchsorted_le (path_sorted hr) z hmd
    rw [← hc] at this
    rw [← not_le, ← this, not_le]
  have hc0 : 0 < c := (hcm 0 d0 hd0).mp hd0z
  have hcl : c < sys.length := by
    obtain ⟨d, hd, hzd⟩ := hlast
    obtain ⟨m, hmd⟩ := List.mem_iff_getElem?.mp hd
    have h1 := (List.getElem?_eq_some_iff.mp hmd).1
    have h2 := (hcm m d hmd).not.mp (not_lt.mpr hzd)
    omega
  have hcj : c ≤ j := by
    by_contra hlt
    push Not at hlt
    have hj' : j < (path sys).length := by omega
    have h1 := (hcm j _ (List.getElem?_eq_getElem hj')).mpr hlt
    have h2 := (hjm' j _ (List.getElem?_eq_getElem hj')).mp h1.le
    omega
  set j' := min (sys.length - 1) j with hj'
  have hj'l : j' < sys.length := by omega
  have hsame : (sys.take j').countP Elem.isMirror = (sys.take c).countP Elem.isMirror := by
    refine count_take_same (by omega) fun m e h1 h2 he => hm m e (by omega) he ?_
    have hml : m < (path sys).length := by omega
    have g1 := (hjm' m _ (List.getElem?_eq_getElem hml)).mpr (by omega)
    have g2 := (hcm m _ (List.getElem?_eq_getElem hml)).not.mpr (by omega)
    rw [List.getElem?_eq_getElem hml, le_antisymm g1 (not_lt.mp g2)]
  have hsign : beamSign sys z = (-1) ^ (sys.take c).countP Elem.isMirror := by
    unfold beamSign
    simp only [← hc]
    rw [if_neg (by omega), List.getD_eq_getElem?_getD, c29_parity sys (c - 1) (by omega),
      Option.getD_some, show c - 1 + 1 = c by omega]
  have hdir := hfold j' sys[j'] (List.getElem?_eq_getElem hj'l)
  have hrj := hr sys[j'] (List.getElem_mem hj'l)
  -- the height of a point in the drawing
  have hplace : ∀ a b : ℝ, (place sys j ⟨a, b, z⟩).y
      = (-1 : ℝ) ^ (sys.take c).countP Elem.isMirror * b + (place sys j ⟨0, 0, z⟩).y ∧
      (place sys j ⟨a, b, z⟩).z = (place sys j ⟨0, 0, z⟩).z := by
    intro a b
    unfold place
    simp only [← hj', List.getElem?_eq_getElem hj'l, Option.map_some, Option.getD_some]
    rw [hsame] at hdir
    rcases neg_one_pow_eq_or ℝ ((sys.take c).countP Elem.isMirror) with hp | hp
    · rw [hp] at hdir ⊢
      have hd : sys[j'].tf.direction = ez := by rw [hdir]; ext <;> simp
      rw [fromAxis_up hrj hd, fromAxis_up hrj hd]
      simp
      ring
    · rw [hp] at hdir ⊢
      have hd : sys[j'].tf.direction = -ez := by rw [hdir]; ext <;> simp
      rw [fromAxis_down hrj hd, fromAxis_down hrj hd]
      simp
      ring
  have horig : (place sys j ⟨0, 0, z⟩).y = 0 := by
    have e0 : place sys j ⟨0, 0, z⟩ = place sys j' ⟨0, 0, z⟩ := by
      unfold place
      rw [hj', min_eq_right (Nat.min_le_left _ _)]
    have hoff : ∀ e ∈ sys, e.tf.offset.y = 0 := by
      intro e he
      obtain ⟨m, hme⟩ := List.mem_iff_getElem?.mp he
      rw [reachable_offset (hr e he), hfold m e hme]
      simp [ez]
    rw [e0, place_eq hj'l hrj]
    have h1 : (sumV3 ((sys.take j').map fun e => e.tf.offset)).y = 0 := by
      simp only [sumV3, List.map_map]
      apply List.sum_eq_zero
      intro x hx
      obtain ⟨e, he, rfl⟩ := List.mem_map.mp hx
      exact hoff e (List.mem_of_mem_take he)
    have h2 : (sys[j'].tf.distance • sys[j'].tf.direction).y = 0 := by
      rw [← reachable_offset hrj]
      exact hoff _ (List.getElem_mem hj'l)
    have h3 : ∀ t : ℝ, (sys[j'].tf.fromAxis ((⟨0, 0, z⟩ : V3) - ⟨0, 0, t⟩)).y = 0 := by
      intro t
      rcases neg_one_pow_eq_or ℝ ((sys.take j').countP Elem.isMirror) with hp | hp
      · rw [fromAxis_up hrj (by rw [hdir, hp]; ext <;> simp)]
        simp
      · rw [fromAxis_down hrj (by rw [hdir, hp]; ext <;> simp)]
        simp
    rw [V3.add_y, V3.add_y, h1, h2, h3]
    ring
  have hsq : (-1 : ℝ) ^ (sys.take c).countP Elem.isMirror * (-1 : ℝ) ^ (sys.take c).countP Elem.isMirror = 1 := by
    rcases neg_one_pow_eq_or ℝ ((sys.take c).countP Elem.isMirror) with hp | hp <;> rw [hp] <;> norm_num
  have hsq' : ∀ x : ℝ, (-1 : ℝ) ^ (sys.take c).countP Elem.isMirror *
      ((-1 : ℝ) ^ (sys.take c).countP Elem.isMirror * x) = x := by
    intro x; rw [← mul_assoc, hsq, one_mul]
  rw [hj]
  refine ⟨_, _, _, _, j, rfl, ?_, ?_, ?_, ?_, ?_, hjm'⟩
  · rw [(hplace _ _).1, horig, hsign]
    push_cast
    rw [hsq', add_zero]
  · rw [(hplace _ _).1, horig, hsign]
    push_cast
    rw [hsq', add_zero]
  · rw [(hplace _ _).1, horig, hsign]
    push_cast
    rw [mul_neg, hsq', add_zero]
  · rw [(hplace _ _).1, horig, hsign]
    push_cast
    rw [mul_neg, hsq', add_zero]
  · intro q hq
    simp only [List.mem_cons, List.not_mem_nil, or_false] at hq
    rcases hq with rfl | rfl | rfl | rfl <;> exact (hplace _ _).2

/-- C92: a traced ray is drawn as the path of the ray: successive points are joined along its direction. -/
theorem c92_rays {nwt : Shape.NewtonFn} {sys : List Elem} {l : ℝ} {clp : Bool} {arr out : List Elem.Row}
    (hlen : arr.length = sys.length) (hsys : ∀ e ∈ sys, Reachable e.tf)
    (h : gtPropagate nwt sys l clp 1 none arr = some out) (j : ℕ) (hj : j + 1 < sys.length)
    (a b : Elem.Row) (ha : out[j]? = some a) (hb : out[j + 1]? = some b) (τ : ℝ) (ht : b.t = some τ) :
    ∃ (p q u : V3) (s : ℝ), (rayPoints sys (out.map Elem.Row.y))[j]? = some (some p) ∧
      (rayPoints sys (out.map Elem.Row.y))[j + 1]? = some (some q) ∧ a.u = some u ∧
      q = p + s • sys[j].tf.fromNormal u := by
  obtain ⟨p, q, u, s, oa, ob, h1, h2, h3, h4, h5, h6, -, -⟩ := c14_path hlen hsys h j hj a b ha hb τ ht
  refine ⟨labPos sys[j] oa p, labPos sys[j + 1] ob q, u, s, ?_, ?_, h3, ?_⟩
  · unfold rayPoints labPos
    rw [List.getElem?_zipWith, List.getElem?_zip_eq_some (z := (sys[j], oa)).mpr ⟨List.getElem?_eq_getElem (by omega), h4⟩,
      List.getElem?_map, ha]
    simp only [Option.map_some, h1]
    congr 2
    ext <;> simp <;> ring
  · unfold rayPoints labPos
    rw [List.getElem?_zipWith, List.getElem?_zip_eq_some (z := (sys[j + 1], ob)).mpr ⟨List.getElem?_eq_getElem hj, h5⟩,
      List.getElem?_map, hb]
    simp only [Option.map_some, h2]
    congr 2
    ext <;> simp <;> ring
  · rw [← h6]
    ext <;> simp

/-- A mirror at distance 1 and an image plane back at the object. -/
noncomputable def foldSystem : List Elem :=
  [⟨Transform.init 0 ez 0 none, .fin 1, none, none⟩,
   ⟨Transform.init 1 ez 0 none, .fin 1, some ⟨0, 0, none, false⟩, some (some mirrorMaterial)⟩,
   ⟨Transform.init 1 (-ez) 0 none, .fin 1, none, none⟩]

theorem fold_reachable : ∀ e ∈ foldSystem, Reachable e.tf := by
  intro e he
  simp only [foldSystem, List.mem_cons, List.not_mem_nil, or_false] at he
  rcases he with rfl | rfl | rfl
  · exact ⟨0, ez, 0, none, [], rfl⟩
  · exact ⟨1, ez, 0, none, [], rfl⟩
  · exact ⟨1, -ez, 0, none, [], rfl⟩

theorem fold_directions : (Transform.init 0 ez 0 none).direction = ez ∧ (Transform.init 1 ez 0 none).direction = ez ∧
    (Transform.init 1 (-ez) 0 none).direction = -ez := by
  have h1 : ez.norm = 1 := by simp [V3.norm, dot, ez]
  have h2 : (-ez).norm = 1 := by simp [V3.norm, dot, ez]
  simp only [Transform.init, Transform.update_direction, Transform.updDir, h1, h2]
  refine ⟨?_, ?_, ?_⟩ <;> norm_num <;> ext <;> simp

theorem fold_up (v : V3) : (Transform.init 1 ez 0 none).fromAxis v = v :=
  fromAxis_up ⟨1, ez, 0, none, [], rfl⟩ fold_directions.2.1 v

theorem fold_down (v : V3) : (Transform.init 1 (-ez) 0 none).fromAxis v = ⟨v.x, -v.y, -v.z⟩ :=
  fromAxis_down ⟨1, -ez, 0, none, [], rfl⟩ fold_directions.2.2 v

theorem fold_distances : (Transform.init 0 ez 0 none).distance = 0 ∧ (Transform.init 1 ez 0 none).distance = 1 ∧
    (Transform.init 1 (-ez) 0 none).distance = 1 := by
  simp [Transform.init, Transform.update_distance]

theorem fold_path : path foldSystem = [0, 1, 2] := by
  obtain ⟨h1, h2, h3⟩ := fold_distances
  simp only [path, foldSystem, List.map_cons, List.map_nil, h1, h2, h3, List.scanl_cons, List.scanl_nil, List.tail_cons]
  norm_num

theorem fold_origins : origins foldSystem = [0, ez, 0] := by
  obtain ⟨h1, h2, h3⟩ := fold_distances
  obtain ⟨g1, g2, g3⟩ := fold_directions
  have r : ∀ (d : ℝ) (v : V3), Reachable (Transform.init d v 0 none) := fun d v => ⟨d, v, 0, none, [], rfl⟩
  simp only [origins, foldSystem, List.map_cons, List.map_nil, reachable_offset (r _ _), h1, h2, h3, g1, g2, g3,
    List.scanl_cons, List.scanl_nil, List.tail_cons]
  congr 1
  · ext <;> simp
  · congr 1
    · ext <;> simp
    · congr 1
      ext <;> simp

/-- C92, violated behind a mirror: the ray parallel to the axis at height one is drawn from the height one
at the object to the height minus one at the mirror. -/
theorem c92_paraxial_violation : ∃ (sys : List Elem) (rows : List PRow), (∀ e ∈ sys, Reachable e.tf) ∧
    rows.length = sys.length ∧ (∀ r ∈ rows, r.y 0 = 1 ∧ r.u 0 = 0) ∧ ∃ p q : V3,
      ((Plot.paraxial sys rows)[0]?.bind fun l => l[0]?) = some p ∧ ((Plot.paraxial sys rows)[1]?.bind fun l => l[0]?) = some q ∧
      p.y = 1 ∧ q.y = -1 ∧ p.z = 0 ∧ q.z = 1 := by
  obtain ⟨g1, g2, g3⟩ := fold_directions
  refine ⟨foldSystem, List.replicate 3 ⟨1, fun _ => 1, fun _ => 0⟩, fold_reachable, by simp [foldSystem], ?_, ?_⟩
  · intro r hr
    rw [List.eq_of_mem_replicate hr]
    exact ⟨rfl, rfl⟩
  obtain ⟨-, h⟩ := c92_paraxial fold_reachable (by
    intro e he
    simp only [foldSystem, List.mem_cons, List.not_mem_nil, or_false] at he
    rcases he with rfl | rfl | rfl
    · exact .inl g1
    · exact .inl g2
    · exact .inr (.inl g3)) (rows := List.replicate 3 ⟨1, fun _ => 1, fun _ => 0⟩) (by simp [foldSystem])
  have h0 := (h 0 _ 0 _ rfl (by rw [fold_origins]; rfl) (by simp [foldSystem]; rfl)).1
  have h1 := (h 1 _ ez _ rfl (by rw [fold_origins]; rfl) (by simp [foldSystem]; rfl)).1
  rw [h0, h1]
  refine ⟨_, _, rfl, rfl, ?_, ?_, ?_, ?_⟩
  · dsimp only; rw [fold_up]; simp
  · dsimp only; rw [fold_down]; simp [ez]
  · dsimp only; rw [fold_up]; simp
  · dsimp only; rw [fold_down]; simp [ez]

theorem fold_mirrored : mirrored foldSystem = [1, -1, -1] := by
  simp [mirrored, foldSystem, Elem.isMirror, Elem.mat, mirrorMaterial]

theorem fold_axis : ∀ (j : ℕ) (e : Elem), foldSystem[j]? = some e →
      e.tf.direction = ((-1 : ℝ) ^ (foldSystem.take j).countP Elem.isMirror) • ez := by
  obtain ⟨g1, g2, g3⟩ := fold_directions
  intro j e he
  rcases j with _ | _ | _ | j
  · simp only [foldSystem, List.getElem?_cons_zero, Option.some.injEq] at he
    subst he
    rw [g1]; ext <;> simp
  · simp only [foldSystem, List.getElem?_cons_zero, List.getElem?_cons_succ, Option.some.injEq] at he
    subst he
    rw [g2]; ext <;> simp [foldSystem, Elem.isMirror, Elem.mat]
  · simp only [foldSystem, List.getElem?_cons_zero, List.getElem?_cons_succ, Option.some.injEq] at he
    subst he
    rw [g3]; ext <;> simp [foldSystem, Elem.isMirror, Elem.mat, mirrorMaterial]
  · simp [foldSystem] at he

/-- C92, violated at the first element: with an odd number of mirrors the curve starts on the wrong side,
and crosses the axis before the second point. -/
theorem c92_beam_violation : ∃ (out : List (List V3)) (a b : V3), beam foldSystem [0, 1 / 2] (fun _ => (1, 1)) = some out ∧
    (out[0]?.bind fun l => l[0]?) = some a ∧ (out[1]?.bind fun l => l[0]?) = some b ∧
    a.y = -1 ∧ a.z = 0 ∧ b.y = 1 ∧ b.z = 1 / 2 := by
  obtain ⟨g1, g2, g3⟩ := fold_directions
  have hp0 : searchsorted (path foldSystem) 0 = 0 := by
    rw [fold_path]; norm_num [searchsorted]
  have hp1 : searchsorted (path foldSystem) (1 / 2) = 1 := by
    rw [fold_path]; norm_num [searchsorted, List.countP_cons]
  have s0 : beamSign foldSystem 0 = -1 := by
    unfold beamSign; simp only [hp0, fold_mirrored]; rfl
  have s1 : beamSign foldSystem (1 / 2) = 1 := by
    unfold beamSign; simp only [hp1, fold_mirrored]; rfl
  have hpl : ∀ p : V3, place foldSystem 1 p = p := by
    intro p
    unfold place
    have : min (foldSystem.length - 1) 1 = 1 := by simp [foldSystem]
    simp only [this]
    have he : foldSystem[1]? = some ⟨Transform.init 1 ez 0 none, .fin 1, some ⟨0, 0, none, false⟩,
        some (some mirrorMaterial)⟩ := rfl
    rw [fold_origins, fold_path, he]
    simp only [Option.map_some, Option.getD_some]
    rw [fold_up]
    ext <;> simp [ez]
  have hsp : splits foldSystem ([0, 1 / 2].map fun z => beamRow foldSystem z 1 1) 0 = some [0, 2, 2] := by
    unfold splits
    rw [fold_path]
    simp [beamRow, searchsorted, List.countP_cons]
    norm_num
  unfold beam
  simp only [hsp, Option.map_some]
  refine ⟨_, _, _, rfl, rfl, rfl, ?_⟩
  simp only [hpl, s0, s1]
  norm_num

/-- The hypotheses of `c92_beam` and `c92_from_axis` are met by the system with one mirror and the points
before and behind it. -/
example : ∃ out, beam foldSystem [1 / 2, 3 / 2] (fun z => (1, z)) = some out ∧
    (∃ d, (path foldSystem)[0]? = some d ∧ d < (3 / 2 : ℝ)) ∧ (∃ d ∈ path foldSystem, (3 / 2 : ℝ) ≤ d) ∧
    ∀ m : ℕ, (path foldSystem)[m]? ≠ some (3 / 2 : ℝ) := by
  refine ⟨_, by simp [beam, splits, beamRow]; rfl, ?_, ?_, ?_⟩
  · rw [fold_path]; exact ⟨0, rfl, by norm_num⟩
  · rw [fold_path]; exact ⟨2, by simp, by norm_num⟩
  · intro m
    rw [fold_path]
    rcases m with _ | _ | _ | m
    · norm_num
    · norm_num
    · norm_num
    · simp

end RayOpt
