import Mathlib.Tactic
import Verif.Model.CompiledAxis

/-!
C116: norms and unit vectors along an axis in the compiled module.
-/

namespace RayOpt.CompiledAxis

open Finset

theorem indices_set : ∀ (ds : List ℕ) (a : ℕ), a < ds.length →
    indices (ds.set a 1) = (indices (ds.eraseIdx a)).map fun t => t.insertIdx a 0
  | [], a, h => by simp at h
  | d :: ds, 0, _ => by simp [indices]
  | d :: ds, a + 1, h => by
    simp only [List.set_cons_succ, List.eraseIdx_cons_succ, indices, List.map_flatMap]
    rw [indices_set ds a (by simpa using h)]
    simp [List.map_map, Function.comp_def]

theorem mem_indices : ∀ (ds t : List ℕ), t ∈ indices ds ↔ List.Forall₂ (· < ·) t ds
  | [], t => by simp [indices]
  | d :: ds, t => by
    simp only [indices, List.mem_flatMap, List.mem_range, List.mem_map]
    constructor
    · rintro ⟨i, hi, s, hs, rfl⟩
      exact .cons hi ((mem_indices ds s).mp hs)
    · intro h
      cases h with
      | cons h1 h2 => exact ⟨_, h1, _, (mem_indices ds _).mpr h2, rfl⟩

theorem insert_mem : ∀ (ds t : List ℕ) (a s : ℕ), a < ds.length → t ∈ indices (ds.eraseIdx a) →
    s < ds.getD a 0 → t.insertIdx a s ∈ indices ds
  | [], _, _, _, h, _, _ => by simp at h
  | d :: ds, t, 0, s, _, ht, hs => by
    rw [mem_indices] at ht ⊢
    simp only [List.insertIdx_zero]
    exact .cons (by simpa using hs) (by simpa using ht)
  | d :: ds, t, a + 1, s, h, ht, hs => by
    rw [mem_indices] at ht
    rw [List.eraseIdx_cons_succ] at ht
    cases ht with
    | @cons i _ t' _ h1 h2 =>
      rw [List.insertIdx_succ_cons, mem_indices]
      exact .cons h1 ((mem_indices _ _).mp (insert_mem ds t' a s (by simpa using h)
        ((mem_indices _ _).mpr h2) (by simpa using hs)))

theorem mem_insert : ∀ (ds t : List ℕ) (a : ℕ), a < ds.length → t ∈ indices ds →
    ∃ t' s, t' ∈ indices (ds.eraseIdx a) ∧ s < ds.getD a 0 ∧ t = t'.insertIdx a s
  | [], _, _, h, _ => by simp at h
  | d :: ds, t, 0, _, ht => by
    rw [mem_indices] at ht
    cases ht with
    | @cons i _ t' _ h1 h2 => exact ⟨t', i, by simpa [mem_indices] using h2, by simpa using h1, by simp⟩
  | d :: ds, t, a + 1, h, ht => by
    rw [mem_indices] at ht
    cases ht with
    | @cons i _ t' _ h1 h2 =>
      obtain ⟨t'', s, h3, h4, h5⟩ := mem_insert ds t' a (by simpa using h) ((mem_indices _ _).mpr h2)
      refine ⟨i :: t'', s, ?_, by simpa using h4, by simp [h5]⟩
      rw [List.eraseIdx_cons_succ, mem_indices]
      exact .cons h1 ((mem_indices _ _).mp h3)

theorem insert_inj : ∀ (ds t t' : List ℕ) (a s s' : ℕ), a < ds.length → t ∈ indices (ds.eraseIdx a) →
    t' ∈ indices (ds.eraseIdx a) → t.insertIdx a s = t'.insertIdx a s' → t = t' ∧ s = s'
  | [], _, _, _, _, _, h, _, _, _ => by simp at h
  | d :: ds, t, t', 0, s, s', _, _, _, he => by
    simp only [List.insertIdx_zero, List.cons.injEq] at he
    exact ⟨he.2, he.1⟩
  | d :: ds, t, t', a + 1, s, s', h, ht, ht', he => by
    rw [List.eraseIdx_cons_succ, mem_indices] at ht ht'
    cases ht with
    | @cons i _ u _ h1 h2 =>
      cases ht' with
      | @cons i' _ u' _ h1' h2' =>
        simp only [List.insertIdx_succ_cons, List.cons.injEq] at he
        obtain ⟨e1, e2⟩ := insert_inj ds u u' a s s' (by simpa using h) ((mem_indices _ _).mpr h2)
          ((mem_indices _ _).mpr h2') he.2
        exact ⟨by rw [he.1, e1], e2⟩

theorem length_indices : ∀ ds : List ℕ, (indices ds).length = ds.prod
  | [] => rfl
  | d :: ds => by simp [indices, List.length_flatMap, length_indices ds]

theorem nodup_indices : ∀ ds : List ℕ, (indices ds).Nodup
  | [] => by simp [indices]
  | d :: ds => by
    rw [indices, List.nodup_flatMap]
    refine ⟨fun i _ => (nodup_indices ds).map fun x y h => (List.cons.inj h).2, ?_⟩
    refine List.Pairwise.imp ?_ List.nodup_range
    intro i j hij
    rw [Function.onFun, List.disjoint_left]
    intro t h1 h2
    simp only [List.mem_map] at h1 h2
    obtain ⟨u, -, rfl⟩ := h1
    obtain ⟨w, -, e⟩ := h2
    exact hij (List.cons.inj e).1.symm

theorem offset_insert : ∀ (ds t : List ℕ) (ss : List ℤ) (a s : ℕ), a < ds.length → ss.length = ds.length →
    t ∈ indices (ds.eraseIdx a) → offset (t.insertIdx a s) ss = offset (t.insertIdx a 0) ss + s * ss.getD a 0
  | [], _, _, _, _, h, _, _ => by simp at h
  | d :: ds, t, [], _, _, _, h, _ => by simp at h
  | d :: ds, t, x :: ss, 0, s, _, _, _ => by
    simp [offset]
    ring
  | d :: ds, t, x :: ss, a + 1, s, h, hl, ht => by
    rw [List.eraseIdx_cons_succ, mem_indices] at ht
    cases ht with
    | @cons i _ u _ h1 h2 =>
      simp only [List.insertIdx_succ_cons, offset, List.getD_cons_succ]
      rw [offset_insert ds u ss a s (by simpa using h) (by simpa using hl) ((mem_indices _ _).mpr h2)]
      ring

theorem addr_insert (v : View) (hs : v.strides.length = v.dims.length) {a : ℕ} (ha : a < v.dims.length)
    {t : List ℕ} (ht : t ∈ indices (v.dims.eraseIdx a)) (s : ℕ) :
    v.addr (t.insertIdx a s) = v.addr (t.insertIdx a 0) + s * v.strides.getD a 0 := by
  unfold View.addr
  rw [offset_insert v.dims t v.strides a s ha hs ht]
  ring

theorem allBut_eq (v : View) {a : ℕ} (ha : a < v.dims.length) (h0 : v.dims.prod ≠ 0) :
    v.allBut a = (indices (v.dims.eraseIdx a)).map fun t => v.addr (t.insertIdx a 0) := by
  rw [View.allBut, if_neg h0, indices_set _ _ ha, List.map_map]
  rfl

theorem sumStrided_eq (mem : Mem) (d : ℤ) (y : ℕ → ℝ) : ∀ (n : ℕ) (p : ℤ) (l : ℝ) (k : ℕ),
    (∀ s < n, mem (p + s * d) = some (y (k + s))) →
    sumStrided mem d n p (some l) = some (l + ∑ s ∈ range n, y (k + s) ^ 2)
  | 0, p, l, k, _ => by simp [sumStrided]
  | n + 1, p, l, k, h => by
    have h0 := h 0 (by omega)
    simp only [Nat.cast_zero, zero_mul, add_zero] at h0
    simp only [sumStrided, h0, Option.bind_eq_bind, Option.bind_some]
    rw [sumStrided_eq mem d y n (p + d) _ (k + 1)]
    · rw [sum_range_succ']
      congr 1
      have : ∀ s, k + 1 + s = k + (s + 1) := fun s => by omega
      simp only [this, Nat.add_zero]
      ring
    · intro s hs
      have := h (s + 1) (by omega)
      rw [show k + 1 + s = k + (s + 1) by omega, ← this]
      congr 1
      push_cast
      ring

theorem sumContiguous_eq (mem : Mem) (y : ℕ → ℝ) (p : ℤ) : ∀ (n : ℕ), (∀ s < n, mem (p + s) = some (y s)) →
    sumContiguous mem n p = some (∑ s ∈ range n, y s ^ 2)
  | 0, _ => by simp [sumContiguous]
  | n + 1, h => by
    have ih := sumContiguous_eq mem y p n fun s hs => h s (by omega)
    unfold sumContiguous at ih ⊢
    rw [List.range_succ, List.foldl_append, ih]
    simp only [List.foldl_cons, List.foldl_nil, Option.bind_eq_bind, Option.bind_some, h n (by omega)]
    rw [sum_range_succ]
    congr 1
    ring

theorem badSize_false (dims : List ℕ) (a : ℕ) : ∀ (ds : List ℕ) (i j : ℕ), (∀ k, ds[k]? = dims[i + k]?) →
    (i ≤ a → j = i) → (a < i → j + 1 = i) → badSize a (dims.eraseIdx a) i j ds = false
  | [], _, _, _, _, _ => rfl
  | d :: ds, i, j, h, h1, h2 => by
    have hd : dims[i]? = some d := by simpa using (h 0).symm
    have hn : ∀ k, ds[k]? = dims[i + 1 + k]? := fun k => by
      have := h (k + 1)
      rw [List.getElem?_cons_succ] at this
      rw [this]
      congr 1
      omega
    unfold badSize
    by_cases hi : i = a
    · simp only [hi, ne_eq, not_true_eq_false, if_false]
      rw [← hi]
      exact badSize_false dims i ds (i + 1) j hn (by omega) (fun _ => by have := h1 hi.le; omega)
    · have hj : (dims.eraseIdx a)[j]? = some d := by
        rw [List.getElem?_eraseIdx]
        rcases Nat.lt_or_ge i a with h3 | h3
        · rw [h1 h3.le, if_pos h3, hd]
        · have h4 := h2 (by omega)
          rw [if_neg (by omega), h4, hd]
      simp only [ne_eq, hi, not_false_eq_true, if_true, hj, not_true_eq_false, if_false]
      exact badSize_false dims a ds (i + 1) (j + 1) hn (fun h3 => by rw [h1 (by omega)]) (fun h3 => by
        have := h2 (by omega)
        omega)

theorem store_ok : ∀ (cells vals : List (Option ℝ)), vals.length ≤ cells.length →
    store cells vals = .ok (vals ++ cells.drop vals.length)
  | cells, [], _ => by simp [store]
  | [], _ :: _, h => by simp at h
  | c :: cells, v :: vs, h => by
    simp [store, store_ok cells vs (by simpa using h), Except.map]

theorem store_overrun : ∀ (cells vals : List (Option ℝ)), cells.length < vals.length →
    store cells vals = .error .overrun
  | cells, [], h => by simp at h
  | [], _ :: _, _ => by simp [store]
  | c :: cells, v :: vs, h => by
    simp [store, store_overrun cells vs (by simpa using h), Except.map]

theorem resolve_ok {n : ℕ} {axis : ℤ} {a : ℕ} (h : axis = a ∨ axis = (a : ℤ) - n) (ha : a < n) :
    resolveAxis n axis = .ok a := by
  unfold resolveAxis
  dsimp only
  rcases h with rfl | rfl
  · rw [if_neg (by omega : ¬ (a : ℤ) < 0), if_neg (by omega)]
    simp
  · rw [if_pos (by omega : (a : ℤ) - n < 0), if_neg (by omega)]
    simp

theorem resolve_error {n : ℕ} {axis : ℤ} (h : axis < -n ∨ (n : ℤ) ≤ axis) : resolveAxis n axis = .error .axis := by
  unfold resolveAxis
  dsimp only
  split <;> rw [if_pos (by omega)]

/-- The values that `vector_norm` writes. -/
theorem norm_values {mem : Mem} {v : View} (hs : v.strides.length = v.dims.length) {a : ℕ} (ha : a < v.dims.length)
    {x : List ℕ → ℝ} (hx : ∀ t ∈ indices v.dims, mem (v.addr t) = some (x t)) (h0 : v.dims.prod ≠ 0) :
    ((v.allBut a).map fun p => ((if v.strides.getD a 0 = 1 then sumContiguous mem (v.dims.getD a 0) p
      else sumStrided mem (v.strides.getD a 0) (v.dims.getD a 0) p (some 0)).map Real.sqrt))
    = (indices (v.dims.eraseIdx a)).map fun t =>
        some (√(∑ s ∈ range (v.dims.getD a 0), x (t.insertIdx a s) ^ 2)) := by
  rw [allBut_eq v ha h0, List.map_map]
  refine List.map_congr_left fun t ht => ?_
  have hm : ∀ s < v.dims.getD a 0,
      mem (v.addr (t.insertIdx a 0) + s * v.strides.getD a 0) = some (x (t.insertIdx a s)) := fun s hs' => by
    rw [← addr_insert v hs ha ht s]
    exact hx _ (insert_mem _ _ _ _ ha ht hs')
  dsimp only [Function.comp]
  split_ifs with h1
  · rw [sumContiguous_eq mem (fun s => x (t.insertIdx a s))]
    · rfl
    · intro s hs'
      rw [← hm s hs', h1, mul_one]
  · rw [sumStrided_eq mem _ (fun s => x (t.insertIdx a s)) _ _ _ 0]
    · simp
    · intro s hs'
      rw [hm s hs', Nat.zero_add]

theorem prod_erase (ds : List ℕ) (a : ℕ) (ha : a < ds.length) : ds.prod = ds.getD a 0 * (ds.eraseIdx a).prod := by
  rw [List.getD_eq_getElem?_getD, List.getElem?_eq_getElem ha, Option.getD_some, List.mul_prod_eraseIdx ha fun _ _ => Commute.all _ _]

/-- C116: `vector_norm` along an axis, counted from the front or from the back, of an array anywhere in memory with
any strides: a new array, or a given one of the right shape, gets for every index into the other axes the root of the
sum of the squares of the entries along the axis. -/
theorem c116_norm (junk : ℕ → Option ℝ) {mem : Mem} {v : View} (hs : v.strides.length = v.dims.length) {a : ℕ}
    (ha : a < v.dims.length) {axis : ℤ} (hax : axis = a ∨ axis = (a : ℤ) - v.dims.length)
    {x : List ℕ → ℝ} (hx : ∀ t ∈ indices v.dims, mem (v.addr t) = some (x t)) (h0 : v.dims.prod ≠ 0)
    (out : Option (List ℕ × List (Option ℝ)))
    (hout : ∀ o ∈ out, o.1 = v.dims.eraseIdx a ∧ o.2.length = o.1.prod) :
    ∃ r, vectorNorm junk mem v axis out = .ok r ∧ r.length = (v.dims.eraseIdx a).prod ∧
      ∀ (k : ℕ) (t : List ℕ), (indices (v.dims.eraseIdx a))[k]? = some t →
        r[k]? = some (some (√(∑ s ∈ range (v.dims.getD a 0), x (t.insertIdx a s) ^ 2))) := by
  have key : ∀ cells : List (Option ℝ), cells.length = (v.dims.eraseIdx a).prod →
      store cells ((v.allBut a).map fun p => ((if v.strides.getD a 0 = 1 then sumContiguous mem (v.dims.getD a 0) p
        else sumStrided mem (v.strides.getD a 0) (v.dims.getD a 0) p (some 0)).map Real.sqrt))
      = .ok ((indices (v.dims.eraseIdx a)).map fun t =>
        some (√(∑ s ∈ range (v.dims.getD a 0), x (t.insertIdx a s) ^ 2))) := by
    intro cells hc
    rw [norm_values hs ha hx h0, store_ok _ _ (by simp [length_indices, hc]),
      List.drop_eq_nil_of_le (by simp [length_indices, hc]), List.append_nil]
  refine ⟨(indices (v.dims.eraseIdx a)).map fun t =>
    some (√(∑ s ∈ range (v.dims.getD a 0), x (t.insertIdx a s) ^ 2)), ?_, by rw [List.length_map, length_indices], ?_⟩
  rotate_left
  · intro k t hk
    rw [List.getElem?_map, hk, Option.map_some]
  · unfold vectorNorm
    simp only [resolve_ok hax ha, bind, Except.bind]
    cases out with
    | none => exact key _ (by simp)
    | some o =>
      obtain ⟨h1, h2⟩ := hout o rfl
      have h3 : v.dims.length = o.1.length + 1 := by
        rw [h1, List.length_eraseIdx_of_lt ha]
        omega
      dsimp only
      rw [if_neg (by simpa using h3), badSize_false v.dims a v.dims 0 0 (by simp) (by simp) (by simp)]
      exact key _ (by rw [h2, h1])

/-- C116: with an axis that the array does not have, both functions raise, and so do `vector_norm` for an output
array with another number of axes than one less and `unit_vector` for one with another shape. -/
theorem c116_refused (junk : ℕ → Option ℝ) (mem : Mem) (v : View) (axis : ℤ) :
    ((axis < -v.dims.length ∨ (v.dims.length : ℤ) ≤ axis) → ∀ out w, vectorNorm junk mem v axis out = .error .axis ∧
      ∃ e, unitVector mem v w axis = .error e) ∧
    (∀ o : List ℕ × List (Option ℝ), o.1.length + 1 ≠ v.dims.length →
      ∃ e, vectorNorm junk mem v axis (some o) = .error e) ∧
    ∀ w : View, w.dims ≠ v.dims → unitVector mem v w axis = .error .shape := by
  refine ⟨fun h out w => ⟨?_, ?_⟩, fun o h => ?_, fun w h => ?_⟩
  · simp only [vectorNorm, resolve_error h, bind, Except.bind]
  · unfold unitVector
    split
    · exact ⟨_, rfl⟩
    · exact ⟨_, by simp only [resolve_error h, bind, Except.bind]; rfl⟩
  · unfold vectorNorm
    cases hr : resolveAxis v.dims.length axis with
    | error e => exact ⟨e, rfl⟩
    | ok a =>
      refine ⟨.ndim, ?_⟩
      simp only [bind, Except.bind]
      rw [if_pos (Ne.symm h)]
  · unfold unitVector
    rw [if_pos (Ne.symm h)]

/-- C116 is violated by an output array that is too small: the check of its shape compares the shape of the data with
itself, and the norms are written behind its end. -/
theorem c116_overrun_violation (junk : ℕ → Option ℝ) {mem : Mem} {v : View} {a : ℕ}
    (ha : a < v.dims.length) {axis : ℤ} (hax : axis = a ∨ axis = (a : ℤ) - v.dims.length) (h0 : v.dims.prod ≠ 0)
    (odims : List ℕ) (cells : List (Option ℝ)) (hd : odims.length + 1 = v.dims.length)
    (hc : cells.length < (v.dims.eraseIdx a).prod) :
    vectorNorm junk mem v axis (some (odims, cells)) = .error .overrun := by
  unfold vectorNorm
  simp only [resolve_ok hax ha, bind, Except.bind]
  rw [if_neg (by simpa using hd.symm), badSize_false v.dims a v.dims 0 0 (by simp) (by simp) (by simp)]
  refine store_overrun _ _ ?_
  rw [allBut_eq v ha h0]
  simpa [length_indices] using hc

/-- C116 is violated by an output array of any other wrong shape with the right number of axes as well: it is accepted,
and what exceeds the number of norms keeps its old values. -/
theorem c116_larger_violation (junk : ℕ → Option ℝ) {mem : Mem} {v : View} {a : ℕ}
    (ha : a < v.dims.length) {axis : ℤ} (hax : axis = a ∨ axis = (a : ℤ) - v.dims.length) (h0 : v.dims.prod ≠ 0)
    (odims : List ℕ) (cells : List (Option ℝ)) (hd : odims.length + 1 = v.dims.length)
    (hc : (v.dims.eraseIdx a).prod ≤ cells.length) :
    ∃ r, vectorNorm junk mem v axis (some (odims, cells)) = .ok r ∧ r.length = cells.length ∧
      ∀ k, (v.dims.eraseIdx a).prod ≤ k → r[k]? = cells[k]? := by
  obtain ⟨w, hw⟩ : ∃ w, w = ((v.allBut a).map fun p => ((if v.strides.getD a 0 = 1 then
      sumContiguous mem (v.dims.getD a 0) p
      else sumStrided mem (v.strides.getD a 0) (v.dims.getD a 0) p (some 0)).map Real.sqrt)) := ⟨_, rfl⟩
  have hlen : w.length = (v.dims.eraseIdx a).prod := by
    rw [hw, allBut_eq v ha h0]
    simp [length_indices]
  have hres : vectorNorm junk mem v axis (some (odims, cells)) = .ok (w ++ cells.drop w.length) := by
    unfold vectorNorm
    simp only [resolve_ok hax ha, bind, Except.bind]
    rw [if_neg (by simpa using hd.symm), badSize_false v.dims a v.dims 0 0 (by simp) (by simp) (by simp)]
    rw [hw] at hlen ⊢
    exact store_ok _ _ (by rw [hlen]; exact hc)
  refine ⟨_, hres, ?_, ?_⟩
  · rw [List.length_append, List.length_drop, hlen]
    omega
  · intro k hk
    rw [List.getElem?_append_right (by rw [hlen]; exact hk), List.getElem?_drop, hlen]
    congr 1
    omega

/-- C116 is violated along an axis without entries: the norms, which should be zero, are what the memory of the new
array contained before. -/
theorem c116_empty_violation (junk : ℕ → Option ℝ) {mem : Mem} {v : View} {a : ℕ}
    (ha : a < v.dims.length) {axis : ℤ} (hax : axis = a ∨ axis = (a : ℤ) - v.dims.length) (h0 : v.dims.getD a 0 = 0) :
    vectorNorm junk mem v axis none = .ok ((List.range (v.dims.eraseIdx a).prod).map junk) := by
  unfold vectorNorm
  simp only [resolve_ok hax ha, bind, Except.bind]
  rw [View.allBut, if_pos (by rw [prod_erase _ _ ha, h0, zero_mul])]
  simp [store]

/-! ## Unit vectors -/

theorem scaleContiguous_eq (len : Option ℝ) : ∀ (n : ℕ) (p q : ℤ) (mem : Mem),
    scaleContiguous len n p q mem = scaleStrided len 1 1 n p q mem := by
  have key : ∀ (n k : ℕ) (p q : ℤ) (mem : Mem),
      ((List.range' k n).foldl (fun m (i : ℕ) => Function.update m (q + (i : ℤ)) (times (m (p + (i : ℤ))) len)) mem)
        = scaleStrided len 1 1 n (p + k) (q + k) mem := by
    intro n
    induction n with
    | zero => intro k p q mem; rfl
    | succ n ih =>
      intro k p q mem
      rw [List.range'_succ, List.foldl_cons, ih (k + 1) p q]
      simp only [scaleStrided]
      push_cast
      rw [add_assoc, add_assoc]
  intro n p q mem
  have := key n 0 p q mem
  rw [← List.range_eq_range'] at this
  simpa [scaleContiguous] using this

theorem sumContiguous_strided (mem : Mem) (n : ℕ) (p : ℤ) :
    sumContiguous mem n p = sumStrided mem 1 n p (some 0) := by
  have key : ∀ (n k : ℕ) (p : ℤ) (l : Option ℝ),
      ((List.range' k n).foldl (fun len (s : ℕ) => do
        let l ← len
        let t ← mem (p + s)
        some (l + t * t)) l) = sumStrided mem 1 n (p + k) l := by
    intro n
    induction n with
    | zero => intro k p l; rfl
    | succ n ih =>
      intro k p l
      rw [List.range'_succ, List.foldl_cons, ih (k + 1) p]
      simp only [sumStrided]
      push_cast
      rw [add_assoc]
  have := key n 0 p (some 0)
  rw [← List.range_eq_range'] at this
  simpa [sumContiguous] using this

theorem unitLine_eq (d o : ℤ) (size : ℕ) (mem : Mem) (p q : ℤ) : unitLine d o size mem (p, q)
    = scaleStrided (inverseRoot (sumStrided mem d size p (some 0))) d o size p q mem := by
  unfold unitLine
  split_ifs with h
  · rw [scaleContiguous_eq, sumContiguous_strided, h.1, h.2]
  · rfl

theorem scaleStrided_other (len : Option ℝ) (d o : ℤ) : ∀ (n : ℕ) (p q : ℤ) (mem : Mem) (z : ℤ),
    (∀ i < n, z ≠ q + (i : ℕ) * o) → scaleStrided len d o n p q mem z = mem z
  | 0, _, _, _, _, _ => rfl
  | n + 1, p, q, mem, z, h => by
    rw [scaleStrided, scaleStrided_other len d o n]
    · rw [Function.update_of_ne]
      simpa using h 0 (by omega)
    · intro i hi
      have := h (i + 1) (by omega)
      push_cast at this
      intro e
      exact this (by rw [e]; ring)

theorem scaleStrided_at (len : Option ℝ) (d o : ℤ) : ∀ (n : ℕ) (p q : ℤ) (mem : Mem),
    (∀ i < n, ∀ j < n, q + (i : ℕ) * o = q + (j : ℕ) * o → i = j) →
    (∀ i < n, ∀ j < n, q + (i : ℕ) * o = p + (j : ℕ) * d → i = j) →
    ∀ i < n, scaleStrided len d o n p q mem (q + (i : ℕ) * o) = times (mem (p + (i : ℕ) * d)) len
  | 0, _, _, _, _, _, i, hi => absurd hi (by omega)
  | n + 1, p, q, mem, h1, h2, i, hi => by
    rw [scaleStrided]
    cases i with
    | zero =>
      simp only [Nat.cast_zero, zero_mul, add_zero]
      rw [scaleStrided_other, Function.update_self]
      intro j hj e
      have := h1 0 (by omega) (j + 1) (by omega) (by push_cast; rw [zero_mul, add_zero]; linear_combination e)
      omega
    | succ i =>
      have ih := scaleStrided_at len d o n (p + d) (q + o) (Function.update mem q (times (mem p) len))
        (fun i hi j hj e => by
          have := h1 (i + 1) (by omega) (j + 1) (by omega) (by push_cast; linear_combination e)
          omega)
        (fun i hi j hj e => by
          have := h2 (i + 1) (by omega) (j + 1) (by omega) (by push_cast; linear_combination e)
          omega) i (by omega)
      have e1 : q + ((i + 1 : ℕ) : ℤ) * o = q + o + i * o := by push_cast; ring
      have e2 : p + ((i + 1 : ℕ) : ℤ) * d = p + d + i * d := by push_cast; ring
      rw [e1, ih, e2, Function.update_of_ne]
      intro e
      have := h2 0 (by omega) (i + 1) (by omega) (by push_cast; rw [zero_mul, add_zero]; linear_combination -e)
      omega

theorem sumStrided_congr {mem mem' : Mem} {d : ℤ} : ∀ {n : ℕ} {p : ℤ} {l : Option ℝ},
    (∀ i < n, mem' (p + (i : ℕ) * d) = mem (p + (i : ℕ) * d)) → sumStrided mem' d n p l = sumStrided mem d n p l
  | 0, _, _, _ => rfl
  | n + 1, p, l, h => by
    have h0 := h 0 (by omega)
    simp only [Nat.cast_zero, zero_mul, add_zero] at h0
    simp only [sumStrided, h0]
    refine sumStrided_congr fun i hi => ?_
    have := h (i + 1) (by omega)
    push_cast at this
    rw [show p + d + i * d = p + (i + 1) * d by ring]
    exact this

theorem lines_fold {α : Type} (d o : ℤ) (n : ℕ) (p q : α → ℤ) : ∀ (T : List α) (mem : Mem), T.Nodup →
    (∀ t ∈ T, ∀ t' ∈ T, ∀ i < n, ∀ j < n, q t + (i : ℕ) * o = q t' + (j : ℕ) * o → t = t' ∧ i = j) →
    (∀ t ∈ T, ∀ t' ∈ T, ∀ i < n, ∀ j < n, q t + (i : ℕ) * o = p t' + (j : ℕ) * d → t = t' ∧ i = j) →
    let mem' := (T.map fun t => (p t, q t)).foldl (unitLine d o n) mem
    (∀ t ∈ T, ∀ i < n, mem' (q t + (i : ℕ) * o)
      = times (mem (p t + (i : ℕ) * d)) (inverseRoot (sumStrided mem d n (p t) (some 0)))) ∧
    ∀ z, (∀ t ∈ T, ∀ i < n, z ≠ q t + (i : ℕ) * o) → mem' z = mem z := by
  intro T
  induction T with
  | nil => intro mem _ _ _; exact ⟨by simp, fun _ _ => rfl⟩
  | cons t T ih =>
    intro mem hnd hq hp
    obtain ⟨hnt, hnd⟩ := List.nodup_cons.mp hnd
    rw [List.map_cons, List.foldl_cons, unitLine_eq]
    set mem1 := scaleStrided (inverseRoot (sumStrided mem d n (p t) (some 0))) d o n (p t) (q t) mem with hm1
    have hat := scaleStrided_at (inverseRoot (sumStrided mem d n (p t) (some 0))) d o n (p t) (q t) mem
      (fun i hi j hj e => (hq t (by simp) t (by simp) i hi j hj e).2)
      (fun i hi j hj e => (hp t (by simp) t (by simp) i hi j hj e).2)
    have hoth := scaleStrided_other (inverseRoot (sumStrided mem d n (p t) (some 0))) d o n (p t) (q t) mem
    rw [← hm1] at hat hoth
    obtain ⟨h1, h2⟩ := ih mem1 hnd
      (fun s hs s' hs' => hq s (List.mem_cons_of_mem _ hs) s' (List.mem_cons_of_mem _ hs'))
      (fun s hs s' hs' => hp s (List.mem_cons_of_mem _ hs) s' (List.mem_cons_of_mem _ hs'))
    refine ⟨?_, ?_⟩
    · intro s hs i hi
      rcases List.mem_cons.mp hs with rfl | hs
      · rw [h2, hat i hi]
        intro s' hs' j hj e
        have := (hq s (by simp) s' (List.mem_cons_of_mem _ hs') i hi j hj e).1
        exact hnt (this ▸ hs')
      · have hsame : ∀ j < n, mem1 (p s + (j : ℕ) * d) = mem (p s + (j : ℕ) * d) := by
          intro j hj
          refine hoth _ fun k hk e => ?_
          have := (hp t (by simp) s (List.mem_cons_of_mem _ hs) k hk j hj e.symm).1
          exact hnt (this ▸ hs)
        rw [h1 s hs i hi, hsame i hi, sumStrided_congr hsame]
    · intro z hz
      rw [h2 z fun s hs => hz s (List.mem_cons_of_mem _ hs)]
      exact hoth z (hz t (by simp))

/-- C116: `unit_vector` along an axis, into an array of the same shape with any strides whose entries are distinct and
are none of the data, or which is the data itself: every entry becomes that of the data divided by the norm of its
line, NaN if that is zero; no other memory is written. -/
theorem c116_unit {mem : Mem} {v out : View} (hs : v.strides.length = v.dims.length)
    (hso : out.strides.length = out.dims.length) (hd : out.dims = v.dims) {a : ℕ} (ha : a < v.dims.length) {axis : ℤ}
    (hax : axis = a ∨ axis = (a : ℤ) - v.dims.length)
    {x : List ℕ → ℝ} (hx : ∀ t ∈ indices v.dims, mem (v.addr t) = some (x t))
    (hinj : ∀ t ∈ indices v.dims, ∀ t' ∈ indices v.dims, out.addr t = out.addr t' → t = t')
    (hal : ∀ t ∈ indices v.dims, ∀ t' ∈ indices v.dims, out.addr t = v.addr t' → t = t') :
    ∃ mem', unitVector mem v out axis = .ok mem' ∧
      (∀ t ∈ indices (v.dims.eraseIdx a), ∀ i < v.dims.getD a 0,
        let len := √(∑ s ∈ range (v.dims.getD a 0), x (t.insertIdx a s) ^ 2)
        mem' (out.addr (t.insertIdx a i)) = if len = 0 then none else some (x (t.insertIdx a i) / len)) ∧
      ∀ z, (∀ t ∈ indices v.dims, z ≠ out.addr t) → mem' z = mem z := by
  have hao : a < out.dims.length := by rw [hd]; exact ha
  have hto : ∀ t, t ∈ indices (v.dims.eraseIdx a) → t ∈ indices (out.dims.eraseIdx a) := by rw [hd]; exact fun _ h => h
  unfold unitVector
  rw [if_neg (by simpa using hd.symm), resolve_ok hax ha]
  refine ⟨_, rfl, ?_⟩
  by_cases h0 : v.dims.prod = 0
  · have he : indices v.dims = [] := List.length_eq_zero_iff.mp (by rw [length_indices, h0])
    refine ⟨fun t ht i hi => ?_, fun z _ => ?_⟩
    · have := insert_mem v.dims t a i ha ht hi
      rw [he] at this
      simp at this
    · rw [View.allBut, if_pos h0]
      rfl
  · rw [allBut_eq v ha h0, allBut_eq out hao (by rw [hd]; exact h0), hd, List.zip_map']
    obtain ⟨h1, h2⟩ := lines_fold (v.strides.getD a 0) (out.strides.getD a 0) (v.dims.getD a 0)
      (fun t => v.addr (t.insertIdx a 0)) (fun t => out.addr (t.insertIdx a 0)) (indices (v.dims.eraseIdx a)) mem
      (nodup_indices _)
      (fun t ht t' ht' i hi j hj e => by
        rw [← addr_insert out hso hao (hto t ht), ← addr_insert out hso hao (hto t' ht')] at e
        exact insert_inj _ _ _ _ _ _ ha ht ht' (hinj _ (insert_mem _ _ _ _ ha ht hi) _ (insert_mem _ _ _ _ ha ht' hj) e))
      (fun t ht t' ht' i hi j hj e => by
        rw [← addr_insert out hso hao (hto t ht), ← addr_insert v hs ha ht'] at e
        exact insert_inj _ _ _ _ _ _ ha ht ht' (hal _ (insert_mem _ _ _ _ ha ht hi) _ (insert_mem _ _ _ _ ha ht' hj) e))
    refine ⟨fun t ht i hi => ?_, fun z hz => h2 z fun t ht i hi e => ?_⟩
    · have hm : ∀ s < v.dims.getD a 0,
          mem (v.addr (t.insertIdx a 0) + s * v.strides.getD a 0) = some (x (t.insertIdx a s)) := fun s hs' => by
        rw [← addr_insert v hs ha ht s]
        exact hx _ (insert_mem _ _ _ _ ha ht hs')
      rw [addr_insert out hso hao (hto t ht), h1 t ht i hi, hm i hi,
        sumStrided_eq mem _ (fun s => x (t.insertIdx a s)) _ _ _ 0 (fun s hs' => by rw [hm s hs', Nat.zero_add])]
      simp only [zero_add, inverseRoot, Option.bind_some]
      split_ifs
      · rfl
      · simp [times, div_eq_mul_inv]
    · rw [← addr_insert out hso hao (hto t ht)] at e
      exact hz _ (insert_mem _ _ _ _ ha ht hi) e

/-! ## Examples -/

/-- Two vectors, one behind the other in memory. -/
def exMem : Mem := fun z => [some 3, some 4, some 0, some 0].getD z.toNat none

/-- The vectors as the rows of an array. -/
def exRows : View := ⟨0, [2, 2], [2, 1]⟩

/-- The vectors as the columns of its transpose. -/
def exColumns : View := ⟨0, [2, 2], [1, 2]⟩

/-- The order of the indices. -/
example : indices [2, 3] = [[0, 0], [0, 1], [0, 2], [1, 0], [1, 1], [1, 2]] := by decide

/-- The hypotheses of `c116_norm` and `c116_unit`, here in place, are met by both arrays. -/
example : ∃ x : List ℕ → ℝ,
    exRows.strides.length = exRows.dims.length ∧ (-1 : ℤ) = ((1 : ℕ) : ℤ) - exRows.dims.length ∧
    (∀ t ∈ indices exRows.dims, exMem (exRows.addr t) = some (x t)) ∧ exRows.dims.prod ≠ 0 ∧
    (∀ t ∈ indices exRows.dims, ∀ t' ∈ indices exRows.dims, exRows.addr t = exRows.addr t' → t = t') ∧
    (∀ t ∈ indices exRows.dims, ∀ t' ∈ indices exRows.dims, exRows.addr t = exColumns.addr t' → t = [t'.getD 1 0, t'.getD 0 0]) ∧
    x [0, 1] = 4 := by
  refine ⟨fun t => [3, 4, 0, 0].getD (2 * t.getD 0 0 + t.getD 1 0) 0, rfl, rfl, ?_, by decide, ?_, ?_, ?_⟩
  · have : indices exRows.dims = [[0, 0], [0, 1], [1, 0], [1, 1]] := by decide
    rw [this]
    simp [exMem, exRows, View.addr, offset]
  · decide
  · decide
  · simp

/-- The norms of the two vectors, written one after the other; with room for one only, the second one goes behind the
end; with room for three, the last stays. -/
example : vectorNorm (fun _ => none) exMem exRows (-1) none = .ok [some 5, some 0] ∧
    vectorNorm (fun _ => none) exMem exColumns 0 none = .ok [some 5, some 0] ∧
    vectorNorm (fun _ => none) exMem exRows 1 (some ([1], [none])) = .error .overrun ∧
    vectorNorm (fun _ => none) exMem exRows 1 (some ([3], [none, none, some 7])) = .ok [some 5, some 0, some 7] := by
  have h25 : √(3 * 3 + 4 * 4 : ℝ) = 5 := by
    rw [show (3 * 3 + 4 * 4 : ℝ) = 5 ^ 2 by norm_num]
    exact Real.sqrt_sq (by norm_num)
  refine ⟨?_, ?_, ?_, ?_⟩ <;>
    simp [vectorNorm, resolveAxis, exRows, exColumns, exMem, View.allBut, indices, View.addr, offset, sumContiguous,
      sumStrided, List.range_succ, store, badSize, bind, Except.bind, Except.map, h25]

/-- Three empty vectors: their norms are what was there before. -/
example : vectorNorm (fun k => some k) (fun _ => none) ⟨0, [3, 0], [1, 1]⟩ 1 none = .ok [some 0, some 1, some 2] := by
  have := c116_empty_violation (fun k => some (k : ℝ)) (mem := fun _ => none) (v := ⟨0, [3, 0], [1, 1]⟩) (a := 1)
    (by decide) (axis := 1) (.inl rfl) rfl
  rw [this]
  simp [List.range_succ]

end RayOpt.CompiledAxis
