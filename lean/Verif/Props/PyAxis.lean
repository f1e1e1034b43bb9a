import Verif.Model.PyAxis
import Verif.Props.CompiledAxis

/-!
C116: the compiled and the Python `vector_norm` and `unit_vector` along an axis.
-/

namespace RayOpt.PyAxis

open CompiledAxis Finset

theorem pyAxis_ok {n : ℕ} {axis : ℤ} {a : ℕ} (h : axis = a ∨ axis = (a : ℤ) - n) (ha : a < n) :
    pyAxis n axis = .ok a := by
  unfold pyAxis
  rw [if_pos (by omega)]
  congr 1
  split_ifs <;> omega

theorem erase_ne_nil {ds : List ℕ} {a : ℕ} (h : 2 ≤ ds.length) : ds.eraseIdx a ≠ [] := by
  intro e
  have := congrArg List.length e
  rw [List.length_eraseIdx] at this
  rw [List.length_nil] at this
  split_ifs at this <;> omega

theorem sum_atleast {x : Arr ℝ} {axis : ℤ} {a : ℕ} (h2 : 2 ≤ x.dims.length) (ha : a < x.dims.length)
    (hax : axis = a ∨ axis = (a : ℤ) - x.dims.length) : (sumSquares x (some axis)).map atleast1d
      = .ok ⟨x.dims.eraseIdx a, fun t => ∑ s ∈ range (x.dims.getD a 0), x.val (t.insertIdx a s) ^ 2⟩ := by
  simp only [sumSquares, pyAxis_ok hax ha, Except.map, atleast1d, if_neg (erase_ne_nil h2)]

theorem bind_atleast {β : Type} {x : Arr ℝ} {axis : Option ℤ} {y : Arr ℝ} (h : (sumSquares x axis).map atleast1d = .ok y) :
    ∃ s, sumSquares x axis = .ok s ∧ atleast1d s = y ∧
      ∀ f : Arr ℝ → Except PyErr β, (do let s ← sumSquares x axis; f (atleast1d s)) = f y := by
  cases hs : sumSquares x axis with
  | error e => rw [hs] at h; cases h
  | ok s =>
    rw [hs] at h
    simp only [Except.map, Except.ok.injEq] at h
    exact ⟨s, rfl, h, fun f => by simp only [bind, Except.bind, h]⟩

/-- C116: for arrays with two or more axes, none of which is empty, the compiled and the Python `vector_norm` agree, for
every axis, wherever and however the array is stored. -/
theorem c116_norm_python (junk : ℕ → Option ℝ) {mem : Mem} {v : View} (hs : v.strides.length = v.dims.length)
    (h2 : 2 ≤ v.dims.length) {axis : ℤ} (hax : -(v.dims.length : ℤ) ≤ axis ∧ axis < v.dims.length)
    {x : List ℕ → ℝ} (hx : ∀ t ∈ indices v.dims, mem (v.addr t) = some (x t)) (h0 : v.dims.prod ≠ 0) :
    ∃ r y, CompiledAxis.vectorNorm junk mem v axis none = .ok r ∧
      vectorNorm ⟨v.dims, x⟩ (some axis) = .ok (.array y) ∧ r.length = y.dims.prod ∧
      ∀ (k : ℕ) (t : List ℕ), (indices y.dims)[k]? = some t → r[k]? = some (some (y.val t)) := by
  obtain ⟨a, ha, hax'⟩ : ∃ a < v.dims.length, axis = (a : ℕ) ∨ axis = (a : ℤ) - v.dims.length := by
    rcases lt_or_ge axis 0 with h | h
    · exact ⟨(axis + v.dims.length).toNat, by omega, .inr (by omega)⟩
    · exact ⟨axis.toNat, by omega, .inl (by omega)⟩
  obtain ⟨r, h1, h3, h4⟩ := c116_norm junk hs ha hax' hx h0 none (by simp)
  refine ⟨r, ⟨v.dims.eraseIdx a, fun t => √(∑ s ∈ range (v.dims.getD a 0), x (t.insertIdx a s) ^ 2)⟩, h1, ?_, h3, h4⟩
  unfold vectorNorm
  rw [if_neg (by simp only; omega)]
  obtain ⟨s, -, -, hf⟩ := bind_atleast (β := Norm) (sum_atleast (x := ⟨v.dims, x⟩) h2 ha hax')
  exact hf fun o => pure (.array ⟨o.dims, fun t => √(o.val t)⟩)

/-- C116: unlike the compiled one, the Python `vector_norm` takes a given array exactly if its shape is that of the
data without the axis. -/
theorem c116_python_out (x : Arr ℝ) {axis : ℤ} {a : ℕ} (ha : a < x.dims.length)
    (hax : axis = a ∨ axis = (a : ℤ) - x.dims.length) (odims : List ℕ) :
    (odims ≠ x.dims.eraseIdx a → vectorNormOut x (some axis) odims = .error .shape) ∧
    (odims = x.dims.eraseIdx a → ∃ y, vectorNormOut x (some axis) odims = .ok y ∧ y.dims = odims ∧
      ∀ t, y.val t = √(∑ s ∈ range (x.dims.getD a 0), x.val (t.insertIdx a s) ^ 2)) := by
  simp only [vectorNormOut, sumSquares, pyAxis_ok hax ha, Except.map, bind, Except.bind]
  refine ⟨fun h => if_neg (Ne.symm h), fun h => ⟨_, if_pos h.symm, h.symm, fun t => rfl⟩⟩

theorem insert_erase : ∀ (ds : List ℕ) (a : ℕ), a < ds.length → ∀ (t : List ℕ), t ∈ indices ds →
    List.Forall₂ (fun a b => a = b ∨ a = 1) ((ds.eraseIdx a).insertIdx a 1) ds ∧
    (List.zipWith (fun d i => if d = 1 then 0 else i) ((ds.eraseIdx a).insertIdx a 1) t).eraseIdx a = t.eraseIdx a
  | [], _, h, _, _ => by simp at h
  | d :: ds, 0, _, t, ht => by
    rw [mem_indices] at ht
    cases ht with
    | @cons i _ u _ h1 h2 =>
      have hr : List.Forall₂ (fun a b => a = b ∨ a = 1) ds ds := by
        rw [List.forall₂_same]
        simp
      refine ⟨by simp [hr], ?_⟩
      simp only [List.eraseIdx_cons_zero, List.insertIdx_zero, List.zipWith_cons_cons]
      clear hr h1
      induction h2 with
      | nil => rfl
      | @cons j e u ds h1 h2 ih =>
        rw [List.zipWith_cons_cons, ih (by simp)]
        congr 1
        split_ifs
        · omega
        · rfl
  | d :: ds, a + 1, h, t, ht => by
    rw [mem_indices] at ht
    cases ht with
    | @cons i _ u _ h1 h2 =>
      obtain ⟨e1, e2⟩ := insert_erase ds a (by simpa using h) u ((mem_indices _ _).mpr h2)
      refine ⟨by simpa using e1, ?_⟩
      simp only [List.eraseIdx_cons_succ, List.insertIdx_succ_cons, List.zipWith_cons_cons, e2]
      congr 1
      split_ifs
      · omega
      · rfl

theorem erase_insert : ∀ (t : List ℕ) (a s : ℕ), a ≤ t.length → (t.insertIdx a s).eraseIdx a = t
  | t, 0, s, _ => by simp
  | [], a + 1, s, h => by simp at h
  | i :: t, a + 1, s, h => by
    rw [List.insertIdx_succ_cons, List.eraseIdx_cons_succ, erase_insert t a s (by simpa using h)]

/-- C116: for arrays with two or more axes the Python `unit_vector` divides every entry by the norm of its line, NaN if
that is zero, as the compiled one does, into a new array or a given one of the same shape. -/
theorem c116_unit_python (x : Arr ℝ) (h2 : 2 ≤ x.dims.length) {axis : ℤ} {a : ℕ} (ha : a < x.dims.length)
    (hax : axis = a ∨ axis = (a : ℤ) - x.dims.length) (h0 : x.dims.prod ≠ 0) (odims : Option (List ℕ))
    (ho : ∀ d ∈ odims, d = x.dims) :
    ∃ y, unitVector x (some axis) odims = .ok y ∧ y.dims = x.dims ∧
      ∀ t ∈ indices (x.dims.eraseIdx a), ∀ i < x.dims.getD a 0,
        let len := √(∑ s ∈ range (x.dims.getD a 0), x.val (t.insertIdx a s) ^ 2)
        y.val (t.insertIdx a i) = if len = 0 then none else some (x.val (t.insertIdx a i) / len) := by
  classical
  obtain ⟨s, -, -, hf⟩ := bind_atleast (β := Arr (Option ℝ)) (sum_atleast h2 ha hax)
  have hlen : (x.dims.eraseIdx a).length + 1 = x.dims.length := by
    rw [List.length_eraseIdx_of_lt ha]
    omega
  have hins : ((x.dims.eraseIdx a).insertIdx a 1).length = x.dims.length := by
    rw [List.length_insertIdx_of_le_length (by omega), hlen]
  unfold unitVector
  rw [if_neg (by rintro ⟨-, h⟩; omega), if_neg (by rintro ⟨d, hd, hne⟩; exact hne (ho d hd))]
  rw [hf fun o => (do
    let l' ← expandDims ⟨o.dims, fun t => √(o.val t)⟩ axis
    divide x l')]
  have hne : indices x.dims ≠ [] := fun e => h0 (by rw [← length_indices, e]; rfl)
  obtain ⟨t0, ht0⟩ := List.exists_mem_of_ne_nil _ hne
  simp only [expandDims, hlen, pyAxis_ok hax ha, Except.map, bind, Except.bind, divide, hins, Nat.sub_self,
    List.drop_zero, le_refl, true_and, if_pos (insert_erase x.dims a ha t0 ht0).1]
  refine ⟨_, rfl, rfl, fun t ht i hi => ?_⟩
  have hmem := insert_mem x.dims t a i ha ht hi
  have htl : t.length + 1 = x.dims.length := by
    rw [mem_indices] at ht
    rw [ht.length_eq, hlen]
  simp only [(insert_erase x.dims a ha _ hmem).2, erase_insert t a i (by omega)]

/-- C116 is violated by the Python `unit_vector` of a vector with an axis into a given array: it raises, since the length
has got one axis too many, where the compiled one returns the unit vector. -/
theorem c116_vector_violation {mem : Mem} {v : View} {n : ℕ} (hd : v.dims = [n]) (hs : v.strides.length = v.dims.length)
    {axis : ℤ} (hax : axis = 0 ∨ axis = -1) {x : List ℕ → ℝ} (hx : ∀ t ∈ indices v.dims, mem (v.addr t) = some (x t))
    (hinj : ∀ t ∈ indices v.dims, ∀ t' ∈ indices v.dims, v.addr t = v.addr t' → t = t') :
    unitVector ⟨[n], x⟩ (some axis) (some [n]) = .error .shape ∧
    ∃ mem', CompiledAxis.unitVector mem v v axis = .ok mem' ∧ ∀ i < n,
      let len := √(∑ s ∈ range n, x [s] ^ 2)
      mem' (v.addr [i]) = if len = 0 then none else some (x [i] / len) := by
  constructor
  · have h1 : pyAxis 1 axis = .ok 0 := pyAxis_ok (n := 1) (a := 0) (by rcases hax with rfl | rfl <;> simp) (by omega)
    have h2 : ∃ k, pyAxis 2 axis = .ok k ∧ k ≤ 1 := by
      rcases hax with rfl | rfl
      · exact ⟨0, rfl, by omega⟩
      · exact ⟨1, rfl, le_rfl⟩
    obtain ⟨k, h2, hk⟩ := h2
    have h3 : ¬ ([1].insertIdx k 1).length ≤ 1 := by
      rw [List.length_insertIdx_of_le_length (by simpa using hk)]
      simp
    unfold unitVector
    rw [if_neg (by simp), if_neg (by simp)]
    simp only [sumSquares, List.length_singleton, h1, Except.map, bind, Except.bind, List.eraseIdx_zero, List.tail_cons,
      atleast1d, if_true, expandDims, h2, divide]
    rw [if_neg]
    rintro ⟨h, -⟩
    exact h3 h
  · obtain ⟨mem', h1, h2, -⟩ := c116_unit (out := v) hs hs rfl (a := 0) (by simp [hd]) (axis := axis)
      (by rcases hax with rfl | rfl <;> simp [hd]) hx hinj hinj
    refine ⟨mem', h1, fun i hi => ?_⟩
    have := h2 [] (by simp [hd, indices]) i (by simpa [hd] using hi)
    simpa [hd] using this

/-- C116 is violated by the Python `vector_norm` of a vector, which takes no notice of an axis that does not exist, where
the compiled one raises. -/
theorem c116_ignored_violation (junk : ℕ → Option ℝ) (mem : Mem) {v : View} {n : ℕ} (hd : v.dims = [n])
    (x : List ℕ → ℝ) {axis : ℤ} (hax : axis < -1 ∨ 1 ≤ axis) :
    vectorNorm ⟨v.dims, x⟩ (some axis) = .ok (.number (√(∑ s ∈ range n, x [s] ^ 2))) ∧
    CompiledAxis.vectorNorm junk mem v axis none = .error .axis := by
  refine ⟨?_, ((c116_refused junk mem v axis).1 (by rw [hd]; simpa using hax) none v).1⟩
  unfold vectorNorm
  rw [if_pos (by simp [hd])]
  simp [hd, pow_two]

/-- C116: with that exception the Python functions refuse exactly the axes that do not exist, too. -/
theorem c116_python_refused (x : Arr ℝ) {axis : ℤ}
    (hax : axis < -(x.dims.length : ℤ) ∨ (x.dims.length : ℤ) ≤ axis) :
    (x.dims.length ≠ 1 → vectorNorm x (some axis) = .error .axis) ∧
    (∀ odims, vectorNormOut x (some axis) odims = .error .axis) ∧
    (x.dims.length ≠ 1 → unitVector x (some axis) none = .error .axis) ∧
    unitVector x (some axis) (some x.dims) = .error .axis := by
  have h : pyAxis x.dims.length axis = .error .axis := by
    unfold pyAxis
    rw [if_neg (by omega)]
  refine ⟨fun h1 => ?_, fun odims => ?_, fun h1 => ?_, ?_⟩
  · simp [vectorNorm, h1, sumSquares, h, Except.map, bind, Except.bind]
  · simp [vectorNormOut, sumSquares, h, Except.map, bind, Except.bind]
  · simp [unitVector, h1, sumSquares, h, Except.map, bind, Except.bind]
  · simp [unitVector, sumSquares, h, Except.map, bind, Except.bind]

/-- C116: without an axis the Python functions take all entries of an array with two or more axes together:
`vector_norm` gives one number, in an array of one entry, and `unit_vector` divides by it. -/
theorem c116_python_all (x : Arr ℝ) (h2 : 2 ≤ x.dims.length) :
    (∃ y, vectorNorm x none = .ok (.array y) ∧ y.dims = [1] ∧
      y.val [0] = √(((indices x.dims).map fun t => x.val t * x.val t).sum)) ∧
    (∃ y, unitVector x none none = .ok y ∧ y.dims = x.dims ∧ ∀ t ∈ indices x.dims,
      let len := √(((indices x.dims).map fun t => x.val t * x.val t).sum)
      y.val t = if len = 0 then none else some (x.val t / len)) := by
  have h1 : x.dims.length ≠ 1 := by omega
  constructor
  · refine ⟨_, by rw [vectorNorm, if_neg h1]; rfl, rfl, ?_⟩
    simp [atleast1d, pow_two]
  · obtain ⟨z, hz⟩ : ∃ z, x.dims.drop (x.dims.length - 1) = [z] :=
      List.length_eq_one_iff.mp (by rw [List.length_drop]; omega)
    unfold unitVector
    rw [if_neg (by rintro ⟨-, h⟩; omega), if_neg (by simp)]
    simp only [sumSquares, bind, Except.bind, atleast1d, if_true, divide, List.length_singleton, hz]
    rw [if_pos ⟨by omega, by simp⟩]
    refine ⟨_, rfl, rfl, fun t _ => ?_⟩
    simp only [pow_two]

/-! ## Examples -/

/-- Two vectors as rows: the norms along the last axis in a new array. -/
example : ∃ y, vectorNorm ⟨[2, 2], fun t => [3, 4, 5, 12].getD (2 * t.getD 0 0 + t.getD 1 0) 0⟩ (some (-1)) = .ok (.array y) ∧
    y.dims = [2] ∧ y.val [0] = 5 ∧ y.val [1] = 13 := by
  have h25 : √(3 ^ 2 + 4 ^ 2 : ℝ) = 5 := by
    rw [show (3 ^ 2 + 4 ^ 2 : ℝ) = 5 ^ 2 by norm_num]
    exact Real.sqrt_sq (by norm_num)
  have h169 : √(5 ^ 2 + 12 ^ 2 : ℝ) = 13 := by
    rw [show (5 ^ 2 + 12 ^ 2 : ℝ) = 13 ^ 2 by norm_num]
    exact Real.sqrt_sq (by norm_num)
  refine ⟨_, rfl, rfl, ?_, ?_⟩ <;> simp [atleast1d, sum_range_succ, h25, h169]

/-- A vector in memory as the hypotheses of the violations ask for. -/
example : ∃ x : List ℕ → ℝ, (∀ t ∈ indices [2], exMem ((⟨0, [2], [1]⟩ : View).addr t) = some (x t)) ∧
    (∀ t ∈ indices [2], ∀ t' ∈ indices [2], (⟨0, [2], [1]⟩ : View).addr t = (⟨0, [2], [1]⟩ : View).addr t' → t = t') := by
  refine ⟨fun t => [3, 4].getD (t.getD 0 0) 0, ?_, by decide⟩
  have : indices [2] = [[0], [1]] := by decide
  rw [this]
  simp [exMem, View.addr, offset]

/-- `c116_python_all` and `c116_python_refused` for the matrix of the entries 3, 4, 0, 0: its norm is 5, and there is no
third axis. -/
example : (∃ y, vectorNorm ⟨[2, 2], fun t => if t = [0, 0] then 3 else if t = [0, 1] then 4 else 0⟩ none = .ok (.array y) ∧
      y.val [0] = 5) ∧
    vectorNorm ⟨[2, 2], fun t => if t = [0, 0] then 3 else if t = [0, 1] then 4 else 0⟩ (some 2) = .error .axis := by
  refine ⟨?_, (c116_python_refused ⟨[2, 2], _⟩ (.inr (by simp))).1 (by simp)⟩
  obtain ⟨⟨y, h1, -, h3⟩, -⟩ := c116_python_all ⟨[2, 2], fun t => if t = [0, 0] then 3 else if t = [0, 1] then 4 else 0⟩
    (by simp)
  refine ⟨y, h1, ?_⟩
  rw [h3, show (5 : ℝ) = √(5 ^ 2) by rw [Real.sqrt_sq (by norm_num)]]
  congr 1
  norm_num [indices, List.range_succ]

end RayOpt.PyAxis
