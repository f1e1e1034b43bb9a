import Verif.Lemmas.SimplexOps

/-!
Truncated multivariate polynomials (rayopt/simplex.py, rayopt/simplex_accel.pyx): C44 to C47.

`toPoly d jdx a` is the polynomial `Σ_l a_l x^(jdx_l)` of Mathlib's `MvPolynomial (Fin d) ℝ`; `q` is
`jdx.length`.  `Fits d m`: all positions fit into the `uint16` tables of the code.
-/

namespace RayOpt.Simplex

open MvPolynomial

/-! ### C44: indexing -/

/-- C44: the enumeration lists exactly the exponent tuples of total degree below the order, each
once, and their number is the binomial coefficient, which `simplex_size` computes. -/
theorem c44_enumeration (d m : ℕ) (hd : 1 ≤ d) :
    (∀ p : List ℕ, p ∈ simplexIter d m ↔ p.length = d ∧ p.sum < m) ∧
    (simplexIter d m).Nodup ∧
    (simplexIter d m).length = (m + d - 1).choose d ∧
    simplexSize d m = (m + d - 1).choose d := by
  refine ⟨fun p => ?_, nodup_simplexIter d m, length_simplexIter d m, simplexSize_eq d m⟩
  rw [mem_simplexIter]
  constructor
  · rintro ⟨h1, h2 | h2⟩
    · omega
    · exact ⟨h1, h2⟩
  · rintro ⟨h1, h2⟩
    exact ⟨h1, Or.inr h2⟩

example : simplexIter 3 2 = [[0, 0, 0], [1, 0, 0], [0, 1, 0], [0, 0, 1]] := by decide

/-- C44: the tuples come in order of degree, the constant first and the highest power of the last
variable at the end (`jdx[-1, -1]` is read as the highest degree). -/
theorem c44_order (d m : ℕ) (hm : 1 ≤ m) :
    (simplexIter d m).Pairwise (fun p q => p.sum ≤ q.sum) ∧
    (simplexIter d m).head? = some (List.replicate d 0) ∧
    (simplexIter (d + 1) m).getLast? = some (List.replicate d 0 ++ [m - 1]) :=
  ⟨simplexIter_sorted d m, by rw [List.head?_eq_getElem?]; exact simplexIter_head hm,
    simplexIter_last hm⟩

example : (simplexIter 3 12).getLast? = some [0, 0, 11] := (c44_order 2 12 (by norm_num)).2.2

/-- C44: the two tables are inverse to each other while the number of coefficients fits `uint16`. -/
theorem c44_inverse (d m : ℕ) (h : Fits d m) :
    ∃ t, simplexEnum d m = some t ∧ t.jdx = simplexIter d m ∧
      (∀ j p, t.jdx[j]? = some p → t.idx p = j) ∧
      (∀ p : List ℕ, p.length = d → p.sum < m →
        t.idx p < (m + d - 1).choose d ∧ t.jdx[t.idx p]? = some p) := by
  obtain ⟨t, h1, h2, h3, h4⟩ := exists_enum h
  refine ⟨t, h1, h2, fun j p hp => h3 j p (h2 ▸ hp), fun p hp hs => ?_⟩
  have hm : p ∈ simplexIter d m := ((c44_enumeration d m h.1).1 p).mpr ⟨hp, hs⟩
  obtain ⟨h5, h6⟩ := h4 p hm
  rw [h2, length_simplexIter] at h5
  exact ⟨h5, h6⟩

example : Fits 3 12 := ⟨by norm_num, by norm_num, by decide +kernel⟩
example : Fits 3 72 := ⟨by norm_num, by norm_num, by decide +kernel⟩

/-- C44, violated beyond `uint16`: with more than 65536 coefficients two different monomials share a
position. -/
theorem c44_wraps (d m : ℕ) (hbig : 65536 < (m + d - 1).choose d) :
    ∃ t p q, simplexEnum d m = some t ∧ p ∈ simplexIter d m ∧ q ∈ simplexIter d m ∧ p ≠ q ∧
      t.idx p = t.idx q := by
  have hlen : 65536 < (simplexIter d m).length := by rw [length_simplexIter]; exact hbig
  have hne : simplexIter d m ≠ [] := by
    intro h; rw [h] at hlen; simp at hlen
  have h0 : 0 < (simplexIter d m).length := by omega
  refine ⟨_, (simplexIter d m)[0], (simplexIter d m)[65536], by
    unfold simplexEnum
    simp only
    rw [if_neg hne, if_neg (by rw [length_simplexIter, simplexSize_eq]; simp)],
    List.getElem_mem _, List.getElem_mem _, ?_, ?_⟩
  · intro h
    have := (nodup_simplexIter d m).getElem_inj_iff.mp h
    omega
  · simp only
    rw [foldl_update_zipIdx u16 _ (nodup_simplexIter d m) _ _ 0 _ (List.getElem?_eq_getElem _),
      foldl_update_zipIdx u16 _ (nodup_simplexIter d m) _ _ 65536 _ (List.getElem?_eq_getElem _)]
    rfl

example : 65536 < (73 + 3 - 1).choose 3 := by decide +kernel

/-- C44: order zero has no monomial at all and the tables cannot be built. -/
theorem c44_empty (d : ℕ) (hd : 1 ≤ d) : simplexIter d 0 = [] ∧ simplexEnum d 0 = none := by
  have : simplexIter d 0 = [] := by
    obtain ⟨d, rfl⟩ := Nat.exists_eq_succ_of_ne_zero (show d ≠ 0 by omega)
    simp [simplexIter]
  refine ⟨this, ?_⟩
  unfold simplexEnum
  simp only [this, if_true]

example : simplexEnum 3 0 = none := (c44_empty 3 (by norm_num)).2

/-! ### C45: multiplication -/

/-- C45: every coefficient of the product is that of the product polynomial; in coordinates it is
the sum of `a i * b j` over all pairs whose exponents add up. -/
theorem c45_product (d m : ℕ) (h : Fits d m) (t : Tables) (abi : ℕ → List (ℕ × ℕ))
    (ht : simplexIdx d m = some (t, abi)) (a b : ℕ → ℝ) (l : ℕ) (hl : l < t.jdx.length) :
    mul abi a b l
      = coeff (expo d (t.jdx.getD l [])) (toPoly d t.jdx a * toPoly d t.jdx b) ∧
    mul abi a b l = ∑ i ∈ Finset.range t.jdx.length, ∑ j ∈ Finset.range t.jdx.length,
      if List.zipWith (· + ·) (t.jdx.getD i []) (t.jdx.getD j []) = t.jdx.getD l []
      then a i * b j else 0 := by
  obtain ⟨he, rfl⟩ := simplexIdx_some ht
  have G := enum_good h he
  refine ⟨mul_eq_coeff G a b hl, ?_⟩
  rw [mul_eq_coeff G a b hl]
  unfold toPoly
  rw [Finset.sum_mul_sum, coeff_sum]
  apply Finset.sum_congr rfl
  intro i hi
  rw [coeff_sum]
  apply Finset.sum_congr rfl
  intro j hj
  obtain ⟨i1, i2, i3⟩ := G.row (Finset.mem_range.mp hi)
  obtain ⟨j1, j2, j3⟩ := G.row (Finset.mem_range.mp hj)
  obtain ⟨l1, l2, l3⟩ := G.row hl
  rw [monomial_mul, coeff_monomial, ← expo_add i1 j1]
  by_cases hc : List.zipWith (· + ·) (t.jdx.getD i []) (t.jdx.getD j []) = t.jdx.getD l []
  · rw [if_pos hc, if_pos (by rw [hc])]
  · rw [if_neg hc, if_neg]
    intro hcon
    exact hc (expo_inj (d := d) (by rw [List.length_zipWith, i1, j1]; simp) l1 hcon)

/-- The guard of `c45_product` is met by every order in three variables, the only number of
variables the program uses (rayopt/poly_trace.py 60): the table has exactly the room the product
needs, the counters in it do not wrap and the positions in it are valid. -/
theorem c45_three_variables (m : ℕ) (h : Fits 3 m) :
    ∃ t abi, simplexIdx 3 m = some (t, abi) ∧ t.jdx.length = (m + 2).choose 3 ∧
      ∀ l < t.jdx.length, (abi l).length ≤ room m ∧ room m < 65536 ∧
        ∀ ab ∈ abi l, ab.1 < t.jdx.length ∧ ab.2 < t.jdx.length := by
  obtain ⟨t, he, ht⟩ := simplexIdx_three h
  have G := enum_good h he
  refine ⟨t, _, ht, by rw [G.jdx, length_simplexIter]; rfl, fun l hl => ⟨?_, room_lt h, ?_⟩⟩
  · rw [abi_length G hl]
    obtain ⟨r1, r2, r3⟩ := G.row hl
    generalize t.jdx.getD l [] = p at *
    match p, r1 with
    | [x, y, z], _ =>
      rw [Fin.prod_univ_three]
      exact prod3_le_room G.mpos (by simpa [add_assoc] using r2)
  · intro ab hab
    unfold abiTable at hab
    rw [abi_foldl, List.nil_append, List.mem_map] at hab
    obtain ⟨pq, hpq, rfl⟩ := hab
    rw [List.mem_filter, mem_simplexIter] at hpq
    obtain ⟨e1, e2, e3⟩ := evens_odds_spec 3 pq hpq.1.1
    have hs := (interleave_spec (evens pq) (odds pq) (by rw [e1, e2])).2.2.2
    rw [e3] at hs
    have := hpq.1.2
    exact ⟨G.lt _ ((G.mem _).mpr ⟨e1, by omega⟩), G.lt _ ((G.mem _).mpr ⟨e2, by omega⟩)⟩

/-- `(1 + 2x)(3 + 4x + y)` truncated at degree one: the `x` coefficient is `10`. -/
example : ∃ t abi, simplexIdx 3 2 = some (t, abi) ∧
    mul abi (fun i => if i = 0 then 1 else if i = 1 then 2 else 0)
      (fun i => if i = 0 then 3 else if i = 1 then 4 else if i = 2 then 1 else 0) 1 = 10 := by
  have hf : Fits 3 2 := ⟨by norm_num, by norm_num, by decide +kernel⟩
  obtain ⟨t, abi, ht, hl, -⟩ := c45_three_variables 2 hf
  refine ⟨t, abi, ht, ?_⟩
  rw [(c45_product 3 2 hf t abi ht _ _ 1 (by rw [hl]; decide +kernel)).2, hl]
  have hj : t.jdx = [[0, 0, 0], [1, 0, 0], [0, 1, 0], [0, 0, 1]] := by
    rw [(enum_good hf (simplexIdx_some ht).1).jdx]; decide
  rw [hj, show (2 + 2 : ℕ).choose 3 = 4 by decide +kernel]
  simp [Finset.sum_range_succ]
  norm_num

/-- C45: the truncated product is commutative, associative, distributive and has `1` as a unit. -/
theorem c45_ring (d m : ℕ) (h : Fits d m) (t : Tables) (abi : ℕ → List (ℕ × ℕ))
    (ht : simplexIdx d m = some (t, abi)) (a b c : ℕ → ℝ) (l : ℕ) (hl : l < t.jdx.length) :
    mul abi a b l = mul abi b a l ∧
    mul abi (mul abi a b) c l = mul abi a (mul abi b c) l ∧
    mul abi a (fun i => b i + c i) l = mul abi a b l + mul abi a c l ∧
    mul abi (fun i => if i = 0 then 1 else 0) a l = a l := by
  obtain ⟨he, rfl⟩ := simplexIdx_some ht
  have G := enum_good h he
  refine ⟨?_, ?_, ?_, ?_⟩
  · rw [mul_eq_coeff G _ _ hl, mul_eq_coeff G _ _ hl, mul_comm]
  · refine eq_of_teq G ?_ hl
    refine (teq_toPoly_mul G _ _).trans (((teq_toPoly_mul G _ _).mul (TEq.refl _)).trans ?_)
    rw [mul_assoc]
    exact (((TEq.refl _).mul (teq_toPoly_mul G _ _)).symm).trans (teq_toPoly_mul G _ _).symm
  · rw [mul_eq_coeff G _ _ hl, mul_eq_coeff G _ _ hl, mul_eq_coeff G _ _ hl, toPoly_add, mul_add,
      coeff_add]
  · rw [mul_eq_coeff G _ _ hl]
    rw [toPoly_one G, one_mul, coeff_toPoly_row G a hl]

example : ∃ t abi, simplexIdx 3 12 = some (t, abi) ∧ ∀ a b : ℕ → ℝ, ∀ l < t.jdx.length,
    mul abi a b l = mul abi b a l := by
  have hf : Fits 3 12 := ⟨by norm_num, by norm_num, by decide +kernel⟩
  obtain ⟨t, abi, ht, -⟩ := c45_three_variables 12 hf
  exact ⟨t, abi, ht, fun a b l hl => (c45_ring 3 12 hf t abi ht a b 0 l hl).1⟩

/-- C45, violated for other numbers of variables: the room of the table is the balanced product of
three factors, so building the tables fails, for want of entries or of room. -/
theorem c45_other_dimensions :
    simplexIdx 1 3 = none ∧ simplexIdx 2 4 = none ∧ simplexIdx 4 5 = none := by
  classical
  refine ⟨?_, ?_, ?_⟩
  · have hf : Fits 1 3 := ⟨by norm_num, by norm_num, by decide +kernel⟩
    obtain ⟨t, he, -⟩ := exists_enum hf
    have G := enum_good hf he
    rw [simplexIdx_eq, he, Option.bind_some]
    split_ifs with h1 h2
    · rfl
    · rfl
    · exfalso
      apply h2
      intro l hl
      obtain ⟨r1, r2, r3⟩ := G.row hl
      rw [abi_length G hl]
      generalize t.jdx.getD l [] = p at *
      match p, r1 with
      | [x], _ =>
        rw [Fin.prod_univ_one, show room 3 = 4 by decide]
        have : x < 3 := by simpa using r2
        change x + 1 ≠ 4
        omega
  · have hf : Fits 2 4 := ⟨by norm_num, by norm_num, by decide +kernel⟩
    obtain ⟨t, he, -⟩ := exists_enum hf
    have G := enum_good hf he
    rw [simplexIdx_eq, he, Option.bind_some]
    split_ifs with h1 h2
    · rfl
    · rfl
    · exfalso
      apply h2
      intro l hl
      obtain ⟨r1, r2, r3⟩ := G.row hl
      rw [abi_length G hl]
      generalize t.jdx.getD l [] = p at *
      match p, r1 with
      | [x, y], _ =>
        rw [Fin.prod_univ_two, show room 4 = 8 by decide]
        have : x + y < 4 := by simpa using r2
        change (x + 1) * (y + 1) ≠ 8
        have hx : x < 4 := by omega
        have hy : y < 4 := by omega
        interval_cases x <;> interval_cases y <;> omega
  · have hf : Fits 4 5 := ⟨by norm_num, by norm_num, by decide +kernel⟩
    obtain ⟨t, he, -⟩ := exists_enum hf
    have G := enum_good hf he
    rw [simplexIdx_eq, he, Option.bind_some, if_pos]
    have hmem : [1, 1, 1, 1] ∈ simplexIter 4 5 := by rw [G.mem]; simp
    refine ⟨t.idx [1, 1, 1, 1], G.lt _ hmem, ?_⟩
    have hrow : t.jdx.getD (t.idx [1, 1, 1, 1]) [] = [1, 1, 1, 1] := by
      rw [List.getD, G.get _ hmem]; rfl
    rw [abi_length G (G.lt _ hmem), hrow, Fin.prod_univ_four, show room 5 = 12 by decide]
    decide

/-! ### C46: powers -/

/-- C46: what `simplex_pow` computes for every coefficient vector: `a₀^p` times the binomial series
in the non-constant part, truncated at the order. -/
theorem c46_series (d m : ℕ) (h : Fits d m) (t : Tables) (abi : ℕ → List (ℕ × ℕ))
    (ht : simplexIdx d m = some (t, abi)) (a : ℕ → ℝ) (p : ℝ) (l : ℕ) (hl : l < t.jdx.length) :
    pow abi m a p l = a 0 ^ p * coeff (expo d (t.jdx.getD l []))
      (∑ k ∈ Finset.range m, C (Ring.choose p k) * (toPoly d t.jdx a - C (a 0)) ^ k) := by
  obtain ⟨he, rfl⟩ := simplexIdx_some ht
  have G := enum_good h he
  obtain ⟨r1, r2, r3⟩ := G.row hl
  have hdeg : (expo d (t.jdx.getD l [])).degree < m := by rw [expo_degree r1]; exact r2
  have := pow_spec G a p _ hdeg
  rw [coeff_toPoly_row G _ hl, coeff_C_mul, Finset.sum_range_succ, coeff_add, coeff_C_mul] at this
  rw [this]
  have h0 := coeff_zero_sub G a
  rw [coeff_pow_low h0 m _ hdeg, coeff_zero, mul_zero, add_zero]

/-- C46: with constant term one, powers add up under multiplication: `a^p a^q = a^(p+q)` for all real
exponents, so `a^-1` is the inverse and `a^(1/2)` a square root. -/
theorem c46_add (d m : ℕ) (h : Fits d m) (t : Tables) (abi : ℕ → List (ℕ × ℕ))
    (ht : simplexIdx d m = some (t, abi)) (a : ℕ → ℝ) (ha : a 0 = 1) (p q : ℝ) (l : ℕ)
    (hl : l < t.jdx.length) :
    mul abi (pow abi m a p) (pow abi m a q) l = pow abi m a (p + q) l := by
  obtain ⟨he, rfl⟩ := simplexIdx_some ht
  have G := enum_good h he
  refine eq_of_teq G ?_ hl
  refine (teq_toPoly_mul G _ _).trans (((pow_spec G a p).mul (pow_spec G a q)).trans ?_)
  refine TEq.trans ?_ (pow_spec G a (p + q)).symm
  have h0 := coeff_zero_sub G a
  rw [ha] at h0 ⊢
  simp only [Real.one_rpow, C_1, one_mul]
  rw [C_1] at h0
  generalize toPoly d t.jdx a - 1 = X at *
  intro e hdeg
  have hv : ∑ k ∈ Finset.range (m + 1), C (Ring.choose (p + q) k) * X ^ k
      = ∑ k ∈ Finset.range (m + 1), ∑ ij ∈ Finset.antidiagonal k,
        (C (Ring.choose p ij.1) * X ^ ij.1) * (C (Ring.choose q ij.2) * X ^ ij.2) := by
    apply Finset.sum_congr rfl
    intro k _
    rw [Ring.add_choose_eq k (Commute.all p q), map_sum, Finset.sum_mul]
    apply Finset.sum_congr rfl
    intro ij hij
    rw [Finset.mem_antidiagonal] at hij
    rw [← hij, C_mul, pow_add]
    ring
  have hf : ∀ k, ∑ ij ∈ Finset.antidiagonal k,
        (C (Ring.choose p ij.1) * X ^ ij.1) * (C (Ring.choose q ij.2) * X ^ ij.2)
      = ∑ i ∈ Finset.range (k + 1),
        (C (Ring.choose p i) * X ^ i) * (C (Ring.choose q (k - i)) * X ^ (k - i)) := by
    intro k
    rw [Finset.Nat.sum_antidiagonal_eq_sum_range_succ
      (fun i j => (C (Ring.choose p i) * X ^ i) * (C (Ring.choose q j) * X ^ j))]
  rw [hv]
  simp only [hf]
  rw [Finset.sum_range_diag_flip (m + 1)
    (fun i j => (C (Ring.choose p i) * X ^ i) * (C (Ring.choose q j) * X ^ j)),
    Finset.sum_mul_sum, coeff_sum, coeff_sum]
  apply Finset.sum_congr rfl
  intro i hi
  rw [coeff_sum, coeff_sum]
  symm
  refine Finset.sum_subset (Finset.range_mono (Nat.sub_le _ _)) ?_
  intro j _ hj
  rw [Finset.mem_range] at hi hj
  have hz := coeff_pow_low h0 (i + j) e (by omega)
  rw [show (C (Ring.choose p i) * X ^ i) * (C (Ring.choose q j) * X ^ j)
    = C (Ring.choose p i * Ring.choose q j) * X ^ (i + j) by rw [C_mul, pow_add]; ring,
    coeff_C_mul, hz, coeff_zero, mul_zero]

/-- The inverse of `1 + x` to third order: `a^-1 a = 1`. -/
example : ∃ t abi, simplexIdx 3 4 = some (t, abi) ∧ ∀ a : ℕ → ℝ, a 0 = 1 → ∀ l < t.jdx.length,
    mul abi (pow abi 4 a (-1)) (pow abi 4 a 1) l = pow abi 4 a 0 l := by
  have hf : Fits 3 4 := ⟨by norm_num, by norm_num, by decide +kernel⟩
  obtain ⟨t, abi, ht, -⟩ := c45_three_variables 4 hf
  refine ⟨t, abi, ht, fun a ha l hl => ?_⟩
  rw [c46_add 3 4 hf t abi ht a ha (-1) 1 l hl]
  norm_num

/-- C46: with constant term one and a natural exponent the power is repeated multiplication. -/
theorem c46_natural (d m : ℕ) (h : Fits d m) (t : Tables) (abi : ℕ → List (ℕ × ℕ))
    (ht : simplexIdx d m = some (t, abi)) (a : ℕ → ℝ) (ha : a 0 = 1) (n : ℕ) (l : ℕ)
    (hl : l < t.jdx.length) :
    pow abi m a n l = coeff (expo d (t.jdx.getD l [])) (toPoly d t.jdx a ^ n) ∧
    pow abi m a n l = (mul abi a)^[n] (fun i => if i = 0 then 1 else 0) l := by
  have hone : toPoly d t.jdx (fun i => if i = 0 then (1 : ℝ) else 0) = 1 :=
    toPoly_one (enum_good h (simplexIdx_some ht).1)
  obtain ⟨he, rfl⟩ := simplexIdx_some ht
  have G := enum_good h he
  have key : TEq m (toPoly d t.jdx (pow (abiTable d m t) m a n)) (toPoly d t.jdx a ^ n) := by
    refine (pow_spec G a n).trans ?_
    have h0 : coeff 0 (toPoly d t.jdx a - C (a 0)) = 0 := coeff_zero_sub G a
    have hX : toPoly d t.jdx a = (toPoly d t.jdx a - C (a 0)) + 1 := by rw [ha, C_1]; ring
    rw [ha] at hX h0 ⊢
    simp only [Real.one_rpow, C_1, one_mul]
    conv => arg 3; rw [hX]
    rw [C_1] at h0 ⊢
    generalize toPoly d t.jdx a - 1 = X at *
    intro e hdeg
    rw [add_pow, coeff_sum, coeff_sum]
    have e1 : ∀ k, coeff e (X ^ k * 1 ^ (n - k) * (n.choose k : MvPolynomial (Fin d) ℝ))
        = coeff e (C (Ring.choose (n : ℝ) k) * X ^ k) := by
      intro k
      rw [Ring.choose_natCast, map_natCast, one_pow, mul_one, mul_comm]
    simp only [e1]
    have hz : ∀ k, m ≤ k ∨ n < k → coeff e (C (Ring.choose (n : ℝ) k) * X ^ k) = 0 := by
      rintro k (hk | hk)
      · rw [coeff_C_mul, coeff_pow_low h0 k e (by omega), coeff_zero, mul_zero]
      · rw [Ring.choose_natCast, Nat.choose_eq_zero_of_lt hk, Nat.cast_zero, C_0, zero_mul,
          coeff_zero]
    rcases le_total (m + 1) (n + 1) with hmn | hmn
    · refine Finset.sum_subset (Finset.range_mono hmn) fun k _ hk => hz k (Or.inl ?_)
      rw [Finset.mem_range] at hk; omega
    · symm
      refine Finset.sum_subset (Finset.range_mono hmn) fun k _ hk => hz k (Or.inr ?_)
      rw [Finset.mem_range] at hk; omega
  obtain ⟨r1, r2, r3⟩ := G.row hl
  refine ⟨?_, ?_⟩
  · rw [← key _ (by rw [expo_degree r1]; exact r2), coeff_toPoly_row G _ hl]
  · refine eq_of_teq G (key.trans ?_) hl
    clear key
    induction n with
    | zero => simp only [Function.iterate_zero, id, hone, pow_zero]; exact TEq.refl _
    | succ n ih =>
      rw [Function.iterate_succ_apply', pow_succ']
      exact ((TEq.refl _).mul ih).trans (teq_toPoly_mul G _ _).symm

/-- `(1 + x)^2 = 1 + 2x + x^2`. -/
example : ∃ t abi, simplexIdx 3 3 = some (t, abi) ∧ ∀ l < t.jdx.length,
    pow abi 3 (fun i => if i = 0 then 1 else if i = 1 then 1 else 0) (2 : ℕ) l
      = coeff (expo 3 (t.jdx.getD l []))
        (toPoly 3 t.jdx (fun i => if i = 0 then 1 else if i = 1 then 1 else 0) ^ 2) := by
  have hf : Fits 3 3 := ⟨by norm_num, by norm_num, by decide +kernel⟩
  obtain ⟨t, abi, ht, -⟩ := c45_three_variables 3 hf
  exact ⟨t, abi, ht, fun l hl => (c46_natural 3 3 hf t abi ht _ (by simp) 2 l hl).1⟩

/-- C46, violated for other constant terms: the first power of `a` multiplies the non-constant
coefficients by `a₀`, so it is `a` only if `a₀ = 1` or all of these coefficients vanish. -/
theorem c46_constant_term (d m : ℕ) (h : Fits d m) (hm : 2 ≤ m) (t : Tables)
    (abi : ℕ → List (ℕ × ℕ)) (ht : simplexIdx d m = some (t, abi)) (a : ℕ → ℝ) :
    (∀ l < t.jdx.length, pow abi m a 1 l = if l = 0 then a 0 else a 0 * a l) ∧
    ((∀ l < t.jdx.length, pow abi m a 1 l = a l) ↔
      a 0 = 1 ∨ ∀ l < t.jdx.length, l ≠ 0 → a l = 0) := by
  have hp : ∀ l < t.jdx.length, pow abi m a 1 l = if l = 0 then a 0 else a 0 * a l := by
    intro l hl
    rw [c46_series d m h t abi ht a 1 l hl]
    have G := enum_good h (simplexIdx_some ht).1
    have e1 : ∑ k ∈ Finset.range m, C (Ring.choose (1 : ℝ) k) * (toPoly d t.jdx a - C (a 0)) ^ k
        = 1 + (toPoly d t.jdx a - C (a 0)) := by
      have hc : ∀ k, Ring.choose (1 : ℝ) k = ((1 : ℕ).choose k : ℝ) := by
        intro k
        have := Ring.choose_natCast (R := ℝ) 1 k
        rwa [Nat.cast_one] at this
      rw [← Finset.sum_subset (Finset.range_mono hm)]
      · rw [Finset.sum_range_succ, Finset.sum_range_one, hc, hc]
        simp
      · intro k _ hk
        rw [Finset.mem_range] at hk
        rw [hc, Nat.choose_eq_zero_of_lt (by omega)]
        simp
    rw [e1, Real.rpow_one, coeff_add, coeff_sub, coeff_toPoly_row G a hl]
    by_cases h0 : l = 0
    · subst h0
      have e0 : expo d (t.jdx.getD 0 []) = 0 := by rw [G.zero_row]; ext k; simp
      rw [if_pos rfl, e0, coeff_zero_C, coeff_zero_one]
      ring
    · have hne : expo d (t.jdx.getD l []) ≠ 0 := by
        intro hc
        apply h0
        obtain ⟨r1, r2, r3⟩ := G.row hl
        obtain ⟨z1, z2, z3⟩ := G.row G.length_pos
        have e0 : expo d (t.jdx.getD 0 []) = 0 := by rw [G.zero_row]; ext k; simp
        rw [← r3, expo_inj r1 z1 (hc.trans e0.symm), z3]
      rw [if_neg h0, coeff_C, if_neg (Ne.symm hne), coeff_one, if_neg (Ne.symm hne)]
      ring
  refine ⟨hp, ?_, ?_⟩
  · intro hall
    by_cases h1 : a 0 = 1
    · exact Or.inl h1
    · refine Or.inr fun l hl h0 => ?_
      have := hall l hl
      rw [hp l hl, if_neg h0] at this
      have : (a 0 - 1) * a l = 0 := by linear_combination this
      rcases mul_eq_zero.mp this with h2 | h2
      · exact absurd (by linarith) h1
      · exact h2
  · rintro (h1 | h1) l hl
    · rw [hp l hl]
      split_ifs with h0
      · rw [h0]
      · rw [h1, one_mul]
    · rw [hp l hl]
      split_ifs with h0
      · rw [h0]
      · rw [h1 l hl h0, mul_zero]

/-- `(2 + x)**1` comes out as `2 + 2 x`. -/
example : ∃ t abi, simplexIdx 3 2 = some (t, abi) ∧
    pow abi 2 (fun i => if i = 0 then 2 else if i = 1 then 1 else 0) 1 1 = 2 := by
  have hf : Fits 3 2 := ⟨by norm_num, by norm_num, by decide +kernel⟩
  obtain ⟨t, abi, ht, hl, -⟩ := c45_three_variables 2 hf
  refine ⟨t, abi, ht, ?_⟩
  rw [(c46_constant_term 3 2 hf le_rfl t abi ht _).1 1 (by rw [hl]; decide +kernel)]
  norm_num

/-- C46: scaling the constant out by hand repairs it: `a₀^p (a/a₀)^p` satisfies the power law for
all `a₀ > 0` and its first power is `a`. -/
theorem c46_repaired (d m : ℕ) (h : Fits d m) (t : Tables) (abi : ℕ → List (ℕ × ℕ))
    (ht : simplexIdx d m = some (t, abi)) (a : ℕ → ℝ) (ha : 0 < a 0) (p q : ℝ) (l : ℕ)
    (hl : l < t.jdx.length) :
    mul abi (fun i => a 0 ^ p * pow abi m (fun i => a i / a 0) p i)
      (fun i => a 0 ^ q * pow abi m (fun i => a i / a 0) q i) l
      = a 0 ^ (p + q) * pow abi m (fun i => a i / a 0) (p + q) l := by
  rw [← c46_add d m h t abi ht (fun i => a i / a 0) (div_self ha.ne') p q l hl, Real.rpow_add ha]
  obtain ⟨he, rfl⟩ := simplexIdx_some ht
  have G := enum_good h he
  rw [mul_eq_coeff G _ _ hl, mul_eq_coeff G _ _ hl, toPoly_smul, toPoly_smul,
    show ∀ A B c e : MvPolynomial (Fin d) ℝ, c * A * (e * B) = (c * e) * (A * B) by intros; ring,
    ← C_mul, coeff_C_mul]

example : ∃ t abi, simplexIdx 3 2 = some (t, abi) ∧
    mul abi (fun i => (4 : ℝ) ^ (1 / 2 : ℝ) * pow abi 2 (fun i => (if i = 0 then 4 else 1) / 4) (1 / 2) i)
      (fun i => (4 : ℝ) ^ (1 / 2 : ℝ) * pow abi 2 (fun i => (if i = 0 then 4 else 1) / 4) (1 / 2) i) 1
      = (4 : ℝ) ^ (1 / 2 + 1 / 2 : ℝ) * pow abi 2 (fun i => (if i = 0 then 4 else 1) / 4)
        (1 / 2 + 1 / 2) 1 := by
  have hf : Fits 3 2 := ⟨by norm_num, by norm_num, by decide +kernel⟩
  obtain ⟨t, abi, ht, hl, -⟩ := c45_three_variables 2 hf
  refine ⟨t, abi, ht, ?_⟩
  have := c46_repaired 3 2 hf t abi ht (fun i => if i = 0 then 4 else 1) (by simp) (1 / 2) (1 / 2) 1
    (by rw [hl]; decide +kernel)
  simpa using this

/-! ### C47: evaluation -/

/-- C47: from order two on evaluation gives the sum of coefficient times monomial. -/
theorem c47_eval (d m : ℕ) (h : Fits d m) (hm : 2 ≤ m) (t : Tables)
    (ht : simplexEnum d m = some t) (a : ℕ → ℝ) (v : Fin d → ℝ) :
    eval t.jdx a (List.ofFn v) = some (∑ l ∈ Finset.range t.jdx.length,
      a l * ∏ k : Fin d, v k ^ (t.jdx.getD l []).getD k 0) := by
  have G := enum_good h ht
  rw [eval_spec G hm a v]
  congr 1
  rw [toPoly, map_sum]
  apply Finset.sum_congr rfl
  intro l _
  rw [eval_monomial, Finsupp.prod_fintype _ _ (by simp)]
  rfl

/-- `(5 + 7 x + 11 z)` at `(2, 3, 4)`. -/
example : ∃ t, simplexEnum 3 2 = some t ∧
    eval t.jdx (fun i => if i = 0 then 5 else if i = 1 then 7 else if i = 3 then 11 else 0)
      (List.ofFn ![2, 3, 4]) = some 63 := by
  have hf : Fits 3 2 := ⟨by norm_num, by norm_num, by decide +kernel⟩
  obtain ⟨t, ht, hj, -⟩ := exists_enum hf
  refine ⟨t, ht, ?_⟩
  rw [c47_eval 3 2 hf le_rfl t ht]
  have hj' : t.jdx = [[0, 0, 0], [1, 0, 0], [0, 1, 0], [0, 0, 1]] := by rw [hj]; decide
  rw [hj']
  simp [Finset.sum_range_succ, Fin.prod_univ_three]
  norm_num

/-- C47: evaluation is linear and `shift(c)` adds `c`. -/
theorem c47_linear (d m : ℕ) (h : Fits d m) (hm : 2 ≤ m) (t : Tables)
    (ht : simplexEnum d m = some t) (a b : ℕ → ℝ) (c s : ℝ) (v : Fin d → ℝ) :
    eval t.jdx (fun i => s * a i + b i) (List.ofFn v)
      = ((eval t.jdx a (List.ofFn v)).bind fun x =>
        (eval t.jdx b (List.ofFn v)).map fun y => s * x + y) ∧
    eval t.jdx (shift a c) (List.ofFn v) = (eval t.jdx a (List.ofFn v)).map (· + c) := by
  have G := enum_good h ht
  simp only [eval_spec G hm, Option.bind_some, Option.map_some]
  constructor
  · rw [toPoly_add, toPoly_smul]; simp
  · rw [shift, toPoly_update G]; simp

example : ∃ t, simplexEnum 3 12 = some t ∧ ∀ a : ℕ → ℝ,
    eval t.jdx (shift a 3) (List.ofFn ![1, 0, 2])
      = (eval t.jdx a (List.ofFn ![1, 0, 2])).map (· + 3) := by
  have hf : Fits 3 12 := ⟨by norm_num, by norm_num, by decide +kernel⟩
  obtain ⟨t, ht, -⟩ := exists_enum hf
  exact ⟨t, ht, fun a => (c47_linear 3 12 hf (by norm_num) t ht a 0 3 0 _).2⟩

/-- C47 with C45: the value of a product is the product of the values if nothing is truncated, that
is if the degrees of the factors add up to less than the order. -/
theorem c47_product (d m : ℕ) (h : Fits d m) (hm : 2 ≤ m) (t : Tables) (abi : ℕ → List (ℕ × ℕ))
    (ht : simplexIdx d m = some (t, abi)) (a b : ℕ → ℝ) (da db : ℕ) (hdeg : da + db < m)
    (ha : ∀ l < t.jdx.length, da < (t.jdx.getD l []).sum → a l = 0)
    (hb : ∀ l < t.jdx.length, db < (t.jdx.getD l []).sum → b l = 0) (v : Fin d → ℝ) :
    eval t.jdx (mul abi a b) (List.ofFn v) = (eval t.jdx a (List.ofFn v)).bind fun x =>
      (eval t.jdx b (List.ofFn v)).map fun y => x * y := by
  classical
  obtain ⟨he, rfl⟩ := simplexIdx_some ht
  have G := enum_good h he
  simp only [eval_spec G hm, Option.bind_some, Option.map_some]
  congr 1
  rw [← map_mul]
  congr 1
  have hlow : ∀ (c : ℕ → ℝ) (dc : ℕ),
      (∀ l < t.jdx.length, dc < (t.jdx.getD l []).sum → c l = 0) →
      ∀ e : Fin d →₀ ℕ, dc < e.degree → coeff e (toPoly d t.jdx c) = 0 := by
    intro c dc hc e hlt
    rw [coeff_toPoly G]
    split_ifs with hem
    · have hmem : tuple e ∈ simplexIter d m := by
        rw [G.mem, tuple_length, tuple_sum]; exact ⟨rfl, hem⟩
      have hrow : t.jdx.getD (t.idx (tuple e)) [] = tuple e := by
        rw [List.getD, G.get _ hmem]; rfl
      apply hc _ (G.lt _ hmem)
      rw [hrow, tuple_sum]
      exact hlt
    · rfl
  ext e
  by_cases hem : e.degree < m
  · exact teq_toPoly_mul G a b e hem
  · rw [coeff_toPoly G, if_neg hem, coeff_mul]
    symm
    apply Finset.sum_eq_zero
    intro x hx
    rw [Finset.mem_antidiagonal] at hx
    have hd2 : x.1.degree + x.2.degree = e.degree := by rw [← map_add, hx]
    rcases Nat.lt_or_ge da x.1.degree with h1 | h1
    · rw [hlow a da ha _ h1, zero_mul]
    · rw [hlow b db hb _ (by omega), mul_zero]

/-- Two linear polynomials in third order. -/
example : ∃ t abi, simplexIdx 3 3 = some (t, abi) ∧
    (∀ l < t.jdx.length, 1 < (t.jdx.getD l []).sum → (if l = 2 then (5 : ℝ) else 0) = 0) := by
  have hf : Fits 3 3 := ⟨by norm_num, by norm_num, by decide +kernel⟩
  obtain ⟨t, abi, ht, hl, -⟩ := c45_three_variables 3 hf
  refine ⟨t, abi, ht, fun l hl hs => ?_⟩
  rw [(enum_good hf (simplexIdx_some ht).1).jdx] at hs
  rw [if_neg]
  rintro rfl
  revert hs
  decide

/-- C47, violated for order one (constants): the table of powers has no room, its first entry is
written all the same. -/
theorem c47_order_one (d : ℕ) (hd : 1 ≤ d) (t : Tables) (ht : simplexEnum d 1 = some t)
    (a : ℕ → ℝ) (v : Fin d → ℝ) : eval t.jdx a (List.ofFn v) = none := by
  have hf : Fits d 1 := ⟨hd, le_rfl, by simp⟩
  have G := enum_good hf ht
  unfold eval
  simp only [last_entry G]
  rw [if_pos]
  refine ⟨by simp, ?_⟩
  intro hv
  have := congrArg List.length hv
  simp at this
  omega

example : ∃ t, simplexEnum 3 1 = some t :=
  (exists_enum (d := 3) (m := 1) ⟨by norm_num, by norm_num, by decide +kernel⟩).imp fun _ h => h.1

end RayOpt.Simplex
