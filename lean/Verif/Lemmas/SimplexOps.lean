import Verif.Lemmas.SimplexPoly
import Mathlib.Data.Finsupp.Interval
import Mathlib.Tactic.Linarith

/-! Product table size, powers and evaluation of truncated polynomials. -/

namespace RayOpt.Simplex

open MvPolynomial

/-! ### Size of the product table -/

theorem card_antidiagonal {d : ℕ} (e : Fin d →₀ ℕ) :
    (Finset.antidiagonal e).card = ∏ k, (e k + 1) := by
  classical
  have h1 : (Finset.antidiagonal e).card = (Finset.Iic e).card := by
    refine Finset.card_nbij' (fun x => x.1) (fun f => (f, e - f)) ?_ ?_ ?_ ?_
    · intro x hx
      have := Finset.mem_antidiagonal.mp hx
      simp only [Finset.coe_Iic, Set.mem_Iic]
      exact this ▸ le_self_add
    · intro f hf
      simp only [Finset.coe_Iic, Set.mem_Iic] at hf
      simp [add_tsub_cancel_of_le hf]
    · intro x hx
      have := Finset.mem_antidiagonal.mp hx
      ext1
      · rfl
      · simp [← this]
    · intro f _; rfl
  rw [h1, Finsupp.card_Iic]
  simp only [Nat.card_Iic]
  apply Finset.prod_subset (Finset.subset_univ _)
  intro k _ hk
  rw [Finsupp.notMem_support_iff.mp hk, zero_add]

theorem abi_length {d m : ℕ} {t : Tables} (G : Good d m t) {l : ℕ} (hl : l < t.jdx.length) :
    (abiTable d m t l).length = ∏ k : Fin d, ((t.jdx.getD l []).getD k 0 + 1) := by
  classical
  have h := mul_eq_coeff G (fun _ => 1) (fun _ => 1) hl
  obtain ⟨r1, r2, r3⟩ := G.row hl
  unfold mul at h
  rw [foldl_add_sum, coeff_mul] at h
  have h2 : ∑ x ∈ Finset.antidiagonal (expo d (t.jdx.getD l [])),
      coeff x.1 (toPoly d t.jdx fun _ => 1) * coeff x.2 (toPoly d t.jdx fun _ => 1)
      = (Finset.antidiagonal (expo d (t.jdx.getD l []))).card := by
    rw [Finset.card_eq_sum_ones, Nat.cast_sum]
    apply Finset.sum_congr rfl
    intro x hx
    rw [Finset.mem_antidiagonal] at hx
    have hdeg : x.1.degree + x.2.degree = (t.jdx.getD l []).sum := by
      rw [← map_add, hx, expo_degree r1]
    rw [coeff_toPoly G, coeff_toPoly G, if_pos (by omega), if_pos (by omega)]
    simp
  rw [h2, card_antidiagonal] at h
  simp only [mul_one, List.map_const', List.sum_replicate, nsmul_eq_mul, zero_add] at h
  exact_mod_cast h

theorem simplexIdx_eq (d m : ℕ) : simplexIdx d m = (simplexEnum d m).bind fun t =>
    open Classical in
    if ∃ l < t.jdx.length, room m < (abiTable d m t l).length then none
    else if ∀ l < t.jdx.length, (abiTable d m t l).length ≠ room m then none
    else some (t, abiTable d m t) := rfl

/-- Whatever tables come out, they are the enumeration and the loop's product table. -/
theorem simplexIdx_some {d m : ℕ} {t : Tables} {abi : ℕ → List (ℕ × ℕ)}
    (h : simplexIdx d m = some (t, abi)) : simplexEnum d m = some t ∧ abi = abiTable d m t := by
  rw [simplexIdx_eq] at h
  cases he : simplexEnum d m with
  | none => rw [he] at h; simp at h
  | some t' =>
    rw [he, Option.bind_some] at h
    split_ifs at h
    cases h
    exact ⟨rfl, rfl⟩

theorem room_cases (k : ℕ) : room (3 * k + 1) = (k + 1) * (k + 1) * (k + 1) ∧
    room (3 * k + 2) = (k + 1) * (k + 1) * (k + 2) ∧
    room (3 * k + 3) = (k + 1) * (k + 2) * (k + 2) := by
  unfold room
  have a1 : (3 * k + 1 - 1) / 3 = k := by omega
  have a2 : (3 * k + 2 - 1) / 3 = k := by omega
  have a3 : (3 * k + 3 - 1) / 3 = k := by omega
  simp only [a1, a2, a3]
  have b1 : (3 * k + 1 - k - 1) / 2 = k := by omega
  have b2 : (3 * k + 2 - k - 1) / 2 = k := by omega
  have b3 : (3 * k + 3 - k - 1) / 2 = k + 1 := by omega
  simp only [b1, b2, b3]
  refine ⟨?_, ?_, ?_⟩ <;> congr 1 <;> omega

theorem two_split {n t y z : ℤ} (h : y + z = 2 * n + t) : 4 * (y * z) ≤ (2 * n + t) ^ 2 := by
  rw [← h]; nlinarith [sq_nonneg (y - z)]

theorem prod3_le_aux {n r x y z : ℤ} (hr : r = 0 ∨ r = 1 ∨ r = 2) (hx : 0 ≤ x)
    (hn : 1 ≤ n) (hxy : x ≤ y) (hxz : x ≤ z) (hs : x + y + z = 3 * n + r) :
    x * (y * z) ≤ if r = 0 then n * n * n else if r = 1 then n * n * (n + 1)
      else n * (n + 1) * (n + 1) := by
  have hxn : x ≤ n := by rcases hr with h | h | h <;> omega
  obtain ⟨t, rfl⟩ : ∃ t, x = n - t := ⟨n - x, by ring⟩
  have ht : 0 ≤ t := by omega
  have hyz : y + z = 2 * n + (r + t) := by linarith
  have h4 := two_split hyz
  rcases hr with rfl | rfl | rfl
  · simp only [if_true]
    have := mul_le_mul_of_nonneg_left h4 hx
    nlinarith [mul_nonneg ht ht, mul_nonneg (mul_nonneg ht ht) ht, mul_nonneg (mul_nonneg ht ht) hx]
  · simp only [one_ne_zero, if_false, if_true]
    rcases ht.eq_or_lt with rfl | ht'
    · have h5 : y * z ≤ n * (n + 1) := by
        have : y ≤ n ∨ n + 1 ≤ y := by omega
        have hz : z = 2 * n + 1 - y := by linarith
        subst hz
        rcases this with h | h <;> nlinarith
      nlinarith
    · have := mul_le_mul_of_nonneg_left h4 hx
      have ht1 : 1 ≤ t := ht'
      nlinarith [mul_nonneg ht ht, mul_nonneg (mul_nonneg ht ht) ht,
        mul_nonneg (mul_nonneg ht ht) hx, mul_nonneg ht hx]
  · have e1 : ¬ ((2 : ℤ) = 0) := by norm_num
    have e2 : ¬ ((2 : ℤ) = 1) := by norm_num
    simp only [if_neg e1, if_neg e2]
    have := mul_le_mul_of_nonneg_left h4 hx
    nlinarith [mul_nonneg ht ht, mul_nonneg (mul_nonneg ht ht) ht,
      mul_nonneg (mul_nonneg ht ht) hx, mul_nonneg ht hx]

theorem prod3_le_sorted {n r x y z : ℤ} (hr : r = 0 ∨ r = 1 ∨ r = 2) (hx : 0 ≤ x) (hy : 0 ≤ y)
    (hz : 0 ≤ z) (hn : 1 ≤ n) (hs : x + y + z = 3 * n + r) :
    x * y * z ≤ if r = 0 then n * n * n else if r = 1 then n * n * (n + 1)
      else n * (n + 1) * (n + 1) := by
  rcases le_total x y with h1 | h1 <;> rcases le_total x z with h2 | h2 <;>
    rcases le_total y z with h3 | h3
  · have := prod3_le_aux hr hx hn h1 h2 hs; rwa [← mul_assoc] at this
  · have := prod3_le_aux hr hx hn h1 h2 hs; rwa [← mul_assoc] at this
  · have := prod3_le_aux hr hz hn h2 (h2.trans h1) (by linarith : z + x + y = _)
    rw [show x * y * z = z * (x * y) by ring]; exact this
  · have := prod3_le_aux hr hz hn h2 h3 (by linarith : z + x + y = _)
    rw [show x * y * z = z * (x * y) by ring]; exact this
  · have := prod3_le_aux hr hy hn h1 h3 (by linarith : y + x + z = _)
    rw [show x * y * z = y * (x * z) by ring]; exact this
  · have := prod3_le_aux hr hz hn (h3.trans h1) h3 (by linarith : z + x + y = _)
    rw [show x * y * z = z * (x * y) by ring]; exact this
  · have := prod3_le_aux hr hy hn h1 h3 (by linarith : y + x + z = _)
    rw [show x * y * z = y * (x * z) by ring]; exact this
  · have := prod3_le_aux hr hz hn h2 h3 (by linarith : z + x + y = _)
    rw [show x * y * z = z * (x * y) by ring]; exact this

/-- Among triples with a given sum the product is largest for the balanced one. -/
theorem prod3_le_room {m x y z : ℕ} (hm : 0 < m) (hs : x + y + z < m) :
    (x + 1) * (y + 1) * (z + 1) ≤ room m := by
  have hex : ∃ k r, m = 3 * k + 1 + r ∧ (r = 0 ∨ r = 1 ∨ r = 2) :=
    ⟨(m - 1) / 3, (m - 1) % 3, by omega, by omega⟩
  obtain ⟨k, r, rfl, hr⟩ := hex
  obtain ⟨R1, R2, R3⟩ := room_cases k
  have hz : z ≤ 3 * k + r - x - y := by omega
  have step : (x + 1) * (y + 1) * (z + 1) ≤ (x + 1) * (y + 1) * (3 * k + r - x - y + 1) :=
    Nat.mul_le_mul_left _ (by omega)
  refine step.trans ?_
  have key := prod3_le_sorted (n := (k : ℤ) + 1) (r := r) (x := (x : ℤ) + 1) (y := (y : ℤ) + 1)
    (z := ((3 * k + r - x - y : ℕ) : ℤ) + 1)
    (by rcases hr with h | h | h <;> simp [h]) (by positivity) (by positivity) (by positivity)
    (by omega) (by omega)
  rcases hr with rfl | rfl | rfl
  · simp only [Nat.cast_zero, if_true] at key
    rw [show 3 * k + 1 + 0 = 3 * k + 1 by rfl, R1]
    exact_mod_cast key
  · simp only [Nat.cast_one, one_ne_zero, if_false, if_true] at key
    rw [show 3 * k + 1 + 1 = 3 * k + 2 by rfl, R2]
    exact_mod_cast key
  · have e1 : ¬ (((2 : ℕ) : ℤ) = 0) := by norm_num
    have e2 : ¬ (((2 : ℕ) : ℤ) = 1) := by norm_num
    simp only [if_neg e1, if_neg e2] at key
    rw [show 3 * k + 1 + 2 = 3 * k + 3 by rfl, R3]
    exact_mod_cast key

theorem room_attained {m : ℕ} (hm : 0 < m) :
    ∃ x y z, x + y + z < m ∧ (x + 1) * (y + 1) * (z + 1) = room m := by
  refine ⟨(m - 1) / 3, (m - (m - 1) / 3 - 1) / 2,
    m - (m - 1) / 3 - (m - (m - 1) / 3 - 1) / 2 - 1, by omega, ?_⟩
  unfold room
  simp only []
  congr 1
  omega

theorem simplexIdx_three {m : ℕ} (h : Fits 3 m) :
    ∃ t, simplexEnum 3 m = some t ∧ simplexIdx 3 m = some (t, abiTable 3 m t) := by
  classical
  obtain ⟨t, ht, -⟩ := exists_enum h
  have G := enum_good h ht
  refine ⟨t, ht, ?_⟩
  rw [simplexIdx_eq, ht, Option.bind_some, if_neg, if_neg]
  · push Not
    obtain ⟨x, y, z, hs, hp⟩ := room_attained G.mpos
    have hmem : [x, y, z] ∈ simplexIter 3 m := by rw [G.mem]; simp; omega
    refine ⟨t.idx [x, y, z], G.lt _ hmem, ?_⟩
    rw [abi_length G (G.lt _ hmem)]
    have hrow : t.jdx.getD (t.idx [x, y, z]) [] = [x, y, z] := by
      rw [List.getD, G.get _ hmem]; rfl
    rw [hrow, ← hp, Fin.prod_univ_three]
    rfl
  · push Not
    intro l hl
    obtain ⟨r1, r2, r3⟩ := G.row hl
    rw [abi_length G hl]
    generalize t.jdx.getD l [] = p at *
    match p, r1 with
    | [x, y, z], _ =>
      rw [Fin.prod_univ_three]
      exact prod3_le_room G.mpos (by simpa [add_assoc] using r2)

theorem room_lt {m : ℕ} (h : Fits 3 m) : room m < 65536 := by
  have hm : m ≤ 72 := by
    by_contra hc
    have h1 : (73 + 3 - 1).choose 3 ≤ (m + 3 - 1).choose 3 := Nat.choose_le_choose 3 (by omega)
    have h2 := h.2.2
    have h3 : (73 + 3 - 1).choose 3 = 67525 := by decide +kernel
    omega
  have : ∀ m ≤ 72, room m < 65536 := by decide +kernel
  exact this m hm

/-! ### Linear structure -/

theorem toPoly_add (d : ℕ) (jdx : List (List ℕ)) (a b : ℕ → ℝ) :
    toPoly d jdx (fun i => a i + b i) = toPoly d jdx a + toPoly d jdx b := by
  unfold toPoly
  rw [← Finset.sum_add_distrib]
  apply Finset.sum_congr rfl
  intro l _
  exact map_add (monomial _) _ _

theorem toPoly_smul (d : ℕ) (jdx : List (List ℕ)) (c : ℝ) (a : ℕ → ℝ) :
    toPoly d jdx (fun i => c * a i) = C c * toPoly d jdx a := by
  unfold toPoly
  rw [Finset.mul_sum]
  apply Finset.sum_congr rfl
  intro l _
  rw [C_mul_monomial]

theorem toPoly_update {d m : ℕ} {t : Tables} (G : Good d m t) (a : ℕ → ℝ) (c : ℝ) :
    toPoly d t.jdx (Function.update a 0 c) = toPoly d t.jdx a + C (c - a 0) := by
  unfold toPoly
  obtain ⟨n, hn⟩ := Nat.exists_eq_succ_of_ne_zero G.length_pos.ne'
  have h0 : expo d (List.replicate d 0) = 0 := by ext k; simp
  rw [hn, Finset.sum_range_succ', Finset.sum_range_succ', G.zero_row, h0, Function.update_self]
  have : ∀ l, Function.update a 0 c (l + 1) = a (l + 1) := by
    intro l; rw [Function.update_of_ne (by omega)]
  simp only [this, monomial_zero', C_sub]
  ring

theorem toPoly_one {d m : ℕ} {t : Tables} (G : Good d m t) :
    toPoly d t.jdx (fun i => if i = 0 then (1 : ℝ) else 0) = 1 := by
  have := toPoly_update G (fun _ => 0) 1
  have e : Function.update (fun _ => (0 : ℝ)) 0 1
      = fun i : ℕ => if i = 0 then (1 : ℝ) else 0 := by
    funext i
    by_cases hi : i = 0
    · subst hi; simp
    · simp [hi]
  rw [e] at this
  rw [this]
  have h0 : toPoly d t.jdx (fun _ => (0 : ℝ)) = 0 := by
    unfold toPoly; simp
  rw [h0]; simp

theorem coeff_zero_sub {d m : ℕ} {t : Tables} (G : Good d m t) (a : ℕ → ℝ) :
    coeff 0 (toPoly d t.jdx a - C (a 0)) = 0 := by
  have e0 : expo d (t.jdx.getD 0 []) = 0 := by rw [G.zero_row]; ext k; simp
  have := coeff_toPoly_row G a G.length_pos
  rw [e0] at this
  rw [coeff_sub, this, coeff_zero_C, sub_self]

/-! ### Powers -/

theorem choose_step (p : ℝ) (k : ℕ) :
    Ring.choose p (k + 1) = (p - k) / (k + 1) * Ring.choose p k := by
  have h := Ring.choose_smul_choose p (Nat.le_succ k)
  rw [Nat.succ_eq_add_one, Nat.choose_succ_self_right, Nat.add_sub_cancel_left,
    Ring.choose_one_right, nsmul_eq_mul] at h
  have hk : (k : ℝ) + 1 ≠ 0 := by positivity
  push_cast at h
  field_simp
  linear_combination h

theorem powLoop_spec {d m : ℕ} {t : Tables} (G : Good d m t) (x : ℕ → ℝ) (p : ℝ) :
    ∀ (s i : ℕ) (yz : (ℕ → ℝ) × (ℕ → ℝ)),
    TEq m (toPoly d t.jdx yz.1) (C (Ring.choose p i) * toPoly d t.jdx x ^ i) →
    TEq m (toPoly d t.jdx yz.2)
      (∑ k ∈ Finset.range (i + 1), C (Ring.choose p k) * toPoly d t.jdx x ^ k) →
    TEq m (toPoly d t.jdx (powLoop (abiTable d m t) x p s i yz).2)
      (∑ k ∈ Finset.range (i + s + 1), C (Ring.choose p k) * toPoly d t.jdx x ^ k) := by
  intro s
  induction s with
  | zero => intro i yz _ h2; exact h2
  | succ s ih =>
    intro i yz h1 h2
    rw [powLoop]
    rw [show i + (s + 1) + 1 = (i + 1) + s + 1 by ring]
    have hy : TEq m (toPoly d t.jdx fun j => (p - i) / (i + 1) * mul (abiTable d m t) x yz.1 j)
        (C (Ring.choose p (i + 1)) * toPoly d t.jdx x ^ (i + 1)) := by
      rw [toPoly_smul, choose_step, C_mul, pow_succ]
      have h3 := (teq_toPoly_mul G x yz.1).trans ((TEq.refl (toPoly d t.jdx x)).mul h1)
      have h4 := (TEq.refl (m := m) (C ((p - i) / (i + 1)) : MvPolynomial (Fin d) ℝ)).mul h3
      convert h4 using 1
      ring
    apply ih
    · exact hy
    · simp only
      rw [toPoly_add, Finset.sum_range_succ _ (i + 1)]
      exact h2.add hy

/-- The power is `a₀^p` times the binomial series of `1 + x`, where `x` is `a` without its
constant. -/
theorem pow_spec {d m : ℕ} {t : Tables} (G : Good d m t) (a : ℕ → ℝ) (p : ℝ) :
    TEq m (toPoly d t.jdx (pow (abiTable d m t) m a p))
      (C (a 0 ^ p) * ∑ k ∈ Finset.range (m + 1),
        C (Ring.choose p k) * (toPoly d t.jdx a - C (a 0)) ^ k) := by
  have hx : toPoly d t.jdx (Function.update a 0 0) = toPoly d t.jdx a - C (a 0) := by
    rw [toPoly_update G, zero_sub, C_neg, sub_eq_add_neg]
  unfold pow
  simp only
  have h1 : toPoly d t.jdx (fun i => Function.update a 0 0 i * p)
      = C (Ring.choose p 1) * toPoly d t.jdx (Function.update a 0 0) ^ 1 := by
    rw [Ring.choose_one_right, pow_one, ← toPoly_smul]
    congr 1
    funext i
    ring
  have h := powLoop_spec G (Function.update a 0 0) p (m - 1) 1
    (fun i => Function.update a 0 0 i * p,
      Function.update (fun i => Function.update a 0 0 i * p) 0
        ((fun i => Function.update a 0 0 i * p) 0 + 1))
    (by rw [h1]; exact TEq.refl _)
    (by
      simp only
      rw [toPoly_update G, h1, Finset.sum_range_succ, Finset.sum_range_one, pow_zero,
        Ring.choose_zero_right, add_comm]
      simp [TEq.refl])
  have hm : 1 + (m - 1) + 1 = m + 1 := by have := G.mpos; omega
  rw [hm, hx] at h
  have h2 := (TEq.refl (m := m) (C (a 0 ^ p) : MvPolynomial (Fin d) ℝ)).mul h
  rw [← toPoly_smul] at h2
  convert h2 using 3
  ring

/-! ### Evaluation -/

theorem powers_foldl (x : ℝ) (n : ℕ) : (List.range n).foldl (fun acc j =>
    if j = 0 then [x] else acc ++ [acc.getLastD 0 * x]) [] =
      (List.range n).map fun j => x ^ (j + 1) := by
  induction n with
  | zero => rfl
  | succ n ih =>
    rw [List.range_succ, List.foldl_append, ih, List.map_append, List.foldl_cons, List.foldl_nil]
    cases n with
    | zero => simp
    | succ n =>
      rw [if_neg (by omega)]
      congr 1
      rw [List.range_succ, List.map_append]
      simp [pow_succ]

theorem powers_eq (x : ℝ) (n : ℕ) : powers x n = (List.range n).map fun j => x ^ (j + 1) := by
  cases n with
  | zero => rfl
  | succ n => exact powers_foldl x (n + 1)

theorem eval_row (n : ℕ) : ∀ (p : List ℕ) (x : List ℝ) (c : ℝ), p.length = x.length →
    (∀ k ∈ p, k ≤ n) →
    ((p.zip (x.map fun xi => powers xi n)).foldl (fun yi kp => yi.bind fun yi =>
      if 0 < kp.1 then (kp.2[kp.1 - 1]?).map (yi * ·) else some yi) (some c))
      = some (c * (List.zipWith (fun k xi => xi ^ k) p x).prod) := by
  intro p
  induction p with
  | nil => intro x c _ _; simp
  | cons k p ih =>
    intro x c hl hk
    match x, hl with
    | xi :: x, hl =>
      rw [List.map_cons, List.zip_cons_cons, List.foldl_cons, List.zipWith_cons_cons,
        List.prod_cons, Option.bind_some]
      have h1 : (if 0 < k then ((powers xi n)[k - 1]?).map (c * ·) else some c)
          = some (c * xi ^ k) := by
        by_cases h0 : 0 < k
        · have hkn : k ≤ n := hk k (by simp)
          rw [if_pos h0, powers_eq, List.getElem?_map, List.getElem?_range (by omega),
            Option.map_some, Option.map_some, Nat.sub_add_cancel h0]
        · have : k = 0 := by omega
          subst this
          simp
      simp only [h1]
      rw [ih x _ (by simpa using hl) fun k hk' => hk k (by simp [hk'])]
      rw [mul_assoc]

theorem eval_foldl (f : List ℕ → ℝ) (g : List ℕ → ℕ → Option ℝ) (a : ℕ → ℝ) :
    ∀ (jdx : List (List ℕ)) (s : ℕ) (y : ℝ),
    (∀ p ∈ jdx, ∀ i, g p i = some (a i * f p)) →
    (jdx.zipIdx s).foldl (fun y ji => y.bind fun y => (g ji.1 ji.2).map (y + ·)) (some y)
      = some (y + ∑ l ∈ Finset.range jdx.length, a (s + l) * f (jdx.getD l [])) := by
  intro jdx
  induction jdx with
  | nil => intro s y _; simp
  | cons p jdx ih =>
    intro s y h
    rw [List.zipIdx_cons, List.foldl_cons, Option.bind_some, h p (by simp), Option.map_some,
      ih _ _ fun q hq => h q (by simp [hq]), List.length_cons, Finset.sum_range_succ']
    simp only [List.getD_cons_succ, List.getD_cons_zero, add_zero]
    congr 1
    rw [add_assoc, add_comm (a s * f p)]
    congr 2
    apply Finset.sum_congr rfl
    intro l _
    rw [add_right_comm, add_assoc]

theorem zipWith_ofFn_prod {d : ℕ} (v : Fin d → ℝ) {p : List ℕ} (hp : p.length = d) :
    (List.zipWith (fun k xi => xi ^ k) p (List.ofFn v)).prod = ∏ k, v k ^ expo d p k := by
  have h : List.zipWith (fun k xi => xi ^ k) p (List.ofFn v)
      = List.ofFn fun k => v k ^ expo d p k := by
    apply List.ext_getElem
    · simp [hp]
    · intro i h1 h2
      have : i < p.length := by simp at h1; exact h1.1
      simp [this]
  rw [h, List.prod_ofFn]

theorem last_entry {d m : ℕ} {t : Tables} (G : Good d m t) :
    (t.jdx.getLastD []).getLastD 0 = m - 1 := by
  have hd := G.pos
  have h := simplexIter_last (d := d - 1) G.mpos
  rw [Nat.sub_add_cancel hd, ← G.jdx] at h
  rw [List.getLastD_eq_getLast?, List.getLastD_eq_getLast?, h]
  simp

theorem eval_spec {d m : ℕ} {t : Tables} (G : Good d m t) (hm : 2 ≤ m) (a : ℕ → ℝ)
    (v : Fin d → ℝ) :
    eval t.jdx a (List.ofFn v) = some (MvPolynomial.eval v (toPoly d t.jdx a)) := by
  unfold eval
  simp only [last_entry G]
  rw [if_neg (by omega)]
  rw [eval_foldl (fun p => ∏ k, v k ^ expo d p k) (fun p i =>
    (p.zip ((List.ofFn v).map fun xi => powers xi (m - 1))).foldl (fun yi kp => yi.bind fun yi =>
      if 0 < kp.1 then (kp.2[kp.1 - 1]?).map (yi * ·) else some yi) (some (a i))) a]
  · congr 1
    rw [toPoly, map_sum, zero_add]
    apply Finset.sum_congr rfl
    intro l _
    rw [eval_monomial, zero_add, Finsupp.prod_fintype _ _ (by simp)]
  · intro p hp i
    rw [G.jdx, G.mem] at hp
    rw [eval_row (m - 1) p _ _ (by simp [hp.1]), zipWith_ofFn_prod v hp.1]
    intro k hk
    have : k ≤ p.sum := List.single_le_sum (by simp) k hk
    omega

end RayOpt.Simplex
