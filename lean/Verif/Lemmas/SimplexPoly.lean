import Verif.Lemmas.Simplex
import Mathlib.Algebra.MvPolynomial.Basic
import Mathlib.Algebra.MvPolynomial.Eval
import Mathlib.RingTheory.Binomial

/-! Coefficient vectors as multivariate polynomials. -/

namespace RayOpt.Simplex

open MvPolynomial

/-- The exponent tuple `p` as a monomial in `d` variables. -/
noncomputable def expo (d : ℕ) (p : List ℕ) : Fin d →₀ ℕ :=
  Finsupp.equivFunOnFinite.symm fun k => p.getD k 0

@[simp] theorem expo_apply {d : ℕ} (p : List ℕ) (k : Fin d) : expo d p k = p.getD k 0 := rfl

/-- The exponents of a monomial as a tuple. -/
def tuple {d : ℕ} (e : Fin d →₀ ℕ) : List ℕ := List.ofFn e

theorem tuple_length {d : ℕ} (e : Fin d →₀ ℕ) : (tuple e).length = d := List.length_ofFn

theorem expo_tuple {d : ℕ} (e : Fin d →₀ ℕ) : expo d (tuple e) = e := by
  ext k
  simp [tuple]

theorem tuple_expo {d : ℕ} {p : List ℕ} (h : p.length = d) : tuple (expo d p) = p := by
  apply List.ext_getElem
  · simp [tuple, h]
  · intro i h1 h2
    simp [tuple, h2]

theorem tuple_sum {d : ℕ} (e : Fin d →₀ ℕ) : (tuple e).sum = e.degree := by
  simp [tuple, List.sum_ofFn, Finsupp.degree_eq_sum]

theorem expo_degree {d : ℕ} {p : List ℕ} (h : p.length = d) : (expo d p).degree = p.sum := by
  rw [← tuple_sum, tuple_expo h]

theorem expo_add {d : ℕ} {p q : List ℕ} (hp : p.length = d) (hq : q.length = d) :
    expo d (List.zipWith (· + ·) p q) = expo d p + expo d q := by
  ext k
  have h1 : (k : ℕ) < p.length := by rw [hp]; exact k.2
  have h2 : (k : ℕ) < q.length := by rw [hq]; exact k.2
  simp [h1, h2]

theorem expo_inj {d : ℕ} {p q : List ℕ} (hp : p.length = d) (hq : q.length = d)
    (h : expo d p = expo d q) : p = q := by
  rw [← tuple_expo hp, ← tuple_expo hq, h]

/-- The polynomial with the coefficients `a` in the order of the exponent table `jdx`. -/
noncomputable def toPoly (d : ℕ) (jdx : List (List ℕ)) (a : ℕ → ℝ) : MvPolynomial (Fin d) ℝ :=
  ∑ l ∈ Finset.range jdx.length, monomial (expo d (jdx.getD l [])) (a l)

/-- The index tables of a simplex, as established by `exists_enum`. -/
structure Good (d m : ℕ) (t : Tables) : Prop where
  pos : 0 < d
  mpos : 0 < m
  jdx : t.jdx = simplexIter d m
  idx : ∀ j p, (simplexIter d m)[j]? = some p → t.idx p = j
  lt : ∀ p, p ∈ simplexIter d m → t.idx p < t.jdx.length
  get : ∀ p, p ∈ simplexIter d m → t.jdx[t.idx p]? = some p

theorem enum_good {d m : ℕ} (h : Fits d m) {t : Tables} (ht : simplexEnum d m = some t) :
    Good d m t := by
  obtain ⟨t', h1, h2, h3, h4⟩ := exists_enum h
  rw [ht] at h1
  cases h1
  exact ⟨h.1, h.2.1, h2, h3, fun p hp => (h4 p hp).1, fun p hp => (h4 p hp).2⟩

section
variable {d m : ℕ} {t : Tables} (G : Good d m t)
include G

theorem Good.mem (p : List ℕ) : p ∈ simplexIter d m ↔ p.length = d ∧ p.sum < m := by
  rw [mem_simplexIter]
  have := G.pos
  constructor
  · rintro ⟨h1, h2 | h2⟩
    · omega
    · exact ⟨h1, h2⟩
  · rintro ⟨h1, h2⟩
    exact ⟨h1, Or.inr h2⟩

theorem Good.row {l : ℕ} (hl : l < t.jdx.length) :
    (t.jdx.getD l []).length = d ∧ (t.jdx.getD l []).sum < m ∧ t.idx (t.jdx.getD l []) = l := by
  have h0 : t.jdx[l]? = some (t.jdx.getD l []) := by simp [hl]
  have h1 := List.mem_of_getElem? h0
  rw [G.jdx] at h0
  have h2 := G.idx _ _ h0
  rw [← G.jdx] at h2
  rw [G.jdx, G.mem] at h1
  rw [← G.jdx] at h1
  exact ⟨h1.1, h1.2, h2⟩

theorem Good.idx_inj {p q : List ℕ} (hp : p ∈ simplexIter d m) (hq : q ∈ simplexIter d m)
    (h : t.idx p = t.idx q) : p = q := by
  have h1 := G.get p hp
  have h2 := G.get q hq
  rw [h] at h1
  rw [h1] at h2
  exact Option.some.inj h2

theorem Good.zero_row : t.jdx.getD 0 [] = List.replicate d 0 := by
  have := simplexIter_head (d := d) G.mpos
  rw [← G.jdx] at this
  simp [List.getD, this]

theorem Good.length_pos : 0 < t.jdx.length := by
  rw [G.jdx]
  exact List.length_pos_iff.mpr (simplexIter_ne_nil G.mpos)

theorem coeff_toPoly (a : ℕ → ℝ) (e : Fin d →₀ ℕ) :
    coeff e (toPoly d t.jdx a) = if e.degree < m then a (t.idx (tuple e)) else 0 := by
  unfold toPoly
  rw [coeff_sum]
  simp only [coeff_monomial]
  by_cases he : e.degree < m
  · rw [if_pos he]
    have hmem : tuple e ∈ simplexIter d m := by
      rw [G.mem, tuple_length, tuple_sum]; exact ⟨rfl, he⟩
    rw [Finset.sum_eq_single (t.idx (tuple e))]
    · rw [if_pos]
      have := G.get _ hmem
      rw [List.getD, this, Option.getD_some, expo_tuple]
    · intro l hl hne
      rw [if_neg]
      intro h
      apply hne
      obtain ⟨h1, h2, h3⟩ := G.row (Finset.mem_range.mp hl)
      rw [← h3, ← h, tuple_expo h1]
    · intro h
      exact absurd (Finset.mem_range.mpr (G.lt _ hmem)) h
  · rw [if_neg he]
    apply Finset.sum_eq_zero
    intro l hl
    rw [if_neg]
    intro h
    apply he
    obtain ⟨h1, h2, h3⟩ := G.row (Finset.mem_range.mp hl)
    rw [← h, expo_degree h1]
    exact h2

theorem coeff_toPoly_row (a : ℕ → ℝ) {l : ℕ} (hl : l < t.jdx.length) :
    coeff (expo d (t.jdx.getD l [])) (toPoly d t.jdx a) = a l := by
  obtain ⟨h1, h2, h3⟩ := G.row hl
  rw [coeff_toPoly G, if_pos (by rw [expo_degree h1]; exact h2), tuple_expo h1, h3]

end

/-! ### The product table -/

theorem abi_foldl (t : Tables) (pqs : List (List ℕ)) (abi : ℕ → List (ℕ × ℕ)) (l : ℕ) :
    pqs.foldl (abiStep t) abi l = abi l ++
      (pqs.filter fun pq => t.idx (List.zipWith (· + ·) (evens pq) (odds pq)) = l).map
        fun pq => (t.idx (evens pq), t.idx (odds pq)) := by
  induction pqs generalizing abi with
  | nil => simp
  | cons pq pqs ih =>
    rw [List.foldl_cons, ih, List.filter_cons]
    unfold abiStep
    simp only [decide_eq_true_eq]
    by_cases h : t.idx (List.zipWith (· + ·) (evens pq) (odds pq)) = l
    · rw [if_pos h]; subst h; simp
    · rw [if_neg h, Function.update_of_ne (Ne.symm h)]

/-- Inverse of `evens`, `odds`. -/
def interleave : List ℕ → List ℕ → List ℕ
  | a :: p, b :: q => a :: b :: interleave p q
  | _, _ => []

theorem interleave_spec : ∀ (p q : List ℕ), p.length = q.length →
    evens (interleave p q) = p ∧ odds (interleave p q) = q ∧
    (interleave p q).length = 2 * p.length ∧ (interleave p q).sum = p.sum + q.sum
  | [], [], _ => by simp [interleave, evens, odds]
  | [], _ :: _, h => by simp at h
  | _ :: _, [], h => by simp at h
  | a :: p, b :: q, h => by
    obtain ⟨h1, h2, h3, h4⟩ := interleave_spec p q (by simpa using h)
    refine ⟨by simp [interleave, evens, h1], by simp [interleave, odds, h2], ?_, ?_⟩
    · simp [interleave, h3]; ring
    · simp [interleave, h4]; ring

theorem evens_odds_spec : ∀ (d : ℕ) (pq : List ℕ), pq.length = 2 * d →
    (evens pq).length = d ∧ (odds pq).length = d ∧ interleave (evens pq) (odds pq) = pq := by
  intro d
  induction d with
  | zero => intro pq h; rw [List.length_eq_zero_iff.mp h]; simp [evens, odds, interleave]
  | succ d ih =>
    intro pq h
    match pq, h with
    | [], h => simp at h
    | [_], h => simp at h; omega
    | a :: b :: l, h =>
      obtain ⟨h1, h2, h3⟩ := ih l (by simp at h; omega)
      simp [evens, odds, interleave, h1, h2, h3]

theorem foldl_add_sum {α : Type*} (f : α → ℝ) (l : List α) (c : ℝ) :
    l.foldl (fun c x => c + f x) c = c + (l.map f).sum := by
  induction l generalizing c with
  | nil => simp
  | cons a l ih => rw [List.foldl_cons, ih]; simp; ring

/-- The product table built by the loop. -/
def abiTable (d m : ℕ) (t : Tables) : ℕ → List (ℕ × ℕ) :=
  (simplexIter (2 * d) m).foldl (abiStep t) fun _ => []

theorem mul_eq_coeff {d m : ℕ} {t : Tables} (G : Good d m t) (a b : ℕ → ℝ) {l : ℕ}
    (hl : l < t.jdx.length) :
    mul (abiTable d m t) a b l
      = coeff (expo d (t.jdx.getD l [])) (toPoly d t.jdx a * toPoly d t.jdx b) := by
  classical
  obtain ⟨r1, r2, r3⟩ := G.row hl
  have hd := G.pos
  unfold mul abiTable
  rw [abi_foldl, List.nil_append, foldl_add_sum, List.map_map, zero_add, coeff_mul]
  set L := (simplexIter (2 * d) m).filter
    fun pq => t.idx (List.zipWith (· + ·) (evens pq) (odds pq)) = l with hL
  have hnd : L.Nodup := (nodup_simplexIter _ _).filter _
  rw [← List.sum_toFinset _ hnd]
  have hmem : ∀ pq, pq ∈ L ↔ pq.length = 2 * d ∧
      List.zipWith (· + ·) (evens pq) (odds pq) = t.jdx.getD l [] := by
    intro pq
    rw [hL, List.mem_filter, mem_simplexIter, decide_eq_true_eq]
    constructor
    · rintro ⟨⟨h1, h2⟩, h3⟩
      refine ⟨h1, ?_⟩
      obtain ⟨e1, e2, e3⟩ := evens_odds_spec d pq h1
      have hs := (interleave_spec (evens pq) (odds pq) (by rw [e1, e2])).2.2.2
      rw [e3] at hs
      refine G.idx_inj ?_ ?_ (h3.trans r3.symm)
      · rw [G.mem]
        refine ⟨by simp [e1, e2], ?_⟩
        have : (List.zipWith (· + ·) (evens pq) (odds pq)).sum = pq.sum := by
          rw [hs, ← expo_degree (d := d) (by simp [e1, e2]), expo_add e1 e2, map_add,
            expo_degree e1, expo_degree e2]
        rw [this]; omega
      · rw [G.mem]; exact ⟨r1, r2⟩
    · rintro ⟨h1, h2⟩
      obtain ⟨e1, e2, e3⟩ := evens_odds_spec d pq h1
      have hs := (interleave_spec (evens pq) (odds pq) (by rw [e1, e2])).2.2.2
      rw [e3] at hs
      refine ⟨⟨h1, Or.inr ?_⟩, by rw [h2, r3]⟩
      have : (List.zipWith (· + ·) (evens pq) (odds pq)).sum = pq.sum := by
          rw [hs, ← expo_degree (d := d) (by simp [e1, e2]), expo_add e1 e2, map_add,
            expo_degree e1, expo_degree e2]
      rw [← this, h2]; exact r2
  refine Finset.sum_nbij' (fun pq => (expo d (evens pq), expo d (odds pq)))
    (fun x => interleave (tuple x.1) (tuple x.2)) ?_ ?_ ?_ ?_ ?_
  · intro pq h
    rw [List.mem_toFinset, hmem] at h
    obtain ⟨e1, e2, e3⟩ := evens_odds_spec d pq h.1
    rw [Finset.mem_antidiagonal, ← expo_add e1 e2, h.2]
  · intro x h
    rw [Finset.mem_antidiagonal] at h
    rw [List.mem_toFinset, hmem]
    obtain ⟨i1, i2, i3, i4⟩ := interleave_spec (tuple x.1) (tuple x.2)
      (by rw [tuple_length, tuple_length])
    refine ⟨by rw [i3, tuple_length], ?_⟩
    rw [i1, i2]
    apply expo_inj (d := d) (by simp [tuple_length]) r1
    rw [expo_add (tuple_length _) (tuple_length _), expo_tuple, expo_tuple, h]
  · intro pq h
    rw [List.mem_toFinset, hmem] at h
    obtain ⟨e1, e2, e3⟩ := evens_odds_spec d pq h.1
    simp only [tuple_expo e1, tuple_expo e2, e3]
  · intro x h
    obtain ⟨i1, i2, i3, i4⟩ := interleave_spec (tuple x.1) (tuple x.2)
      (by rw [tuple_length, tuple_length])
    simp only [i1, i2, expo_tuple]
  · intro pq h
    rw [List.mem_toFinset, hmem] at h
    obtain ⟨e1, e2, e3⟩ := evens_odds_spec d pq h.1
    have hsum : (evens pq).sum + (odds pq).sum < m := by
      have : (List.zipWith (· + ·) (evens pq) (odds pq)).sum = (evens pq).sum + (odds pq).sum := by
          rw [← expo_degree (d := d) (by simp [e1, e2]), expo_add e1 e2, map_add,
            expo_degree e1, expo_degree e2]
      rw [← this, h.2]; exact r2
    rw [coeff_toPoly G, coeff_toPoly G, if_pos (by rw [expo_degree e1]; omega),
      if_pos (by rw [expo_degree e2]; omega), tuple_expo e1, tuple_expo e2]
    rfl

/-! ### Equality up to the order -/

/-- Equal coefficients for all monomials of degree below `m`. -/
def TEq {d : ℕ} (m : ℕ) (A B : MvPolynomial (Fin d) ℝ) : Prop :=
  ∀ e : Fin d →₀ ℕ, e.degree < m → coeff e A = coeff e B

theorem TEq.refl {d m : ℕ} (A : MvPolynomial (Fin d) ℝ) : TEq m A A := fun _ _ => rfl
theorem TEq.symm {d m : ℕ} {A B : MvPolynomial (Fin d) ℝ} (h : TEq m A B) : TEq m B A :=
  fun e he => (h e he).symm
theorem TEq.trans {d m : ℕ} {A B C : MvPolynomial (Fin d) ℝ} (h : TEq m A B) (h' : TEq m B C) :
    TEq m A C := fun e he => (h e he).trans (h' e he)
theorem TEq.add {d m : ℕ} {A B C D : MvPolynomial (Fin d) ℝ} (h : TEq m A B) (h' : TEq m C D) :
    TEq m (A + C) (B + D) := fun e he => by rw [coeff_add, coeff_add, h e he, h' e he]
theorem TEq.mul {d m : ℕ} {A B C D : MvPolynomial (Fin d) ℝ} (h : TEq m A B) (h' : TEq m C D) :
    TEq m (A * C) (B * D) := by
  classical
  intro e he
  rw [coeff_mul, coeff_mul]
  apply Finset.sum_congr rfl
  intro x hx
  rw [Finset.mem_antidiagonal] at hx
  have : x.1.degree + x.2.degree = e.degree := by rw [← map_add, hx]
  rw [h _ (by omega), h' _ (by omega)]
theorem TEq.sum {d m : ℕ} {ι : Type*} (s : Finset ι) {A B : ι → MvPolynomial (Fin d) ℝ}
    (h : ∀ i ∈ s, TEq m (A i) (B i)) : TEq m (∑ i ∈ s, A i) (∑ i ∈ s, B i) := by
  intro e he
  rw [coeff_sum, coeff_sum]
  exact Finset.sum_congr rfl fun i hi => h i hi e he
theorem TEq.pow {d m : ℕ} {A B : MvPolynomial (Fin d) ℝ} (h : TEq m A B) (n : ℕ) :
    TEq m (A ^ n) (B ^ n) := by
  induction n with
  | zero => simp [TEq.refl]
  | succ n ih => rw [pow_succ, pow_succ]; exact ih.mul h

/-- A polynomial without constant term: its `k`-th power has no terms below degree `k`. -/
theorem coeff_pow_low {d : ℕ} {X : MvPolynomial (Fin d) ℝ} (h : coeff 0 X = 0) (k : ℕ) :
    TEq k (X ^ k) 0 := by
  classical
  induction k with
  | zero => intro e he; omega
  | succ k ih =>
    intro e he
    rw [pow_succ, coeff_mul, coeff_zero]
    apply Finset.sum_eq_zero
    intro x hx
    rw [Finset.mem_antidiagonal] at hx
    have hdeg : x.1.degree + x.2.degree = e.degree := by rw [← map_add, hx]
    by_cases h2 : x.2 = 0
    · rw [h2, h, mul_zero]
    · have : x.2.degree ≠ 0 := by rwa [ne_eq, Finsupp.degree_eq_zero_iff]
      rw [ih _ (by omega), coeff_zero, zero_mul]

theorem teq_toPoly_mul {d m : ℕ} {t : Tables} (G : Good d m t) (a b : ℕ → ℝ) :
    TEq m (toPoly d t.jdx (mul (abiTable d m t) a b)) (toPoly d t.jdx a * toPoly d t.jdx b) := by
  intro e he
  have hmem : tuple e ∈ simplexIter d m := by
    rw [G.mem, tuple_length, tuple_sum]; exact ⟨rfl, he⟩
  have hl := G.lt _ hmem
  have hg := G.get _ hmem
  have hrow : t.jdx.getD (t.idx (tuple e)) [] = tuple e := by rw [List.getD, hg]; rfl
  rw [coeff_toPoly G, if_pos he, mul_eq_coeff G a b hl, hrow, expo_tuple]

/-- Polynomials that agree below the order have the same coefficient vector. -/
theorem eq_of_teq {d m : ℕ} {t : Tables} (G : Good d m t) {a b : ℕ → ℝ}
    (h : TEq m (toPoly d t.jdx a) (toPoly d t.jdx b)) {l : ℕ} (hl : l < t.jdx.length) :
    a l = b l := by
  obtain ⟨r1, r2, r3⟩ := G.row hl
  have := h (expo d (t.jdx.getD l [])) (by rw [expo_degree r1]; exact r2)
  rwa [coeff_toPoly_row G a hl, coeff_toPoly_row G b hl] at this

end RayOpt.Simplex
