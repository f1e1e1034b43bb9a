import Verif.Props.Legendre

/-!
Property C105: Gauss-Lobatto and Gauss-Radau quadrature.
-/

namespace RayOpt

namespace Quadrature

open Polynomial

/-- The contract of the `roots` of `np.poly1d`: all roots, as often as their multiplicity and in any
order.  It is only needed for polynomials that have all their roots on the real line. -/
def RootsOk (roots : ℝ[X] → List ℝ) : Prop :=
  ∀ p : ℝ[X], p ≠ 0 → p.Splits → ((roots p : List ℝ) : Multiset ℝ) = p.roots

/-- C105: the Legendre polynomials are the polynomials of degree `n` that are orthogonal to all
polynomials of lower degree and have the value one at one. -/
theorem c105_legendre (n : ℕ) (p : ℝ[X]) : p = legendre n ↔ p.natDegree = n ∧ p.eval 1 = 1 ∧
    ∀ q : ℝ[X], q.degree < (n : WithBot ℕ) → ∫ x in (-1 : ℝ)..1, p.eval x * q.eval x = 0 := by
  have conv : ∀ p q : ℝ[X], ∫ x in (-1 : ℝ)..1, p.eval x * q.eval x = I (p * q) := by
    intro p q
    simp [I_apply]
  simp only [conv]
  constructor
  · rintro rfl
    exact ⟨natDegree_legendre n, legendre_one n, orth n⟩
  · rintro ⟨hd, h1, ho⟩
    have hl := (lead_pos n).ne'
    obtain ⟨c, hc⟩ : ∃ c, p.coeff n = c * lead n := ⟨p.coeff n / lead n, by field_simp⟩
    have hdeg : (p - C c * legendre n).degree < (n : WithBot ℕ) := by
      rw [degree_lt_iff_coeff_zero]
      intro m hm
      rcases hm.eq_or_lt with rfl | hm
      · rw [coeff_sub, coeff_C_mul, hc]; exact sub_self _
      · rw [coeff_sub, coeff_C_mul, coeff_eq_zero_of_natDegree_lt (by omega),
          coeff_eq_zero_of_natDegree_lt (by rw [natDegree_legendre]; exact hm)]
        simp
    have h0 : p - C c * legendre n = 0 := by
      by_contra hne
      have hp : 0 < I ((p - C c * legendre n) * (p - C c * legendre n)) :=
        I_pos _ (mul_ne_zero hne hne) fun x _ => by rw [eval_mul]; exact mul_self_nonneg _
      rw [sub_mul, map_sub, ho _ hdeg, mul_assoc, I_C_mul, orth n _ hdeg] at hp
      simp at hp
    have e : p = C c * legendre n := sub_eq_zero.mp h0
    have : c = 1 := by
      have := congrArg (eval 1) e
      rw [h1, eval_mul, eval_C, legendre_one, mul_one] at this
      exact this.symm
    rw [e, this, C_1, one_mul]

open Lagrange

theorem nodal_toFinset (l : List ℝ) (h : l.Nodup) :
    nodal l.toFinset id = (l.map fun a => X - C a).prod := by
  rw [nodal_eq, List.prod_toFinset _ h]
  rfl

theorem splits_prod {p : ℝ[X]} {l : List ℝ} (hs : p.Splits) (hl : (l : Multiset ℝ) = p.roots) :
    p = C p.leadingCoeff * (l.map fun a => X - C a).prod := by
  conv_lhs => rw [hs.eq_prod_roots, ← hl]
  simp

/-- The value of Lagrange's polynomials at the nodes. -/
theorem sum_single (s : Finset ℝ) (w : ℝ → ℝ) (x : ℝ) (hx : x ∈ s) (g : ℝ[X]) :
    ∑ y ∈ s, w y * (nodal (s.erase x) id * g).eval y =
      w x * ((nodal (s.erase x) id).eval x * g.eval x) := by
  rw [Finset.sum_eq_single x]
  · rw [eval_mul]
  · intro y hy hne
    rw [eval_mul, show eval y (nodal (s.erase x) id) = 0 from
      eval_nodal_at_node (v := id) (Finset.mem_erase.mpr ⟨hne, hy⟩)]
    ring
  · exact fun h => absurd hx h

theorem nodal_erase_deriv (s : Finset ℝ) (x : ℝ) (hx : x ∈ s) :
    (derivative (nodal s id)).eval x = (nodal (s.erase x) id).eval x :=
  eval_nodal_derivative_eval_node_eq (v := id) hx

theorem sum_zip (l : List ℝ) (h : l.Nodup) (g v : ℝ → ℝ) :
    (List.zipWith (fun t v => v * g t) l (l.map v)).sum = ∑ x ∈ l.toFinset, v x * g x := by
  rw [List.sum_toFinset _ h]
  congr 1
  induction l with
  | nil => rfl
  | cons a l ih => simp [ih (List.nodup_cons.mp h).2]

/-! ## Radau -/

theorem radau_division (m : ℕ) : (X + C 1) * ((legendre m + legendre (m + 1)) /ₘ (X + C 1)) =
    legendre m + legendre (m + 1) := by
  have h : (legendre m + legendre (m + 1)).IsRoot (-1) := by
    rw [IsRoot, eval_add, legendre_neg_one, legendre_neg_one]; ring
  rw [show (X + C 1 : ℝ[X]) = X - C (-1) by simp]
  exact mul_divByMonic_eq_iff_isRoot.mpr h

theorem radau_degree (m : ℕ) : (legendre m + legendre (m + 1)).natDegree = m + 1 ∧
    (legendre m + legendre (m + 1)).coeff (m + 1) = lead (m + 1) := by
  have hc : (legendre m + legendre (m + 1)).coeff (m + 1) = lead (m + 1) := by
    rw [coeff_add, coeff_eq_zero_of_natDegree_lt (by rw [natDegree_legendre]; omega), zero_add]; rfl
  refine ⟨le_antisymm ?_ (le_natDegree_of_ne_zero (by rw [hc]; exact (lead_pos _).ne')), hc⟩
  refine (natDegree_add_le _ _).trans ?_
  rw [natDegree_legendre, natDegree_legendre]
  omega

theorem radau_slope (m : ℕ) : (1 - X) * derivative (legendre m + legendre (m + 1)) =
    ((m : ℝ[X]) + 1) * (legendre m - legendre (m + 1)) := by
  have h : (1 + X : ℝ[X]) ≠ 0 := by
    intro h
    have := congrArg (eval 1) h
    norm_num at this
  apply mul_left_cancel₀ h
  rw [derivative_add]
  linear_combination weighted m + weighted' m

/-- The facts about the nodes of `gr_roots`. -/
theorem radau_nodes (roots : ℝ[X] → List ℝ) (hr : RootsOk roots) (m : ℕ) :
    let V := (legendre m + legendre (m + 1)) /ₘ (X + C 1)
    (-1 :: roots V).Nodup ∧ (∀ t ∈ roots V, -1 < t ∧ t < 1) ∧ (roots V).length = m ∧
    V ≠ 0 ∧ V.natDegree = m ∧ (∀ t ∈ roots V, V.eval t = 0) ∧
    C (lead (m + 1)) * nodal (-1 :: roots V).toFinset id = legendre m + legendre (m + 1) := by
  intro V
  have hdiv : (X + C 1) * V = legendre m + legendre (m + 1) := radau_division m
  obtain ⟨hdeg, hcoef⟩ := radau_degree m
  have hR0 : legendre m + legendre (m + 1) ≠ 0 := by
    intro h; rw [h] at hdeg; simp at hdeg
  have hV0 : V ≠ 0 := by intro h; rw [h, mul_zero] at hdiv; exact hR0 hdiv.symm
  have hX0 : (X + C 1 : ℝ[X]) ≠ 0 := X_add_C_ne_zero 1
  have hVd : V.natDegree = m := by
    have := natDegree_mul hX0 hV0
    rw [hdiv, hdeg, natDegree_X_add_C] at this
    omega
  have hVl : V.leadingCoeff = lead (m + 1) := by
    have := leadingCoeff_mul (X + C 1) V
    rw [hdiv, leadingCoeff_X_add_C, one_mul, leadingCoeff, hdeg, hcoef] at this
    exact this.symm
  obtain ⟨hs, hn, hi⟩ := orthogonal_roots (X + C 1) V hX0 (fun x hx => by
    simp only [eval_add, eval_X, eval_C]; linarith [hx.1]) hV0 (fun q hq => by
    rw [degree_eq_natDegree hV0, hVd] at hq
    rw [hdiv, add_mul, map_add, orth m q hq, orth (m + 1) q (hq.trans (by exact_mod_cast Nat.lt_succ_self m)),
      add_zero])
  have hl := hr V hV0 hs
  have hmem : ∀ t, t ∈ roots V ↔ t ∈ V.roots := by intro t; rw [← hl]; exact Multiset.mem_coe.symm
  have hnd : (roots V).Nodup := by rw [← hl] at hn; exact Multiset.coe_nodup.mp hn
  have hnd' : (-1 :: roots V).Nodup := by
    refine List.nodup_cons.mpr ⟨fun h => ?_, hnd⟩
    have := hi _ ((hmem _).mp h)
    linarith [this.1]
  refine ⟨hnd', fun t ht => hi t ((hmem t).mp ht), ?_, hV0, hVd, fun t ht => ?_, ?_⟩
  · have := splits_iff_card_roots.mp hs
    rw [← hl, Multiset.coe_card, hVd] at this
    exact this
  · exact (mem_roots hV0).mp ((hmem t).mp ht)
  · rw [nodal_toFinset _ hnd', List.map_cons, List.prod_cons, ← hdiv]
    have := splits_prod hs hl
    rw [hVl] at this
    conv_rhs => rw [this]
    simp only [C_neg, C_1]
    ring

/-- The weights of `gr_roots`. -/
theorem radau_weight (m : ℕ) (s : Finset ℝ) (hN : C (lead (m + 1)) * nodal s id = legendre m + legendre (m + 1))
    (hcard : s.card = m + 1) :
    (∀ f : ℝ[X], f.natDegree ≤ 2 * m → I f =
      ∑ x ∈ s, (1 - x) / (((m + 1 : ℕ) : ℝ) * (legendre m).eval x) ^ 2 * f.eval x) ∧
    ∀ x ∈ s, (legendre m).eval x ≠ 0 := by
  have hl := (lead_pos (m + 1)).ne'
  have horth : ∀ q : ℝ[X], q.degree < (m : WithBot ℕ) → I (nodal s id * q) = 0 := by
    intro q hq
    have : lead (m + 1) * I (nodal s id * q) = 0 := by
      rw [← I_C_mul, ← mul_assoc, hN, add_mul, map_add, orth m q hq,
        orth (m + 1) q (hq.trans (by exact_mod_cast Nat.lt_succ_self m)), add_zero]
    exact (mul_eq_zero.mp this).resolve_left hl
  have hG := gauss s m horth
  have htop := top_integral m
  have hls := lead_succ m
  have hw : ∀ x ∈ s, (legendre m).eval x ≠ 0 ∧
      I (Lagrange.basis s id x) = (1 - x) / (((m + 1 : ℕ) : ℝ) * (legendre m).eval x) ^ 2 := by
    intro x hx
    have hTd : (nodal (s.erase x) (id : ℝ → ℝ)).natDegree = m := by
      rw [natDegree_nodal, Finset.card_erase_of_mem hx, hcard]; omega
    have hT1 : (nodal (s.erase x) (id : ℝ → ℝ)).coeff m = 1 := by
      have h : (nodal (s.erase x) (id : ℝ → ℝ)).Monic := nodal_monic
      rw [← hTd]; exact h.coeff_natDegree
    have e1 := hG (nodal (s.erase x) id * legendre m) (by
      refine lt_of_le_of_lt degree_le_natDegree ?_
      have h1 : (nodal (s.erase x) (id : ℝ → ℝ) * legendre m).natDegree ≤ m + m :=
        natDegree_mul_le.trans (by rw [hTd, natDegree_legendre])
      rw [hcard]
      exact_mod_cast (by omega : (nodal (s.erase x) (id : ℝ → ℝ) * legendre m).natDegree < m + 1 + m))
    rw [sum_single s _ x hx, mul_comm (nodal _ _) (legendre m), orth_top m _ hTd.le, hT1, one_mul] at e1
    have e2 := congrArg (eval x) (radau_slope m)
    have e3 : (legendre m + legendre (m + 1)).eval x = 0 := by
      rw [← hN, eval_mul, show eval x (nodal s id) = 0 from eval_nodal_at_node (v := id) hx, mul_zero]
    rw [← hN, derivative_C_mul] at e2
    simp only [eval_mul, eval_sub, eval_one, eval_X, eval_C, nodal_erase_deriv s x hx, eval_add,
      eval_natCast] at e2 e3
    generalize I (legendre m * X ^ m) = A at *
    generalize (legendre m).eval x = P at *
    generalize (legendre (m + 1)).eval x = P' at *
    generalize eval x (nodal (s.erase x) id) = T at *
    generalize I (Lagrange.basis s id x) = w at *
    generalize lead (m + 1) = L at *
    have hm1 : (m : ℝ) + 1 ≠ 0 := by positivity
    have hA : ((m : ℝ) + 1) * L * A = 2 := by linear_combination hls * A + htop
    have hA0 : A ≠ 0 := by rintro rfl; norm_num at hA
    have hP : P ≠ 0 := by rintro rfl; simp at e1; exact hA0 e1
    refine ⟨hP, ?_⟩
    push_cast
    rw [eq_div_iff (by positivity)]
    have hP' : P' = -P := by linear_combination e3
    subst hP'
    have h2 : w * (2 * ((m : ℝ) + 1) * P) * P * (m + 1) = 2 * (1 - x) := by
      linear_combination -w * P * (m + 1) * e2 - (1 - x) * L * (m + 1) * e1 + (1 - x) * hA
    linear_combination h2 / 2
  refine ⟨fun f hf => ?_, fun x hx => (hw x hx).1⟩
  rw [hG f (lt_of_le_of_lt degree_le_natDegree (by
    rw [hcard]; exact_mod_cast (by omega : f.natDegree < m + 1 + m)))]
  exact Finset.sum_congr rfl fun x hx => by rw [(hw x hx).2]

/-- C105: `gr_roots(n)` gives `n` different nodes, the first one -1 and the others inside the interval, and
positive weights, that integrate all polynomials up to the degree `2 n - 2`. -/
theorem c105_radau (roots : ℝ[X] → List ℝ) (hr : RootsOk roots) (n : ℕ) (hn : 1 ≤ n) (x w : List ℝ)
    (h : grRoots roots n = (x, w)) :
    x.length = n ∧ w.length = n ∧ x.head? = some (-1) ∧ x.Nodup ∧ (∀ t ∈ x.tail, -1 < t ∧ t < 1) ∧
    (∀ v ∈ w, 0 < v) ∧
    ∀ f : ℝ[X], f.natDegree ≤ 2 * n - 2 →
      (List.zipWith (fun t v => v * f.eval t) x w).sum = ∫ t in (-1 : ℝ)..1, f.eval t := by
  obtain ⟨m, rfl⟩ : ∃ m, n = m + 1 := ⟨n - 1, by omega⟩
  simp only [grRoots, Nat.add_sub_cancel, Prod.mk.injEq] at h
  obtain ⟨rfl, rfl⟩ := h
  obtain ⟨hnd, hi, hlen, -, -, -, hN⟩ := radau_nodes roots hr m
  have hcard : (-1 :: roots ((legendre m + legendre (m + 1)) /ₘ (X + C 1))).toFinset.card = m + 1 := by
    rw [List.toFinset_card_of_nodup hnd, List.length_cons, hlen]
  obtain ⟨hw, hne⟩ := radau_weight m _ hN hcard
  refine ⟨by simpa using hlen, by simpa using hlen, rfl, hnd, hi, ?_, ?_⟩
  · intro v hv
    obtain ⟨t, ht, rfl⟩ := List.mem_map.mp hv
    have hp := hne t (List.mem_toFinset.mpr ht)
    have h1 : 0 < 1 - t := by
      rcases List.mem_cons.mp ht with rfl | ht
      · norm_num
      · linarith [(hi t ht).2]
    positivity
  · intro f hf
    exact (sum_zip _ hnd (fun t => f.eval t) _).trans (hw f (by omega)).symm

/-- C105: it is exact for no higher degree. -/
theorem c105_radau_sharp (roots : ℝ[X] → List ℝ) (hr : RootsOk roots) (n : ℕ) (hn : 1 ≤ n) (x w : List ℝ)
    (h : grRoots roots n = (x, w)) : ∃ f : ℝ[X], f.natDegree = 2 * n - 1 ∧
      (List.zipWith (fun t v => v * f.eval t) x w).sum ≠ ∫ t in (-1 : ℝ)..1, f.eval t := by
  obtain ⟨m, rfl⟩ : ∃ m, n = m + 1 := ⟨n - 1, by omega⟩
  simp only [grRoots, Nat.add_sub_cancel, Prod.mk.injEq] at h
  obtain ⟨rfl, rfl⟩ := h
  obtain ⟨hnd, hi, hlen, hV0, hVd, hz, -⟩ := radau_nodes roots hr m
  generalize (legendre m + legendre (m + 1)) /ₘ (X + C 1) = V at *
  refine ⟨(X + C 1) * V ^ 2, ?_, ?_⟩
  · rw [natDegree_mul (X_add_C_ne_zero 1) (pow_ne_zero 2 hV0), natDegree_X_add_C, natDegree_pow, hVd]
    omega
  · refine ne_of_eq_of_ne ((sum_zip _ hnd (fun t => ((X + C 1) * V ^ 2).eval t) _).trans
      (Finset.sum_eq_zero fun t ht => ?_)) (I_pos _ (mul_ne_zero (X_add_C_ne_zero 1) (pow_ne_zero 2 hV0))
        fun t ht => ?_).ne
    · rcases List.mem_cons.mp (List.mem_toFinset.mp ht) with rfl | ht
      · simp
      · simp [hz t ht]
    · simp only [eval_mul, eval_add, eval_X, eval_C, eval_pow]
      have := ht.1
      exact mul_nonneg (by linarith) (sq_nonneg _)

/-! ## Lobatto -/

theorem weighted_orth_pow (n i : ℕ) :
    ((i : ℝ) + 1) * I ((1 - X ^ 2) * derivative (legendre n) * X ^ i) =
      n * (n + 1) * I (legendre n * X ^ (i + 1)) := by
  rw [← by_parts, ← I_C_mul]
  congr 1
  rw [derivative_X_pow]
  simp
  ring

theorem weighted_orth (n : ℕ) (q : ℝ[X]) (h : q.degree < ((n - 1 : ℕ) : WithBot ℕ)) :
    I ((1 - X ^ 2) * derivative (legendre n) * q) = 0 := by
  rcases eq_or_ne q 0 with rfl | h0
  · simp
  rw [as_sum_range' q (n - 1) ((natDegree_lt_iff_degree_lt h0).mpr h), Finset.mul_sum, map_sum]
  refine Finset.sum_eq_zero fun i hi => ?_
  have hi' := Finset.mem_range.mp hi
  have e := weighted_orth_pow n i
  rw [orth_pow n (i + 1) (by omega), mul_zero] at e
  rw [← C_mul_X_pow_eq_monomial, mul_left_comm, I_C_mul,
    (mul_eq_zero.mp e).resolve_left (by positivity), mul_zero]

theorem lobatto_degree (n : ℕ) (hn : 1 ≤ n) : (derivative (legendre n)).natDegree = n - 1 ∧
    (derivative (legendre n)).leadingCoeff = n * lead n := by
  obtain ⟨m, rfl⟩ : ∃ m, n = m + 1 := ⟨n - 1, by omega⟩
  have hc : (derivative (legendre (m + 1))).coeff m = ((m + 1 : ℕ) : ℝ) * lead (m + 1) := by
    rw [coeff_derivative, lead]; push_cast; ring
  have hd : (derivative (legendre (m + 1))).natDegree = m := by
    refine le_antisymm ?_ (le_natDegree_of_ne_zero ?_)
    · have := natDegree_derivative_le (legendre (m + 1))
      rw [natDegree_legendre] at this
      exact this
    · rw [hc]
      have := lead_pos (m + 1)
      positivity
  exact ⟨hd, by rw [leadingCoeff, hd, hc]⟩

/-- The facts about the nodes of `gl_roots`. -/
theorem lobatto_nodes (roots : ℝ[X] → List ℝ) (hr : RootsOk roots) (n : ℕ) (hn : 1 ≤ n) :
    let V := derivative (legendre n)
    (-1 :: (roots V ++ [1])).Nodup ∧ (∀ t ∈ roots V, -1 < t ∧ t < 1) ∧ (roots V).length = n - 1 ∧
    V ≠ 0 ∧ V.natDegree = n - 1 ∧ (∀ t ∈ roots V, V.eval t = 0) ∧
    C (-(n * lead n)) * nodal (-1 :: (roots V ++ [1])).toFinset id = (1 - X ^ 2) * V := by
  intro V
  obtain ⟨hVd, hVl⟩ := lobatto_degree n hn
  have hV0 : V ≠ 0 := by
    intro h
    have h1 : (n : ℝ) * lead n = 0 := by rw [← hVl, show derivative (legendre n) = V from rfl, h, leadingCoeff_zero]
    have := lead_pos n
    have : 0 < (n : ℝ) * lead n := by positivity
    linarith
  have hW0 : (1 - X ^ 2 : ℝ[X]) ≠ 0 := by
    intro h
    have := congrArg (eval 0) h
    norm_num at this
  obtain ⟨hs, hn', hi⟩ := orthogonal_roots (1 - X ^ 2) V hW0 (fun x hx => by
    simp only [eval_sub, eval_one, eval_pow, eval_X]; nlinarith [hx.1, hx.2]) hV0 (fun q hq => by
    rw [degree_eq_natDegree hV0, hVd] at hq
    exact weighted_orth n q hq)
  have hl := hr V hV0 hs
  have hmem : ∀ t, t ∈ roots V ↔ t ∈ V.roots := by intro t; rw [← hl]; exact Multiset.mem_coe.symm
  have hnd : (roots V).Nodup := by rw [← hl] at hn'; exact Multiset.coe_nodup.mp hn'
  have hnd' : (-1 :: (roots V ++ [1])).Nodup := by
    refine List.nodup_cons.mpr ⟨fun h => ?_, List.nodup_append.mpr ⟨hnd, List.nodup_singleton _, ?_⟩⟩
    · rcases List.mem_append.mp h with h | h
      · linarith [(hi _ ((hmem _).mp h)).1]
      · norm_num at h
    · intro a ha b hb
      obtain rfl := List.mem_singleton.mp hb
      exact ((hi _ ((hmem _).mp ha)).2).ne
  refine ⟨hnd', fun t ht => hi t ((hmem t).mp ht), ?_, hV0, hVd, fun t ht => ?_, ?_⟩
  · have := splits_iff_card_roots.mp hs
    rw [← hl, Multiset.coe_card, hVd] at this
    exact this
  · exact (mem_roots hV0).mp ((hmem t).mp ht)
  · rw [nodal_toFinset _ hnd', List.map_cons, List.prod_cons, List.map_append, List.prod_append]
    have := splits_prod hs hl
    rw [hVl] at this
    conv_rhs => rw [this]
    simp only [C_neg, C_1, List.map_cons, List.map_nil, List.prod_cons, List.prod_nil]
    ring

/-- The weights of `gl_roots`. -/
theorem lobatto_weight (n : ℕ) (hn : 1 ≤ n) (s : Finset ℝ)
    (hN : C (-(n * lead n)) * nodal s id = (1 - X ^ 2) * derivative (legendre n)) (hcard : s.card = n + 1) :
    (∀ f : ℝ[X], f.natDegree ≤ 2 * n - 1 → I f =
      ∑ x ∈ s, 2 / (((n + 1 : ℕ) : ℝ) * (((n + 1 : ℕ) : ℝ) - 1) * (legendre n).eval x ^ 2) * f.eval x) ∧
    ∀ x ∈ s, (legendre n).eval x ≠ 0 := by
  have hl := (lead_pos n).ne'
  have hn0 : (n : ℝ) ≠ 0 := by exact_mod_cast (by omega : n ≠ 0)
  have hl' : -((n : ℝ) * lead n) ≠ 0 := neg_ne_zero.mpr (mul_ne_zero hn0 hl)
  have horth : ∀ q : ℝ[X], q.degree < ((n - 1 : ℕ) : WithBot ℕ) → I (nodal s id * q) = 0 := by
    intro q hq
    have : -((n : ℝ) * lead n) * I (nodal s id * q) = 0 := by
      rw [← I_C_mul, ← mul_assoc, hN, weighted_orth n q hq]
    exact (mul_eq_zero.mp this).resolve_left hl'
  have hG := gauss s (n - 1) horth
  have htop := top_integral n
  -- the integral of the nodal polynomial with the first power that is not orthogonal
  have hB : ∃ B, I (nodal s id * X ^ (n - 1)) = B ∧
      -(n * lead n) * B * n = n * (n + 1) * I (legendre n * X ^ n) := by
    refine ⟨_, rfl, ?_⟩
    have e := weighted_orth_pow n (n - 1)
    rw [← hN, mul_assoc (C _), I_C_mul, Nat.sub_add_cancel hn] at e
    have hc : ((n - 1 : ℕ) : ℝ) + 1 = n := by
      rw [Nat.cast_sub hn]; push_cast; ring
    rw [hc] at e
    linear_combination e
  obtain ⟨B, hB1, hB2⟩ := hB
  have hw : ∀ x ∈ s, (legendre n).eval x ≠ 0 ∧ I (Lagrange.basis s id x) =
      2 / (((n + 1 : ℕ) : ℝ) * (((n + 1 : ℕ) : ℝ) - 1) * (legendre n).eval x ^ 2) := by
    intro x hx
    have hTd : (nodal (s.erase x) (id : ℝ → ℝ)).natDegree = n := by
      rw [natDegree_nodal, Finset.card_erase_of_mem hx, hcard]; omega
    have hT1 : (nodal (s.erase x) (id : ℝ → ℝ)).coeff n = 1 := by
      have h : (nodal (s.erase x) (id : ℝ → ℝ)).Monic := nodal_monic
      rw [← hTd]; exact h.coeff_natDegree
    have hSd : (nodal s (id : ℝ → ℝ)).natDegree = n + 1 := by rw [natDegree_nodal, hcard]
    have hS1 : (nodal s (id : ℝ → ℝ)).coeff (n + 1) = 1 := by
      have h : (nodal s (id : ℝ → ℝ)).Monic := nodal_monic
      rw [← hSd]; exact h.coeff_natDegree
    have e1 := hG (nodal (s.erase x) id * legendre n - C (lead n) * (nodal s id * X ^ (n - 1))) (by
      rw [hcard, degree_lt_iff_coeff_zero]
      intro k hk
      rcases (show 2 * n ≤ k by omega).eq_or_lt with rfl | hk
      · rw [coeff_sub, coeff_C_mul, two_mul n,
          coeff_mul_add_eq_of_natDegree_le hTd.le (natDegree_legendre_le n), hT1,
          show n + n = (n + 1) + (n - 1) by omega,
          coeff_mul_add_eq_of_natDegree_le hSd.le (natDegree_X_pow_le (n - 1)), hS1, coeff_X_pow, if_pos rfl]
        simp [lead]
      · rw [coeff_sub, coeff_C_mul, coeff_eq_zero_of_natDegree_lt, coeff_eq_zero_of_natDegree_lt]
        · simp
        · refine lt_of_le_of_lt natDegree_mul_le ?_
          rw [hSd, natDegree_X_pow]; omega
        · refine lt_of_le_of_lt natDegree_mul_le ?_
          rw [hTd, natDegree_legendre]; omega)
    rw [map_sub, I_C_mul, hB1, mul_comm (nodal (s.erase x) id), orth_top n _ hTd.le, hT1, one_mul] at e1
    have e4 : ∑ y ∈ s, I (Lagrange.basis s id y) *
        (legendre n * nodal (s.erase x) id - C (lead n) * (nodal s id * X ^ (n - 1))).eval y =
        ∑ y ∈ s, I (Lagrange.basis s id y) * (nodal (s.erase x) id * legendre n).eval y := by
      refine Finset.sum_congr rfl fun y hy => ?_
      rw [eval_sub, eval_mul (p := C _), eval_mul (p := nodal s id),
        show eval y (nodal s id) = 0 from eval_nodal_at_node (v := id) hy, mul_comm (legendre n)]
      ring
    rw [e4, sum_single s _ x hx] at e1
    have e2 := congrArg (fun p => eval x (derivative p)) hN
    simp only [ode, derivative_C_mul, eval_mul, eval_C, nodal_erase_deriv s x hx, eval_neg, eval_add,
      eval_natCast, eval_one] at e2
    generalize I (legendre n * X ^ n) = A at *
    generalize (legendre n).eval x = P at *
    generalize eval x (nodal (s.erase x) id) = T at *
    generalize I (Lagrange.basis s id x) = w at *
    generalize lead n = L at *
    have hA0 : A ≠ 0 := by rintro rfl; norm_num at htop
    have hLB : L * B * n = -(n + 1) * A := by
      have : (n : ℝ) * (L * B * n + (n + 1) * A) = 0 := by linear_combination -hB2
      linear_combination (mul_eq_zero.mp this).resolve_left hn0
    have h1 : (2 * n + 1) * A = w * (T * P) * n := by linear_combination n * e1 + hLB
    have h2n : (2 * n + 1 : ℝ) ≠ 0 := by positivity
    have hP : P ≠ 0 := by
      rintro rfl
      simp at h1
      rcases h1 with h1 | h1
      · exact h2n h1
      · exact hA0 h1
    have hT : L * T = (n + 1) * P := by
      have : (n : ℝ) * (L * T - (n + 1) * P) = 0 := by linear_combination -e2
      linear_combination (mul_eq_zero.mp this).resolve_left hn0
    refine ⟨hP, ?_⟩
    push_cast
    rw [add_sub_cancel_right, eq_div_iff (by positivity)]
    linear_combination htop - L * h1 - w * P * n * hT
  refine ⟨fun f hf => ?_, fun x hx => (hw x hx).1⟩
  rw [hG f (lt_of_le_of_lt degree_le_natDegree (by
    rw [hcard]; exact_mod_cast (by omega : f.natDegree < n + 1 + (n - 1))))]
  exact Finset.sum_congr rfl fun x hx => by rw [(hw x hx).2]

/-- C105: `gl_roots(n)` gives `n` different nodes, the first one -1, the last one 1 and the others inside the
interval, and positive weights, that integrate all polynomials up to the degree `2 n - 3`. -/
theorem c105_lobatto (roots : ℝ[X] → List ℝ) (hr : RootsOk roots) (n : ℕ) (hn : 2 ≤ n) (x w : List ℝ)
    (h : glRoots roots n = (x, w)) :
    x.length = n ∧ w.length = n ∧ x.head? = some (-1) ∧ x.getLast? = some 1 ∧ x.Nodup ∧
    (∀ t ∈ x.tail.dropLast, -1 < t ∧ t < 1) ∧ (∀ v ∈ w, 0 < v) ∧
    ∀ f : ℝ[X], f.natDegree ≤ 2 * n - 3 →
      (List.zipWith (fun t v => v * f.eval t) x w).sum = ∫ t in (-1 : ℝ)..1, f.eval t := by
  obtain ⟨m, rfl⟩ : ∃ m, n = m + 1 := ⟨n - 1, by omega⟩
  simp only [glRoots, Nat.add_sub_cancel, Prod.mk.injEq] at h
  obtain ⟨rfl, rfl⟩ := h
  obtain ⟨hnd, hi, hlen, -, -, -, hN⟩ := lobatto_nodes roots hr m (by omega)
  have hcard : (-1 :: (roots (derivative (legendre m)) ++ [1])).toFinset.card = m + 1 := by
    rw [List.toFinset_card_of_nodup hnd, List.length_cons, List.length_append, hlen]; simp; omega
  obtain ⟨hw, hne⟩ := lobatto_weight m (by omega) _ hN hcard
  have hlen' : (roots (derivative (legendre m))).length + 1 + 1 = m + 1 := by omega
  refine ⟨by simp [hlen'], by simp [hlen'], rfl, List.getLast?_concat, hnd, by simpa using hi, ?_, ?_⟩
  · intro v hv
    obtain ⟨t, ht, rfl⟩ := List.mem_map.mp hv
    have hp := hne t (List.mem_toFinset.mpr ht)
    have hm : (0 : ℝ) < m := by exact_mod_cast (by omega : 0 < m)
    push_cast
    rw [add_sub_cancel_right]
    positivity
  · intro f hf
    exact (sum_zip _ hnd (fun t => f.eval t) _).trans (hw f (by omega)).symm

/-- C105: it is exact for no higher degree. -/
theorem c105_lobatto_sharp (roots : ℝ[X] → List ℝ) (hr : RootsOk roots) (n : ℕ) (hn : 2 ≤ n) (x w : List ℝ)
    (h : glRoots roots n = (x, w)) : ∃ f : ℝ[X], f.natDegree = 2 * n - 2 ∧
      (List.zipWith (fun t v => v * f.eval t) x w).sum ≠ ∫ t in (-1 : ℝ)..1, f.eval t := by
  obtain ⟨m, rfl⟩ : ∃ m, n = m + 1 := ⟨n - 1, by omega⟩
  simp only [glRoots, Nat.add_sub_cancel, Prod.mk.injEq] at h
  obtain ⟨rfl, rfl⟩ := h
  obtain ⟨hnd, hi, hlen, hV0, hVd, hz, -⟩ := lobatto_nodes roots hr m (by omega)
  generalize derivative (legendre m) = V at *
  have hd : (1 - X ^ 2 : ℝ[X]).natDegree = 2 := by
    rw [show (1 - X ^ 2 : ℝ[X]) = C (-1) * X ^ 2 + C 0 * X + C 1 by simp; ring]
    exact natDegree_quadratic (by norm_num)
  have hW0 : (1 - X ^ 2 : ℝ[X]) ≠ 0 := by intro h; rw [h] at hd; simp at hd
  refine ⟨(1 - X ^ 2) * V ^ 2, ?_, ?_⟩
  · rw [natDegree_mul hW0 (pow_ne_zero 2 hV0), hd, natDegree_pow, hVd]
    omega
  · refine ne_of_eq_of_ne ((sum_zip _ hnd (fun t => ((1 - X ^ 2) * V ^ 2).eval t) _).trans
      (Finset.sum_eq_zero fun t ht => ?_)) (I_pos _ (mul_ne_zero hW0 (pow_ne_zero 2 hV0))
        fun t ht => ?_).ne
    · rcases List.mem_cons.mp (List.mem_toFinset.mp ht) with rfl | ht
      · simp
      · rcases List.mem_append.mp ht with ht | ht
        · simp [hz t ht]
        · simp only [List.mem_singleton] at ht
          simp [ht]
    · simp only [eval_mul, eval_sub, eval_one, eval_pow, eval_X]
      exact mul_nonneg (by nlinarith [ht.1, ht.2]) (sq_nonneg _)

/-- A function that meets the contract, and the nodes and weights for `n = 3` (Simpson's rule). -/
example : RootsOk (fun p => p.roots.toList) ∧
    glRoots (fun p => p.roots.toList) 3 = ([-1, 0, 1], [1 / 3, 4 / 3, 1 / 3]) := by
  refine ⟨fun p _ _ => p.roots.coe_toList, ?_⟩
  have h2 : legendre 2 = C (3 / 2) * X ^ 2 - C (1 / 2) := by
    simp only [legendre, Nat.cast_zero, ← C_1, ← C_0]
    rw [mul_sub, ← mul_assoc, ← mul_assoc, ← C_mul, ← mul_assoc, ← C_mul, ← C_mul]
    norm_num
    ring
  have hd : derivative (legendre 2) = C 3 * X := by
    rw [h2]
    simp only [derivative_sub, derivative_C_mul, derivative_X_pow, derivative_C, sub_zero]
    rw [← mul_assoc, ← C_mul]
    norm_num
  have hroots : (derivative (legendre 2)).roots = {0} := by
    rw [hd, roots_C_mul _ (by norm_num), roots_X]
  simp only [glRoots, Nat.reduceSub, hroots, h2]
  norm_num

end Quadrature

end RayOpt
