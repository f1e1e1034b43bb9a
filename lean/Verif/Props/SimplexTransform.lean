import Verif.Lemmas.SimplexTransform
import Verif.Props.Simplex

/-!
C59: multinomial coefficients and linear substitution (rayopt/simplex_accel.pyx 98-179).
-/

namespace RayOpt.Simplex

open MvPolynomial

/-- C59: `binom` and `multinom` compute binomial and multinomial coefficients. -/
theorem c59_coefficients :
    (∀ n k : ℕ, binom n k = n.choose k) ∧
    (∀ k : List ℕ, k ≠ [] → multinom k * (k.map Nat.factorial).prod = k.sum.factorial) := by
  refine ⟨binom_eq, fun k hk => ?_⟩
  have := multR_factorial k.reverse
  rwa [List.map_reverse, List.prod_reverse, List.sum_reverse, ← multinom_eq hk] at this

example : multinom [2, 1, 3] = 60 := by decide

/-- Every multinomial coefficient of degree below `m` fits `uint16`. -/
def SmallMultinom (d m : ℕ) : Prop :=
  ∀ k : List ℕ, k.length = d → k.sum < m → multinom k < 65536

theorem SmallMultinom.wt {n m : ℕ} (h : SmallMultinom (n + 1) m) {u : List ℕ}
    (hu : u.length = n + 1) (hs : u.sum < m) : wt u = multR u := by
  have h1 := h u.reverse (by simp [hu]) (by simpa using hs)
  rw [multinom_eq (by intro hc; simp at hc; subst hc; simp at hu), List.reverse_reverse] at h1
  exact Nat.mod_eq_of_lt h1

/-- C59: `simplex_transform(x, t)` is the polynomial `x` with every variable `x_k` replaced by
`Σ_j t[k, j] x_j`.  The loop ends; all multinomial coefficients must fit `uint16`. -/
theorem c59_substitution (d m : ℕ) (h : Fits d m) (hw : SmallMultinom d m) (tb : Tables)
    (ht : simplexEnum d m = some tb) :
    ∃ N, ∀ fuel ≥ N, ∀ (t : ℕ → ℕ → ℝ) (x : ℕ → ℝ), ∃ y, transform fuel tb d t x = some y ∧
      toPoly d tb.jdx y
        = aeval (fun k : Fin d => ∑ j : Fin d, C (t k j) * X j) (toPoly d tb.jdx x) := by
  have G := enum_good h ht
  obtain ⟨n, rfl⟩ := Nat.exists_eq_succ_of_ne_zero (show d ≠ 0 from Nat.pos_iff_ne_zero.mp G.pos)
  refine ⟨enough (n + 1) tb, fun fuel hf t x => ?_⟩
  have hok : ∀ e < m, Ok (n + 1) e := by
    intro e he u hu hs
    rw [hw.wt hu (by omega)]
    exact (multR_pos u).ne'
  obtain ⟨y, h1, h2⟩ := transform_spec G hok t x fuel hf
  refine ⟨y, h1, ?_⟩
  rw [h2, toPoly, map_sum]
  apply Finset.sum_congr rfl
  intro l hl
  obtain ⟨r1, r2, r3⟩ := G.row (Finset.mem_range.mp hl)
  rw [aeval_monomial, Finsupp.prod_fintype _ _ (by simp), algebraMap_eq]
  congr 1
  apply Finset.prod_congr rfl
  intro k _
  unfold rowSum
  rw [rows_sum]
  · rfl
  · intro u hu hs
    apply hw.wt hu
    rw [hs]
    have : (tb.jdx.getD l []).getD k 0 ≤ (tb.jdx.getD l []).sum := by
      have hk : (k : ℕ) < (tb.jdx.getD l []).length := by rw [r1]; exact k.2
      rw [List.getD_eq_getElem _ _ hk]
      exact List.single_le_sum (by simp) _ (List.getElem_mem hk)
    omega

/-- C59: evaluating the transformed polynomial at `v` is evaluating the original at `t.v`. -/
theorem c59_evaluation (d m : ℕ) (h : Fits d m) (hm : 2 ≤ m) (hw : SmallMultinom d m) (tb : Tables)
    (ht : simplexEnum d m = some tb) :
    ∃ N, ∀ fuel ≥ N, ∀ (t : ℕ → ℕ → ℝ) (x : ℕ → ℝ) (v : Fin d → ℝ),
      ∃ y, transform fuel tb d t x = some y ∧
        eval tb.jdx y (List.ofFn v)
          = eval tb.jdx x (List.ofFn fun k : Fin d => ∑ j : Fin d, t k j * v j) := by
  have G := enum_good h ht
  obtain ⟨N, hN⟩ := c59_substitution d m h hw tb ht
  refine ⟨N, fun fuel hf t x v => ?_⟩
  obtain ⟨y, h1, h2⟩ := hN fuel hf t x
  refine ⟨y, h1, ?_⟩
  rw [eval_spec G hm, eval_spec G hm, h2]
  congr 1
  generalize toPoly d tb.jdx x = P
  induction P using MvPolynomial.induction_on with
  | C a => simp
  | add p q hp hq => simp only [map_add, hp, hq]
  | mul_X p k hp => simp only [map_mul, hp]; simp

/-- The guard covers three variables up to order 13, that is degree 12. -/
theorem c59_order_13 : SmallMultinom 3 13 := by
  have h : ∀ k ∈ simplexIter 3 13, multinom k < 65536 := by decide +kernel
  intro k hk hs
  exact h k (((c44_enumeration 3 13 (by norm_num)).1 k).mpr ⟨hk, hs⟩)

/-- The class used by the polynomial trace at seventh order. -/
example : ∃ tb, simplexEnum 3 8 = some tb ∧ SmallMultinom 3 8 := by
  have hf : Fits 3 8 := ⟨by norm_num, by norm_num, by decide +kernel⟩
  obtain ⟨tb, ht, -⟩ := exists_enum hf
  exact ⟨tb, ht, fun k hk hs => c59_order_13 k hk (by omega)⟩

/-- C59, violated from order 14 on: `13! / (5! 4! 4!) = 90090` is stored modulo 65536.  Substituting
`x + y + z` for `x` in `x^13` and evaluating at `(1, 1, 1)` does not give `3^13`. -/
theorem c59_wraps : ∃ tb, simplexEnum 3 14 = some tb ∧
    ∃ N, ∀ fuel ≥ N, ∃ (t : ℕ → ℕ → ℝ) (x : ℕ → ℝ) (v : Fin 3 → ℝ) (y : ℕ → ℝ),
      transform fuel tb 3 t x = some y ∧
      eval tb.jdx y (List.ofFn v)
        ≠ eval tb.jdx x (List.ofFn fun k : Fin 3 => ∑ j : Fin 3, t k j * v j) := by
  have hf : Fits 3 14 := ⟨by norm_num, by norm_num, by decide +kernel⟩
  obtain ⟨tb, ht, -⟩ := exists_enum hf
  have G := enum_good hf ht
  refine ⟨tb, ht, enough 3 tb, fun fuel hfu => ?_⟩
  have hok : ∀ e < 14, Ok 3 e := by
    have h : ∀ k ∈ simplexIter 3 14, wt k ≠ 0 := by decide +kernel
    intro e he u hu hs
    exact h u (((c44_enumeration 3 14 (by norm_num)).1 u).mpr ⟨hu, by omega⟩)
  have hmem : [13, 0, 0] ∈ simplexIter 3 14 := by rw [G.mem]; simp
  have hrow : tb.jdx.getD (tb.idx [13, 0, 0]) [] = [13, 0, 0] := by
    rw [List.getD, G.get _ hmem]; rfl
  have hlt := G.lt _ hmem
  set x : ℕ → ℝ := fun i => if i = tb.idx [13, 0, 0] then 1 else 0 with hx
  obtain ⟨y, h1, h2⟩ := transform_spec G hok (fun _ _ => 1) x fuel hfu
  refine ⟨fun _ _ => 1, x, fun _ => 1, y, h1, ?_⟩
  rw [eval_spec G (by norm_num), eval_spec G (by norm_num), h2]
  intro hc
  rw [Option.some.injEq, toPoly, map_sum, map_sum] at hc
  rw [Finset.sum_eq_single_of_mem _ (Finset.mem_range.mpr hlt)] at hc
  · rw [Finset.sum_eq_single_of_mem _ (Finset.mem_range.mpr hlt)] at hc
    · have hx1 : x (tb.idx [13, 0, 0]) = 1 := by simp [hx]
      rw [hrow, hx1, eval_monomial, Finsupp.prod_fintype _ _ (by simp), Fin.prod_univ_three,
        Fin.prod_univ_three] at hc
      have hsum : ∀ (k e : ℕ), MvPolynomial.eval (fun _ : Fin 3 => (1 : ℝ)) (rowSum 3 (fun _ _ => 1) k e)
          = ((((compsR 3 e).map wt).sum : ℕ) : ℝ) := by
        intro k e
        unfold rowSum rowsOf
        generalize compsR 3 e = L
        induction L with
        | nil => simp
        | cons u L ih =>
          simp only [List.map_cons, List.sum_cons, map_add, ih, Nat.cast_add]
          simp [rowPoly, mkRow]
      simp only [map_mul, hsum] at hc
      have e13 : ((compsR 3 13).map wt).sum = 1201107 := by decide +kernel
      have e0 : ((compsR 3 0).map wt).sum = 1 := by decide +kernel
      have z0 : [13, 0, 0].getD ((0 : Fin 3) : ℕ) 0 = 13 := rfl
      have z1 : [13, 0, 0].getD ((1 : Fin 3) : ℕ) 0 = 0 := rfl
      have z2 : [13, 0, 0].getD ((2 : Fin 3) : ℕ) 0 = 0 := rfl
      simp only [expo_apply, z0, z1, z2, e13, e0] at hc
      norm_num at hc
    · intro l _ hl
      simp [hx, hl]
  · intro l _ hl
    simp [hx, hl]

end RayOpt.Simplex
