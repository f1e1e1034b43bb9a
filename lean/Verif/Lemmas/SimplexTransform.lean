import Verif.Lemmas.SimplexOps
import Mathlib.Data.Nat.Choose.Sum

/-! Multinomial coefficients, the order in which `simplex_transform` visits its terms and their sum. -/

namespace RayOpt.Simplex

open MvPolynomial

/-! ### Binomial and multinomial coefficients -/

theorem binom_loop (n : ℕ) : ∀ j, j ≤ n → (List.range j).foldl
    (fun (rn : ℕ × ℕ) i => (rn.1 * rn.2 / (i + 1), rn.2 - 1)) (1, n) = (n.choose j, n - j) := by
  intro j
  induction j with
  | zero => intro _; simp
  | succ j ih =>
    intro hj
    rw [List.range_succ, List.foldl_append, ih (by omega), List.foldl_cons, List.foldl_nil]
    refine Prod.ext ?_ (by simp; omega)
    simp only
    rw [← Nat.choose_succ_right_eq, Nat.mul_div_cancel _ (by omega)]

theorem binom_eq (n k : ℕ) : binom n k = n.choose k := by
  unfold binom
  split_ifs with h
  · rw [Nat.choose_eq_zero_of_lt h]
  · rw [binom_loop n _ (by omega)]
    simp only
    rcases le_total k (n - k) with h1 | h1
    · rw [min_eq_left h1]
    · rw [min_eq_right h1, Nat.choose_symm (by omega)]

/-- Multinomial coefficient of a tuple given in reverse order. -/
def multR : List ℕ → ℕ
  | [] => 1
  | x :: xs => (x + xs.sum).choose x * multR xs

theorem multinom_loop (h : ℕ) (l : List ℕ) :
    l.foldl (fun (tr : ℕ × ℕ) ki => (tr.1 + ki, tr.2 * binom (tr.1 + ki) ki)) (h, 1)
      = (h + l.sum, multR (h :: l).reverse) := by
  induction l using List.reverseRecOn with
  | nil => simp [multR]
  | append_singleton l x ih =>
    rw [List.foldl_append, ih, List.foldl_cons, List.foldl_nil, binom_eq]
    have : (h :: (l ++ [x])).reverse = x :: (h :: l).reverse := by simp
    rw [this, multR]
    simp only [List.sum_reverse, List.sum_cons, List.sum_append, List.sum_nil]
    refine Prod.ext ?_ ?_
    · simp only; ring
    · simp only
      rw [mul_comm, add_comm x]

theorem multinom_eq {k : List ℕ} (h : k ≠ []) : multinom k = multR k.reverse := by
  match k, h with
  | a :: l, _ =>
    unfold multinom
    simp only [List.tail_cons, List.headD_cons]
    rw [multinom_loop]

theorem multR_factorial (l : List ℕ) :
    multR l * (l.map Nat.factorial).prod = l.sum.factorial := by
  induction l with
  | nil => simp [multR]
  | cons x l ih =>
    rw [multR, List.map_cons, List.prod_cons, List.sum_cons, ← Nat.add_choose_mul_factorial_mul_factorial x l.sum, ← ih]
    rw [Nat.add_comm x]
    rw [Nat.choose_symm_add]
    ring

/-! ### Walks -/

/-- `l` lists the states visited from `a` by following `nxt`, up to and including `b`. -/
inductive Walk {α : Type} (nxt : α → Option α) : α → List α → α → Prop
  | last (a : α) : Walk nxt a [a] a
  | step {a b c : α} {l : List α} : nxt a = some b → Walk nxt b l c → Walk nxt a (a :: l) c

theorem Walk.append {α : Type} {nxt : α → Option α} {a b c d : α} {l l' : List α}
    (h : Walk nxt a l b) (hn : nxt b = some c) (h' : Walk nxt c l' d) : Walk nxt a (l ++ l') d := by
  induction h with
  | last a => exact Walk.step hn h'
  | step h1 _ ih => exact Walk.step h1 (ih hn)

theorem Walk.map {α β : Type} {nxt : α → Option α} {nxt' : β → Option β} (f : α → β)
    {a b : α} {l : List α} (h : Walk nxt a l b)
    (hf : ∀ x ∈ l, ∀ y ∈ l, nxt x = some y → nxt' (f x) = some (f y)) :
    Walk nxt' (f a) (l.map f) (f b) := by
  induction h with
  | last a => exact Walk.last _
  | @step a b c l h1 h2 ih =>
    refine Walk.step (hf a (by simp) b ?_ h1) (ih fun x hx y hy => hf x (by simp [hx]) y (by simp [hy]))
    cases h2 <;> simp

theorem Walk.mem_last {α : Type} {nxt : α → Option α} {a b : α} {l : List α}
    (h : Walk nxt a l b) : b ∈ l := by
  induction h with
  | last a => simp
  | step _ _ ih => simp [ih]

/-! ### Compositions -/

/-- `multinom_next` on the reversed tuple, without the coefficient. -/
def nextR (p : ℕ) : List ℕ → Option (List ℕ)
  | [] => none
  | x :: xs => if x = p then none else some (nextLoop (p - x) x xs)

theorem nextLoop_ne_nil (p0 above : ℕ) (l : List ℕ) : nextLoop p0 above l ≠ [] := by
  cases l with
  | nil => simp [nextLoop]
  | cons x xs =>
    rw [nextLoop]
    split_ifs <;> simp

theorem multinomNext_eq (p : ℕ) (q : List ℕ) : multinomNext p q
    = match nextR p q.reverse with
      | none => (0, q)
      | some r => (multR r, r.reverse) := by
  unfold multinomNext
  generalize hq : q.reverse = r
  cases r with
  | nil => rfl
  | cons x xs =>
    simp only [nextR]
    split_ifs with h
    · rfl
    · simp only
      rw [multinom_eq (by simpa using nextLoop_ne_nil _ _ _), List.reverse_reverse]

/-- The compositions of `p` into `n` parts, reversed, in the order visited. -/
def compsR : ℕ → ℕ → List (List ℕ)
  | 0, _ => []
  | 1, p => [[p]]
  | n + 2, p => (List.range (p + 1)).flatMap fun x => (compsR (n + 1) (p - x)).map (x :: ·)

theorem compsR_zero : ∀ n, compsR (n + 1) 0 = [List.replicate (n + 1) 0]
  | 0 => rfl
  | n + 1 => by
    rw [compsR]
    simp [compsR_zero n, List.replicate_succ]

theorem mem_compsR : ∀ (n p : ℕ) (u : List ℕ), u ∈ compsR (n + 1) p ↔ u.length = n + 1 ∧ u.sum = p := by
  intro n
  induction n with
  | zero =>
    intro p u
    rw [compsR, List.mem_singleton, zero_add, List.length_eq_one_iff]
    constructor
    · rintro rfl; simp
    · rintro ⟨⟨a, rfl⟩, h⟩
      simpa using h
  | succ n ih =>
    intro p u
    rw [compsR, List.mem_flatMap]
    constructor
    · rintro ⟨x, hx, hu⟩
      obtain ⟨v, hv, rfl⟩ := List.mem_map.mp hu
      rw [ih] at hv
      rw [List.mem_range] at hx
      simp [hv.1, hv.2]
      omega
    · rintro ⟨h1, h2⟩
      match u, h1 with
      | x :: v, h1 =>
        simp only [List.sum_cons, List.length_cons] at h1 h2
        refine ⟨x, List.mem_range.mpr (by omega), List.mem_map.mpr ⟨v, ?_, rfl⟩⟩
        rw [ih]
        omega

theorem compsR_walk : ∀ n p : ℕ, Walk (nextR p) (List.replicate n 0 ++ [p]) (compsR (n + 1) p)
    (p :: List.replicate n 0) := by
  intro n
  induction n with
  | zero => intro p; exact Walk.last _
  | succ n ih =>
    intro p
    rw [compsR]
    have block : ∀ x ≤ p, Walk (nextR p) (x :: (List.replicate n 0 ++ [p - x]))
        ((compsR (n + 1) (p - x)).map (x :: ·)) (x :: (p - x) :: List.replicate n 0) := by
      intro x hx
      rcases hx.eq_or_lt with rfl | hlt
      · rw [Nat.sub_self, compsR_zero]
        simp only [List.map_cons, List.map_nil]
        have e1 : List.replicate n 0 ++ [0] = List.replicate (n + 1) 0 := by
          rw [List.replicate_succ']
        rw [e1]
        exact Walk.last _
      · refine (ih (p - x)).map (x :: ·) ?_
        intro u hu v hv hn
        rw [mem_compsR] at hu
        match u, hu with
        | y :: ys, hu =>
          simp only [nextR] at hn ⊢
          rw [if_neg (by omega)]
          split_ifs at hn with h
          rw [nextLoop, if_neg h]
          simp only [Option.some.injEq] at hn
          rw [hn]
    have key : ∀ k ≤ p, Walk (nextR p) (0 :: (List.replicate n 0 ++ [p]))
        ((List.range (k + 1)).flatMap fun x => (compsR (n + 1) (p - x)).map (x :: ·))
        (k :: (p - k) :: List.replicate n 0) := by
      intro k
      induction k with
      | zero => intro _; simpa using block 0 (by omega)
      | succ k ihk =>
        intro hk
        rw [List.range_succ, List.flatMap_append, List.flatMap_cons, List.flatMap_nil,
          List.append_nil]
        refine (ihk (by omega)).append ?_ (block (k + 1) hk)
        rw [nextR, if_neg (by omega), nextLoop, if_pos rfl]
        congr 2
        have e1 : (0 :: List.replicate n 0).dropLast = List.replicate n 0 := by
          rw [← List.replicate_succ, List.replicate_succ', List.dropLast_concat]
        rw [e1, Nat.sub_sub]
    have := key p le_rfl
    rw [Nat.sub_self] at this
    rw [List.replicate_succ, List.cons_append]
    exact this

theorem nextR_last (p : ℕ) (l : List ℕ) : nextR p (p :: l) = none := by simp [nextR]

/-! ### Rows -/

/-- The weight the code stores for a composition. -/
def wt (u : List ℕ) : ℕ := u16 (multR u)

/-- Every stored multinomial coefficient of degree `e` is non-zero. -/
def Ok (d e : ℕ) : Prop := ∀ u : List ℕ, u.length = d → u.sum = e → wt u ≠ 0

def mkRow (e : ℕ) (u : List ℕ) : TRow := ⟨e, u.reverse, wt u⟩

def rowsOf (d e : ℕ) : List TRow := (compsR d e).map (mkRow e)

/-- One step of a single row. -/
def rowNext (r : TRow) : Option TRow :=
  let mq := multinomNext r.e r.q
  if u16 mq.1 ≠ 0 then some ⟨r.e, mq.2, u16 mq.1⟩ else none

def resetRow (d e : ℕ) : TRow := ⟨e, firstComp d e, 1⟩

theorem supernomNext_cons (d : ℕ) (r : TRow) (rs : List TRow) : supernomNext d (r :: rs)
    = match rowNext r with
      | some r' => (true, r' :: rs)
      | none => ((supernomNext d rs).1, resetRow d r.e :: (supernomNext d rs).2) := by
  rw [supernomNext]
  unfold rowNext resetRow
  simp only
  by_cases h : u16 (multinomNext r.e r.q).1 ≠ 0
  · rw [if_pos h, if_pos h]
  · rw [if_neg h, if_neg h]

theorem multR_first : ∀ n e, multR (List.replicate n 0 ++ [e]) = 1
  | 0, e => by simp [multR]
  | n + 1, e => by
    rw [List.replicate_succ, List.cons_append, multR, multR_first n e]; simp

theorem mkRow_first (n e : ℕ) : mkRow e (List.replicate n 0 ++ [e]) = resetRow (n + 1) e := by
  unfold mkRow resetRow firstComp wt
  rw [multR_first]
  simp [u16]

theorem rowsOf_walk {n e : ℕ} (hok : Ok (n + 1) e) : Walk rowNext (resetRow (n + 1) e)
    (rowsOf (n + 1) e) (mkRow e (e :: List.replicate n 0)) := by
  rw [← mkRow_first]
  refine (compsR_walk n e).map (mkRow e) ?_
  intro u hu v hv hn
  rw [mem_compsR] at hv
  unfold rowNext
  simp only [mkRow, multinomNext_eq, List.reverse_reverse, hn]
  have hh : u16 (multR v) ≠ 0 := hok v hv.1 hv.2
  rw [if_pos hh]
  rfl

theorem rowNext_last (n e : ℕ) : rowNext (mkRow e (e :: List.replicate n 0)) = none := by
  unfold rowNext
  simp only [mkRow, multinomNext_eq, List.reverse_reverse, nextR_last]
  simp [u16]

/-! ### The odometer -/

def sNext (d : ℕ) (rs : List TRow) : Option (List TRow) :=
  if (supernomNext d rs).1 then some (supernomNext d rs).2 else none

/-- All combinations of rows, reversed, in the order visited. -/
def prodR (d : ℕ) : List ℕ → List (List TRow)
  | [] => [[]]
  | e :: es => (prodR d es).flatMap fun rest => (rowsOf d e).map (· :: rest)

theorem prodR_walk (n : ℕ) : ∀ es : List ℕ, (∀ e ∈ es, Ok (n + 1) e) →
    Walk (sNext (n + 1)) (es.map (resetRow (n + 1))) (prodR (n + 1) es)
      (es.map fun e => mkRow e (e :: List.replicate n 0)) ∧
    supernomNext (n + 1) (es.map fun e => mkRow e (e :: List.replicate n 0))
      = (false, es.map (resetRow (n + 1))) := by
  intro es
  induction es with
  | nil => intro _; exact ⟨Walk.last _, rfl⟩
  | cons e es ih =>
    intro hok
    obtain ⟨h1, h2⟩ := ih fun e he => hok e (by simp [he])
    have hoke := hok e (by simp)
    constructor
    · rw [prodR, List.map_cons, List.map_cons]
      have block : ∀ rest : List TRow, Walk (sNext (n + 1)) (resetRow (n + 1) e :: rest)
          ((rowsOf (n + 1) e).map (· :: rest)) (mkRow e (e :: List.replicate n 0) :: rest) := by
        intro rest
        refine (rowsOf_walk hoke).map (· :: rest) ?_
        intro x _ y _ hxy
        simp only [sNext, supernomNext_cons, hxy, if_true]
      generalize es.map (resetRow (n + 1)) = A at h1
      generalize (es.map fun e => mkRow e (e :: List.replicate n 0)) = B at h1
      generalize prodR (n + 1) es = L at h1
      clear ih h2 hok
      induction h1 with
      | last a => simpa using block a
      | @step a b c l hn _ ih =>
        rw [List.flatMap_cons]
        refine (block a).append ?_ ih
        simp only [sNext, supernomNext_cons, rowNext_last]
        unfold sNext at hn
        split_ifs at hn with h
        rw [if_pos h]
        simp only [Option.some.injEq] at hn
        rw [hn]
        rfl
    · rw [List.map_cons, supernomNext_cons, rowNext_last]
      simp only
      rw [h2]
      rfl

/-- The update of one pass. -/
noncomputable def addTerm (idx : List ℕ → ℕ) (d s : ℕ) (t : ℕ → ℕ → ℝ) (c : ℝ) (y : ℕ → ℝ)
    (rows : List TRow) : ℕ → ℝ :=
  Function.update y (ravel idx d s (term d s t rows).2)
    (y (ravel idx d s (term d s t rows).2) + (term d s t rows).1 * c)

theorem transformLoop_walk (idx : List ℕ → ℕ) (d s : ℕ) (t : ℕ → ℕ → ℝ) (c : ℝ)
    {a b r : List TRow} {l : List (List TRow)} (h : Walk (sNext d) a l b)
    (hb : supernomNext d b = (false, r)) : ∀ (fuel : ℕ) (y : ℕ → ℝ), l.length ≤ fuel →
    transformLoop idx d s t c fuel a.reverse y
      = some ((l.map List.reverse).foldl (addTerm idx d s t c) y, r.reverse) := by
  induction h with
  | last a =>
    intro fuel y hf
    cases fuel with
    | zero => simp at hf
    | succ fuel =>
      rw [transformLoop]
      simp only [List.reverse_reverse, hb]
      simp [addTerm]
  | @step a b' c' l hn _ ih =>
    intro fuel y hf
    cases fuel with
    | zero => simp at hf
    | succ fuel =>
      rw [transformLoop]
      simp only [List.reverse_reverse]
      unfold sNext at hn
      split_ifs at hn with h1
      simp only [Option.some.injEq] at hn
      rw [if_pos h1, hn, ih hb fuel _ (by simpa using hf)]
      simp [addTerm]

/-! ### One term -/

theorem foldl_prod_sum {α : Type*} (f : α → ℝ) (g : α → ℕ) (l : List α) (a : ℝ) (b : ℕ) :
    l.foldl (fun (ql : ℝ × ℕ) x => (ql.1 * f x, ql.2 + g x)) (a, b)
      = (a * (l.map f).prod, b + (l.map g).sum) := by
  induction l generalizing a b with
  | nil => simp
  | cons x l ih =>
    rw [List.foldl_cons, ih]
    simp [mul_assoc, add_assoc]

/-- Horner's scheme. -/
def horner (s : ℕ) (D : ℕ → ℕ) : ℕ → ℕ
  | 0 => 0
  | n + 1 => horner s D n * s + D n

theorem horner_digit {s : ℕ} (hs : 0 < s) (D : ℕ → ℕ) : ∀ n, (∀ j < n, D j < s) → ∀ k < n,
    horner s D n / s ^ (n - 1 - k) % s = D k := by
  intro n
  induction n with
  | zero => intro _ k hk; omega
  | succ n ih =>
    intro h k hk
    rw [horner]
    rcases Nat.lt_succ_iff_lt_or_eq.mp hk with hlt | rfl
    · have e : n + 1 - 1 - k = 1 + (n - 1 - k) := by omega
      rw [e, pow_add, pow_one, ← Nat.div_div_eq_div_mul, Nat.mul_comm, Nat.mul_add_div hs,
        Nat.div_eq_of_lt (h n (by omega)), add_zero]
      exact ih (fun j hj => h j (by omega)) k hlt
    · simp only [Nat.add_sub_cancel, Nat.sub_self, pow_zero, Nat.div_one]
      rw [Nat.mul_comm, Nat.mul_add_mod]
      exact Nat.mod_eq_of_lt (h k (by omega))

/-- Sum of column `j` over the rows. -/
def colSum (rows : List TRow) (j : ℕ) : ℕ := (rows.map fun r => r.q.getD j 0).sum

theorem zipIdx_map_snd {β : Type*} (l : List TRow) (g : TRow → β) (s : ℕ) :
    (l.zipIdx s).map (fun rk => g rk.1) = l.map g := by
  induction l generalizing s with
  | nil => rfl
  | cons a l ih => simp [List.zipIdx_cons, ih]

theorem term_foldl (s : ℕ) (t : ℕ → ℕ → ℝ) (rows : List TRow) (n : ℕ) :
    (List.range n).foldl (fun ql j =>
      rows.zipIdx.foldl (fun ql rk =>
        (ql.1 * t rk.2 j ^ (rk.1.q.getD j 0), ql.2 + rk.1.q.getD j 0))
        (ql.1 * (rows.map TRow.m).getD j 1, ql.2 * s)) ((1 : ℝ), 0)
      = (∏ j ∈ Finset.range n, (((rows.map TRow.m).getD j 1 : ℕ) : ℝ)
          * (rows.zipIdx.map fun rk => t rk.2 j ^ (rk.1.q.getD j 0)).prod,
        horner s (colSum rows) n) := by
  induction n with
  | zero => simp [horner]
  | succ n ih =>
    rw [List.range_succ, List.foldl_append, ih, List.foldl_cons, List.foldl_nil,
      foldl_prod_sum (fun rk : TRow × ℕ => t rk.2 n ^ (rk.1.q.getD n 0))
        (fun rk : TRow × ℕ => rk.1.q.getD n 0)]
    rw [Finset.prod_range_succ, zipIdx_map_snd rows (fun r => r.q.getD n 0)]
    refine Prod.ext ?_ rfl
    simp only
    ring

theorem ravel_term {d s : ℕ} (hs : 0 < s) (idx : List ℕ → ℕ) (t : ℕ → ℕ → ℝ) (rows : List TRow)
    (h : ∀ j < d, colSum rows j < s) :
    ravel idx d s (term d s t rows).2 = idx ((List.range d).map (colSum rows)) := by
  unfold ravel term
  rw [term_foldl]
  congr 1
  apply List.map_congr_left
  intro k hk
  rw [List.mem_range] at hk
  exact horner_digit hs _ d h k hk

/-! ### Adding terms -/

theorem toPoly_add_term {d m : ℕ} {t : Tables} (G : Good d m t) (y : ℕ → ℝ) {p : List ℕ}
    (hp : p ∈ simplexIter d m) (c : ℝ) :
    toPoly d t.jdx (Function.update y (t.idx p) (y (t.idx p) + c))
      = toPoly d t.jdx y + monomial (expo d p) c := by
  unfold toPoly
  have hlt := G.lt p hp
  have hrow : t.jdx.getD (t.idx p) [] = p := by rw [List.getD, G.get p hp]; rfl
  rw [← Finset.sum_erase_add _ _ (Finset.mem_range.mpr hlt),
    ← Finset.sum_erase_add (Finset.range t.jdx.length) _ (Finset.mem_range.mpr hlt), hrow,
    Function.update_self, map_add, ← add_assoc]
  congr 2
  apply Finset.sum_congr rfl
  intro l hl
  rw [Function.update_of_ne (Finset.ne_of_mem_erase hl)]

/-- The polynomial of one row `k`: coefficient times powers of the substituted variables. -/
noncomputable def rowPoly (d : ℕ) (t : ℕ → ℕ → ℝ) (k : ℕ) (r : TRow) : MvPolynomial (Fin d) ℝ :=
  C (r.m : ℝ) * ∏ j : Fin d, (C (t k j) * X j) ^ (r.q.getD j 0)

theorem zipIdx_prod {M : Type*} [CommMonoid M] {d : ℕ} (rows : List TRow) (hr : rows.length = d)
    (f : TRow → ℕ → M) (r0 : TRow) :
    (rows.zipIdx.map fun rk => f rk.1 rk.2).prod = ∏ k : Fin d, f (rows.getD k r0) k := by
  have : (rows.zipIdx.map fun rk => f rk.1 rk.2)
      = List.ofFn fun k : Fin d => f (rows.getD k r0) k := by
    apply List.ext_getElem
    · simp [hr]
    · intro i h1 h2
      have : i < rows.length := by simpa using h1
      simp [this]
  rw [this, List.prod_ofFn]

theorem colSum_eq {d : ℕ} (rows : List TRow) (hr : rows.length = d) (j : ℕ) (r0 : TRow) :
    colSum rows j = ∑ k : Fin d, (rows.getD k r0).q.getD j 0 := by
  unfold colSum
  have : (rows.map fun r => r.q.getD j 0)
      = List.ofFn fun k : Fin d => (rows.getD k r0).q.getD j 0 := by
    apply List.ext_getElem
    · simp [hr]
    · intro i h1 h2
      have : i < rows.length := by simpa using h1
      simp [this]
  rw [this, List.sum_ofFn]

theorem term_poly {d s : ℕ} (t : ℕ → ℕ → ℝ) (rows : List TRow) (hr : rows.length = d) :
    monomial (expo d ((List.range d).map (colSum rows))) (term d s t rows).1
      = (List.zipWith (rowPoly d t) (List.range d) rows).prod := by
  have r0 : TRow := ⟨0, [], 1⟩
  have e1 : List.zipWith (rowPoly d t) (List.range d) rows
      = List.ofFn fun k : Fin d => rowPoly d t k (rows.getD k r0) := by
    apply List.ext_getElem
    · simp [hr]
    · intro i h1 h2
      have : i < rows.length := by simp at h2; omega
      simp [this]
  rw [e1, List.prod_ofFn, monomial_eq, Finsupp.prod_fintype _ _ (by simp)]
  unfold term
  rw [term_foldl]
  simp only
  have hm : ∀ j : Fin d, (rows.map TRow.m).getD j 1 = (rows.getD j r0).m := by
    intro j
    have : (j : ℕ) < rows.length := by rw [hr]; exact j.2
    simp [this]
  rw [Finset.prod_range]
  have hz : ∀ j : Fin d, (rows.zipIdx.map fun rk => t rk.2 j ^ (rk.1.q.getD j 0)).prod
      = ∏ k : Fin d, t k j ^ ((rows.getD k r0).q.getD j 0) := fun j =>
    zipIdx_prod rows hr (fun r k => t k j ^ (r.q.getD j 0)) r0
  simp only [hz, hm]
  have hcol : ∀ j : Fin d, expo d ((List.range d).map (colSum rows)) j
      = ∑ k : Fin d, (rows.getD k r0).q.getD j 0 := by
    intro j
    rw [expo_apply, ← colSum_eq rows hr]
    simp
  simp only [hcol]
  unfold rowPoly
  rw [Finset.prod_mul_distrib, Finset.prod_mul_distrib, C_mul, map_prod, map_prod, mul_assoc]
  congr 1
  rw [Finset.prod_comm (s := (Finset.univ : Finset (Fin d)))
    (f := fun k j : Fin d => (C (t k j) * X j : MvPolynomial (Fin d) ℝ)
      ^ ((rows.getD k r0).q.getD j 0)),
    ← Finset.prod_mul_distrib]
  apply Finset.prod_congr rfl
  intro j _
  rw [map_prod, ← Finset.prod_pow_eq_pow_sum, ← Finset.prod_mul_distrib]
  apply Finset.prod_congr rfl
  intro k _
  rw [mul_pow, map_pow]

/-! ### Sums over all terms -/

theorem flatMap_sum {α R : Type*} [AddCommMonoid R] (l : List α) (f : α → List R) :
    (l.flatMap f).sum = (l.map fun x => (f x).sum).sum := by
  induction l with
  | nil => rfl
  | cons a l ih => simp [List.flatMap_cons, ih]

theorem comps_sum {R : Type*} [CommSemiring R] : ∀ (n p : ℕ) (Z : List R), Z.length = n + 1 →
    ((compsR (n + 1) p).map fun u =>
      (multR u : R) * (List.zipWith (fun z k => z ^ k) Z u).prod).sum = Z.sum ^ p := by
  intro n
  induction n with
  | zero =>
    intro p Z hZ
    obtain ⟨z, rfl⟩ := List.length_eq_one_iff.mp hZ
    simp [compsR, multR]
  | succ n ih =>
    intro p Z hZ
    match Z, hZ with
    | z :: Z, hZ =>
      rw [compsR, List.map_flatMap, flatMap_sum, List.sum_cons, add_pow,
        ← List.sum_toFinset _ List.nodup_range]
      rw [List.toFinset_range]
      apply Finset.sum_congr rfl
      intro x hx
      rw [Finset.mem_range] at hx
      rw [← ih (p - x) Z (by simpa using hZ), List.map_map, mul_assoc, mul_comm _ ((p.choose x : ℕ) : R),
        ← mul_assoc, ← List.sum_map_mul_left]
      congr 1
      apply List.map_congr_left
      intro u hu
      rw [mem_compsR] at hu
      simp only [Function.comp, multR, List.zipWith_cons_cons, List.prod_cons, hu.2]
      rw [show x + (p - x) = p by omega]
      push_cast
      ring

theorem zipWith_rev_prod {R : Type*} [CommSemiring R] {d : ℕ} (Z : Fin d → R) {u : List ℕ}
    (hu : u.length = d) :
    (List.zipWith (fun z k => z ^ k) (List.ofFn Z).reverse u).prod
      = ∏ j : Fin d, Z j ^ (u.reverse.getD j 0) := by
  have h1 : List.zipWith (fun z k => z ^ k) (List.ofFn Z).reverse u
      = (List.zipWith (fun z k => z ^ k) (List.ofFn Z) u.reverse).reverse := by
    rw [List.reverse_zipWith (by simp [hu]), List.reverse_reverse]
  have h2 : List.zipWith (fun z k => z ^ k) (List.ofFn Z) u.reverse
      = List.ofFn fun j : Fin d => Z j ^ (u.reverse.getD j 0) := by
    apply List.ext_getElem
    · simp [hu]
    · intro i h1 h2
      have : i < u.reverse.length := by simp at h1; simp; omega
      simp only [List.getElem_zipWith, List.getElem_ofFn, List.getD_eq_getElem?_getD,
        List.getElem?_eq_getElem this, Option.getD_some]
  rw [h1, List.prod_reverse, h2, List.prod_ofFn]

/-- The rows of exponent `e` add up to the `e`-th power of the linear form. -/
theorem rows_sum {n e : ℕ} (t : ℕ → ℕ → ℝ) (k : ℕ)
    (hw : ∀ u : List ℕ, u.length = n + 1 → u.sum = e → wt u = multR u) :
    ((rowsOf (n + 1) e).map (rowPoly (n + 1) t k)).sum
      = (∑ j : Fin (n + 1), C (t k j) * X j) ^ e := by
  have := comps_sum n e (List.ofFn fun j : Fin (n + 1) => (C (t k j) * X j : MvPolynomial _ ℝ)).reverse
    (by simp)
  rw [List.sum_reverse, List.sum_ofFn] at this
  rw [← this]
  unfold rowsOf
  rw [List.map_map]
  congr 1
  apply List.map_congr_left
  intro u hu
  rw [mem_compsR] at hu
  rw [zipWith_rev_prod _ hu.1]
  simp only [Function.comp, rowPoly, mkRow, hw u hu.1 hu.2, map_natCast]

theorem prodR_sum {R : Type*} [CommSemiring R] (d : ℕ) (f : ℕ → TRow → R) :
    ∀ (ks es : List ℕ), ks.length = es.length →
    ((prodR d es).map fun rows => (List.zipWith f ks rows).prod).sum
      = (List.zipWith (fun k e => ((rowsOf d e).map (f k)).sum) ks es).prod := by
  intro ks es
  induction es generalizing ks with
  | nil => intro h; simp [prodR]
  | cons e es ih =>
    intro h
    match ks, h with
    | k :: ks, h =>
      rw [prodR, List.map_flatMap, flatMap_sum, List.zipWith_cons_cons, List.prod_cons,
        ← ih ks (by simpa using h), ← List.sum_map_mul_left]
      congr 1
      apply List.map_congr_left
      intro rest _
      rw [List.map_map, ← List.sum_map_mul_right]
      congr 1

theorem prodR_mem {n : ℕ} : ∀ (es : List ℕ) (rows : List TRow), rows ∈ prodR (n + 1) es →
    rows.length = es.length ∧ (rows.map fun r => r.q.sum).sum = es.sum ∧
      ∀ r ∈ rows, r.q.length = n + 1 := by
  intro es
  induction es with
  | nil => intro rows h; simp [prodR] at h; subst h; simp
  | cons e es ih =>
    intro rows h
    rw [prodR, List.mem_flatMap] at h
    obtain ⟨rest, hrest, hr⟩ := h
    obtain ⟨r, hr', rfl⟩ := List.mem_map.mp hr
    obtain ⟨u, hu, rfl⟩ := List.mem_map.mp hr'
    rw [mem_compsR] at hu
    obtain ⟨i1, i2, i3⟩ := ih rest hrest
    refine ⟨by simp [i1], ?_, ?_⟩
    · simp only [List.map_cons, List.sum_cons, i2, mkRow, List.sum_reverse, hu.2]
    · intro r hr
      rcases List.mem_cons.mp hr with rfl | hr
      · simp [mkRow, hu.1]
      · exact i3 r hr

theorem cols_sum {d : ℕ} : ∀ (rows : List TRow), (∀ r ∈ rows, r.q.length = d) →
    ((List.range d).map (colSum rows)).sum = (rows.map fun r => r.q.sum).sum := by
  intro rows
  induction rows with
  | nil =>
    intro _
    have : colSum [] = fun _ => 0 := by funext j; simp [colSum]
    simp [this]
  | cons r rows ih =>
    intro h
    rw [List.map_cons, List.sum_cons, ← ih fun r hr => h r (by simp [hr])]
    have hq : r.q.sum = ((List.range d).map fun j => r.q.getD j 0).sum := by
      congr 1
      apply List.ext_getElem
      · simp [h r (by simp)]
      · intro i h1 h2
        simp [h1]
    rw [hq, ← List.sum_map_add]
    rfl

theorem addTerm_foldl {d m : ℕ} {tb : Tables} (G : Good d m tb) (t : ℕ → ℕ → ℝ) (c : ℝ) :
    ∀ (L : List (List TRow)) (y : ℕ → ℝ),
    (∀ rows ∈ L, rows.length = d ∧ (∀ r ∈ rows, r.q.length = d) ∧
      (rows.map fun r => r.q.sum).sum < m) →
    toPoly d tb.jdx (L.foldl (addTerm tb.idx d m t c) y)
      = toPoly d tb.jdx y + C c *
        (L.map fun rows => (List.zipWith (rowPoly d t) (List.range d) rows).prod).sum := by
  intro L
  induction L with
  | nil => intro y _; simp
  | cons rows L ih =>
    intro y h
    obtain ⟨h1, h2, h3⟩ := h rows (by simp)
    rw [List.foldl_cons, ih _ fun r hr => h r (by simp [hr]), List.map_cons, List.sum_cons]
    have hsum := cols_sum rows h2
    have hlt : ∀ j < d, colSum rows j < m := by
      intro j hj
      have : colSum rows j ≤ ((List.range d).map (colSum rows)).sum :=
        List.single_le_sum (by simp) _ (List.mem_map.mpr ⟨j, List.mem_range.mpr hj, rfl⟩)
      omega
    have hmem : (List.range d).map (colSum rows) ∈ simplexIter d m := by
      rw [G.mem]; exact ⟨by simp, by omega⟩
    unfold addTerm
    rw [ravel_term G.mpos _ _ _ hlt, toPoly_add_term G y hmem, mul_add, ← term_poly (s := m) t rows h1,
      C_mul_monomial, mul_comm c]
    ring

/-! ### The whole transformation -/

/-- What the rows of exponent `e` add up to. -/
noncomputable def rowSum (d : ℕ) (t : ℕ → ℕ → ℝ) (k e : ℕ) : MvPolynomial (Fin d) ℝ :=
  ((rowsOf d e).map (rowPoly d t k)).sum

/-- The rows the loop starts from for the next coefficient. -/
def Clean (n : ℕ) (rows : List TRow) : Prop :=
  rows.length = n + 1 ∧ ∀ r ∈ rows, r.q.tail = List.replicate n 0 ∧ r.m = 1

theorem clean_start {n : ℕ} : ∀ (rows : List TRow) (p : List ℕ), rows.length = p.length →
    (∀ r ∈ rows, r.q.tail = List.replicate n 0 ∧ r.m = 1) →
    List.zipWith (fun r (e : ℕ) => (⟨e, e :: r.q.tail, r.m⟩ : TRow)) rows p
      = p.map (resetRow (n + 1))
  | [], [], _, _ => rfl
  | [], _ :: _, h, _ => by simp at h
  | _ :: _, [], h, _ => by simp at h
  | r :: rows, e :: p, h, hr => by
    rw [List.zipWith_cons_cons, List.map_cons,
      clean_start rows p (by simpa using h) fun r hr' => hr r (by simp [hr'])]
    obtain ⟨h1, h2⟩ := hr r (by simp)
    simp [resetRow, firstComp, h1, h2]

theorem clean_reset {n : ℕ} {p : List ℕ} (hp : p.length = n + 1) :
    Clean n (p.map (resetRow (n + 1))) := by
  refine ⟨by simp [hp], ?_⟩
  intro r hr
  obtain ⟨e, _, rfl⟩ := List.mem_map.mp hr
  simp [resetRow, firstComp]

theorem transform_step {n m : ℕ} {tb : Tables} (G : Good (n + 1) m tb)
    (hok : ∀ e < m, Ok (n + 1) e) (t : ℕ → ℕ → ℝ) (c : ℝ) {p : List ℕ} (hp : p.length = n + 1)
    (hs : p.sum < m) (fuel : ℕ) (hf : (prodR (n + 1) p.reverse).length ≤ fuel) (y : ℕ → ℝ)
    {rows : List TRow} (hc : Clean n rows) :
    ∃ y', transformLoop tb.idx (n + 1) m t c fuel
        (List.zipWith (fun r (e : ℕ) => (⟨e, e :: r.q.tail, r.m⟩ : TRow)) rows p) y
        = some (y', p.map (resetRow (n + 1))) ∧
      toPoly (n + 1) tb.jdx y' = toPoly (n + 1) tb.jdx y
        + C c * ∏ k : Fin (n + 1), rowSum (n + 1) t k (p.getD k 0) := by
  rw [clean_start rows p (by rw [hc.1, hp]) hc.2]
  obtain ⟨w1, w2⟩ := prodR_walk n p.reverse (by
    intro e he
    apply hok
    have : e ≤ p.sum := List.single_le_sum (by simp) e (by simpa using he)
    omega)
  have h := transformLoop_walk tb.idx (n + 1) m t c w1 w2 fuel y hf
  rw [← List.map_reverse, List.reverse_reverse] at h
  refine ⟨_, h, ?_⟩
  rw [addTerm_foldl G]
  · congr 2
    rw [List.map_map]
    have e1 : ∀ rows ∈ prodR (n + 1) p.reverse,
        ((fun rows => (List.zipWith (rowPoly (n + 1) t) (List.range (n + 1)) rows).prod)
          ∘ List.reverse) rows
        = (List.zipWith (rowPoly (n + 1) t) (List.range (n + 1)).reverse rows).prod := by
      intro rows hr
      have hl := (prodR_mem _ _ hr).1
      simp only [Function.comp]
      rw [← List.prod_reverse, List.reverse_zipWith (by simp [hl, hp]), List.reverse_reverse]
    rw [List.map_congr_left e1, prodR_sum _ _ _ _ (by simp [hp]),
      ← List.reverse_zipWith (by simp [hp]), List.prod_reverse]
    have e2 : List.zipWith (fun k e => ((rowsOf (n + 1) e).map (rowPoly (n + 1) t k)).sum)
        (List.range (n + 1)) p
        = List.ofFn fun k : Fin (n + 1) => rowSum (n + 1) t k (p.getD k 0) := by
      apply List.ext_getElem
      · simp [hp]
      · intro i h1 h2
        have : i < p.length := by simp at h2; omega
        rw [List.getElem_zipWith, List.getElem_ofFn]
        simp only [List.getElem_range, rowSum, List.getD_eq_getElem _ _ this]
    rw [e2, List.prod_ofFn]
  · intro rows hr
    obtain ⟨rs, hrs, rfl⟩ := List.mem_map.mp hr
    obtain ⟨h1, h2, h3⟩ := prodR_mem _ _ hrs
    refine ⟨by simp [h1, hp], by simpa using h3, ?_⟩
    rw [List.map_reverse, List.sum_reverse, h2, List.sum_reverse]
    exact hs

theorem transform_fold {n m : ℕ} {tb : Tables} (G : Good (n + 1) m tb)
    (hok : ∀ e < m, Ok (n + 1) e) (t : ℕ → ℕ → ℝ) (x : ℕ → ℝ) (fuel : ℕ) :
    ∀ (J : List (List ℕ)) (s : ℕ) (y : ℕ → ℝ) (rows : List TRow),
    (∀ p ∈ J, p.length = n + 1 ∧ p.sum < m ∧ (prodR (n + 1) p.reverse).length ≤ fuel) →
    Clean n rows →
    ∃ y' rows', (J.zipIdx s).foldl (fun st ji => st.bind fun st =>
      transformLoop tb.idx (n + 1) m t (x ji.2) fuel
        (List.zipWith (fun r (e : ℕ) => (⟨e, e :: r.q.tail, r.m⟩ : TRow)) st.2 ji.1) st.1)
        (some (y, rows)) = some (y', rows') ∧
      toPoly (n + 1) tb.jdx y' = toPoly (n + 1) tb.jdx y + ∑ l ∈ Finset.range J.length,
        C (x (s + l)) * ∏ k : Fin (n + 1), rowSum (n + 1) t k ((J.getD l []).getD k 0) := by
  intro J
  induction J with
  | nil => intro s y rows _ _; exact ⟨y, rows, rfl, by simp⟩
  | cons p J ih =>
    intro s y rows h hc
    obtain ⟨p1, p2, p3⟩ := h p (by simp)
    obtain ⟨y1, e1, e2⟩ := transform_step G hok t (x s) p1 p2 fuel p3 y hc
    obtain ⟨y2, rows2, f1, f2⟩ := ih (s + 1) y1 _ (fun q hq => h q (by simp [hq])) (clean_reset p1)
    refine ⟨y2, rows2, ?_, ?_⟩
    · rw [List.zipIdx_cons, List.foldl_cons, Option.bind_some]
      simp only [e1]
      exact f1
    · rw [f2, e2, List.length_cons, Finset.sum_range_succ']
      simp only [List.getD_cons_succ, List.getD_cons_zero, add_zero]
      rw [add_assoc, add_comm (C (x s) * _)]
      congr 2
      apply Finset.sum_congr rfl
      intro l _
      rw [add_right_comm, add_assoc]

/-- Enough passes for every coefficient. -/
def enough (d : ℕ) (tb : Tables) : ℕ := (tb.jdx.map fun p => (prodR d p.reverse).length).sum

theorem transform_spec {n m : ℕ} {tb : Tables} (G : Good (n + 1) m tb)
    (hok : ∀ e < m, Ok (n + 1) e) (t : ℕ → ℕ → ℝ) (x : ℕ → ℝ) (fuel : ℕ)
    (hf : enough (n + 1) tb ≤ fuel) :
    ∃ y, transform fuel tb (n + 1) t x = some y ∧
      toPoly (n + 1) tb.jdx y = ∑ l ∈ Finset.range tb.jdx.length,
        C (x l) * ∏ k : Fin (n + 1), rowSum (n + 1) t k ((tb.jdx.getD l []).getD k 0) := by
  have hrows : Clean n ((List.range (n + 1)).map fun _ =>
      (⟨0, List.replicate (n + 1) 0, 1⟩ : TRow)) := by
    refine ⟨by simp, ?_⟩
    intro r hr
    obtain ⟨_, _, rfl⟩ := List.mem_map.mp hr
    simp
  obtain ⟨y, rows, h1, h2⟩ := transform_fold G hok t x fuel tb.jdx 0 (fun _ => 0) _ (by
    intro p hp
    have hp' := hp
    rw [G.jdx, G.mem] at hp'
    refine ⟨hp'.1, hp'.2, le_trans ?_ hf⟩
    exact List.single_le_sum (by simp) _ (List.mem_map.mpr ⟨p, hp, rfl⟩)) hrows
  refine ⟨y, ?_, ?_⟩
  · unfold transform
    have hm : (tb.jdx.getLastD []).getLastD 0 + 1 = m := by
      rw [last_entry G]; have := G.mpos; omega
    simp only [hm]
    rw [h1]
    rfl
  · rw [h2]
    have h0 : toPoly (n + 1) tb.jdx (fun _ => (0 : ℝ)) = 0 := by unfold toPoly; simp
    rw [h0, zero_add]
    simp

theorem multR_pos (u : List ℕ) : 0 < multR u := by
  induction u with
  | nil => simp [multR]
  | cons x u ih => exact Nat.mul_pos (Nat.choose_pos (by omega)) ih

end RayOpt.Simplex
