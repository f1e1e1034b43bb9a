import Verif.Model.PolyPrint
import Verif.Props.PolySeidel

/-!
C115: the arrays that a polynomial trace fills and what it prints.
-/

namespace RayOpt.Poly

open Simplex

section
variable {m : ℕ} {tb : Tables} {abi : ℕ → List (ℕ × ℕ)}

theorem polyStates_spec {l : ℝ} : ∀ (es : List Elem) (st : PolyState) {out : List PolyState},
    polyStates abi m l st es = some out → out.length = es.length ∧
      ∀ j < es.length, tracePoly abi m l st (es.take (j + 1)) = out[j]? := by
  intro es
  induction es with
  | nil => intro st out h; cases h; simp
  | cons e es ih =>
    intro st out h
    simp only [polyStates, Option.bind_eq_bind, Option.bind_eq_some_iff, Option.some.injEq] at h
    obtain ⟨s, hs, r, hr, rfl⟩ := h
    obtain ⟨h1, h2⟩ := ih s hr
    refine ⟨by simp [h1], fun j hj => ?_⟩
    rw [List.take_succ_cons, tracePoly_cons, hs, Option.bind_some]
    cases j with
    | zero => simp [tracePoly]
    | succ j =>
      rw [List.getElem?_cons_succ]
      exact h2 j (by simpa using hj)

theorem polyStates_some {l : ℝ} : ∀ (es : List Elem) (st : PolyState), (∀ e ∈ es, e.shape ≠ none) →
    ∃ out, polyStates abi m l st es = some out := by
  intro es
  induction es with
  | nil => intro st _; exact ⟨_, rfl⟩
  | cons e es ih =>
    intro st h
    obtain ⟨sh, hsh⟩ := Option.ne_none_iff_exists'.mp (h e (by simp))
    obtain ⟨s, hs⟩ : ∃ s, stepPoly abi m l st e = some s := ⟨_, by rw [stepPoly, hsh, Option.map_some]⟩
    obtain ⟨r, hr⟩ := ih s fun e he => h e (List.mem_cons_of_mem _ he)
    exact ⟨s :: r, by simp [polyStates, hs, hr]⟩

theorem fillRows_spec : ∀ (states : List PolyState) (rows : List PolyRow) (j : ℕ),
    (fillRows rows j states).length = rows.length ∧
    (∀ i, i < j ∨ j + states.length ≤ i → (fillRows rows j states)[i]? = rows[i]?) ∧
    ∀ i < states.length, j + states.length ≤ rows.length →
      (fillRows rows j states)[j + i]? = states[i]?.map fun s => PolyRow.of s s.n := by
  intro states
  induction states with
  | nil => intro rows j; simp [fillRows]
  | cons s r ih =>
    intro rows j
    obtain ⟨h1, h2, h3⟩ := ih (rows.set j (.of s s.n)) (j + 1)
    refine ⟨by rw [fillRows, h1, List.length_set], fun i hi => ?_, fun i hi hl => ?_⟩
    · simp only [List.length_cons] at hi
      rw [fillRows, h2 i (by omega), List.getElem?_set_ne (by omega)]
    · rw [fillRows]
      simp only [List.length_cons] at hi hl
      cases i with
      | zero =>
        have := h2 j (.inl (by omega))
        rw [List.getElem?_set_self (by omega)] at this
        simpa using this
      | succ i =>
        rw [show j + (i + 1) = j + 1 + i by omega, h3 i (by omega) (by rw [List.length_set]; omega)]
        simp

/-- C115: `propagate(start, stop)` keeps the rows before and after, sets the row before `start` to the state that
`rays` made, and fills every row from `start` up to `stop` with the state behind the elements from `start` to it.
With `start = 1` these are all elements behind the object. -/
theorem c115_rows (l : ℝ) (sys : List Elem) (st0 : PolyState) (rows : List PolyRow) (start : ℕ) (stop : Option ℕ)
    (hs : 1 ≤ start) (hl : start ≤ sys.length) (hstop : ∀ k, stop = some k → start ≤ k) (hr : rows.length = sys.length)
    (hes : ∀ e ∈ sys.drop start, e.shape ≠ none) :
    ∃ out, propagateRows abi m l sys st0 rows start stop = some out ∧ out.length = sys.length ∧
      (∀ i, i + 1 < start ∨ (∃ k, stop = some k ∧ k ≤ i) → out[i]? = rows[i]?) ∧
      (∃ r r0, rows[start - 1]? = some r0 ∧ out[start - 1]? = some r ∧ r.n = r0.n ∧ r.s = st0.s ∧ r.t = st0.t ∧
        r.v = st0.v ∧ r.w = st0.w ∧ r.o = st0.o ∧ r.f = st0.f) ∧
      ∀ j, start + j < sys.length → (∀ k, stop = some k → start + j < k) → ∃ r st, out[start + j]? = some r ∧
        tracePoly abi m l st0 ((sys.drop start).take (j + 1)) = some st ∧
        r.s = st.s ∧ r.t = st.t ∧ r.v = st.v ∧ r.w = st.w ∧ r.o = st.o ∧ r.f = st.f ∧ r.n = st.n := by
  set N := stop.getD sys.length with hN
  have hstart : start ≤ N := by
    cases h : stop with
    | none => rw [hN, h]; exact hl
    | some k => rw [hN, h]; exact hstop k h
  have hsub : ∀ e ∈ (sys.take N).drop start, e.shape ≠ none := fun e he => hes e (by
    rw [List.drop_take] at he
    exact List.mem_of_mem_take he)
  obtain ⟨states, hst⟩ := polyStates_some (abi := abi) (m := m) (l := l) _ st0 hsub
  obtain ⟨h1, h2⟩ := polyStates_spec _ st0 hst
  obtain ⟨f1, f2, f3⟩ := fillRows_spec states (rows.modify (start - 1) fun r => .of st0 r.n) start
  rw [List.length_drop, List.length_take] at h1 h2
  rw [List.length_modify] at f1 f3
  refine ⟨_, by simp only [propagateRows, ← hN, hst]; rfl, by rw [f1, hr], fun i hi => ?_, ?_, fun j hj hk => ?_⟩
  · have hi' : i < start ∨ start + states.length ≤ i := by
      rcases hi with hi | ⟨k, hk, hi⟩
      · exact .inl (by omega)
      · have : N = k := by rw [hN, hk]; rfl
        right
        omega
    have hne : start - 1 ≠ i := by
      rcases hi with hi | ⟨k, hk, hi⟩
      · omega
      · have := hstop k hk
        omega
    rw [f2 i hi', List.getElem?_modify]
    simp [hne]
  · have hlt : start - 1 < rows.length := by omega
    refine ⟨PolyRow.of st0 rows[start - 1].n, rows[start - 1], List.getElem?_eq_getElem hlt, ?_, rfl, rfl, rfl, rfl,
      rfl, rfl, rfl⟩
    rw [f2 _ (.inl (by omega)), List.getElem?_modify, List.getElem?_eq_getElem hlt]
    simp
  · have hjN : start + j < N := by
      cases h : stop with
      | none => rw [hN, h]; exact hj
      | some k => rw [hN, h]; exact hk k h
    have hlt : j < states.length := by omega
    refine ⟨PolyRow.of states[j] states[j].n, states[j], ?_, ?_, rfl, rfl, rfl, rfl, rfl, rfl, rfl⟩
    · rw [f3 j hlt (by omega), List.getElem?_eq_getElem hlt]
      rfl
    · have := h2 j (by omega)
      rw [List.drop_take, List.take_take, min_eq_left (by omega)] at this
      rw [this, List.getElem?_eq_getElem hlt]

/-- C115, violated: `propagate(start)` does not go on from the element before but from the object again: the row
before, which it overwrites, no longer has the distance travelled. -/
theorem c115_restart_violation (K : Ctx 3 m tb abi) (l n0 pos : ℝ) (sys : List Elem) (rows : List PolyRow)
    (hr : rows.length = sys.length) (hes : ∀ e ∈ sys.drop 1, e.shape ≠ none) (e : Elem) (he : sys[1]? = some e) :
    ∃ a b ra rb, propagateRows abi m l sys (startState n0 pos) rows 1 none = some a ∧
      propagateRows abi m l sys (startState n0 pos) a 2 none = some b ∧
      a[1]? = some ra ∧ b[1]? = some rb ∧ ra.t 0 = e.tf.offset.z - pos ∧ rb.t 0 = 0 := by
  obtain ⟨hlt, -⟩ := List.getElem?_eq_some_iff.mp he
  obtain ⟨a, ha, hal, -, -, h1⟩ := c115_rows (abi := abi) (m := m) l sys (startState n0 pos) rows 1 none le_rfl
    (by omega) (by simp) hr hes
  obtain ⟨b, hb, -, -, ⟨rb, r0, -, h2, -, -, h3, -⟩, -⟩ := c115_rows (abi := abi) (m := m) l sys (startState n0 pos) a 2 none
    (by norm_num) (by omega) (by simp) hal fun e he => hes e (by
      rw [show (2 : ℕ) = 1 + 1 from rfl, ← List.drop_drop] at he
      exact List.mem_of_mem_drop he)
  obtain ⟨ra, st, h4, h5, -, h6, -⟩ := h1 0 hlt (by simp)
  refine ⟨a, b, ra, rb, ha, hb, h4, h2, ?_, by rw [h3]; rfl⟩
  obtain ⟨o1, o2, o3⟩ := start_onAxis n0 pos
  have hes1 : (sys.drop 1).take 1 = [e] := by
    rw [List.drop_eq_getElem_cons hlt, List.take_succ_cons]
    simp [(List.getElem?_eq_some_iff.mp he).2]
  obtain ⟨sh, hsh⟩ := Option.ne_none_iff_exists'.mp (hes e (by
    have : e ∈ (sys.drop 1).take 1 := by rw [hes1]; simp
    exact List.mem_of_mem_take this))
  rw [hes1, tracePoly_cons, stepPoly, hsh, Option.map_some, Option.bind_some] at h5
  have h7 : surfPoly abi m sh (e.material.getD none) e.tf.offset.z l (startState n0 pos) = st := by
    simpa [tracePoly] using h5
  obtain ⟨t1, t2⟩ := transfer_const K e.tf.offset.z (startState n0 pos) o1 o2 o3
  obtain ⟨i1, i2, i3⟩ := intercept_const (m := m) K sh e.tf.offset.z t1 o2 t2
  obtain ⟨-, ⟨-, d6⟩, -⟩ := refract_const K _ e.tf.offset.z
    (Elem.getNMu (e.material.getD none) (startState n0 pos).n l).1
    (Elem.getNMu (e.material.getD none) (startState n0 pos).n l).2 (startState n0 pos)
    o2 o1 o3 i1 i2 (st' := st) h7.symm
  rw [h6, d6]
  simp [startState, shift]

/-- The power of the pupil coordinates in a term `r^i p^j k^l x` or `r^i p^j k^l u`. -/
def NameLine.pupil (x : NameLine) : ℕ :=
  2 * x.expo.getD 0 0 + x.expo.getD 2 0 + if x.letter = 's' then 1 else 0

/-- The power of the field. -/
def NameLine.field (x : NameLine) : ℕ :=
  2 * x.expo.getD 1 0 + x.expo.getD 2 0 + if x.letter = 's' then 0 else 1

/-- The polynomials have nine terms of third and fifth order from `kmax = 3` on. -/
theorem low_terms (K : Ctx 3 m tb abi) (hm : 3 ≤ m) : ∃ rest, tb.jdx = [[0, 0, 0], [1, 0, 0], [0, 1, 0], [0, 0, 1],
    [2, 0, 0], [1, 1, 0], [1, 0, 1], [0, 2, 0], [0, 1, 1], [0, 0, 2]] ++ rest := by
  obtain ⟨n, rfl⟩ := Nat.exists_eq_add_of_le hm
  have e : simplexIter 3 (3 + n) = simplexIter 3 3 ++
      ((List.range n).map (3 + ·)).flatMap (fun i =>
        (simplexIter 2 (i + 1)).map fun j => (i - j.sum) :: j) := by
    simp only [simplexIter]
    rw [List.range_add, List.flatMap_append]
  rw [K.good.jdx, e]
  exact ⟨_, congrArg (· ++ _) (by decide +kernel)⟩

/-- C115: `print_names` prints eighteen lines: every term of third and fifth order once, with its position, its
exponents and the coefficient of that term. -/
theorem c115_terms (K : Ctx 3 m tb abi) (hm : 3 ≤ m) (s t : Co) :
    (printNames tb s t).length = 18 ∧
    (∀ x ∈ printNames tb s t, (x.letter = 's' ∨ x.letter = 't') ∧ tb.jdx[x.pos]? = some x.expo ∧
      (x.expo.sum = 1 ∨ x.expo.sum = 2) ∧ x.value = (if x.letter = 's' then s else t) x.pos) ∧
    ∀ e ∈ tb.jdx, e.sum = 1 ∨ e.sum = 2 → ∀ c, c = 's' ∨ c = 't' →
      ((printNames tb s t).filter fun x => x.letter = c ∧ x.expo = e).length = 1 := by
  obtain ⟨rest, hj⟩ := low_terms K hm
  have hi : ∀ j p, tb.jdx[j]? = some p → tb.idx p = j := fun j p h => K.good.idx j p (by rw [← K.good.jdx]; exact h)
  have i1 := hi 1 [1, 0, 0] (by rw [hj]; rfl)
  have i2 := hi 2 [0, 1, 0] (by rw [hj]; rfl)
  have i3 := hi 3 [0, 0, 1] (by rw [hj]; rfl)
  have i4 := hi 4 [2, 0, 0] (by rw [hj]; rfl)
  have i5 := hi 5 [1, 1, 0] (by rw [hj]; rfl)
  have i6 := hi 6 [1, 0, 1] (by rw [hj]; rfl)
  have i7 := hi 7 [0, 2, 0] (by rw [hj]; rfl)
  have i8 := hi 8 [0, 1, 1] (by rw [hj]; rfl)
  have i9 := hi 9 [0, 0, 2] (by rw [hj]; rfl)
  have hp : printNames tb s t = nameLines tb.idx s t 1 termNames ([[1, 0, 0], [0, 1, 0], [0, 0, 1],
    [2, 0, 0], [1, 1, 0], [1, 0, 1], [0, 2, 0], [0, 1, 1], [0, 0, 2]] ++ rest) := by rw [printNames, hj]; rfl
  rw [hp]
  simp only [termNames, nameLines, List.cons_append, List.nil_append, i1, i2, i3, i4, i5, i6, i7, i8, i9]
  refine ⟨rfl, ?_, ?_⟩
  · rw [hj]
    simp
  · intro e he hs c hc
    have hlen := ((K.good.mem e).mp (by rw [← K.good.jdx]; exact he)).1
    obtain ⟨a, b, d, rfl⟩ : ∃ a b d, e = [a, b, d] := by
      match e, hlen with
      | [a, b, d], _ => exact ⟨a, b, d, rfl⟩
    simp only [List.sum_cons, List.sum_nil] at hs
    have ha : a ≤ 2 := by omega
    have hb : b ≤ 2 := by omega
    have hd : d ≤ 2 := by omega
    rcases hc with rfl | rfl <;> interval_cases a <;> interval_cases b <;> interval_cases d <;>
      first | omega | simp

/-- C115: the names tell the powers of pupil and field: spherical aberration does not depend on the field, coma
is linear in it, distortion does not depend on the pupil, field curvature is linear in it; oblique spherical
aberration is of third order in the pupil and second in the field, elliptical coma the other way round. -/
theorem c115_names (K : Ctx 3 m tb abi) (hm : 3 ≤ m) (s t : Co) : ∀ x ∈ printNames tb s t,
    (x.field = 0 ↔ x.name = "spherical aberration") ∧
    (x.field = 1 ↔ x.name ∈ ["sagittal coma", "meridional coma", "circular coma"]) ∧
    (x.pupil = 0 ↔ x.name = "distortion") ∧
    (x.pupil = 1 ↔ x.name ∈ ["field curvature", "meridional field curvature"]) ∧
    (x.pupil = 3 ∧ x.field = 2 ↔
      x.name ∈ ["oblique spherical aberration", "sagittal oblique spherical aberration"]) ∧
    (x.pupil = 2 ∧ x.field = 3 ↔ x.name ∈ ["sagittal elliptical coma", "meridional elliptical coma"]) := by
  obtain ⟨rest, hj⟩ := low_terms K hm
  have hp : printNames tb s t = nameLines tb.idx s t 1 termNames ([[1, 0, 0], [0, 1, 0], [0, 0, 1],
    [2, 0, 0], [1, 1, 0], [1, 0, 1], [0, 2, 0], [0, 1, 1], [0, 0, 2]] ++ rest) := by rw [printNames, hj]; rfl
  rw [hp]
  simp only [termNames, nameLines, List.cons_append, List.nil_append]
  simp [NameLine.pupil, NameLine.field]

/-- C115, violated: a name does not tell the term: two terms of fifth order of the same polynomial have the same
name, once in `s` and once in `t`. -/
theorem c115_twice_violation (K : Ctx 3 m tb abi) (hm : 3 ≤ m) (s t : Co) (c : Char) (hc : c = 's' ∨ c = 't') :
    ∃ x ∈ printNames tb s t, ∃ y ∈ printNames tb s t, x.letter = c ∧ y.letter = c ∧ x.name = y.name ∧
      x.expo = [1, 1, 0] ∧ y.expo = [0, 0, 2] := by
  obtain ⟨rest, hj⟩ := low_terms K hm
  have hp : printNames tb s t = nameLines tb.idx s t 1 termNames ([[1, 0, 0], [0, 1, 0], [0, 0, 1],
    [2, 0, 0], [1, 1, 0], [1, 0, 1], [0, 2, 0], [0, 1, 1], [0, 0, 2]] ++ rest) := by rw [printNames, hj]; rfl
  rw [hp]
  simp only [termNames, nameLines, List.cons_append, List.nil_append]
  rcases hc with rfl | rfl
  · exact ⟨⟨'s', tb.idx [1, 1, 0], [1, 1, 0], "sagittal oblique spherical aberration", s 5⟩, by simp,
      ⟨'s', tb.idx [0, 0, 2], [0, 0, 2], "sagittal oblique spherical aberration", s 9⟩, by simp, by simp⟩
  · exact ⟨⟨'t', tb.idx [1, 1, 0], [1, 1, 0], "meridional elliptical coma", t 5⟩, by simp,
      ⟨'t', tb.idx [0, 0, 2], [0, 0, 2], "meridional elliptical coma", t 9⟩, by simp, by simp⟩

theorem flatten_blocks {α : Type*} (B : ℕ) : ∀ bs : List (List α), (∀ b ∈ bs, b.length = B) →
    bs.flatten.length = B * bs.length ∧ ∀ i b k, bs[i]? = some b → k < B → bs.flatten[B * i + k]? = b[k]? := by
  intro bs
  induction bs with
  | nil => intro _; simp
  | cons a bs ih =>
    intro h
    obtain ⟨h1, h2⟩ := ih fun b hb => h b (List.mem_cons_of_mem _ hb)
    have ha := h a (by simp)
    refine ⟨by rw [List.flatten_cons, List.length_append, h1, ha, List.length_cons]; ring, fun i b k hb hk => ?_⟩
    rw [List.flatten_cons]
    cases i with
    | zero =>
      obtain rfl : a = b := by simpa using hb
      rw [Nat.mul_zero, Nat.zero_add, List.getElem?_append_left (by omega)]
    | succ i =>
      rw [show B * (i + 1) + k = a.length + (B * i + k) by rw [ha]; ring, List.getElem?_append_right (by omega),
        Nat.add_sub_cancel_left]
      exact h2 i b k (by simpa using hb) hk

theorem mapM_ok {α β ε : Type} (f : α → Except ε β) (g : α → β) : ∀ l : List α, (∀ a ∈ l, f a = .ok (g a)) →
    l.mapM f = .ok (l.map g) := by
  intro l
  induction l with
  | nil => intro _; rfl
  | cons a l ih =>
    intro h
    rw [List.mapM_cons, h a (by simp), ih fun b hb => h b (List.mem_cons_of_mem _ hb)]
    rfl

theorem mapM_error {α β ε : Type} (f : α → Except ε β) : ∀ l : List α, (∃ a ∈ l, ∃ e, f a = .error e) →
    ∃ e, l.mapM f = .error e := by
  intro l
  induction l with
  | nil => intro h; simp at h
  | cons a l ih =>
    intro h
    rw [List.mapM_cons]
    cases hf : f a with
    | error e => exact ⟨e, rfl⟩
    | ok b =>
      obtain ⟨a', ha', e, he⟩ := h
      obtain ⟨e', he'⟩ := ih (by
        rcases List.mem_cons.mp ha' with rfl | h'
        · rw [hf] at he; cases he
        · exact ⟨a', h', e, he⟩)
      exact ⟨e', by rw [he']; rfl⟩

theorem filter_zipIdx {α : Type*} (P : α → Bool) (l : List α) (n : ℕ) :
    ((l.zipIdx n).filter fun x => P x.1).map Prod.fst = l.filter P := by
  induction l generalizing n with
  | nil => rfl
  | cons a l ih =>
    rw [List.zipIdx_cons, List.filter_cons, List.filter_cons]
    cases P a <;> simp [ih]

/-- C115: `print_trace` prints one block for each component: a title, the numbers of the elements, a line for each
term of degree below the cutoff in the order of the table, and an empty line.  The line has the position of the
term, its exponents, and its coefficients at the elements. -/
theorem c115_trace (G : Simplex.Good 3 m tb) (rows : List PolyRow) (cs : List Char) (hc : ∀ c ∈ cs, c ∈ "stvwof".toList)
    (els : List ℕ) (hels : ∀ x ∈ els, x < rows.length) (cutoff : Option ℕ) :
    ∃ out, printPolyTrace tb rows cs (some els) cutoff = .ok out ∧
      let keep := tb.jdx.filter fun e => cutoff.all fun k => e.sum < k
      out.length = (keep.length + 3) * cs.length ∧
      ∀ (i : ℕ) (c : Char), cs[i]? = some c →
        out[(keep.length + 3) * i]? = some (.title c.toUpper) ∧
        out[(keep.length + 3) * i + 1]? = some (.columns els) ∧
        out[(keep.length + 3) * i + keep.length + 2]? = some .blank ∧
        ∀ (k : ℕ) (e : List ℕ), keep[k]? = some e → ∃ pos vals, out[(keep.length + 3) * i + k + 2]? = some (.term pos e vals) ∧
          tb.jdx[pos]? = some e ∧ vals.length = els.length ∧
          ∀ x j : ℕ, els[x]? = some j → ∃ r : PolyRow, rows[j]? = some r ∧
            ∃ p ∈ [(('s', r.s) : Char × Co), ('t', r.t), ('v', r.v), ('w', r.w), ('o', r.o), ('f', r.f)],
              p.1 = c ∧ vals[x]? = some (p.2 pos) := by
  set P : List ℕ → Bool := fun e => cutoff.all fun k => decide (e.sum < k) with hP
  set kept := tb.jdx.zipIdx.filter (fun ej => P ej.1) with hkept
  set block : Char → List PolyLine := fun c => .title c.toUpper :: .columns els ::
    kept.map (fun ej => .term (tb.idx ej.1) ej.1
      (els.map fun x => ((rows.map ((PolyRow.part c).getD PolyRow.s)).getD x 0) ej.2)) ++ [.blank] with hblock
  have hmap : kept.map Prod.fst = tb.jdx.filter P := filter_zipIdx P tb.jdx 0
  have hlen : kept.length = (tb.jdx.filter P).length := by rw [← hmap, List.length_map]
  have hpart : ∀ c ∈ cs, ∃ p, PolyRow.part c = some p := by
    intro c h
    have := hc c h
    simp only [String.toList] at this
    fin_cases this <;> exact ⟨_, rfl⟩
  have hok : ∀ c ∈ cs, printPart tb rows els cutoff c = .ok (block c) := by
    intro c h
    obtain ⟨p, hp⟩ := hpart c h
    rw [printPart, hp]
    dsimp only
    rw [if_pos (by simpa using hels)]
    simp only [hblock, hp, Option.getD_some, hkept, hP]
    congr 4
    cases cutoff <;> rfl
  have hB : ∀ b ∈ cs.map block, b.length = (tb.jdx.filter P).length + 3 := by
    intro b hb
    obtain ⟨c, -, rfl⟩ := List.mem_map.mp hb
    simp [hblock, hlen]
  obtain ⟨f1, f2⟩ := flatten_blocks _ _ hB
  refine ⟨(cs.map block).flatten, ?_, ?_⟩
  · rw [printPolyTrace]
    dsimp only [Option.getD_some]
    rw [mapM_ok _ block cs hok]
    rfl
  · dsimp only
    rw [f1, List.length_map]
    refine ⟨rfl, fun i c hi => ?_⟩
    have hb : (cs.map block)[i]? = some (block c) := by rw [List.getElem?_map, hi]; rfl
    have hci := List.mem_of_getElem? hi
    refine ⟨?_, ?_, ?_, fun k e hk => ?_⟩
    · exact (f2 i _ 0 hb (by omega)).trans rfl
    · exact (f2 i _ 1 hb (by omega)).trans rfl
    · refine (f2 i _ ((tb.jdx.filter P).length + 2) hb (by omega)).trans ?_
      simp [hblock, ← hlen]
    · have hk' : k < kept.length := by
        rw [hlen]; exact (List.getElem?_eq_some_iff.mp hk).1
      rw [← hmap, List.getElem?_map, List.getElem?_eq_getElem hk'] at hk
      obtain rfl : kept[k].1 = e := by simpa using hk
      have hmem : kept[k] ∈ tb.jdx.zipIdx := List.mem_of_mem_filter (List.getElem_mem hk')
      have hpos : tb.jdx[kept[k].2]? = some kept[k].1 := by
        have := List.mk_mem_zipIdx_iff_getElem?.mp hmem
        exact this
      have hidx : tb.idx kept[k].1 = kept[k].2 := G.idx _ _ (by rw [← G.jdx]; exact hpos)
      refine ⟨tb.idx kept[k].1, els.map fun x => ((rows.map ((PolyRow.part c).getD PolyRow.s)).getD x 0) kept[k].2,
        ?_, by rw [hidx]; exact hpos, by simp, fun x j hx => ?_⟩
      · refine (f2 i _ (k + 2) hb (by omega)).trans ?_
        simp only [hblock, List.cons_append, List.getElem?_cons_succ]
        rw [List.getElem?_append_left (by simpa using hk'), List.getElem?_map, List.getElem?_eq_getElem hk']
        rfl
      · have hj := hels j (List.mem_of_getElem? hx)
        refine ⟨rows[j], List.getElem?_eq_getElem hj, ?_⟩
        have hin := hc c hci
        have hg : ∀ q : PolyRow → Co, (rows.map q).getD j 0 = q rows[j] := fun q => by simp [hj]
        rw [hidx, List.getElem?_map, hx, Option.map_some, hg]
        have hin' : c = 's' ∨ c = 't' ∨ c = 'v' ∨ c = 'w' ∨ c = 'o' ∨ c = 'f' := by simpa using hin
        rcases hin' with rfl | rfl | rfl | rfl | rfl | rfl <;> simp [PolyRow.part]

/-- C115: a component of another name, or an element that does not exist, is an error. -/
theorem c115_trace_errors (rows : List PolyRow) (cs : List Char) (els : List ℕ) (cutoff : Option ℕ)
    (h : (∃ c ∈ cs, c ∉ "stvwof".toList) ∨ (cs ≠ [] ∧ ∃ x ∈ els, rows.length ≤ x)) :
    ∃ e, printPolyTrace tb rows cs (some els) cutoff = .error e := by
  have key : ∃ c ∈ cs, ∃ e, printPart tb rows els cutoff c = .error e := by
    rcases h with ⟨c, hc, h⟩ | ⟨hne, x, hx, h⟩
    · refine ⟨c, hc, .value, ?_⟩
      have : PolyRow.part c = none := by
        unfold PolyRow.part
        split <;> first | rfl | (exfalso; apply h; decide)
      rw [printPart, this]
    · obtain ⟨c, hc⟩ := List.exists_mem_of_ne_nil _ hne
      refine ⟨c, hc, ?_⟩
      rw [printPart]
      cases PolyRow.part c with
      | none => exact ⟨_, rfl⟩
      | some p =>
        refine ⟨.index, if_neg ?_⟩
        simp only [List.all_eq_true, decide_eq_true_eq, not_forall]
        exact ⟨x, hx, by omega⟩
  obtain ⟨e, he⟩ := mapM_error _ cs key
  refine ⟨e, ?_⟩
  rw [printPolyTrace]
  dsimp only [Option.getD_some]
  rw [he]
  rfl

/-- C115: if no elements are given, all but the first are printed. -/
theorem c115_all_elements (rows : List PolyRow) (cs : List Char) (cutoff : Option ℕ) :
    ∃ els : List ℕ, printPolyTrace tb rows cs none cutoff = printPolyTrace tb rows cs (some els) cutoff ∧
      els.Pairwise (· < ·) ∧ ∀ x, x ∈ els ↔ 0 < x ∧ x < rows.length := by
  refine ⟨(List.range (rows.length - 1)).map (· + 1), rfl, ?_, fun x => ?_⟩
  · rw [List.pairwise_map]
    exact List.pairwise_lt_range.imp fun h => by omega
  · simp only [List.mem_map, List.mem_range]
    constructor
    · rintro ⟨a, h, rfl⟩; omega
    · intro h; exact ⟨x - 1, by omega, by omega⟩

theorem transform_ray (K : Ctx 3 m tb abi) (hm : 2 ≤ m) (hw : SmallMultinom 3 m) :
    ∃ N, ∀ fuel ≥ N, ∀ (pr ps os orad : ℝ) (s t : Co), ∃ b,
      transformST fuel tb (conjugateParams pr ps os orad) s t = some b ∧ ∀ xy ab,
        evaluateST tb.jdx b.1 b.2 xy ab = rayPoint tb.jdx s t (evalRay pr ps os orad xy ab) := by
  obtain ⟨N, hN⟩ := c71_evaluate K.fits hm hw (simplexIdx_some K.idx).1
  refine ⟨N, fun fuel hf pr ps os orad s t => ?_⟩
  obtain ⟨b, h1, -⟩ := hN fuel hf pr ps os orad s t (0, 0) (0, 0)
  refine ⟨b, h1, fun xy ab => ?_⟩
  obtain ⟨b', h2, h3, h4⟩ := hN fuel hf pr ps os orad s t xy ab
  obtain rfl : b = b' := Option.some.inj (h1.symm.trans h2)
  unfold evalRay
  split
  · next h => exact h4 h
  · next h => exact h3 (not_lt.mp h)

/-- C115: a trace that has just been made for a finite object evaluates at every element, counted from the front or
from the back, the polynomials of that element. -/
theorem c115_fresh (K : Ctx 3 m tb abi) (hm : 2 ≤ m) (hw : SmallMultinom 3 m) : ∃ N, ∀ fuel ≥ N,
    ∀ (pr ps os orad : ℝ) (rows : List PolyRow), rows ≠ [] →
      ∃ o, PolyObj.init fuel tb (some (conjugateParams pr ps os orad)) rows = some o ∧
        ∀ (j : ℕ) (r : PolyRow), rows[j]? = some r → ∀ i : ℤ, i = j ∨ i = j - rows.length →
          ∃ b, o.st fuel tb (some (conjugateParams pr ps os orad)) i = some b ∧ ∀ xy ab,
            evaluateST tb.jdx b.1 b.2 xy ab = rayPoint tb.jdx r.s r.t (evalRay pr ps os orad xy ab) := by
  obtain ⟨N, hN⟩ := transform_ray K hm hw
  refine ⟨N, fun fuel hf pr ps os orad rows hne => ?_⟩
  have get : ∀ (j : ℕ) (r : PolyRow), rows[j]? = some r → ∀ i : ℤ, i = j ∨ i = j - rows.length →
      Glass.pyGet? rows i = some r := by
    intro j r hr i hi
    have hj := (List.getElem?_eq_some_iff.mp hr).1
    unfold Glass.pyGet?
    rcases hi with rfl | rfl
    · rw [if_pos (by omega), Int.toNat_natCast, hr]
    · rw [if_neg (by omega), if_pos (by omega), show ((j : ℤ) - rows.length + rows.length).toNat = j by omega, hr]
  have hpos : 0 < rows.length := List.length_pos_iff.mpr hne
  obtain ⟨bl, hl1, hl2⟩ := hN fuel hf pr ps os orad rows[rows.length - 1].s rows[rows.length - 1].t
  have hlast := get (rows.length - 1) _ (List.getElem?_eq_getElem (by omega)) (-1) (.inr (by omega))
  refine ⟨⟨rows, some bl⟩, ?_, fun j r hr i hi => ?_⟩
  · simp only [PolyObj.init, PolyObj.transform, hlast, Option.bind_some, hl1, Option.map_some]
  · simp only [PolyObj.st]
    by_cases h : i = -1
    · rw [if_pos h]
      have := get j r hr i hi
      rw [h, hlast] at this
      cases this
      exact ⟨bl, rfl, hl2⟩
    · rw [if_neg h]
      obtain ⟨b, h1, h2⟩ := hN fuel hf pr ps os orad r.s r.t
      exact ⟨b, by simp only [PolyObj.transform, get j r hr i hi, Option.bind_some, h1], h2⟩

/-- C115, violated: after the trace has been propagated again, `st()` and so `evaluate` and the printed
coefficients are still those of the old last element, while the same element counted from the front is new. -/
theorem c115_stale_violation (K : Ctx 3 m tb abi) (hm : 2 ≤ m) (hw : SmallMultinom 3 m) : ∃ N, ∀ fuel ≥ N,
    ∀ (pr ps os orad : ℝ) (old new : List PolyRow) (r r' : PolyRow), old.getLast? = some r → new.getLast? = some r' →
      ∃ o, PolyObj.init fuel tb (some (conjugateParams pr ps os orad)) old = some o ∧
        ∃ b b', (o.refill new).st fuel tb (some (conjugateParams pr ps os orad)) (-1) = some b ∧
          (o.refill new).st fuel tb (some (conjugateParams pr ps os orad)) (new.length - 1 : ℕ) = some b' ∧ ∀ xy ab,
            evaluateST tb.jdx b.1 b.2 xy ab = rayPoint tb.jdx r.s r.t (evalRay pr ps os orad xy ab) ∧
            evaluateST tb.jdx b'.1 b'.2 xy ab = rayPoint tb.jdx r'.s r'.t (evalRay pr ps os orad xy ab) := by
  obtain ⟨N, hN⟩ := transform_ray K hm hw
  refine ⟨N, fun fuel hf pr ps os orad old new r r' ho hn => ?_⟩
  obtain ⟨b, h1, h2⟩ := hN fuel hf pr ps os orad r.s r.t
  obtain ⟨b', h3, h4⟩ := hN fuel hf pr ps os orad r'.s r'.t
  rw [List.getLast?_eq_getElem?] at ho hn
  have hlo := (List.getElem?_eq_some_iff.mp ho).1
  have g1 : Glass.pyGet? old (-1) = some r := by
    unfold Glass.pyGet?
    rw [if_neg (by omega), if_pos (by omega), show (-1 + (old.length : ℤ)).toNat = old.length - 1 by omega, ho]
  have g2 : Glass.pyGet? new ((new.length - 1 : ℕ) : ℤ) = some r' := by
    unfold Glass.pyGet?
    rw [if_pos (by omega), Int.toNat_natCast, hn]
  refine ⟨⟨old, some b⟩, by simp only [PolyObj.init, PolyObj.transform, g1, Option.bind_some, h1, Option.map_some],
    b, b', by simp [PolyObj.st, PolyObj.refill], ?_, fun xy ab => ⟨h2 xy ab, h4 xy ab⟩⟩
  simp only [PolyObj.st, PolyObj.refill]
  rw [if_neg (by omega), PolyObj.transform, g2, Option.bind_some, h3]

theorem eval_const (K : Ctx 3 m tb abi) (hm : 3 ≤ m) (a : ℝ) (w : StartRay) :
    Simplex.eval tb.jdx (shift 0 a) w.vars = some a := by
  obtain ⟨rest, hj⟩ := low_terms K hm
  have h := eval_spec K.good (by omega) (shift 0 a) ![w.x.1 ^ 2 + w.x.2 ^ 2, w.u.1 ^ 2 + w.u.2 ^ 2,
    w.x.1 * w.u.1 + w.x.2 * w.u.2]
  refine Eq.trans ?_ (h.trans ?_)
  · simp [StartRay.vars, List.ofFn_succ]
  · congr 1
    rw [toPoly, map_sum, Finset.sum_eq_single 0]
    · rw [hj]
      simp [shift, MvPolynomial.eval_monomial, Finsupp.prod_fintype, Fin.prod_univ_three, expo]
    · intro i _ hi
      simp [shift, hi]
    · intro h0
      rw [hj] at h0
      simp at h0

/-- The two points of `c115_stale_violation` differ, for instance for the start plane and a plane at distance five. -/
example (K : Ctx 3 3 tb abi) (w : StartRay) (hu : w.u.1 ≠ 0) :
    rayPoint tb.jdx (shift 0 1) (shift 0 0) w ≠ rayPoint tb.jdx (shift 0 1) (shift 0 5) w := by
  simp only [rayPoint, eval_const K le_rfl, Option.bind_some, Option.map_some, ne_eq, Option.some.injEq, Prod.mk.injEq,
    not_and_or]
  exact .inl fun h => hu (by linarith)

/-- The hypotheses can be met. -/
example : ∃ tb abi, Ctx 3 3 tb abi ∧ ∃ out, propagateRows abi 3 1 (exSurf 0 0 none none :: exLens) (startState 1 0)
    (List.replicate 4 (.of (startState 1 0) 1)) 1 (some 3) = some out ∧ out.length = 4 := by
  have hf : Fits 3 3 := ⟨by norm_num, by norm_num, by decide +kernel⟩
  obtain ⟨tb, abi, h, -⟩ := c45_three_variables 3 hf
  obtain ⟨out, h1, h2, -⟩ := c115_rows (abi := abi) (m := 3) 1 (exSurf 0 0 none none :: exLens) (startState 1 0)
    (List.replicate 4 (.of (startState 1 0) 1)) 1 (some 3) le_rfl (by simp) (by simp) (by simp [exLens]) (by simp [exLens, exSurf])
  exact ⟨tb, abi, ⟨hf, h⟩, out, h1, by rw [h2]; rfl⟩

example (K : Ctx 3 3 tb abi) (r : PolyRow) :=
  c115_trace K.good [r, r, r] ['s', 't', 'o'] (by decide) [1, 2] (by simp) (some 2)

example (K : Ctx 3 3 tb abi) (s t : Co) := (c115_terms K le_rfl s t).1

example (r : PolyRow) := c115_trace_errors (tb := tb) [r, r] ['s', 'x'] [1] none (.inl ⟨'x', by simp, by decide⟩)

end

end RayOpt.Poly
