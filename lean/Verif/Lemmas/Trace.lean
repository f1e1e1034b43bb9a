import Verif.Model.Trace
import Mathlib.Tactic.Linarith

/-! Helper lemmas about the tracing loops. -/

namespace RayOpt

open Elem Sys

theorem pyBound_le (n : ℕ) (i : ℤ) : pyBound n i ≤ n := by
  unfold pyBound; split <;> omega

theorem pyBound_nat (n i : ℕ) (h : i ≤ n) : pyBound n (i : ℤ) = i := by
  unfold pyBound; split <;> omega

namespace Sys

theorem writeRows_length {α : Type*} (arr : List α) (s : ℕ) (xs : List α) :
    (writeRows arr s xs).length = arr.length := by
  induction xs generalizing arr s with
  | nil => rfl
  | cons x xs ih => rw [writeRows, ih]; simp

/-- What the enumerate loop leaves in the array. -/
theorem writeRows_get {α : Type*} (arr : List α) (s : ℕ) (xs : List α) (j : ℕ) :
    (writeRows arr s xs)[j]? =
      if j < arr.length ∧ s ≤ j ∧ j < s + xs.length then xs[j - s]? else arr[j]? := by
  induction xs generalizing arr s with
  | nil =>
    have : ¬ (j < arr.length ∧ s ≤ j ∧ j < s + ([] : List α).length) := by simp only [List.length_nil]; omega
    rw [writeRows, if_neg this]
  | cons x xs ih =>
    rw [writeRows, ih]
    simp only [List.length_set, List.length_cons]
    by_cases h1 : j < arr.length
    · by_cases h2 : j = s
      · subst h2
        have : ¬ (j < arr.length ∧ j + 1 ≤ j ∧ j < j + 1 + xs.length) := by omega
        rw [if_neg this, if_pos (by omega)]
        simp [h1]
      · by_cases h3 : s + 1 ≤ j ∧ j < s + 1 + xs.length
        · rw [if_pos ⟨h1, h3⟩, if_pos (by omega)]
          have : j - s = (j - (s + 1)) + 1 := by omega
          rw [this, List.getElem?_cons_succ]
        · rw [if_neg (by tauto), if_neg (by omega)]
          rw [List.getElem?_set_ne (by omega)]
    · rw [if_neg (by tauto), if_neg (by tauto)]
      rw [List.getElem?_eq_none (by simp; omega), List.getElem?_eq_none (by omega)]

variable (nwt : Shape.NewtonFn) (l : ℝ) (clp : Bool)

theorem rows_length (es : List Elem) (r : Ray) : (rows nwt l clp es r).length = es.length := by
  induction es generalizing r with
  | nil => rfl
  | cons e es ih => simp [rows, ih]

theorem rayOfRow_step (e : Elem) (r : Ray) :
    rayOfRow e (step nwt l clp e r).1 = (step nwt l clp e r).2 := rfl

/-- The first row comes from the initial ray. -/
theorem rows_zero (es : List Elem) (r : Ray) (e : Elem) (h : es[0]? = some e) :
    (rows nwt l clp es r)[0]? = some (step nwt l clp e r).1 := by
  cases es with
  | nil => simp at h
  | cons e' es => simp at h; subst h; simp [rows]

/-- Every later row comes from the row before it. -/
theorem rows_succ (es : List Elem) (r : Ray) (j : ℕ) (e e' : Elem) (x : Row)
    (he : es[j]? = some e) (he' : es[j + 1]? = some e')
    (hx : (rows nwt l clp es r)[j]? = some x) :
    (rows nwt l clp es r)[j + 1]? = some (step nwt l clp e' (rayOfRow e x)).1 := by
  induction es generalizing r j with
  | nil => simp at he
  | cons a es ih =>
    rw [rows] at hx ⊢
    cases j with
    | zero =>
      simp only [List.getElem?_cons_zero, Option.some.injEq] at he hx
      subst he hx
      simp only [List.getElem?_cons_succ] at he' ⊢
      rw [rayOfRow_step]
      exact rows_zero nwt l clp es _ e' (by simpa using he')
    | succ j =>
      simp only [List.getElem?_cons_succ] at he he' hx ⊢
      exact ih _ _ he he' hx

theorem pySlice_get {α : Type*} (sys : List α) (s : ℕ) (hs : s ≤ sys.length)
    (stop : Option ℤ) (j : ℕ) :
    (pySlice sys s stop)[j]? = if s + j < pyStop sys.length stop then sys[s + j]? else none := by
  unfold pySlice
  rw [pyBound_nat _ _ hs]
  simp only [List.getElem?_drop, List.getElem?_take]

theorem pyStop_le (n : ℕ) (stop : Option ℤ) : pyStop n stop ≤ n := by
  cases stop
  · exact le_refl _
  · exact pyBound_le _ _

theorem pySlice_length {α : Type*} (sys : List α) (s : ℕ) (hs : s ≤ sys.length)
    (stop : Option ℤ) :
    (pySlice sys s stop).length = pyStop sys.length stop - s := by
  unfold pySlice
  rw [pyBound_nat _ _ hs]
  have := pyStop_le sys.length stop
  simp only [List.length_drop, List.length_take]
  omega

/-- Characterisation of `GeometricTrace.propagate`: the rows before `start` and from `stop` on are
left alone, every other row is one propagation step from the row before it. -/
theorem gtPropagate_spec {sys : List Elem} {start : ℕ} {stop : Option ℤ} {arr out : List Row}
    (hlen : arr.length = sys.length) (hs : 1 ≤ start)
    (h : gtPropagate nwt sys l clp start stop arr = some out) :
    out.length = sys.length ∧
    (∀ j, (j < start ∨ pyStop sys.length stop ≤ j) → out[j]? = arr[j]?) ∧
    ∀ j e e' x, start ≤ j + 1 → j + 1 < pyStop sys.length stop →
      sys[j]? = some e → sys[j + 1]? = some e' → out[j]? = some x →
      out[j + 1]? = some (step nwt l clp e' (rayOfRow e x)).1 := by
  unfold gtPropagate at h
  split at h
  · rename_i e0 r0 he0 hr0
    simp only [Option.some.injEq] at h
    have hlt : start - 1 < sys.length := (List.getElem?_eq_some_iff.mp he0).1
    have hsl : start ≤ sys.length := by omega
    have hb := pyStop_le sys.length stop
    have hrl : (propagate nwt sys (rayOfRow e0 r0) l start stop clp).length =
        pyStop sys.length stop - start := by
      unfold propagate; rw [rows_length, pySlice_length _ _ hsl]
    have hget : ∀ j, out[j]? = if start ≤ j ∧ j < pyStop sys.length stop then
        (propagate nwt sys (rayOfRow e0 r0) l start stop clp)[j - start]? else arr[j]? := by
      intro j
      rw [← h, writeRows_get, hrl]
      by_cases hj : start ≤ j ∧ j < pyStop sys.length stop
      · rw [if_pos hj, if_pos (by omega)]
      · rw [if_neg hj, if_neg (by omega)]
    refine ⟨by rw [← h, writeRows_length, hlen], ?_, ?_⟩
    · intro j hj
      rw [hget, if_neg (by omega)]
    · intro j e e' x hj1 hj2 he he' hx
      rw [hget, if_pos ⟨hj1, hj2⟩]
      rw [hget] at hx
      unfold propagate at hx ⊢
      by_cases hj : start ≤ j
      · rw [if_pos ⟨hj, by omega⟩] at hx
        have : j + 1 - start = (j - start) + 1 := by omega
        rw [this]
        apply rows_succ nwt l clp _ _ _ e e' x _ _ hx
        · rw [pySlice_get _ _ hsl, if_pos (by omega)]
          rw [show start + (j - start) = j by omega]; exact he
        · rw [pySlice_get _ _ hsl, if_pos (by omega)]
          rw [show start + (j - start + 1) = j + 1 by omega]; exact he'
      · have hj' : j = start - 1 := by omega
        subst hj'
        rw [if_neg (by omega), hr0] at hx
        rw [he0] at he
        cases hx; cases he
        rw [show start - 1 + 1 - start = 0 by omega]
        apply rows_zero
        rw [pySlice_get _ _ hsl, if_pos (by omega)]
        rw [show start + 0 = start - 1 + 1 by omega]; exact he'
  · cases h

/-- Two arrays that satisfy the same recursion from the same start row agree. -/
theorem trace_unique {sys : List Elem} {a b : List Row} {s t : ℕ}
    (hs : 1 ≤ s) (ht : t ≤ sys.length) (ha : a.length = sys.length) (hb : b.length = sys.length)
    (h0 : a[s - 1]? = b[s - 1]?)
    (hra : ∀ j e e' x, s ≤ j + 1 → j + 1 < t → sys[j]? = some e → sys[j + 1]? = some e' →
      a[j]? = some x → a[j + 1]? = some (step nwt l clp e' (rayOfRow e x)).1)
    (hrb : ∀ j e e' x, s ≤ j + 1 → j + 1 < t → sys[j]? = some e → sys[j + 1]? = some e' →
      b[j]? = some x → b[j + 1]? = some (step nwt l clp e' (rayOfRow e x)).1) :
    ∀ j, s ≤ j → j < t → a[j]? = b[j]? := by
  intro j hj hjt
  induction j with
  | zero => omega
  | succ j ih =>
    have hab : a[j]? = b[j]? := by
      by_cases h : s ≤ j
      · exact ih h (by omega)
      · rw [show j = s - 1 by omega]; exact h0
    have hjl : j < sys.length := by omega
    have hx : a[j]? = some (a[j]'(by omega)) := List.getElem?_eq_getElem _
    rw [hra j _ _ _ hj hjt (List.getElem?_eq_getElem hjl)
      (List.getElem?_eq_getElem (by omega)) hx]
    rw [hab] at hx
    rw [hrb j _ _ _ hj hjt (List.getElem?_eq_getElem hjl)
      (List.getElem?_eq_getElem (by omega)) hx]

end Sys

end RayOpt
