import Verif.Model.Tables
import Verif.Props.FirstOrder
import Verif.Props.System

/-!
C102: what systems and traces print about their elements: one line per element with the values of that
element under the right labels, and sums that are the sums of the columns; the stop.
-/

namespace RayOpt.Tables

open Sys

theorem coeffRows_ok (letters : List Char) (n : ℕ) : ∀ (coeff : List (List ℝ)) (i : ℕ),
    (∀ a ∈ coeff, a.length = n) → i + coeff.length ≤ letters.length →
    ∃ out, coeffRows letters n i coeff = .ok out ∧ out.length = coeff.length ∧
      ∀ (j : ℕ) (a : List ℝ), coeff[j]? = some a →
        ∃ c, letters[i + j]? = some c ∧ out[j]? = some (.row (i + j) c a) := by
  intro coeff
  induction coeff with
  | nil => intro i _ _; exact ⟨[], rfl, rfl, by simp⟩
  | cons a r ih =>
    intro i hw hl
    simp only [List.length_cons] at hl
    obtain ⟨out, ho, hlen, hg⟩ := ih (i + 1) (fun x hx => hw x (by simp [hx])) (by omega)
    have hi : i < letters.length := by omega
    refine ⟨.row i letters[i] a :: out, ?_, by simp [hlen], ?_⟩
    · simp only [coeffRows, coeffRow, List.getElem?_eq_getElem hi, fmt, hw a (by simp), if_true,
        bind, Except.bind, ho]
      rfl
    · intro j b hb
      cases j with
      | zero =>
        simp only [List.getElem?_cons_zero, Option.some.injEq] at hb
        subst hb
        exact ⟨letters[i], by simp [List.getElem?_eq_getElem hi], by simp⟩
      | succ j =>
        simp only [List.getElem?_cons_succ] at hb
        obtain ⟨c, h1, h2⟩ := hg j b hb
        exact ⟨c, by rw [← h1]; congr 1; omega, by
          rw [List.getElem?_cons_succ, h2]; congr 2; omega⟩

theorem columnSums_get (w : ℕ) (coeff : List (List ℝ)) (k : ℕ) (hk : k < w) :
    (columnSums w coeff)[k]? = some (coeff.map fun a => a.getD k 0).sum := by
  simp [columnSums, hk]

/-- C102: a table with as many labels as columns and not more rows than the system has elements is
printed as one line per row with its number, the letter of its element and its values; the last line
has the sums of the columns if asked for. -/
theorem c102_rows (letters : List Char) (coeff : List (List ℝ)) (labels : List String) (sum : Bool)
    (hw : ∀ a ∈ coeff, a.length = labels.length) (hl : coeff.length ≤ letters.length) :
    ∃ out, printCoeffs letters labels.length coeff labels sum = .ok out ∧
      out.length = 1 + coeff.length + (if sum then 1 else 0) ∧ out[0]? = some (.header labels) ∧
      (∀ (j : ℕ) (a : List ℝ), coeff[j]? = some a →
        ∃ c, letters[j]? = some c ∧ out[j + 1]? = some (.row j c a)) ∧
      (sum = true → ∃ s : List ℝ, out[coeff.length + 1]? = some (.total s) ∧
        s.length = labels.length ∧
        ∀ k < labels.length, s[k]? = some (∑ j : Fin coeff.length, (coeff[j]).getD k 0)) := by
  obtain ⟨rows, hr, hlen, hg⟩ := coeffRows_ok letters labels.length coeff 0 hw (by simpa using hl)
  have hs : (columnSums labels.length coeff).length = labels.length := by simp [columnSums]
  refine ⟨.header labels :: rows ++
    (if sum then [.total (columnSums labels.length coeff)] else []), ?_, ?_, by simp, ?_, ?_⟩
  · unfold printCoeffs
    simp only [hr, bind, Except.bind, fmt, hs, if_true]
    cases sum <;> rfl
  · cases sum <;> simp [hlen] <;> omega
  · intro j a ha
    obtain ⟨c, h1, h2⟩ := hg j a ha
    rw [Nat.zero_add] at h1 h2
    refine ⟨c, h1, ?_⟩
    have hj : j < rows.length := (List.getElem?_eq_some_iff.mp h2).1
    rw [List.cons_append, List.getElem?_cons_succ, List.getElem?_append_left hj, h2]
  · rintro rfl
    refine ⟨columnSums labels.length coeff, ?_, hs, ?_⟩
    · rw [List.cons_append, List.getElem?_cons_succ, List.getElem?_append_right (by omega), hlen]
      simp
    · intro k hk
      rw [columnSums_get _ _ _ hk, ← List.sum_ofFn]
      congr 2
      apply List.ext_getElem <;> simp

/-- C102: with a row that has not as many values as there are labels nothing is printed but an error,
and so with more rows than the system has elements. -/
theorem c102_errors (letters : List Char) (w : ℕ) (coeff : List (List ℝ)) (labels : List String)
    (sum : Bool) (h : (∃ a ∈ coeff, a.length ≠ labels.length) ∨ letters.length < coeff.length) :
    ∃ e, printCoeffs letters w coeff labels sum = .error e := by
  have key : ∀ (coeff : List (List ℝ)) (i : ℕ), i ≤ letters.length →
      ((∃ a ∈ coeff, a.length ≠ labels.length) ∨ letters.length < i + coeff.length) →
      ∃ e, coeffRows letters labels.length i coeff = .error e := by
    intro coeff
    induction coeff with
    | nil =>
      intro i hi h
      rcases h with ⟨a, ha, -⟩ | h
      · simp at ha
      · simp at h; omega
    | cons b r ih =>
      intro i hi h
      by_cases hi2 : i < letters.length
      · by_cases hb : b.length = labels.length
        · have h' : (∃ a ∈ r, a.length ≠ labels.length) ∨ letters.length < i + 1 + r.length := by
            rcases h with ⟨a, ha, hne⟩ | h
            · rcases List.mem_cons.mp ha with rfl | ha
              · exact absurd hb hne
              · exact .inl ⟨a, ha, hne⟩
            · right; simp only [List.length_cons] at h; omega
          obtain ⟨e, he⟩ := ih (i + 1) (by omega) h'
          refine ⟨e, ?_⟩
          simp only [coeffRows, coeffRow, List.getElem?_eq_getElem hi2, fmt, hb, if_true, bind,
            Except.bind, he]
        · refine ⟨.type, ?_⟩
          simp only [coeffRows, coeffRow, List.getElem?_eq_getElem hi2, fmt, if_neg hb, bind,
            Except.bind]
      · refine ⟨.index, ?_⟩
        simp only [coeffRows, coeffRow, List.getElem?_eq_none (by omega : letters.length ≤ i), bind,
          Except.bind]
  obtain ⟨e, he⟩ := key coeff 0 (by omega) (by simpa using h)
  exact ⟨e, by simp only [printCoeffs, he, bind, Except.bind]⟩

theorem stack_ok : ∀ (cs : List (List ℝ)) (n : ℕ), cs ≠ [] → (∀ c ∈ cs, c.length = n) →
    ∃ r, stack cs = .ok r ∧ r.length = n ∧ ∀ j < n, r[j]? = some (cs.map fun c => c.getD j 0) := by
  intro cs
  induction cs with
  | nil => intro n h; exact absurd rfl h
  | cons c cs ih =>
    intro n _ hl
    have hc : c.length = n := hl c (by simp)
    cases cs with
    | nil =>
      refine ⟨c.map fun x => [x], rfl, by simp [hc], ?_⟩
      intro j hj
      rw [List.getElem?_map, List.getElem?_eq_getElem (by omega)]
      simp [List.getD_eq_getElem?_getD, List.getElem?_eq_getElem (by omega : j < c.length)]
    | cons d ds =>
      obtain ⟨r, hr, hlen, hg⟩ := ih n (by simp) (fun x hx => hl x (List.mem_cons_of_mem _ hx))
      refine ⟨List.zipWith (fun x xs => x :: xs) c r, ?_, by simp [hc, hlen], ?_⟩
      · simp only [stack, hr, bind, Except.bind, hc, hlen, if_true]
        rfl
      · intro j hj
        rw [List.getElem?_zipWith, hg j hj, List.getElem?_eq_getElem (by omega)]
        simp [List.getD_eq_getElem?_getD, List.getElem?_eq_getElem (by omega : j < c.length)]

/-- C102: the printed paraxial trace has one line per element: the distance from the first element along
the axis, the index behind it, and height and slope times index of the marginal and the chief ray. -/
theorem c102_paraxial (letters : List Char) (sys : List Elem) (axis : Fin 2) (l : ℝ) (r0 : PRow)
    (rows : List PRow) (hne : sys ≠ []) (ht : PTrace.trace sys axis l r0 = some rows)
    (hl : letters.length = sys.length) :
    ∃ out, paraxialTrace letters sys rows = .ok out ∧ out.length = sys.length + 1 ∧
      ∀ (j : ℕ) (r : PRow), rows[j]? = some r → ∃ c, letters[j]? = some c ∧
        out[j + 1]? = some (.row j c
          [((sys.take (j + 1)).map fun e => e.tf.distance).sum, r.n, r.y 0, r.u 0, r.y 1, r.u 1]) := by
  have hlen := trace_length hne ht
  have hpl : (path sys).length = sys.length := by simp [path]
  obtain ⟨t, hst, htl, htg⟩ := stack_ok [path sys, rows.map fun r => r.n, rows.map fun r => r.y 0,
    rows.map fun r => r.u 0, rows.map fun r => r.y 1, rows.map fun r => r.u 1] sys.length (by simp)
    (by simp [hlen, hpl])
  have hwid : ∀ a ∈ t, a.length =
      ["path", "n", "axial y", "axial nu", "chief y", "chief nu"].length := by
    intro a ha
    obtain ⟨j, hj⟩ := List.mem_iff_getElem?.mp ha
    have hjl : j < sys.length := by rw [← htl]; exact (List.getElem?_eq_some_iff.mp hj).1
    rw [htg j hjl] at hj
    cases hj
    simp
  obtain ⟨out, ho, hol, -, hg, -⟩ := c102_rows letters t
    ["path", "n", "axial y", "axial nu", "chief y", "chief nu"] false hwid (by omega)
  refine ⟨out, ?_, by rw [hol, htl]; simp; omega, ?_⟩
  · simp only [paraxialTrace, hst, bind, Except.bind]
    exact ho
  · intro j r hr
    have hjl : j < sys.length := by rw [← hlen]; exact (List.getElem?_eq_some_iff.mp hr).1
    obtain ⟨c, h1, h2⟩ := hg j _ (htg j hjl)
    refine ⟨c, h1, ?_⟩
    rw [h2]
    simp [List.getD_eq_getElem?_getD, hr, (c25_path sys j hjl).1]

/-- C102: the printed third-order aberrations: one line per element and the sums over all elements in
the last line, in the order of the labels. -/
theorem c102_transverse (letters : List Char) (t : List Seidel) (hl : t.length ≤ letters.length) :
    ∃ out, transverseTable letters t = .ok out ∧ out.length = t.length + 2 ∧
      (∀ (j : ℕ) (s : Seidel), t[j]? = some s → ∃ c, letters[j]? = some c ∧
        out[j + 1]? = some (.row j c [s.tsc, s.cc, s.tac, s.tpc, s.dc, s.tachc, s.tchc])) ∧
      out[t.length + 1]? = some (.total [(t.map Seidel.tsc).sum, (t.map Seidel.cc).sum,
        (t.map Seidel.tac).sum, (t.map Seidel.tpc).sum, (t.map Seidel.dc).sum,
        (t.map Seidel.tachc).sum, (t.map Seidel.tchc).sum]) := by
  obtain ⟨out, ho, hol, -, hg, hsum⟩ := c102_rows letters
    (t.map fun s => [s.tsc, s.cc, s.tac, s.tpc, s.dc, s.tachc, s.tchc])
    ["SA3", "CMA3", "AST3", "PTZ3", "DIS3", "TACHC", "TCHC"] true (by simp) (by simpa using hl)
  refine ⟨out, ho, by rw [hol]; simp; omega, ?_, ?_⟩
  · intro j s hs
    exact hg j _ (by simp [hs])
  · obtain ⟨s, h1, h2, h3⟩ := hsum rfl
    rw [List.length_map] at h1
    rw [h1]
    congr 2
    have hsum : ∀ (k : ℕ) (f : Seidel → ℝ), (∀ x : Seidel,
        [x.tsc, x.cc, x.tac, x.tpc, x.dc, x.tachc, x.tchc].getD k 0 = f x) → k < 7 →
        s[k]? = some (t.map f).sum := by
      intro k f hf hk
      rw [h3 k hk, ← List.sum_ofFn]
      congr 2
      apply List.ext_getElem
      · simp
      · intro i h1 h2
        simp only [List.getElem_ofFn, List.getElem_map, Fin.getElem_fin]
        exact hf _
    apply List.ext_getElem?
    intro k
    by_cases hk : k < 7
    · interval_cases k
      · exact hsum 0 Seidel.tsc (fun _ => rfl) hk
      · exact hsum 1 Seidel.cc (fun _ => rfl) hk
      · exact hsum 2 Seidel.tac (fun _ => rfl) hk
      · exact hsum 3 Seidel.tpc (fun _ => rfl) hk
      · exact hsum 4 Seidel.dc (fun _ => rfl) hk
      · exact hsum 5 Seidel.tachc (fun _ => rfl) hk
      · exact hsum 6 Seidel.tchc (fun _ => rfl) hk
    · rw [List.getElem?_eq_none (by simp at h2; omega), List.getElem?_eq_none (by simp; omega)]

/-- The table of one ray. -/
theorem rayTable_ok (letters : List Char) (sys : List Elem) (rows : List GRow)
    (hr : rows.length = sys.length) (hl : letters.length = sys.length) :
    ∃ out, rayTable letters sys rows = .ok out ∧ out.length = sys.length + 1 ∧
      ∀ (j : ℕ) (r : GRow), rows[j]? = some r → ∃ c, letters[j]? = some c ∧
        out[j + 1]? = some (.row j c [r.n, ((sys.take (j + 1)).map fun e => e.tf.distance).sum,
          ((rows.take (j + 1)).map fun r => r.t).sum -
            ((sys.take (j + 1)).map fun e => e.tf.distance).sum,
          r.y.x, r.y.y, r.y.z, r.u.x, r.u.y, r.u.z]) := by
  have hpl : (path sys).length = sys.length := by simp [path]
  obtain ⟨T, hT⟩ : ∃ T, List.zipWith (· - ·) ((rows.map fun r => r.t).scanl (· + ·) 0).tail
    (path sys) = T := ⟨_, rfl⟩
  have hTl : T.length = sys.length := by rw [← hT]; simp [hr, hpl]
  have hTg : ∀ j < sys.length, T.getD j 0 = ((rows.take (j + 1)).map fun r => r.t).sum -
      ((sys.take (j + 1)).map fun e => e.tf.distance).sum := by
    intro j hj
    rw [List.getD_eq_getElem?_getD, ← hT, List.getElem?_zipWith, List.getElem?_tail,
      scanl_take _ _ _ _ (by simp; omega), foldl_add_real, (c25_path sys j hj).1]
    simp [List.map_take]
  obtain ⟨t, hst, htl, htg⟩ := stack_ok [rows.map fun r => r.n, path sys, T,
    rows.map fun r => r.y.x, rows.map fun r => r.y.y, rows.map fun r => r.y.z,
    rows.map fun r => r.u.x, rows.map fun r => r.u.y, rows.map fun r => r.u.z] sys.length (by simp)
    (by simp [hr, hpl, hTl])
  have hwid : ∀ a ∈ t, a.length = ["n", "track z", "rel path", "height x", "height y", "height z",
      "angle x", "angle y", "angle z"].length := by
    intro a ha
    obtain ⟨j, hj⟩ := List.mem_iff_getElem?.mp ha
    have hjl : j < sys.length := by rw [← htl]; exact (List.getElem?_eq_some_iff.mp hj).1
    rw [htg j hjl] at hj
    cases hj
    simp
  obtain ⟨out, ho, hol, -, hg, -⟩ := c102_rows letters t ["n", "track z", "rel path", "height x",
    "height y", "height z", "angle x", "angle y", "angle z"] false hwid (by omega)
  refine ⟨out, ?_, by rw [hol, htl]; simp; omega, ?_⟩
  · simp only [rayTable, hT, hst, bind, Except.bind]
    exact ho
  · intro j r hrj
    have hjl : j < sys.length := by rw [← hr]; exact (List.getElem?_eq_some_iff.mp hrj).1
    obtain ⟨c, h1, h2⟩ := hg j _ (htg j hjl)
    refine ⟨c, h1, ?_⟩
    rw [h2]
    simp only [List.map_cons, List.map_nil, hTg j hjl]
    simp [List.getD_eq_getElem?_getD, hrj, (c25_path sys j hjl).1]

/-- C102: the printed geometric trace: the rays one after the other, each with a title, a header, one
line per element and an empty line; in the line of an element the index, the length of the axis up to
it, the optical path up to it less that length, and the position and direction of the ray. -/
theorem c102_geometric (letters : List Char) (sys : List Elem) (rays : List (List GRow))
    (hr : ∀ rows ∈ rays, rows.length = sys.length) (hl : letters.length = sys.length) :
    ∃ out, geometricTrace letters sys 0 rays = .ok out ∧
      out.length = (sys.length + 3) * rays.length ∧
      ∀ (i : ℕ) (rows : List GRow), rays[i]? = some rows →
        out[(sys.length + 3) * i]? = some (.text s!"ray {i}") ∧
        ∀ (j : ℕ) (r : GRow), rows[j]? = some r → ∃ c, letters[j]? = some c ∧
          out[(sys.length + 3) * i + j + 2]? = some (.row j c
            [r.n, ((sys.take (j + 1)).map fun e => e.tf.distance).sum,
             ((rows.take (j + 1)).map fun r => r.t).sum -
              ((sys.take (j + 1)).map fun e => e.tf.distance).sum,
             r.y.x, r.y.y, r.y.z, r.u.x, r.u.y, r.u.z]) := by
  have key : ∀ (rays : List (List GRow)) (k : ℕ), (∀ rows ∈ rays, rows.length = sys.length) →
      ∃ out, geometricTrace letters sys k rays = .ok out ∧
      out.length = (sys.length + 3) * rays.length ∧
      ∀ (i : ℕ) (rows : List GRow), rays[i]? = some rows →
        out[(sys.length + 3) * i]? = some (.text s!"ray {k + i}") ∧
        ∀ (j : ℕ) (r : GRow), rows[j]? = some r → ∃ c, letters[j]? = some c ∧
          out[(sys.length + 3) * i + j + 2]? = some (.row j c
            [r.n, ((sys.take (j + 1)).map fun e => e.tf.distance).sum,
             ((rows.take (j + 1)).map fun r => r.t).sum -
              ((sys.take (j + 1)).map fun e => e.tf.distance).sum,
             r.y.x, r.y.y, r.y.z, r.u.x, r.u.y, r.u.z]) := by
    intro rays
    induction rays with
    | nil => intro k _; exact ⟨[], rfl, by simp, by simp⟩
    | cons r0 rs ih =>
      intro k hk
      obtain ⟨b, hb, hbl, hbg⟩ := ih (k + 1) (fun x hx => hk x (by simp [hx]))
      obtain ⟨a, ha, hal, hag⟩ := rayTable_ok letters sys r0 (hk r0 (by simp)) hl
      refine ⟨.text s!"ray {k}" :: a ++ .text "" :: b, ?_, ?_, ?_⟩
      · simp only [geometricTrace, ha, hb, bind, Except.bind]
        rfl
      · simp only [List.length_append, List.length_cons, hal, hbl]; ring
      · intro i rows hi
        cases i with
        | zero =>
          simp only [List.getElem?_cons_zero, Option.some.injEq] at hi
          subst hi
          refine ⟨by simp, ?_⟩
          intro j r hj
          obtain ⟨c, h1, h2⟩ := hag j r hj
          refine ⟨c, h1, ?_⟩
          have hja : j + 1 < a.length := (List.getElem?_eq_some_iff.mp h2).1
          rw [show (sys.length + 3) * 0 + j + 2 = j + 1 + 1 by omega, List.cons_append,
            List.getElem?_cons_succ, List.getElem?_append_left hja, h2]
        | succ i =>
          simp only [List.getElem?_cons_succ] at hi
          obtain ⟨h1, h2⟩ := hbg i rows hi
          have shift : ∀ m, (Line.text s!"ray {k}" :: a ++ Line.text "" :: b)[sys.length + 3 + m]? =
              b[m]? := by
            intro m
            rw [List.cons_append, show sys.length + 3 + m = sys.length + 2 + m + 1 by omega,
              List.getElem?_cons_succ, List.getElem?_append_right (by omega), hal,
              show sys.length + 2 + m - (sys.length + 1) = m + 1 by omega, List.getElem?_cons_succ]
          refine ⟨?_, ?_⟩
          · rw [show (sys.length + 3) * (i + 1) = sys.length + 3 + (sys.length + 3) * i by ring,
              shift, h1, show k + 1 + i = k + (i + 1) by omega]
          · intro j r hj
            obtain ⟨c, h3, h4⟩ := h2 j r hj
            refine ⟨c, h3, ?_⟩
            rw [show (sys.length + 3) * (i + 1) + j + 2 =
              sys.length + 3 + ((sys.length + 3) * i + j + 2) by ring, shift, h4]
  obtain ⟨out, h1, h2, h3⟩ := key rays 0 hr
  exact ⟨out, h1, h2, fun i rows hi => by simpa using h3 i rows hi⟩

/-- C102: the printed list of elements: line `i` has the number, letter, distance, radius of curvature
(the inverse of the curvature, infinite for a plane), diameter and, if the surface has a material, its
index at the wavelength asked for and at the d line. -/
theorem c102_elements (ld : ℝ) (sys : List Elem) (letters : List Char) (wavelength : ℝ)
    (hl : letters.length = sys.length) (i : ℕ) (e : Elem) (c : Char) (he : sys[i]? = some e)
    (hc : letters[i]? = some c) :
    ∃ line, (elementLines ld sys letters wavelength)[i]? = some line ∧
      (elementLines ld sys letters wavelength).length = sys.length ∧
      line.index = i ∧ line.letter = c ∧ line.distance = e.tf.distance ∧
      (∀ s, e.shape = some s → (line.roc = none ↔ s.curvature = 0) ∧
        ∀ r, line.roc = some r → r * s.curvature = 1) ∧
      (e.shape = none → line.roc = none) ∧
      (∀ r, e.radius = .fin r → line.diameter = some (2 * r)) ∧
      (e.radius = .inf → line.diameter = none) ∧
      (∀ s m, e.shape = some s → e.material = some (some m) →
        line.n = some (m.index wavelength) ∧ line.nd = some (m.index ld)) ∧
      (e.mat = none → line.n = none ∧ line.nd = none) := by
  have hget : (elementLines ld sys letters wavelength)[i]? =
      some (elementLine ld sys wavelength i c e) := by
    have hz : (sys.zip letters)[i]? = some (e, c) := by
      rw [List.getElem?_zip_eq_some]; exact ⟨he, hc⟩
    simp [elementLines, List.getElem?_zipIdx, hz]
  refine ⟨_, hget, by simp [elementLines, hl], rfl, rfl, rfl, ?_, ?_, ?_, ?_, ?_, ?_⟩
  · intro s hs
    simp only [elementLine, hs]
    by_cases h : s.curvature = 0
    · simp [h]
    · simp only [if_neg h]
      exact ⟨by simp [h], by intro r hr; cases hr; field_simp⟩
  · intro hs
    simp [elementLine, hs]
  · intro r hr
    simp only [elementLine, hr]
    rw [mul_comm]
  · intro hr
    simp [elementLine, hr]
  · intro s m hs hm
    have hmat : e.mat = some m := by simp [Elem.mat, hm]
    refine ⟨?_, by simp [elementLine, hmat]⟩
    simp only [elementLine, hmat]
    congr 1
    have hi : e.index? wavelength = some (m.index wavelength) := by
      simp [Elem.index?, hs, hmat]
    have hlt : i < sys.length := (List.getElem?_eq_some_iff.mp he).1
    have hei : sys[i] = e := (List.getElem?_eq_some_iff.mp he).2
    rw [refractiveIndex_nat, List.take_succ_eq_append_getElem hlt, hei, List.reverse_append,
      List.reverse_singleton, List.singleton_append, List.findSome?_cons, hi]
    rfl
  · intro hm
    simp [elementLine, hm]

/-- C102: after `system.aperture = a` the aperture is `a`; it is refused exactly if `a` is not in the
system. -/
theorem c102_aperture {α : Type} [DecidableEq α] (sys : List α) (a : α) :
    (setAperture sys a = none ↔ a ∉ sys) ∧
    ∀ stop, setAperture sys a = some stop →
      aperture sys stop = some a ∧ 0 ≤ stop ∧ stop < sys.length ∧
      ∀ j : ℕ, (j : ℤ) < stop → sys[j]? ≠ some a := by
  constructor
  · simp only [setAperture, Option.map_eq_none_iff, List.findIdx?_eq_none_iff, decide_eq_false_iff_not]
    constructor
    · intro h ha; exact h a ha rfl
    · rintro h x hx rfl; exact h hx
  · intro stop h
    simp only [setAperture, Option.map_eq_some_iff] at h
    obtain ⟨i, hi, rfl⟩ := h
    rw [Int.ofNat_eq_natCast]
    obtain ⟨hlt, h1, h2⟩ := List.findIdx?_eq_some_iff_getElem.mp hi
    simp only [decide_eq_true_eq] at h1
    refine ⟨?_, by omega, by exact_mod_cast hlt, ?_⟩
    · simp [aperture, List.getElem?_eq_getElem hlt, h1]
    · intro j hj hja
      have hji : j < i := by exact_mod_cast hj
      have := h2 j hji
      obtain ⟨h3, h4⟩ := List.getElem?_eq_some_iff.mp hja
      simp [h4] at this

/-- C102: the letter of a type is the one given for it, or else its first letter as a capital. -/
theorem c102_typeletter (c : Char) (cs : List Char) (l : String) (hl : l ≠ "") :
    typeletter none (String.ofList (c :: cs)) = some c.toUpper.toString ∧
    typeletter (some l) (String.ofList (c :: cs)) = some l := by
  simp [typeletter, hl]

/-- A table with two rows and two labels for a system of three elements, with sums. -/
example : printCoeffs ['S', 'S', 'E'] 2 [[1, 2], [3, 4]] ["a", "b"] true =
    .ok [.header ["a", "b"], .row 0 'S' [1, 2], .row 1 'S' [3, 4], .total [4, 6]] := by
  simp [printCoeffs, coeffRows, coeffRow, fmt, columnSums, List.range_succ, bind, Except.bind, pure,
    Except.pure, Except.map]
  norm_num

/-- Two labels for three columns. -/
example : (∃ a ∈ [[1, 2, 3]], a.length ≠ ["a", "b"].length) := by simp

/-- The second of three elements becomes the stop. -/
example : setAperture [10, 20, 30] 20 = some 1 ∧ aperture [10, 20, 30] (-1) = some 30 ∧
    setAperture [10, 20, 30] 40 = none ∧ typeletter none "spheroid" = some "S" := by
  decide +kernel

end RayOpt.Tables
