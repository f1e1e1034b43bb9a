import Verif.Model.CompiledImport
import Verif.Props.Compiled
import Verif.Props.Arcball

/-!
# C110: the module of the extension, its trackball functions and its norms
-/

namespace RayOpt.Compiled

open RayOpt V3

/-- Points are mapped to the sphere as by the Python module. -/
theorem c110_sphere (p c : ℝ × ℝ) (r : ℝ) : mapToSphere p c r = Arcball.mapToSphere p c r := by
  unfold mapToSphere Arcball.mapToSphere
  split
  · rfl
  · dsimp only
    split <;> rfl

/-- A point is constrained to the same plane, and to the same point if this is not below the plane of the window. -/
theorem c110_constrain (p a : V3) :
    constrainToAxis p a = Arcball.constrainToAxis p a ∨
      (tfEps < (p - a.dot p • a).norm ∧ (p - a.dot p • a).z < 0 ∧
        constrainToAxis p a = (Arcball.constrainToAxis p a).map fun v => -v) := by
  unfold constrainToAxis Arcball.constrainToAxis
  dsimp only
  have e : (⟨p.x - a.x * (p.x * a.x + p.y * a.y + p.z * a.z), p.y - a.y * (p.x * a.x + p.y * a.y + p.z * a.z),
      p.z - a.z * (p.x * a.x + p.y * a.y + p.z * a.z)⟩ : V3) = p - a.dot p • a := by
    ext <;> simp [V3.dot] <;> ring
  have ex := congrArg V3.x e
  have ey := congrArg V3.y e
  have ez := congrArg V3.z e
  dsimp only at ex ey ez
  simp only [ex, ey, ez]
  set v := p - a.dot p • a with hv
  by_cases h : tfEps < v.norm
  · have h' : √(v.x * v.x + v.y * v.y + v.z * v.z) > tfEps := by rw [sqrt_norm]; exact h
    rw [if_pos h', if_pos h, sqrt_norm]
    by_cases hz : v.z < 0
    · right
      refine ⟨h, hz, ?_⟩
      rw [if_pos hz]
      simp only [Option.map_some, Option.some.injEq]
      ext <;> simp <;> ring
    · left
      rw [if_neg hz]
      congr 1
      ext <;> simp <;> ring
  · left
    have h' : ¬ √(v.x * v.x + v.y * v.y + v.z * v.z) > tfEps := by rw [sqrt_norm]; exact h
    rw [if_neg h', if_neg h]
    have hn : (⟨-a.y, a.x, 0⟩ : V3).norm = √(a.x * a.x + a.y * a.y) := by
      simp only [V3.norm, V3.dot]; congr 1; ring
    split
    · rfl
    · unfold Arcball.unit?
      rw [hn]
      split
      · rfl
      · congr 1
        ext <;> simp [RayOpt.unitVector, hn] <;> ring

/-- A point in front of the window that the compiled function sends behind it. -/
theorem c110_constrain_violation :
    constrainToAxis ⟨0, 1, 0⟩ ⟨0, 3 / 5, 4 / 5⟩ = some ⟨0, 4 / 5, -3 / 5⟩ ∧
      Arcball.constrainToAxis ⟨0, 1, 0⟩ ⟨0, 3 / 5, 4 / 5⟩ = some ⟨0, -4 / 5, 3 / 5⟩ := by
  have hs : √((16 / 25 : ℝ) * (16 / 25) + 12 / 25 * (12 / 25)) = 4 / 5 := by
    rw [show ((16 / 25 : ℝ) * (16 / 25) + 12 / 25 * (12 / 25)) = (4 / 5) ^ 2 by norm_num]
    exact Real.sqrt_sq (by norm_num)
  have he : (4 / 5 : ℝ) > tfEps := by unfold tfEps; norm_num
  constructor
  · have hs' : √((0 - 0 * (0 * 0 + 1 * (3 / 5) + 0 * (4 / 5)) : ℝ) * (0 - 0 * (0 * 0 + 1 * (3 / 5) + 0 * (4 / 5))) +
        (1 - 3 / 5 * (0 * 0 + 1 * (3 / 5) + 0 * (4 / 5))) * (1 - 3 / 5 * (0 * 0 + 1 * (3 / 5) + 0 * (4 / 5))) +
        (0 - 4 / 5 * (0 * 0 + 1 * (3 / 5) + 0 * (4 / 5))) * (0 - 4 / 5 * (0 * 0 + 1 * (3 / 5) + 0 * (4 / 5)))) =
        4 / 5 := by
      rw [← hs]; congr 1; norm_num
    unfold constrainToAxis
    dsimp only
    rw [hs', if_pos he]
    congr 1
    ext <;> norm_num
  · unfold Arcball.constrainToAxis
    have hv : (⟨0, 1, 0⟩ : V3) - (⟨0, 3 / 5, 4 / 5⟩ : V3).dot ⟨0, 1, 0⟩ • (⟨0, 3 / 5, 4 / 5⟩ : V3) =
        ⟨0, 16 / 25, -12 / 25⟩ := by
      ext <;> simp [V3.dot] <;> norm_num
    have hn : (⟨0, 16 / 25, -12 / 25⟩ : V3).norm = 4 / 5 := by
      simp only [V3.norm, V3.dot]
      rw [← hs]; congr 1; norm_num
    dsimp only
    rw [hv, hn, if_pos he, if_pos (by norm_num)]
    congr 1
    ext <;> simp <;> norm_num

theorem foldl_squares (v : List ℝ) (c : ℝ) :
    v.foldl (fun len t => len + t * t) c = c + (v.map fun t => t * t).sum := by
  induction v generalizing c with
  | nil => simp
  | cons t v ih => simp only [List.foldl_cons, List.map_cons, List.sum_cons, ih]; ring

/-- `vector_norm` is the root of the sum of the squares, and `unit_vector` the multiple of the vector of norm one;
a zero vector gives NaN. -/
theorem c110_norm (v : List ℝ) :
    vectorNorm v = √((v.map fun t => t * t).sum) ∧
      (unitVector v = none ↔ ∀ t ∈ v, t = 0) ∧
      ∀ u, unitVector v = some u → vectorNorm u = 1 ∧ u = v.map fun t => t / vectorNorm v := by
  have hnn : ∀ v : List ℝ, 0 ≤ (v.map fun t => t * t).sum := by
    intro v
    apply List.sum_nonneg
    simp only [List.mem_map]
    rintro _ ⟨t, -, rfl⟩
    exact mul_self_nonneg t
  have hz : ∀ v : List ℝ, (v.map fun t => t * t).sum = 0 ↔ ∀ t ∈ v, t = 0 := by
    intro v
    induction v with
    | nil => simp
    | cons t v ih =>
      simp only [List.map_cons, List.sum_cons, List.forall_mem_cons, ← ih]
      constructor
      · intro h
        have := hnn v
        have := mul_self_nonneg t
        exact ⟨mul_self_eq_zero.1 (by linarith), by linarith⟩
      · rintro ⟨rfl, h⟩
        rw [h]; ring
  have hsum : vectorNorm v = √((v.map fun t => t * t).sum) := by
    unfold vectorNorm
    rw [foldl_squares, zero_add]
  refine ⟨hsum, ?_, ?_⟩
  · unfold unitVector
    rw [foldl_squares, zero_add, ← hz]
    dsimp only
    split
    · rename_i h; simp [h]
    · rename_i h; simp [h]
  · intro u hu
    unfold unitVector at hu
    rw [foldl_squares, zero_add] at hu
    dsimp only at hu
    split at hu
    · cases hu
    · rename_i h0
      have hpos : 0 < (v.map fun t => t * t).sum := lt_of_le_of_ne (hnn v) (Ne.symm h0)
      have hu' := Option.some.inj hu
      have key : ∀ (l : List ℝ) (c : ℝ), ((l.map fun t => t * c).map fun t => t * t).sum =
          c * c * (l.map fun t => t * t).sum := by
        intro l c
        induction l with
        | nil => simp
        | cons t l ih => simp only [List.map_cons, List.sum_cons, ih]; ring
      constructor
      · unfold vectorNorm
        rw [foldl_squares, zero_add, ← hu', key]
        have hs : √((v.map fun t => t * t).sum) * √((v.map fun t => t * t).sum) = (v.map fun t => t * t).sum :=
          Real.mul_self_sqrt hpos.le
        have hs0 : √((v.map fun t => t * t).sum) ≠ 0 := (Real.sqrt_pos.2 hpos).ne'
        rw [show (1 : ℝ) / √((v.map fun t => t * t).sum) * (1 / √((v.map fun t => t * t).sum)) *
          (v.map fun t => t * t).sum = 1 from ?_, Real.sqrt_one]
        rw [div_mul_div_comm, hs, one_mul, div_mul_cancel₀ _ h0]
      · rw [← hu', hsum]
        apply List.map_congr_left
        intro t _
        rw [mul_one_div]

/-- The output array of `vector_norm` is accepted for its number of dimensions alone. -/
theorem c110_output (data out : List ℕ) (axis : ℕ) :
    normAccepts data out axis = true ↔ data.length = out.length + 1 := by
  simp [normAccepts]

/-- So an array of one number is accepted for three results, which are written past its end. -/
theorem c110_output_violation :
    normAccepts [2, 3] [1] 0 = true ∧ (([2, 3] : List ℕ).eraseIdx 0).prod = 3 ∧ ([1] : List ℕ).prod = 1 := by
  decide

section Import

variable {V : Type}

theorem step_ignored (warn : Bool) (s : Globals V × List (List Char)) (a : List Char × V)
    (h : a.1.head? = some '_') : importAttr "_py_".toList "_".toList warn s a = s := by
  unfold importAttr
  rw [if_pos]
  refine ⟨by decide, ?_⟩
  obtain ⟨n, v⟩ := a
  cases n with
  | nil => cases h
  | cons c l =>
    have hc : c = '_' := Option.some.inj h
    subst hc
    rfl

theorem not_prefix {n : List Char} (h : n.head? ≠ some '_') : ("_".toList.isPrefixOf n) = false := by
  cases n with
  | nil => rfl
  | cons c l =>
    have hc : c ≠ '_' := fun hc => h (by rw [hc]; rfl)
    show ('_' == c && _) = false
    rw [beq_false_of_ne (Ne.symm hc)]
    rfl

theorem step_public (warn : Bool) (s : Globals V × List (List Char)) (a : List Char × V)
    (h : a.1.head? ≠ some '_') :
    importAttr "_py_".toList "_".toList warn s a =
      match s.1 a.1 with
      | some old => (bind (bind s.1 ("_py_".toList ++ a.1) old) a.1 a.2, s.2)
      | none => (bind s.1 a.1 a.2, if warn then s.2 ++ [a.1] else s.2) := by
  unfold importAttr
  rw [if_neg (by rw [not_prefix h]; simp), if_pos (by decide)]
  cases s.1 a.1 with
  | some old => rfl
  | none => cases warn <;> rfl

theorem step_other (warn : Bool) (s : Globals V × List (List Char)) (a : List Char × V) (n : List Char)
    (h : a.1.head? ≠ some '_' → n ≠ a.1 ∧ n ≠ "_py_".toList ++ a.1) :
    (importAttr "_py_".toList "_".toList warn s a).1 n = s.1 n := by
  by_cases ha : a.1.head? = some '_'
  · rw [step_ignored warn s a ha]
  · obtain ⟨h1, h2⟩ := h ha
    rw [step_public warn s a ha]
    cases s.1 a.1 with
    | some old =>
      dsimp only [bind]
      rw [Function.update_of_ne h1, Function.update_of_ne h2]
    | none =>
      dsimp only [bind]
      rw [Function.update_of_ne h1]

theorem import_other (warn : Bool) (attrs : List (List Char × V)) (s : Globals V × List (List Char)) (n : List Char)
    (h : ∀ a ∈ attrs, a.1.head? ≠ some '_' → n ≠ a.1 ∧ n ≠ "_py_".toList ++ a.1) :
    (attrs.foldl (importAttr "_py_".toList "_".toList warn) s).1 n = s.1 n := by
  induction attrs generalizing s with
  | nil => rfl
  | cons a l ih =>
    rw [List.foldl_cons, ih _ (fun b hb => h b (List.mem_cons_of_mem _ hb)),
      step_other warn s a n (h a (List.mem_cons_self ..))]

theorem public_ne_py {n : List Char} (h : n.head? ≠ some '_') (m : List Char) : n ≠ "_py_".toList ++ m := by
  rintro rfl
  exact h rfl

theorem import_public (warn : Bool) (attrs : List (List Char × V)) (s : Globals V × List (List Char))
    (hd : (attrs.map Prod.fst).Nodup) (a : List Char × V) (ha : a ∈ attrs) (hp : a.1.head? ≠ some '_') :
    (attrs.foldl (importAttr "_py_".toList "_".toList warn) s).1 a.1 = some a.2 ∧
      ∀ old, s.1 a.1 = some old →
        (attrs.foldl (importAttr "_py_".toList "_".toList warn) s).1 ("_py_".toList ++ a.1) = some old := by
  induction attrs generalizing s with
  | nil => cases ha
  | cons b l ih =>
    rw [List.map_cons, List.nodup_cons] at hd
    rw [List.foldl_cons]
    rcases List.mem_cons.1 ha with rfl | hl
    · have hne : ∀ c ∈ l, a.1 ≠ c.1 := fun c hc e => hd.1 (by rw [e]; exact List.mem_map_of_mem hc)
      rw [import_other warn l _ a.1 (fun c hc _ => ⟨hne c hc, public_ne_py hp _⟩),
        import_other warn l _ _ (fun c hc hcp => ⟨(public_ne_py hcp _).symm, fun e => hne c hc (by
          exact List.append_cancel_left e)⟩), step_public warn s a hp]
      constructor
      · cases s.1 a.1 <;> simp [bind]
      · intro old ho
        rw [ho]
        dsimp only [bind]
        rw [Function.update_of_ne (public_ne_py hp _).symm, Function.update_self]
    · have hne : a.1 ≠ b.1 := fun e => hd.1 (by rw [← e]; exact List.mem_map_of_mem hl)
      obtain ⟨h1, h2⟩ := ih (importAttr "_py_".toList "_".toList warn s b) hd.2 hl
      refine ⟨h1, fun old ho => h2 old ?_⟩
      rw [step_other warn s b a.1 (fun _ => ⟨hne, public_ne_py hp _⟩)]
      exact ho

theorem import_warnings (attrs : List (List Char × V)) (s : Globals V × List (List Char))
    (hd : (attrs.map Prod.fst).Nodup) :
    (attrs.foldl (importAttr "_py_".toList "_".toList true) s).2 =
      s.2 ++ (attrs.map Prod.fst).filter fun n => decide (n.head? ≠ some '_') && (s.1 n).isNone := by
  induction attrs generalizing s with
  | nil => simp
  | cons b l ih =>
    rw [List.map_cons, List.nodup_cons] at hd
    rw [List.foldl_cons, ih _ hd.2, List.map_cons]
    have hc : (l.map Prod.fst).filter (fun n => decide (n.head? ≠ some '_') &&
          ((importAttr "_py_".toList "_".toList true s b).1 n).isNone) =
        (l.map Prod.fst).filter (fun n => decide (n.head? ≠ some '_') && (s.1 n).isNone) := by
      apply List.filter_congr
      intro n hn
      by_cases hp : n.head? = some '_'
      · simp [hp]
      · rw [step_other true s b n (fun _ => ⟨fun e => hd.1 (by rw [← e]; exact hn), public_ne_py hp _⟩)]
    rw [hc]
    by_cases hb : b.1.head? = some '_'
    · rw [step_ignored true s b hb, List.filter_cons_of_neg (by simp [hb])]
    · rw [step_public true s b hb]
      cases hg : s.1 b.1 with
      | some old => rw [List.filter_cons_of_neg (by simp [hg])]
      | none => rw [List.filter_cons_of_pos (by simp [hg, hb])]; simp

/-- After the import, each public name of the extension is its function, the Python function of the name is kept under
`_py_`, and every other name is what it was. -/
theorem c110_import (g : Globals V) (attrs : List (List Char × V)) (warn : Bool)
    (hd : (attrs.map Prod.fst).Nodup) :
    (importModule g (some attrs) warn "_py_".toList "_".toList).2.2 = true ∧
      (∀ a ∈ attrs, a.1.head? ≠ some '_' →
        (importModule g (some attrs) warn "_py_".toList "_".toList).1 a.1 = some a.2 ∧
          ∀ old, g a.1 = some old →
            (importModule g (some attrs) warn "_py_".toList "_".toList).1 ("_py_".toList ++ a.1) = some old) ∧
      ∀ n, (∀ a ∈ attrs, a.1.head? ≠ some '_' → n ≠ a.1 ∧ n ≠ "_py_".toList ++ a.1) →
        (importModule g (some attrs) warn "_py_".toList "_".toList).1 n = g n :=
  ⟨rfl, fun a ha hp => import_public warn attrs (g, []) hd a ha hp, fun n hn => import_other warn attrs (g, []) n hn⟩

/-- The warnings are the public names without a Python function, in order. -/
theorem c110_warnings (g : Globals V) (attrs : List (List Char × V)) (hd : (attrs.map Prod.fst).Nodup) :
    (importModule g (some attrs) true "_py_".toList "_".toList).2.1 =
      (attrs.map Prod.fst).filter fun n => decide (n.head? ≠ some '_') && (g n).isNone := by
  have := import_warnings attrs (g, []) hd
  rw [List.nil_append] at this
  exact this

example : (importModule (fun n => if n = "f".toList then some 1 else none)
    (some [("__version__".toList, 9), ("f".toList, 2), ("g".toList, 3)]) true "_py_".toList "_".toList).2.1 =
      ["g".toList] := by decide

/-- Without the extension nothing changes. -/
theorem c110_missing (g : Globals V) (warn : Bool) (pre ignore : List Char) :
    (importModule g none warn pre ignore).1 = g ∧ (importModule g none warn pre ignore).2.2 = false := ⟨rfl, rfl⟩

/-- Each public function of the extension has a Python function of the same name. -/
theorem c110_names : ∀ m ∈ methods, m.toList.head? ≠ some '_' → m ∈ pythonNames := by decide +kernel

end Import

end RayOpt.Compiled
