import Verif.Model.Cache
import Mathlib.Tactic

/-!
C32 for every subclass of `CacheND`: the solver is called once for each argument, whatever the
interpolation; the guesses of the nearest and of the linear cache; the base class.
-/

namespace RayOpt.Cache.Any

variable {K V I : Type} [DecidableEq K]

theorem anyCall_spec (upd : Update K V I) (eval : I → K → Option V) (solver : K → Option V → Option V)
    (st : State K V I) (x : K) (hn : (st.cache.map Prod.fst).Nodup) :
    let r := call upd eval solver st x
    (∃ l, r.2.2.cache = st.cache ++ l) ∧ (r.2.2.cache.map Prod.fst).Nodup ∧
    (∀ v, r.1 = some v → (x, v) ∈ r.2.2.cache) ∧
    (∀ c ∈ r.2.1, c = (x, guessFor eval st x) ∧ (∀ v, (x, v) ∉ st.cache) ∧
      (solver c.1 c.2 ≠ none → ∃ v, (x, v) ∈ r.2.2.cache)) ∧ r.2.1.length ≤ 1 ∧
    (∀ y v, (y, v) ∈ r.2.2.cache → (y, v) ∈ st.cache ∨
      y = x ∧ r.2.1 = [(x, guessFor eval st x)] ∧ solver x (guessFor eval st x) = some v) := by
  dsimp only
  unfold call
  cases hf : st.cache.find? fun xy => xy.1 = x with
  | some xy =>
    have hx : xy.1 = x := by simpa using List.find?_some hf
    have hm := List.mem_of_find?_eq_some hf
    refine ⟨⟨[], by simp⟩, hn, fun v hv => ?_, by simp, by simp, fun y v h => .inl h⟩
    cases hv
    rw [← hx]
    exact hm
  | none =>
    have hnot : ∀ v, (x, v) ∉ st.cache := by
      intro v hv
      have := List.find?_eq_none.mp hf _ hv
      simp at this
    have hnd : ∀ v, ((st.cache ++ [(x, v)]).map Prod.fst).Nodup := by
      intro v
      rw [List.map_append, List.nodup_append]
      refine ⟨hn, by simp, ?_⟩
      intro a ha b hb
      simp only [List.map_cons, List.map_nil, List.mem_singleton] at hb
      subst hb
      rintro rfl
      obtain ⟨⟨a, v'⟩, hp, rfl⟩ := List.mem_map.mp ha
      exact hnot v' hp
    dsimp only
    cases hs : solver x (guessFor eval st x) with
    | none =>
      refine ⟨⟨[], by simp⟩, hn, by simp, ?_, by simp, fun y v h => .inl h⟩
      intro c hc
      simp only [List.mem_singleton] at hc
      subst hc
      exact ⟨rfl, hnot, fun h => absurd hs h⟩
    | some v =>
      dsimp only
      have hmem : ∀ y w, (y, w) ∈ st.cache ++ [(x, v)] → (y, w) ∈ st.cache ∨
          y = x ∧ some v = some w := by
        intro y w h
        rcases List.mem_append.mp h with h | h
        · exact .inl h
        · simp only [List.mem_singleton, Prod.mk.injEq] at h
          exact .inr ⟨h.1, by rw [h.2]⟩
      cases hu : upd (st.cache ++ [(x, v)]) st.interpolator with
      | none =>
        refine ⟨⟨_, rfl⟩, hnd v, by simp, ?_, by simp, fun y w h => ?_⟩
        · intro c hc
          simp only [List.mem_singleton] at hc
          subst hc
          exact ⟨rfl, hnot, fun _ => ⟨v, by simp⟩⟩
        · rcases hmem y w h with h | h
          · exact .inl h
          · exact .inr ⟨h.1, rfl, h.2⟩
      | some i =>
        refine ⟨⟨_, rfl⟩, hnd v, fun w hw => ?_, ?_, by simp, fun y w h => ?_⟩
        · cases hw; simp
        · intro c hc
          simp only [List.mem_singleton] at hc
          subst hc
          exact ⟨rfl, hnot, fun _ => ⟨v, by simp⟩⟩
        · rcases hmem y w h with h | h
          · exact .inl h
          · exact .inr ⟨h.1, rfl, h.2⟩

theorem anyCalls_spec (upd : Update K V I) (eval : I → K → Option V) (solver : K → Option V → Option V)
    (xs : List K) (st : State K V I) (hn : (st.cache.map Prod.fst).Nodup) :
    let r := calls upd eval solver xs st
    (∃ l, r.2.2.cache = st.cache ++ l) ∧ (r.2.2.cache.map Prod.fst).Nodup ∧
    (∀ x v, (x, some v) ∈ r.1 → (x, v) ∈ r.2.2.cache) ∧
    (∀ c ∈ r.2.1, ∀ v, (c.1, v) ∉ st.cache) ∧
    (∀ x v, (x, v) ∈ r.2.2.cache → (x, v) ∈ st.cache ∨ ∃ g, (x, g) ∈ r.2.1 ∧ solver x g = some v) ∧
    (((r.2.1.filter fun c => (solver c.1 c.2).isSome).map Prod.fst).Nodup) := by
  induction xs generalizing st with
  | nil => simpa [calls] using hn
  | cons x xs ih =>
    obtain ⟨⟨l1, a1⟩, a2, a3, a4, a5, a6⟩ := anyCall_spec upd eval solver st x hn
    obtain ⟨⟨l2, b1⟩, b2, b3, b4, b5, b6⟩ := ih (call upd eval solver st x).2.2 a2
    dsimp only [calls] at *
    refine ⟨⟨l1 ++ l2, by rw [b1, a1, List.append_assoc]⟩, b2, ?_, ?_, ?_, ?_⟩
    · intro y v h
      rcases List.mem_cons.mp h with h | h
      · obtain ⟨rfl, h⟩ := Prod.mk.inj h
        rw [b1]
        exact List.mem_append_left _ (a3 v h.symm)
      · exact b3 y v h
    · intro c hc v hv
      rcases List.mem_append.mp hc with hc | hc
      · obtain ⟨rfl, h, -⟩ := a4 c hc
        exact h v hv
      · exact b4 c hc v (by rw [a1]; exact List.mem_append_left _ hv)
    · intro y v h
      rcases b5 y v h with h | ⟨g, hg, hs⟩
      · rcases a6 y v h with h | ⟨rfl, hc, hs⟩
        · exact .inl h
        · exact .inr ⟨_, List.mem_append_left _ (by rw [hc]; simp), hs⟩
      · exact .inr ⟨g, List.mem_append_right _ hg, hs⟩
    · rw [List.filter_append, List.map_append, List.nodup_append]
      refine ⟨?_, b6, ?_⟩
      · apply List.Nodup.map_on
        · intro a ha b hb _
          rw [(a4 a (List.mem_filter.mp ha).1).1, (a4 b (List.mem_filter.mp hb).1).1]
        · have : ((call upd eval solver st x).2.1.filter fun c => (solver c.1 c.2).isSome).length ≤ 1 :=
            le_trans (List.length_filter_le _ _) a5
          match hL : (call upd eval solver st x).2.1.filter fun c => (solver c.1 c.2).isSome with
          | [] => rw [hL]; exact List.nodup_nil
          | [a] => rw [hL]; exact List.nodup_singleton a
          | a :: b :: L => rw [hL] at this; simp at this
      · intro y hy z hz
        rintro rfl
        obtain ⟨c, hc, rfl⟩ := List.mem_map.mp hy
        obtain ⟨d, hd, hdc⟩ := List.mem_map.mp hz
        obtain ⟨hc1, hc2⟩ := List.mem_filter.mp hc
        obtain ⟨e, -, h⟩ := a4 c hc1
        obtain ⟨v, hv⟩ := h (by simpa [Option.isSome_iff_ne_none] using hc2)
        have := b4 d (List.mem_filter.mp hd).1 v
        rw [hdc, e] at this
        exact this hv

/-- C32, any subclass: whatever the interpolation is, all answers for the same argument are the same,
each is a value of the solver for that argument, and the solver is not called again for an argument it
has solved, even if building the interpolator fails. -/
theorem c32_any_once (upd : Update K V I) (eval : I → K → Option V) (solver : K → Option V → Option V)
    (xs : List K) (guess : Option V) :
    let r := calls upd eval solver xs (init guess)
    (∀ x v w, (x, some v) ∈ r.1 → (x, some w) ∈ r.1 → v = w) ∧
    (∀ x v, (x, some v) ∈ r.1 → ∃ g, (x, g) ∈ r.2.1 ∧ solver x g = some v) ∧
    ((r.2.1.filter fun c => (solver c.1 c.2).isSome).map Prod.fst).Nodup := by
  obtain ⟨-, h2, h3, -, h5, h6⟩ := anyCalls_spec upd eval solver xs (init guess) (by simp [init])
  refine ⟨fun x v w hv hw => ?_, fun x v hv => ?_, h6⟩
  · have e1 := h3 x v hv
    have e2 := h3 x w hw
    have := List.inj_on_of_nodup_map h2 e1 e2 rfl
    exact (Prod.mk.inj this).2
  · rcases h5 x v (h3 x v hv) with h | h
    · simp [init] at h
    · exact h

/-- C32: of the base class every first call for an argument raises, and the next one returns the value
without calling the solver. -/
theorem c32_base_violation (eval : I → K → Option V) (solver : K → Option V → Option V)
    (st : State K V I) (x : K) (v : V) (hx : ∀ w, (x, w) ∉ st.cache)
    (hv : solver x (guessFor eval st x) = some v) :
    let r := call baseUpdate eval solver st x
    r.1 = none ∧ (call baseUpdate eval solver r.2.2 x).1 = some v ∧
    (call baseUpdate eval solver r.2.2 x).2.1 = [] := by
  have hf : st.cache.find? (fun xy => decide (xy.1 = x)) = none := by
    rw [List.find?_eq_none]
    rintro ⟨y, w⟩ hy
    simp only [decide_eq_true_eq]
    rintro rfl
    exact hx w hy
  have h1 : call baseUpdate eval solver st x
      = (none, [(x, guessFor eval st x)], { st with cache := st.cache ++ [(x, v)] }) := by
    unfold call
    rw [hf]
    dsimp only
    rw [hv]
    rfl
  dsimp only
  rw [h1]
  have h2 : (st.cache ++ [(x, v)]).find? (fun xy => decide (xy.1 = x)) = some (x, v) := by
    rw [List.find?_append, hf]
    simp
  refine ⟨rfl, ?_, ?_⟩ <;> unfold call <;> simp only [h2]

example : ∃ (st : State ℕ ℕ ℕ), (∀ w, (3, w) ∉ st.cache) ∧
    (fun (x : ℕ) (_ : Option ℕ) => some (x + 1)) 3 (guessFor (fun _ _ => none) st 3) = some 4 :=
  ⟨init none, by simp [init], rfl⟩

/-- C32, nearest cache: the first guess is none, and every later one is the cached value of an argument
nearest to the wanted one (`dist` is the distance for which `NearestNDInterpolator` looks). -/
theorem c32_nearest (build : List (K × V) → I) (eval : I → K → Option V) (dist : K → K → ℝ)
    (hb : ∀ c : List (K × V), c ≠ [] → ∀ x, ∃ y v, (y, v) ∈ c ∧ eval (build c) x = some v ∧
      ∀ z w, (z, w) ∈ c → dist x y ≤ dist x z)
    (solver : K → Option V → Option V) (xs : List K) (guess : Option V) (x : K) :
    let st := (calls (nearestUpdate build) eval solver xs (init guess)).2.2
    (st.cache = [] → guessFor eval st x = none) ∧
    (st.cache ≠ [] → ∃ y v, (y, v) ∈ st.cache ∧ guessFor eval st x = some v ∧
      ∀ z w, (z, w) ∈ st.cache → dist x y ≤ dist x z) := by
  have key : ∀ (xs : List K) (st : State K V I), st.guess = none →
      (st.cache = [] → st.interpolator = none) →
      (st.cache ≠ [] → st.interpolator = some (build st.cache)) →
      (fun st : State K V I => st.guess = none ∧ (st.cache = [] → st.interpolator = none) ∧
        (st.cache ≠ [] → st.interpolator = some (build st.cache)))
        (calls (nearestUpdate build) eval solver xs st).2.2 := by
    intro xs
    induction xs with
    | nil => intro st h1 h2 h3; exact ⟨h1, h2, h3⟩
    | cons y xs ih =>
      intro st h1 h2 h3
      dsimp only [calls]
      have : (call (nearestUpdate build) eval solver st y).2.2 = st ∨
          ∃ v, (call (nearestUpdate build) eval solver st y).2.2
            = { st with cache := st.cache ++ [(y, v)],
                        interpolator := some (build (st.cache ++ [(y, v)])) } := by
        unfold call
        cases st.cache.find? fun xy => decide (xy.1 = y) with
        | some _ => exact .inl rfl
        | none =>
          dsimp only
          cases solver y (guessFor eval st y) with
          | none => exact .inl rfl
          | some v => exact .inr ⟨v, rfl⟩
      rcases this with h | ⟨v, h⟩ <;> rw [h]
      · exact ih st h1 h2 h3
      · exact ih _ h1 (by simp) (fun _ => rfl)
  obtain ⟨k1, k2, k3⟩ := key xs (init guess) rfl (fun _ => rfl) (fun h => absurd rfl h)
  dsimp only
  refine ⟨fun h => ?_, fun h => ?_⟩
  · unfold guessFor; rw [k2 h]; exact k1
  · obtain ⟨y, v, h1, h2, h3⟩ := hb _ h x
    refine ⟨y, v, h1, ?_, h3⟩
    unfold guessFor; rw [k3 h]; simp only [h2]

/-- The contract of the interpolator is met by a search of the list. -/
example : ∃ (build : List (ℤ × ℕ) → List (ℤ × ℕ)) (eval : List (ℤ × ℕ) → ℤ → Option ℕ),
    ∀ c : List (ℤ × ℕ), c ≠ [] → ∀ x : ℤ, ∃ y v, (y, v) ∈ c ∧ eval (build c) x = some v ∧
      ∀ z w, (z, w) ∈ c → (|x - y| : ℤ) ≤ |x - z| := by
  refine ⟨id, fun c x => (c.argmin fun p => |x - p.1|).map Prod.snd, fun c hc x => ?_⟩
  cases h : c.argmin fun p => |x - p.1| with
  | none => exact absurd (List.argmin_eq_none.mp h) hc
  | some p =>
    refine ⟨p.1, p.2, List.argmin_mem h, by simp [h], fun z w hz => ?_⟩
    exact List.le_of_mem_argmin (f := fun p : ℤ × ℕ => |x - p.1|) hz h

/-- C32, linear cache: the guesses of the first four solutions are none; later guesses are what the
interpolation of all cached values says, and none where it says nothing. -/
theorem c32_linear (build : List (K × V) → Option I) (eval : I → K → Option V)
    (solver : K → Option V → Option V) (xs : List K) (guess : Option V) (x : K) :
    let st := (calls (linearUpdate build) eval solver xs (init guess)).2.2
    (st.cache.length < 4 → guessFor eval st x = none) ∧
    (4 ≤ st.cache.length → guessFor eval st x = (build st.cache).bind fun i => eval i x) := by
  have key : ∀ (xs : List K) (st : State K V I), st.guess = none →
      (st.cache.length < 4 → st.interpolator = none) →
      (4 ≤ st.cache.length → st.interpolator = build st.cache) →
      (fun st : State K V I => st.guess = none ∧ (st.cache.length < 4 → st.interpolator = none) ∧
        (4 ≤ st.cache.length → st.interpolator = build st.cache))
        (calls (linearUpdate build) eval solver xs st).2.2 := by
    intro xs
    induction xs with
    | nil => intro st h1 h2 h3; exact ⟨h1, h2, h3⟩
    | cons y xs ih =>
      intro st h1 h2 h3
      dsimp only [calls]
      have : (call (linearUpdate build) eval solver st y).2.2 = st ∨
          ∃ v, (call (linearUpdate build) eval solver st y).2.2
            = { st with cache := st.cache ++ [(y, v)],
                        interpolator := if (st.cache ++ [(y, v)]).length < 4 then st.interpolator
                          else build (st.cache ++ [(y, v)]) } := by
        unfold call
        cases st.cache.find? fun xy => decide (xy.1 = y) with
        | some _ => exact .inl rfl
        | none =>
          dsimp only
          cases solver y (guessFor eval st y) with
          | none => exact .inl rfl
          | some v =>
            refine .inr ⟨v, ?_⟩
            dsimp only
            by_cases hl : (st.cache ++ [(y, v)]).length < 4
            · rw [show linearUpdate build (st.cache ++ [(y, v)]) st.interpolator
                = some st.interpolator from if_pos hl, if_pos hl]
            · rw [show linearUpdate build (st.cache ++ [(y, v)]) st.interpolator
                = some (build (st.cache ++ [(y, v)])) from if_neg hl, if_neg hl]
      rcases this with h | ⟨v, h⟩ <;> rw [h]
      · exact ih st h1 h2 h3
      · refine ih _ h1 ?_ ?_
        · intro hl
          dsimp only at hl ⊢
          rw [if_pos hl]
          apply h2
          simp at hl
          omega
        · intro hl
          dsimp only at hl ⊢
          rw [if_neg (by omega)]
  obtain ⟨k1, k2, k3⟩ := key xs (init guess) rfl (fun _ => rfl) (fun h => by simp [init] at h)
  dsimp only
  refine ⟨fun h => ?_, fun h => ?_⟩
  · unfold guessFor; rw [k2 h]; exact k1
  · unfold guessFor
    rw [k3 h]
    cases build _ with
    | none => exact k1
    | some i =>
      simp only [Option.bind_some]
      cases eval i x with
      | none => exact k1
      | some g => rfl

end RayOpt.Cache.Any
