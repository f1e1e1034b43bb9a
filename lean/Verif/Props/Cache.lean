import Verif.Model.Cache
import Verif.Props.Material

/-!
C32, C33, C74: caches (rayopt/cachend.py, rayopt/system.py 585-593, memoised methods).
-/

namespace RayOpt.Cache

/-! ### C74: memoised methods -/

section
variable {S K V : Type*} [DecidableEq K]

theorem lru_spec (maxsize : ℕ) (f : K → V) (c : List (K × V)) (k : K)
    (hc : ∀ kv ∈ c, kv.2 = f kv.1) (hn : (c.map Prod.fst).Nodup) (hl : c.length ≤ maxsize) :
    (lru maxsize f c k).1 = f k ∧ (∀ kv ∈ (lru maxsize f c k).2, kv.2 = f kv.1) ∧
      ((lru maxsize f c k).2.map Prod.fst).Nodup ∧ (lru maxsize f c k).2.length ≤ maxsize := by
  unfold lru
  cases h : c.find? fun kv => kv.1 = k with
  | some kv =>
    have hm := List.mem_of_find?_eq_some h
    have hk : kv.1 = k := by simpa using List.find?_some h
    have hlt : (c.filter fun kv => kv.1 ≠ k).length < c.length := by
      apply List.length_filter_lt_length_iff_exists.mpr
      exact ⟨kv, hm, by simp [hk]⟩
    refine ⟨by simp only; rw [hc kv hm, hk], ?_, ?_, ?_⟩
    · intro x hx
      rcases List.mem_cons.mp hx with rfl | hx
      · exact hc _ hm
      · exact hc _ (List.mem_of_mem_filter hx)
    · simp only [List.map_cons, List.nodup_cons]
      refine ⟨?_, ?_⟩
      · intro hx
        obtain ⟨y, hy, hy2⟩ := List.mem_map.mp hx
        have := List.of_mem_filter hy
        simp [hy2, hk] at this
      · exact (List.Sublist.map _ List.filter_sublist).nodup hn
    · simp only [List.length_cons]; omega
  | none =>
    have hnk : ∀ kv ∈ c, kv.1 ≠ k := by
      intro kv hkv
      have := List.find?_eq_none.mp h kv hkv
      simpa using this
    refine ⟨rfl, ?_, ?_, by simp [List.length_take]⟩
    · intro x hx
      rcases List.mem_cons.mp (List.mem_of_mem_take hx) with rfl | hx
      · rfl
      · exact hc _ hx
    · apply (List.Sublist.map _ (List.take_sublist _ _)).nodup
      simp only [List.map_cons, List.nodup_cons]
      refine ⟨?_, hn⟩
      intro hx
      obtain ⟨y, hy, hy2⟩ := List.mem_map.mp hx
      exact hnk y hy hy2

/-- C74: as long as the attributes are not assigned, every answer of a memoised method, in any
sequence of calls, is what the method would compute, and the cache never outgrows its size. -/
theorem c74_pure (maxsize : ℕ) (compute : S → K → V) (ks : List K) (s : S) :
    let r := lruRun maxsize compute (ks.map .query) s []
    r.2.2 = ks.map (fun k => (k, compute s k)) ∧ r.2.1.length ≤ maxsize ∧
      (r.2.1.map Prod.fst).Nodup := by
  have key : ∀ (c : List (K × V)), (∀ kv ∈ c, kv.2 = compute s kv.1) → (c.map Prod.fst).Nodup →
      c.length ≤ maxsize →
      (lruRun maxsize compute (ks.map .query) s c).2.2 = ks.map (fun k => (k, compute s k)) ∧
      (lruRun maxsize compute (ks.map .query) s c).2.1.length ≤ maxsize ∧
      ((lruRun maxsize compute (ks.map .query) s c).2.1.map Prod.fst).Nodup := by
    induction ks with
    | nil => intro c hc hn hl; exact ⟨rfl, hl, hn⟩
    | cons k ks ih =>
      intro c hc hn hl
      obtain ⟨h1, h2, h3, h4⟩ := lru_spec maxsize (compute s) c k hc hn hl
      obtain ⟨i1, i2, i3⟩ := ih _ h2 h3 h4
      simp only [List.map_cons, lruRun]
      exact ⟨by rw [i1, h1], i2, i3⟩
  exact key [] (by simp) (by simp) (by simp)

example : (lruRun 2 (fun (s : ℕ) (k : ℕ) => s + k) ([1, 2, 3, 1].map .query) 10 []).2.2
    = [(1, 11), (2, 12), (3, 13), (1, 11)] := (c74_pure 2 _ [1, 2, 3, 1] 10).1

/-- The number of calls in a history. -/
def queries : List (Op S K) → ℕ
  | [] => 0
  | .query _ :: ops => queries ops + 1
  | .assign _ :: ops => queries ops

/-- The attributes after a history. -/
def attributes : List (Op S K) → S → S
  | [], s => s
  | .query _ :: ops, s => attributes ops s
  | .assign g :: ops, s => attributes ops (g s)

def Holds (c : List (K × V)) (k : K) (v : V) (j : ℕ) : Prop :=
  ∃ pre post, c = pre ++ (k, v) :: post ∧ pre.length ≤ j ∧ ∀ x ∈ pre, x.1 ≠ k

theorem Holds.find {c : List (K × V)} {k : K} {v : V} {j : ℕ} (h : Holds c k v j) :
    c.find? (fun kv => kv.1 = k) = some (k, v) := by
  obtain ⟨pre, post, rfl, -, hp⟩ := h
  rw [List.find?_append, List.find?_eq_none.mpr (by intro x hx; simpa using hp x hx)]
  simp

theorem Holds.step {c : List (K × V)} {k : K} {v : V} {j maxsize : ℕ} (f : K → V)
    (h : Holds c k v j) (hj : j + 1 < maxsize) (k' : K) :
    Holds (lru maxsize f c k').2 k v (j + 1) := by
  obtain ⟨pre, post, rfl, hl, hp⟩ := id h
  unfold lru
  by_cases hk : k' = k
  · subst hk
    rw [h.find]
    exact ⟨[], _, rfl, by simp, by simp⟩
  · cases hf : (pre ++ (k, v) :: post).find? fun kv => kv.1 = k' with
    | some kv =>
      have hkv : kv.1 = k' := by simpa using List.find?_some hf
      refine ⟨kv :: pre.filter (fun kv => kv.1 ≠ k'), post.filter (fun kv => kv.1 ≠ k'), ?_, ?_, ?_⟩
      · simp [Ne.symm hk]
      · have := List.length_filter_le (fun kv : K × V => decide (kv.1 ≠ k')) pre
        simp only [List.length_cons]
        omega
      · intro x hx
        rcases List.mem_cons.mp hx with rfl | hx
        · rw [hkv]; exact hk
        · exact hp x (List.mem_of_mem_filter hx)
    | none =>
      refine ⟨(k', f k') :: pre, post.take (maxsize - (pre.length + 2)), ?_, by simp; omega, ?_⟩
      · simp only [← List.cons_append]
        rw [List.take_append, List.take_of_length_le (by simp; omega)]
        congr 1
        rw [List.length_cons, show maxsize - (pre.length + 1) = maxsize - (pre.length + 2) + 1 by omega,
          List.take_succ_cons]
      · intro x hx
        rcases List.mem_cons.mp hx with rfl | hx
        · exact hk
        · exact hp x hx

/-- C74, violated when attributes change: after a call with key `k`, any assignments and fewer than
`maxsize` other calls, calling with `k` again gives the value computed with the old attributes. -/
theorem c74_stale (maxsize : ℕ) (hm : 0 < maxsize) (compute : S → K → V) (k : K)
    (mid : List (Op S K)) (hmid : queries mid < maxsize) (s : S) :
    (lruRun maxsize compute (.query k :: mid ++ [.query k]) s []).2.2.getLast?
      = some (k, compute s k) ∧
    (lruRun maxsize compute (.query k :: mid ++ [.query k]) s []).1 = attributes mid s := by
  have key : ∀ (mid : List (Op S K)) (s' : S) (c : List (K × V)) (j : ℕ),
      Holds c k (compute s k) j → j + queries mid < maxsize →
      (lruRun maxsize compute (mid ++ [.query k]) s' c).2.2.getLast? = some (k, compute s k) ∧
      (lruRun maxsize compute (mid ++ [.query k]) s' c).1 = attributes mid s' := by
    intro mid
    induction mid with
    | nil =>
      intro s' c j hc hj
      refine ⟨?_, rfl⟩
      simp only [List.nil_append, lruRun, lru, hc.find]
      rfl
    | cons op mid ih =>
      intro s' c j hc hj
      cases op with
      | query k' =>
        simp only [queries] at hj
        have h1 := hc.step (maxsize := maxsize) (compute s') (by omega) k'
        obtain ⟨i1, i2⟩ := ih s' _ _ h1 (by omega)
        refine ⟨?_, ?_⟩
        · simp only [List.cons_append, lruRun]
          rw [List.getLast?_cons, i1]
          rfl
        · simp only [List.cons_append, lruRun, attributes]; exact i2
      | assign g =>
        simp only [queries] at hj
        exact ih (g s') c j hc hj
  have h0 : (lru maxsize (compute s) [] k) = (compute s k, [(k, compute s k)]) := by
    simp only [lru, List.find?_nil]
    rw [List.take_of_length_le (by simp; omega)]
  have hH : Holds [(k, compute s k)] k (compute s k) 0 := ⟨[], [], rfl, by simp, by simp⟩
  obtain ⟨i1, i2⟩ := key mid s _ 0 hH (by omega)
  refine ⟨?_, ?_⟩
  · simp only [List.cons_append, lruRun, h0]
    rw [List.getLast?_cons, i1]
    rfl
  · simp only [List.cons_append, lruRun, h0]
    exact i2

end

open Classical in
/-- C74, violated: assigning `n` of an `AbbeMaterial` whose index was asked before does not change
the index (memoised, rayopt/material.py 201); the optimiser and the solves assign such attributes. -/
theorem c74_abbe (l n : ℝ) (a : Glass.Abbe) :
    (lruRun 1024 Glass.Abbe.index [.query l, .assign fun a => { a with n := n }, .query l] a []).2.2
      = [(l, a.index l), (l, a.index l)] ∧
    (lruRun 1024 Glass.Abbe.index [.query l, .assign fun a => { a with n := n }, .query l] a []).1.n
      = n := by
  simp [lruRun, lru]

example : (Glass.Abbe.ofNV 1.5 .inf).index Glass.lambdaD ≠ ({ Glass.Abbe.ofNV 1.5 .inf with n := 1.6 } :
    Glass.Abbe).index Glass.lambdaD := by
  have := Glass.lines_ne
  simp [Glass.Abbe.index, Glass.Abbe.ofNV, this]
  norm_num

/-! ### C32: the aiming cache -/

section
variable {V : Type*} [AddCommGroup V] [Module ℝ V]

theorem call_spec (solver : Field → Option V → Option V) (st : State V) (x : Field)
    (hn : (st.cache.map Prod.fst).Nodup) :
    let r := call solver st x
    (∃ l, r.2.2.cache = st.cache ++ l) ∧ (r.2.2.cache.map Prod.fst).Nodup ∧
    (∀ v, r.1 = some v → (x, v) ∈ r.2.2.cache) ∧
    (∀ c ∈ r.2.1, c = (x, guessFor st x) ∧ (∀ v, (x, v) ∉ st.cache)) ∧ r.2.1.length ≤ 1 ∧
    (∀ v, r.1 = some v → (x, v) ∈ st.cache ∨
      r.2.1 = [(x, guessFor st x)] ∧ solver x (guessFor st x) = some v) := by
  classical
  unfold call
  cases h : st.cache.find? fun xy => xy.1 = x with
  | some xy =>
    have hm := List.mem_of_find?_eq_some h
    have hx : xy.1 = x := by simpa using List.find?_some h
    have hxy : (x, xy.2) ∈ st.cache := by rw [← hx]; exact hm
    exact ⟨⟨[], by simp⟩, hn, by simp; exact hxy, by simp, by simp, by simp; exact hxy⟩
  | none =>
    have hnx : ∀ xy ∈ st.cache, xy.1 ≠ x := by
      intro xy hxy
      simpa using List.find?_eq_none.mp h xy hxy
    have hnot : ∀ v, (x, v) ∉ st.cache := fun v hv => hnx _ hv rfl
    cases hs : solver x (guessFor st x) with
    | none =>
      refine ⟨⟨[], by simp [hs]⟩, by simpa [hs] using hn, by simp [hs], ?_, by simp [hs],
        by simp [hs]⟩
      simp [hs]; exact hnot
    | some v =>
      refine ⟨⟨[(x, v)], by simp [hs]⟩, ?_, by simp [hs], ?_, by simp [hs], by simp [hs]⟩
      · simp only [hs, List.map_append, List.map_cons, List.map_nil]
        rw [List.nodup_append]
        refine ⟨hn, by simp, ?_⟩
        intro a ha b hb
        obtain ⟨y, hy, rfl⟩ := List.mem_map.mp ha
        simp only [List.mem_cons, List.not_mem_nil, or_false] at hb
        rw [hb]
        exact hnx y hy
      · simp [hs]; exact hnot

theorem calls_spec (solver : Field → Option V → Option V) (xs : List Field) (st : State V)
    (hn : (st.cache.map Prod.fst).Nodup) :
    let r := calls solver xs st
    (∃ l, r.2.2.cache = st.cache ++ l) ∧ (r.2.2.cache.map Prod.fst).Nodup ∧
    (∀ x v, (x, some v) ∈ r.1 → (x, v) ∈ r.2.2.cache) ∧
    (∀ c ∈ r.2.1, ∀ v, (c.1, v) ∉ st.cache) ∧
    (∀ x v, (x, some v) ∈ r.1 → (x, v) ∈ st.cache ∨ ∃ g, (x, g) ∈ r.2.1 ∧ solver x g = some v) ∧
    ((∀ x g, solver x g ≠ none) → (r.2.1.map Prod.fst).Nodup) := by
  induction xs generalizing st with
  | nil => exact ⟨⟨[], by simp [calls]⟩, by simpa [calls] using hn, by simp [calls], by simp [calls],
      by simp [calls], by simp [calls]⟩
  | cons x xs ih =>
    obtain ⟨⟨l1, a1⟩, a2, a3, a4, a5, a6⟩ := call_spec solver st x hn
    obtain ⟨⟨l2, b1⟩, b2, b3, b4, b5, b6⟩ := ih (call solver st x).2.2 a2
    refine ⟨⟨l1 ++ l2, by simp only [calls]; rw [b1, a1, List.append_assoc]⟩, b2, ?_, ?_, ?_, ?_⟩
    · intro y v hy
      simp only [calls, List.mem_cons] at hy
      rcases hy with hy | hy
      · obtain ⟨rfl, h2⟩ := Prod.mk.inj hy
        simp only [calls]
        rw [b1]
        exact List.mem_append_left _ (a3 v h2.symm)
      · exact b3 y v hy
    · intro c hc v hv
      simp only [calls, List.mem_append] at hc
      rcases hc with hc | hc
      · obtain ⟨h1, h2⟩ := a4 c hc
        rw [h1] at hv
        exact h2 v hv
      · apply b4 c hc v
        rw [a1]
        exact List.mem_append_left _ hv
    · intro y v hy
      simp only [calls, List.mem_cons] at hy
      rcases hy with hy | hy
      · obtain ⟨rfl, h2⟩ := Prod.mk.inj hy
        rcases a6 v h2.symm with h | ⟨h, h'⟩
        · exact Or.inl h
        · exact Or.inr ⟨_, by simp only [calls, List.mem_append]; left; rw [h]; simp, h'⟩
      · rcases b5 y v hy with h | ⟨g, h, h'⟩
        · rw [a1, List.mem_append] at h
          rcases h with h | h
          · exact Or.inl h
          · -- the entry was made by this call
            refine Or.inr ?_
            have hv : (y, v) ∈ (call solver st x).2.2.cache := by rw [a1]; exact List.mem_append_right _ h
            clear b1 b2 b3 b4 b5 b6 ih
            revert a1 h hv
            unfold call
            classical
            cases hf : st.cache.find? fun xy => xy.1 = x with
            | some xy => intro h1 h2; simp at h1; simp [h1] at h2
            | none =>
              cases hs : solver x (guessFor st x) with
              | none => intro h1 h2; simp [hs] at h1; simp [h1] at h2
              | some u =>
                intro h1 h2 _
                simp only [hs, List.append_cancel_left_eq] at h1
                rw [← h1] at h2
                simp only [List.mem_cons, List.not_mem_nil, or_false] at h2
                obtain ⟨rfl, rfl⟩ := Prod.mk.inj h2
                refine ⟨guessFor st y, ?_, hs⟩
                simp only [calls, List.mem_append]
                left
                simp [call, hf, hs]
        · exact Or.inr ⟨g, by simp only [calls, List.mem_append]; exact Or.inr h, h'⟩
    · intro hns
      simp only [calls, List.map_append]
      rw [List.nodup_append]
      refine ⟨?_, b6 hns, ?_⟩
      · have := a5
        rcases hl : (call solver st x).2.1 with _ | ⟨c, _ | ⟨d, l⟩⟩
        · simp
        · simp
        · rw [hl] at this; simp at this
      · intro a ha b hb
        obtain ⟨c, hc, rfl⟩ := List.mem_map.mp ha
        obtain ⟨d, hd, rfl⟩ := List.mem_map.mp hb
        rintro heq
        obtain ⟨rfl, -⟩ := a4 c hc
        have h2 : ∃ v, (x, v) ∈ (call solver st x).2.2.cache := by
          cases hr : (call solver st x).1 with
          | some v => exact ⟨v, a3 v hr⟩
          | none =>
            exfalso
            revert hr
            unfold call
            classical
            cases hf : st.cache.find? fun xy => xy.1 = x with
            | some xy => simp
            | none =>
              cases hs : solver x (guessFor st x) with
              | none => exact absurd hs (hns _ _)
              | some u => simp [hs]
        obtain ⟨v, hv⟩ := h2
        exact b4 d hd v (by rw [← heq]; exact hv)

/-- C32: in any sequence of queries, all answers to the same field are equal, every answer is what
the solver gave for that field, and a solver that does not raise is called at most once per field.
The first call gets no guess. -/
theorem c32_once (solver : Field → Option V → Option V) (xs : List Field) (guess : Option V) :
    let r := calls solver xs (init guess)
    (∀ x v w, (x, some v) ∈ r.1 → (x, some w) ∈ r.1 → v = w) ∧
    (∀ x v, (x, some v) ∈ r.1 → ∃ g, (x, g) ∈ r.2.1 ∧ solver x g = some v) ∧
    ((∀ x g, solver x g ≠ none) → (r.2.1.map Prod.fst).Nodup) ∧
    (∀ c, r.2.1.head? = some c → c.2 = none) := by
  obtain ⟨-, h2, h3, -, h5, h6⟩ := calls_spec solver xs (init guess) (by simp [init, clear])
  refine ⟨fun x v w hv hw => ?_, fun x v hv => ?_, h6, ?_⟩
  · have h1 := h3 x v hv
    have h4 := h3 x w hw
    have := List.inj_on_of_nodup_map h2 h1 h4 rfl
    exact (Prod.mk.inj this).2
  · exact (h5 x v hv).resolve_left (by simp [init, clear])
  · intro c hc
    cases xs with
    | nil => simp [calls] at hc
    | cons x xs =>
      classical
      have : (call solver (init guess) x).2.1 = [(x, none)] := by
        have hg : guessFor (init guess : State V) x = none := rfl
        simp only [call, init, clear, List.find?_nil]
        simp only [init, clear] at hg
        rw [hg]
        cases solver x none <;> rfl
      simp only [calls, this] at hc
      simp at hc
      rw [← hc]

example : ∀ x : Field, ∀ g : Option ℝ, (fun (x : Field) (_ : Option ℝ) => some (x.1 + 1)) x g ≠ none := by
  simp

/-- C32, violated: the guess given to the constructor or to `clear` is ignored, and after `clear`
the first query still gets a guess from the forgotten values. -/
theorem c32_clear :
    (∀ g : V, (init (some g) : State V) = init none) ∧
    (∀ (solver : Field → Option V → Option V) (st : State V) (t : List (ℝ × V)) (g : Option V)
      (x : Field), st.table = some t →
      (call solver (clear st g) x).2.1 = [(x, interpolate t x)]) := by
  refine ⟨fun g => rfl, fun solver st t g x ht => ?_⟩
  have hg : guessFor (clear st g) x = interpolate t x := by simp [guessFor, clear, ht]
  simp only [call]
  rw [show (clear st g).cache = [] from rfl, List.find?_nil, hg]
  cases solver x (interpolate t x) <;> simp

example : (call (fun _ _ => some (1 : ℝ)) (init none) (1, 0)).2.2.table ≠ none := by
  simp [call, init, clear]

/-- C32, violated: `System.pupil` keeps one cache per wavelength and stop.  Further keyword arguments
(tolerances) of later calls are ignored. -/
theorem c32_kwargs {K A : Type*} [DecidableEq K] (solve : K → A → Field → Option V → Option V)
    (k : K) (a b : A) (x y : Field) :
    (pupil solve (pupil solve [] k a x).2 k b y).1
      = (call (solve k a) (call (solve k a) (init none) x).2.2 y).1 := by
  simp [pupil]

/-- C32: the caches of different wavelengths and stops are independent: a query with one key does not
change the answer, nor the cache, of another key. -/
theorem c32_keys {K A : Type*} [DecidableEq K] (solve : K → A → Field → Option V → Option V)
    (caches : List (K × A × State V)) (k l : K) (hkl : k ≠ l) (a b : A) (y z : Field) :
    (pupil solve caches l b y).2.find? (fun c => c.1 = k) = caches.find? (fun c => c.1 = k) ∧
    (pupil solve (pupil solve caches l b y).2 k a z).1 = (pupil solve caches k a z).1 := by
  have h : (pupil solve caches l b y).2.find? (fun c => c.1 = k) =
      caches.find? (fun c => c.1 = k) := by
    unfold pupil
    split
    · rename_i c hc
      simp only
      generalize (call (solve l c.2.1) c.2.2 y).2.2 = st
      clear hc
      induction caches with
      | nil => rfl
      | cons c cs ih =>
        rw [List.map_cons, List.find?_cons, List.find?_cons]
        by_cases hc : c.1 = l
        · simp only [hc, if_true, decide_eq_false (Ne.symm hkl)]
          exact ih
        · simp only [hc, if_false]
          by_cases hck : c.1 = k
          · simp [hck]
          · simp only [hck, decide_false]
            exact ih
    · simp [List.find?_append, Ne.symm hkl]
  refine ⟨h, ?_⟩
  generalize (pupil solve caches l b y).2 = cs at h ⊢
  unfold pupil
  rw [h]
  split <;> rfl

example : pupil (V := ℝ) (fun (_ : ℕ) (a : ℝ) _ _ => some a) [] 0 3 (0, 1) =
    (some 3, [(0, 3, ⟨[((0, 1), 3)], none, some (table [((0, 1), 3)])⟩)]) := by
  simp [pupil, call, init, clear]

/-! ### C33: interpolated guesses -/

omit [AddCommGroup V] [Module ℝ V] in
theorem table_spec (cache : List (Field × V)) :
    (table cache).Pairwise (fun a b => a.1 ≤ b.1) ∧
    ∀ r v, (r, v) ∈ table cache ↔ ∃ x, (x, v) ∈ cache ∧ radius x = r := by
  classical
  have : Std.Total (fun a b : ℝ × V => a.1 ≤ b.1) := ⟨fun a b => le_total _ _⟩
  have : IsTrans (ℝ × V) (fun a b => a.1 ≤ b.1) := ⟨fun a b c => le_trans⟩
  refine ⟨List.pairwise_insertionSort _ _, fun r v => ?_⟩
  rw [table, List.Perm.mem_iff (List.perm_insertionSort _ _), List.mem_map]
  constructor
  · rintro ⟨⟨x, w⟩, hx, h⟩
    obtain ⟨rfl, rfl⟩ := Prod.mk.inj h
    exact ⟨x, hx, rfl⟩
  · rintro ⟨x, hx, rfl⟩
    exact ⟨(x, v), hx, rfl⟩

omit [AddCommGroup V] [Module ℝ V] in
theorem countP_sorted (tab : List (ℝ × V)) (h : tab.Pairwise fun a b => a.1 ≤ b.1) (r : ℝ) (i : ℕ)
    (hi : i < tab.length) : tab[i].1 < r ↔ i < tab.countP fun t => t.1 < r := by
  induction tab generalizing i with
  | nil => simp at hi
  | cons t tab ih =>
    rw [List.pairwise_cons] at h
    by_cases ht : t.1 < r
    · rw [List.countP_cons_of_pos (by simpa using ht)]
      cases i with
      | zero => simp [ht]
      | succ i =>
        have := ih h.2 i (by simpa using hi)
        simp only [List.getElem_cons_succ, this]
        omega
    · have h0 : tab.countP (fun t => t.1 < r) = 0 := by
        rw [List.countP_eq_zero]
        intro a ha
        have := h.1 a ha
        simp only [decide_eq_true_eq, not_lt]
        push Not at ht
        linarith
      rw [List.countP_cons_of_neg (by simpa using ht), h0]
      simp only [Nat.not_lt_zero, iff_false]
      cases i with
      | zero => simpa using ht
      | succ i =>
        have := h.1 _ (List.getElem_mem (l := tab) (n := i) (by simpa using hi))
        simp only [List.getElem_cons_succ]
        push Not at ht ⊢
        linarith

/-- What the interpolator gives on a sorted table. -/
theorem interpolate_spec (T : List (ℝ × V)) (h : T.Pairwise fun a b => a.1 ≤ b.1)
    (h0 : T ≠ []) (x : Field) :
    (∃ a ∈ T, (∀ b ∈ T, a.1 ≤ b.1) ∧ radius x ≤ a.1 ∧ interpolate T x = some a.2) ∨
    (∃ a ∈ T, (∀ b ∈ T, b.1 ≤ a.1) ∧ a.1 ≤ radius x ∧ interpolate T x = some a.2) ∨
    (∃ a ∈ T, ∃ b ∈ T, a.1 < radius x ∧ radius x ≤ b.1 ∧
      (∀ c ∈ T, c.1 ≤ a.1 ∨ b.1 ≤ c.1) ∧
      interpolate T x = some (a.2 + ((radius x - a.1) / (b.1 - a.1)) • (b.2 - a.2))) := by
  have hpos : 0 < T.length := List.length_pos_iff.mpr h0
  have hlast : T.getLast? = some (T[T.length - 1]) := by
    rw [List.getLast?_eq_getElem?, List.getElem?_eq_getElem (by omega)]
  have hhead : T.head? = some (T[0]) := by
    rw [List.head?_eq_getElem?, List.getElem?_eq_getElem hpos]
  have hmono : ∀ i j (hi : i < T.length) (hj : j < T.length), i ≤ j → (T[i]).1 ≤ (T[j]).1 := by
    intro i j hi hj hij
    rcases eq_or_lt_of_le hij with rfl | hij
    · exact le_rfl
    · exact List.pairwise_iff_getElem.mp h i j hi hj hij
  have hcount := countP_sorted T h (radius x)
  unfold interpolate
  simp only [hhead, hlast, Option.bind_some]
  by_cases h1 : radius x ≤ (T[0]).1
  · left
    refine ⟨T[0], List.getElem_mem _, ?_, h1, by rw [if_pos h1]⟩
    intro b hb
    obtain ⟨j, hj, rfl⟩ := List.getElem_of_mem hb
    exact hmono 0 j _ hj (Nat.zero_le _)
  · right
    by_cases h2 : (T[T.length - 1]).1 ≤ radius x
    · left
      refine ⟨T[T.length - 1], List.getElem_mem _, ?_, h2, by rw [if_neg h1, if_pos h2]⟩
      intro b hb
      obtain ⟨j, hj, rfl⟩ := List.getElem_of_mem hb
      exact hmono j _ hj _ (by omega)
    · right
      have c0 := (hcount 0 hpos).mp (not_le.mp h1)
      have c1 : ¬ (T.length - 1 < T.countP fun t => t.1 < radius x) := by
        rw [← hcount (T.length - 1) (by omega)]
        push Not at h2 ⊢
        exact h2.le
      set n := T.countP fun t => t.1 < radius x with hn
      have hn1 : n - 1 < T.length := by omega
      have hn2 : n < T.length := by omega
      have ha := (hcount (n - 1) hn1).mpr (by omega)
      have hb := mt (hcount n hn2).mp (lt_irrefl _)
      refine ⟨T[n - 1], List.getElem_mem _, T[n], List.getElem_mem _, ha, not_lt.mp hb, ?_, ?_⟩
      · intro c hc
        obtain ⟨j, hj, rfl⟩ := List.getElem_of_mem hc
        by_cases hjn : j ≤ n - 1
        · exact Or.inl (hmono j _ hj _ hjn)
        · exact Or.inr (hmono n j _ hj (by omega))
      · rw [if_neg h1, if_neg h2, List.getElem?_eq_getElem hn1, List.getElem?_eq_getElem hn2]
        rfl

/-- C33: at the distance of a known field point (and any azimuth) the guess is the known value. -/
theorem c33_exact (cache : List (Field × V)) (x : Field) (v : V) (hx : (x, v) ∈ cache)
    (hd : ∀ y w, (y, w) ∈ cache → radius y = radius x → w = v) (y : Field)
    (hy : radius y = radius x) : interpolate (table cache) y = some v := by
  obtain ⟨hs, hm⟩ := table_spec cache
  have hv : (radius x, v) ∈ table cache := (hm _ _).mpr ⟨x, hx, rfl⟩
  have huniq : ∀ a ∈ table cache, a.1 = radius y → a.2 = v := by
    intro a ha h
    obtain ⟨z, hz, hz2⟩ := (hm a.1 a.2).mp ha
    exact hd z _ hz (by rw [hz2, h, hy])
  rcases interpolate_spec (table cache) hs (List.ne_nil_of_mem hv) y with
    ⟨a, ha, h1, h2, h3⟩ | ⟨a, ha, h1, h2, h3⟩ | ⟨a, ha, b, hb, h1, h2, h3, h4⟩
  · rw [h3, huniq a ha (le_antisymm (by rw [hy]; exact h1 _ hv) h2)]
  · rw [h3, huniq a ha (le_antisymm h2 (by rw [hy]; exact h1 _ hv))]
  · have hb1 : b.1 = radius y := by
      rcases h3 _ hv with h | h
      · simp only at h; rw [hy] at h1; linarith
      · exact le_antisymm (by rw [hy]; exact h) h2
    rw [h4, huniq b hb hb1, hb1, div_self (by linarith), one_smul, add_sub_cancel]

/-- C33: otherwise it is on the segment between the values of the neighbouring distances, in
proportion, and the value of the nearest distance outside of the known range. -/
theorem c33_segment (cache : List (Field × V)) (h0 : cache ≠ []) (x : Field) :
    (∃ y v, (y, v) ∈ cache ∧ interpolate (table cache) x = some v ∧
      ((∀ z w, (z, w) ∈ cache → radius x ≤ radius y ∧ radius y ≤ radius z) ∨
       (∀ z w, (z, w) ∈ cache → radius z ≤ radius y ∧ radius y ≤ radius x))) ∨
    (∃ y v z w, (y, v) ∈ cache ∧ (z, w) ∈ cache ∧ radius y < radius x ∧ radius x ≤ radius z ∧
      (∀ t u, (t, u) ∈ cache → radius t ≤ radius y ∨ radius z ≤ radius t) ∧
      ∃ s, 0 ≤ s ∧ s ≤ 1 ∧ radius x = (1 - s) * radius y + s * radius z ∧
        interpolate (table cache) x = some ((1 - s) • v + s • w)) := by
  obtain ⟨hs, hm⟩ := table_spec cache
  have hne : table cache ≠ [] := by
    obtain ⟨⟨y, v⟩, l, rfl⟩ := List.exists_cons_of_ne_nil h0
    exact List.ne_nil_of_mem ((hm (radius y) v).mpr ⟨y, by simp, rfl⟩)
  rcases interpolate_spec (table cache) hs hne x with
    ⟨a, ha, h1, h2, h3⟩ | ⟨a, ha, h1, h2, h3⟩ | ⟨a, ha, b, hb, h1, h2, h3, h4⟩
  · obtain ⟨y, hy, hy2⟩ := (hm a.1 a.2).mp ha
    refine Or.inl ⟨y, a.2, hy, h3, Or.inl fun z w hz => ⟨by rw [hy2]; exact h2, ?_⟩⟩
    rw [hy2]
    exact h1 (radius z, w) ((hm _ _).mpr ⟨z, hz, rfl⟩)
  · obtain ⟨y, hy, hy2⟩ := (hm a.1 a.2).mp ha
    refine Or.inl ⟨y, a.2, hy, h3, Or.inr fun z w hz => ⟨?_, by rw [hy2]; exact h2⟩⟩
    rw [hy2]
    exact h1 (radius z, w) ((hm _ _).mpr ⟨z, hz, rfl⟩)
  · obtain ⟨y, hy, hy2⟩ := (hm a.1 a.2).mp ha
    obtain ⟨z, hz, hz2⟩ := (hm b.1 b.2).mp hb
    have hba : 0 < b.1 - a.1 := by linarith
    refine Or.inr ⟨y, a.2, z, b.2, hy, hz, by rw [hy2]; exact h1, by rw [hz2]; exact h2, ?_,
      (radius x - a.1) / (b.1 - a.1), div_nonneg (by linarith) hba.le,
      (div_le_one hba).mpr (by linarith), ?_, ?_⟩
    · intro t u ht
      rw [hy2, hz2]
      exact h3 (radius t, u) ((hm _ _).mpr ⟨t, ht, rfl⟩)
    · rw [hy2, hz2]; field_simp; ring
    · rw [h4]
      congr 1
      module

/-- C33: if the known values are an affine function of the distance, so is the guess in the known
range. -/
theorem c33_affine (cache : List (Field × V)) (p q : V)
    (hv : ∀ y v, (y, v) ∈ cache → v = p + radius y • q) (x y z : Field) (v w : V)
    (hy : (y, v) ∈ cache) (hz : (z, w) ∈ cache) (h1 : radius y ≤ radius x)
    (h2 : radius x ≤ radius z) : interpolate (table cache) x = some (p + radius x • q) := by
  rcases c33_segment cache (List.ne_nil_of_mem hy) x with
    ⟨a, u, ha, h3, h4⟩ | ⟨a, u, b, t, ha, hb, -, -, -, s, -, -, hs, h4⟩
  · rw [h3, hv a u ha]
    rcases h4 with h4 | h4
    · have e1 := h4 y v hy
      rw [show radius a = radius x by linarith]
    · have e1 := h4 z w hz
      rw [show radius a = radius x by linarith]
  · rw [h4, hv a u ha, hv b t hb, hs]
    congr 1
    module

example : interpolate (table [((0, 0), (1 : ℝ)), ((4, 3), 11)]) (2, 0) = some (1 + 2 * 2) := by
  have r0 : radius (0, 0) = 0 := by simp [radius]
  have r5 : radius (4, 3) = 5 := by
    rw [radius, show (4 : ℝ) ^ 2 + 3 ^ 2 = 5 ^ 2 by norm_num, Real.sqrt_sq (by norm_num)]
  have r2 : radius (2, 0) = 2 := by simp [radius]
  rw [c33_affine [((0, 0), (1 : ℝ)), ((4, 3), 11)] 1 2 ?_ (2, 0) (0, 0) (4, 3) 1 11 (by simp)
    (by simp) (by rw [r0, r2]; norm_num) (by rw [r2, r5]; norm_num), r2, smul_eq_mul]
  intro y v hy
  simp only [List.mem_cons, List.not_mem_nil, or_false, Prod.mk.injEq] at hy
  rcases hy with ⟨rfl, rfl⟩ | ⟨rfl, rfl⟩
  · simp [r0]
  · rw [r5]; norm_num

/-- C33, violated: the guess does not depend on the azimuth, so field points on opposite sides get
the same one. -/
theorem c33_azimuth (cache : List (Field × V)) (x y : Field)
    (h : x.1 ^ 2 + x.2 ^ 2 = y.1 ^ 2 + y.2 ^ 2) :
    interpolate (table cache) x = interpolate (table cache) y := by
  have hr : radius x = radius y := by rw [radius, radius, h]
  unfold interpolate
  rw [hr]

example : (3 : ℝ) ^ 2 + 4 ^ 2 = (-5) ^ 2 + 0 ^ 2 := by norm_num

/-- C33: a guess is available for every query after the first successful one. -/
theorem c33_available (solver : Field → Option V → Option V) (xs : List Field) (guess : Option V)
    (x : Field) (h : (calls solver xs (init guess)).2.2.cache ≠ []) :
    ∃ g, guessFor (calls solver xs (init guess)).2.2 x = some g := by
  have key : ∀ (xs : List Field) (st : State V),
      (st.cache = [] ∨ st.table = some (table st.cache)) →
      ((calls solver xs st).2.2.cache = [] ∨
        (calls solver xs st).2.2.table = some (table (calls solver xs st).2.2.cache)) := by
    intro xs
    induction xs with
    | nil => intro st hst; exact hst
    | cons y xs ih =>
      intro st hst
      apply ih
      unfold call
      classical
      cases hf : st.cache.find? fun xy => xy.1 = y with
      | some xy => exact hst
      | none =>
        cases hs : solver y (guessFor st y) with
        | none => simpa [hs] using hst
        | some u => right; simp [hs]
  have ht := (key xs (init guess) (Or.inl rfl)).resolve_left h
  set st := (calls solver xs (init guess)).2.2
  have hg : guessFor st x = interpolate (table st.cache) x := by simp [guessFor, ht]
  rw [hg]
  rcases c33_segment st.cache h x with ⟨_, v, _, h, _⟩ | ⟨_, _, _, _, _, _, _, _, _, _, _, _, _, h⟩
  · exact ⟨v, h⟩
  · exact ⟨_, h⟩

example : (calls (fun _ _ => some (1 : ℝ)) [(1, 0)] (init none)).2.2.cache ≠ [] := by
  simp [calls, call, init, clear]

end

end RayOpt.Cache
