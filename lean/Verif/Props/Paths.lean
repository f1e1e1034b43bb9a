import Verif.Lemmas.Paths

/-!
Properties C27 (pickups), C28 (validators) and C76 (solves).
-/

namespace RayOpt.Paths

/-! ## C27 -/

theorem run_cases {p : Pickup} {s s' : Node} (he : p.setExec = none) (h : p.run s = some s') :
    s' = s ∨ ∃ d v, p.set = some d ∧ setPath v d s = some s' := by
  unfold Pickup.run at h
  cases hv : p.value s with
  | none => simp [hv, bind] at h
  | some v =>
    cases hs : p.set with
    | none =>
      simp only [hv, hs, he, bind, Option.bind_some, Option.some.injEq] at h
      exact .inl h.symm
    | some d =>
      simp only [hv, hs, he, bind, Option.bind_some] at h
      refine .inr ⟨d, v, rfl, ?_⟩
      cases h6 : setPath v d s with
      | none => simp [h6] at h
      | some s2 => simpa [h6] using h

/-- C27: the value that a pickup computed from the state after all earlier pickups is found at its
target after all pickups, if the later ones write elsewhere. -/
theorem c27_value (ps qs : List Pickup) (p : Pickup) (dst : Path) (hset : p.set = some dst)
    (hexec : p.setExec = none)
    (hqs : ∀ q ∈ qs, q.setExec = none ∧ ∀ d, q.set = some d → Apart d dst) (s s' : Node)
    (h : pickup (ps ++ p :: qs) s = some s') :
    ∃ s1 v, pickup ps s = some s1 ∧ p.value s1 = some v ∧ getPath dst s' = some v := by
  induction ps generalizing s with
  | nil =>
    simp only [List.nil_append, pickup, Option.bind_eq_some_iff] at h
    obtain ⟨s2, h1, h2⟩ := h
    simp only [Pickup.run, hset, hexec, bind, Option.bind_eq_some_iff] at h1
    obtain ⟨v, hv, s3, h3, h4⟩ := h1
    cases h4
    refine ⟨s, v, rfl, hv, ?_⟩
    have hg := getPath_setPath h3
    clear h3 hv
    induction qs generalizing s2 with
    | nil => cases h2; exact hg
    | cons q qs ih =>
      simp only [pickup, Option.bind_eq_some_iff] at h2
      obtain ⟨s4, h4, h5⟩ := h2
      refine ih (fun q' hq' => hqs q' (List.mem_cons_of_mem _ hq')) s4 h5 ?_
      obtain ⟨e1, e2⟩ := hqs q List.mem_cons_self
      rcases run_cases e1 h4 with rfl | ⟨d, w, hs, h6⟩
      · exact hg
      · rw [getPath_setPath_apart (e2 d hs) h6]
        exact hg
  | cons q ps ih =>
    simp only [List.cons_append, pickup, Option.bind_eq_some_iff] at h
    obtain ⟨s2, h1, h2⟩ := h
    obtain ⟨s1, v, h3, h4, h5⟩ := ih s2 h2
    exact ⟨s1, v, by simp [pickup, h1, h3], h4, h5⟩

/-- The value of a plain pickup: factor times source plus offset. -/
theorem plain_value (p : Plain) (s : Node) (v : Node) :
    p.toPickup.value s = some v ↔
      ∃ x, getPath p.src s = some (.num x) ∧ v = .num (x * p.factor + p.offset) := by
  simp only [Pickup.value, Plain.toPickup, bind, Option.bind_some]
  cases hg : getPath p.src s with
  | none => simp
  | some w =>
    cases w with
    | null => simp [Node.withNum]
    | obj as is => simp [Node.withNum]
    | num x =>
      simp only [Option.bind_some, Node.withNum, Option.some.injEq, Node.num.injEq,
        exists_eq_left']
      exact eq_comm

/-- C27 for a pickup with `get`, `factor`, `offset` and `set`: its target ends up with factor times
the source plus offset, the source read after all earlier pickups. -/
theorem c27_plain (ps qs : List Pickup) (p : Plain)
    (hqs : ∀ q ∈ qs, q.setExec = none ∧ ∀ d, q.set = some d → Apart d p.dst) (s s' : Node)
    (h : pickup (ps ++ p.toPickup :: qs) s = some s') :
    ∃ s1 x, pickup ps s = some s1 ∧ getPath p.src s1 = some (.num x) ∧
      getPath p.dst s' = some (.num (p.factor * x + p.offset)) := by
  obtain ⟨s1, v, h1, h2, h3⟩ := c27_value ps qs p.toPickup p.dst rfl rfl hqs s s' h
  rw [plain_value] at h2
  obtain ⟨x, hx, rfl⟩ := h2
  exact ⟨s1, x, h1, hx, by rw [h3, mul_comm]⟩

/-- C27: paths that part from all targets keep their values. -/
theorem c27_frame (ps : List Pickup) (q : Path)
    (hps : ∀ p ∈ ps, p.setExec = none ∧ ∀ d, p.set = some d → Apart d q) (s s' : Node)
    (h : pickup ps s = some s') : getPath q s' = getPath q s := by
  induction ps generalizing s with
  | nil => cases h; rfl
  | cons p ps ih =>
    simp only [pickup, Option.bind_eq_some_iff] at h
    obtain ⟨s4, h4, h5⟩ := h
    rw [ih (fun q' hq' => hps q' (List.mem_cons_of_mem _ hq')) s4 h5]
    obtain ⟨e1, e2⟩ := hps p List.mem_cons_self
    rcases run_cases e1 h4 with rfl | ⟨d, w, hs, h6⟩
    · rfl
    · exact getPath_setPath_apart (e2 d hs) h6

/-! ### Writing twice -/

/-- A sequence of writes. -/
def writes : List (Path × Node) → Node → Option Node
  | [], s => some s
  | (p, w) :: ws, s => (setPath w p s).bind (writes ws)

theorem writes_append (a b : List (Path × Node)) (u : Node) :
    writes (a ++ b) u = (writes a u).bind (writes b) := by
  induction a generalizing u with
  | nil => rfl
  | cons y a ih =>
    obtain ⟨y1, y2⟩ := y
    simp only [List.cons_append, writes]
    cases setPath y2 y1 u with
    | none => rfl
    | some u' => exact ih u'

/-- All paths in the list are equal or part. -/
def Clean (l : List Path) : Prop := ∀ p ∈ l, ∀ q ∈ l, p = q ∨ Apart p q

theorem writes_readable {P : Path} {v t t1 : Node} (h : setPath v P t = some t1) {Q : Path}
    (hQ : P = Q ∨ Apart P Q) (hr : getPath Q t ≠ none) : getPath Q t1 ≠ none := by
  rcases hQ with rfl | ha
  · rw [getPath_setPath h]; simp
  · rwa [getPath_setPath_apart ha h]

/-- A write is forgotten if the same path is written later. -/
theorem writes_absorb (ws : List (Path × Node)) (P : Path) (v t t1 : Node)
    (hc : Clean (P :: ws.map Prod.fst)) (hr : ∀ Q ∈ ws.map Prod.fst, getPath Q t ≠ none)
    (hne : ∀ Q ∈ ws.map Prod.fst, Q ≠ []) (hP : P ∈ ws.map Prod.fst)
    (h : setPath v P t = some t1) : writes ws t1 = writes ws t := by
  induction ws generalizing t t1 with
  | nil => simp at hP
  | cons x ws ih =>
    obtain ⟨Q, w⟩ := x
    by_cases hQP : Q = P
    · subst hQP
      simp only [writes]
      rw [setPath_setPath h]
    · have ha : Apart P Q := by
        rcases hc P List.mem_cons_self Q (by simp) with h | h
        · exact absurd h.symm hQP
        · exact h
      have hPt : getPath P t ≠ none := hr P hP
      have hmem : P ∈ ws.map Prod.fst := by
        simp only [List.map_cons, List.mem_cons] at hP
        rcases hP with h | h
        · exact absurd h.symm hQP
        · exact h
      obtain ⟨t2, h2⟩ := setPath_some (hne Q (by simp)) (hr Q (by simp)) w
      have hPt2 : getPath P t2 ≠ none := by rwa [getPath_setPath_apart ha.symm h2]
      obtain ⟨t3, h3⟩ := setPath_some (hne P hP) hPt2 v
      have hcomm := setPath_comm ha (w := v) (w' := w) hPt
      rw [h, h2, Option.bind_some, Option.bind_some, h3] at hcomm
      simp only [writes]
      rw [hcomm, h2, Option.bind_some, Option.bind_some]
      refine ih t2 t3 ?_ ?_ (fun Q' hQ' => hne Q' (by simp [hQ'])) hmem h3
      · intro p hp q hq
        refine hc p ?_ q ?_
        · simp only [List.mem_cons, List.map_cons] at hp ⊢; tauto
        · simp only [List.mem_cons, List.map_cons] at hq ⊢; tauto
      · intro Q' hQ'
        refine writes_readable h2 ?_ (hr Q' (by simp [hQ']))
        exact hc Q (by simp) Q' (by simp [hQ'])

/-- A sequence of writes forgets writes to the same paths made before. -/
theorem writes_absorb_all (ws ws' : List (Path × Node)) (t t1 : Node)
    (hc : Clean (ws.map Prod.fst)) (hr : ∀ Q ∈ ws.map Prod.fst, getPath Q t ≠ none)
    (hne : ∀ Q ∈ ws.map Prod.fst, Q ≠ []) (hsub : ws'.map Prod.fst ⊆ ws.map Prod.fst)
    (h : writes ws' t = some t1) : writes ws t1 = writes ws t := by
  induction ws' generalizing t with
  | nil => cases h; rfl
  | cons x ws' ih =>
    obtain ⟨P, v⟩ := x
    simp only [writes, Option.bind_eq_some_iff] at h
    obtain ⟨t2, h2, h3⟩ := h
    have hP : P ∈ ws.map Prod.fst := hsub (by simp)
    have hc' : Clean (P :: ws.map Prod.fst) := by
      intro p hp q hq
      refine hc p ?_ q ?_
      · rcases List.mem_cons.mp hp with rfl | hp
        · exact hP
        · exact hp
      · rcases List.mem_cons.mp hq with rfl | hq
        · exact hP
        · exact hq
    rw [← writes_absorb ws P v t t2 hc' hr hne hP h2]
    refine ih t2 ?_ (fun Q hQ => hsub (by simp only [List.map_cons, List.mem_cons]; exact .inr hQ)) h3
    intro Q hQ
    exact writes_readable h2 (hc P hP Q hQ) (hr Q hQ)

theorem writes_frame (ws : List (Path × Node)) (q : Path) (s s' : Node)
    (hq : ∀ P ∈ ws.map Prod.fst, Apart P q) (h : writes ws s = some s') :
    getPath q s' = getPath q s := by
  induction ws generalizing s with
  | nil => cases h; rfl
  | cons x ws ih =>
    obtain ⟨P, v⟩ := x
    simp only [writes, Option.bind_eq_some_iff] at h
    obtain ⟨t2, h2, h3⟩ := h
    rw [ih t2 (fun P hP => hq P (by simp only [List.map_cons, List.mem_cons]; exact .inr hP)) h3,
      getPath_setPath_apart (hq P (by simp)) h2]

theorem writes_nonempty (ws : List (Path × Node)) (s s' : Node) (h : writes ws s = some s') :
    ∀ P ∈ ws.map Prod.fst, P ≠ [] := by
  induction ws generalizing s with
  | nil => simp
  | cons x ws ih =>
    obtain ⟨P, v⟩ := x
    simp only [writes, Option.bind_eq_some_iff] at h
    obtain ⟨t2, h2, h3⟩ := h
    intro Q hQ
    simp only [List.map_cons, List.mem_cons] at hQ
    rcases hQ with rfl | hQ
    · rintro rfl; simp [setPath] at h2
    · exact ih t2 h3 Q hQ

theorem writes_readable_after (ws : List (Path × Node)) (s s' : Node)
    (hc : Clean (ws.map Prod.fst)) (h : writes ws s = some s') :
    ∀ P ∈ ws.map Prod.fst, getPath P s' ≠ none := by
  induction ws generalizing s with
  | nil => simp
  | cons x ws ih =>
    obtain ⟨P, v⟩ := x
    simp only [writes, Option.bind_eq_some_iff] at h
    obtain ⟨t2, h2, h3⟩ := h
    have hc' : Clean (ws.map Prod.fst) := fun p hp q hq => hc p (by simp [hp]) q (by simp [hq])
    intro Q hQ
    by_cases hQw : Q ∈ ws.map Prod.fst
    · exact ih t2 hc' h3 Q hQw
    · simp only [List.map_cons, List.mem_cons] at hQ
      have : Q = P := hQ.resolve_right hQw
      subst this
      rw [writes_frame ws Q t2 s' ?_ h3, getPath_setPath h2]
      · simp
      · intro P hP
        rcases hc P (by simp [hP]) Q (by simp) with rfl | h
        · exact absurd hP hQw
        · exact h

/-- The pickup list of plain pickups. -/
def plains (L : List Plain) : List Pickup := L.map Plain.toPickup

theorem pickup_plain (p : Plain) (L : List Plain) (s : Node) :
    pickup (plains (p :: L)) s = (match getPath p.src s with
      | some (.num x) => (setPath (.num (x * p.factor + p.offset)) p.dst s).bind (pickup (plains L))
      | _ => none) := by
  simp only [plains, List.map_cons, pickup, Pickup.run, bind]
  cases hv : p.toPickup.value s with
  | none =>
    have : ∀ x, getPath p.src s ≠ some (.num x) := by
      intro x hx
      have := (plain_value p s _).mpr ⟨x, hx, rfl⟩
      rw [hv] at this
      cases this
    simp only [Option.bind_none]
  | some v =>
    obtain ⟨x, hx, rfl⟩ := (plain_value p s v).mp hv
    rw [hx]
    simp only [Option.bind_some, Plain.toPickup]
    cases setPath (.num (x * p.factor + p.offset)) p.dst s <;> rfl

/-- Plain pickups on a state that agrees on the sources make the same writes. -/
theorem pickup_replay (L : List Plain) (s s' t : Node) (h : pickup (plains L) s = some s')
    (hsd : ∀ p ∈ L, ∀ q ∈ L, p.src = q.dst ∨ Apart p.src q.dst)
    (hag : ∀ L1 q L2, L = L1 ++ q :: L2 → q.src ∉ L1.map Plain.dst →
      getPath q.src t = getPath q.src s) :
    ∃ ws, ws.map Prod.fst = L.map Plain.dst ∧ writes ws s = some s' ∧
      pickup (plains L) t = writes ws t := by
  induction L generalizing s t with
  | nil => exact ⟨[], rfl, h, rfl⟩
  | cons p L ih =>
    rw [pickup_plain] at h
    have h0 := hag [] p L rfl (by simp)
    cases hg : getPath p.src s with
    | none => rw [hg] at h; simp at h
    | some w =>
      cases w with
      | null => rw [hg] at h; simp at h
      | obj as is => rw [hg] at h; simp at h
      | num x =>
        rw [hg] at h
        simp only [Option.bind_eq_some_iff] at h
        obtain ⟨s1, h1, h2⟩ := h
        rw [pickup_plain, h0, hg]
        simp only
        cases ht : setPath (.num (x * p.factor + p.offset)) p.dst t with
        | none =>
          obtain ⟨ws, e1, e2, -⟩ := ih s1 s1 h2
            (fun p hp q hq => hsd p (by simp [hp]) q (by simp [hq])) (fun _ _ _ _ _ => rfl)
          exact ⟨(p.dst, .num (x * p.factor + p.offset)) :: ws, by simp [e1],
            by simp [writes, h1, e2], by simp [writes, ht]⟩
        | some t1 =>
          obtain ⟨ws, e1, e2, e3⟩ := ih s1 t1 h2
            (fun p hp q hq => hsd p (by simp [hp]) q (by simp [hq])) (by
              intro L1 q L2 hL hq
              by_cases hqp : q.src = p.dst
              · rw [hqp, getPath_setPath h1, getPath_setPath ht]
              · have ha : Apart p.dst q.src := by
                  rcases hsd q (by simp [hL]) p (by simp) with h | h
                  · exact absurd h hqp
                  · exact h.symm
                rw [getPath_setPath_apart ha h1, getPath_setPath_apart ha ht]
                exact hag (p :: L1) q L2 (by simp [hL]) (by simp [hqp]; simpa using hq))
          exact ⟨(p.dst, .num (x * p.factor + p.offset)) :: ws, by simp [e1],
            by simp [writes, h1, e2], by simp [writes, ht, e3]⟩

/-- C27: applying plain pickups twice is applying them once, if no target is the source of the same
or an earlier pickup (and any two paths are equal or part). -/
theorem c27_twice (L : List Plain) (s s' : Node)
    (hdd : ∀ p ∈ L, ∀ q ∈ L, p.dst = q.dst ∨ Apart p.dst q.dst)
    (hsd : ∀ p ∈ L, ∀ q ∈ L, p.src = q.dst ∨ Apart p.src q.dst)
    (hself : ∀ p ∈ L, p.src ≠ p.dst) (hearlier : L.Pairwise fun p q => p.src ≠ q.dst)
    (h : pickup (plains L) s = some s') : pickup (plains L) s' = some s' := by
  have hclean : Clean (L.map Plain.dst) := by
    intro p hp q hq
    rw [List.mem_map] at hp hq
    obtain ⟨a, ha, rfl⟩ := hp
    obtain ⟨b, hb, rfl⟩ := hq
    exact hdd a ha b hb
  obtain ⟨ws, e1, e2, e3⟩ := pickup_replay L s s' s' h hsd (by
    intro L1 q L2 hL hq
    have hqL : q ∈ L := by simp [hL]
    have hno : ∀ p ∈ L, Apart p.dst q.src := by
      intro p hp
      rcases hsd q hqL p hp with heq | ha
      · exfalso
        rw [hL] at hp
        simp only [List.mem_append, List.mem_cons] at hp
        rcases hp with hp | rfl | hp
        · exact hq (by rw [heq]; exact List.mem_map_of_mem hp)
        · exact hself p hqL heq
        · rw [hL, List.pairwise_append] at hearlier
          exact List.rel_of_pairwise_cons hearlier.2.1 hp heq
      · exact ha.symm
    refine c27_frame (plains L) q.src ?_ s s' h
    intro p hp
    simp only [plains, List.mem_map] at hp
    obtain ⟨a, ha, rfl⟩ := hp
    refine ⟨rfl, fun d hd => ?_⟩
    cases hd
    exact hno a ha)
  rw [e3]
  have hc : Clean (ws.map Prod.fst) := by rw [e1]; exact hclean
  -- the writes of the second pass change nothing
  suffices hid : ∀ ws0 ws1 : List (Path × Node), ws = ws0 ++ ws1 →
      ∀ t, writes ws0 s = some t → writes ws1 s' = some s' by
    exact hid [] ws rfl s rfl
  intro ws0 ws1
  induction ws1 generalizing ws0 with
  | nil => intro _ t _; rfl
  | cons x ws1 ih =>
    obtain ⟨P, v⟩ := x
    intro hsplit t ht
    have hne : ∀ Q ∈ ws.map Prod.fst, Q ≠ [] := writes_nonempty ws s s' e2
    have hread := writes_readable_after ws s s' hc e2
    have hPm : P ∈ ws.map Prod.fst := by simp [hsplit]
    have hlast : (writes ((P, v) :: ws1) t) = some s' := by
      rw [hsplit, writes_append, ht] at e2
      exact e2
    simp only [writes, Option.bind_eq_some_iff] at hlast
    obtain ⟨t1, ht1, ht2⟩ := hlast
    have hrec : writes ws1 s' = some s' := by
      refine ih (ws0 ++ [(P, v)]) (by simp [hsplit]) t1 ?_
      rw [writes_append, ht]
      simp [writes, ht1]
    by_cases hP1 : P ∈ ws1.map Prod.fst
    · obtain ⟨u, hu⟩ := setPath_some (hne P hPm) (hread P hPm) v
      have hsub : ∀ Q ∈ ws1.map Prod.fst, Q ∈ ws.map Prod.fst := by
        intro Q hQ
        rw [hsplit, List.map_append, List.map_cons]
        exact List.mem_append_right _ (List.mem_cons_of_mem _ hQ)
      simp only [writes, hu, Option.bind_some]
      rw [writes_absorb ws1 P v s' u ?_ (fun Q hQ => hread Q (hsub Q hQ))
        (fun Q hQ => hne Q (hsub Q hQ)) hP1 hu, hrec]
      intro p hp q hq
      refine hc p ?_ q ?_
      · rcases List.mem_cons.mp hp with rfl | hp
        · exact hPm
        · exact hsub p hp
      · rcases List.mem_cons.mp hq with rfl | hq
        · exact hPm
        · exact hsub q hq
    · have hval : getPath P s' = some v := by
        rw [writes_frame ws1 P t1 s' ?_ ht2, getPath_setPath ht1]
        intro Q hQ
        have hQ' : Q ∈ ws.map Prod.fst := by
          rw [hsplit, List.map_append, List.map_cons]
          exact List.mem_append_right _ (List.mem_cons_of_mem _ hQ)
        rcases hc Q hQ' P hPm with rfl | h
        · exact absurd hQ hP1
        · exact h
      simp only [writes, setPath_getPath (hne P hPm) hval, Option.bind_some]
      exact hrec

/-- C27: the guard is needed: a pickup that reads its own target is not idempotent. -/
theorem c27_self_source :
    let p : Plain := ⟨[.attr "d"], 2, 0, [.attr "d"]⟩
    let s : Node := .obj [("d", .num 1)] []
    pickup (plains [p]) s = some (.obj [("d", .num 2)] []) ∧
    pickup (plains [p]) (.obj [("d", .num 2)] []) = some (.obj [("d", .num 4)] []) := by
  constructor <;>
  · simp [pickup, plains, Plain.toPickup, Pickup.run, Pickup.value, getPath, setPath, getKey, setKey,
      getAttr, setAttr, Node.withNum]
    try norm_num

/-- C27: negative indices are other names of the same items, so that targets that look different
may be the same. -/
theorem c27_negative_index (as : List (String × Node)) (is : List Node) (i : ℕ) (hi : i < is.length)
    (w : Node) (p : Path) :
    getPath (.item ((i : ℤ) - is.length) :: p) (.obj as is) = getPath (.item i :: p) (.obj as is) ∧
    setPath w (.item ((i : ℤ) - is.length) :: p) (.obj as is) =
      setPath w (.item i :: p) (.obj as is) := by
  have h1 : itemPos is.length ((i : ℤ) - is.length) = some i := by
    unfold itemPos
    rw [if_neg (by omega), if_pos (by omega)]
    congr 1
    omega
  have h2 : itemPos is.length (i : ℤ) = some i := by
    unfold itemPos
    rw [if_pos (by omega), if_pos (by omega)]
    rfl
  constructor
  · simp [getPath, getKey, h1, h2]
  · cases p <;> simp [setPath, getKey, setKey, h1, h2]

/-! ## C28 -/

/-- The constraints of a validator hold for the value `x`. -/
def Validator.Holds (p : Validator) (x : ℝ) : Prop :=
  (∀ m, p.minimum = some m → m ≤ x) ∧ (∀ m, p.maximum = some m → x ≤ m) ∧
    ∀ m, p.equality = some m → x = m

theorem check_false (bad : ℝ → ℝ → Prop) (get : Option Path) (x : ℝ) (limit : Option ℝ) (s : Node) :
    ((∀ m, limit = some m → ¬bad x m) → check bad false get (.num x) limit s = .ok s) ∧
    (¬(∀ m, limit = some m → ¬bad x m) → check bad false get (.num x) limit s = .error .violated) := by
  cases limit with
  | none => simp [check]
  | some v =>
    by_cases h : bad x v
    · simp [check, h]
    · simp [check, h]

theorem run_false (p : Validator) (hexec : p.exec = none) (s : Node) (x : ℝ)
    (hv : p.value s = some (.num x)) :
    (p.Holds x → p.run false s = .ok s) ∧ (¬p.Holds x → p.run false s = .error .violated) := by
  obtain ⟨a1, a2⟩ := check_false (· < ·) p.get x p.minimum s
  obtain ⟨b1, b2⟩ := check_false (· > ·) p.get x p.maximum s
  obtain ⟨c1, c2⟩ := check_false (· ≠ ·) p.get x p.equality s
  have ha : (∀ m, p.minimum = some m → m ≤ x) ↔ (∀ m, p.minimum = some m → ¬x < m) := by
    simp only [not_lt]
  have hb : (∀ m, p.maximum = some m → x ≤ m) ↔ (∀ m, p.maximum = some m → ¬x > m) := by
    simp only [gt_iff_lt, not_lt]
  have hc : (∀ m, p.equality = some m → x = m) ↔ (∀ m, p.equality = some m → ¬x ≠ m) := by
    simp only [ne_eq, not_not]
  have unf : p.run false s = (check (· < ·) false p.get (.num x) p.minimum s).bind fun s =>
      (check (· > ·) false p.get (.num x) p.maximum s).bind fun s =>
        check (· ≠ ·) false p.get (.num x) p.equality s := by
    simp only [Validator.run, hv, hexec, bind, Except.bind, checkEq]
  rw [unf]
  unfold Validator.Holds
  rw [ha, hb, hc]
  constructor
  · rintro ⟨h1, h2, h3⟩
    rw [a1 h1]; simp only [Except.bind]
    rw [b1 h2]; simp only
    exact c1 h3
  · intro h
    by_cases h1 : ∀ m, p.minimum = some m → ¬x < m
    · rw [a1 h1]; simp only [Except.bind]
      by_cases h2 : ∀ m, p.maximum = some m → ¬x > m
      · rw [b1 h2]; simp only
        exact c2 fun h3 => h ⟨h1, h2, h3⟩
      · rw [b2 h2]
    · rw [a2 h1]; rfl

/-- C28: without fixing, when all checked values are numbers, `validate` returns and changes nothing
if every constraint holds, and raises the `ValueError` otherwise. -/
theorem c28_validate (ps : List Validator) (s : Node) (hexec : ∀ p ∈ ps, p.exec = none)
    (hnum : ∀ p ∈ ps, ∃ x, p.value s = some (.num x)) :
    ((∀ p ∈ ps, ∀ x, p.value s = some (.num x) → p.Holds x) → validate false ps s = .ok s) ∧
    ((∃ p ∈ ps, ∃ x, p.value s = some (.num x) ∧ ¬p.Holds x) →
      validate false ps s = .error .violated) := by
  induction ps with
  | nil => simp [validate]
  | cons p ps ih =>
    obtain ⟨i1, i2⟩ := ih (fun q hq => hexec q (by simp [hq])) fun q hq => hnum q (by simp [hq])
    obtain ⟨x, hx⟩ := hnum p (by simp)
    obtain ⟨r1, r2⟩ := run_false p (hexec p (by simp)) s x hx
    constructor
    · intro h
      rw [validate, r1 (h p (by simp) x hx)]
      exact i1 fun q hq => h q (by simp [hq])
    · rintro ⟨q, hq, y, hy, hbad⟩
      by_cases hp : p.Holds x
      · rw [validate, r1 hp]
        rcases List.mem_cons.mp hq with rfl | hq
        · rw [hx] at hy; cases hy; exact absurd hp hbad
        · exact i2 ⟨q, hq, y, hy, hbad⟩
      · rw [validate, r2 hp]; rfl

/-- C28: whatever the values, `validate(fix=False)` changes nothing when it returns. -/
theorem c28_unchanged (ps : List Validator) (s s' : Node) (hexec : ∀ p ∈ ps, p.exec = none)
    (h : validate false ps s = .ok s') : s' = s := by
  have hcheck : ∀ (bad : ℝ → ℝ → Prop) g v lim (s s' : Node), check bad false g v lim s = .ok s' →
      s' = s := by
    intro bad g v lim s s' h
    unfold check at h
    split at h
    · cases h; rfl
    · split at h
      · split at h
        · simp at h
        · cases h; rfl
      · cases h
  have hcheckEq : ∀ g v lim (s s' : Node), checkEq false g v lim s = .ok s' → s' = s := by
    intro g v lim s s' h
    unfold checkEq at h
    split at h
    · exact hcheck _ _ _ _ _ _ h
    · split at h
      · cases h; rfl
      · simp at h
  induction ps generalizing s with
  | nil => cases h; rfl
  | cons p ps ih =>
    rw [validate] at h
    cases hr : p.run false s with
    | error e => rw [hr] at h; cases h
    | ok s1 =>
      rw [hr] at h
      have h1 := ih s1 (fun q hq => hexec q (by simp [hq])) h
      subst h1
      unfold Validator.run at hr
      rw [hexec p (by simp)] at hr
      cases hv : p.value s with
      | none => rw [hv] at hr; cases hr
      | some v =>
        rw [hv] at hr
        simp only [bind, Except.bind] at hr
        cases ha : check (· < ·) false p.get v p.minimum s with
        | error e => rw [ha] at hr; cases hr
        | ok s2 =>
          rw [ha] at hr
          have := hcheck _ _ _ _ _ _ ha
          subst this
          simp only at hr
          cases hb : check (· > ·) false p.get v p.maximum s2 with
          | error e => rw [hb] at hr; cases hr
          | ok s3 =>
            rw [hb] at hr
            have := hcheck _ _ _ _ _ _ hb
            subst this
            exact hcheckEq _ _ _ _ _ hr

/-- A validator that checks the value at a path. -/
structure Validator.AtPath (p : Validator) (q : Path) : Prop where
  get : p.get = some q
  eval : p.getEval = none
  func : p.getFunc = none
  exec : p.exec = none

theorem AtPath.value {p : Validator} {q : Path} (h : p.AtPath q) (s : Node) :
    p.value s = getPath q s := by
  simp only [Validator.value, h.get, h.eval, h.func, bind, Option.bind_some]
  cases getPath q s <;> rfl

theorem check_true (bad : ℝ → ℝ → Prop) (q : Path) (hq : q ≠ []) (x y : ℝ) (limit : Option ℝ)
    (s : Node) (hs : getPath q s = some (.num y)) :
    ∃ s', check bad true (some q) (.num x) limit s = .ok s' ∧
      (∀ q', Apart q q' → getPath q' s' = getPath q' s) ∧
      ((∀ m, limit = some m → ¬bad x m) → s' = s) ∧
      (∀ m, limit = some m → bad x m → getPath q s' = some (.num m)) := by
  cases limit with
  | none => exact ⟨s, rfl, fun _ _ => rfl, fun _ => rfl, by simp⟩
  | some v =>
    by_cases h : bad x v
    · obtain ⟨s', hs'⟩ := setPath_some hq (by rw [hs]; simp) (.num v)
      refine ⟨s', by simp [check, h, hs'], fun q' hq' => getPath_setPath_apart hq' hs', ?_, ?_⟩
      · intro h'; exact absurd h (h' v rfl)
      · intro m hm _
        cases hm
        exact getPath_setPath hs'
    · refine ⟨s, by simp [check, h], fun _ _ => rfl, fun _ => rfl, ?_⟩
      intro m hm hb
      cases hm
      exact absurd hb h

/-- One validator with satisfiable constraints is satisfied after fixing. -/
theorem run_true (p : Validator) (q : Path) (hp : p.AtPath q) (hq : q ≠ []) (s : Node) (x : ℝ)
    (hx : getPath q s = some (.num x)) (hsat : ∃ y, p.Holds y) :
    ∃ s' y, p.run true s = .ok s' ∧ getPath q s' = some (.num y) ∧ p.Holds y ∧
      (∀ q', Apart q q' → getPath q' s' = getPath q' s) ∧ (p.Holds x → s' = s) := by
  obtain ⟨z, z1, z2, z3⟩ := hsat
  have hv : p.value s = some (.num x) := by rw [AtPath.value hp, hx]
  have unf : p.run true s = (check (· < ·) true (some q) (.num x) p.minimum s).bind fun s =>
      (check (· > ·) true (some q) (.num x) p.maximum s).bind fun s =>
        check (· ≠ ·) true (some q) (.num x) p.equality s := by
    simp only [Validator.run, hv, hp.exec, hp.get, bind, Except.bind, checkEq]
  obtain ⟨s1, a0, a1, a2, a3⟩ := check_true (· < ·) q hq x x p.minimum s hx
  have hx1 : ∃ y1, getPath q s1 = some (.num y1) ∧ ((∀ m, p.minimum = some m → m ≤ x) → y1 = x) ∧
      (∀ m, p.minimum = some m → x < m → y1 = m) := by
    by_cases hmin : ∀ m, p.minimum = some m → m ≤ x
    · rw [a2 fun m hm => not_lt.mpr (hmin m hm)]
      exact ⟨x, hx, fun _ => rfl, fun m hm hlt => absurd hlt (not_lt.mpr (hmin m hm))⟩
    · push Not at hmin
      obtain ⟨m, hm, hlt⟩ := hmin
      exact ⟨m, a3 m hm hlt, fun h => absurd (h m hm) (not_le.mpr hlt),
        fun m' hm' _ => by rw [hm] at hm'; exact (Option.some.inj hm')⟩
  obtain ⟨y1, hy1, y1a, y1b⟩ := hx1
  obtain ⟨s2, b0, b1, b2, b3⟩ := check_true (· > ·) q hq x y1 p.maximum s1 hy1
  have hx2 : ∃ y2, getPath q s2 = some (.num y2) ∧ ((∀ m, p.maximum = some m → x ≤ m) → y2 = y1) ∧
      (∀ m, p.maximum = some m → m < x → y2 = m) := by
    by_cases hmax : ∀ m, p.maximum = some m → x ≤ m
    · rw [b2 fun m hm => not_lt.mpr (hmax m hm)]
      exact ⟨y1, hy1, fun _ => rfl, fun m hm hlt => absurd hlt (not_lt.mpr (hmax m hm))⟩
    · push Not at hmax
      obtain ⟨m, hm, hlt⟩ := hmax
      exact ⟨m, b3 m hm hlt, fun h => absurd (h m hm) (not_le.mpr hlt),
        fun m' hm' _ => by rw [hm] at hm'; exact (Option.some.inj hm')⟩
  obtain ⟨y2, hy2, y2a, y2b⟩ := hx2
  obtain ⟨s3, c0, c1, c2, c3⟩ := check_true (· ≠ ·) q hq x y2 p.equality s2 hy2
  have hrun : p.run true s = .ok s3 := by
    rw [unf, a0]; simp only [Except.bind]; rw [b0]; exact c0
  -- the final value
  have hfin : ∃ y, getPath q s3 = some (.num y) ∧ p.Holds y := by
    cases heq : p.equality with
    | some e =>
      have hze := z3 e heq
      by_cases hxe : x = e
      · have hxh : p.Holds x := by rw [hxe, ← hze]; exact ⟨z1, z2, z3⟩
        refine ⟨x, ?_, hxh⟩
        rw [c2 (fun m hm => by rw [heq] at hm; cases hm; simpa using hxe), hy2,
          y2a hxh.2.1, y1a hxh.1]
      · refine ⟨e, c3 e heq hxe, ?_⟩
        rw [← hze]; exact ⟨z1, z2, z3⟩
    | none =>
      have h3 : s3 = s2 := c2 (by simp [heq])
      refine ⟨y2, by rw [h3]; exact hy2, ?_, ?_, by simp [heq]⟩
      · intro m hm
        by_cases hmax : ∀ m', p.maximum = some m' → x ≤ m'
        · rw [y2a hmax]
          by_cases hlt : x < m
          · rw [y1b m hm hlt]
          · rw [y1a fun m' hm' => by rw [hm] at hm'; cases hm'; exact not_lt.mp hlt]
            exact not_lt.mp hlt
        · push Not at hmax
          obtain ⟨M, hM, hlt⟩ := hmax
          rw [y2b M hM hlt]
          exact (z1 m hm).trans (z2 M hM)
      · intro M hM
        by_cases hlt : M < x
        · rw [y2b M hM hlt]
        · have hmax : ∀ m', p.maximum = some m' → x ≤ m' := by
            intro m' hm'; rw [hM] at hm'; cases hm'; exact not_lt.mp hlt
          rw [y2a hmax]
          by_cases hmin : ∀ m, p.minimum = some m → m ≤ x
          · rw [y1a hmin]; exact not_lt.mp hlt
          · push Not at hmin
            obtain ⟨m, hm, hlt'⟩ := hmin
            rw [y1b m hm hlt']
            exact (z1 m hm).trans (z2 M hM)
  obtain ⟨y, hy, hhold⟩ := hfin
  refine ⟨s3, y, hrun, hy, hhold, ?_, ?_⟩
  · intro q' hq'
    rw [c1 q' hq', b1 q' hq', a1 q' hq']
  · rintro ⟨h1, h2, h3⟩
    rw [c2 (fun m hm => by simpa using h3 m hm), b2 (fun m hm => not_lt.mpr (h2 m hm)),
      a2 (fun m hm => not_lt.mpr (h1 m hm))]

/-- C28: with fixing, validators of numbers at pairwise separate paths with satisfiable constraints
are all satisfied afterwards; values at other paths are unchanged. -/
theorem c28_fix (ps : List (Validator × Path)) (s : Node)
    (hat : ∀ p ∈ ps, p.1.AtPath p.2 ∧ p.2 ≠ [] ∧ ∃ y, p.1.Holds y)
    (hapart : ps.Pairwise fun p q => Apart p.2 q.2)
    (hnum : ∀ p ∈ ps, ∃ x, getPath p.2 s = some (.num x)) :
    ∃ s', validate true (ps.map Prod.fst) s = .ok s' ∧
      (∀ p ∈ ps, ∃ y, getPath p.2 s' = some (.num y) ∧ p.1.Holds y) ∧
      ∀ q, (∀ p ∈ ps, Apart p.2 q) → getPath q s' = getPath q s := by
  induction ps generalizing s with
  | nil => exact ⟨s, rfl, by simp, fun _ _ => rfl⟩
  | cons p ps ih =>
    obtain ⟨hp, hne, hsat⟩ := hat p (by simp)
    obtain ⟨x, hx⟩ := hnum p (by simp)
    obtain ⟨s1, y, hrun, hy, hhold, hframe, -⟩ := run_true p.1 p.2 hp hne s x hx hsat
    rw [List.pairwise_cons] at hapart
    obtain ⟨s', h1, h2, h3⟩ := ih s1 (fun q hq => hat q (by simp [hq])) hapart.2 (by
      intro q hq
      rw [hframe q.2 (hapart.1 q hq)]
      exact hnum q (by simp [hq]))
    refine ⟨s', ?_, ?_, ?_⟩
    · rw [List.map_cons, validate, hrun]
      exact h1
    · intro q hq
      rcases List.mem_cons.mp hq with rfl | hq
      · refine ⟨y, ?_, hhold⟩
        rw [h3 q.2 fun r hr => (hapart.1 r hr).symm]
        exact hy
      · exact h2 q hq
    · intro q hq
      rw [h3 q fun r hr => hq r (by simp [hr]), hframe q (hq p (by simp))]

/-- C28, violation: with bounds that exclude each other `validate(fix=True)` returns normally with a
constraint still violated. -/
theorem c28_fix_unsatisfiable :
    let p : Validator := ⟨some [.attr "d"], none, none, none, some 2, some 1, none⟩
    ∃ s', validate true [p] (.obj [("d", .num 0)] []) = .ok s' ∧
      validate false [p] s' = .error .violated := by
  refine ⟨.obj [("d", .num 2)] [], ?_, ?_⟩ <;>
  · norm_num [validate, Validator.run, Validator.value, check, checkEq, getPath, setPath, getKey,
      setKey, getAttr, setAttr, bind, Except.bind]

/-- C28, violation: for a validator that checks a function of the value at its path, fixing writes
the limit of the function to the path and returns normally with the constraint still violated. -/
theorem c28_fix_function :
    let half : Node → Node → Option Node := fun _ v => match v with
      | .num x => some (.num (x / 2))
      | _ => none
    let p : Validator := ⟨some [.attr "d"], none, some half, none, some 4, none, none⟩
    ∃ s', validate true [p] (.obj [("d", .num 0)] []) = .ok s' ∧
      validate false [p] s' = .error .violated := by
  refine ⟨.obj [("d", .num 4)] [], ?_, ?_⟩ <;>
  · norm_num [validate, Validator.run, Validator.value, check, checkEq, getPath, setPath, getKey,
      setKey, getAttr, setAttr, bind, Except.bind]

/-! ## C76 -/

/-- The conditions on the pickups and the target of a solve: any two of the paths written are equal or
part, also from the sources; no pickup writes the source of the same or an earlier one. -/
structure SolveClean (L : List Plain) (p : Solve) : Prop where
  dsts : Clean (p.set :: L.map Plain.dst)
  srcs : ∀ a ∈ L, ∀ q ∈ p.set :: L.map Plain.dst, a.src = q ∨ Apart a.src q
  self : ∀ a ∈ L, a.src ≠ a.dst
  earlier : L.Pairwise fun a b => a.src ≠ b.dst

/-- The written paths exist. -/
def Readable (L : List Plain) (p : Solve) (s : Node) : Prop :=
  ∀ q ∈ p.set :: L.map Plain.dst, q ≠ [] ∧ getPath q s ≠ none

theorem func_cases {L : List Pickup} {p : Solve} {x y : ℝ} {s s' : Node}
    (h : p.func L x s = some (s', y)) :
    ∃ a, setPath (.num x) p.set s = some a ∧ pickup L a = some s' ∧
      getPath p.get s' = some (.num (y + p.target)) := by
  unfold Solve.func at h
  simp only [bind, Option.bind_eq_some_iff] at h
  obtain ⟨a, ha, b, hb, c, hc, h⟩ := h
  cases c with
  | null => cases h
  | obj as is => cases h
  | num z =>
    cases h
    exact ⟨a, ha, hb, by rw [hc]; congr 2; ring⟩

theorem func_intro {L : List Pickup} {p : Solve} {x y : ℝ} {s s' a : Node}
    (h1 : setPath (.num x) p.set s = some a) (h2 : pickup L a = some s')
    (h3 : getPath p.get s' = some (.num (y + p.target))) : p.func L x s = some (s', y) := by
  simp [Solve.func, h1, h2, h3, bind]

/-- After any writes to the paths of a solve, evaluating it gives the same state and value as on the
original state. -/
theorem func_no_trace (L : List Plain) (p : Solve) (hc : SolveClean L p) (s s1 : Node)
    (hr : Readable L p s) (ws' : List (Path × Node))
    (hpaths : ws'.map Prod.fst ⊆ p.set :: L.map Plain.dst) (hw : writes ws' s = some s1) (x y : ℝ)
    (s' : Node) (h : p.func (plains L) x s1 = some (s', y)) :
    p.func (plains L) x s = some (s', y) ∧
    ∃ ws, ws.map Prod.fst = p.set :: L.map Plain.dst ∧ writes ws s = some s' := by
  obtain ⟨b, hb, hpb, hg⟩ := func_cases h
  have hset : p.set ≠ [] := (hr p.set (by simp)).1
  obtain ⟨a, ha⟩ := setPath_some hset (hr p.set (by simp)).2 (.num x)
  -- sources that no earlier pickup has written agree on both states
  obtain ⟨ws, e1, e2, e3⟩ := pickup_replay L b s' a hpb
    (fun q hq r hr => hc.srcs q hq r.dst (by simp; exact .inr ⟨r, hr, rfl⟩)) (by
      intro L1 q L2 hL hq
      have hqL : q ∈ L := by simp [hL]
      by_cases hqs : q.src = p.set
      · rw [hqs, getPath_setPath ha, getPath_setPath hb]
      · have hap : Apart p.set q.src := by
          rcases hc.srcs q hqL p.set (by simp) with h | h
          · exact absurd h hqs
          · exact h.symm
        have hno : ∀ P ∈ p.set :: L.map Plain.dst, Apart P q.src := by
          intro P hP
          rcases List.mem_cons.mp hP with rfl | hP'
          · exact hap
          · rw [List.mem_map] at hP'
            obtain ⟨r, hrL, rfl⟩ := hP'
            rcases hc.srcs q hqL r.dst hP with heq | h
            · exfalso
              have hmem := hrL
              rw [hL] at hmem
              simp only [List.mem_append, List.mem_cons] at hmem
              rcases hmem with hm | rfl | hm
              · exact hq (by rw [heq]; exact List.mem_map_of_mem hm)
              · exact hc.self r hqL heq
              · have hpw := hc.earlier
                rw [hL, List.pairwise_append] at hpw
                exact List.rel_of_pairwise_cons hpw.2.1 hm heq
            · exact h.symm
        rw [getPath_setPath_apart hap ha, getPath_setPath_apart hap hb,
          writes_frame ws' q.src s s1 (fun P hP => hno P (hpaths hP)) hw])
  set full : List (Path × Node) := (p.set, .num x) :: ws with hfull
  have hfp : full.map Prod.fst = p.set :: L.map Plain.dst := by rw [hfull, List.map_cons, e1]
  have habs := writes_absorb_all full ws' s s1 (by rw [hfp]; exact hc.dsts)
    (by rw [hfp]; exact fun Q hQ => (hr Q hQ).2) (by rw [hfp]; exact fun Q hQ => (hr Q hQ).1)
    (by rw [hfp]; exact hpaths) hw
  have w1 : writes full s1 = some s' := by simp [hfull, writes, hb, e2]
  have w2 : writes full s = some s' := by rw [← habs, w1]
  refine ⟨?_, full, hfp, w2⟩
  refine func_intro ha ?_ hg
  rw [e3]
  have : writes full s = writes ws a := by simp [hfull, writes, ha]
  rw [← this, w2]

/-- Each value seen by the root finder is the one at the point it asked for in the *original* state:
the evaluations do not influence each other. -/
def Tried (L : List Plain) (p : Solve) (s : Node) (next : List ℝ → Option ℝ) (seen : List ℝ) : Prop :=
  ∀ (i : ℕ) (hi : i < seen.length), ∃ x t, next (seen.take i) = some x ∧
    p.func (plains L) x s = some (t, seen[i])

/-- The trial evaluations of the root finder leave the state of a sequence of writes. -/
theorem trials_writes (L : List Plain) (p : Solve) (hc : SolveClean L p) (s : Node)
    (hr : Readable L p s) (next : List ℝ → Option ℝ) (k : ℕ) (seen : List ℝ) (s1 : Node)
    (ws' : List (Path × Node)) (hpaths : ws'.map Prod.fst ⊆ p.set :: L.map Plain.dst)
    (hw : writes ws' s = some s1) (s2 : Node) (seen' : List ℝ)
    (hseen : Tried L p s next seen)
    (h : p.trials (plains L) next k seen s1 = some (s2, seen')) :
    Tried L p s next seen' ∧
    ∃ ws, ws.map Prod.fst ⊆ p.set :: L.map Plain.dst ∧ writes ws s = some s2 := by
  induction k generalizing seen s1 ws' with
  | zero => cases h; exact ⟨hseen, ws', hpaths, hw⟩
  | succ k ih =>
    rw [Solve.trials] at h
    cases hn : next seen with
    | none => rw [hn] at h; cases h; exact ⟨hseen, ws', hpaths, hw⟩
    | some x =>
      rw [hn] at h
      simp only [Option.bind_eq_some_iff] at h
      obtain ⟨⟨s3, y⟩, hf, h⟩ := h
      obtain ⟨e0, ws, e1, e2⟩ := func_no_trace L p hc s s1 hr ws' hpaths hw x y s3 hf
      refine ih (seen ++ [y]) s3 ws (by rw [e1]; exact fun _ h => h) e2 ?_ h
      intro i hi
      rcases Nat.lt_or_ge i seen.length with hlt | hge
      · obtain ⟨x', t, h1, h2⟩ := hseen i hlt
        refine ⟨x', t, ?_, ?_⟩
        · rw [List.take_append_of_le_length hlt.le]; exact h1
        · rw [List.getElem_append_left hlt]; exact h2
      · have hi' : i = seen.length := by simp at hi; omega
        subst hi'
        refine ⟨x, s3, ?_, ?_⟩
        · simpa using hn
        · simpa using e0

/-- C76: the trial evaluations of a solve leave no trace: whatever points the root finder tried, the
final state is the one obtained by setting the returned value once in the original state and applying
the pickups, and the quantity read there is the target plus the residual at the returned value.  The
values the root finder saw are also those of single evaluations in the original state. -/
theorem c76_no_trace (L : List Plain) (p : Solve) (hc : SolveClean L p) (s s' : Node)
    (hr : Readable L p s) (next ret : List ℝ → Option ℝ) (fuel : ℕ)
    (h : p.run (plains L) next ret fuel s = some s') :
    ∃ seen x y, Tried L p s next seen ∧ ret seen = some x ∧
      p.func (plains L) x s = some (s', y) ∧
      getPath p.get s' = some (.num (p.target + y)) := by
  unfold Solve.run at h
  simp only [bind, pure, Option.bind_eq_some_iff] at h
  obtain ⟨⟨s1, seen⟩, h1, x, hx, ⟨s2, y⟩, h2, h3⟩ := h
  obtain rfl : s2 = s' := Option.some.inj h3
  obtain ⟨ht, ws, e1, e2⟩ := trials_writes L p hc s hr next fuel [] s [] (by simp) rfl s1 seen
    (fun i hi => absurd hi (by simp)) h1
  obtain ⟨h4, _⟩ := func_no_trace L p hc s s1 hr ws e1 e2 x y s2 h2
  obtain ⟨_, _, _, hg⟩ := func_cases h4
  exact ⟨seen, x, y, ht, hx, h4, by rw [hg, add_comm]⟩

/-- C76: everything outside the target of the solve and of the pickups is unchanged. -/
theorem c76_frame (L : List Plain) (p : Solve) (hc : SolveClean L p) (s s' : Node)
    (hr : Readable L p s) (next ret : List ℝ → Option ℝ) (fuel : ℕ)
    (h : p.run (plains L) next ret fuel s = some s') (q : Path)
    (hq : ∀ P ∈ p.set :: L.map Plain.dst, Apart P q) : getPath q s' = getPath q s := by
  obtain ⟨seen, x, y, -, -, hf, -⟩ := c76_no_trace L p hc s s' hr next ret fuel h
  obtain ⟨_, ws, e1, e2⟩ := func_no_trace L p hc s s hr [] (by simp) rfl x y s' hf
  exact writes_frame ws q s s' (by rw [e1]; exact hq) e2

/-! ## Examples -/

/-- A system with two elements; element 1 has a thickness, element 0 a radius. -/
noncomputable def exTree : Node :=
  .obj [("scale", .num 1)] [.obj [("radius", .num 3)] [], .obj [("distance", .num 5)] []]

/-- Paths into it. -/
def exRadius : Path := [.item 0, .attr "radius"]
/-- See `exRadius`. -/
def exDistance : Path := [.item 1, .attr "distance"]

/-- A pickup that makes the distance twice the radius plus one; it satisfies the guards of
`c27_twice`. -/
noncomputable def exPickup : Plain := ⟨exRadius, 2, 1, exDistance⟩

example : pickup (plains [exPickup]) exTree = some (.obj [("scale", .num 1)]
    [.obj [("radius", .num 3)] [], .obj [("distance", .num (3 * 2 + 1))] []]) := by
  simp [pickup, plains, Plain.toPickup, Pickup.run, Pickup.value, getPath, setPath, getKey, setKey,
    getAttr, setAttr, Node.withNum, exTree, exPickup, exRadius, exDistance, itemPos]

theorem ex_apart : Apart exRadius exDistance := .inl ⟨by decide, by decide⟩

example (s' : Node) (h : pickup (plains [exPickup]) exTree = some s') :
    pickup (plains [exPickup]) s' = some s' :=
  c27_twice [exPickup] exTree s' (by simp) (by simp [exPickup, ex_apart])
    (by simp [exPickup, exRadius, exDistance]) (by simp) h

/-- A validator that is fixed. -/
example : ∃ s', validate true [⟨some exDistance, none, none, none, some 6, some 10, none⟩] exTree =
    .ok s' ∧ ∃ y, getPath exDistance s' = some (.num y) ∧ 6 ≤ y := by
  obtain ⟨s', h1, h2, -⟩ := c28_fix
    [(⟨some exDistance, none, none, none, some 6, some 10, none⟩, exDistance)] exTree
    (by simpa [Validator.Holds, exDistance] using
      ⟨⟨rfl, rfl, rfl, rfl⟩, ⟨7, by norm_num, by norm_num⟩⟩) (by simp)
    (by simp [getPath, getKey, getAttr, exTree, exDistance, itemPos])
  obtain ⟨y, hy, hh⟩ := h2 _ (List.mem_singleton.mpr rfl)
  exact ⟨s', h1, y, hy, hh.1 6 rfl⟩

/-- A solve for the radius such that the picked-up distance is 11, with two trial evaluations. -/
example : ∃ s', (⟨exDistance, exRadius, 11⟩ : Solve).run (plains [exPickup])
    (fun seen => if seen.length < 2 then some (seen.length : ℝ) else none) (fun _ => some 5) 20
      exTree = some s' ∧ getPath exDistance s' = some (.num (5 * 2 + 1)) := by
  refine ⟨.obj [("scale", .num 1)]
    [.obj [("radius", .num 5)] [], .obj [("distance", .num (5 * 2 + 1))] []], ?_, ?_⟩
  · simp [Solve.run, Solve.trials, Solve.func, pickup, plains, Plain.toPickup, Pickup.run,
      Pickup.value, getPath, setPath, getKey, setKey, getAttr, setAttr, Node.withNum, exTree, exPickup,
      exRadius, exDistance, itemPos]
  · simp [getPath, getKey, getAttr, exDistance, itemPos]

example : SolveClean [exPickup] ⟨exDistance, exRadius, 11⟩ ∧
    Readable [exPickup] ⟨exDistance, exRadius, 11⟩ exTree := by
  refine ⟨⟨?_, ?_, ?_, ?_⟩, ?_⟩
  · simp [Clean, exPickup, ex_apart, ex_apart.symm]
  · simp [exPickup, ex_apart]
  · simp [exPickup, exRadius, exDistance]
  · simp
  · simp [Readable, exPickup, exRadius, exDistance, exTree, getPath, getKey, getAttr, itemPos]

end RayOpt.Paths
