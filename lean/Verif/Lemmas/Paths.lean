import Verif.Model.Paths
import Mathlib.Tactic

/-!
Laws of `get_path` and `set_path` on trees.
-/

namespace RayOpt.Paths

/-- Two steps that never lead to the same place. -/
def KeyApart : Key → Key → Prop
  | .attr a, .attr b => a ≠ b
  | .item i, .item j => i ≠ j ∧ (0 ≤ i ↔ 0 ≤ j)
  | _, _ => True

/-- Two paths that part at some step: neither is a prefix of the other. -/
def Apart : Path → Path → Prop
  | k :: p, l :: q => KeyApart k l ∨ (k = l ∧ Apart p q)
  | _, _ => False

theorem KeyApart.symm {k l : Key} (h : KeyApart k l) : KeyApart l k := by
  cases k <;> cases l <;> simp only [KeyApart] at h ⊢
  · exact h.symm
  · exact ⟨h.1.symm, h.2.symm⟩

theorem Apart.symm {p q : Path} (h : Apart p q) : Apart q p := by
  induction p generalizing q with
  | nil => cases q <;> exact h.elim
  | cons k p ih =>
    cases q with
    | nil => exact h.elim
    | cons l q =>
      rcases h with h | ⟨rfl, h⟩
      · exact .inl h.symm
      · exact .inr ⟨rfl, ih h⟩

theorem KeyApart.irrefl (k : Key) : ¬KeyApart k k := by
  cases k <;> simp [KeyApart]

theorem Apart.irrefl (p : Path) : ¬Apart p p := by
  induction p with
  | nil => exact id
  | cons k p ih =>
    rintro (h | ⟨-, h⟩)
    · exact KeyApart.irrefl k h
    · exact ih h

theorem getAttr_setAttr_same (a : String) (w : Node) (l : List (String × Node)) :
    getAttr a (setAttr a w l) = some w := by
  induction l with
  | nil => simp [setAttr, getAttr]
  | cons x l ih =>
    obtain ⟨b, x⟩ := x
    by_cases h : b = a
    · simp [setAttr, getAttr, h]
    · simp [setAttr, getAttr, h, ih]

theorem getAttr_setAttr_ne {a b : String} (h : a ≠ b) (w : Node) (l : List (String × Node)) :
    getAttr b (setAttr a w l) = getAttr b l := by
  induction l with
  | nil => simp [setAttr, getAttr, h]
  | cons x l ih =>
    obtain ⟨c, x⟩ := x
    by_cases hc : c = a
    · subst hc; simp [setAttr, getAttr, h]
    · simp [setAttr, getAttr, hc, ih]

theorem setAttr_setAttr (a : String) (w w' : Node) (l : List (String × Node)) :
    setAttr a w' (setAttr a w l) = setAttr a w' l := by
  induction l with
  | nil => simp [setAttr]
  | cons x l ih =>
    obtain ⟨c, x⟩ := x
    by_cases hc : c = a
    · simp [setAttr, hc]
    · simp [setAttr, hc, ih]

theorem setAttr_getAttr (a : String) (w : Node) (l : List (String × Node))
    (h : getAttr a l = some w) : setAttr a w l = l := by
  induction l with
  | nil => simp [getAttr] at h
  | cons x l ih =>
    obtain ⟨c, x⟩ := x
    by_cases hc : c = a
    · simp [getAttr, hc] at h; simp [setAttr, hc, h]
    · simp [getAttr, hc] at h; simp [setAttr, hc, ih h]

theorem itemPos_lt {n : ℕ} {i : ℤ} {j : ℕ} (h : itemPos n i = some j) : j < n := by
  unfold itemPos at h
  split_ifs at h with h1 h2 h3
  · cases h; omega
  · cases h; omega

theorem itemPos_apart {n : ℕ} {i i' : ℤ} {j : ℕ} (hne : i ≠ i') (hs : 0 ≤ i ↔ 0 ≤ i')
    (h : itemPos n i = some j) : itemPos n i' ≠ some j := by
  unfold itemPos at h ⊢
  intro h'
  split_ifs at h h' with h1 h2 h3 h4 h5 h6 <;> grind

theorem getKey_setKey_same {k : Key} {w v v' : Node} (h : setKey w k v = some v') :
    getKey k v' = some w := by
  cases v with
  | null => cases k <;> simp [setKey] at h
  | num x => cases k <;> simp [setKey] at h
  | obj as is =>
    cases k with
    | attr a =>
      simp only [setKey, Option.some.injEq] at h
      subst h
      exact getAttr_setAttr_same a w as
    | item i =>
      simp only [setKey, Option.map_eq_some_iff] at h
      obtain ⟨j, hj, rfl⟩ := h
      have hlt := itemPos_lt hj
      simp [getKey, hj, hlt]

theorem getKey_setKey_apart {k l : Key} {w v v' : Node} (ha : KeyApart k l)
    (h : setKey w k v = some v') : getKey l v' = getKey l v := by
  cases v with
  | null => cases k <;> simp [setKey] at h
  | num x => cases k <;> simp [setKey] at h
  | obj as is =>
    cases k with
    | attr a =>
      simp only [setKey, Option.some.injEq] at h
      subst h
      cases l with
      | attr b => exact getAttr_setAttr_ne ha w as
      | item i => rfl
    | item i =>
      simp only [setKey, Option.map_eq_some_iff] at h
      obtain ⟨j, hj, rfl⟩ := h
      cases l with
      | attr b => rfl
      | item i' =>
        simp only [getKey, List.length_set]
        cases hj' : itemPos is.length i' with
        | none => rfl
        | some j' =>
          have hne : j ≠ j' := by
            rintro rfl
            exact itemPos_apart ha.1 ha.2 hj hj'
          simp [List.getElem?_set_ne hne]

theorem setKey_setKey_same {k : Key} {w w' v v' : Node} (h : setKey w k v = some v') :
    setKey w' k v' = setKey w' k v := by
  cases v with
  | null => cases k <;> simp [setKey] at h
  | num x => cases k <;> simp [setKey] at h
  | obj as is =>
    cases k with
    | attr a =>
      simp only [setKey, Option.some.injEq] at h
      subst h
      simp [setKey, setAttr_setAttr]
    | item i =>
      simp only [setKey, Option.map_eq_some_iff] at h
      obtain ⟨j, hj, rfl⟩ := h
      simp [setKey, hj]

theorem setKey_getKey {k : Key} {w v : Node} (h : getKey k v = some w) : setKey w k v = some v := by
  cases v with
  | null => cases k <;> simp [getKey] at h
  | num x => cases k <;> simp [getKey] at h
  | obj as is =>
    cases k with
    | attr a => simp only [getKey] at h; simp [setKey, setAttr_getAttr a w as h]
    | item i =>
      simp only [getKey, Option.bind_eq_some_iff] at h
      obtain ⟨j, hj, hw⟩ := h
      have hlt := itemPos_lt hj
      rw [List.getElem?_eq_getElem hlt] at hw
      cases hw
      simp [setKey, hj]

/-- Setting two different keys, first success, then in any order the same node for items; new
attributes are appended in the order of assignment, so equality of nodes needs the keys to exist. -/
theorem setAttr_comm {a b : String} (hab : a ≠ b) (w w' : Node) (l : List (String × Node))
    (ha : getAttr a l ≠ none) :
    setAttr b w' (setAttr a w l) = setAttr a w (setAttr b w' l) := by
  induction l with
  | nil => simp [getAttr] at ha
  | cons x l ih =>
    obtain ⟨c, x⟩ := x
    by_cases hca : c = a
    · subst hca; simp [setAttr, hab]
    · by_cases hcb : c = b
      · subst hcb; simp [setAttr, hca]
      · simp only [getAttr, hca, if_false] at ha
        simp [setAttr, hca, hcb, ih ha]

theorem setKey_comm {k l : Key} (hkl : KeyApart k l) {w w' v : Node} (hk : getKey k v ≠ none)
    : ((setKey w k v).bind (setKey w' l)) = (setKey w' l v).bind (setKey w k) := by
  cases v with
  | null => cases k <;> cases l <;> simp [setKey]
  | num x => cases k <;> cases l <;> simp [setKey]
  | obj as is =>
    cases k with
    | attr a =>
      cases l with
      | attr b =>
        simp only [setKey, Option.bind_some]
        rw [setAttr_comm hkl w w' as hk]
      | item i =>
        simp only [setKey, Option.bind_some]
        cases hi : itemPos is.length i <;> simp [setKey]
    | item i =>
      cases l with
      | attr b =>
        simp only [setKey, Option.bind_some]
        cases hi : itemPos is.length i <;> simp [setKey]
      | item i' =>
        simp only [setKey]
        cases hi : itemPos is.length i with
        | none => cases hi' : itemPos is.length i' <;> simp [setKey, hi]
        | some j =>
          cases hi' : itemPos is.length i' with
          | none => simp [setKey, hi']
          | some j' =>
            have hne : j ≠ j' := by
              rintro rfl
              exact itemPos_apart hkl.1 hkl.2 hi hi'
            simp [setKey, hi, hi', List.set_comm _ _ hne]

/-! ### Paths -/

theorem setPath_cons {k : Key} {p : Path} (hp : p ≠ []) (w v : Node) :
    setPath w (k :: p) v =
      (getKey k v).bind fun c => (setPath w p c).bind fun c' => setKey c' k v := by
  cases p with
  | nil => exact absurd rfl hp
  | cons l p => rfl

theorem Apart.ne_nil {p q : Path} (h : Apart p q) : p ≠ [] ∧ q ≠ [] := by
  cases p <;> cases q <;> simp_all [Apart]

/-- Reading back what was written. -/
theorem getPath_setPath {p : Path} {w v v' : Node} (h : setPath w p v = some v') :
    getPath p v' = some w := by
  induction p generalizing v v' with
  | nil => simp [setPath] at h
  | cons k p ih =>
    cases p with
    | nil =>
      simp only [setPath] at h
      simp [getPath, getKey_setKey_same h]
    | cons l p =>
      rw [setPath_cons (by simp)] at h
      simp only [Option.bind_eq_some_iff] at h
      obtain ⟨c, hc, c', hc', h⟩ := h
      rw [getPath, getKey_setKey_same h]
      exact ih hc'

/-- Writing elsewhere does not change a value. -/
theorem getPath_setPath_apart {p q : Path} (ha : Apart p q) {w v v' : Node}
    (h : setPath w p v = some v') : getPath q v' = getPath q v := by
  induction p generalizing q v v' with
  | nil => cases q <;> exact ha.elim
  | cons k p ih =>
    cases q with
    | nil => exact ha.elim
    | cons l q =>
      have key : ∃ c', setKey c' k v = some v' ∧
          (p ≠ [] → ∃ c, getKey k v = some c ∧ setPath w p c = some c') := by
        cases p with
        | nil => exact ⟨w, h, fun h => absurd rfl h⟩
        | cons l' p =>
          rw [setPath_cons (by simp)] at h
          simp only [Option.bind_eq_some_iff] at h
          obtain ⟨c, hc, c', hc', h⟩ := h
          exact ⟨c', h, fun _ => ⟨c, hc, hc'⟩⟩
      obtain ⟨c', hset, hdeep⟩ := key
      rcases ha with ha | ⟨rfl, ha⟩
      · rw [getPath, getPath, getKey_setKey_apart ha hset]
      · obtain ⟨c, hc, hc'⟩ := hdeep ha.ne_nil.1
        rw [getPath, getPath, getKey_setKey_same hset, hc]
        exact ih ha hc'

/-- The second write to a path wins. -/
theorem setPath_setPath {p : Path} {w w' v v' : Node} (h : setPath w p v = some v') :
    setPath w' p v' = setPath w' p v := by
  induction p generalizing v v' with
  | nil => rfl
  | cons k p ih =>
    cases p with
    | nil => exact setKey_setKey_same h
    | cons l p =>
      rw [setPath_cons (by simp)] at h ⊢
      simp only [Option.bind_eq_some_iff] at h
      obtain ⟨c, hc, c', hc', h⟩ := h
      rw [getKey_setKey_same h, setPath_cons (by simp), hc]
      simp only [Option.bind_some]
      rw [ih hc']
      cases setPath w' (l :: p) c with
      | none => rfl
      | some d => exact setKey_setKey_same h

/-- Writing the value that is there changes nothing. -/
theorem setPath_getPath {p : Path} (hp : p ≠ []) {w v : Node} (h : getPath p v = some w) :
    setPath w p v = some v := by
  induction p generalizing v with
  | nil => exact absurd rfl hp
  | cons k p ih =>
    rw [getPath, Option.bind_eq_some_iff] at h
    obtain ⟨c, hc, h⟩ := h
    cases p with
    | nil => cases h; exact setKey_getKey hc
    | cons l p =>
      rw [setPath_cons (by simp), hc]
      simp only [Option.bind_some]
      rw [ih (by simp) h]
      exact setKey_getKey hc

/-- If a path can be read it can be written. -/
theorem setPath_some {p : Path} (hp : p ≠ []) {v : Node} (h : getPath p v ≠ none) (w : Node) :
    ∃ v', setPath w p v = some v' := by
  obtain ⟨u, hu⟩ := Option.ne_none_iff_exists'.mp h
  induction p generalizing v with
  | nil => exact absurd rfl hp
  | cons k p ih =>
    rw [getPath, Option.bind_eq_some_iff] at hu
    obtain ⟨c, hc, hu⟩ := hu
    have hk : ∀ c', ∃ v', setKey c' k v = some v' := by
      intro c'
      cases v with
      | null => cases k <;> simp [getKey] at hc
      | num x => cases k <;> simp [getKey] at hc
      | obj as is =>
        cases k with
        | attr a => exact ⟨_, rfl⟩
        | item i =>
          simp only [getKey, Option.bind_eq_some_iff] at hc
          obtain ⟨j, hj, _⟩ := hc
          simp [setKey, hj]
    cases p with
    | nil => exact hk w
    | cons l p =>
      obtain ⟨c', hc'⟩ := ih (v := c) (by simp) (by rw [hu]; simp) hu
      obtain ⟨v', hv'⟩ := hk c'
      exact ⟨v', by rw [setPath_cons (by simp), hc]; simp [hc', hv']⟩

/-- Writes to paths that part commute, if the values are there already. -/
theorem setPath_comm {p q : Path} (ha : Apart p q) {w w' v : Node} (hp : getPath p v ≠ none) :
    (setPath w p v).bind (setPath w' q) = (setPath w' q v).bind (setPath w p) := by
  induction p generalizing q v with
  | nil => cases q <;> exact ha.elim
  | cons k p ih =>
    cases q with
    | nil => exact ha.elim
    | cons l q =>
      obtain ⟨u, hu⟩ := Option.ne_none_iff_exists'.mp hp
      rw [getPath, Option.bind_eq_some_iff] at hu
      obtain ⟨c, hc, hu⟩ := hu
      have hpc : getPath p c ≠ none := by rw [hu]; simp
      rcases ha with ha | ⟨rfl, ha⟩
      · -- the parts below the two keys are written independently
        have form : ∀ (k : Key) (p : Path) (w : Node), ∃ g : Option Node → Option Node,
            ∀ v, setPath w (k :: p) v = (g (getKey k v)).bind fun c => setKey c k v := by
          intro k p w
          cases p with
          | nil => exact ⟨fun _ => some w, fun v => rfl⟩
          | cons l p =>
            refine ⟨fun o => o.bind (setPath w (l :: p)), fun v => ?_⟩
            rw [setPath_cons (by simp), Option.bind_assoc]
        obtain ⟨g, hg⟩ := form k p w
        obtain ⟨g', hg'⟩ := form l q w'
        rw [hg v, hg' v]
        cases h1 : g (getKey k v) with
        | none =>
          simp only [Option.bind_none]
          cases h2 : g' (getKey l v) with
          | none => rfl
          | some d' =>
            simp only [Option.bind_some]
            cases h3 : setKey d' l v with
            | none => rfl
            | some v2 =>
              simp only [Option.bind_some]
              rw [hg v2, getKey_setKey_apart ha.symm h3, h1]
              rfl
        | some d =>
          simp only [Option.bind_some]
          cases h2 : g' (getKey l v) with
          | none =>
            simp only [Option.bind_none]
            cases h3 : setKey d k v with
            | none => rfl
            | some v1 =>
              simp only [Option.bind_some]
              rw [hg' v1, getKey_setKey_apart ha h3, h2]
              rfl
          | some d' =>
            simp only [Option.bind_some]
            have e1 : (setKey d k v).bind (setPath w' (l :: q)) =
                (setKey d k v).bind (setKey d' l) := by
              cases h3 : setKey d k v with
              | none => rfl
              | some v1 =>
                simp only [Option.bind_some]
                rw [hg' v1, getKey_setKey_apart ha h3, h2]
                rfl
            have e2 : (setKey d' l v).bind (setPath w (k :: p)) =
                (setKey d' l v).bind (setKey d k) := by
              cases h3 : setKey d' l v with
              | none => rfl
              | some v1 =>
                simp only [Option.bind_some]
                rw [hg v1, getKey_setKey_apart ha.symm h3, h1]
                rfl
            rw [e1, e2]
            exact setKey_comm ha (by rw [hc]; simp)
      · obtain ⟨hpn, hqn⟩ := ha.ne_nil
        have step : ∀ (p q : Path) (w w' : Node), p ≠ [] → q ≠ [] →
            (setPath w (k :: p) v).bind (setPath w' (k :: q)) =
              ((setPath w p c).bind (setPath w' q)).bind fun c' => setKey c' k v := by
          intro p q w w' hp hq
          rw [setPath_cons hp, hc]
          simp only [Option.bind_some]
          cases h1 : setPath w p c with
          | none => rfl
          | some c1 =>
            simp only [Option.bind_some]
            cases h2 : setKey c1 k v with
            | none =>
              simp only [Option.bind_none]
              have hk : ∀ c', setKey c' k v ≠ none := by
                intro c'
                cases v with
                | null => cases k <;> simp [getKey] at hc
                | num x => cases k <;> simp [getKey] at hc
                | obj as is =>
                  cases k with
                  | attr a => simp [setKey]
                  | item i =>
                    simp only [getKey, Option.bind_eq_some_iff] at hc
                    obtain ⟨j, hj, _⟩ := hc
                    simp [setKey, hj]
              exact absurd h2 (hk c1)
            | some v1 =>
              simp only [Option.bind_some]
              rw [setPath_cons hq, getKey_setKey_same h2]
              simp only [Option.bind_some]
              cases setPath w' q c1 with
              | none => rfl
              | some c2 => exact setKey_setKey_same h2
        rw [step p q w w' hpn hqn, step q p w' w hqn hpn, ih ha hpc]

end RayOpt.Paths
