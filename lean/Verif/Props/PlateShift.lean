import Verif.Props.Plates

/-!
Property C119: where a ray runs between parallel plates.
-/

namespace RayOpt

open Sys V3 Transform Elem Shape

/-- C119: through any number of parallel plane surfaces a ray stays in its plane of incidence, the one through its start
along its direction and the normal; so behind the plates it is shifted in that plane only. -/
theorem c119_incidence (nwt : NewtonFn) (l : ℝ) (clp : Bool) (obj : Elem) (es : List Elem) {N : V3}
    (hP : ∀ e ∈ es, PlaneAcross N l e) {p u : V3} {n : ℝ} (hn : 0 < n) (hu : u.dot u = 1) (hf : 0 ≤ u.dot N) {k : ℕ}
    {e : Elem} {x : Row} {q : V3} (he : es[k]? = some e)
    (hx : (Sys.propagate nwt (obj :: es) ⟨some p, some u, n⟩ l 1 none clp)[k]? = some x) (hq : x.y = some q) :
    ∃ a b : ℝ, e.tf.fromNormal q + ((es.take (k + 1)).map fun e => e.tf.offset).sum = p + a • u + b • N := by
  rw [Sys.propagate, pySlice_one, List.tail_cons] at hx
  have key : ∀ (es : List Elem) (k : ℕ) (r : Ray) (o : V3), (∀ e ∈ es, PlaneAcross N l e) → 0 < r.n →
      (∀ u', r.u = some u' → SameAcross N (n • u) u' r.n) →
      (∀ p', r.y = some p' → ∃ a b : ℝ, p' + o = p + a • u + b • N) → es[k]? = some e →
      (rows nwt l clp es r)[k]? = some x →
      ∃ a b : ℝ, e.tf.fromNormal q + (o + ((es.take (k + 1)).map fun e => e.tf.offset).sum) = p + a • u + b • N := by
    intro es
    induction es with
    | nil => intro k r o _ _ _ _ h; simp at h
    | cons e' es ih =>
      intro k r o hP hn hr hy he hx
      have hs := fun v => plate_step nwt l clp (hP e' (by simp)) hn hr (v := v)
      have hpos : ∀ q, (step nwt l clp e' r).1.y = some q →
          ∃ a b : ℝ, e'.tf.fromNormal q + (o + e'.tf.offset) = p + a • u + b • N := by
        intro q hq
        obtain ⟨y, w, m⟩ := r
        dsimp only at hn hr hy
        have hyq : ∃ (p' w' : V3) (t : ℝ), y = some p' ∧ w = some w' ∧
            e'.tf.toNormal (p' - e'.tf.offset) + t • e'.tf.toNormal w' = q := by
          simp only [step] at hq
          cases y with
          | none => cases hsh : e'.shape <;> simp [Elem.propagate, hsh] at hq
          | some p' =>
            cases w with
            | none => cases hsh : e'.shape <;> simp [Elem.propagate, hsh] at hq
            | some w' =>
              cases hsh : e'.shape <;>
              · simp only [Elem.propagate, hsh, Option.map_some, Option.bind_some, Option.map_eq_some_iff] at hq
                obtain ⟨t, -, hq⟩ := hq
                exact ⟨p', w', t, rfl, rfl, hq⟩
        obtain ⟨p', w', t, rfl, rfl, rfl⟩ := hyq
        obtain ⟨a, b, hab⟩ := hy p' rfl
        obtain ⟨-, -, c, hc⟩ := hr w' rfl
        have hR := (hP e' (by simp)).reachable
        rw [fromNormal_lin, (c10_inverse hR _).1, (c10_inverse hR w').1]
        have hw : w' = (n / m) • u + (c / m) • N := by
          have hx := congrArg V3.x hc; have hy := congrArg V3.y hc; have hz := congrArg V3.z hc
          simp only [add_x, add_y, add_z, smul_x, smul_y, smul_z] at hx hy hz
          ext <;> simp only [add_x, add_y, add_z, smul_x, smul_y, smul_z] <;> field_simp <;> linarith
        refine ⟨a + t * (n / m), b + t * (c / m), ?_⟩
        have hx := congrArg V3.x hab; have hy := congrArg V3.y hab; have hz := congrArg V3.z hab
        simp only [add_x, add_y, add_z, smul_x, smul_y, smul_z] at hx hy hz
        rw [hw]
        ext <;> simp only [add_x, add_y, add_z, smul_x, smul_y, smul_z, sub_x, sub_y, sub_z] <;> linarith
      cases k with
      | zero =>
        simp only [List.getElem?_cons_zero, Option.some.injEq, rows] at he hx
        subst he
        rw [← hx] at hq
        simpa [show e'.tf.offset + 0 = e'.tf.offset by ext <;> simp] using hpos q hq
      | succ k =>
        simp only [List.getElem?_cons_succ, rows] at he hx
        have := ih k (step nwt l clp e' r).2 (o + e'.tf.offset) (fun e h => hP e (by simp [h]))
          (plane_index nwt l clp (hP e' (by simp)) _ _ hn)
          (by
            intro u' hu'
            simp only [step, Option.map_eq_some_iff] at hu'
            obtain ⟨w, hw, rfl⟩ := hu'
            exact hs w hw)
          (by
            intro p' hp'
            simp only [step, Option.map_eq_some_iff] at hp'
            obtain ⟨w, hw, rfl⟩ := hp'
            exact hpos w hw) he hx
        rw [List.take_succ_cons, List.map_cons, List.sum_cons]
        rw [show ∀ s : V3, o + (e'.tf.offset + s) = o + e'.tf.offset + s from fun s => by ext <;> simp <;> ring]
        exact this
  obtain ⟨a, b, h⟩ := key es k ⟨some p, some u, n⟩ 0 hP hn (by rintro _ ⟨⟩; exact ⟨hu, hf, 0, by ext <;> simp⟩)
    (by rintro _ ⟨⟩; exact ⟨0, 0, by ext <;> simp⟩) he hx
  refine ⟨a, b, ?_⟩
  rw [← h]
  congr 1
  ext <;> simp

/-- A plate of thickness one: the ray leaves it at the height `7 / 6`, without the plate it would be at `3 / 2`. -/
example (nwt : NewtonFn) (l : ℝ) (obj : Elem) :
    (∀ e ∈ [surf 1 0 (some crown), surf 1 0 (some vacuum)], PlaneAcross ez l e) ∧
    ∃ x1 x2, Sys.propagate nwt [obj, surf 1 0 (some crown), surf 1 0 (some vacuum)]
      ⟨some ⟨0, 0, 0⟩, some ⟨3 / 5, 0, 4 / 5⟩, 1⟩ l 1 none false = [x1, x2] ∧
      x1.y = some ⟨3 / 4, 0, 0⟩ ∧ x2.y = some ⟨7 / 6, 0, 0⟩ := by
  refine ⟨?_, ?_⟩
  · intro e he
    simp only [List.mem_cons, List.not_mem_nil, or_false] at he
    rcases he with rfl | rfl
    · exact (pane_across l zero_le_one crown rfl (by norm_num [crown])).1
    · exact (pane_across l zero_le_one vacuum rfl (by norm_num [vacuum])).1
  · rw [Sys.propagate, pySlice_one, List.tail_cons]
    have h1 := pane_step nwt l zero_le_one crown rfl (x := 0) (z := 0) (n := 1) (u := ⟨3 / 5, 0, 4 / 5⟩)
      (v := ⟨5 / 13, 0, 12 / 13⟩) (by norm_num) rfl (by norm_num [V3.dot]) one_pos (by norm_num [crown])
      (by norm_num [crown])
      ⟨by norm_num [V3.dot], by ext <;> norm_num [V3.cross, ez, crown], by norm_num [V3.dot, ez]⟩
    have h2 := fun x => pane_step nwt l zero_le_one vacuum rfl (x := x) (z := 0) (n := crown.index l)
      (u := ⟨5 / 13, 0, 12 / 13⟩) (v := ⟨3 / 5, 0, 4 / 5⟩) (by norm_num) rfl (by norm_num [V3.dot]) (by norm_num [crown])
      (by norm_num [vacuum]) (by norm_num [crown, vacuum])
      ⟨by norm_num [V3.dot], by ext <;> norm_num [V3.cross, ez, crown, vacuum], by norm_num [V3.dot, ez]⟩
    simp only [rows, h1, h2]
    exact ⟨_, _, rfl, by norm_num, by norm_num⟩

end RayOpt
