import Verif.Props.Mirrors

/-!
Property C120: angles and handedness behind plane mirrors.
-/

namespace RayOpt

open Sys V3 Transform Elem Shape

theorem reflectIn_angle {N : V3} (h : N.dot N = 1) (u v : V3) : (reflectIn N u).dot (reflectIn N v) = u.dot v := by
  simp only [reflectIn, V3.dot, sub_x, sub_y, sub_z, smul_x, smul_y, smul_z] at h ⊢
  linear_combination 4 * (u.x * N.x + u.y * N.y + u.z * N.z) * (v.x * N.x + v.y * N.y + v.z * N.z) * h

theorem reflectIn_triple {N : V3} (h : N.dot N = 1) (u v w : V3) :
    ((reflectIn N u).cross (reflectIn N v)).dot (reflectIn N w) = -(u.cross v).dot w := by
  simp only [reflectIn, V3.dot, V3.cross, sub_x, sub_y, sub_z, smul_x, smul_y, smul_z] at h ⊢
  linear_combination (-2 * ((u.y * v.z - u.z * v.y) * w.x + (u.z * v.x - u.x * v.z) * w.y +
    (u.x * v.y - u.y * v.x) * w.z)) * h

theorem normalOf_unit {e : Elem} (h : PlaneMirror e) : (normalOf e).dot (normalOf e) = 1 := by
  unfold normalOf
  rw [(c10_dot h.reachable _ _).1]; simp [V3.dot, ez]

/-- C120: plane mirrors keep the angle between any two rays, and they turn the sense of any three rays around once per
mirror: an even number of mirrors shows a picture the right way round, an odd number its mirror image. -/
theorem c120_handed (nwt : NewtonFn) (l : ℝ) (clp : Bool) (obj : Elem) (es : List Elem) (hP : ∀ e ∈ es, PlaneMirror e)
    (y : Fin 3 → Option V3) (u : Fin 3 → V3) (n : ℝ) {k : ℕ} {e : Elem} {x : Fin 3 → Row} {v : Fin 3 → V3}
    (he : es[k]? = some e)
    (hx : ∀ j, (Sys.propagate nwt (obj :: es) ⟨y j, some (u j), n⟩ l 1 none clp)[k]? = some (x j))
    (hv : ∀ j, (x j).u = some (v j)) :
    (∀ i j, (e.tf.fromNormal (v i)).dot (e.tf.fromNormal (v j)) = (u i).dot (u j)) ∧
    ((e.tf.fromNormal (v 0)).cross (e.tf.fromNormal (v 1))).dot (e.tf.fromNormal (v 2)) =
      (-1) ^ (k + 1) * ((u 0).cross (u 1)).dot (u 2) := by
  have hd := fun j => (c120_mirrors nwt l clp obj es hP (y j) (u j) n he (hx j) (hv j)).2
  simp only [hd]
  have hlen : (es.take (k + 1)).length = k + 1 := by
    have := (List.getElem?_eq_some_iff.mp he).1
    simp; omega
  have hN : ∀ e ∈ es.take (k + 1), (normalOf e).dot (normalOf e) = 1 :=
    fun e h => normalOf_unit (hP e (List.mem_of_mem_take h))
  clear hd hx hv he hP
  generalize es.take (k + 1) = fs at hlen hN ⊢
  rw [← hlen]
  clear hlen
  induction fs generalizing u with
  | nil => simp
  | cons f fs ih =>
    obtain ⟨h1, h2⟩ := ih (fun j => reflectIn (normalOf f) (u j)) (fun e h => hN e (by simp [h]))
    have hf := hN f (by simp)
    refine ⟨fun i j => ?_, ?_⟩
    · rw [List.foldl_cons, List.foldl_cons, h1 i j, reflectIn_angle hf]
    · simp only [List.foldl_cons, List.length_cons]
      rw [h2, reflectIn_triple hf]
      ring

/-- Three rays along the axes at the corner of `c120_corner`: none is lost, and their sense is reversed. -/
example (nwt : NewtonFn) (l : ℝ) (obj : Elem) (y : Fin 3 → Option V3) : ∃ (x : Fin 3 → Row) (v : Fin 3 → V3),
    (∀ j, (Sys.propagate nwt [obj, mirrorAt ⟨Real.pi / 2, 0, 0⟩, mirrorAt ⟨0, Real.pi / 2, 0⟩, mirrorAt 0]
      ⟨y j, some (![⟨1, 0, 0⟩, ⟨0, 1, 0⟩, ⟨0, 0, 1⟩] j), 1⟩ l 1 none false)[2]? = some (x j)) ∧
    (∀ j, (x j).u = some (v j)) ∧
    (((mirrorAt 0).tf.fromNormal (v 0)).cross ((mirrorAt 0).tf.fromNormal (v 1))).dot ((mirrorAt 0).tf.fromNormal (v 2)) =
      -1 := by
  have hP : ∀ e ∈ [mirrorAt ⟨Real.pi / 2, 0, 0⟩, mirrorAt ⟨0, Real.pi / 2, 0⟩, mirrorAt 0], PlaneMirror e := by
    intro e he
    simp only [List.mem_cons, List.not_mem_nil, or_false] at he
    rcases he with rfl | rfl | rfl <;> exact mirrorAt_mirror _
  have key : ∀ j : Fin 3, ∃ (x : Row) (v : V3),
      (Sys.propagate nwt [obj, mirrorAt ⟨Real.pi / 2, 0, 0⟩, mirrorAt ⟨0, Real.pi / 2, 0⟩, mirrorAt 0]
        ⟨y j, some (![⟨1, 0, 0⟩, ⟨0, 1, 0⟩, ⟨0, 0, 1⟩] j), 1⟩ l 1 none false)[2]? = some x ∧ x.u = some v := by
    intro j
    have h := mirrors_live nwt l _ hP ⟨y j, some (![⟨1, 0, 0⟩, ⟨0, 1, 0⟩, ⟨0, 0, 1⟩] j), 1⟩ rfl
    rw [Sys.propagate, pySlice_one, List.tail_cons]
    obtain ⟨v, hv⟩ := h _ (List.mem_of_getElem? (i := 2) rfl)
    exact ⟨_, v, rfl, hv⟩
  choose x v hx hv using key
  refine ⟨x, v, hx, hv, ?_⟩
  rw [(c120_handed nwt l false obj _ hP y _ 1 (k := 2) rfl hx hv).2]
  norm_num [V3.dot, V3.cross]
  rfl

end RayOpt
