import Verif.Props.Plates

/-!
Property C120: plane mirrors.
-/

namespace RayOpt

open Sys V3 Transform Elem Shape

/-! ## Specification -/

/-- A plane mirror. -/
structure PlaneMirror (e : Elem) : Prop where
  reachable : Reachable e.tf
  flat : ∃ s, e.shape = some s ∧ s.curvature = 0 ∧ s.aspherics = none
  mirror : ∃ m, e.mat = some m ∧ m.mirror = true

/-- The normal of the element at its vertex. -/
def normalOf (e : Elem) : V3 := e.tf.fromNormal ez

/-- The direction reflected in the plane with the unit normal `N`. -/
noncomputable def reflectIn (N u : V3) : V3 := u - (2 * u.dot N) • N

/-- The mirror image of the point `P`, seen from the vertex of the mirror. -/
noncomputable def imageIn (e : Elem) (P : V3) : V3 := reflectIn (normalOf e) (P - e.tf.offset)

/-! ## Helpers -/

theorem clip_keeps {clp : Bool} {R : Radius} {p : Option V3} {i j : V3}
    (h : (if clp = true then clip R p (some i) else some i) = some j) : j = i := by
  cases clp with
  | false => simpa [eq_comm] using h
  | true =>
    cases p with
    | none => simp [clip] at h
    | some p =>
      simp only [clip, if_true] at h
      split_ifs at h
      exact (Option.some.inj h).symm

theorem reflectIn_dot {N u w : V3} (h : N.dot w = 0) : (reflectIn N u).dot w = u.dot w := by
  simp only [reflectIn, V3.dot, sub_x, sub_y, sub_z, smul_x, smul_y, smul_z] at h ⊢
  linear_combination (-(2 * (u.x * N.x + u.y * N.y + u.z * N.z))) * h

theorem mirror_step (nwt : NewtonFn) (l : ℝ) (clp : Bool) {e : Elem} (h : PlaneMirror e) (r : Ray) {v : V3}
    (hv : (step nwt l clp e r).1.u = some v) :
    (step nwt l clp e r).1.n = r.n ∧ ∃ u, r.u = some u ∧ e.tf.fromNormal v = reflectIn (normalOf e) u := by
  obtain ⟨y, u, n⟩ := r
  obtain ⟨s, hs, hc, ha⟩ := h.flat
  obtain ⟨m, hm, hmir⟩ := h.mirror
  have hmu : getNMu (e.material.getD none) n l = (n, -1) := by
    rw [show e.material.getD none = some m from hm]
    simp [getNMu, hmir]
  cases u with
  | none =>
    simp only [step, Option.map_none] at hv
    rw [(propagate_dead nwt e _ n l clp).2] at hv
    cases hv
  | some u =>
    simp only [step, Option.map_some] at hv ⊢
    have hr : refractAt ez (e.tf.toNormal u) (-1) = some v ∧
        (e.propagate nwt (y.map fun y => e.tf.toNormal (y - e.tf.offset)) (some (e.tf.toNormal u)) n l clp).n = n := by
      unfold Elem.propagate at hv ⊢
      rw [hs] at hv ⊢
      dsimp only at hv ⊢
      rw [hmu] at hv ⊢
      refine ⟨?_, rfl⟩
      rw [if_neg (by norm_num)] at hv
      have h1 : (-1 : ℝ) ≠ 1 := by norm_num
      simp only [refract, h1, if_false, Option.bind_eq_some_iff] at hv
      obtain ⟨i, hi, w, hw, hv⟩ := hv
      cases clip_keeps hi
      have : w = ez := by
        split at hw
        · simpa [Shape.surfaceNormal, hc, ha, ez, eq_comm] using hw
        · simpa [hc, ha, eq_comm] using hw
      rwa [this] at hv
    refine ⟨hr.2, u, rfl, ?_⟩
    have hR := (c03_reflect (r := ez) (by intro h; simpa [ez] using congrArg V3.z h) v).mp hr.1
    have hz : (e.tf.toNormal u).z = u.dot (normalOf e) := by
      unfold normalOf
      rw [← (c10_dot h.reachable u _).2.1, (c10_inverse h.reachable ez).2.1]
      simp [V3.dot, ez]
    have hvu : v = e.tf.toNormal u + (-(2 * u.dot (normalOf e))) • ez := by
      have hx := congrArg V3.x hR.tangential; have hy := congrArg V3.y hR.tangential
      have hn := hR.normal
      simp only [V3.cross, V3.dot, ez, mul_zero, mul_one, zero_add, sub_zero, zero_sub, neg_inj] at hx hy hn
      rw [← hz]
      ext <;> simp only [ez, add_x, add_y, add_z, smul_x, smul_y, smul_z] <;> linarith
    rw [hvu, fromNormal_lin, (c10_inverse h.reachable u).1]
    unfold reflectIn normalOf
    ext <;> simp <;> ring

theorem reflectIn_lin (N a b : V3) (s : ℝ) : reflectIn N (a + s • b) = reflectIn N a + s • reflectIn N b := by
  ext <;> simp [reflectIn, V3.dot] <;> ring

/-- Where a ray meets a plane mirror. -/
theorem mirror_meets (nwt : NewtonFn) (l : ℝ) (clp : Bool) {e : Elem} (h : PlaneMirror e) (r : Ray) {q : V3}
    (hq : (step nwt l clp e r).1.y = some q) : ∃ p u t, r.y = some p ∧ r.u = some u ∧
      (step nwt l clp e r).1.t = some (t * r.n) ∧ e.tf.fromNormal q = p - e.tf.offset + t • u ∧
      (e.tf.fromNormal q).dot (normalOf e) = 0 := by
  obtain ⟨y, u, n⟩ := r
  obtain ⟨s, hs, hc, ha⟩ := h.flat
  simp only [step] at hq ⊢
  unfold Elem.propagate at hq ⊢
  rw [hs] at hq ⊢
  dsimp only at hq ⊢
  cases y with
  | none => simp at hq
  | some p =>
    cases u with
    | none => simp at hq
    | some u =>
      simp only [Option.map_some, Option.bind_some, Elem.intercept, hs, Shape.intercept, ha, Shape.interceptConic, hc,
        if_true, Shape.interceptPlane] at hq ⊢
      split_ifs at hq ⊢ with hz
      · simp at hq
      · simp only [Option.map_some, Option.some.injEq] at hq ⊢
        refine ⟨p, u, _, rfl, rfl, rfl, ?_, ?_⟩
        · rw [← hq, fromNormal_lin, (c10_inverse h.reachable _).1, (c10_inverse h.reachable u).1]
        · unfold normalOf
          rw [(c10_dot h.reachable _ _).1, ← hq]
          simp only [V3.dot, ez, add_z, smul_z]
          field_simp
          ring

/-! ## The property -/

/-- C120: behind any number of plane mirrors a ray has the direction that comes of one reflection after the other,
wherever it meets them, and is in the medium where it was. -/
theorem c120_mirrors (nwt : NewtonFn) (l : ℝ) (clp : Bool) (obj : Elem) (es : List Elem) (hP : ∀ e ∈ es, PlaneMirror e)
    (y : Option V3) (u : V3) (n : ℝ) {k : ℕ} {e : Elem} {x : Row} {v : V3} (he : es[k]? = some e)
    (hx : (Sys.propagate nwt (obj :: es) ⟨y, some u, n⟩ l 1 none clp)[k]? = some x) (hv : x.u = some v) :
    x.n = n ∧ e.tf.fromNormal v = (es.take (k + 1)).foldl (fun u e => reflectIn (normalOf e) u) u := by
  rw [Sys.propagate, pySlice_one, List.tail_cons] at hx
  have key : ∀ (es : List Elem) (k : ℕ) (r : Ray) (u : V3), (∀ e ∈ es, PlaneMirror e) →
      (∀ u', r.u = some u' → u' = u) → es[k]? = some e → (rows nwt l clp es r)[k]? = some x →
      x.n = r.n ∧ e.tf.fromNormal v = (es.take (k + 1)).foldl (fun u e => reflectIn (normalOf e) u) u := by
    intro es
    induction es with
    | nil => intro k r u _ _ h; simp at h
    | cons e' es ih =>
      intro k r u hP hr he hx
      have hs := fun v => mirror_step nwt l clp (hP e' (by simp)) r (v := v)
      cases k with
      | zero =>
        simp only [List.getElem?_cons_zero, Option.some.injEq, rows] at he hx
        subst he
        rw [← hx] at hv ⊢
        obtain ⟨h1, u', hu', h2⟩ := hs v hv
        rw [hr u' hu'] at h2
        exact ⟨h1, by simpa using h2⟩
      | succ k =>
        simp only [List.getElem?_cons_succ, rows] at he hx
        cases hw : (step nwt l clp e' r).1.u with
        | none =>
          exfalso
          have hd : (step nwt l clp e' r).2.u = none := by
            have : (step nwt l clp e' r).2.u = (step nwt l clp e' r).1.u.map e'.tf.fromNormal := rfl
            rw [this, hw]; rfl
          have dead : ∀ (es : List Elem) (r : Ray) (x : Row), r.u = none → x ∈ rows nwt l clp es r → x.u = none := by
            intro es
            induction es with
            | nil => intro r x _ h; simp [rows] at h
            | cons a es ih =>
              intro r x hr hx
              obtain ⟨y, u, n⟩ := r
              dsimp only at hr
              subst hr
              simp only [rows, List.mem_cons] at hx
              rcases hx with rfl | hx
              · simp only [step, Option.map_none]
                exact (propagate_dead nwt a _ n l clp).2
              · refine ih _ x ?_ hx
                simp only [step, Option.map_none]
                rw [(propagate_dead nwt a _ n l clp).2]; rfl
          rw [dead es _ x hd (List.mem_of_getElem? hx)] at hv
          cases hv
        | some w =>
          obtain ⟨h1, u', hu', h2⟩ := hs w hw
          rw [hr u' hu'] at h2
          have hu2 : (step nwt l clp e' r).2.u = some (reflectIn (normalOf e') u) := by
            have : (step nwt l clp e' r).2.u = (step nwt l clp e' r).1.u.map e'.tf.fromNormal := rfl
            rw [this, hw, ← h2]; rfl
          obtain ⟨h3, h4⟩ := ih k (step nwt l clp e' r).2 (reflectIn (normalOf e') u) (fun e h => hP e (by simp [h]))
            (fun u'' h => by rw [hu2] at h; exact (Option.some.inj h).symm) he hx
          refine ⟨h3.trans h1, ?_⟩
          rw [h4, List.take_succ_cons, List.foldl_cons]
  exact key es k ⟨y, some u, n⟩ u hP (by rintro _ ⟨⟩; rfl) he hx

/-- C120: any number of plane mirrors image every point sharply: behind each mirror all rays from the point `P` lie on
lines through its image in one mirror after the other, and at the optical path from there that they have come. -/
theorem c120_image (nwt : NewtonFn) (l : ℝ) (clp : Bool) (obj : Elem) (es : List Elem) (hP : ∀ e ∈ es, PlaneMirror e)
    (P u : V3) (s n : ℝ) {k : ℕ} {e : Elem} {F : List Row} {x : Row} {q v : V3} (he : es[k]? = some e)
    (hF : Sys.propagate nwt (obj :: es) ⟨some (P + s • u), some u, n⟩ l 1 none clp = F) (hx : F[k]? = some x)
    (hq : x.y = some q) (hv : x.u = some v) :
    n • (e.tf.fromNormal q - (es.take (k + 1)).foldl (fun P e => imageIn e P) P) =
      (n * s + ((F.take (k + 1)).map fun x => x.t.getD 0).sum) • e.tf.fromNormal v := by
  rw [Sys.propagate, pySlice_one, List.tail_cons] at hF
  subst hF
  have key : ∀ (es : List Elem) (k : ℕ) (r : Ray) (P : V3) (L : ℝ), (∀ e ∈ es, PlaneMirror e) →
      (∀ p u, r.y = some p → r.u = some u → r.n • (p - P) = L • u) → es[k]? = some e →
      (rows nwt l clp es r)[k]? = some x →
      r.n • (e.tf.fromNormal q - (es.take (k + 1)).foldl (fun P e => imageIn e P) P) =
        (L + (((rows nwt l clp es r).take (k + 1)).map fun x => x.t.getD 0).sum) • e.tf.fromNormal v := by
    intro es
    induction es with
    | nil => intro k r P L _ _ h; simp at h
    | cons e' es ih =>
      intro k r P L hP hr he hx
      have one : ∀ q v, (step nwt l clp e' r).1.y = some q → (step nwt l clp e' r).1.u = some v →
          r.n • (e'.tf.fromNormal q - imageIn e' P) =
            (L + (step nwt l clp e' r).1.t.getD 0) • e'.tf.fromNormal v := by
        intro q v hq hv
        obtain ⟨p, u, t, hp, hu, ht, hpos, hdot⟩ := mirror_meets nwt l clp (hP e' (by simp)) r hq
        obtain ⟨-, u', hu', hdir⟩ := mirror_step nwt l clp (hP e' (by simp)) r hv
        obtain rfl : u' = u := Option.some.inj (hu'.symm.trans hu)
        have hself : reflectIn (normalOf e') (e'.tf.fromNormal q) = e'.tf.fromNormal q := by
          rw [reflectIn, hdot]; ext <;> simp
        have h0 := hr p u' hp hu
        rw [ht, hdir, Option.getD_some, ← hself, hpos, imageIn, reflectIn_lin]
        have hx := congrArg V3.x h0; have hy := congrArg V3.y h0; have hz := congrArg V3.z h0
        simp only [smul_x, smul_y, smul_z, sub_x, sub_y, sub_z] at hx hy hz
        generalize normalOf e' = N
        generalize e'.tf.offset = o
        ext <;> simp only [reflectIn, V3.dot, smul_x, smul_y, smul_z, sub_x, sub_y, sub_z, add_x, add_y, add_z]
        · linear_combination (1 - 2 * N.x * N.x) * hx - 2 * N.y * N.x * hy - 2 * N.z * N.x * hz
        · linear_combination (1 - 2 * N.y * N.y) * hy - 2 * N.x * N.y * hx - 2 * N.z * N.y * hz
        · linear_combination (1 - 2 * N.z * N.z) * hz - 2 * N.x * N.z * hx - 2 * N.y * N.z * hy
      cases k with
      | zero =>
        simp only [List.getElem?_cons_zero, Option.some.injEq, rows] at he hx
        subst he
        rw [← hx] at hq hv
        simpa [rows] using one q v hq hv
      | succ k =>
        simp only [List.getElem?_cons_succ, rows] at he hx
        have hn : (step nwt l clp e' r).2.n = r.n := by
          obtain ⟨s, hs, -, -⟩ := (hP e' (by simp)).flat
          obtain ⟨m, hm, hmir⟩ := (hP e' (by simp)).mirror
          simp only [step]
          unfold Elem.propagate
          rw [hs, show e'.material.getD none = some m from hm]
          simp [getNMu, hmir]
        have := ih k (step nwt l clp e' r).2 (imageIn e' P) (L + (step nwt l clp e' r).1.t.getD 0)
          (fun e h => hP e (by simp [h])) (by
            intro p u hp hu
            have hp' : (step nwt l clp e' r).1.y.map e'.tf.fromNormal = some p := hp
            have hu' : (step nwt l clp e' r).1.u.map e'.tf.fromNormal = some u := hu
            obtain ⟨q, hq, rfl⟩ := Option.map_eq_some_iff.mp hp'
            obtain ⟨v, hv, rfl⟩ := Option.map_eq_some_iff.mp hu'
            rw [hn]
            exact one q v hq hv) he hx
        rw [hn] at this
        rw [List.take_succ_cons, List.foldl_cons, this, rows, List.take_succ_cons, List.map_cons, List.sum_cons,
          add_assoc]
  refine key es k ⟨some (P + s • u), some u, n⟩ P (n * s) hP ?_ he hx
  rintro _ _ ⟨⟩ ⟨⟩
  ext <;> simp <;> ring

/-- C120: three mirrors at right angles send every ray back where it came from. -/
theorem c120_corner (nwt : NewtonFn) (l : ℝ) (clp : Bool) (obj : Elem) {a b c : Elem}
    (hP : ∀ e ∈ [a, b, c], PlaneMirror e) (hab : (normalOf a).dot (normalOf b) = 0)
    (hbc : (normalOf b).dot (normalOf c) = 0) (hac : (normalOf a).dot (normalOf c) = 0) (y : Option V3) (u : V3) (n : ℝ)
    {x : Row} {v : V3} (hx : (Sys.propagate nwt [obj, a, b, c] ⟨y, some u, n⟩ l 1 none clp)[2]? = some x)
    (hv : x.u = some v) : c.tf.fromNormal v = -u := by
  have hN : ∀ e ∈ [a, b, c], (normalOf e).dot (normalOf e) = 1 := by
    intro e he
    unfold normalOf
    rw [(c10_dot (hP e he).reachable _ _).1]; simp [V3.dot, ez]
  have ha := hN a (by simp); have hb := hN b (by simp); have hc := hN c (by simp)
  obtain ⟨-, h⟩ := c120_mirrors nwt l clp obj [a, b, c] hP y u n (k := 2) rfl hx hv
  rw [h]
  simp only [List.take_succ_cons, List.take_zero, List.foldl_cons, List.foldl_nil]
  generalize normalOf a = A at *
  generalize normalOf b = B at *
  generalize normalOf c = C at *
  have hM : (!![A.x, A.y, A.z; B.x, B.y, B.z; C.x, C.y, C.z] : Matrix (Fin 3) (Fin 3) ℝ).transpose *
      !![A.x, A.y, A.z; B.x, B.y, B.z; C.x, C.y, C.z] = 1 := by
    rw [mul_eq_one_comm]
    simp only [V3.dot] at ha hb hc hab hbc hac
    ext i j
    fin_cases i <;> fin_cases j <;> simp [Matrix.mul_apply, Fin.sum_univ_three] <;> linarith
  have e := fun i j => congrFun (congrFun hM i) j
  have e00 := e 0 0; have e01 := e 0 1; have e02 := e 0 2
  have e11 := e 1 1; have e12 := e 1 2; have e22 := e 2 2
  simp [Matrix.mul_apply, Fin.sum_univ_three] at e00 e01 e02 e11 e12 e22
  have h1 : (reflectIn A u).dot B = u.dot B := reflectIn_dot hab
  have h2 : (reflectIn B (reflectIn A u)).dot C = u.dot C := by rw [reflectIn_dot hbc, reflectIn_dot hac]
  rw [reflectIn, h2, reflectIn, h1, reflectIn]
  ext <;> simp only [V3.dot, sub_x, sub_y, sub_z, smul_x, smul_y, smul_z, neg_x, neg_y, neg_z]
  · linear_combination (-2 * u.x) * e00 - 2 * u.y * e01 - 2 * u.z * e02
  · linear_combination (-2 * u.x) * e01 - 2 * u.y * e11 - 2 * u.z * e12
  · linear_combination (-2 * u.x) * e02 - 2 * u.y * e12 - 2 * u.z * e22

/-- C120: two mirrors turn every ray across their edge by twice the angle between them, however it meets them. -/
theorem c120_pair (nwt : NewtonFn) (l : ℝ) (clp : Bool) (obj : Elem) {a b : Elem}
    (hP : ∀ e ∈ [a, b], PlaneMirror e) (y : Option V3) {u : V3} (n : ℝ) (hu : u.dot u = 1)
    (hplane : ∃ s t : ℝ, u = s • normalOf a + t • normalOf b)
    {x : Row} {v : V3} (hx : (Sys.propagate nwt [obj, a, b] ⟨y, some u, n⟩ l 1 none clp)[1]? = some x)
    (hv : x.u = some v) : (b.tf.fromNormal v).dot u = 2 * (normalOf a).dot (normalOf b) ^ 2 - 1 := by
  have hN : ∀ e ∈ [a, b], (normalOf e).dot (normalOf e) = 1 := by
    intro e he
    unfold normalOf
    rw [(c10_dot (hP e he).reachable _ _).1]; simp [V3.dot, ez]
  have ha := hN a (by simp); have hb := hN b (by simp)
  obtain ⟨-, h⟩ := c120_mirrors nwt l clp obj [a, b] hP y u n (k := 1) rfl hx hv
  rw [h]
  simp only [List.take_succ_cons, List.take_zero, List.foldl_cons, List.foldl_nil]
  obtain ⟨s, t, hst⟩ := hplane
  generalize normalOf a = A at *
  generalize normalOf b = B at *
  have hp : u.dot A = s + t * A.dot B := by
    rw [hst]; simp only [V3.dot, add_x, add_y, add_z, smul_x, smul_y, smul_z] at ha ⊢
    linear_combination s * ha
  have hq : u.dot B = s * A.dot B + t := by
    rw [hst]; simp only [V3.dot, add_x, add_y, add_z, smul_x, smul_y, smul_z] at hb ⊢
    linear_combination t * hb
  have hone : s * u.dot A + t * u.dot B = 1 := by
    rw [← hu]; conv_rhs => rw [hst]
    simp only [V3.dot, add_x, add_y, add_z, smul_x, smul_y, smul_z]
    rw [hst]; simp only [add_x, add_y, add_z, smul_x, smul_y, smul_z]; ring
  have hd : (reflectIn B (reflectIn A u)).dot u =
      u.dot u - 2 * u.dot A ^ 2 - 2 * (u.dot B - 2 * u.dot A * A.dot B) * u.dot B := by
    simp only [reflectIn, V3.dot, sub_x, sub_y, sub_z, smul_x, smul_y, smul_z]; ring
  rw [hd, hu]
  rw [hp, hq] at hone ⊢
  linear_combination (-2 * (1 - A.dot B ^ 2)) * hone

/-! ## Examples -/

/-- Without clipping a plane mirror loses no ray. -/
theorem mirror_live (nwt : NewtonFn) (l : ℝ) {e : Elem} (h : PlaneMirror e) (y : Option V3) (u : V3) (n : ℝ) :
    ∃ v, (step nwt l false e ⟨y, some u, n⟩).1.u = some v := by
  obtain ⟨s, hs, hc, ha⟩ := h.flat
  obtain ⟨m, hm, hmir⟩ := h.mirror
  have hmu : getNMu (e.material.getD none) n l = (n, -1) := by
    rw [show e.material.getD none = some m from hm]
    simp [getNMu, hmir]
  have h1 : (-1 : ℝ) ≠ 1 := by norm_num
  have hr : ∀ i : V3, refractAt ⟨0, 0, 1⟩ i (-1) = some ⟨i.x, i.y, -i.z⟩ := fun i => by
    rw [c03_reflect (by intro h; simpa using congrArg V3.z h)]
    constructor
    · ext <;> simp [V3.cross]
    · simp [V3.dot]
  refine ⟨⟨(e.tf.toNormal u).x, (e.tf.toNormal u).y, -(e.tf.toNormal u).z⟩, ?_⟩
  rw [← hr]
  simp only [step, Option.map_some]
  unfold Elem.propagate
  rw [hs]
  dsimp only
  rw [hmu]
  rw [if_neg (by norm_num)]
  simp only [refract, h1, if_false, Bool.false_eq_true, Option.bind_some]
  split <;> simp [Shape.surfaceNormal, hc, ha, ez]

theorem mirrors_live (nwt : NewtonFn) (l : ℝ) (es : List Elem) (hP : ∀ e ∈ es, PlaneMirror e) (r : Ray) {u : V3}
    (hr : r.u = some u) : ∀ x ∈ rows nwt l false es r, ∃ v, x.u = some v := by
  induction es generalizing r u with
  | nil => intro x h; simp [rows] at h
  | cons e es ih =>
    obtain ⟨y, u', n⟩ := r
    dsimp only at hr
    subst hr
    obtain ⟨v, hv⟩ := mirror_live nwt l (hP e (by simp)) y u n
    intro x hx
    simp only [rows, List.mem_cons] at hx
    rcases hx with rfl | hx
    · exact ⟨v, hv⟩
    · refine ih (fun e h => hP e (by simp [h])) _ (u := e.tf.fromNormal v) ?_ x hx
      have : (step nwt l false e ⟨y, some u, n⟩).2.u = (step nwt l false e ⟨y, some u, n⟩).1.u.map e.tf.fromNormal := rfl
      rw [this, hv]; rfl

/-- A plane mirror at the distance one, tilted by the angles `a`. -/
noncomputable def mirrorAt (a : V3) : Elem :=
  ⟨Transform.update 1 ez a, .inf, some ⟨0, 0, none, false⟩, some (some ⟨true, false, fun _ => 1⟩)⟩

theorem mirrorAt_mirror (a : V3) : PlaneMirror (mirrorAt a) :=
  ⟨⟨1, ez, a, none, [], rfl⟩, ⟨_, rfl, rfl, rfl⟩, ⟨_, rfl, rfl⟩⟩

theorem mirrorAt_normal {a : V3} (h : ¬allclose a 0) :
    normalOf (mirrorAt a) = ⟨(eulerMatrix a.x a.y a.z Axes.rxyz).a20, (eulerMatrix a.x a.y a.z Axes.rxyz).a21,
      (eulerMatrix a.x a.y a.z Axes.rxyz).a22⟩ := by
  have hdir : updDir 1 ez = ez := by rw [updDir_of_unit ez_dot, if_neg (by norm_num)]
  have hcl : allclose ez ez := ⟨close_self _, close_self _, close_self _⟩
  have hrot : (mirrorAt a).tf.rotNormal = some (eulerMatrix a.x a.y a.z Axes.rxyz) := by
    unfold mirrorAt
    rw [update_rotNormal, hdir, if_neg (fun h' => h h'.1), if_pos hcl]
    dsimp only
    rw [if_neg h]
    simp [M3.one, M3.mul]
  unfold normalOf Transform.fromNormal
  rw [hrot]
  ext <;> simp [doRotate, M3.vecMul, ez]

theorem mirrorAt_upright : normalOf (mirrorAt 0) = ez := by
  have hdir : updDir 1 ez = ez := by rw [updDir_of_unit ez_dot, if_neg (by norm_num)]
  have hcl : ∀ v, allclose v v := fun v => ⟨close_self _, close_self _, close_self _⟩
  have hrot : (mirrorAt 0).tf.rotNormal = none := by
    unfold mirrorAt
    rw [update_rotNormal, hdir, if_pos ⟨hcl _, hcl _⟩]
  unfold normalOf Transform.fromNormal
  rw [hrot]
  rfl

theorem not_close_zero {a : ℝ} (h : 1 / 2 < a) : ¬close a 0 := by
  intro hc
  simp only [close, sub_zero, abs_zero, mul_zero, add_zero] at hc
  rw [abs_of_pos (by linarith)] at hc
  norm_num at hc
  linarith

theorem mirrorAt_first {a : ℝ} (h : 1 / 2 < a) : normalOf (mirrorAt ⟨a, 0, 0⟩) = ⟨0, Real.sin a, Real.cos a⟩ := by
  rw [mirrorAt_normal (fun h' => not_close_zero h h'.1)]
  simp [eulerMatrix, Axes.rxyz, Axes.ijk, nextAxis, axisPos]

theorem mirrorAt_second {a : ℝ} (h : 1 / 2 < a) : normalOf (mirrorAt ⟨0, a, 0⟩) = ⟨-Real.sin a, 0, Real.cos a⟩ := by
  rw [mirrorAt_normal (fun h' => not_close_zero h h'.2.1)]
  simp [eulerMatrix, Axes.rxyz, Axes.ijk, nextAxis, axisPos]

/-- `c120_image` for a mirror across the axis: the image of the origin is as far behind the mirror. -/
example (nwt : NewtonFn) (l : ℝ) (obj : Elem) : imageIn (mirrorAt 0) 0 = ⟨0, 0, 1⟩ ∧ ∃ x,
    Sys.propagate nwt [obj, mirrorAt 0] ⟨some (0 + (0 : ℝ) • ⟨3 / 5, 0, 4 / 5⟩), some ⟨3 / 5, 0, 4 / 5⟩, 1⟩ l 1 none
      false = [x] ∧ x.y = some ⟨3 / 4, 0, 0⟩ ∧ x.t = some (5 / 4) ∧ x.u = some ⟨3 / 5, 0, -(4 / 5)⟩ := by
  have hdir : updDir 1 ez = ez := by rw [updDir_of_unit ez_dot, if_neg (by norm_num)]
  have hcl : ∀ v, allclose v v := fun v => ⟨close_self _, close_self _, close_self _⟩
  have hrot : (mirrorAt 0).tf.rotNormal = none := by
    unfold mirrorAt
    rw [update_rotNormal, hdir, if_pos ⟨hcl _, hcl _⟩]
  have hto : ∀ v, (mirrorAt 0).tf.toNormal v = v := fun v => by unfold Transform.toNormal; rw [hrot]; rfl
  have hoff : (mirrorAt 0).tf.offset = ⟨0, 0, 1⟩ := by
    unfold mirrorAt Transform.update
    simp only [hdir]
    split_ifs <;> ext <;> simp [ez] <;> norm_num at *
  refine ⟨?_, ?_⟩
  · rw [imageIn, mirrorAt_upright, hoff]
    ext <;> norm_num [reflectIn, V3.dot, ez]
  · rw [Sys.propagate, pySlice_one, List.tail_cons]
    refine ⟨_, rfl, ?_, ?_, ?_⟩
    · simp only [step, Option.map_some, hto, hoff, Elem.propagate]
      norm_num [mirrorAt, Elem.intercept, Shape.intercept, Shape.interceptConic, Shape.interceptPlane]
      ext <;> norm_num
    · simp only [step, Option.map_some, hto, hoff, Elem.propagate]
      norm_num [mirrorAt, Elem.intercept, Shape.intercept, Shape.interceptConic, Shape.interceptPlane]
    · simp only [step, Option.map_some, hto, hoff, Elem.propagate]
      norm_num [mirrorAt, Elem.intercept, Shape.intercept, Shape.interceptConic, Shape.interceptPlane, getNMu, refract,
        Shape.surfaceNormal, refractAt, V3.dot]
      ext <;> norm_num

/-- `c120_corner` for the corner of three mirrors across the axes. -/
example (nwt : NewtonFn) (l : ℝ) (obj : Elem) (y : Option V3) (u : V3) (n : ℝ) : ∃ x v,
    (Sys.propagate nwt [obj, mirrorAt ⟨Real.pi / 2, 0, 0⟩, mirrorAt ⟨0, Real.pi / 2, 0⟩, mirrorAt 0]
      ⟨y, some u, n⟩ l 1 none false)[2]? = some x ∧ x.u = some v ∧ (mirrorAt 0).tf.fromNormal v = -u := by
  have hP : ∀ e ∈ [mirrorAt ⟨Real.pi / 2, 0, 0⟩, mirrorAt ⟨0, Real.pi / 2, 0⟩, mirrorAt 0], PlaneMirror e := by
    intro e he
    simp only [List.mem_cons, List.not_mem_nil, or_false] at he
    rcases he with rfl | rfl | rfl <;> exact mirrorAt_mirror _
  have hpi : 1 / 2 < Real.pi / 2 := by linarith [Real.two_le_pi]
  have h := mirrors_live nwt l _ hP ⟨y, some u, n⟩ rfl
  obtain ⟨x, hx⟩ : ∃ x, (Sys.propagate nwt [obj, mirrorAt ⟨Real.pi / 2, 0, 0⟩, mirrorAt ⟨0, Real.pi / 2, 0⟩, mirrorAt 0]
      ⟨y, some u, n⟩ l 1 none false)[2]? = some x := by
    rw [Sys.propagate, pySlice_one, List.tail_cons]; exact ⟨_, rfl⟩
  obtain ⟨v, hv⟩ := h x (by
    have := hx
    rw [Sys.propagate, pySlice_one, List.tail_cons] at this
    exact List.mem_of_getElem? this)
  refine ⟨x, v, hx, hv, ?_⟩
  exact c120_corner nwt l false obj hP (by rw [mirrorAt_first hpi, mirrorAt_second hpi]; simp [V3.dot])
    (by rw [mirrorAt_second hpi, mirrorAt_upright]; simp [V3.dot, ez])
    (by rw [mirrorAt_first hpi, mirrorAt_upright]; simp [V3.dot, ez]) y u n hx hv

/-- `c120_pair` for two mirrors with the angle of cosine `4 / 5` between them and a ray along the axis. -/
example (nwt : NewtonFn) (l : ℝ) (obj : Elem) (y : Option V3) (n : ℝ) : ∃ x v,
    (Sys.propagate nwt [obj, mirrorAt ⟨tilt, 0, 0⟩, mirrorAt 0] ⟨y, some ez, n⟩ l 1 none false)[1]? = some x ∧
    x.u = some v ∧ ((mirrorAt 0).tf.fromNormal v).dot ez = 7 / 25 := by
  have hP : ∀ e ∈ [mirrorAt ⟨tilt, 0, 0⟩, mirrorAt 0], PlaneMirror e := by
    intro e he
    simp only [List.mem_cons, List.not_mem_nil, or_false] at he
    rcases he with rfl | rfl <;> exact mirrorAt_mirror _
  have ht : 1 / 2 < tilt := by
    have h0 : 0 < tilt := Real.arcsin_pos.mpr (by norm_num)
    have := Real.sin_lt h0
    rw [sin_tilt] at this
    linarith
  have h := mirrors_live nwt l _ hP ⟨y, some ez, n⟩ rfl
  obtain ⟨x, hx⟩ : ∃ x, (Sys.propagate nwt [obj, mirrorAt ⟨tilt, 0, 0⟩, mirrorAt 0]
      ⟨y, some ez, n⟩ l 1 none false)[1]? = some x := by
    rw [Sys.propagate, pySlice_one, List.tail_cons]; exact ⟨_, rfl⟩
  obtain ⟨v, hv⟩ := h x (by
    have := hx
    rw [Sys.propagate, pySlice_one, List.tail_cons] at this
    exact List.mem_of_getElem? this)
  refine ⟨x, v, hx, hv, ?_⟩
  rw [c120_pair nwt l false obj hP y n (by simp [V3.dot, ez])
    ⟨0, 1, by rw [mirrorAt_upright]; ext <;> simp [ez]⟩ hx hv, mirrorAt_first ht, mirrorAt_upright, cos_tilt]
  norm_num [V3.dot, ez]

end RayOpt
