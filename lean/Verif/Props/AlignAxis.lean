import Mathlib.Data.List.ModifyLast
import Verif.Lemmas.ParaxialTrace
import Verif.Props.Align

/-!
# C68: the optical axis of an aligned system is a ray
-/

namespace RayOpt

open V3 Transform Elem Shape

/-- Specification: a ray aimed at the vertex meets the surface there, when `c` is the cosine of its
angle with the normal.  An aspheric surface needs a Newton iteration that stays at a root it is
started at. -/
def MeetsVertex (nwt : NewtonFn) (e : Elem) (c : ℝ) : Prop :=
  0 < c ∧ ∀ sh, e.shape = some sh →
    sh.aspherics = none ∧ (sh.curvature = 0 ∨ sh.alternate = false ∧ 1 + sh.conic * c ^ 2 ≠ 0) ∨
    (∃ a, sh.aspherics = some a ∧ (sh.curvature ≠ 0 ∨ a ≠ [])) ∧
      ∀ f f' x, f x = some 0 → nwt f f' x = some x

theorem aspSag_zero (a : List ℝ) : aspSag 0 a = 0 := by
  cases a <;> simp [aspSag]

theorem sag_vertex (sh : Shape) : sh.surfaceSag 0 = some 0 := by
  unfold surfaceSag
  have h0 : rsq 0 = 0 := by simp [rsq]
  simp only [h0, zero_z, mul_zero, sub_zero, zero_div]
  split
  · rfl
  · rw [if_neg (not_lt.mpr zero_le_one)]
    have : (if sh.curvature ≠ 0 then some (0 : ℝ) else some 0) = some 0 := by split <;> rfl
    rw [this]
    cases sh.aspherics with
    | none => rfl
    | some a => simp [aspSag_zero]

theorem plane_vertex {u : V3} (hu : u.z ≠ 0) (d : ℝ) : interceptPlane (-(d • u)) u = some d := by
  unfold interceptPlane
  rw [if_neg hu]
  congr 1
  simp
  field_simp

theorem back_vertex (u : V3) (d : ℝ) : -(d • u) + d • u = 0 := by ext <;> simp

theorem meets_vertex {nwt : NewtonFn} {e : Elem} {u : V3} (hu : u.dot u = 1) (h : MeetsVertex nwt e u.z)
    (d : ℝ) : e.intercept nwt (-(d • u)) u = some d := by
  obtain ⟨hz, hsh⟩ := h
  unfold Elem.intercept
  cases hs : e.shape with
  | none => exact plane_vertex hz.ne' d
  | some sh =>
    simp only
    unfold Shape.intercept
    rcases hsh sh hs with ⟨ha, hc⟩ | ⟨⟨a, ha, -⟩, hn⟩
    · rw [ha]
      simp only
      unfold interceptConic
      simp only
      by_cases hcu : sh.curvature = 0
      · rw [if_pos hcu]; exact plane_vertex hz.ne' d
      obtain ⟨halt, hk⟩ := hc.resolve_left hcu
      rw [if_neg hcu, halt]
      simp only [V3.dot] at hu
      have huu : u.x ^ 2 + u.y ^ 2 + u.z ^ 2 * (1 + sh.conic) = 1 + sh.conic * u.z ^ 2 := by
        linear_combination hu
      have h1 : (if sh.conic = 0 then (1 : ℝ) else u.x ^ 2 + u.y ^ 2 + u.z ^ 2 * (1 + sh.conic))
          = 1 + sh.conic * u.z ^ 2 := by
        split
        · rename_i h0; rw [h0]; ring
        · exact huu
      have h2 : (if sh.conic = 0 then u.dot (-(d • u)) else u.x * (-(d • u)).x + u.y * (-(d • u)).y
          + u.z * (-(d • u)).z * (1 + sh.conic)) = -d * (1 + sh.conic * u.z ^ 2) := by
        simp only [V3.dot, neg_x, neg_y, neg_z, smul_x, smul_y, smul_z]
        split
        · rename_i h0; rw [h0]; linear_combination -d * hu
        · linear_combination -d * hu
      have h3 : (if sh.conic = 0 then (-(d • u)).x ^ 2 + (-(d • u)).y ^ 2 + (-(d • u)).z ^ 2
          else (-(d • u)).x ^ 2 + (-(d • u)).y ^ 2 + (-(d • u)).z ^ 2 * (1 + sh.conic))
          = d ^ 2 * (1 + sh.conic * u.z ^ 2) := by
        simp only [neg_x, neg_y, neg_z, smul_x, smul_y, smul_z]
        split
        · rename_i h0; rw [h0]; linear_combination d ^ 2 * hu
        · linear_combination d ^ 2 * hu
      rw [h1, h2, h3]
      simp only [neg_z, smul_z]
      generalize 1 + sh.conic * u.z ^ 2 = w at hk
      have hd : (sh.curvature * (-d * w) - u.z) ^ 2
          - sh.curvature * w * (sh.curvature * (d ^ 2 * w) - 2 * -(d * u.z)) = u.z ^ 2 := by ring
      rw [hd, if_neg (not_lt.mpr (sq_nonneg _)), Real.sqrt_sq hz.le, if_neg (mul_ne_zero hcu hk)]
      simp only [Bool.false_eq_true, if_false]
      congr 1
      field_simp
      ring
    · rw [ha]
      simp only
      unfold interceptNewton
      rw [plane_vertex hz.ne']
      simp only [Option.bind_some]
      apply hn
      rw [back_vertex]
      exact sag_vertex sh

theorem normal_vertex {nwt : NewtonFn} {e : Elem} {c : ℝ} (h : MeetsVertex nwt e c) {sh : Shape}
    (hs : e.shape = some sh) : sh.surfaceNormal 0 = some ez := by
  have h0 : rsq 0 = 0 := by simp [rsq]
  unfold surfaceNormal
  rcases h.2 sh hs with ⟨ha, -⟩ | ⟨⟨a, ha, hne⟩, -⟩
  · by_cases hc : sh.curvature = 0
    · rw [if_pos ⟨hc, ha⟩]; rfl
    · rw [if_neg (by tauto), if_neg (by tauto)]
      simp [h0, ha, hc, ez]
  · rw [if_neg (by simp [ha]), if_neg (by rw [ha]; simp; intro hc; exact hne.resolve_left (not_not.mpr hc))]
    by_cases hc : sh.curvature = 0 <;> simp [h0, ha, hc, ez]

/-- Specification: what the element can do with the optical axis, `n0` and `n` being the indices
before and behind it: refract, reflect, or let it pass. -/
inductive Steers (l n0 n : ℝ) (e : Elem) (d : V3) : Prop
  | refracts (sh : Shape) (m : Material) (hs : e.shape = some sh) (hm : e.material = some (some m))
      (hmir : m.mirror = false) (hn : n = m.index l) (hn0 : 0 < n0) (hpos : 0 < n) (hne : n0 ≠ n)
      (ha : Attainable e.tf.direction d (n0 / n)) (hfar : ¬allclose ((n0 / n) • e.tf.direction - d) 0)
  | reflects (sh : Shape) (m : Material) (hs : e.shape = some sh) (hm : e.material = some (some m))
      (hmir : m.mirror = true) (hn : n = n0) (hn0 : 0 < n0) (hfar : ¬allclose (e.tf.direction - d) 0)
  | passes (hm : e.shape = none ∨ e.material.getD none = none ∨
      ∃ m, e.material = some (some m) ∧ m.mirror = false ∧ m.index l = n0) (hn : n = n0) (hn0 : 0 < n0)
      (hd : d = e.tf.direction)

/-- Specification: every element can be turned for the axis to follow the directions. -/
def Steerable (nwt : NewtonFn) (l : ℝ) : ℝ → List Elem → List ℝ → Prop
  | n0, e :: e' :: es, n :: n' :: ns =>
    Reachable e.tf ∧ Sharp e.tf.direction e'.tf.direction (n0 / n) ∧
    MeetsVertex nwt e (e.tf.direction.dot (alignNormal e.tf.direction e'.tf.direction (n0 / n))) ∧
    Steers l n0 n e e'.tf.direction ∧ Steerable nwt l n (e' :: es) (n' :: ns)
  | _, [e], [_] =>
    Reachable e.tf ∧
    (e.tf.direction = ez ∨ e.tf.direction = -ez ∨ ¬allclose (e.tf.direction.cross ez) 0) ∧
    MeetsVertex nwt e 1
  | _, _, _ => False

theorem Steerable.head {nwt : NewtonFn} {l n0 : ℝ} {e : Elem} {es : List Elem} {ns : List ℝ}
    (h : Steerable nwt l n0 (e :: es) ns) : Reachable e.tf := by
  match es, ns, h with
  | [], [_], h => exact h.1
  | [], [], h => exact h.elim
  | [], _ :: _ :: _, h => exact h.elim
  | _ :: _, [], h => exact h.elim
  | _ :: _, [_], h => exact h.elim
  | _ :: _, _ :: _ :: _, h => exact h.1

/-- What the element does to a ray along `u` aimed at its vertex. -/
theorem step_vertex (nwt : NewtonFn) (l : ℝ) (clp : Bool) {e : Elem} {v : V3} (n0 : ℝ)
    (ht : Reachable e.tf) (hv : v = e.tf.direction) (hm : MeetsVertex nwt e e.tf.incidence.z) :
    (step nwt l clp e ⟨some 0, some v, n0⟩).1.y = some 0 ∧
    (step nwt l clp e ⟨some 0, some v, n0⟩).2.y = some 0 ∧
    (step nwt l clp e ⟨some 0, some v, n0⟩).2.n
      = (match e.shape with | none => n0 | some _ => (getNMu (e.material.getD none) n0 l).1) ∧
    ((match e.shape with | none => 1 | some _ => (getNMu (e.material.getD none) n0 l).2) ≠ 0 →
    (step nwt l clp e ⟨some 0, some v, n0⟩).1.u = refractAt ez e.tf.incidence
      (match e.shape with | none => 1 | some _ => (getNMu (e.material.getD none) n0 l).2)) := by
  have hoff : e.tf.offset = e.tf.distance • e.tf.direction := (c12_invariant ht).2.2
  have hunit : e.tf.incidence.dot e.tf.incidence = 1 := by
    unfold incidence
    rw [(c10_dot ht _ _).2.1, ht.unit.1]
  have hy : e.tf.toNormal (0 - e.tf.offset) = -(e.tf.distance • e.tf.incidence) := by
    rw [hoff, show 0 - e.tf.distance • e.tf.direction = (-e.tf.distance) • e.tf.direction by
      ext <;> simp]
    unfold toNormal incidence toNormal
    rw [doRotate_smul]
    ext <;> simp
  have hi : e.tf.toNormal v = e.tf.incidence := by rw [hv]; rfl
  have hmeet := meets_vertex hunit hm e.tf.distance
  have hclip : ∀ u : Option V3, clip e.radius (some 0) u = u := by
    intro u
    unfold clip
    simp only
    rw [if_pos]
    cases e.radius with
    | inf => trivial
    | fin r => simp [inside]; positivity
  have hback : e.tf.fromNormal 0 = 0 := by
    have := doRotate_smul e.tf.rotNormal false 0 0
    unfold fromNormal
    rw [show (0 : ℝ) • (0 : V3) = 0 by ext <;> simp] at this
    rw [this]
    ext <;> simp
  unfold step propagate
  simp only [Option.map_some, hy, hi, Option.bind_some, hmeet, back_vertex, hclip, ite_self]
  cases hs : e.shape with
  | none =>
    refine ⟨rfl, by simp [hback], rfl, fun _ => ?_⟩
    simp [refractAt]
  | some sh =>
    refine ⟨rfl, by simp [hback], rfl, fun hmu => ?_⟩
    simp only at hmu ⊢
    rw [if_neg hmu]
    unfold refract
    simp only [Option.bind_some, normal_vertex hm hs]
    unfold refractAt
    split <;> rfl

/-- The aligned element sends the axis on along the next direction. -/
theorem step_align (nwt : NewtonFn) (l : ℝ) (clp : Bool) {e : Elem} {d : V3} {n0 n : ℝ}
    (ht : Reachable e.tf) (hd : d.dot d = 1) (hs : Sharp e.tf.direction d (n0 / n))
    (hm : MeetsVertex nwt e (e.tf.direction.dot (alignNormal e.tf.direction d (n0 / n))))
    (hst : Steers l n0 n e d) :
    (step nwt l clp { e with tf := e.tf.align d (n0 / n) } ⟨some 0, some e.tf.direction, n0⟩).1.y
      = some 0 ∧
    (step nwt l clp { e with tf := e.tf.align d (n0 / n) } ⟨some 0, some e.tf.direction, n0⟩).1.u.map
      (e.tf.align d (n0 / n)).fromNormal = some d ∧
    (step nwt l clp { e with tf := e.tf.align d (n0 / n) } ⟨some 0, some e.tf.direction, n0⟩).2
      = ⟨some 0, some d, n⟩ := by
  set e' : Elem := { e with tf := e.tf.align d (n0 / n) } with he'
  have ht' : Reachable e'.tf := ht.align d (n0 / n)
  have hdir : e.tf.direction = e'.tf.direction := (c68_place ht d (n0 / n)).1.symm
  have hstep : ∀ r : Ray, (step nwt l clp e' r).2.u = (step nwt l clp e' r).1.u.map e'.tf.fromNormal :=
    fun r => rfl
  -- everything follows from what refraction gives
  have key : ∀ mu', MeetsVertex nwt e' e'.tf.incidence.z →
      (match e'.shape with | none => 1 | some _ => (getNMu (e'.material.getD none) n0 l).2) = mu' →
      mu' ≠ 0 →
      (match e'.shape with | none => n0 | some _ => (getNMu (e'.material.getD none) n0 l).1) = n →
      (refractAt ez e'.tf.incidence mu').map e'.tf.fromNormal = some d →
      (step nwt l clp e' ⟨some 0, some e.tf.direction, n0⟩).1.y = some 0 ∧
      (step nwt l clp e' ⟨some 0, some e.tf.direction, n0⟩).1.u.map e'.tf.fromNormal = some d ∧
      (step nwt l clp e' ⟨some 0, some e.tf.direction, n0⟩).2 = ⟨some 0, some d, n⟩ := by
    intro mu' hm' hmu h0 hn href
    obtain ⟨h1, h2, h3, h4⟩ := step_vertex nwt l clp (v := e.tf.direction) n0 ht' hdir hm'
    have h4 := h4 (by rw [hmu]; exact h0)
    rw [hmu] at h4
    rw [hn] at h3
    have hu := hstep ⟨some 0, some e.tf.direction, n0⟩
    refine ⟨h1, by rw [h4, href], ?_⟩
    rw [h4, href] at hu
    generalize (step nwt l clp e' ⟨some 0, some e.tf.direction, n0⟩).2 = q at h2 h3 hu
    cases q
    simp only at h2 h3 hu
    rw [h2, h3, hu]
  have hz : ∀ hN : (e.tf.align d (n0 / n)).fromNormal ez = alignNormal e.tf.direction d (n0 / n),
      MeetsVertex nwt e' e'.tf.incidence.z := by
    intro hN
    have := align_incidence ht hN
    rw [show e'.tf.incidence.z = _ from this]
    exact hm
  have hinc : e'.tf.incidence = (e.tf.align d (n0 / n)).toNormal e.tf.direction := by
    rw [hdir]; rfl
  cases hst with
  | refracts sh m hsh hmat hmir hn hn0 hpos hne ha hfar =>
    obtain ⟨hN, r, -, h2, h3, -⟩ := align_refracts ht (div_pos hn0 hpos)
      (by rw [Ne, div_eq_one_iff_eq hpos.ne']; exact hne) hd ha hfar hs
    have hsh' : e'.shape = some sh := hsh
    have hmat' : e'.material = some (some m) := hmat
    refine key (n0 / n) (hz hN) ?_ (div_pos hn0 hpos).ne' ?_ ?_
    · simp [hsh', hmat', getNMu, hmir, ← hn]
    · simp [hsh', hmat', getNMu, hmir, ← hn]
    · rw [hinc, h3]
      exact congrArg some h2
  | reflects sh m hsh hmat hmir hn hn0 hfar =>
    have h1 : n0 / n = 1 := by rw [hn]; exact div_self hn0.ne'
    rw [h1] at hs
    obtain ⟨hN, r, h2, h3, -⟩ := align_reflects ht hd hfar hs
    have hsh' : e'.shape = some sh := hsh
    have hmat' : e'.material = some (some m) := hmat
    refine key (-1) (hz (by rw [h1]; exact hN)) ?_ (by norm_num) ?_ ?_
    · simp [hsh', hmat', getNMu, hmir]
    · simp [hsh', hmat', getNMu, hmir, ← hn]
    · rw [hinc, h1, h2]
      show some ((e.tf.align d (n0 / n)).fromNormal r) = _
      rw [h1, h3]
  | passes hm' hn hn0 hd' =>
    have h1 : n0 / n = 1 := by rw [hn]; exact div_self hn0.ne'
    have hN : alignNormal e.tf.direction d (n0 / n) = ez := by
      rw [h1, hd']
      unfold alignNormal
      have hr : (if (1 : ℝ) < 1 then -((1 : ℝ) • e.tf.direction - e.tf.direction)
          else (1 : ℝ) • e.tf.direction - e.tf.direction) = 0 := by
        rw [if_neg (lt_irrefl _)]
        ext <;> simp
      dsimp only
      rw [hr, if_pos ⟨close_self _, close_self _, close_self _⟩]
      ext <;> simp [ez, V3.norm, V3.dot]
    have hNN := align_normal ht hs (by rw [hN]; exact ez_dot) hm.1.le
    refine key 1 (hz hNN) ?_ one_ne_zero ?_ ?_
    · rcases hm' with h | h | ⟨m, h, h2, h3⟩
      · rw [show e'.shape = none from h]
      · rw [show e'.material.getD none = none from h]
        cases e'.shape <;> rfl
      · rw [show e'.material = _ from h]
        cases e'.shape
        · rfl
        · simp [getNMu, h2, h3, div_self hn0.ne']
    · rcases hm' with h | h | ⟨m, h, h2, h3⟩
      · rw [show e'.shape = none from h, hn]
      · rw [show e'.material.getD none = none from h, hn]
        cases e'.shape <;> rfl
      · rw [show e'.material = _ from h, hn]
        cases e'.shape
        · rfl
        · simp [getNMu, h2, h3]
    · unfold refractAt
      rw [if_pos rfl, hinc]
      show some ((e.tf.align d (n0 / n)).fromNormal ((e.tf.align d (n0 / n)).toNormal _)) = _
      rw [(c10_inverse (ht.align _ _) _).1, hd']

/-- What `System.align` makes of the elements behind the first. -/
noncomputable def alignedTail (n0 : ℝ) (es : List Elem) (ns : List ℝ) : List Elem :=
  (Sys.alignFrom n0 es ns).modifyLast fun e => { e with tf := e.tf.setAngles 0 }

theorem alignedTail_cons (n0 n n' : ℝ) (e e' : Elem) (es : List Elem) (ns : List ℝ) :
    alignedTail n0 (e :: e' :: es) (n :: n' :: ns)
      = { e with tf := e.tf.align e'.tf.direction (n0 / n) } :: alignedTail n (e' :: es) (n' :: ns) := by
  have hne : Sys.alignFrom n (e' :: es) (n' :: ns) ≠ [] := by
    cases es <;> cases ns <;> simp [Sys.alignFrom]
  exact List.modifyLast_append_of_right_ne_nil _ [_] _ hne

theorem alignedTail_one (n0 n : ℝ) (e : Elem) :
    alignedTail n0 [e] [n] = [{ e with tf := e.tf.setAngles 0 }] :=
  List.modifyLast_concat _ e []

theorem alignedTail_length (nwt : NewtonFn) (l : ℝ) : ∀ (es : List Elem) (ns : List ℝ) (n0 : ℝ),
    Steerable nwt l n0 es ns → (alignedTail n0 es ns).length = es.length := by
  intro es
  induction es with
  | nil => intro ns n0 h; exact (by cases ns <;> exact h.elim)
  | cons e es ih =>
    intro ns n0 h
    match es, ns, h with
    | [], [], h => exact h.elim
    | [], _ :: _ :: _, h => exact h.elim
    | _ :: _, [], h => exact h.elim
    | _ :: _, [_], h => exact h.elim
    | [], [n], h => rw [alignedTail_one]; rfl
    | e' :: es, n :: n' :: ns, h =>
      rw [alignedTail_cons, List.length_cons, ih (n' :: ns) n h.2.2.2.2]; rfl

theorem axis_rows (nwt : NewtonFn) (l : ℝ) (clp : Bool) : ∀ (es : List Elem) (ns : List ℝ) (n0 : ℝ) (d : V3),
    Steerable nwt l n0 es ns → (∀ e ∈ es.head?, d = e.tf.direction) →
    ∀ j e, es[j]? = some e → ∃ e' row,
      (alignedTail n0 es ns)[j]? = some e' ∧
      (Sys.rows nwt l clp (alignedTail n0 es ns) ⟨some 0, some d, n0⟩)[j]? = some row ∧
      row.y = some (0 : V3) ∧ e'.tf.offset = e.tf.offset ∧ e'.tf.direction = e.tf.direction ∧
      (∀ next, es[j + 1]? = some next → row.u.map e'.tf.fromNormal = some next.tf.direction) ∧
      (es[j + 1]? = none → e'.tf.angles = 0) := by
  intro es
  induction es with
  | nil => intro ns n0 d h; exact (by cases ns <;> exact h.elim)
  | cons e es ih =>
    intro ns n0 d h hd j e1 hj
    have hd' : d = e.tf.direction := hd e rfl
    match es, ns, h with
    | [], [], h => exact h.elim
    | [], _ :: _ :: _, h => exact h.elim
    | _ :: _, [], h => exact h.elim
    | _ :: _, [_], h => exact h.elim
    | [], [n], h =>
      obtain ⟨ht, hpole, hm⟩ := h
      rw [alignedTail_one]
      match j, hj with
      | 0, hj =>
        cases hj
        have ht' : Reachable (e.tf.setAngles 0) := by
          obtain ⟨d0, v, a, o, ops, he⟩ := ht
          exact ⟨d0, v, a, o, ops ++ [.angles 0], by rw [List.foldl_append, he]; rfl⟩
        obtain ⟨a1, a2, a3, a4⟩ := c12_angles ht 0
        have hn : (e.tf.setAngles 0).normal := by
          unfold setAngles
          rw [update_normal]
          exact ⟨close_self _, close_self _, close_self _⟩
        have hax := c11_axis_exact ht' (by rw [a4]; exact hpole)
        have hinc : (e.tf.setAngles 0).incidence = ez := by
          unfold incidence
          rw [(c10_normal_eq_axis ht' hn _).1, ← hax, (c10_inverse ht' ez).2.2.2]
        obtain ⟨h1, -⟩ := step_vertex nwt l clp (e := { e with tf := e.tf.setAngles 0 }) (v := d) n0 ht'
          (by rw [hd']; exact a4.symm)
          (by show MeetsVertex nwt _ (e.tf.setAngles 0).incidence.z; rw [hinc]; exact hm)
        exact ⟨_, _, rfl, rfl, h1, a2, a4, by simp, fun _ => a1⟩
      | j + 1, hj => simp at hj
    | e' :: es, n :: n' :: ns, h =>
      obtain ⟨ht, hs, hm, hst, hrest⟩ := h
      have ht' := hrest.head
      obtain ⟨s1, s2, s3⟩ := step_align nwt l clp ht ht'.unit.1 hs hm hst
      rw [alignedTail_cons]
      obtain ⟨p1, p2, p3⟩ := c68_place ht e'.tf.direction (n0 / n)
      match j, hj with
      | 0, hj =>
        cases hj
        refine ⟨_, _, rfl, rfl, ?_, p3, p1, ?_, ?_⟩
        · rw [hd']; exact s1
        · intro next hnext
          cases hnext
          rw [hd']; exact s2
        · simp
      | j + 1, hj =>
        obtain ⟨e2, row, q1, q2, q3⟩ := ih (n' :: ns) n e'.tf.direction hrest
          (by intro x hx; cases hx; rfl) j e1 hj
        refine ⟨e2, row, q1, ?_, q3⟩
        show (Sys.rows nwt l clp _ (step nwt l clp _ ⟨some 0, some d, n0⟩).2)[j]? = some row
        rw [hd', s3]
        exact q2

/-- C68: after `System.align(n)`, with `n` the indices behind the elements, the ray that leaves the
vertex of the object along the direction of the next element goes through the vertex of every
element, and from each to the next along the direction of the next.  Elements are turned but not
moved; the last is left normal to the axis. -/
theorem c68_axis (nwt : NewtonFn) (l : ℝ) (clp : Bool) (e0 e1 : Elem) (es : List Elem) (n0 : ℝ)
    (ns : List ℝ) (hst : Steerable nwt l n0 (e1 :: es) ns) :
    ∃ sys', Sys.align (e0 :: e1 :: es) (n0 :: ns) = some sys' ∧ sys'.length = es.length + 2 ∧
    ∀ j e, (e1 :: es)[j]? = some e → ∃ e' row, sys'[j + 1]? = some e' ∧
      (Sys.propagate nwt sys' ⟨some 0, some e1.tf.direction, n0⟩ l 1 none clp)[j]? = some row ∧
      row.y = some (0 : V3) ∧ e'.tf.offset = e.tf.offset ∧ e'.tf.direction = e.tf.direction ∧
      (∀ next, es[j]? = some next → row.u.map e'.tf.fromNormal = some next.tf.direction) ∧
      (es[j]? = none → e'.tf.angles = 0) := by
  have hns : ∃ n ns', ns = n :: ns' := by
    cases ns with
    | nil => cases es <;> exact hst.elim
    | cons n ns' => exact ⟨n, ns', rfl⟩
  obtain ⟨n, ns', rfl⟩ := hns
  refine ⟨_, congrArg some (alignedTail_cons n0 n0 n e0 e1 es ns'), ?_, ?_⟩
  · rw [List.length_cons, alignedTail_length nwt l (e1 :: es) (n :: ns') n0 hst, List.length_cons]
  · intro j e hj
    obtain ⟨e', row, h1, h2, h3⟩ := axis_rows nwt l clp (e1 :: es) (n :: ns') n0 e1.tf.direction hst
      (by intro x hx; cases hx; rfl) j e hj
    refine ⟨e', row, h1, ?_, h3⟩
    unfold Sys.propagate
    rw [pySlice_one]
    exact h2

/-- A concave mirror and a screen to which it is to send the light sideways. -/
noncomputable def exFold : List Elem :=
  [⟨exAhead, .fin 5, some ⟨-1 / 40, 0, none, false⟩, some (some ⟨true, true, fun _ => 1⟩)⟩,
   ⟨update 8 ⟨0, 24 / 25, -7 / 25⟩ 0, .inf, none, none⟩]

theorem exFold_steerable (nwt : NewtonFn) : Steerable nwt 1 1 exFold [1, 1] := by
  have hd : (⟨0, 24 / 25, -7 / 25⟩ : V3).dot ⟨0, 24 / 25, -7 / 25⟩ = 1 := by simp [V3.dot]; norm_num
  have hdir : (update 8 ⟨0, 24 / 25, -7 / 25⟩ 0).direction = ⟨0, 24 / 25, -7 / 25⟩ := by
    rw [update_direction, updDir_of_unit hd, if_neg (by norm_num)]
  unfold exFold Steerable Steerable
  simp only [hdir, exAhead_direction, div_one, exMirror_normal]
  refine ⟨exAhead_reachable, sharp_yz exMirror_normal (by norm_num) (by norm_num) (by norm_num), ?_, ?_,
    ⟨8, ⟨0, 24 / 25, -7 / 25⟩, 0, none, [], rfl⟩, .inr (.inr (far_x ?_)), one_pos, by simp⟩
  · refine ⟨by simp [V3.dot, ez], fun sh h => ?_⟩
    cases h
    exact .inl ⟨rfl, .inr ⟨rfl, by simp⟩⟩
  · exact .reflects _ _ rfl rfl rfl rfl one_pos (by
      rw [exAhead_direction]; exact far_y (by norm_num [ez]))
  · norm_num [cross, ez]

example (nwt : NewtonFn) (e0 : Elem) : ∃ sys', Sys.align (e0 :: exFold) [1, 1, 1] = some sys' ∧
    ∃ e' row row', sys'[1]? = some e' ∧
      (Sys.propagate nwt sys' ⟨some 0, some ez, 1⟩ 1 1 none true)[0]? = some row ∧
      (Sys.propagate nwt sys' ⟨some 0, some ez, 1⟩ 1 1 none true)[1]? = some row' ∧
      row.u.map e'.tf.fromNormal = some ⟨0, 24 / 25, -7 / 25⟩ ∧ row'.y = some 0 := by
  have hd : (⟨0, 24 / 25, -7 / 25⟩ : V3).dot ⟨0, 24 / 25, -7 / 25⟩ = 1 := by simp [V3.dot]; norm_num
  have hdir : (update 8 ⟨0, 24 / 25, -7 / 25⟩ 0).direction = ⟨0, 24 / 25, -7 / 25⟩ := by
    rw [update_direction, updDir_of_unit hd, if_neg (by norm_num)]
  obtain ⟨sys', h1, -, h2⟩ := c68_axis nwt 1 true e0 _ _ 1 [1, 1] (exFold_steerable nwt)
  simp only [exAhead_direction] at h2
  obtain ⟨e', row, a1, a2, -, -, -, a3, -⟩ := h2 0 _ rfl
  obtain ⟨-, row', -, b2, b3, -⟩ := h2 1 _ rfl
  refine ⟨sys', h1, e', row, row', a1, a2, b2, ?_, b3⟩
  rw [a3 _ rfl, hdir]

end RayOpt
