import Verif.Props.Backwards
import Mathlib.Analysis.SpecialFunctions.Trigonometric.Bounds

/-!
Property C112, tilted surfaces; property C22, where the reversed elements stand.
-/

namespace RayOpt

open Sys V3 Transform Elem Shape

/-! ## Specification -/

/-- The element is reached from the one before along the direction `g`; its own angles are free. -/
structure InLine (g : V3) (e : Elem) : Prop where
  reachable : Reachable e.tf
  direction : e.tf.direction = g

/-- A refracting conic surface (or plane) in line, of any tilt, with the usual choice of the intersection. -/
structure TiltedConic (g : V3) (e : Elem) (l : ℝ) : Prop where
  inLine : InLine g e
  medium : ∃ n, MediumAfter e l n
  conic : ∃ sh, e.shape = some sh ∧ sh.aspherics = none ∧ sh.alternate = false

/-- In the coordinates of the element, the ray comes forwards, is on the surface and leaves forwards. -/
def PassesTilted (e : Elem) (x : Row) : Prop :=
  ∃ y u i, x.y = some y ∧ x.u = some u ∧ x.i = some i ∧ 0 < i.z ∧ Leaves e y u

/-! ## Helpers -/

theorem toNormal_lin (t : Transform) (a b : V3) (s : ℝ) :
    t.toNormal (a + s • b) = t.toNormal a + s • t.toNormal b := by
  unfold Transform.toNormal doRotate
  cases t.rotNormal with
  | none => rfl
  | some r => ext <;> simp [M3.vecMul] <;> ring

theorem fromNormal_lin (t : Transform) (a b : V3) (s : ℝ) :
    t.fromNormal (a + s • b) = t.fromNormal a + s • t.fromNormal b := by
  unfold Transform.fromNormal doRotate
  cases t.rotNormal with
  | none => rfl
  | some r => ext <;> simp [M3.vecMul] <;> ring

theorem toNormal_neg (t : Transform) (a : V3) : t.toNormal (-a) = -t.toNormal a := by
  unfold Transform.toNormal doRotate
  cases t.rotNormal with
  | none => rfl
  | some r => ext <;> simp [M3.vecMul] <;> ring

theorem fromNormal_neg (t : Transform) (a : V3) : t.fromNormal (-a) = -t.fromNormal a := by
  unfold Transform.fromNormal doRotate
  cases t.rotNormal with
  | none => rfl
  | some r => ext <;> simp [M3.vecMul] <;> ring

theorem inLine_rev {g : V3} {e : Elem} (h : InLine g e) {d : ℝ} (hd : 0 ≤ d) (m : Option Material) :
    InLine g (revElem e d m) ∧ (revElem e d m).tf.offset = d • g ∧
      (revElem e d m).tf.rotNormal = e.tf.rotNormal := by
  obtain ⟨h1, h2⟩ := h
  have hdir : updDir d e.tf.direction = e.tf.direction := by
    rw [updDir_of_unit (c12_invariant h1).2.1, if_neg (not_lt.mpr hd)]
  refine ⟨⟨?_, ?_⟩, ?_, ?_⟩
  · obtain ⟨d0, u, a, o, ops, h⟩ := h1
    exact ⟨d0, u, a, o, ops ++ [.distance d], by rw [List.foldl_append, ← h]; rfl⟩
  · change (e.tf.setDistance d).direction = g
    rw [setDistance, update_direction, hdir, h2]
  · change (e.tf.setDistance d).offset = d • g
    rw [(c12_distance h1 d).1, h2]
  · change (e.tf.setDistance d).rotNormal = _
    obtain ⟨d0, u, a, ht⟩ := h1.is_update
    rw [setDistance, update_rotNormal, hdir]
    conv_rhs => rw [ht, update_rotNormal]
    rw [ht, update_direction, update_angles]

theorem onQuadric_neg {c k : ℝ} {p : V3} (h : OnQuadric c k p) : OnQuadric (-c) k (-p) := by
  unfold OnQuadric at *; simp only [neg_x, neg_y, neg_z]; linear_combination -h

theorem quadricNormal_neg (c k : ℝ) (p : V3) : quadricNormal (-c) k (-p) = quadricNormal c k p := by
  ext <;> simp [quadricNormal]

theorem surfaceNormal_neg {sh : Shape} (ha : sh.aspherics = none) (p : V3) :
    sh.reverse.surfaceNormal (-p) = sh.surfaceNormal p := by
  obtain ⟨c, k, a, alt⟩ := sh
  dsimp only at ha
  subst ha
  simp only [Shape.surfaceNormal, Shape.reverse, Option.map_none, rsq, neg_x, neg_y, and_true, mul_neg, mul_one,
    neg_eq_zero, neg_sq, ne_eq, reduceCtorEq, and_false, if_false, neg_mul, neg_neg]
  by_cases hc : c = 0
  · simp [hc]
  · simp only [hc, if_false, not_false_eq_true, if_true]
    by_cases h : 1 - (1 + k) * c ^ 2 * (p.x * p.x + p.y * p.y) ≤ 0
    · simp only [h, if_true, Option.map_none]
    · simp only [h, if_false, Option.map_some, Option.some.injEq, V3.mk.injEq, and_true]
      constructor <;> ring

/-- The reversed refraction at the inverted surface. -/
theorem refract_back {sh : Shape} {q u v : V3} {n n' : ℝ} (hn : 0 < n) (hn' : 0 < n') (ha : sh.aspherics = none)
    (hu : u.dot u = 1) (hg : OnConicGraph sh.curvature sh.conic q)
    (hside : 0 ≤ u.dot (quadricNormal sh.curvature sh.conic q))
    (h : refract sh (some q) (some u) (n / n') = some v) :
    v.dot v = 1 ∧ 0 ≤ v.dot (quadricNormal sh.curvature sh.conic q) ∧
      refract sh.reverse (some (-q)) (some v) (n' / n) = some u := by
  by_cases h1 : n = n'
  · subst h1
    rw [div_self hn.ne'] at *
    simp only [refract, Option.bind_some, if_true, Option.some.injEq] at h ⊢
    subst h
    exact ⟨hu, hside, rfl⟩
  · have hmu : n / n' ≠ 1 := fun h => h1 ((div_eq_one_iff_eq hn'.ne').mp h)
    have hmu' : n' / n ≠ 1 := fun h => h1 ((div_eq_one_iff_eq hn.ne').mp h).symm
    simp only [refract, Option.bind_some, hmu, if_false, Option.bind_eq_some_iff] at h
    obtain ⟨r, hr, h⟩ := h
    obtain ⟨hr0, w, hw, hqn⟩ := surfaceNormal_graph ha hg hr
    have hdot : ∀ x : V3, x.dot (quadricNormal sh.curvature sh.conic q) = w * x.dot r := by
      intro x; rw [hqn]; simp only [dot, smul_x, smul_y, smul_z]; ring
    rw [hdot] at hside
    have hside' : 0 ≤ u.dot r := nonneg_of_mul_nonneg_right hside hw
    have hS := (c02_snell hn hn' hr0 hu hside' v).mp h
    refine ⟨hS.unit, by rw [hdot]; exact mul_nonneg hw.le hS.side, ?_⟩
    simp only [refract, Option.bind_some, hmu', if_false]
    rw [surfaceNormal_neg ha, hr]
    simp only [Option.bind_some]
    rw [c02_snell hn' hn hr0 hS.unit hS.side]
    exact ⟨hu, hS.tangential.symm, hside'⟩

/-- One surface on the way back. -/
theorem back_step_tilted (nwt : NewtonFn) (l : ℝ) (clp : Bool) {g : V3} {e : Elem} {sh : Shape} {q v w : V3}
    {n' nb mu : ℝ} {pm : Option Material} (hC : InLine g e) (hs : e.shape = some sh) (ha : sh.aspherics = none)
    (halt : sh.alternate = false) (hin : clp = true → inside e.radius q)
    (hg : OnConicGraph sh.curvature sh.conic q) (hv : v.dot v = 1) (hz : 0 < v.z)
    (he : sh.curvature ≠ 0 → quadCoeff sh.curvature sh.conic v ≠ 0)
    (hside : 0 ≤ v.dot (quadricNormal sh.curvature sh.conic q))
    (hmu : getNMu pm n' l = (nb, mu)) (h0 : mu ≠ 0)
    (hw : refract sh.reverse (some (-q)) (some v) mu = some w)
    {d : ℝ} (hd : 0 ≤ d) (s : ℝ) :
    step nwt l clp (revElem e d pm)
        ⟨some (-(e.tf.fromNormal q - d • g + s • e.tf.fromNormal v)), some (e.tf.fromNormal v), n'⟩ =
      (⟨some (-q), some w, nb, some v, some (s * n')⟩, ⟨some (-e.tf.fromNormal q), some (e.tf.fromNormal w), nb⟩) := by
  obtain ⟨hC', ho, hr⟩ := inLine_rev hC hd pm
  have hto : (revElem e d pm).tf.toNormal = e.tf.toNormal := by
    funext x; unfold Transform.toNormal; rw [hr]
  have hfrom : (revElem e d pm).tf.fromNormal = e.tf.fromNormal := by
    funext x; unfold Transform.fromNormal; rw [hr]
  have hinv : ∀ x, e.tf.toNormal (e.tf.fromNormal x) = x := fun x => (c10_inverse hC.1 x).2.1
  have hstart : e.tf.toNormal (-(e.tf.fromNormal q - d • g + s • e.tf.fromNormal v) - d • g) = -q + (-s) • v := by
    rw [show -(e.tf.fromNormal q - d • g + s • e.tf.fromNormal v) - d • g =
      -e.tf.fromNormal q + (-s) • e.tf.fromNormal v by ext <;> simp <;> ring, toNormal_lin, toNormal_neg, hinv, hinv]
  have hpt : -q + (-s) • v + s • v = -q := by ext <;> simp
  have hs' : (revElem e d pm).shape = some sh.reverse := by simp [revElem, Elem.reverse, hs]
  have hc' : sh.reverse.curvature = -sh.curvature := by simp [Shape.reverse]
  have hk' : sh.reverse.conic = sh.conic := rfl
  have h2 := c06_sag_zero_iff sh q ha
  obtain ⟨hq, -⟩ := h2.2.mp (h2.1.mpr hg)
  have ht : sh.reverse.intercept nwt (-q + (-s) • v) v = some s := by
    apply intercept_of_side nwt (s := sh.reverse) (u := v) (by simp [Shape.reverse, ha]) halt hv hz.ne'
    · intro hc
      rw [hc', hk', show quadCoeff (-sh.curvature) sh.conic v = -quadCoeff sh.curvature sh.conic v by simp [quadCoeff]]
      exact neg_ne_zero.mpr (he fun h => hc (by rw [hc', h, neg_zero]))
    · rw [hpt, hc', hk']; exact onQuadric_neg hq
    · intro _
      rw [hpt, hc', hk', quadricNormal_neg]; exact hside
  have hin' : clp = true → inside (revElem e d pm).radius (-q + (-s) • v + s • v) := by
    intro hc
    rw [hpt]
    have := hin hc
    change inside e.radius (-q)
    cases hR : e.radius with
    | inf => trivial
    | fin r => rw [hR] at this; simpa [inside] using this
  have := propagate_conic_of nwt (m := pm) (l := l) hs' rfl hmu h0 ht hin' (by rw [hpt]; exact hw)
  simp only [step, Option.map_some, hto, ho, hfrom, hstart, hinv, this, hpt, fromNormal_neg]

theorem image_propagate (nwt : NewtonFn) (l : ℝ) (clp : Bool) {img : Elem} (hnone : img.mat = none)
    (a u : V3) (n : ℝ) (hy : (img.propagate nwt (some a) (some u) n l clp).y ≠ none)
    (hu : (img.propagate nwt (some a) (some u) n l clp).u ≠ none) :
    ∃ s : ℝ, img.propagate nwt (some a) (some u) n l clp = ⟨some (a + s • u), some u, n, some (s * n)⟩ := by
  have hm' : img.material.getD none = none := hnone
  cases ht : img.intercept nwt a u with
  | none =>
    exfalso; apply hy
    simp only [Elem.propagate, Option.bind_some, ht, Option.map_none]
    cases img.shape <;> rfl
  | some s =>
    refine ⟨s, ?_⟩
    simp only [Elem.propagate, Option.bind_some, ht, Option.map_some, hm', getNMu] at hu ⊢
    cases hs : img.shape with
    | none =>
      simp only [hs] at hu
      cases clp
      · simp
      · simp only [if_true, Elem.clip] at hu ⊢
        split_ifs at hu ⊢ with h
        · rfl
        · exact absurd rfl hu
    | some sh =>
      simp only [hs, one_ne_zero, if_false] at hu
      simp only [one_ne_zero, if_false]
      cases clp
      · simp [refract]
      · simp only [if_true, Elem.clip] at hu ⊢
        split_ifs at hu ⊢ with h
        · simp [refract]
        · exact absurd rfl hu

/-- The ray of a row of the element `e`, run backwards and seen from the other side. -/
def backRay (e : Elem) (x : Row) : Ray :=
  ⟨x.y.map fun y => -e.tf.fromNormal y, x.u.map e.tf.fromNormal, x.n⟩

theorem back_rows_tilted (nwt : NewtonFn) (l : ℝ) (clp : Bool) {g : V3} {img : Elem} (hC : InLine g img)
    (hnone : img.mat = none)
    (mid : List Elem) : ∀ (pm : Material) (y u : V3) (n : ℝ), pm.mirror = false → pm.index l = n → 0 < n →
    u.dot u = 1 → (∀ e ∈ mid, TiltedConic g e l) →
    (∀ (j : ℕ) (e : Elem) (x : Row), mid[j]? = some e → (rows nwt l clp (mid ++ [img]) ⟨some y, some u, n⟩)[j]? = some x →
      PassesTilted e x) →
    (∀ x ∈ rows nwt l clp (mid ++ [img]) ⟨some y, some u, n⟩, x.y ≠ none ∧ x.u ≠ none) →
    ∃ (p : V3) (s : ℝ) (last : Row), p = y - headDist (mid ++ [img]) • g + s • u ∧
      (rows nwt l clp (mid ++ [img]) ⟨some y, some u, n⟩).head?.map (·.t) = some (some (s * n)) ∧
      (rows nwt l clp (mid ++ [img]) ⟨some y, some u, n⟩).getLast? = some last ∧
      (rows nwt l clp (revAux (some pm) (mid ++ [img])).tail (backRay img last)).map (·.y) =
        ((rows nwt l clp (mid ++ [img]) ⟨some y, some u, n⟩).map (·.y)).dropLast.reverse.map (Option.map (-·)) ∧
      (rows nwt l clp (revAux (some pm) (mid ++ [img])).tail (backRay img last)).map (·.u) =
        ((rows nwt l clp (mid ++ [img]) ⟨some y, some u, n⟩).map (·.i)).dropLast.reverse ∧
      (rows nwt l clp (revAux (some pm) (mid ++ [img])).tail (backRay img last)).map (·.t) =
        ((rows nwt l clp (mid ++ [img]) ⟨some y, some u, n⟩).map (·.t)).tail.reverse ∧
      (rows nwt l clp (revAux (some pm) (mid ++ [img])).tail (backRay img last)).map (·.n) =
        (n :: (rows nwt l clp (mid ++ [img]) ⟨some y, some u, n⟩).map (·.n)).dropLast.dropLast.reverse ∧
      (rows nwt l clp (revAux (some pm) (mid ++ [img])).tail (backRay img last)).map (·.i) =
        ((rows nwt l clp (mid ++ [img]) ⟨some y, some u, n⟩).map (·.u)).dropLast.reverse ∧
      endRay nwt l clp (revAux (some pm) (mid ++ [img])).tail (backRay img last) = ⟨some (-p), some u, n⟩ := by
  have hoff : ∀ e : Elem, InLine g e → e.tf.offset = e.tf.distance • g := by
    intro e he; rw [(c12_invariant he.1).2.2, he.2]
  induction mid with
  | nil =>
    intro pm y u n _ _ hn hu _ _ hall
    simp only [List.nil_append, rows] at hall ⊢
    obtain ⟨h1, h2⟩ := hall _ (List.mem_singleton.mpr rfl)
    simp only [step, Option.map_some] at h1 h2
    obtain ⟨s, hs⟩ := image_propagate nwt l clp hnone _ _ n h1 h2
    refine ⟨_, s, _, rfl, ?_, rfl, ?_, ?_, ?_, ?_, ?_, ?_⟩
    · simp [step, hs]
    · simp [revAux, rows]
    · simp [revAux, rows]
    · simp [revAux, rows]
    · simp [revAux, rows]
    · simp [revAux, rows]
    · have hinv := fun x => (c10_inverse hC.1 x).1
      simp only [revAux, endRay, backRay, step, Option.map_some, hs, headDist]
      simp [fromNormal_lin, hinv, hoff img hC]
  | cons e mid ih =>
    intro pm y u n hpm1 hpm2 hn hu hR hF hall
    obtain ⟨hCe, ⟨n', m, hm1, hm2, hm3, hn'⟩, sh, hsh, ha, halt⟩ := hR e (by simp)
    have hd : 0 ≤ headDist (mid ++ [img]) := by
      cases mid with
      | nil => simpa [headDist] using (c12_invariant hC.1).1
      | cons f mid => simpa [headDist] using (c12_invariant (hR f (by simp)).inLine.1).1
    simp only [List.cons_append, rows] at hF hall ⊢
    obtain ⟨q, v, i, hq, hv, hi, hiz, sh', hsh', hg, hvz, hqc⟩ := hF 0 e _ rfl (List.getElem?_cons_zero)
    rw [hsh] at hsh'
    obtain rfl : sh = sh' := Option.some.inj hsh'
    have hst : step nwt l clp e ⟨some y, some u, n⟩ = _ := rfl
    conv_rhs at hst => simp only [step, Option.map_some]
    rw [hst] at hq hv hi
    dsimp only at hq hv hi
    simp only [Option.some.injEq] at hi
    have hi1 : (e.tf.toNormal u).dot (e.tf.toNormal u) = 1 := by rw [(c10_dot hCe.1 u u).2.1, hu]
    subst hm3
    obtain ⟨t, ht, rfl, hin, hre⟩ := propagate_conic nwt hsh hm1 hm2 hn hn' hq hv
    have hprop := propagate_conic_of nwt (l := l) (n' := m.index l) hsh hm1 (n := n) (mu := n / m.index l)
      (by simp [getNMu, hm2]) (div_pos hn hn').ne' ht hin hre
    have hside := side_of_intercept nwt ha halt hi1 (by rw [hi]; exact hiz) ht
    obtain ⟨hv1, hvs, hback⟩ := refract_back hn hn' ha hi1 hg hside hre
    rw [hprop] at hst
    simp only [Option.map_some] at hst
    rw [hst] at hF hall ⊢
    dsimp only at hF hall ⊢
    have hinv := fun x => (c10_inverse hCe.1 x).1
    have hpos : e.tf.fromNormal (e.tf.toNormal (y - e.tf.offset) + t • e.tf.toNormal u) =
        y - e.tf.distance • g + t • u := by
      rw [fromNormal_lin, hinv, hinv, hoff e hCe]
    obtain ⟨p, s, last, hp, h2, h3, h4, h5, h6, h8, h9, h7⟩ := ih m _ (e.tf.fromNormal v) (m.index l) hm2 rfl hn'
      (by rw [(c10_dot hCe.1 v v).1, hv1])
      (fun f hf => hR f (by simp [hf])) (fun j f x hj hx => hF (j + 1) f x (by simpa using hj) (by simpa using hx))
      (fun x hx => hall x (by simp [hx]))
    generalize hG : rows nwt l clp (mid ++ [img])
      ⟨some (e.tf.fromNormal (e.tf.toNormal (y - e.tf.offset) + t • e.tf.toNormal u)), some (e.tf.fromNormal v),
        m.index l⟩ = G at *
    have hGne : G ≠ [] := by
      intro h; rw [h] at h3; simp at h3
    obtain ⟨g', G', rfl⟩ := List.exists_cons_of_ne_nil hGne
    have hb := back_step_tilted nwt l clp (pm := some pm) (n' := m.index l) (nb := n) (mu := m.index l / n) hCe hsh ha
      halt hin hg hv1 hvz hqc hvs (by simp [getNMu, hpm1, hpm2]) (div_pos hn' hn).ne' hback hd s
    rw [← hp, hinv] at hb
    have htail : (revAux (some pm) (e :: (mid ++ [img]))).tail =
        (revAux (some m) (mid ++ [img])).tail ++ [revElem e (headDist (mid ++ [img])) (some pm)] := by
      rw [revAux, hm1, List.tail_append_of_ne_nil]
      cases mid <;> simp [revAux]
    refine ⟨_, t, last, rfl, rfl, ?_, ?_, ?_, ?_, ?_, ?_, ?_⟩
    · simpa using h3
    · rw [htail, rows_concat, List.map_append, h4, h7]
      simp [rows, hb]
    · rw [htail, rows_concat, List.map_append, h5, h7]
      simp [rows, hb]
    · rw [htail, rows_concat, List.map_append, h6, h7]
      simp only [List.head?_cons, Option.map_some, Option.some.injEq] at h2
      simp [rows, hb, h2]
    · rw [htail, rows_concat, List.map_append, h8, h7]
      simp [rows, hb]
    · rw [htail, rows_concat, List.map_append, h9, h7]
      simp [rows, hb]
    · rw [htail]
      unfold endRay at h7 ⊢
      rw [List.foldl_append, h7]
      simp only [List.foldl_cons, List.foldl_nil, hb, hpos]
      rfl

/-! ## The property -/

/-- Real rays run backwards through the reversed system also when the surfaces are tilted, rayopt/system.py 249-261 with
459-464.  The surfaces follow one another along one direction `g` and have any angles.  The rows of the reversed system
are those of the first, seen through the inversion of space: the points are the negatives and the directions of the
light, turned round and inverted, are the same vectors. -/
theorem c112_tilted (nwt : NewtonFn) (l : ℝ) (clp : Bool) {g : V3} {obj img : Elem} {mid : List Elem} {y0 u0 : V3}
    {n0 : ℝ} (hobj : TiltedConic g obj l) (hn0 : MediumAfter obj l n0) (hmid : ∀ e ∈ mid, TiltedConic g e l)
    (himg : InLine g img) (hnone : img.mat = none)
    (hu : u0.dot u0 = 1) (hstart : Leaves obj y0 u0)
    (hside : ∀ sh, obj.shape = some sh → 0 ≤ u0.dot (quadricNormal sh.curvature sh.conic y0))
    (hin : clp = true → inside obj.radius y0)
    {F : List Row} (hF : F = Sys.propagate nwt (obj :: (mid ++ [img]))
      ⟨some (obj.tf.fromNormal y0), some (obj.tf.fromNormal u0), n0⟩ l 1 none clp)
    (hpass : ∀ (j : ℕ) (e : Elem) (x : Row), mid[j]? = some e → F[j]? = some x → PassesTilted e x)
    (hfin : ∀ x ∈ F, x.y ≠ none ∧ x.u ≠ none) :
    ∃ last, F.getLast? = some last ∧
      ∀ B, B = Sys.propagate nwt (reverse (obj :: (mid ++ [img])))
          ⟨last.y.map fun y => -img.tf.fromNormal y, last.u.map img.tf.fromNormal, last.n⟩ l 1 none clp →
        B.length = F.length ∧
        B.map (·.y) = ((some y0 :: F.map (·.y)).dropLast.reverse).map (Option.map (-·)) ∧
        B.map (·.t) = (F.map (·.t)).reverse ∧
        B.map (·.i) = (some u0 :: F.map (·.u)).dropLast.reverse ∧
        B.map (·.u) = (some u0 :: F.map (·.i)).dropLast.reverse ∧
        B.map (·.n) = (n0 :: n0 :: F.map (·.n)).dropLast.dropLast.reverse := by
  obtain ⟨m, hm1, hm2, hm3, hn⟩ := hn0
  have hC := hobj.inLine
  obtain ⟨sh, hsh, hg, hz, hq⟩ := hstart
  obtain ⟨sh', hsh', ha, halt⟩ := hobj.conic
  rw [hsh] at hsh'
  obtain rfl : sh = sh' := Option.some.inj hsh'
  have hF' : F = rows nwt l clp (mid ++ [img]) ⟨some (obj.tf.fromNormal y0), some (obj.tf.fromNormal u0), n0⟩ := by
    rw [hF, Sys.propagate, pySlice_one, List.tail_cons]
  rw [hF'] at hpass hfin ⊢
  obtain ⟨p, s, last, hp, h2, h3, h4, h5, h6, h8, h9, h7⟩ := back_rows_tilted nwt l clp himg hnone mid m
    (obj.tf.fromNormal y0) (obj.tf.fromNormal u0) n0 hm2 hm3 hn (by rw [(c10_dot hC.1 u0 u0).1, hu]) hmid hpass hfin
  have hd : 0 ≤ headDist (mid ++ [img]) := by
    cases mid with
    | nil => simpa [headDist] using (c12_invariant himg.1).1
    | cons f mid => simpa [headDist] using (c12_invariant (hmid f (by simp)).inLine.1).1
  have hb := back_step_tilted nwt l clp (pm := none) (n' := n0) (nb := n0) (mu := 1) (w := u0) hC hsh ha halt hin hg
    hu hz hq (hside sh hsh) rfl one_ne_zero (by simp [refract]) hd s
  rw [← hp] at hb
  refine ⟨last, h3, ?_⟩
  rintro B rfl
  have htail : (reverse (obj :: (mid ++ [img]))).tail =
      (revAux (some m) (mid ++ [img])).tail ++ [revElem obj (headDist (mid ++ [img])) none] := by
    rw [reverse_eq_revAux, revAux, hm1, List.tail_append_of_ne_nil]
    cases mid <;> simp [revAux]
  have hB : Sys.propagate nwt (reverse (obj :: (mid ++ [img])))
      ⟨last.y.map fun y => -img.tf.fromNormal y, last.u.map img.tf.fromNormal, last.n⟩ l 1 none clp =
      rows nwt l clp (revAux (some m) (mid ++ [img])).tail (backRay img last) ++
        [⟨some (-y0), some u0, n0, some u0, some (s * n0)⟩] := by
    rw [Sys.propagate, pySlice_one, htail]
    change rows nwt l clp _ (backRay img last) = _
    rw [rows_concat, h7]
    simp [rows, hb]
  generalize hG : rows nwt l clp (mid ++ [img])
    ⟨some (obj.tf.fromNormal y0), some (obj.tf.fromNormal u0), n0⟩ = G at *
  have hGne : G ≠ [] := by
    intro h; rw [h] at h3; simp at h3
  obtain ⟨g', G', rfl⟩ := List.exists_cons_of_ne_nil hGne
  have hlen := congrArg List.length h4
  simp only [List.map_cons, List.length_map, List.length_reverse, List.length_dropLast, List.length_cons,
    Nat.add_sub_cancel] at hlen
  simp only [List.head?_cons, Option.map_some, Option.some.injEq] at h2
  rw [hB]
  refine ⟨by simp [hlen], ?_, ?_, ?_, ?_, ?_⟩
  · rw [List.map_append, h4]; simp
  · rw [List.map_append, h6]; simp [h2]
  · rw [List.map_append, h9]; simp
  · rw [List.map_append, h5]; simp
  · rw [List.map_append, h8]; simp

/-! ### A ray through a tilted plane -/

/-- The tilt of the example. -/
noncomputable def tilt : ℝ := Real.arcsin (3 / 5)

theorem sin_tilt : Real.sin tilt = 3 / 5 := Real.sin_arcsin (by norm_num) (by norm_num)

theorem cos_tilt : Real.cos tilt = 4 / 5 := by
  rw [tilt, Real.cos_arcsin, show (1 : ℝ) - (3 / 5) ^ 2 = (4 / 5) ^ 2 by norm_num, Real.sqrt_sq (by norm_num)]

/-- A plane tilted about the first axis, at the distance one, with glass behind it. -/
noncomputable def tiltedPlane : Elem :=
  ⟨Transform.update 1 ez ⟨tilt, 0, 0⟩, .fin 9, some ⟨0, 0, none, false⟩, some (some crown)⟩

theorem tilted_rot : tiltedPlane.tf.rotNormal = some ⟨1, 0, 0, 0, 4/5, -(3/5), 0, 3/5, 4/5⟩ := by
  have hdir : updDir 1 ez = ez := by rw [updDir_of_unit ez_dot, if_neg (by norm_num)]
  have hcl : allclose ez ez := ⟨close_self _, close_self _, close_self _⟩
  have hns : ¬allclose ⟨tilt, 0, 0⟩ 0 := by
    rintro ⟨h, _, _⟩
    simp only [close, V3.zero_x, sub_zero, abs_zero, mul_zero, add_zero] at h
    have h0 : 0 < tilt := Real.arcsin_pos.mpr (by norm_num)
    have := Real.sin_lt h0
    rw [sin_tilt] at this
    rw [abs_of_pos h0] at h
    norm_num at h
    linarith
  unfold tiltedPlane
  rw [update_rotNormal, hdir, if_neg (fun h => hns h.1), if_pos hcl]
  dsimp only
  rw [if_neg hns]
  have : eulerMatrix tilt 0 0 Axes.rxyz = ⟨1, 0, 0, 0, 4/5, -(3/5), 0, 3/5, 4/5⟩ := by
    simp [eulerMatrix, Axes.rxyz, Axes.ijk, nextAxis, axisPos, sin_tilt, cos_tilt]
  simp only [this]
  simp [M3.one, M3.mul]

theorem tilted_inLine : InLine ez tiltedPlane := by
  refine ⟨⟨1, ez, ⟨tilt, 0, 0⟩, none, [], rfl⟩, ?_⟩
  unfold tiltedPlane
  rw [update_direction, updDir_of_unit ez_dot, if_neg (by norm_num)]

theorem surf_inLine (d c : ℝ) (m : Option Material) (hd : 0 ≤ d) : InLine ez (surf d c m) :=
  ⟨(surf_cen d c m hd).1, (surf_cen d c m hd).2.1⟩

theorem surf_normal (d c : ℝ) (m : Option Material) (hd : 0 ≤ d) :
    (surf d c m).tf.fromNormal = id ∧ ∀ v, (surf d c m).tf.toNormal v = v := by
  obtain ⟨h1, h2, h3⟩ := surf_cen d c m hd
  obtain ⟨h4, -, -⟩ := centred_tf h1 h2 h3
  exact ⟨by funext v; simp [Transform.fromNormal, h4, doRotate], by intro v; simp [Transform.toNormal, h4, doRotate]⟩

/-- The first ray: parallel to the axis through the tilted plane, then to a plane across the axis. -/
theorem tilted_rows (nwt : NewtonFn) (l : ℝ) :
    rows nwt l true ([tiltedPlane] ++ [surf 1 0 none]) ⟨some ⟨1/2, 0, 0⟩, some ez, 1⟩ =
      [⟨some ⟨1/2, 0, 0⟩, some ⟨0, -(5/13), 12/13⟩, 39/25, some ⟨0, -(3/5), 4/5⟩, some 1⟩,
       ⟨some ⟨1/2, 16/63, 0⟩, some ⟨0, 16/65, 63/65⟩, 39/25, some ⟨0, 16/65, 63/65⟩, some (65/63 * (39/25))⟩] := by
  have hto : ∀ v, tiltedPlane.tf.toNormal v = ⟨v.x, 4/5 * v.y - 3/5 * v.z, 3/5 * v.y + 4/5 * v.z⟩ := by
    intro v
    simp only [Transform.toNormal, tilted_rot, doRotate]
    ext <;> simp [M3.vecMul, M3.T] <;> ring
  have hfrom : ∀ v, tiltedPlane.tf.fromNormal v = ⟨v.x, 4/5 * v.y + 3/5 * v.z, -(3/5) * v.y + 4/5 * v.z⟩ := by
    intro v
    simp only [Transform.fromNormal, tilted_rot, doRotate]
    ext <;> simp [M3.vecMul] <;> ring
  have ho : tiltedPlane.tf.offset = ⟨0, 0, 1⟩ := by
    rw [(c12_invariant tilted_inLine.1).2.2, tilted_inLine.2]
    unfold tiltedPlane
    rw [update_distance]; ext <;> simp [ez]
  have h1 : step nwt l true tiltedPlane ⟨some ⟨1/2, 0, 0⟩, some ez, 1⟩ =
      (⟨some ⟨1/2, 0, 0⟩, some ⟨0, -(5/13), 12/13⟩, 39/25, some ⟨0, -(3/5), 4/5⟩, some 1⟩,
        ⟨some ⟨1/2, 0, 0⟩, some ⟨0, 16/65, 63/65⟩, 39/25⟩) := by
    have ha : tiltedPlane.tf.toNormal ((⟨1/2, 0, 0⟩ : V3) - ⟨0, 0, 1⟩) = ⟨1/2, 3/5, -(4/5)⟩ := by
      rw [hto]; ext <;> norm_num
    have hi : tiltedPlane.tf.toNormal ez = ⟨0, -(3/5), 4/5⟩ := by rw [hto]; ext <;> norm_num [ez]
    have hp : (⟨1/2, 3/5, -(4/5)⟩ : V3) + (1 : ℝ) • (⟨0, -(3/5), 4/5⟩ : V3) = ⟨1/2, 0, 0⟩ := by ext <;> norm_num
    have ht : (⟨0, 0, none, false⟩ : Shape).intercept nwt ⟨1/2, 3/5, -(4/5)⟩ ⟨0, -(3/5), 4/5⟩ = some 1 := by
      simp only [Shape.intercept, interceptConic, interceptPlane]
      norm_num
    have := propagate_conic_of nwt (e := tiltedPlane) (clp := true) (l := l) (n := 1) (n' := 39/25)
      (mu := 1 / (39/25)) (v := ⟨0, -(5/13), 12/13⟩) rfl rfl rfl (by norm_num) ht
      (by intro _; rw [hp]; simp only [tiltedPlane, inside]; norm_num) (by
        rw [hp]
        have hr : (⟨0, 0, none, false⟩ : Shape).surfaceNormal ⟨1/2, 0, 0⟩ = some ⟨0, 0, 1⟩ := by
          simp [Shape.surfaceNormal]
        simp only [refract, Option.bind_some, hr]
        rw [if_neg (by norm_num), c02_snell one_pos (by norm_num) (by intro h; simpa using congrArg V3.z h)
          (by norm_num [dot]) (by norm_num [dot])]
        refine ⟨by norm_num [dot], ?_, by norm_num [dot]⟩
        ext <;> norm_num [cross])
    simp only [step, Option.map_some, ho, ha, hi, this, hp, hfrom]
    norm_num
  obtain ⟨hf2, ht2⟩ := surf_normal 1 0 none zero_le_one
  have h2 : step nwt l true (surf 1 0 none) ⟨some ⟨1/2, 0, 0⟩, some ⟨0, 16/65, 63/65⟩, 39/25⟩ =
      (⟨some ⟨1/2, 16/63, 0⟩, some ⟨0, 16/65, 63/65⟩, 39/25, some ⟨0, 16/65, 63/65⟩, some (65/63 * (39/25))⟩,
        ⟨some ⟨1/2, 16/63, 0⟩, some ⟨0, 16/65, 63/65⟩, 39/25⟩) := by
    rw [step_centred nwt l true (surf_cen 1 0 _ zero_le_one), surf_dist zero_le_one]
    have hp : (⟨1/2, 0, 0⟩ : V3) - ⟨0, 0, 1⟩ + (65/63 : ℝ) • (⟨0, 16/65, 63/65⟩ : V3) = ⟨1/2, 16/63, 0⟩ := by
      ext <;> norm_num
    have ht : (⟨0, 0, none, false⟩ : Shape).intercept nwt ((⟨1/2, 0, 0⟩ : V3) - ⟨0, 0, 1⟩) ⟨0, 16/65, 63/65⟩ =
        some (65/63) := by
      simp only [Shape.intercept, interceptConic, interceptPlane]
      norm_num
    have := propagate_conic_of nwt (e := surf 1 0 none) (clp := true) (l := l) (n := 39/25) (n' := 39/25)
      (mu := 1) (v := ⟨0, 16/65, 63/65⟩) rfl rfl rfl one_ne_zero ht
      (by intro _; rw [hp]; simp only [surf, inside]; norm_num) (by simp [refract])
    simp only [this, hp]
  simp only [List.singleton_append, rows, h1, h2]

/-- The hypotheses of `c112_tilted` hold for that ray: it comes back parallel to the axis. -/
example (nwt : NewtonFn) (l : ℝ) : ∃ B, B = Sys.propagate nwt
      (reverse [surf 0 0 (some vacuum), tiltedPlane, surf 1 0 none])
      ⟨some (-⟨1/2, 16/63, 0⟩), some ⟨0, 16/65, 63/65⟩, 39/25⟩ l 1 none true ∧
    B.map (·.y) = [some (-⟨1/2, 0, 0⟩), some (-⟨1/2, 0, 0⟩)] ∧
    B.map (·.u) = [some ⟨0, -(3/5), 4/5⟩, some ez] := by
  obtain ⟨hf0, -⟩ := surf_normal 0 0 (some vacuum) le_rfl
  obtain ⟨hf2, -⟩ := surf_normal 1 0 none zero_le_one
  have hF : Sys.propagate nwt (surf 0 0 (some vacuum) :: ([tiltedPlane] ++ [surf 1 0 none]))
      ⟨some ((surf 0 0 (some vacuum)).tf.fromNormal ⟨1/2, 0, 0⟩), some ((surf 0 0 (some vacuum)).tf.fromNormal ez), 1⟩
      l 1 none true =
      [⟨some ⟨1/2, 0, 0⟩, some ⟨0, -(5/13), 12/13⟩, 39/25, some ⟨0, -(3/5), 4/5⟩, some 1⟩,
       ⟨some ⟨1/2, 16/63, 0⟩, some ⟨0, 16/65, 63/65⟩, 39/25, some ⟨0, 16/65, 63/65⟩, some (65/63 * (39/25))⟩] := by
    rw [Sys.propagate, pySlice_one, List.tail_cons, hf0]
    exact tilted_rows nwt l
  obtain ⟨last, h1, h2⟩ := c112_tilted nwt l true (g := ez) (obj := surf 0 0 (some vacuum)) (mid := [tiltedPlane])
    (img := surf 1 0 none) (y0 := ⟨1/2, 0, 0⟩) (u0 := ez) (n0 := 1)
    ⟨surf_inLine 0 0 _ le_rfl, ⟨1, vacuum, rfl, rfl, rfl, one_pos⟩, _, rfl, rfl, rfl⟩ ⟨vacuum, rfl, rfl, rfl, one_pos⟩
    (by
      intro e he
      rw [List.mem_singleton.mp he]
      exact ⟨tilted_inLine, ⟨_, crown, rfl, rfl, rfl, by norm_num [crown]⟩, _, rfl, rfl, rfl⟩)
    (surf_inLine 1 0 none zero_le_one) rfl ez_dot
    ⟨_, rfl, ⟨by norm_num, by norm_num⟩, by norm_num [ez], fun h => absurd rfl h⟩
    (by
      intro sh h
      cases h
      simp [quadricNormal, dot, ez])
    (by intro _; simp only [surf, inside]; norm_num) hF.symm
    (by
      intro j e x hj hx
      rcases j with _ | j
      · simp only [List.getElem?_cons_zero, Option.some.injEq] at hj hx
        subst hj hx
        exact ⟨_, _, _, rfl, rfl, rfl, by norm_num, _, rfl, ⟨by norm_num, by norm_num⟩, by norm_num,
          fun h => absurd rfl h⟩
      · simp at hj)
    (by
      intro x hx
      simp only [List.mem_cons, List.not_mem_nil, or_false] at hx
      rcases hx with rfl | rfl <;> exact ⟨by simp, by simp⟩)
  simp only [List.getLast?_cons_cons, List.getLast?_singleton, Option.some.injEq] at h1
  subst h1
  obtain ⟨-, h3, -, -, h4, -⟩ := h2 _ rfl
  rw [hf2] at h3 h4
  exact ⟨_, rfl, by simpa using h3, by simpa using h4⟩

/-! ## Where the reversed elements stand -/

/-- If all elements follow one another along one direction, the reversed system has every element where the inversion of
space puts it: the distance of an element from the first one is what the distance of that element from the last one
had been. -/
theorem c22_places {g : V3} (sys : List Elem) (hsys : ∀ e ∈ sys, InLine g e) (j : ℕ) {a b z : V3}
    (ha : (origins (reverse sys))[j]? = some a) (hb : (origins sys)[sys.length - 1 - j]? = some b)
    (hz : (origins sys).getLast? = some z) : a = z - b := by
  obtain ⟨hlen, hrev⟩ := c22_reverse sys fun e he => (hsys e he).1
  have hlenO : ∀ s : List Elem, (origins s).length = s.length := by intro s; simp [origins]
  have hj : j < sys.length := by
    have := (List.getElem?_eq_some_iff.mp ha).1
    rwa [hlenO, hlen] at this
  have hsucc : ∀ (s : List Elem) (i : ℕ) (hi : i + 1 < s.length),
      (origins s)[i + 1]? = some (sumV3 ((s.take (i + 1)).map fun e => e.tf.offset) + (s[i + 1]).tf.offset) := by
    intro s i hi
    rw [c25_origins s (i + 1) hi, List.take_add_one (i := i + 1), List.getElem?_eq_getElem hi]
    rw [List.map_append, Option.toList_some, List.map_cons, List.map_nil, sumV3_append_singleton]
  have hoff : ∀ e : Elem, Reachable e.tf → e.tf.direction = g → e.tf.offset = e.tf.distance • g := by
    intro e h1 h2; rw [(c12_invariant h1).2.2, h2]
  rw [List.getLast?_eq_getElem?, hlenO] at hz
  induction j generalizing a b with
  | zero =>
    rw [Nat.sub_zero, hz, Option.some.injEq] at hb
    subst hb
    have h0 : 0 < (reverse sys).length := by omega
    rw [c25_origins _ 0 h0, List.take_add_one, List.getElem?_eq_getElem h0] at ha
    obtain ⟨-, -, -, -, -, hd, -⟩ := hrev 0 _ (sys[sys.length - 1]'(by omega)) (List.getElem?_eq_getElem h0)
      (by simp)
    obtain ⟨-, -, -, hdir, hre, -⟩ := hrev 0 _ (sys[sys.length - 1]'(by omega)) (List.getElem?_eq_getElem h0)
      (by simp)
    have ho := hoff _ hre (by rw [hdir]; exact (hsys _ (List.getElem_mem _)).2)
    rw [hd rfl] at ho
    simp only [Nat.zero_add, List.take_zero, List.nil_append, Option.toList_some, List.map_cons, List.map_nil, ho,
      Option.some.injEq] at ha
    rw [← ha]
    ext <;> simp [sumV3]
  | succ j ih =>
    have hj' : j + 1 < (reverse sys).length := by omega
    have hk : sys.length - 1 - (j + 1) + 1 < sys.length := by omega
    have hb' := hsucc sys (sys.length - 1 - (j + 1)) hk
    rw [c25_origins sys _ (by omega), Option.some.injEq] at hb
    rw [hb] at hb'
    have hidx : sys.length - 1 - (j + 1) + 1 = sys.length - 1 - j := by omega
    have hlast : (reverse sys)[j]? = some ((reverse sys)[j]'(by omega)) := List.getElem?_eq_getElem _
    have hih := ih (c25_origins (reverse sys) j (by omega)) (by rw [← hidx]; exact hb') (by omega)
    rw [hsucc _ j hj', Option.some.injEq] at ha
    obtain ⟨-, -, -, hdir, hre, -, hd, -⟩ := hrev (j + 1) _ (sys[sys.length - 1 - (j + 1)]'(by omega))
      (List.getElem?_eq_getElem hj') (List.getElem?_eq_getElem _)
    have hd := hd (sys[sys.length - 1 - (j + 1) + 1]) (by omega)
      (by rw [show sys.length - (j + 1) = sys.length - 1 - (j + 1) + 1 by omega]; exact List.getElem?_eq_getElem hk)
    have ho := hoff _ hre (by rw [hdir]; exact (hsys _ (List.getElem_mem _)).2)
    rw [hd] at ho
    have ho' := hoff _ (hsys _ (List.getElem_mem hk)).1 (hsys _ (List.getElem_mem hk)).2
    rw [← ha, hih, ho, ho']
    ext <;> simp <;> ring

/-- Three surfaces along the axis and a fourth that is reached in another direction. -/
noncomputable def bent : List Elem :=
  [surf 0 0 none, surf 1 0 none, surf 1 0 none,
    ⟨Transform.update 5 ⟨0, 3/5, 4/5⟩ 0, .fin 9, some ⟨0, 0, none, false⟩, none⟩]

/-- C22 fails where the system has a bend: `System.reverse` moves the distances to the other elements but leaves the
directions behind, so the first and the last surface are no longer as far apart as they were. -/
theorem c22_bend_violation : ∃ (sys : List Elem) (z z' : V3), (∀ e ∈ sys, Reachable e.tf) ∧
    (origins sys).head? = some 0 ∧ (origins (reverse sys)).head? = some 0 ∧
    (origins sys).getLast? = some z ∧ (origins (reverse sys)).getLast? = some z' ∧
    z.dot z = 45 ∧ z'.dot z' = 49 := by
  refine ⟨bent, ⟨0, 3, 6⟩, ⟨0, 0, 7⟩, ?_, ?_, ?_, ?_, ?_, by norm_num [dot], by norm_num [dot]⟩
  · intro e he
    simp only [bent, List.mem_cons, List.not_mem_nil, or_false] at he
    rcases he with rfl | rfl | rfl | rfl
    · exact (surf_cen _ _ _ le_rfl).1
    · exact (surf_cen _ _ _ zero_le_one).1
    · exact (surf_cen _ _ _ zero_le_one).1
    · exact ⟨5, ⟨0, 3/5, 4/5⟩, 0, none, [], rfl⟩
  all_goals
    have hs : ∀ d : ℝ, 0 ≤ d → (surf d 0 none).tf.offset = ⟨0, 0, d⟩ := by
      intro d hd
      obtain ⟨h1, h2, -⟩ := surf_cen d 0 none hd
      rw [(c12_invariant h1).2.2, h2, surf_dist hd]; ext <;> simp [ez]
    have hr : ∀ (d d' : ℝ) (m : Option Material), 0 ≤ d → (revElem (surf d 0 none) d' m).tf.offset = ⟨0, 0, d'⟩ := by
      intro d d' m hd
      obtain ⟨h1, h2, -⟩ := surf_cen d 0 none hd
      change ((surf d 0 none).tf.setDistance d').offset = _
      rw [(c12_distance h1 d').1, h2]; ext <;> simp [ez]
    have hdir : (⟨0, 3/5, 4/5⟩ : V3).dot ⟨0, 3/5, 4/5⟩ = 1 := by norm_num [dot]
    have hl : (Transform.update 5 ⟨0, 3/5, 4/5⟩ 0).offset = ⟨0, 3, 4⟩ := by
      rw [update_offset, update_distance, update_direction, updDir_of_unit hdir, if_neg (by norm_num)]
      ext <;> norm_num
    have hl' : ((Transform.update 5 ⟨0, 3/5, 4/5⟩ 0).setDistance 0).offset = 0 := by
      have hre : Reachable (Transform.update 5 ⟨0, 3/5, 4/5⟩ 0) := ⟨5, ⟨0, 3/5, 4/5⟩, 0, none, [], rfl⟩
      rw [(c12_distance hre 0).1]; ext <;> simp
    have hl5 : (Transform.update 5 ⟨0, 3/5, 4/5⟩ 0).distance = 5 := by rw [update_distance]; norm_num
    have h1 : (surf 1 0 none).tf.distance = 1 := surf_dist zero_le_one 0 none
    have hB : (bent.map fun e => e.tf.offset) = [⟨0, 0, 0⟩, ⟨0, 0, 1⟩, ⟨0, 0, 1⟩, ⟨0, 3, 4⟩] := by
      simp [bent, hs, hl]
    have hR : ((reverse bent).map fun e => e.tf.offset) = [0, ⟨0, 0, 5⟩, ⟨0, 0, 1⟩, ⟨0, 0, 1⟩] := by
      rw [reverse_eq_revAux]
      simp only [bent, revAux, List.nil_append, List.cons_append, List.map_cons, List.map_nil, hr _ _ _ zero_le_one,
        hr _ _ _ le_rfl, headDist, List.head?_cons, List.head?_nil, Option.map_some, Option.map_none, Option.getD_some,
        Option.getD_none, hl5, h1]
      exact congrArg (· :: _) hl'
    unfold origins
    first | rw [hB] | rw [hR]
    simp only [List.scanl_cons, List.scanl_nil, List.tail_cons, List.head?_cons, List.getLast?_cons_cons,
      List.getLast?_singleton, Option.some.injEq]
    ext <;> norm_num

/-- The hypotheses of `c22_places` hold for a system with a tilted surface: the first surface, two behind which the last
one stood, is the third of the reversed system. -/
example : ∃ a b z, (origins (reverse [surf 0 0 none, tiltedPlane, surf 1 0 none]))[2]? = some a ∧
    (origins [surf 0 0 none, tiltedPlane, surf 1 0 none])[0]? = some b ∧
    (origins [surf 0 0 none, tiltedPlane, surf 1 0 none]).getLast? = some z ∧ a = z - b := by
  have hl : ∀ s : List Elem, (origins s).length = s.length := by intro s; simp [origins]
  have hsys : ∀ e ∈ [surf 0 0 none, tiltedPlane, surf 1 0 none], InLine ez e := by
    intro e he
    simp only [List.mem_cons, List.not_mem_nil, or_false] at he
    rcases he with rfl | rfl | rfl
    · exact surf_inLine 0 0 none le_rfl
    · exact tilted_inLine
    · exact surf_inLine 1 0 none zero_le_one
  have h1 : 2 < (origins (reverse [surf 0 0 none, tiltedPlane, surf 1 0 none])).length := by
    rw [hl, (c22_reverse _ fun e he => (hsys e he).1).1]; decide
  have h2 : 0 < (origins [surf 0 0 none, tiltedPlane, surf 1 0 none]).length := by rw [hl]; decide
  have h3 := List.getLast?_eq_getLast_of_ne_nil (List.ne_nil_of_length_pos h2)
  exact ⟨_, _, _, List.getElem?_eq_getElem h1, List.getElem?_eq_getElem h2, h3,
    c22_places _ hsys 2 (List.getElem?_eq_getElem h1) (List.getElem?_eq_getElem h2) h3⟩

end RayOpt
