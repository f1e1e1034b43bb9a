import Verif.Props.Reverse
import Verif.Props.Symmetry
import Verif.Props.Surface
import Verif.Props.Refraction
import Verif.Model.Reversed
import Verif.Lemmas.ParaxialTrace

/-!
Property C112: real rays run backwards through the reversed system.
-/

namespace RayOpt

open Sys V3 Transform Elem Shape

/-! ## Specification -/

/-- A point seen from the other side: the axis is turned round. -/
def mirrorZ (p : V3) : V3 := ⟨p.x, p.y, -p.z⟩

/-- The direction of the light that runs back, seen from the other side. -/
def turnZ (u : V3) : V3 := ⟨-u.x, -u.y, u.z⟩

/-- A centred refracting conic surface (or plane) with the usual choice of the intersection. -/
structure RefractingConic (e : Elem) (l : ℝ) : Prop where
  centred : Centred e
  medium : ∃ n, MediumAfter e l n
  conic : ∃ sh, e.shape = some sh ∧ sh.aspherics = none ∧ sh.alternate = false

/-- The point `y` is on the surface (the textbook sag), and the ray leaves it forwards in the direction `u` that is not
the direction of an asymptote. -/
def Leaves (e : Elem) (y u : V3) : Prop :=
  ∃ sh, e.shape = some sh ∧ OnConicGraph sh.curvature sh.conic y ∧ 0 < u.z ∧
    (sh.curvature ≠ 0 → quadCoeff sh.curvature sh.conic u ≠ 0)

/-! ## Helpers -/

theorem turnZ_dot (a b : V3) : (turnZ a).dot (turnZ b) = a.dot b := by simp [turnZ, dot]

theorem turnZ_cross (a b : V3) : (turnZ a).cross (turnZ b) = turnZ (a.cross b) := by
  ext <;> simp [turnZ, cross] <;> ring

theorem turnZ_smul (c : ℝ) (a : V3) : turnZ (c • a) = c • turnZ a := by
  ext <;> simp [turnZ]

theorem turnZ_ne {r : V3} (h : r ≠ 0) : turnZ r ≠ 0 := by
  intro h0; apply h
  have hx := congrArg V3.x h0; have hy := congrArg V3.y h0; have hz := congrArg V3.z h0
  simp [turnZ] at hx hy hz; ext <;> simpa

theorem snell_turn {n0 n : ℝ} {r u0 u : V3} (hu : u0.dot u0 = 1) (hside : 0 ≤ u0.dot r) (h : Snell n0 n r u0 u) :
    Snell n n0 (turnZ r) (turnZ u) (turnZ u0) :=
  ⟨by rw [turnZ_dot, hu], by rw [turnZ_cross, turnZ_cross, ← turnZ_smul, ← turnZ_smul, h.tangential],
    by rw [turnZ_dot]; exact hside⟩

theorem onQuadric_mirror {c k : ℝ} {p : V3} (h : OnQuadric c k p) : OnQuadric (-c) k (mirrorZ p) := by
  unfold OnQuadric at *; simp only [mirrorZ]; linear_combination -h

theorem quadricNormal_mirror (c k : ℝ) (p : V3) :
    quadricNormal (-c) k (mirrorZ p) = turnZ (quadricNormal c k p) := by
  ext <;> simp [quadricNormal, mirrorZ, turnZ]

theorem quadCoeff_turn (c k : ℝ) (u : V3) : quadCoeff (-c) k (turnZ u) = -quadCoeff c k u := by
  simp [quadCoeff, turnZ]

/-- The intersection that the code returns is the point of the quadric that the ray crosses along its normal. -/
theorem intercept_of_side (nwt : NewtonFn) {s : Shape} {y u : V3} {t : ℝ} (ha : s.aspherics = none)
    (halt : s.alternate = false) (hu : u.dot u = 1) (hz : u.z ≠ 0)
    (he : s.curvature ≠ 0 → quadCoeff s.curvature s.conic u ≠ 0)
    (hq : OnQuadric s.curvature s.conic (y + t • u))
    (hs : s.curvature ≠ 0 → 0 ≤ u.dot (quadricNormal s.curvature s.conic (y + t • u))) :
    s.intercept nwt y u = some t := by
  unfold Shape.intercept
  rw [ha]; dsimp only
  by_cases hc : s.curvature = 0
  · simp only [interceptConic, hc, if_true, interceptPlane, hz, if_false, Option.some.injEq]
    simp only [OnQuadric, hc, zero_mul, add_z, smul_z] at hq
    field_simp; linarith
  · rw [interceptConic_eq s y u (norm_eq_one hu) hc]
    have he := he hc; have hs := hs hc
    have key : u.dot (quadricNormal s.curvature s.conic (y + t • u)) =
      -((s.curvature * (u.x * y.x + u.y * y.y + u.z * y.z * (1 + s.conic)) - u.z) +
        quadCoeff s.curvature s.conic u * t) := by
      simp only [dot, quadricNormal, quadCoeff, add_x, add_y, add_z, smul_x, smul_y, smul_z]; ring
    rw [key] at hs
    rw [onQuadric_iff] at hq
    simp only [halt, Bool.false_eq_true, if_false]
    generalize s.curvature * (u.x * y.x + u.y * y.y + u.z * y.z * (1 + s.conic)) - u.z = d at *
    generalize s.curvature * (y.x ^ 2 + y.y ^ 2 + y.z ^ 2 * (1 + s.conic)) - 2 * y.z = f at *
    generalize quadCoeff s.curvature s.conic u = e at *
    have hdisc : d ^ 2 - e * f = (-(d + e * t)) ^ 2 := by linear_combination (-e) * hq
    rw [hdisc, if_neg (not_lt.mpr (sq_nonneg _)), if_neg he, Real.sqrt_sq hs]
    congr 1; field_simp; ring

/-- A centred element passes a ray on in its own coordinates. -/
theorem step_centred (nwt : NewtonFn) (l : ℝ) (clp : Bool) {e : Elem} (he : Centred e) (y u : V3) (n : ℝ) :
    step nwt l clp e ⟨some y, some u, n⟩ =
      let p := e.propagate nwt (some (y - ⟨0, 0, e.tf.distance⟩)) (some u) n l clp
      (⟨p.y, p.u, p.n, some u, p.t⟩, ⟨p.y, p.u, p.n⟩) := by
  obtain ⟨h1, h2, h3⟩ := he
  have ho : e.tf.offset = ⟨0, 0, e.tf.distance⟩ := by
    rw [(c12_invariant h1).2.2, h2]; ext <;> simp [ez]
  obtain ⟨h4, -, -⟩ := centred_tf h1 h2 h3
  have hto : ∀ v, e.tf.toNormal v = v := by intro v; simp [Transform.toNormal, h4, doRotate]
  have hfrom : e.tf.fromNormal = id := by funext v; simp [Transform.fromNormal, h4, doRotate]
  simp only [step, Option.map_some, hto, ho, hfrom, Option.map_id, id]

theorem surfaceNormal_turn {sh : Shape} (ha : sh.aspherics = none) (p : V3) :
    sh.reverse.surfaceNormal (mirrorZ p) = (sh.surfaceNormal p).map turnZ := by
  obtain ⟨c, k, a, alt⟩ := sh
  dsimp only at ha
  subst ha
  simp only [Shape.surfaceNormal, Shape.reverse, Option.map_none, rsq, mirrorZ, and_true, mul_neg, mul_one, neg_eq_zero,
    neg_sq, ne_eq, reduceCtorEq, and_false, if_false]
  by_cases hc : c = 0
  · simp [hc, turnZ]
  · simp only [hc, if_false, not_false_eq_true, if_true]
    by_cases h : 1 - (1 + k) * c ^ 2 * (p.x * p.x + p.y * p.y) ≤ 0
    · simp only [h, if_true, Option.map_none]
    · simp only [h, if_false, Option.map_some, turnZ, Option.some.injEq, V3.mk.injEq, and_true]
      constructor <;> ring

/-- On the surface the code's normal is the gradient of the quadric, scaled. -/
theorem surfaceNormal_graph {sh : Shape} (ha : sh.aspherics = none) {p r : V3}
    (hg : OnConicGraph sh.curvature sh.conic p) (hr : sh.surfaceNormal p = some r) :
    r ≠ 0 ∧ ∃ w : ℝ, 0 < w ∧ quadricNormal sh.curvature sh.conic p = w • r := by
  have hz : r.z = 1 := by
    unfold Shape.surfaceNormal at hr
    rw [ha] at hr
    split_ifs at hr
    · cases hr; rfl
    · simp only [Option.map_eq_some_iff] at hr
      obtain ⟨a, -, rfl⟩ := hr; rfl
  refine ⟨fun h => by rw [h] at hz; simp at hz, ?_⟩
  have h2 := (c06_sag_zero_iff sh p ha)
  obtain ⟨hq, hs⟩ := h2.2.mp (h2.1.mpr hg)
  by_cases hc : sh.curvature = 0
  · unfold Shape.surfaceNormal at hr
    rw [if_pos ⟨hc, ha⟩] at hr
    cases hr
    exact ⟨1, one_pos, by ext <;> simp [quadricNormal, hc]⟩
  · unfold Shape.surfaceNormal at hr
    simp only [ha, hc, false_and, if_false, ne_eq, not_false_iff, if_true, rsq] at hr
    unfold OnQuadric at hq
    unfold OnVertexSheet at hs
    have hsq : 1 - (1 + sh.conic) * sh.curvature ^ 2 * (p.x * p.x + p.y * p.y) =
        (1 - (1 + sh.conic) * sh.curvature * p.z) ^ 2 := by
      linear_combination (-((1 + sh.conic) * sh.curvature)) * hq
    simp only [hsq, Real.sqrt_sq hs] at hr
    split_ifs at hr with hw
    · simp at hr
    · simp only [Option.map_some, Option.some.injEq] at hr
      have hw' : 0 < 1 - (1 + sh.conic) * sh.curvature * p.z := by
        rcases hs.lt_or_eq with h | h
        · exact h
        · exfalso; apply hw; rw [← h]; norm_num
      refine ⟨_, hw', ?_⟩
      rw [← hr]
      simp only [quadricNormal]
      generalize 1 - (1 + sh.conic) * sh.curvature * p.z = w at hw'
      ext <;> simp <;> field_simp

/-- What happened at a refracting surface. -/
theorem propagate_conic (nwt : NewtonFn) {e : Elem} {sh : Shape} {m : Material} {a u q v : V3} {n l : ℝ} {clp : Bool}
    (hs : e.shape = some sh) (hm : e.mat = some m) (hmir : m.mirror = false) (hn : 0 < n) (hi : 0 < m.index l)
    (hy : (e.propagate nwt (some a) (some u) n l clp).y = some q)
    (hu : (e.propagate nwt (some a) (some u) n l clp).u = some v) :
    ∃ t, sh.intercept nwt a u = some t ∧ q = a + t • u ∧ (clp = true → inside e.radius q) ∧
      refract sh (some q) (some u) (n / m.index l) = some v := by
  have hne : n / m.index l ≠ 0 := (div_pos hn hi).ne'
  have hm' : e.material.getD none = some m := hm
  simp only [Elem.propagate, hs, Option.bind_some, Elem.intercept, hm', getNMu, hmir, Bool.false_eq_true, if_false, hne] at hy hu
  simp only [Option.map_eq_some_iff] at hy
  obtain ⟨t, ht, rfl⟩ := hy
  refine ⟨t, ht, rfl, ?_, ?_⟩
  · intro hc
    subst hc
    simp only [ht, Option.map_some, if_true, Elem.clip] at hu
    by_contra h
    rw [if_neg h] at hu
    simp [refract] at hu
  · simp only [ht, Option.map_some] at hu
    cases clp
    · simpa using hu
    · simp only [if_true, Elem.clip] at hu
      by_cases h : inside e.radius (a + t • u)
      · rw [if_pos h] at hu; exact hu
      · rw [if_neg h] at hu; simp [refract] at hu

/-- The converse. -/
theorem propagate_conic_of (nwt : NewtonFn) {e : Elem} {sh : Shape} {m : Option Material} {a u v : V3} {n l mu n' t : ℝ}
    {clp : Bool} (hs : e.shape = some sh) (hm : e.mat = m) (hmu : getNMu m n l = (n', mu)) (h0 : mu ≠ 0)
    (ht : sh.intercept nwt a u = some t) (hin : clp = true → inside e.radius (a + t • u))
    (hv : refract sh (some (a + t • u)) (some u) mu = some v) :
    e.propagate nwt (some a) (some u) n l clp = ⟨some (a + t • u), some v, n', some (t * n)⟩ := by
  have hm' : e.material.getD none = m := hm
  simp only [Elem.propagate, hs, Option.bind_some, Elem.intercept, hm', hmu, h0, if_false, ht, Option.map_some]
  cases clp
  · simp [hv]
  · simp only [if_true, Elem.clip, if_pos (hin rfl), hv]

theorem side_of_intercept (nwt : NewtonFn) {sh : Shape} {a u : V3} {t : ℝ} (ha : sh.aspherics = none)
    (halt : sh.alternate = false) (hu : u.dot u = 1) (hz : 0 < u.z) (ht : sh.intercept nwt a u = some t) :
    0 ≤ u.dot (quadricNormal sh.curvature sh.conic (a + t • u)) := by
  by_cases hc : sh.curvature = 0
  · simp [quadricNormal, dot, hc]; exact hz.le
  · have := c06_root_side nwt sh a u t ha hc (norm_eq_one hu) ht
    simpa [halt] using this

/-- The reversed refraction at the turned surface. -/
theorem refract_turn {sh : Shape} {q u v : V3} {n n' : ℝ} (hn : 0 < n) (hn' : 0 < n') (ha : sh.aspherics = none)
    (hu : u.dot u = 1) (hg : OnConicGraph sh.curvature sh.conic q)
    (hside : 0 ≤ u.dot (quadricNormal sh.curvature sh.conic q))
    (h : refract sh (some q) (some u) (n / n') = some v) :
    v.dot v = 1 ∧ 0 ≤ v.dot (quadricNormal sh.curvature sh.conic q) ∧
      refract sh.reverse (some (mirrorZ q)) (some (turnZ v)) (n' / n) = some (turnZ u) := by
  by_cases h1 : n = n'
  · subst h1
    rw [div_self hn.ne'] at *
    simp only [refract, Option.bind_some, if_true, Option.some.injEq] at h ⊢
    subst h
    exact ⟨hu, hside, rfl⟩
  · have hmu : n / n' ≠ 1 := fun h => h1 ((div_eq_one_iff_eq hn'.ne').mp h)
    have hmu' : n' / n ≠ 1 := fun h => h1 ((div_eq_one_iff_eq hn.ne').mp h).symm
    simp only [refract, Option.bind_some, hmu, if_false, Option.bind_eq_some_iff] at h
    obtain ⟨r, hr, h⟩ := h
    obtain ⟨hr0, w, hw, hqn⟩ := surfaceNormal_graph ha hg hr
    have hdot : ∀ x : V3, x.dot (quadricNormal sh.curvature sh.conic q) = w * x.dot r := by
      intro x; rw [hqn]; simp only [dot, smul_x, smul_y, smul_z]; ring
    rw [hdot] at hside
    have hside' : 0 ≤ u.dot r := nonneg_of_mul_nonneg_right hside hw
    have hS := (c02_snell hn hn' hr0 hu hside' v).mp h
    refine ⟨hS.unit, by rw [hdot]; exact mul_nonneg hw.le hS.side, ?_⟩
    simp only [refract, Option.bind_some, hmu', if_false]
    rw [surfaceNormal_turn ha, hr]
    simp only [Option.map_some, Option.bind_some]
    rw [c02_snell hn' hn (turnZ_ne hr0) (by rw [turnZ_dot]; exact hS.unit) (by rw [turnZ_dot]; exact hS.side)]
    exact snell_turn hu hside' hS

theorem centred_rev {e : Elem} (h : Centred e) {d : ℝ} (hd : 0 ≤ d) (m : Option Material) :
    Centred (revElem e d m) ∧ (revElem e d m).tf.distance = d := by
  obtain ⟨h1, h2, h3⟩ := h
  obtain ⟨hd1, hd2⟩ := revElem_dist h1 hd m
  refine ⟨⟨?_, ?_, ?_⟩, hd1⟩
  · obtain ⟨d0, u, a, o, ops, h⟩ := h1
    exact ⟨d0, u, a, o, ops ++ [.distance d], by rw [List.foldl_append, ← h]; rfl⟩
  · change (e.tf.setDistance d).direction = ez
    simp only [setDistance]
    rw [update_direction, h2, updDir_of_unit ez_dot, if_neg (not_lt.mpr hd)]
  · rw [hd2, h3]

/-- One surface on the way back. -/
theorem back_step (nwt : NewtonFn) (l : ℝ) (clp : Bool) {e : Elem} {sh : Shape} {q v w : V3} {n' nb mu : ℝ}
    {pm : Option Material} (hC : Centred e) (hs : e.shape = some sh) (ha : sh.aspherics = none)
    (halt : sh.alternate = false) (hin : clp = true → inside e.radius q)
    (hg : OnConicGraph sh.curvature sh.conic q) (hv : v.dot v = 1) (hz : 0 < v.z)
    (he : sh.curvature ≠ 0 → quadCoeff sh.curvature sh.conic v ≠ 0)
    (hside : 0 ≤ v.dot (quadricNormal sh.curvature sh.conic q))
    (hmu : getNMu pm n' l = (nb, mu)) (h0 : mu ≠ 0)
    (hw : refract sh.reverse (some (mirrorZ q)) (some (turnZ v)) mu = some w)
    {d : ℝ} (hd : 0 ≤ d) (s : ℝ) :
    step nwt l clp (revElem e d pm) ⟨some (mirrorZ (q - ⟨0, 0, d⟩ + s • v)), some (turnZ v), n'⟩ =
      (⟨some (mirrorZ q), some w, nb, some (turnZ v), some (s * n')⟩, ⟨some (mirrorZ q), some w, nb⟩) := by
  obtain ⟨hC', hd'⟩ := centred_rev hC hd pm
  rw [step_centred nwt l clp hC', hd']
  have hpt : mirrorZ (q - ⟨0, 0, d⟩ + s • v) - ⟨0, 0, d⟩ + s • turnZ v = mirrorZ q := by
    ext <;> simp only [mirrorZ, turnZ, add_x, add_y, add_z, sub_x, sub_y, sub_z, smul_x, smul_y, smul_z] <;> ring
  have hs' : (revElem e d pm).shape = some sh.reverse := by simp [revElem, Elem.reverse, hs]
  have hc' : sh.reverse.curvature = -sh.curvature := by simp [Shape.reverse]
  have hk' : sh.reverse.conic = sh.conic := rfl
  have h2 := c06_sag_zero_iff sh q ha
  obtain ⟨hq, -⟩ := h2.2.mp (h2.1.mpr hg)
  have ht : sh.reverse.intercept nwt (mirrorZ (q - ⟨0, 0, d⟩ + s • v) - ⟨0, 0, d⟩) (turnZ v) = some s := by
    apply intercept_of_side nwt (s := sh.reverse) (u := turnZ v) (by simp [Shape.reverse, ha]) halt
      (by rw [turnZ_dot, hv]) hz.ne'
    · intro hc
      rw [hc', hk', quadCoeff_turn]
      exact neg_ne_zero.mpr (he fun h => hc (by rw [hc', h, neg_zero]))
    · rw [hpt, hc', hk']; exact onQuadric_mirror hq
    · intro _
      rw [hpt, hc', hk', quadricNormal_mirror, turnZ_dot]; exact hside
  have hin' : clp = true → inside (revElem e d pm).radius
      (mirrorZ (q - ⟨0, 0, d⟩ + s • v) - ⟨0, 0, d⟩ + s • turnZ v) := by
    intro hc
    rw [hpt]
    have := hin hc
    change inside e.radius (mirrorZ q)
    cases hR : e.radius with
    | inf => trivial
    | fin r => rw [hR] at this; exact this
  have := propagate_conic_of nwt (m := pm) (l := l) hs' rfl hmu h0 ht hin' (by rw [hpt]; exact hw)
  simp only [this, hpt]

/-- The ray behind the last element. -/
noncomputable def endRay (nwt : NewtonFn) (l : ℝ) (clp : Bool) (es : List Elem) (r : Ray) : Ray :=
  es.foldl (fun r e => (step nwt l clp e r).2) r

theorem rows_concat (nwt : NewtonFn) (l : ℝ) (clp : Bool) (a b : List Elem) (r : Ray) :
    rows nwt l clp (a ++ b) r = rows nwt l clp a r ++ rows nwt l clp b (endRay nwt l clp a r) := by
  induction a generalizing r with
  | nil => rfl
  | cons e a ih => simp only [List.cons_append, rows, ih]; rfl

/-- The ray of a row, turned round. -/
def backStart (x : Row) : Ray := ⟨x.y.map mirrorZ, x.u.map turnZ, x.n⟩

theorem image_row (nwt : NewtonFn) (l : ℝ) (clp : Bool) {img : Elem} (hC : Centred img) (hnone : img.mat = none)
    (y u : V3) (n : ℝ) (hy : (step nwt l clp img ⟨some y, some u, n⟩).1.y ≠ none)
    (hu : (step nwt l clp img ⟨some y, some u, n⟩).1.u ≠ none) :
    ∃ s : ℝ, (step nwt l clp img ⟨some y, some u, n⟩).1 =
      ⟨some (y - ⟨0, 0, img.tf.distance⟩ + s • u), some u, n, some u, some (s * n)⟩ := by
  rw [step_centred nwt l clp hC] at *
  dsimp only at *
  have hm' : img.material.getD none = none := hnone
  generalize y - ⟨0, 0, img.tf.distance⟩ = a at *
  cases ht : img.intercept nwt a u with
  | none =>
    exfalso; apply hy
    simp only [Elem.propagate, Option.bind_some, ht, Option.map_none]
    cases img.shape <;> rfl
  | some s =>
    refine ⟨s, ?_⟩
    simp only [Elem.propagate, Option.bind_some, ht, Option.map_some, hm', getNMu] at hu ⊢
    cases hs : img.shape with
    | none =>
      simp only [hs] at hu
      cases clp
      · simp
      · simp only [if_true, Elem.clip] at hu ⊢
        split_ifs at hu ⊢ with h
        · rfl
        · exact absurd rfl hu
    | some sh =>
      simp only [hs, one_ne_zero, if_false] at hu
      simp only [one_ne_zero, if_false]
      cases clp
      · simp [refract]
      · simp only [if_true, Elem.clip] at hu ⊢
        split_ifs at hu ⊢ with h
        · simp [refract]
        · exact absurd rfl hu

theorem back_rows (nwt : NewtonFn) (l : ℝ) (clp : Bool) {img : Elem} (hC : Centred img) (hnone : img.mat = none)
    (mid : List Elem) : ∀ (pm : Material) (y u : V3) (n : ℝ), pm.mirror = false → pm.index l = n → 0 < n →
    u.dot u = 1 → 0 < u.z → (∀ e ∈ mid, RefractingConic e l) →
    (∀ (j : ℕ) (e : Elem) (x : Row), mid[j]? = some e → (rows nwt l clp (mid ++ [img]) ⟨some y, some u, n⟩)[j]? = some x →
      ∃ y' u', x.y = some y' ∧ x.u = some u' ∧ Leaves e y' u') →
    (∀ x ∈ rows nwt l clp (mid ++ [img]) ⟨some y, some u, n⟩, x.y ≠ none ∧ x.u ≠ none) →
    ∃ (p : V3) (s : ℝ) (last : Row), p = y - ⟨0, 0, headDist (mid ++ [img])⟩ + s • u ∧
      (rows nwt l clp (mid ++ [img]) ⟨some y, some u, n⟩).head?.map (·.y) = some (some p) ∧
      (rows nwt l clp (mid ++ [img]) ⟨some y, some u, n⟩).head?.map (·.t) = some (some (s * n)) ∧
      (rows nwt l clp (mid ++ [img]) ⟨some y, some u, n⟩).getLast? = some last ∧
      (rows nwt l clp (revAux (some pm) (mid ++ [img])).tail (backStart last)).map (·.y) =
        ((rows nwt l clp (mid ++ [img]) ⟨some y, some u, n⟩).map (·.y)).dropLast.reverse.map (Option.map mirrorZ) ∧
      (rows nwt l clp (revAux (some pm) (mid ++ [img])).tail (backStart last)).map (·.u) =
        ((rows nwt l clp (mid ++ [img]) ⟨some y, some u, n⟩).map (·.i)).dropLast.reverse.map (Option.map turnZ) ∧
      (rows nwt l clp (revAux (some pm) (mid ++ [img])).tail (backStart last)).map (·.t) =
        ((rows nwt l clp (mid ++ [img]) ⟨some y, some u, n⟩).map (·.t)).tail.reverse ∧
      (rows nwt l clp (revAux (some pm) (mid ++ [img])).tail (backStart last)).map (·.n) =
        (n :: (rows nwt l clp (mid ++ [img]) ⟨some y, some u, n⟩).map (·.n)).dropLast.dropLast.reverse ∧
      (rows nwt l clp (revAux (some pm) (mid ++ [img])).tail (backStart last)).map (·.i) =
        ((rows nwt l clp (mid ++ [img]) ⟨some y, some u, n⟩).map (·.u)).dropLast.reverse.map (Option.map turnZ) ∧
      endRay nwt l clp (revAux (some pm) (mid ++ [img])).tail (backStart last) =
        ⟨some (mirrorZ p), some (turnZ u), n⟩ := by
  induction mid with
  | nil =>
    intro pm y u n _ _ hn hu hz _ _ hall
    simp only [List.nil_append, rows] at hall ⊢
    obtain ⟨h1, h2⟩ := hall _ (List.mem_singleton.mpr rfl)
    obtain ⟨s, hs⟩ := image_row nwt l clp hC hnone y u n h1 h2
    refine ⟨_, s, _, rfl, ?_, ?_, rfl, ?_, ?_, ?_, ?_, ?_, ?_⟩
    · rw [hs]; simp [headDist]
    · rw [hs]; simp
    · simp [revAux, rows]
    · simp [revAux, rows]
    · simp [revAux, rows]
    · simp [revAux, rows]
    · simp [revAux, rows]
    · simp [revAux, endRay, backStart, hs, headDist]
  | cons e mid ih =>
    intro pm y u n hpm1 hpm2 hn hu hz hR hF hall
    obtain ⟨hCe, ⟨n', m, hm1, hm2, hm3, hn'⟩, sh, hsh, ha, halt⟩ := hR e (by simp)
    have hd : 0 ≤ headDist (mid ++ [img]) := by
      cases mid with
      | nil => simpa [headDist] using (c12_invariant hC.1).1
      | cons f mid => simpa [headDist] using (c12_invariant (hR f (by simp)).centred.1).1
    simp only [List.cons_append, rows] at hF hall ⊢
    obtain ⟨q, v, hq, hv, sh', hsh', hg, hvz, hqc⟩ := hF 0 e _ rfl (List.getElem?_cons_zero)
    rw [hsh] at hsh'
    obtain rfl : sh = sh' := Option.some.inj hsh'
    have hst := step_centred nwt l clp hCe y u n
    dsimp only at hst
    rw [hst] at hq hv
    subst hm3
    obtain ⟨t, ht, rfl, hin, hre⟩ := propagate_conic nwt hsh hm1 hm2 hn hn' hq hv
    have hprop := propagate_conic_of nwt (l := l) (n' := m.index l) hsh hm1 (n := n) (mu := n / m.index l)
      (by simp [getNMu, hm2]) (div_pos hn hn').ne' ht hin hre
    have hside := side_of_intercept nwt ha halt hu hz ht
    obtain ⟨hv1, hvs, hback⟩ := refract_turn hn hn' ha hu hg hside hre
    rw [hprop] at hst
    dsimp only at hst
    rw [hst] at hF hall ⊢
    dsimp only at hF hall ⊢
    obtain ⟨p, s, last, hp, h1, h2, h3, h4, h5, h6, h8, h9, h7⟩ := ih m _ v (m.index l) hm2 rfl hn' hv1 hvz
      (fun f hf => hR f (by simp [hf])) (fun j f x hj hx => hF (j + 1) f x (by simpa using hj) (by simpa using hx))
      (fun x hx => hall x (by simp [hx]))
    generalize hG : rows nwt l clp (mid ++ [img])
      ⟨some (y - ⟨0, 0, e.tf.distance⟩ + t • u), some v, m.index l⟩ = G at *
    have hGne : G ≠ [] := by
      intro h; rw [h] at h3; simp at h3
    obtain ⟨g, G', rfl⟩ := List.exists_cons_of_ne_nil hGne
    have hb := back_step nwt l clp (pm := some pm) (n' := m.index l) (nb := n) (mu := m.index l / n) hCe hsh ha halt hin hg
      hv1 hvz hqc hvs (by simp [getNMu, hpm1, hpm2]) (div_pos hn' hn).ne' hback hd s
    rw [← hp] at hb
    have htail : (revAux (some pm) (e :: (mid ++ [img]))).tail =
        (revAux (some m) (mid ++ [img])).tail ++ [revElem e (headDist (mid ++ [img])) (some pm)] := by
      rw [revAux, hm1, List.tail_append_of_ne_nil]
      cases mid <;> simp [revAux]
    refine ⟨_, t, last, rfl, rfl, rfl, ?_, ?_, ?_, ?_, ?_, ?_, ?_⟩
    · simpa using h3
    · rw [htail, rows_concat, List.map_append, h4, h7]
      simp [rows, hb]
    · rw [htail, rows_concat, List.map_append, h5, h7]
      simp [rows, hb]
    · rw [htail, rows_concat, List.map_append, h6, h7]
      simp only [List.head?_cons, Option.map_some, Option.some.injEq] at h2
      simp [rows, hb, h2]
    · rw [htail, rows_concat, List.map_append, h8, h7]
      simp [rows, hb]
    · rw [htail, rows_concat, List.map_append, h9, h7]
      simp [rows, hb]
    · rw [htail]
      unfold endRay at h7 ⊢
      rw [List.foldl_append, h7]
      simp only [List.foldl_cons, List.foldl_nil, hb]
      rfl

/-! ## The property -/

/-- Real rays run backwards through the reversed system, rayopt/system.py 249-261 with 459-464.  `F` is the trace of a
ray from the object surface; the last of its rows, turned round, is traced through `System.reverse`.  It meets every
surface at the same point, takes the same optical path between any two, arrives at every surface in the direction in
which the first ray had left it, leaves it in the direction in which the first ray had come, and ends at the object
where the first ray began.  The surfaces are centred refracting conics with media of their own; the image surface has
none. -/
theorem c112_backwards (nwt : NewtonFn) (l : ℝ) (clp : Bool) {obj img : Elem} {mid : List Elem} {y0 u0 : V3} {n0 : ℝ}
    (hobj : RefractingConic obj l) (hn0 : MediumAfter obj l n0) (hmid : ∀ e ∈ mid, RefractingConic e l)
    (himg : Centred img) (hnone : img.mat = none)
    (hu : u0.dot u0 = 1) (hstart : Leaves obj y0 u0)
    (hside : ∀ sh, obj.shape = some sh → 0 ≤ u0.dot (quadricNormal sh.curvature sh.conic y0))
    (hin : clp = true → inside obj.radius y0)
    {F : List Row} (hF : F = Sys.propagate nwt (obj :: (mid ++ [img])) ⟨some y0, some u0, n0⟩ l 1 none clp)
    (hleave : ∀ (j : ℕ) (e : Elem) (x : Row), mid[j]? = some e → F[j]? = some x →
      ∃ y' u', x.y = some y' ∧ x.u = some u' ∧ Leaves e y' u')
    (hfin : ∀ x ∈ F, x.y ≠ none ∧ x.u ≠ none) :
    ∃ last, F.getLast? = some last ∧
      ∀ B, B = Sys.propagate nwt (reverse (obj :: (mid ++ [img])))
          ⟨last.y.map mirrorZ, last.u.map turnZ, last.n⟩ l 1 none clp →
        B.length = F.length ∧
        B.map (·.y) = ((some y0 :: F.map (·.y)).dropLast.reverse).map (Option.map mirrorZ) ∧
        B.map (·.t) = (F.map (·.t)).reverse ∧
        B.map (·.i) = ((some u0 :: F.map (·.u)).dropLast.reverse).map (Option.map turnZ) ∧
        B.map (·.u) = ((some u0 :: F.map (·.i)).dropLast.reverse).map (Option.map turnZ) ∧
        B.map (·.n) = (n0 :: n0 :: F.map (·.n)).dropLast.dropLast.reverse := by
  obtain ⟨m, hm1, hm2, hm3, hn⟩ := hn0
  have hC := hobj.centred
  obtain ⟨sh, hsh, hg, hz, hq⟩ := hstart
  obtain ⟨sh', hsh', ha, halt⟩ := hobj.conic
  rw [hsh] at hsh'
  obtain rfl : sh = sh' := Option.some.inj hsh'
  have hF' : F = rows nwt l clp (mid ++ [img]) ⟨some y0, some u0, n0⟩ := by
    rw [hF, Sys.propagate, pySlice_one, List.tail_cons]
  rw [hF'] at hleave hfin ⊢
  obtain ⟨p, s, last, hp, h1, h2, h3, h4, h5, h6, h8, h9, h7⟩ := back_rows nwt l clp himg hnone mid m y0 u0 n0 hm2 hm3
    hn hu hz hmid hleave hfin
  have hd : 0 ≤ headDist (mid ++ [img]) := by
    cases mid with
    | nil => simpa [headDist] using (c12_invariant himg.1).1
    | cons f mid => simpa [headDist] using (c12_invariant (hmid f (by simp)).centred.1).1
  have hb := back_step nwt l clp (pm := none) (n' := n0) (nb := n0) (mu := 1) (w := turnZ u0) hC hsh ha halt hin hg
    hu hz hq (hside sh hsh) rfl one_ne_zero (by simp [refract]) hd s
  rw [← hp] at hb
  refine ⟨last, h3, ?_⟩
  rintro B rfl
  have htail : (reverse (obj :: (mid ++ [img]))).tail =
      (revAux (some m) (mid ++ [img])).tail ++ [revElem obj (headDist (mid ++ [img])) none] := by
    rw [reverse_eq_revAux, revAux, hm1, List.tail_append_of_ne_nil]
    cases mid <;> simp [revAux]
  have hB : Sys.propagate nwt (reverse (obj :: (mid ++ [img])))
      ⟨last.y.map mirrorZ, last.u.map turnZ, last.n⟩ l 1 none clp =
      rows nwt l clp (revAux (some m) (mid ++ [img])).tail (backStart last) ++
        [⟨some (mirrorZ y0), some (turnZ u0), n0, some (turnZ u0), some (s * n0)⟩] := by
    rw [Sys.propagate, pySlice_one, htail]
    change rows nwt l clp _ (backStart last) = _
    rw [rows_concat, h7]
    simp [rows, hb]
  generalize hG : rows nwt l clp (mid ++ [img]) ⟨some y0, some u0, n0⟩ = G at *
  have hGne : G ≠ [] := by
    intro h; rw [h] at h3; simp at h3
  obtain ⟨g, G', rfl⟩ := List.exists_cons_of_ne_nil hGne
  have hlen := congrArg List.length h4
  simp only [List.map_cons, List.length_map, List.length_reverse, List.length_dropLast, List.length_cons,
    Nat.add_sub_cancel] at hlen
  simp only [List.head?_cons, Option.map_some, Option.some.injEq] at h2
  rw [hB]
  refine ⟨by simp [hlen], ?_, ?_, ?_, ?_, ?_⟩
  · rw [List.map_append, h4]; simp
  · rw [List.map_append, h6]; simp [h2]
  · rw [List.map_append, h9]; simp
  · rw [List.map_append, h5]; simp
  · rw [List.map_append, h8]; simp

/-- The reversed system has the same total optical path along the ray. -/
theorem c112_path (nwt : NewtonFn) (l : ℝ) (clp : Bool) {obj img : Elem} {mid : List Elem} {y0 u0 : V3} {n0 : ℝ}
    (hobj : RefractingConic obj l) (hn0 : MediumAfter obj l n0) (hmid : ∀ e ∈ mid, RefractingConic e l)
    (himg : Centred img) (hnone : img.mat = none)
    (hu : u0.dot u0 = 1) (hstart : Leaves obj y0 u0)
    (hside : ∀ sh, obj.shape = some sh → 0 ≤ u0.dot (quadricNormal sh.curvature sh.conic y0))
    (hin : clp = true → inside obj.radius y0)
    {F : List Row} (hF : F = Sys.propagate nwt (obj :: (mid ++ [img])) ⟨some y0, some u0, n0⟩ l 1 none clp)
    (hleave : ∀ (j : ℕ) (e : Elem) (x : Row), mid[j]? = some e → F[j]? = some x →
      ∃ y' u', x.y = some y' ∧ x.u = some u' ∧ Leaves e y' u')
    (hfin : ∀ x ∈ F, x.y ≠ none ∧ x.u ≠ none) :
    ∃ last, F.getLast? = some last ∧
      ((Sys.propagate nwt (reverse (obj :: (mid ++ [img])))
        ⟨last.y.map mirrorZ, last.u.map turnZ, last.n⟩ l 1 none clp).map (fun x => x.t.getD 0)).sum =
      (F.map (fun x => x.t.getD 0)).sum := by
  obtain ⟨last, h1, h2⟩ := c112_backwards nwt l clp hobj hn0 hmid himg hnone hu hstart hside hin hF hleave hfin
  refine ⟨last, h1, ?_⟩
  obtain ⟨-, -, h3, -⟩ := h2 _ rfl
  have := congrArg (fun L : List (Option ℝ) => (L.map (Option.getD · 0)).sum) h3
  simpa [List.map_map, Function.comp_def, List.sum_reverse] using this

/-! ### A ray through a spherical surface -/

/-- A glass in which light that arrives with sine 3/5 goes on with sine 5/13. -/
noncomputable def crown : Material := ⟨false, true, fun _ => 39 / 25⟩

theorem surf_cen (d c : ℝ) (m : Option Material) (hd : 0 ≤ d) : Centred (surf d c m) := by
  have hang : (Transform.init d ez 0 none).angles = 0 := Transform.update_angles _ _ _
  refine ⟨⟨d, ez, 0, none, [], rfl⟩, ?_, by simp [surf, hang]⟩
  simp only [surf, Transform.init, update_direction, updDir_of_unit ez_dot, if_neg (not_lt.mpr hd)]

theorem surf_conic (d c : ℝ) (m : Material) (hd : 0 ≤ d) (hm : m.mirror = false) {l : ℝ} (hi : 0 < m.index l) :
    RefractingConic (surf d c (some m)) l :=
  ⟨surf_cen d c _ hd, ⟨_, m, rfl, hm, rfl, hi⟩, _, rfl, rfl, rfl⟩

/-- The first ray: parallel to the axis at the height 3/5, onto a sphere of radius one, then a plane. -/
theorem ball_rows (nwt : NewtonFn) (l : ℝ) :
    rows nwt l true ([surf 1 1 (some crown)] ++ [surf 1 0 none]) ⟨some ⟨0, 3/5, 0⟩, some ez, 1⟩ =
      [⟨some ⟨0, 3/5, 1/5⟩, some ⟨0, -16/65, 63/65⟩, 39/25, some ez, some (6/5)⟩,
       ⟨some ⟨0, 3/5 - 52/63 * (16/65), 0⟩, some ⟨0, -16/65, 63/65⟩, 39/25, some ⟨0, -16/65, 63/65⟩,
        some (52/63 * (39/25))⟩] := by
  have h1 : step nwt l true (surf 1 1 (some crown)) ⟨some ⟨0, 3/5, 0⟩, some ez, 1⟩ =
      (⟨some ⟨0, 3/5, 1/5⟩, some ⟨0, -16/65, 63/65⟩, 39/25, some ez, some (6/5)⟩,
        ⟨some ⟨0, 3/5, 1/5⟩, some ⟨0, -16/65, 63/65⟩, 39/25⟩) := by
    rw [step_centred nwt l true (surf_cen 1 1 _ zero_le_one), surf_dist zero_le_one]
    have hp : (⟨0, 3/5, 0⟩ : V3) - ⟨0, 0, 1⟩ + (6/5 : ℝ) • ez = ⟨0, 3/5, 1/5⟩ := by ext <;> simp [ez]; norm_num
    have ht : (⟨1, 0, none, false⟩ : Shape).intercept nwt ((⟨0, 3/5, 0⟩ : V3) - ⟨0, 0, 1⟩) ez = some (6/5) := by
      apply intercept_of_side nwt rfl rfl ez_dot (by simp [ez])
      · intro _; simp [quadCoeff, ez]
      · rw [hp]; simp only [OnQuadric]; norm_num
      · intro _; rw [hp]; simp only [quadricNormal, dot, ez]; norm_num
    have := propagate_conic_of nwt (e := surf 1 1 (some crown)) (clp := true) (l := l) (n := 1) (n' := 39/25)
      (mu := 1 / (39/25)) (v := ⟨0, -16/65, 63/65⟩) rfl rfl rfl (by norm_num) ht
      (by intro _; rw [hp]; simp only [surf, inside]; norm_num) (by
        rw [hp]
        have hr : (⟨1, 0, none, false⟩ : Shape).surfaceNormal ⟨0, 3/5, 1/5⟩ = some ⟨0, -3/4, 1⟩ := by
          simp only [Shape.surfaceNormal, rsq]
          norm_num
          rw [show (25 : ℝ) = 5 ^ 2 by norm_num, show (16 : ℝ) = 4 ^ 2 by norm_num, Real.sqrt_sq (by norm_num),
            Real.sqrt_sq (by norm_num)]
          norm_num
        simp only [refract, Option.bind_some, hr]
        rw [if_neg (by norm_num), c02_snell one_pos (by norm_num) (by intro h; simpa using congrArg V3.z h) ez_dot
          (by simp [dot, ez])]
        refine ⟨by norm_num [dot], ?_, by norm_num [dot]⟩
        ext <;> norm_num [cross, ez])
    simp only [this, hp]
    norm_num
  have h2 : step nwt l true (surf 1 0 none) ⟨some ⟨0, 3/5, 1/5⟩, some ⟨0, -16/65, 63/65⟩, 39/25⟩ =
      (⟨some ⟨0, 3/5 - 52/63 * (16/65), 0⟩, some ⟨0, -16/65, 63/65⟩, 39/25, some ⟨0, -16/65, 63/65⟩,
        some (52/63 * (39/25))⟩,
        ⟨some ⟨0, 3/5 - 52/63 * (16/65), 0⟩, some ⟨0, -16/65, 63/65⟩, 39/25⟩) := by
    rw [step_centred nwt l true (surf_cen 1 0 _ zero_le_one), surf_dist zero_le_one]
    have hp : (⟨0, 3/5, 1/5⟩ : V3) - ⟨0, 0, 1⟩ + (52/63 : ℝ) • (⟨0, -16/65, 63/65⟩ : V3) =
        ⟨0, 3/5 - 52/63 * (16/65), 0⟩ := by ext <;> norm_num
    have ht : (⟨0, 0, none, false⟩ : Shape).intercept nwt ((⟨0, 3/5, 1/5⟩ : V3) - ⟨0, 0, 1⟩) ⟨0, -16/65, 63/65⟩ =
        some (52/63) := by
      simp only [Shape.intercept, interceptConic, interceptPlane]
      norm_num
    have := propagate_conic_of nwt (e := surf 1 0 none) (clp := true) (l := l) (n := 39/25) (n' := 39/25)
      (mu := 1) (v := ⟨0, -16/65, 63/65⟩) rfl rfl rfl one_ne_zero ht
      (by intro _; rw [hp]; simp only [surf, inside]; norm_num) (by simp [refract])
    simp only [this, hp]
  simp only [List.singleton_append, rows, h1, h2]

/-- The hypotheses of `c112_backwards` hold for that ray, and the ray that comes back out is parallel to the axis. -/
example (nwt : NewtonFn) (l : ℝ) : ∃ B, B = Sys.propagate nwt
      (reverse [surf 0 0 (some vacuum), surf 1 1 (some crown), surf 1 0 none])
      ⟨some ⟨0, 3/5 - 52/63 * (16/65), -0⟩, some ⟨-0, -(-16/65), 63/65⟩, 39/25⟩ l 1 none true ∧
    B.map (·.y) = [some ⟨0, 3/5, -(1/5)⟩, some ⟨0, 3/5, -0⟩] ∧
    B.map (·.u) = [some ⟨-0, -0, 1⟩, some ⟨-0, -0, 1⟩] := by
  have hF : Sys.propagate nwt (surf 0 0 (some vacuum) :: ([surf 1 1 (some crown)] ++ [surf 1 0 none]))
      ⟨some ⟨0, 3/5, 0⟩, some ez, 1⟩ l 1 none true =
      [⟨some ⟨0, 3/5, 1/5⟩, some ⟨0, -16/65, 63/65⟩, 39/25, some ez, some (6/5)⟩,
       ⟨some ⟨0, 3/5 - 52/63 * (16/65), 0⟩, some ⟨0, -16/65, 63/65⟩, 39/25, some ⟨0, -16/65, 63/65⟩,
        some (52/63 * (39/25))⟩] := by
    rw [Sys.propagate, pySlice_one, List.tail_cons, ball_rows]
  obtain ⟨last, h1, h2⟩ := c112_backwards nwt l true (obj := surf 0 0 (some vacuum)) (mid := [surf 1 1 (some crown)])
    (img := surf 1 0 none) (y0 := ⟨0, 3/5, 0⟩) (u0 := ez) (n0 := 1)
    (surf_conic 0 0 vacuum le_rfl rfl one_pos) ⟨vacuum, rfl, rfl, rfl, one_pos⟩
    (by
      intro e he
      rw [List.mem_singleton.mp he]
      exact surf_conic 1 1 crown zero_le_one rfl (by norm_num [crown]))
    (surf_cen 1 0 none zero_le_one) rfl ez_dot
    ⟨_, rfl, ⟨by norm_num, by norm_num⟩, by norm_num [ez], fun h => absurd rfl h⟩
    (by
      intro sh h
      cases h
      simp [quadricNormal, dot, ez])
    (by intro _; simp only [surf, inside]; norm_num) hF.symm
    (by
      intro j e x hj hx
      rcases j with _ | j
      · simp only [List.getElem?_cons_zero, Option.some.injEq] at hj hx
        subst hj hx
        refine ⟨_, _, rfl, rfl, _, rfl, ⟨by norm_num, ?_⟩, by norm_num, fun _ => by norm_num [quadCoeff]⟩
        norm_num
        rw [show (25 : ℝ) = 5 ^ 2 by norm_num, show (16 : ℝ) = 4 ^ 2 by norm_num, Real.sqrt_sq (by norm_num),
          Real.sqrt_sq (by norm_num)]
        norm_num
      · simp at hj)
    (by
      intro x hx
      simp only [List.mem_cons, List.not_mem_nil, or_false] at hx
      rcases hx with rfl | rfl <;> exact ⟨by simp, by simp⟩)
  simp only [List.getLast?_cons_cons, List.getLast?_singleton, Option.some.injEq] at h1
  subst h1
  obtain ⟨-, h3, -, -, h4, -⟩ := h2 _ rfl
  refine ⟨_, rfl, ?_, ?_⟩
  · simpa [mirrorZ, turnZ] using h3
  · simpa [mirrorZ, turnZ, ez] using h4

/-! ### Mirrors -/

/-- A plane mirror in front of the image. -/
noncomputable def mirrorSystem : List Elem := [surf 0 0 (some vacuum), surf 1 0 (some mirrorMaterial), surf 1 0 none]

/-- C112 fails for mirrors: `System.reverse` gives the mirror to the next surface (here the image, where the rays
start), so the ray that comes back is not reflected and never leaves the direction it started in. -/
theorem c112_mirror_violation (nwt : NewtonFn) (l : ℝ) :
    ∃ F last B, F = Sys.propagate nwt mirrorSystem ⟨some 0, some ez, 1⟩ l 1 none true ∧ F.getLast? = some last ∧
      B = Sys.propagate nwt (reverse mirrorSystem) ⟨last.y.map mirrorZ, last.u.map turnZ, last.n⟩ l 1 none true ∧
      F.map (·.i) = [some ez, some (-ez)] ∧ F.map (·.u) = [some (-ez), some (-ez)] ∧
      B.map (·.i) = [some (-ez), some (-ez)] ∧ B.map (·.u) = [some (-ez), some (-ez)] ∧
      B.map (·.u) ≠ ((some ez :: F.map (·.i)).dropLast.reverse).map (Option.map turnZ) := by
  have hne : (-ez : V3) ≠ ez := fun h => by have := congrArg V3.z h; simp [ez] at this; norm_num at this
  have hplane : ∀ (y u : V3) (n n' mu d : ℝ) (m : Option Material) (v : V3), 0 ≤ d → y.x = 0 → y.y = 0 → u.x = 0 →
      u.y = 0 → u.z ≠ 0 → getNMu m n l = (n', mu) → mu ≠ 0 →
      refract ⟨0, 0, none, false⟩ (some (y - ⟨0, 0, d⟩ + ((d - y.z) / u.z) • u)) (some u) mu = some v →
      step nwt l true (surf d 0 m) ⟨some y, some u, n⟩ =
        (⟨some 0, some v, n', some u, some ((d - y.z) / u.z * n)⟩, ⟨some 0, some v, n'⟩) := by
    intro y u n n' mu d m v hd hx hy hux huy hz hmu h0 hv
    rw [step_centred nwt l true (surf_cen d 0 _ hd), surf_dist hd]
    have hp : y - ⟨0, 0, d⟩ + ((d - y.z) / u.z) • u = 0 := by
      ext <;> simp [hx, hy, hux, huy]
      field_simp; ring
    have ht : (⟨0, 0, none, false⟩ : Shape).intercept nwt (y - ⟨0, 0, d⟩) u = some ((d - y.z) / u.z) := by
      simp only [Shape.intercept, interceptConic, if_true, interceptPlane, hz, if_false, Option.some.injEq, sub_z]
      ring
    have := propagate_conic_of nwt (e := surf d 0 m) (clp := true) (l := l) (n := n) (n' := n') (mu := mu) (v := v)
      rfl rfl hmu h0 ht (by intro _; rw [hp]; simp [surf, inside]) hv
    simp only [this, hp]
  have hrefl : ∀ p : V3, refract ⟨0, 0, none, false⟩ (some p) (some ez) (-1) = some (-ez) := by
    intro p
    simp only [refract, Option.bind_some, Shape.surfaceNormal, and_self, if_true, refractAt]
    norm_num [ez, dot]
    ext <;> norm_num
  have h1 := hplane 0 ez 1 1 (-1) 1 (some mirrorMaterial) (-ez) zero_le_one rfl rfl rfl rfl (by simp [ez]) rfl
    (by norm_num) (hrefl _)
  have h2 := hplane 0 (-ez) 1 1 1 1 none (-ez) zero_le_one rfl rfl (by simp [ez]) (by simp [ez]) (by simp [ez]) rfl
    one_ne_zero (by simp [refract])
  have h3 := hplane 0 (-ez) 1 1 1 1 (some vacuum) (-ez) zero_le_one rfl rfl (by simp [ez]) (by simp [ez]) (by simp [ez])
    (by simp [getNMu, vacuum]) one_ne_zero (by simp [refract])
  have hrev : reverse mirrorSystem = [surf 0 0 (some mirrorMaterial), surf 1 0 (some vacuum), surf 1 0 none] := by
    rw [reverse_eq_revAux]
    simp only [mirrorSystem, revAux, headDist, List.head?_cons, Option.map_some, Option.getD_some,
      List.head?_nil, Option.map_none, Option.getD_none, surf_dist zero_le_one,
      revElem_surf zero_le_one, revElem_surf le_rfl, List.nil_append, List.cons_append, neg_zero]
    rfl
  have hF : Sys.propagate nwt mirrorSystem ⟨some 0, some ez, 1⟩ l 1 none true =
      [⟨some 0, some (-ez), 1, some ez, some ((1 - (0 : V3).z) / ez.z * 1)⟩,
       ⟨some 0, some (-ez), 1, some (-ez), some ((1 - (0 : V3).z) / (-ez).z * 1)⟩] := by
    rw [Sys.propagate, pySlice_one, mirrorSystem, List.tail_cons]
    simp only [rows, h1, h2]
  have hm0 : mirrorZ 0 = 0 := by ext <;> simp [mirrorZ]
  have ht0 : turnZ (-ez) = -ez := by ext <;> simp [turnZ, ez]
  have hB : Sys.propagate nwt (reverse mirrorSystem) ⟨some 0, some (-ez), 1⟩ l 1 none true =
      [⟨some 0, some (-ez), 1, some (-ez), some ((1 - (0 : V3).z) / (-ez).z * 1)⟩,
       ⟨some 0, some (-ez), 1, some (-ez), some ((1 - (0 : V3).z) / (-ez).z * 1)⟩] := by
    rw [Sys.propagate, pySlice_one, hrev, List.tail_cons]
    simp only [rows, h3, h2]
  refine ⟨_, ⟨some 0, some (-ez), 1, some (-ez), some ((1 - (0 : V3).z) / (-ez).z * 1)⟩,
    [⟨some 0, some (-ez), 1, some (-ez), some ((1 - (0 : V3).z) / (-ez).z * 1)⟩,
     ⟨some 0, some (-ez), 1, some (-ez), some ((1 - (0 : V3).z) / (-ez).z * 1)⟩], hF.symm, rfl, ?_, rfl, rfl,
    rfl, rfl, ?_⟩
  · simp only [Option.map_some, hm0, ht0]
    exact hB.symm
  · have hte : turnZ ez = ez := by ext <;> simp [turnZ, ez]
    simp [hte, hne]

/-! ## The stop and the conjugates of the reversed system -/

/-- `System.reverse` exchanges the object and the image. -/
theorem c22_conjugates {C : Type} (s : Whole C) : s.reverse.object = s.image ∧ s.reverse.image = s.object ∧
    s.reverse.elems.length = s.elems.length := by
  refine ⟨rfl, rfl, ?_⟩
  simp [Whole.reverse, Sys.reverse]

/-- After `System.reverse` the stop number is what it was, and the aperture is the turned element at the mirrored
place: the number has not been mirrored with the elements. -/
theorem c22_stop {C : Type} (s : Whole C) (k : ℕ) (hk : k < s.elems.length)
    (hs : s.stop = k ∨ s.stop = (k : ℤ) - s.elems.length) :
    s.aperture = s.elems[k]? ∧
    ∃ e, s.elems[s.elems.length - 1 - k]? = some e ∧
      s.reverse.aperture.map (fun x => (x.shape, x.radius)) = some (e.shape.map flipShape, e.radius) := by
  have hap : ∀ es : List Elem, ∀ a b : C, es.length = s.elems.length → (⟨es, s.stop, a, b⟩ : Whole C).aperture = es[k]? := by
    intro es a b hl
    unfold Whole.aperture
    rcases hs with h | h
    · simp [h]
    · simp only [h, hl]
      rw [if_neg (by omega), if_pos (by omega)]
      congr 1
      omega
  refine ⟨hap s.elems s.object s.image rfl, ?_⟩
  obtain ⟨e, he⟩ : ∃ e, s.elems[s.elems.length - 1 - k]? = some e :=
    ⟨_, List.getElem?_eq_getElem (by omega)⟩
  refine ⟨e, he, ?_⟩
  rw [show s.reverse.aperture = (Sys.reverse s.elems)[k]? from hap _ _ _ (by simp [Sys.reverse]),
    reverse_get s.elems k hk e he]
  have hf : Shape.reverse = flipShape := by
    funext sh
    simp [Shape.reverse, flipShape]
  simp only [Option.map_some, Elem.reverse, hf]

/-- The stop stays with its surface when it is the middle one of an odd number. -/
theorem c22_stop_middle {C : Type} (s : Whole C) (k : ℕ) (hk : s.elems.length = 2 * k + 1) (hs : s.stop = k) :
    ∃ e, s.aperture = some e ∧
      s.reverse.aperture.map (fun x => (x.shape, x.radius)) = some (e.shape.map flipShape, e.radius) := by
  obtain ⟨h1, e, h2, h3⟩ := c22_stop s k (by omega) (Or.inl hs)
  rw [show s.elems.length - 1 - k = k by omega] at h2
  exact ⟨e, h1.trans h2, h3⟩

/-- C22 fails for the stop: the aperture of the reversed system is another surface unless the stop was in the middle. -/
theorem c22_stop_violation : ∃ (s : Whole Unit) (e e' : Elem), s.aperture = some e ∧ s.reverse.aperture = some e' ∧
    e.radius = .fin 1 ∧ e'.radius = .fin 2 := by
  let s : Whole Unit := ⟨[surf 0 0 none, surf 1 0 none, { surf 1 0 none with radius := .fin 2 }, surf 1 0 none], 1, (), ()⟩
  obtain ⟨h1, e, h2, h3⟩ := c22_stop s 1 (by simp [s]) (Or.inl rfl)
  simp only [s, List.length_cons, List.length_nil, Nat.reduceAdd, Nat.reduceSub, List.getElem?_cons_succ,
    List.getElem?_cons_zero, Option.some.injEq] at h1 h2
  rw [Option.map_eq_some_iff] at h3
  obtain ⟨e', h4, h5⟩ := h3
  refine ⟨s, _, e', h1, h4, rfl, ?_⟩
  subst h2
  exact congrArg Prod.snd h5

end RayOpt
