import Verif.Model.System
import Verif.Lemmas.Trace
import Verif.Lemmas.Surface
import Verif.Props.Placement

/-!
Equivariance of the ray tracing step under scaling and under rotations about the axis.
-/

namespace RayOpt

open V3 Elem Sys Shape Transform

/-! ## Generic lifting of a symmetry of one step to whole traces -/

section Lift

variable {nwt : NewtonFn} {l : ℝ} {clp : Bool} {f : Row → Row} {g : Ray → Ray} {φ : Elem → Elem}

theorem rows_equivariant {es : List Elem}
    (hstep : ∀ e ∈ es, ∀ r, step nwt l clp (φ e) (g r)
      = (f (step nwt l clp e r).1, g (step nwt l clp e r).2)) (r : Ray) :
    rows nwt l clp (es.map φ) (g r) = (rows nwt l clp es r).map f := by
  induction es generalizing r with
  | nil => rfl
  | cons e es ih =>
    simp only [rows, List.map_cons]
    rw [hstep e (by simp)]
    rw [ih (fun e he => hstep e (by simp [he]))]

theorem writeRows_map {α β : Type*} (f : α → β) (arr : List α) (s : ℕ) (xs : List α) :
    writeRows (arr.map f) s (xs.map f) = (writeRows arr s xs).map f := by
  induction xs generalizing arr s with
  | nil => rfl
  | cons x xs ih =>
    simp only [writeRows, List.map_cons]
    rw [← List.map_set, ih]

theorem pySlice_map {α β : Type*} (f : α → β) (xs : List α) (a : ℤ) (b : Option ℤ) :
    pySlice (xs.map f) a b = (pySlice xs a b).map f := by
  unfold pySlice
  simp [List.map_take, List.map_drop]

theorem mem_pySlice {α : Type*} {xs : List α} {a : ℤ} {b : Option ℤ} {x : α}
    (h : x ∈ pySlice xs a b) : x ∈ xs :=
  List.mem_of_mem_take (List.mem_of_mem_drop h)

theorem gtPropagate_equivariant {sys : List Elem}
    (hstep : ∀ e ∈ sys, ∀ r, step nwt l clp (φ e) (g r)
      = (f (step nwt l clp e r).1, g (step nwt l clp e r).2))
    (hray : ∀ e ∈ sys, ∀ x, rayOfRow (φ e) (f x) = g (rayOfRow e x))
    (start : ℕ) (stop : Option ℤ) (arr : List Row) :
    gtPropagate nwt (sys.map φ) l clp start stop (arr.map f)
      = (gtPropagate nwt sys l clp start stop arr).map (·.map f) := by
  unfold gtPropagate
  rw [List.getElem?_map, List.getElem?_map]
  cases he : sys[start - 1]? with
  | none => rfl
  | some e =>
    cases hr : arr[start - 1]? with
    | none => rfl
    | some x =>
      simp only [Option.map_some]
      rw [hray e (List.mem_of_getElem? he)]
      unfold Sys.propagate
      rw [pySlice_map, rows_equivariant (fun e he => hstep e (mem_pySlice he)), writeRows_map]

end Lift

/-! ## Scaling -/

/-- A row scaled by `s`: positions and paths scale, directions and indices do not. -/
noncomputable def scaleRow (s : ℝ) (r : Row) : Row :=
  ⟨r.y.map (s • ·), r.u, r.n, r.i, r.t.map (s * ·)⟩

/-- A ray scaled by `s`. -/
noncomputable def scaleRay (s : ℝ) (r : Ray) : Ray := ⟨r.y.map (s • ·), r.u, r.n⟩

theorem updDir_nonneg_updDir {d : ℝ} (hd : 0 ≤ d) (d0 : ℝ) (v : V3) :
    updDir d (updDir d0 v) = updDir d0 v := by
  rw [updDir_of_unit (updDir_unit d0 v), if_neg (not_lt.mpr hd)]

theorem rescale_tf {t : Transform} (h : Reachable t) {s : ℝ} (hs : 0 < s) :
    (t.setDistance (t.distance * s)).offset = s • t.offset ∧
    (t.setDistance (t.distance * s)).rotNormal = t.rotNormal ∧
    (t.setDistance (t.distance * s)).rotAxis = t.rotAxis := by
  have h1 := c12_distance h (t.distance * s)
  have h2 := c12_invariant h
  refine ⟨?_, ?_, ?_⟩
  · rw [h1.1, h2.2.2]; ext <;> simp <;> ring
  · obtain ⟨d, v, a, rfl⟩ := h.is_update
    have : (0 : ℝ) ≤ (update d v a).distance * s := mul_nonneg h2.1 hs.le
    unfold setDistance
    rw [update_rotNormal, update_direction, update_angles, updDir_nonneg_updDir this,
      update_rotNormal]
  · obtain ⟨d, v, a, rfl⟩ := h.is_update
    have : (0 : ℝ) ≤ (update d v a).distance * s := mul_nonneg h2.1 hs.le
    unfold setDistance
    rw [update_rotAxis, update_direction, updDir_nonneg_updDir this, update_rotAxis]

theorem aspSag_rescale {s : ℝ} (hs : s ≠ 0) (ρ : ℝ) (l : List ℝ) (n : ℕ) :
    aspSag (s ^ 2 * ρ) ((l.zipIdx n).map fun ai => ai.1 / s ^ (2 * ai.2 + 1))
      = aspSag ρ l * s / s ^ (2 * n) := by
  induction l generalizing n with
  | nil => simp [aspSag]
  | cons a l ih =>
    simp only [List.zipIdx_cons, List.map_cons, aspSag_cons, ih]
    have : s ^ (2 * (n + 1)) = s ^ (2 * n) * s ^ 2 := by ring
    rw [this, pow_succ]
    field_simp
    ring

theorem aspSlope_rescale {s : ℝ} (hs : s ≠ 0) (ρ : ℝ) (l : List ℝ) (n : ℕ) :
    aspSlopeFrom (s ^ 2 * ρ) n ((l.zipIdx n).map fun ai => ai.1 / s ^ (2 * ai.2 + 1))
      = aspSlopeFrom ρ n l / s ^ (2 * n + 1) := by
  induction l generalizing n with
  | nil => simp [aspSlopeFrom]
  | cons a l ih =>
    simp only [List.zipIdx_cons, List.map_cons, aspSlopeFrom_cons, ih]
    have : s ^ (2 * (n + 1) + 1) = s ^ (2 * n + 1) * s ^ 2 := by ring
    rw [this]
    field_simp

theorem rsq_smul (s : ℝ) (p : V3) : rsq (s • p) = s ^ 2 * rsq p := by
  simp [rsq]; ring

theorem rescale_curv_zero {s : ℝ} (hs : s ≠ 0) (sh : Shape) :
    (sh.rescale s).curvature = 0 ↔ sh.curvature = 0 := by
  simp [Shape.rescale, hs]

theorem rescale_asph_none (s : ℝ) (sh : Shape) :
    (sh.rescale s).aspherics = none ↔ sh.aspherics = none := by
  simp [Shape.rescale]

theorem rescale_asph_nil (s : ℝ) (sh : Shape) :
    (sh.rescale s).aspherics = some [] ↔ sh.aspherics = some [] := by
  cases h : sh.aspherics with
  | none => simp [Shape.rescale, h]
  | some l => cases l <;> simp [Shape.rescale, h, rescaleAsph, List.zipIdx_cons]

theorem rescale_sqrt_arg {s : ℝ} (hs : s ≠ 0) (sh : Shape) (p : V3) :
    1 - (1 + (sh.rescale s).conic) * (sh.rescale s).curvature ^ 2 * rsq (s • p)
      = 1 - (1 + sh.conic) * sh.curvature ^ 2 * rsq p := by
  rw [rsq_smul]; simp only [Shape.rescale]; field_simp

theorem surfaceSag_rescale {s : ℝ} (hs : 0 < s) (sh : Shape) (p : V3) :
    (sh.rescale s).surfaceSag (s • p) = (sh.surfaceSag p).map (s * ·) := by
  have hs0 := hs.ne'
  unfold surfaceSag
  simp only [ne_eq, rescale_curv_zero hs0, rescale_asph_none, rescale_sqrt_arg hs0, smul_z]
  by_cases h1 : sh.curvature = 0 ∧ sh.aspherics = none
  · simp [h1]
  · rw [if_neg h1, if_neg h1]
    generalize hq : 1 - (1 + sh.conic) * sh.curvature ^ 2 * rsq p = q
    have hasp : ∀ l, aspSag (rsq (s • p)) (rescaleAsph s l) = s * aspSag (rsq p) l := by
      intro l
      have := aspSag_rescale hs0 (rsq p) l 0
      rw [rsq_smul]; unfold rescaleAsph
      rw [this]; simp; ring
    have hc : (sh.rescale s).curvature * rsq (s • p) = s * (sh.curvature * rsq p) := by
      rw [rsq_smul]; simp only [Shape.rescale]; field_simp
    rw [hc]
    have ha : (sh.rescale s).aspherics = sh.aspherics.map (rescaleAsph s) := rfl
    rw [ha]
    by_cases hc0 : sh.curvature = 0
    · simp only [hc0, not_true_eq_false, if_false]
      cases sh.aspherics with
      | none => simp
      | some l => simp [hasp]; ring
    · simp only [hc0, not_false_eq_true, if_true]
      by_cases hq0 : q < 0
      · simp only [hq0, if_true]
        cases sh.aspherics <;> simp
      · simp only [hq0, if_false]
        have : 1 + √q ≠ 0 := by positivity
        cases sh.aspherics with
        | none => simp; ring
        | some l => simp [hasp]; ring

theorem surfaceNormal_rescale {s : ℝ} (hs : 0 < s) (sh : Shape) (p : V3) :
    (sh.rescale s).surfaceNormal (s • p) = sh.surfaceNormal p := by
  have hs0 := hs.ne'
  unfold surfaceNormal
  simp only [ne_eq, rescale_curv_zero hs0, rescale_asph_none, rescale_asph_nil,
    rescale_sqrt_arg hs0]
  by_cases h1 : sh.curvature = 0 ∧ sh.aspherics = none
  · simp [h1]
  · rw [if_neg h1, if_neg h1]
    by_cases h2 : sh.curvature = 0 ∧ sh.aspherics = some []
    · rw [if_pos h2, if_pos h2]
    · rw [if_neg h2, if_neg h2]
      generalize hq : 1 - (1 + sh.conic) * sh.curvature ^ 2 * rsq p = q
      have hasp : ∀ l, aspSlope (rsq (s • p)) (rescaleAsph s l) = aspSlope (rsq p) l / s := by
        intro l
        have := aspSlope_rescale hs0 (rsq p) l 0
        rw [rsq_smul]; unfold rescaleAsph
        have e1 : ∀ ρ l, aspSlope ρ l = aspSlopeFrom ρ 0 l := fun _ _ => rfl
        rw [e1, this, e1]; simp
      have ha : (sh.rescale s).aspherics = sh.aspherics.map (rescaleAsph s) := rfl
      have hc : (sh.rescale s).curvature = sh.curvature / s := rfl
      rw [ha, hc]
      by_cases hc0 : sh.curvature = 0
      · simp only [hc0, not_true_eq_false, if_false]
        cases sh.aspherics with
        | none => simp
        | some l => simp [hasp]; constructor <;> field_simp
      · simp only [hc0, not_false_eq_true, if_true]
        by_cases hq0 : q ≤ 0
        · simp only [hq0, if_true]
          cases sh.aspherics <;> simp
        · simp only [hq0, if_false]
          have : √q ≠ 0 := (Real.sqrt_pos.mpr (not_le.mp hq0)).ne'
          cases sh.aspherics with
          | none => simp; constructor <;> field_simp
          | some l => simp [hasp]; constructor <;> field_simp

theorem interceptPlane_smul (s : ℝ) (y u : V3) :
    interceptPlane (s • y) u = (interceptPlane y u).map (s * ·) := by
  unfold interceptPlane
  by_cases h : u.z = 0
  · simp [h]
  · simp [h]; ring

theorem interceptConic_rescale {s : ℝ} (hs : 0 < s) (sh : Shape) (y u : V3) :
    (sh.rescale s).interceptConic (s • y) u = (sh.interceptConic y u).map (s * ·) := by
  have hs0 := hs.ne'
  unfold interceptConic
  simp only [rescale_curv_zero hs0]
  by_cases h1 : sh.curvature = 0
  · simp only [h1, if_true]; exact interceptPlane_smul s y u
  · simp only [h1, if_false]
    have hc : (sh.rescale s).curvature = sh.curvature / s := rfl
    have hk : (sh.rescale s).conic = sh.conic := rfl
    have hal : (sh.rescale s).alternate = sh.alternate := rfl
    rw [hc, hk, hal]
    have e1 : (if sh.conic = 0 then u.dot (s • y) else
          u.x * (s • y).x + u.y * (s • y).y + u.z * (s • y).z * (1 + sh.conic))
        = s * (if sh.conic = 0 then u.dot y else
          u.x * y.x + u.y * y.y + u.z * y.z * (1 + sh.conic)) := by
      split <;> simp [V3.dot] <;> ring
    have e2 : (if sh.conic = 0 then (s • y).x ^ 2 + (s • y).y ^ 2 + (s • y).z ^ 2 else
          (s • y).x ^ 2 + (s • y).y ^ 2 + (s • y).z ^ 2 * (1 + sh.conic))
        = s ^ 2 * (if sh.conic = 0 then y.x ^ 2 + y.y ^ 2 + y.z ^ 2 else
          y.x ^ 2 + y.y ^ 2 + y.z ^ 2 * (1 + sh.conic)) := by
      split <;> simp <;> ring
    rw [e1, e2]
    generalize (if sh.conic = 0 then u.dot y else
          u.x * y.x + u.y * y.y + u.z * y.z * (1 + sh.conic)) = uy
    generalize (if sh.conic = 0 then y.x ^ 2 + y.y ^ 2 + y.z ^ 2 else
          y.x ^ 2 + y.y ^ 2 + y.z ^ 2 * (1 + sh.conic)) = yy
    generalize (if sh.conic = 0 then 1 else u.x ^ 2 + u.y ^ 2 + u.z ^ 2 * (1 + sh.conic)) = uu
    have e3 : sh.curvature / s * (s * uy) - u.z = sh.curvature * uy - u.z := by field_simp
    have e4 : sh.curvature / s * uu * (sh.curvature / s * (s ^ 2 * yy) - 2 * (s • y).z)
        = sh.curvature * uu * (sh.curvature * yy - 2 * y.z) := by
      simp only [smul_z]; field_simp
    rw [e3, e4]
    generalize hd : sh.curvature * uy - u.z = d
    generalize hD : d ^ 2 - sh.curvature * uu * (sh.curvature * yy - 2 * y.z) = D
    by_cases h2 : D < 0
    · simp [h2]
    · simp only [h2, if_false]
      have e5 : sh.curvature / s * uu = 0 ↔ sh.curvature * uu = 0 := by simp [hs0]
      simp only [e5]
      by_cases h3 : sh.curvature * uu = 0
      · simp [h3]
      · simp only [h3, if_false, Option.map_some]
        have h4 : uu ≠ 0 := fun h => h3 (by rw [h, mul_zero])
        congr 1
        field_simp

/-- The root finder treats a problem scaled in the path length like the original one.  True of
Newton's method run for a fixed number of steps; scipy's absolute step tolerance `1e-7` breaks it
below that tolerance. -/
def NewtonScales (nwt : NewtonFn) (s : ℝ) : Prop :=
  ∀ f f' x, nwt (fun t => (f (t / s)).map (s * ·)) (fun t => f' (t / s)) (s * x)
    = (nwt f f' x).map (s * ·)

theorem interceptNewton_rescale {nwt : NewtonFn} {s : ℝ} (hs : 0 < s) (hn : NewtonScales nwt s)
    (sh : Shape) (y u : V3) :
    (sh.rescale s).interceptNewton nwt (s • y) u = (sh.interceptNewton nwt y u).map (s * ·) := by
  have hs0 := hs.ne'
  unfold interceptNewton
  rw [interceptPlane_smul]
  cases interceptPlane y u with
  | none => rfl
  | some x0 =>
    simp only [Option.map_some, Option.bind_some]
    rw [← hn]
    have e : ∀ t : ℝ, s • y + t • u = s • (y + (t / s) • u) := by
      intro t; ext <;> simp <;> field_simp
    congr 1
    · funext t
      rw [e, surfaceSag_rescale hs]
    · funext t
      rw [e, surfaceNormal_rescale hs]

theorem elem_intercept_rescale {nwt : NewtonFn} {s : ℝ} (hs : 0 < s) (e : Elem)
    (hn : NewtonScales nwt s ∨ ∀ sh, e.shape = some sh → sh.aspherics = none) (y u : V3) :
    (e.rescale s).intercept nwt (s • y) u = (e.intercept nwt y u).map (s * ·) := by
  unfold Elem.intercept
  cases hsh : e.shape with
  | none => simp [Elem.rescale, hsh]; exact interceptPlane_smul s y u
  | some sh =>
    simp only [Elem.rescale, hsh, Option.map_some]
    unfold Shape.intercept
    have ha : (sh.rescale s).aspherics = sh.aspherics.map (rescaleAsph s) := rfl
    rw [ha]
    cases hasp : sh.aspherics with
    | none => exact interceptConic_rescale hs sh y u
    | some l =>
      rcases hn with hn | hn
      · exact interceptNewton_rescale hs hn sh y u
      · rw [hn sh hsh] at hasp; cases hasp

theorem inside_scale {s : ℝ} (hs : 0 < s) (R : Radius) (p : V3) :
    inside (R.scale s) (s • p) ↔ inside R p := by
  cases R with
  | inf => simp [inside, Radius.scale]
  | fin r =>
    simp only [inside, Radius.scale, smul_x, smul_y]
    have h1 : (s * p.x) ^ 2 + (s * p.y) ^ 2 = s ^ 2 * (p.x ^ 2 + p.y ^ 2) := by ring
    have h2 : (r * s) ^ 2 = s ^ 2 * r ^ 2 := by ring
    rw [h1, h2]
    exact mul_le_mul_iff_right₀ (by positivity)

theorem clip_scale {s : ℝ} (hs : 0 < s) (R : Radius) (y u : Option V3) :
    clip (R.scale s) (y.map (s • ·)) u = clip R y u := by
  cases y with
  | none => rfl
  | some p =>
    simp only [clip, Option.map_some]
    by_cases h : inside R p
    · rw [if_pos h, if_pos ((inside_scale hs R p).mpr h)]
    · rw [if_neg h, if_neg (fun h' => h ((inside_scale hs R p).mp h'))]

theorem refract_rescale {s : ℝ} (hs : 0 < s) (sh : Shape) (y u : Option V3) (mu : ℝ) :
    Elem.refract (sh.rescale s) (y.map (s • ·)) u mu = Elem.refract sh y u mu := by
  unfold Elem.refract
  cases y with
  | none => simp only [Option.map_none, rescale_curv_zero hs.ne', rescale_asph_none]
  | some p => simp only [Option.map_some, surfaceNormal_rescale hs]

theorem smul_bind_aux (s : ℝ) (y u : Option V3) (t : Option ℝ) :
    ((y.map (s • ·)).bind fun y => u.bind fun u => (t.map (s * ·)).map fun t => y + t • u)
      = (y.bind fun y => u.bind fun u => t.map fun t => y + t • u).map (s • ·) := by
  cases y <;> cases u <;> cases t <;> simp
  ext <;> simp <;> ring

theorem propagate_rescale {nwt : NewtonFn} {s : ℝ} (hs : 0 < s) (e : Elem)
    (hn : NewtonScales nwt s ∨ ∀ sh, e.shape = some sh → sh.aspherics = none)
    (y u : Option V3) (n l : ℝ) (clp : Bool) :
    (e.rescale s).propagate nwt (y.map (s • ·)) u n l clp =
      ⟨(e.propagate nwt y u n l clp).y.map (s • ·), (e.propagate nwt y u n l clp).u,
        (e.propagate nwt y u n l clp).n, (e.propagate nwt y u n l clp).t.map (s * ·)⟩ := by
  have ht : ((y.map (s • ·)).bind fun y => u.bind fun u => (e.rescale s).intercept nwt y u)
      = (y.bind fun y => u.bind fun u => e.intercept nwt y u).map (s * ·) := by
    cases y <;> cases u <;> simp
    exact elem_intercept_rescale hs e hn _ _
  unfold Elem.propagate
  simp only [ht]
  generalize (y.bind fun y => u.bind fun u => e.intercept nwt y u) = t
  rw [smul_bind_aux]
  generalize (y.bind fun y => u.bind fun u => t.map fun t => y + t • u) = y1
  have hR : (e.rescale s).radius = e.radius.scale s := rfl
  have hm : (e.rescale s).material = e.material := rfl
  have hsh : (e.rescale s).shape = e.shape.map (Shape.rescale s) := rfl
  rw [hR, hm, hsh, clip_scale hs]
  have htn : (t.map (s * ·)).map (· * n) = (t.map (· * n)).map (s * ·) := by
    cases t <;> simp [mul_assoc]
  rw [htn]
  cases e.shape with
  | none => rfl
  | some sh => simp only [Option.map_some, refract_rescale hs]

theorem doRotate_smul (r : Option M3) (b : Bool) (s : ℝ) (v : V3) :
    doRotate r b (s • v) = s • doRotate r b v := by
  have h := doRotate_linear r b s 0 v
  have h0 : doRotate r b 0 = 0 := by
    cases r with
    | none => rfl
    | some r => cases b <;> ext <;> simp [doRotate, M3.vecMul]
  rw [h0] at h
  have e : ∀ w : V3, (0 : V3) + w = w := by intro w; ext <;> simp
  rwa [e, e] at h

theorem step_rescale {nwt : NewtonFn} {s : ℝ} (hs : 0 < s) (e : Elem) (hR : Reachable e.tf)
    (hn : NewtonScales nwt s ∨ ∀ sh, e.shape = some sh → sh.aspherics = none)
    (l : ℝ) (clp : Bool) (r : Ray) :
    step nwt l clp (e.rescale s) (scaleRay s r)
      = (scaleRow s (step nwt l clp e r).1, scaleRay s (step nwt l clp e r).2) := by
  obtain ⟨ho, hrn, _⟩ := rescale_tf hR hs
  have htf : (e.rescale s).tf = e.tf.setDistance (e.tf.distance * s) := rfl
  have hto : (e.rescale s).tf.toNormal = e.tf.toNormal := by
    funext v; unfold toNormal; rw [htf, hrn]
  have hfr : (e.rescale s).tf.fromNormal = e.tf.fromNormal := by
    funext v; unfold fromNormal; rw [htf, hrn]
  have hy : ((r.y.map (s • ·)).map fun y => e.tf.toNormal (y - (e.rescale s).tf.offset))
      = (r.y.map fun y => e.tf.toNormal (y - e.tf.offset)).map (s • ·) := by
    rw [htf, ho]
    cases r.y with
    | none => rfl
    | some y =>
      simp only [Option.map_some]
      congr 1
      unfold toNormal
      rw [← doRotate_smul]
      congr 1
      ext <;> simp <;> ring
  unfold step
  simp only [scaleRay, hto, hfr, hy]
  rw [propagate_rescale hs e hn]
  simp only [scaleRow]
  congr 2
  generalize (e.propagate nwt (r.y.map fun y => e.tf.toNormal (y - e.tf.offset))
    (r.u.map fun u => e.tf.toNormal u) r.n l clp).y = y1
  cases y1 with
  | none => rfl
  | some y => simp only [Option.map_some]; congr 1; exact doRotate_smul _ _ _ _

theorem rayOfRow_rescale {s : ℝ} (hs : 0 < s) (e : Elem) (hR : Reachable e.tf) (x : Row) :
    rayOfRow (e.rescale s) (scaleRow s x) = scaleRay s (rayOfRow e x) := by
  obtain ⟨ho, hrn, _⟩ := rescale_tf hR hs
  have htf : (e.rescale s).tf = e.tf.setDistance (e.tf.distance * s) := rfl
  have hfr : (e.rescale s).tf.fromNormal = e.tf.fromNormal := by
    funext v; unfold fromNormal; rw [htf, hrn]
  unfold rayOfRow scaleRow scaleRay
  simp only [hfr]
  congr 1
  cases x.y with
  | none => rfl
  | some y => simp only [Option.map_some]; congr 1; exact doRotate_smul _ _ _ _

theorem rescaleAsph_inv {s : ℝ} (hs : s ≠ 0) (l : List ℝ) (n : ℕ) :
    ((((l.zipIdx n).map fun ai => ai.1 / s ^ (2 * ai.2 + 1)).zipIdx n).map
      fun ai => ai.1 / (1 / s) ^ (2 * ai.2 + 1)) = l := by
  induction l generalizing n with
  | nil => rfl
  | cons a l ih =>
    simp only [List.zipIdx_cons, List.map_cons, ih]
    congr 1
    rw [one_div, inv_pow]
    field_simp

theorem update_renorm {d : ℝ} {v a : V3} : update |d| (updDir d v) a = update d v a := by
  have h1 := updDir_nonneg_updDir (abs_nonneg d) d v
  unfold update
  rw [h1]
  have h2 : (if |d| < 0 then -|d| else |d|) = if d < 0 then -d else d := by
    rw [if_neg (not_lt.mpr (abs_nonneg d))]
    split
    · rename_i h; rw [abs_of_neg h]
    · rename_i h; rw [abs_of_nonneg (not_lt.mp h)]
  rw [h2]

theorem setDistance_self {t : Transform} (h : Reachable t) : t.setDistance t.distance = t := by
  obtain ⟨d, v, a, rfl⟩ := h.is_update
  unfold setDistance
  rw [update_distance, update_direction, update_angles, update_renorm]

theorem setDistance_scale_inv {t : Transform} (h : Reachable t) {s : ℝ} (hs : 0 < s) :
    (t.setDistance (t.distance * s)).setDistance
      ((t.setDistance (t.distance * s)).distance * (1 / s)) = t := by
  obtain ⟨hd, hu, ho⟩ := c12_invariant h
  conv_rhs => rw [← setDistance_self h]
  have h0 : (0 : ℝ) ≤ t.distance * s := mul_nonneg hd hs.le
  unfold setDistance
  rw [update_distance, update_direction, update_angles, updDir_of_unit hu,
    if_neg (not_lt.mpr h0), abs_of_nonneg h0]
  congr 1
  field_simp

/-! ## Rotations and reflections about the optical axis -/

/-- A linear map of the transverse plane. -/
structure Planar where
  a : ℝ
  b : ℝ
  c : ℝ
  d : ℝ

/-- The map is orthogonal: a rotation about the axis or a reflection in a plane containing it. -/
structure Planar.Orth (R : Planar) : Prop where
  h1 : R.a ^ 2 + R.c ^ 2 = 1
  h2 : R.b ^ 2 + R.d ^ 2 = 1
  h3 : R.a * R.b + R.c * R.d = 0

/-- Action on 3-vectors: the z coordinate is kept. -/
def Planar.app (R : Planar) (v : V3) : V3 := ⟨R.a * v.x + R.b * v.y, R.c * v.x + R.d * v.y, v.z⟩

/-- A row turned about the axis. -/
def Planar.row (R : Planar) (r : Row) : Row :=
  ⟨r.y.map R.app, r.u.map R.app, r.n, r.i.map R.app, r.t⟩

/-- A ray turned about the axis. -/
def Planar.ray (R : Planar) (r : Ray) : Ray := ⟨r.y.map R.app, r.u.map R.app, r.n⟩

section Planar

variable {R : Planar} (hR : R.Orth)

theorem planar_dot2 (hR : R.Orth) (v w : V3) :
    (R.app v).x * (R.app w).x + (R.app v).y * (R.app w).y = v.x * w.x + v.y * w.y := by
  obtain ⟨h1, h2, h3⟩ := hR
  simp only [Planar.app]
  linear_combination (v.x * w.x) * h1 + (v.y * w.y) * h2 + (v.x * w.y + v.y * w.x) * h3

theorem planar_sq (hR : R.Orth) (v : V3) :
    (R.app v).x ^ 2 + (R.app v).y ^ 2 = v.x ^ 2 + v.y ^ 2 := by
  have := planar_dot2 hR v v
  nlinarith [this]

@[simp] theorem planar_z (v : V3) : (R.app v).z = v.z := rfl

theorem planar_dot (hR : R.Orth) (v w : V3) : (R.app v).dot (R.app w) = v.dot w := by
  simp only [V3.dot, planar_z]; rw [planar_dot2 hR]

theorem planar_add_smul (v w : V3) (s : ℝ) : R.app (v + s • w) = R.app v + s • R.app w := by
  ext <;> simp [Planar.app] <;> ring

theorem planar_smul_add_smul (v w : V3) (s t : ℝ) :
    R.app (s • v + t • w) = s • R.app v + t • R.app w := by
  ext <;> simp [Planar.app] <;> ring

theorem planar_sub_smul (v w : V3) (s : ℝ) : R.app (v - s • w) = R.app v - s • R.app w := by
  ext <;> simp [Planar.app] <;> ring

theorem rsq_planar (hR : R.Orth) (p : V3) : rsq (R.app p) = rsq p := planar_dot2 hR p p

theorem surfaceSag_planar (hR : R.Orth) (sh : Shape) (p : V3) :
    sh.surfaceSag (R.app p) = sh.surfaceSag p := by
  unfold surfaceSag
  simp only [rsq_planar hR, planar_z]

theorem surfaceNormal_planar (hR : R.Orth) (sh : Shape) (p : V3) :
    sh.surfaceNormal (R.app p) = (sh.surfaceNormal p).map R.app := by
  unfold surfaceNormal
  simp only [rsq_planar hR]
  by_cases h1 : sh.curvature = 0 ∧ sh.aspherics = none
  · simp only [h1, and_self, if_true, Option.map_some]
    congr 1; ext <;> simp [Planar.app]
  · rw [if_neg h1, if_neg h1]
    by_cases h2 : sh.curvature = 0 ∧ sh.aspherics = some []
    · rw [if_pos h2, if_pos h2]; rfl
    · rw [if_neg h2, if_neg h2]
      rw [Option.map_map]
      congr 1
      funext e
      ext <;> simp [Planar.app] <;> ring

theorem interceptPlane_planar (y u : V3) :
    interceptPlane (R.app y) (R.app u) = interceptPlane y u := rfl

theorem interceptConic_planar (hR : R.Orth) (sh : Shape) (y u : V3) :
    sh.interceptConic (R.app y) (R.app u) = sh.interceptConic y u := by
  unfold interceptConic
  simp only [interceptPlane_planar, planar_dot hR, planar_dot2 hR, planar_sq hR, planar_z]

theorem interceptNewton_planar (hR : R.Orth) (nwt : NewtonFn) (sh : Shape) (y u : V3) :
    sh.interceptNewton nwt (R.app y) (R.app u) = sh.interceptNewton nwt y u := by
  unfold interceptNewton
  rw [interceptPlane_planar]
  congr 1
  funext x0
  congr 1
  · funext t
    rw [← planar_add_smul, surfaceSag_planar hR]
  · funext t
    rw [← planar_add_smul, surfaceNormal_planar hR, Option.map_map]
    congr 1
    funext r
    exact planar_dot hR r u

theorem elem_intercept_planar (hR : R.Orth) (nwt : NewtonFn) (e : Elem) (y u : V3) :
    e.intercept nwt (R.app y) (R.app u) = e.intercept nwt y u := by
  unfold Elem.intercept
  cases e.shape with
  | none => exact interceptPlane_planar y u
  | some sh =>
    unfold Shape.intercept
    cases h : sh.aspherics with
    | none => simp only [h]; exact interceptConic_planar hR sh y u
    | some l => simp only [h]; exact interceptNewton_planar hR nwt sh y u

theorem refractAt_planar (hR : R.Orth) (r u : V3) (mu : ℝ) :
    refractAt (R.app r) (R.app u) mu = (refractAt r u mu).map R.app := by
  unfold refractAt
  simp only [planar_dot hR]
  split_ifs
  · rfl
  · rfl
  · simp only [Option.map_some]; rw [planar_sub_smul]
  · rfl
  · simp only [Option.map_some]; rw [planar_smul_add_smul]

theorem refract_planar (hR : R.Orth) (sh : Shape) (y u : Option V3) (mu : ℝ) :
    Elem.refract sh (y.map R.app) (u.map R.app) mu = (Elem.refract sh y u mu).map R.app := by
  unfold Elem.refract
  cases u with
  | none => rfl
  | some u =>
    simp only [Option.map_some, Option.bind_some]
    by_cases h1 : mu = 1
    · simp [h1]
    · simp only [h1, if_false]
      cases y with
      | some p =>
        simp only [Option.map_some]
        rw [surfaceNormal_planar hR]
        cases sh.surfaceNormal p with
        | none => rfl
        | some r => simp only [Option.map_some, Option.bind_some]; exact refractAt_planar hR r u mu
      | none =>
        simp only [Option.map_none]
        by_cases h2 : sh.curvature = 0 ∧ sh.aspherics = none
        · simp only [h2, and_self, if_true, Option.bind_some]
          rw [← refractAt_planar hR]
          congr 1
          ext <;> simp [Planar.app, V3.ez]
        · simp [h2]

theorem clip_planar (hR : R.Orth) (rad : Radius) (y u : Option V3) :
    clip rad (y.map R.app) (u.map R.app) = (clip rad y u).map R.app := by
  cases y with
  | none => rfl
  | some p =>
    have : inside rad (R.app p) ↔ inside rad p := by
      cases rad with
      | inf => simp [inside]
      | fin r => simp only [inside, planar_sq hR]
    simp only [clip, Option.map_some]
    by_cases h : inside rad p
    · rw [if_pos h, if_pos (this.mpr h)]
    · rw [if_neg h, if_neg (fun h' => h (this.mp h'))]; rfl

theorem propagate_planar (hR : R.Orth) (nwt : NewtonFn) (e : Elem) (y u : Option V3) (n l : ℝ)
    (clp : Bool) :
    e.propagate nwt (y.map R.app) (u.map R.app) n l clp =
      ⟨(e.propagate nwt y u n l clp).y.map R.app, (e.propagate nwt y u n l clp).u.map R.app,
        (e.propagate nwt y u n l clp).n, (e.propagate nwt y u n l clp).t⟩ := by
  have ht : ((y.map R.app).bind fun y => (u.map R.app).bind fun u => e.intercept nwt y u)
      = (y.bind fun y => u.bind fun u => e.intercept nwt y u) := by
    cases y <;> cases u <;> simp
    exact elem_intercept_planar hR nwt e _ _
  unfold Elem.propagate
  simp only [ht]
  generalize (y.bind fun y => u.bind fun u => e.intercept nwt y u) = t
  have hy : ((y.map R.app).bind fun y => (u.map R.app).bind fun u => t.map fun t => y + t • u)
      = (y.bind fun y => u.bind fun u => t.map fun t => y + t • u).map R.app := by
    cases y <;> cases u <;> cases t <;> simp
    rw [planar_add_smul]
  rw [hy]
  generalize (y.bind fun y => u.bind fun u => t.map fun t => y + t • u) = y1
  have hu : (if clp then clip e.radius (y1.map R.app) (u.map R.app) else u.map R.app)
      = (if clp then clip e.radius y1 u else u).map R.app := by
    cases clp
    · rfl
    · exact clip_planar hR _ _ _
  rw [hu]
  cases e.shape with
  | none => rfl
  | some sh =>
    simp only [refract_planar hR]
    congr 1
    split <;> rfl

theorem step_planar (hR : R.Orth) (nwt : NewtonFn) (e : Elem) (hn : e.tf.rotNormal = none)
    (hx : e.tf.offset.x = 0) (hy : e.tf.offset.y = 0) (l : ℝ) (clp : Bool) (r : Ray) :
    step nwt l clp e (R.ray r) = (R.row (step nwt l clp e r).1, R.ray (step nwt l clp e r).2) := by
  have hto : e.tf.toNormal = id := by funext v; unfold toNormal; rw [hn]; rfl
  have hfr : e.tf.fromNormal = id := by funext v; unfold fromNormal; rw [hn]; rfl
  unfold step
  have e1 : ((r.y.map R.app).map fun y => e.tf.toNormal (y - e.tf.offset))
      = (r.y.map fun y => e.tf.toNormal (y - e.tf.offset)).map R.app := by
    rw [hto]
    cases r.y with
    | none => rfl
    | some y =>
      simp only [Option.map_some, id]
      congr 1
      ext <;> simp [Planar.app, hx, hy]
  have e2 : ((r.u.map R.app).map fun u => e.tf.toNormal u)
      = (r.u.map fun u => e.tf.toNormal u).map R.app := by
    rw [hto]; cases r.u <;> rfl
  simp only [Planar.ray, e1, e2]
  rw [propagate_planar hR]
  rw [hfr]
  simp [Planar.row]

theorem rayOfRow_planar (e : Elem) (hn : e.tf.rotNormal = none) (x : Row) :
    rayOfRow e (R.row x) = R.ray (rayOfRow e x) := by
  have hfr : e.tf.fromNormal = id := by funext v; unfold fromNormal; rw [hn]; rfl
  unfold rayOfRow
  rw [hfr]
  simp [Planar.row, Planar.ray]

end Planar

theorem centred_tf {t : Transform} (h : Reachable t) (hd : t.direction = ez) (ha : t.angles = 0) :
    t.rotNormal = none ∧ t.offset.x = 0 ∧ t.offset.y = 0 := by
  have ho := (c12_invariant h).2.2
  rw [hd] at ho
  obtain ⟨d, v, a, rfl⟩ := h.is_update
  rw [update_direction] at hd
  rw [update_angles] at ha
  refine ⟨?_, by rw [ho]; simp [ez], by rw [ho]; simp [ez]⟩
  rw [update_rotNormal, hd, ha, if_pos]
  exact ⟨⟨close_self _, close_self _, close_self _⟩, close_self _, close_self _, close_self _⟩

end RayOpt
