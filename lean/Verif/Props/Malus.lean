import Verif.Props.TraceLaws
import Verif.Props.LimitSystem
import Mathlib.Analysis.Calculus.Deriv.Inv
import Mathlib.Analysis.Calculus.MeanValue

/-!
Property C93: Hamilton's optics of traced rays.  In a bundle of rays the optical path changes by the
component of the displacement along the rays (so rays are perpendicular to wavefronts, Malus and Dupin),
and two neighbouring rays keep their invariant `n (du . dy' - du' . dy)`.
-/

namespace RayOpt

open V3 Elem Sys Filter Topology

/-- Specification: the curve `f` of points has the velocity `v` at `s0`. -/
structure Curve (f : ℝ → V3) (v : V3) (s0 : ℝ) : Prop where
  x : HasDerivAt (fun s => (f s).x) v.x s0
  y : HasDerivAt (fun s => (f s).y) v.y s0
  z : HasDerivAt (fun s => (f s).z) v.z s0

namespace Curve

variable {f g : ℝ → V3} {v w : V3} {s0 : ℝ}

theorem const (a : V3) : Curve (fun _ => a) 0 s0 :=
  ⟨hasDerivAt_const _ _, hasDerivAt_const _ _, hasDerivAt_const _ _⟩

theorem add (hf : Curve f v s0) (hg : Curve g w s0) : Curve (fun s => f s + g s) (v + w) s0 :=
  ⟨hf.x.add hg.x, hf.y.add hg.y, hf.z.add hg.z⟩

theorem sub (hf : Curve f v s0) (hg : Curve g w s0) : Curve (fun s => f s - g s) (v - w) s0 :=
  ⟨hf.x.sub hg.x, hf.y.sub hg.y, hf.z.sub hg.z⟩

theorem smul {a : ℝ → ℝ} {a' : ℝ} (ha : HasDerivAt a a' s0) (hf : Curve f v s0) :
    Curve (fun s => a s • f s) (a' • f s0 + a s0 • v) s0 :=
  ⟨ha.mul hf.x, ha.mul hf.y, ha.mul hf.z⟩

theorem dot (hf : Curve f v s0) (hg : Curve g w s0) :
    HasDerivAt (fun s => (f s).dot (g s)) (v.dot (g s0) + (f s0).dot w) s0 := by
  have := ((hf.x.mul hg.x).add (hf.y.mul hg.y)).add (hf.z.mul hg.z)
  refine this.congr_deriv ?_
  simp only [V3.dot]; ring

theorem congr (hf : Curve f v s0) (h : ∀ᶠ s in 𝓝 s0, g s = f s) : Curve g v s0 :=
  ⟨hf.x.congr_of_eventuallyEq (h.mono fun s e => by simp only [e]),
    hf.y.congr_of_eventuallyEq (h.mono fun s e => by simp only [e]),
    hf.z.congr_of_eventuallyEq (h.mono fun s e => by simp only [e])⟩

theorem unique (hf : Curve f v s0) (hg : Curve f w s0) : v = w := by
  ext
  · exact hf.x.unique hg.x
  · exact hf.y.unique hg.y
  · exact hf.z.unique hg.z

theorem vecMul (m : M3) (hf : Curve f v s0) : Curve (fun s => M3.vecMul (f s) m) (M3.vecMul v m) s0 :=
  ⟨((hf.x.mul_const _).add (hf.y.mul_const _)).add (hf.z.mul_const _),
    ((hf.x.mul_const _).add (hf.y.mul_const _)).add (hf.z.mul_const _),
    ((hf.x.mul_const _).add (hf.y.mul_const _)).add (hf.z.mul_const _)⟩

theorem rotate (r : Option M3) (i : Bool) (hf : Curve f v s0) :
    Curve (fun s => Transform.doRotate r i (f s)) (Transform.doRotate r i v) s0 := by
  unfold Transform.doRotate
  cases r with
  | none => exact hf
  | some r => cases i <;> exact hf.vecMul _

end Curve

/-- The direction of a ray of a bundle changes perpendicular to itself. -/
theorem unit_curve {u : ℝ → V3} {u' : V3} {s0 : ℝ} (h : Curve u u' s0)
    (h1 : ∀ᶠ s in 𝓝 s0, (u s).dot (u s) = 1) : (u s0).dot u' = 0 := by
  have h2 := h.dot h
  have h3 : HasDerivAt (fun s => (u s).dot (u s)) 0 s0 :=
    (hasDerivAt_const s0 (1 : ℝ)).congr_of_eventuallyEq h1
  have := h2.unique h3
  simp only [V3.dot] at *
  linarith

/-- Specification: which elements act: a surface with a material. -/
def Acts (e : Elem) (sh : Shape) (m : Material) : Prop := e.shape = some sh ∧ e.mat = some m

/-- One step of a trace: the ray goes straight, the reported path is the index times the length, and the
change of `n u` is along the normal. -/
theorem step_law (nwt : Shape.NewtonFn) (l : ℝ) (clp : Bool) (e0 e : Elem) (a : Row) (p u q v : V3)
    (t : ℝ) (hp : a.y = some p) (hu : a.u = some u)
    (hy : (step nwt l clp e (rayOfRow e0 a)).1.y = some q)
    (hv : (step nwt l clp e (rayOfRow e0 a)).1.u = some v)
    (ht : (step nwt l clp e (rayOfRow e0 a)).1.t = some t) (hn : 0 < a.n)
    (hm : ∀ sh m, Acts e sh m → m.mirror = false → 0 < m.index l) :
    ∃ d : ℝ, q = e.tf.toNormal (e0.tf.fromNormal p - e.tf.offset) +
        d • e.tf.toNormal (e0.tf.fromNormal u) ∧ t = a.n * d ∧
      0 < (step nwt l clp e (rayOfRow e0 a)).1.n ∧
      ((∀ sh m, ¬ Acts e sh m) → (step nwt l clp e (rayOfRow e0 a)).1.n = a.n ∧
        v = e.tf.toNormal (e0.tf.fromNormal u)) ∧
      ∀ sh m, Acts e sh m →
        (m.mirror = false ∧ a.n = m.index l → (step nwt l clp e (rayOfRow e0 a)).1.n = a.n ∧
          v = e.tf.toNormal (e0.tf.fromNormal u)) ∧
        (¬ (m.mirror = false ∧ a.n = m.index l) → ∃ (r : V3) (g : ℝ), sh.surfaceNormal q = some r ∧
          (step nwt l clp e (rayOfRow e0 a)).1.n • v =
            a.n • e.tf.toNormal (e0.tf.fromNormal u) + g • r) := by
  simp only [step, rayOfRow, hp, hu, Option.map_some] at hy hv ht ⊢
  set y0 := e.tf.toNormal (e0.tf.fromNormal p - e.tf.offset) with hy0
  set i := e.tf.toNormal (e0.tf.fromNormal u) with hi
  have h1 : ∀ (y u : Option V3) (n : ℝ), (e.propagate nwt y u n l clp).t =
      (y.bind fun y => u.bind fun u => e.intercept nwt y u).map (· * n) := by
    intro y u n; unfold Elem.propagate; cases e.shape <;> rfl
  have h2 : ∀ (y u : Option V3) (n : ℝ), (e.propagate nwt y u n l clp).y =
      y.bind fun y' => u.bind fun u' =>
        (y.bind fun y => u.bind fun u => e.intercept nwt y u).map fun t => y' + t • u' := by
    intro y u n; unfold Elem.propagate; cases e.shape <;> rfl
  rw [h1] at ht
  rw [h2] at hy
  simp only [Option.bind_some, Option.map_eq_some_iff] at ht hy
  obtain ⟨d, hd, rfl⟩ := ht
  obtain ⟨d', hd', rfl⟩ := hy
  rw [hd] at hd'
  cases hd'
  refine ⟨d, rfl, mul_comm _ _, ?_⟩
  unfold Elem.propagate at hv ⊢
  simp only [Option.bind_some, hd, Option.map_some] at hv ⊢
  cases hs : e.shape with
  | none =>
    rw [hs] at hv
    simp only at hv ⊢
    refine ⟨hn, fun _ => ⟨trivial, ?_⟩, fun sh m hA => ?_⟩
    · exact (Option.some.inj (clipped_some hv)).symm
    · rw [hA.1] at hs; cases hs
  | some sh =>
    rw [hs] at hv
    simp only at hv ⊢
    cases hmat : e.material.getD none with
    | none =>
      rw [hmat] at hv
      simp only [getNMu, one_ne_zero, if_false] at hv ⊢
      refine ⟨hn, fun _ => ⟨trivial, ?_⟩, fun sh m hA => ?_⟩
      · simp only [refract, if_true, Option.bind_fun_some] at hv
        exact (Option.some.inj (clipped_some hv)).symm
      · have : e.material.getD none = some m := hA.2
        rw [hmat] at this; cases this
    | some m =>
      rw [hmat] at hv
      have hact : Acts e sh m := ⟨hs, hmat⟩
      cases hmir : m.mirror with
      | true =>
        simp only [getNMu, hmir, if_true] at hv ⊢
        refine ⟨hn, fun h => absurd hact (h _ _), fun sh' m' hA => ?_⟩
        have h1 := hA.1; rw [hs] at h1; cases h1
        have h1 : e.material.getD none = some m' := hA.2; rw [hmat] at h1; cases h1
        refine ⟨fun h => absurd h.1 (by simp [hmir]), fun _ => ?_⟩
        rw [if_neg (by norm_num)] at hv
        obtain ⟨i', r, hi', hr, hv⟩ := refract_some (by norm_num) rfl hv
        obtain rfl := Option.some.inj (clipped_some hi')
        unfold refractAt at hv
        rw [if_neg (by norm_num)] at hv
        dsimp only at hv
        rw [if_pos (rfl : (-1 : ℝ) = -1)] at hv
        by_cases hr0 : r.dot r = 0
        · rw [if_pos hr0] at hv; cases hv
        rw [if_neg hr0] at hv
        cases hv
        refine ⟨r, a.n * -(2 * (|(-1 : ℝ)| * i.dot r / r.dot r)), hr, ?_⟩
        ext <;> simp <;> ring
      | false =>
        simp only [getNMu, hmir, Bool.false_eq_true, if_false] at hv ⊢
        have hmi := hm sh m hact hmir
        refine ⟨hmi, fun h => absurd hact (h _ _), fun sh' m' hA => ?_⟩
        have h1 := hA.1; rw [hs] at h1; cases h1
        have h1 : e.material.getD none = some m' := hA.2; rw [hmat] at h1; cases h1
        rw [if_neg (div_pos hn hmi).ne'] at hv
        by_cases hmu : a.n / m.index l = 1
        · rw [hmu] at hv
          simp only [refract, if_true, Option.bind_fun_some] at hv
          rw [div_eq_one_iff_eq hmi.ne'] at hmu
          exact ⟨fun _ => ⟨hmu.symm, (Option.some.inj (clipped_some hv)).symm⟩,
            fun h => absurd ⟨hmir, hmu⟩ h⟩
        · refine ⟨fun h => absurd ((div_eq_one_iff_eq hmi.ne').mpr h.2) hmu, fun _ => ?_⟩
          obtain ⟨i', r, hi', hr, hv⟩ := refract_some hmu rfl hv
          obtain rfl := Option.some.inj (clipped_some hi')
          have hmu' : a.n / m.index l ≠ -1 := by
            have := div_pos hn hmi
            intro h; rw [h] at this; norm_num at this
          unfold refractAt at hv
          rw [if_neg hmu] at hv
          dsimp only at hv
          split_ifs at hv with hr0 hA
          cases hv
          have key : ∀ g : ℝ, m.index l • (|a.n / m.index l| • i + g • r) =
              a.n • i + (m.index l * g) • r := by
            intro g
            rw [abs_of_pos (div_pos hn hmi)]
            ext <;> simp only [add_x, add_y, add_z, smul_x, smul_y, smul_z] <;> field_simp
          exact ⟨r, _, hr, key _⟩

/-- Specification: a bundle of rays near the parameter `s0`, traced through the system without a loss.
Element `j` is met at `p j s`, left in the direction `u j s`, and `t j s` is the reported optical path from
the element before.  The bundle starts with unit directions in a medium with positive index, all media
have positive index, and the rays meet the sheet of the surfaces that `surface_sag` describes. -/
structure Bundle (nwt : Shape.NewtonFn) (l : ℝ) (clp : Bool) (sys : List Elem) (s0 : ℝ)
    (p u : ℕ → ℝ → V3) (t : ℕ → ℝ → ℝ) (n : ℕ → ℝ) : Prop where
  placed : ∀ e ∈ sys, Reachable e.tf
  index : ∀ e ∈ sys, ∀ sh m, Acts e sh m → m.mirror = false → 0 < m.index l
  start : 0 < n 0
  unit : ∀ᶠ s in 𝓝 s0, (u 0 s).dot (u 0 s) = 1
  rays : ∀ᶠ s in 𝓝 s0, ∃ arr out : List Row, arr.length = sys.length ∧
    gtPropagate nwt sys l clp 1 none arr = some out ∧ ∀ j < sys.length, ∃ b : Row, out[j]? = some b ∧
      b.y = some (p j s) ∧ b.u = some (u j s) ∧ b.n = n j ∧ (0 < j → b.t = some (t j s))
  sheet : ∀ j (h : j + 1 < sys.length), ∀ sh m, Acts sys[j + 1] sh m →
    ∀ᶠ s in 𝓝 s0, sh.surfaceSag (p (j + 1) s) = some 0

namespace Bundle

variable {nwt : Shape.NewtonFn} {l : ℝ} {clp : Bool} {sys : List Elem} {s0 : ℝ}
  {p u : ℕ → ℝ → V3} {t : ℕ → ℝ → ℝ} {n : ℕ → ℝ}

/-- The rays of a bundle at two successive elements. -/
theorem step (B : Bundle nwt l clp sys s0 p u t n) (j : ℕ) (hj : j + 1 < sys.length) (hn : 0 < n j) :
    ∀ᶠ s in 𝓝 s0, ∃ d : ℝ,
      p (j + 1) s = sys[j + 1].tf.toNormal (sys[j].tf.fromNormal (p j s) - sys[j + 1].tf.offset) +
        d • sys[j + 1].tf.toNormal (sys[j].tf.fromNormal (u j s)) ∧ t (j + 1) s = n j * d ∧
      0 < n (j + 1) ∧
      ((∀ sh m, ¬ Acts sys[j + 1] sh m) → n (j + 1) = n j ∧
        u (j + 1) s = sys[j + 1].tf.toNormal (sys[j].tf.fromNormal (u j s))) ∧
      ∀ sh m, Acts sys[j + 1] sh m →
        (m.mirror = false ∧ n j = m.index l → n (j + 1) = n j ∧
          u (j + 1) s = sys[j + 1].tf.toNormal (sys[j].tf.fromNormal (u j s))) ∧
        (¬ (m.mirror = false ∧ n j = m.index l) → ∃ (r : V3) (g : ℝ),
          sh.surfaceNormal (p (j + 1) s) = some r ∧ n (j + 1) • u (j + 1) s =
            n j • sys[j + 1].tf.toNormal (sys[j].tf.fromNormal (u j s)) + g • r) := by
  filter_upwards [B.rays] with s ⟨arr, out, hlen, hout, hrow⟩
  obtain ⟨a, ha, hp, hu, han, -⟩ := hrow j (by omega)
  obtain ⟨b, hb, hq, hv, hbn, hbt⟩ := hrow (j + 1) hj
  obtain ⟨x, hx, hx1⟩ := trace_succ hlen hout j hj
  rw [ha] at hx; cases hx
  rw [hb] at hx1; cases hx1
  have := step_law nwt l clp sys[j] sys[j + 1] a (p j s) (u j s) (p (j + 1) s) (u (j + 1) s) (t (j + 1) s)
    hp hu hq hv (hbt (by omega)) (by rw [han]; exact hn) (B.index _ (List.getElem_mem _))
  rw [hbn, han] at this
  exact this

theorem pos (B : Bundle nwt l clp sys s0 p u t n) : ∀ j < sys.length, 0 < n j
  | 0, _ => B.start
  | j + 1, hj => by
    obtain ⟨s, d, -, -, h, -⟩ := (B.step j hj (B.pos j (by omega))).exists
    exact h

/-- All directions of a bundle are unit vectors. -/
theorem units (B : Bundle nwt l clp sys s0 p u t n) : ∀ j < sys.length,
    ∀ᶠ s in 𝓝 s0, (u j s).dot (u j s) = 1
  | 0, _ => B.unit
  | j + 1, hj => by
    filter_upwards [B.rays, B.units j (by omega)] with s ⟨arr, out, hlen, hout, hrow⟩ h1
    obtain ⟨a, ha, hp, hu, han, -⟩ := hrow j (by omega)
    obtain ⟨b, hb, hq, hv, hbn, hbt⟩ := hrow (j + 1) hj
    obtain ⟨x, hx, hx1⟩ := trace_succ hlen hout j hj
    rw [ha] at hx; cases hx
    rw [hb] at hx1; cases hx1
    have hray : UnitOrNone (rayOfRow (sys[j]) a).u := by
      intro v hv
      simp only [rayOfRow, hu, Option.map_some] at hv
      cases hv
      apply norm_eq_one
      rw [(c10_dot (B.placed _ (List.getElem_mem _)) _ _).1, h1]
    have := (step_unit nwt l clp (sys[j + 1]) _ (B.placed _ (List.getElem_mem _)) hray).1 _ hv
    exact dot_self_of_norm this

/-- Along the surface the ray has the same component `n u` before and behind it. -/
theorem tangent (B : Bundle nwt l clp sys s0 p u t n) (j : ℕ) (hj : j + 1 < sys.length) {dq : V3}
    (hq : Curve (p (j + 1)) dq s0) : n (j + 1) * (u (j + 1) s0).dot dq =
      n j * (sys[j + 1].tf.toNormal (sys[j].tf.fromNormal (u j s0))).dot dq := by
  obtain ⟨d, -, -, -, e4, e5⟩ := (B.step j hj (B.pos j (by omega))).self_of_nhds
  by_cases hA : ∃ sh m, Acts sys[j + 1] sh m
  · obtain ⟨sh, m, hA⟩ := hA
    by_cases hid : m.mirror = false ∧ n j = m.index l
    · obtain ⟨h1, h2⟩ := (e5 sh m hA).1 hid
      rw [h1, h2]
    · obtain ⟨r, g, hr, h2⟩ := (e5 sh m hA).2 hid
      obtain ⟨G, hG, hG'⟩ := (c08_gradient sh _ r hr).1 (fun s => (p (j + 1) s).x)
        (fun s => (p (j + 1) s).y) (fun s => (p (j + 1) s).z) dq s0 rfl rfl rfl hq.x hq.y hq.z
      have h0 : r.dot dq = 0 := by
        refine hG'.unique ((hasDerivAt_const s0 (0 : ℝ)).congr_of_eventuallyEq ?_)
        filter_upwards [hG, B.sheet j hj sh m hA] with s h1 h2
        rw [h2] at h1
        exact (Option.some.inj h1).symm
      have hx := congrArg V3.x h2
      have hy := congrArg V3.y h2
      have hz := congrArg V3.z h2
      simp only [add_x, add_y, add_z, smul_x, smul_y, smul_z] at hx hy hz
      simp only [V3.dot] at h0 ⊢
      linear_combination dq.x * hx + dq.y * hy + dq.z * hz + g * h0
  · push Not at hA
    obtain ⟨h1, h2⟩ := e4 hA
    rw [h1, h2]

end Bundle

/-- C93: along a bundle the optical path between two successive elements changes by the difference of
`n u . dy` behind the elements. -/
theorem c93_step {nwt : Shape.NewtonFn} {l : ℝ} {clp : Bool} {sys : List Elem} {s0 : ℝ}
    {p u : ℕ → ℝ → V3} {t : ℕ → ℝ → ℝ} {n : ℕ → ℝ} (B : Bundle nwt l clp sys s0 p u t n)
    (j : ℕ) (hj : j + 1 < sys.length) (dp du dq : V3) (hp : Curve (p j) dp s0) (hu : Curve (u j) du s0)
    (hq : Curve (p (j + 1)) dq s0) :
    HasDerivAt (t (j + 1)) (n (j + 1) * (u (j + 1) s0).dot dq - n j * (u j s0).dot dp) s0 := by
  have hR := B.placed _ (List.getElem_mem hj)
  have hR0 := B.placed _ (List.getElem_mem (Nat.lt_of_succ_lt hj))
  have hst := B.step j hj (B.pos j (by omega))
  -- the curves before the surface, in its frame
  have hi := (hu.rotate sys[j].tf.rotNormal false).rotate sys[j + 1].tf.rotNormal true
  have hy := ((hp.rotate sys[j].tf.rotNormal false).sub
    (Curve.const sys[j + 1].tf.offset)).rotate sys[j + 1].tf.rotNormal true
  change Curve (fun s => sys[j + 1].tf.toNormal (sys[j].tf.fromNormal (u j s)))
    (sys[j + 1].tf.toNormal (sys[j].tf.fromNormal du)) s0 at hi
  change Curve (fun s => sys[j + 1].tf.toNormal (sys[j].tf.fromNormal (p j s) - sys[j + 1].tf.offset))
    (sys[j + 1].tf.toNormal (sys[j].tf.fromNormal dp - 0)) s0 at hy
  have hi1 : ∀ᶠ s in 𝓝 s0, (sys[j + 1].tf.toNormal (sys[j].tf.fromNormal (u j s))).dot
      (sys[j + 1].tf.toNormal (sys[j].tf.fromNormal (u j s))) = 1 := by
    filter_upwards [B.units j (by omega)] with s h
    rw [(c10_dot hR _ _).2.1, (c10_dot hR0 _ _).1, h]
  have hperp := unit_curve hi hi1
  -- the length of the segment
  have hd := (hi.dot (hq.sub hy)).const_mul (n j)
  have ht : t (j + 1) =ᶠ[𝓝 s0] fun s => n j *
      (sys[j + 1].tf.toNormal (sys[j].tf.fromNormal (u j s))).dot (p (j + 1) s -
        sys[j + 1].tf.toNormal (sys[j].tf.fromNormal (p j s) - sys[j + 1].tf.offset)) := by
    filter_upwards [hst, hi1] with s ⟨d, e1, e2, _⟩ h1
    rw [e2, e1]
    congr 1
    simp only [V3.dot] at h1 ⊢
    simp only [add_x, add_y, add_z, sub_x, sub_y, sub_z, smul_x, smul_y, smul_z]
    linear_combination -d * h1
  refine (hd.congr_of_eventuallyEq ht).congr_deriv ?_
  obtain ⟨d, e1, -, -, -, -⟩ := hst.self_of_nhds
  have hdp : (sys[j + 1].tf.toNormal (sys[j].tf.fromNormal (u j s0))).dot
      (sys[j + 1].tf.toNormal (sys[j].tf.fromNormal dp - 0)) = (u j s0).dot dp := by
    rw [(c10_dot hR _ _).2.1, show sys[j].tf.fromNormal dp - 0 = sys[j].tf.fromNormal dp by ext <;> simp,
      (c10_dot hR0 _ _).1]
  rw [B.tangent j hj hq, ← hdp, e1]
  simp only [V3.dot] at hperp ⊢
  simp only [add_x, add_y, add_z, sub_x, sub_y, sub_z, smul_x, smul_y, smul_z]
  linear_combination n j * d * hperp

/-- C93: along a bundle the optical path up to an element changes by `n u . dy` there, less what it is
at the start. -/
theorem c93_path {nwt : Shape.NewtonFn} {l : ℝ} {clp : Bool} {sys : List Elem} {s0 : ℝ}
    {p u : ℕ → ℝ → V3} {t : ℕ → ℝ → ℝ} {n : ℕ → ℝ} (B : Bundle nwt l clp sys s0 p u t n)
    (dp du : ℕ → V3) (hp : ∀ j < sys.length, Curve (p j) (dp j) s0)
    (hu : ∀ j < sys.length, Curve (u j) (du j) s0) (k : ℕ) (hk : k < sys.length) :
    HasDerivAt (fun s => ∑ j ∈ Finset.range k, t (j + 1) s)
      (n k * (u k s0).dot (dp k) - n 0 * (u 0 s0).dot (dp 0)) s0 := by
  induction k with
  | zero => simpa using hasDerivAt_const s0 (0 : ℝ)
  | succ k ih =>
    have h := (ih (by omega)).add (c93_step B k hk _ _ _ (hp k (by omega)) (hu k (by omega)) (hp _ hk))
    simp only [Finset.sum_range_succ]
    exact h.congr_deriv (by ring)

/-- C93, theorem of Malus and Dupin: if the bundle starts from a point, or perpendicular to a surface,
then behind every element the rays are perpendicular to the points of equal optical path. -/
theorem c93_malus {nwt : Shape.NewtonFn} {l : ℝ} {clp : Bool} {sys : List Elem} {s0 : ℝ}
    {p u : ℕ → ℝ → V3} {t : ℕ → ℝ → ℝ} {n : ℕ → ℝ} (B : Bundle nwt l clp sys s0 p u t n)
    (dp du : ℕ → V3) (hp : ∀ j < sys.length, Curve (p j) (dp j) s0)
    (hu : ∀ j < sys.length, Curve (u j) (du j) s0) (hstart : (u 0 s0).dot (dp 0) = 0)
    (k : ℕ) (hk : k < sys.length) (T : ℝ) :
    ∃ dw : V3, Curve (fun s => p k s + ((T - ∑ j ∈ Finset.range k, t (j + 1) s) / n k) • u k s) dw s0 ∧
      (u k s0).dot dw = 0 := by
  have h1 := c93_path B dp du hp hu k hk
  have hn := B.pos k hk
  have hc := ((hasDerivAt_const s0 T).sub h1).div_const (n k)
  refine ⟨_, (hp k hk).add ((hu k hk).smul hc), ?_⟩
  have hunit := (B.units k hk).self_of_nhds
  have hperp := unit_curve (hu k hk) (B.units k hk)
  rw [hstart]
  simp only [V3.dot] at hunit hperp ⊢
  simp only [add_x, add_y, add_z, smul_x, smul_y, smul_z]
  generalize (T - ∑ j ∈ Finset.range k, t (j + 1) s0) / n k = c
  rw [show (0 - (n k * ((u k s0).x * (dp k).x + (u k s0).y * (dp k).y + (u k s0).z * (dp k).z) - n 0 * 0))
    / n k = -((u k s0).x * (dp k).x + (u k s0).y * (dp k).y + (u k s0).z * (dp k).z) by
      field_simp; ring]
  linear_combination (-((u k s0).x * (dp k).x + (u k s0).y * (dp k).y + (u k s0).z * (dp k).z)) * hunit
    + c * hperp

/-- C93, Fermat: rays from one point that meet again in one point all have the same optical path. -/
theorem c93_fermat {nwt : Shape.NewtonFn} {l : ℝ} {clp : Bool} {sys : List Elem} {a b : ℝ}
    {p u : ℕ → ℝ → V3} {t : ℕ → ℝ → ℝ} {n : ℕ → ℝ}
    (B : ∀ s ∈ Set.Ioo a b, Bundle nwt l clp sys s p u t n)
    (hp : ∀ j < sys.length, ∀ s ∈ Set.Ioo a b, ∃ dp, Curve (p j) dp s)
    (hu : ∀ j < sys.length, ∀ s ∈ Set.Ioo a b, ∃ du, Curve (u j) du s)
    (k : ℕ) (hk : k < sys.length) (P Q : V3) (h0 : ∀ s ∈ Set.Ioo a b, p 0 s = P)
    (hQ : ∀ s ∈ Set.Ioo a b, p k s = Q) (s s' : ℝ) (hs : s ∈ Set.Ioo a b) (hs' : s' ∈ Set.Ioo a b) :
    ∑ j ∈ Finset.range k, t (j + 1) s = ∑ j ∈ Finset.range k, t (j + 1) s' := by
  have hd : ∀ s ∈ Set.Ioo a b, HasDerivAt (fun s => ∑ j ∈ Finset.range k, t (j + 1) s) 0 s := by
    intro s hs
    classical
    choose! dp hdp using fun j hj => hp j hj s hs
    choose! du hdu using fun j hj => hu j hj s hs
    have h := c93_path (B s hs) dp du hdp hdu k hk
    have hev : ∀ᶠ x in 𝓝 s, x ∈ Set.Ioo a b := isOpen_Ioo.mem_nhds hs
    have e0 : dp 0 = 0 := (hdp 0 (by omega)).unique ((Curve.const P).congr (hev.mono h0))
    have ek : dp k = 0 := (hdp k hk).unique ((Curve.const Q).congr (hev.mono hQ))
    rw [e0, ek] at h
    simpa [V3.dot] using h
  exact isOpen_Ioo.is_const_of_deriv_eq_zero isPreconnected_Ioo
    (fun s hs => (hd s hs).differentiableAt.differentiableWithinAt) (fun s hs => (hd s hs).deriv) hs hs'

/-! ## Neighbouring rays -/

theorem aspSlope_differentiable (l : List ℝ) : Differentiable ℝ fun x => Shape.aspSlope x l := by
  unfold Shape.aspSlope
  generalize l.zipIdx = l
  induction l with
  | nil => simp
  | cons a l ih =>
    simp only [List.foldr_cons]
    exact (Differentiable.mul ih differentiable_id).add (differentiable_const _)

/-- The slope of the conic at `1 - (1 + k) c^2 ρ > 0`. -/
theorem conicSlope_deriv (c k ρ : ℝ) (h : 0 < 1 - (1 + k) * c ^ 2 * ρ) :
    DifferentiableAt ℝ (fun x => 0 - c / Real.sqrt (1 - (1 + k) * c ^ 2 * x)) ρ := by
  have h1 : DifferentiableAt ℝ (fun x => 1 - (1 + k) * c ^ 2 * x) ρ := by fun_prop
  exact (differentiableAt_const _).sub
    ((differentiableAt_const _).div (h1.sqrt h.ne') (Real.sqrt_pos.mpr h).ne')

/-- The slope of a surface near a point depends on the distance from the axis only, differentiably. -/
theorem normal_profile (sh : Shape) (q r : V3) (hr : sh.surfaceNormal q = some r) :
    ∃ E : ℝ → ℝ, DifferentiableAt ℝ E (Shape.rsq q) ∧ ∀ᶠ x in 𝓝 (Shape.rsq q), ∀ a : V3, Shape.rsq a = x →
      sh.surfaceNormal a = some ⟨a.x * E x, a.y * E x, 1⟩ := by
  have key : ∀ (E : ℝ → ℝ) (P : ℝ → Prop), DifferentiableAt ℝ E (Shape.rsq q) →
      (∀ᶠ x in 𝓝 (Shape.rsq q), P x) →
      (∀ a, P (Shape.rsq a) → sh.surfaceNormal a = some ⟨a.x * E (Shape.rsq a), a.y * E (Shape.rsq a), 1⟩) →
      ∃ E : ℝ → ℝ, DifferentiableAt ℝ E (Shape.rsq q) ∧ ∀ᶠ x in 𝓝 (Shape.rsq q), ∀ a : V3, Shape.rsq a = x →
        sh.surfaceNormal a = some ⟨a.x * E x, a.y * E x, 1⟩ :=
    fun E P hE hP hN => ⟨E, hE, hP.mono fun x hx a ha => by rw [← ha]; exact hN a (ha ▸ hx)⟩
  by_cases h0 : sh.curvature = 0 ∧ sh.aspherics = none
  · refine key (fun _ => 0) (fun _ => True) (differentiableAt_const _) (by simp) fun a _ => ?_
    unfold Shape.surfaceNormal
    rw [if_pos h0]; simp
  have h1 : ¬ (sh.curvature = 0 ∧ sh.aspherics = some []) := by
    intro h1
    unfold Shape.surfaceNormal at hr
    rw [if_neg h0, if_pos h1] at hr
    cases hr
  by_cases hc : sh.curvature = 0
  · cases hasp : sh.aspherics with
    | none => exact absurd ⟨hc, hasp⟩ h0
    | some l =>
      refine key (fun x => 0 - Shape.aspSlope x l) (fun _ => True)
        ((differentiableAt_const _).sub (aspSlope_differentiable l _)) (by simp) fun a _ => ?_
      unfold Shape.surfaceNormal
      rw [if_neg h0, if_neg h1]
      simp [hc, hasp]
  · have hpos : 0 < 1 - (1 + sh.conic) * sh.curvature ^ 2 * Shape.rsq q := by
      by_contra hle
      unfold Shape.surfaceNormal at hr
      rw [if_neg h0, if_neg h1] at hr
      dsimp only at hr
      rw [if_pos hc, if_pos (not_lt.mp hle)] at hr
      cases hasp : sh.aspherics <;> rw [hasp] at hr <;> simp at hr
    have hev : ∀ᶠ x in 𝓝 (Shape.rsq q), 0 < 1 - (1 + sh.conic) * sh.curvature ^ 2 * x := by
      have : ContinuousAt (fun x => 1 - (1 + sh.conic) * sh.curvature ^ 2 * x) (Shape.rsq q) := by fun_prop
      exact this.eventually (lt_mem_nhds hpos)
    cases hasp : sh.aspherics with
    | none =>
      refine key (fun x => 0 - sh.curvature / Real.sqrt (1 - (1 + sh.conic) * sh.curvature ^ 2 * x)) _
        (conicSlope_deriv _ _ _ hpos) hev fun a ha => ?_
      unfold Shape.surfaceNormal
      rw [if_neg h0, if_neg h1]
      dsimp only
      rw [if_pos hc, if_neg (not_le.mpr ha), hasp]
      rfl
    | some l =>
      refine key (fun x => 0 - sh.curvature / Real.sqrt (1 - (1 + sh.conic) * sh.curvature ^ 2 * x) -
        Shape.aspSlope x l) _ ((conicSlope_deriv _ _ _ hpos).sub (aspSlope_differentiable l _)) hev
        fun a ha => ?_
      unfold Shape.surfaceNormal
      rw [if_neg h0, if_neg h1]
      dsimp only
      rw [if_pos hc, if_neg (not_le.mpr ha), hasp]
      rfl

/-- The derivative of the normal along a curve through a point. -/
theorem profile_curve (sh : Shape) (q : V3) (E : ℝ → ℝ) (hE : DifferentiableAt ℝ E (Shape.rsq q))
    (hN : ∀ᶠ x in 𝓝 (Shape.rsq q), ∀ a : V3, Shape.rsq a = x →
      sh.surfaceNormal a = some ⟨a.x * E x, a.y * E x, 1⟩) (f : ℝ → V3) (v : V3) (s0 : ℝ) (hf : f s0 = q)
    (hv : Curve f v s0) : ∃ R : ℝ → V3, (∀ᶠ s in 𝓝 s0, sh.surfaceNormal (f s) = some (R s)) ∧
      Curve R ⟨E (Shape.rsq q) * v.x + 2 * deriv E (Shape.rsq q) * (q.x * v.x + q.y * v.y) * q.x,
        E (Shape.rsq q) * v.y + 2 * deriv E (Shape.rsq q) * (q.x * v.x + q.y * v.y) * q.y, 0⟩ s0 := by
  have hρ : HasDerivAt (fun s => Shape.rsq (f s)) (2 * (q.x * v.x + q.y * v.y)) s0 := by
    have := (hv.x.mul hv.x).add (hv.y.mul hv.y)
    rw [hf] at this
    exact this.congr_deriv (by ring)
  have hE' : HasDerivAt E (deriv E (Shape.rsq q)) (Shape.rsq (f s0)) := by rw [hf]; exact hE.hasDerivAt
  have hEf := hE'.comp s0 hρ
  refine ⟨fun s => ⟨(f s).x * E (Shape.rsq (f s)), (f s).y * E (Shape.rsq (f s)), 1⟩, ?_, ?_, ?_, ?_⟩
  · have hc : Tendsto (fun s => Shape.rsq (f s)) (𝓝 s0) (𝓝 (Shape.rsq q)) := by
      have := hρ.continuousAt.tendsto
      rwa [hf] at this
    exact (hc.eventually hN).mono fun s hs => hs _ rfl
  · have := hv.x.mul hEf
    simp only [Function.comp, hf] at this
    exact this.congr_deriv (by simp only; ring)
  · have := hv.y.mul hEf
    simp only [Function.comp, hf] at this
    exact this.congr_deriv (by simp only; ring)
  · exact hasDerivAt_const _ _

/-- The derivative of the normal along a curve through a point: a symmetric form. -/
theorem normal_curve (sh : Shape) (q r : V3) (hr : sh.surfaceNormal q = some r) :
    ∃ e κ : ℝ, ∀ (f : ℝ → V3) (v : V3) (s0 : ℝ), f s0 = q → Curve f v s0 →
      ∃ R : ℝ → V3, (∀ᶠ s in 𝓝 s0, sh.surfaceNormal (f s) = some (R s)) ∧
        Curve R ⟨e * v.x + κ * (q.x * v.x + q.y * v.y) * q.x, e * v.y + κ * (q.x * v.x + q.y * v.y) * q.y, 0⟩
          s0 := by
  obtain ⟨E, hE, hN⟩ := normal_profile sh q r hr
  exact ⟨_, _, fun f v s0 hf hv => profile_curve sh q E hE hN f v s0 hf hv⟩

/-- The change of the normal with the displacement `v` at `q`. -/
def normalChange (e κ : ℝ) (q v : V3) : V3 :=
  ⟨e * v.x + κ * (q.x * v.x + q.y * v.y) * q.x, e * v.y + κ * (q.x * v.x + q.y * v.y) * q.y, 0⟩

namespace Bundle

variable {nwt : Shape.NewtonFn} {l : ℝ} {clp : Bool} {sys : List Elem} {s0 : ℝ}
  {p u : ℕ → ℝ → V3} {t : ℕ → ℝ → ℝ} {n : ℕ → ℝ}

/-- The curves that arrive at an element, in its frame. -/
theorem arriving (j : ℕ) (hj : j + 1 < sys.length) {dp du : V3} (hp : Curve (p j) dp s0)
    (hu : Curve (u j) du s0) :
    Curve (fun s => sys[j + 1].tf.toNormal (sys[j].tf.fromNormal (u j s)))
      (sys[j + 1].tf.toNormal (sys[j].tf.fromNormal du)) s0 ∧
    Curve (fun s => sys[j + 1].tf.toNormal (sys[j].tf.fromNormal (p j s) - sys[j + 1].tf.offset))
      (sys[j + 1].tf.toNormal (sys[j].tf.fromNormal dp)) s0 := by
  refine ⟨(hu.rotate sys[j].tf.rotNormal false).rotate sys[j + 1].tf.rotNormal true, ?_⟩
  have hy := ((hp.rotate sys[j].tf.rotNormal false).sub
    (Curve.const sys[j + 1].tf.offset)).rotate sys[j + 1].tf.rotNormal true
  rwa [show Transform.doRotate sys[j].tf.rotNormal false dp - 0 = sys[j].tf.fromNormal dp by
    rw [Transform.fromNormal]; ext <;> simp] at hy

/-- The displacement where a bundle meets an element. -/
theorem transfer (B : Bundle nwt l clp sys s0 p u t n) (j : ℕ) (hj : j + 1 < sys.length)
    {dp du dq : V3} (hp : Curve (p j) dp s0) (hu : Curve (u j) du s0)
    (hq : Curve (p (j + 1)) dq s0) :
    ∃ d' : ℝ, dq = sys[j + 1].tf.toNormal (sys[j].tf.fromNormal dp) +
      (d' • sys[j + 1].tf.toNormal (sys[j].tf.fromNormal (u j s0)) +
      ((sys[j + 1].tf.toNormal (sys[j].tf.fromNormal (u j s0))).dot (p (j + 1) s0 -
        sys[j + 1].tf.toNormal (sys[j].tf.fromNormal (p j s0) - sys[j + 1].tf.offset))) •
        sys[j + 1].tf.toNormal (sys[j].tf.fromNormal du)) := by
  have hR := B.placed _ (List.getElem_mem hj)
  have hR0 := B.placed _ (List.getElem_mem (Nat.lt_of_succ_lt hj))
  obtain ⟨hi, hy⟩ := arriving j hj hp hu
  have hd := hi.dot (hq.sub hy)
  have h := hy.add (Curve.smul hd hi)
  refine ⟨_, hq.unique (h.congr ?_)⟩
  filter_upwards [B.step j hj (B.pos j (by omega)), B.units j (by omega)] with s ⟨d, e1, _⟩ h1
  have h2 : (sys[j + 1].tf.toNormal (sys[j].tf.fromNormal (u j s))).dot
      (sys[j + 1].tf.toNormal (sys[j].tf.fromNormal (u j s))) = 1 := by
    rw [(c10_dot hR _ _).2.1, (c10_dot hR0 _ _).1, h1]
  have h3 : (sys[j + 1].tf.toNormal (sys[j].tf.fromNormal (u j s))).dot (p (j + 1) s -
        sys[j + 1].tf.toNormal (sys[j].tf.fromNormal (p j s) - sys[j + 1].tf.offset)) = d := by
    rw [e1]
    simp only [V3.dot] at h2 ⊢
    simp only [add_x, add_y, add_z, sub_x, sub_y, sub_z, smul_x, smul_y, smul_z]
    linear_combination d * h2
  rw [h3]
  exact e1

/-- The change of direction where a bundle is refracted or reflected. -/
theorem bend (B : Bundle nwt l clp sys s0 p u t n) (j : ℕ) (hj : j + 1 < sys.length)
    {dp du dq dv : V3} (hp : Curve (p j) dp s0) (hu : Curve (u j) du s0)
    (hq : Curve (p (j + 1)) dq s0) (hv : Curve (u (j + 1)) dv s0) (sh : Shape) (m : Material)
    (hA : Acts sys[j + 1] sh m) (hid : ¬ (m.mirror = false ∧ n j = m.index l)) (r : V3)
    (hr : sh.surfaceNormal (p (j + 1) s0) = some r) (e κ : ℝ)
    (hN : ∀ (f : ℝ → V3) (v : V3) (s1 : ℝ), f s1 = p (j + 1) s0 → Curve f v s1 →
      ∃ R : ℝ → V3, (∀ᶠ s in 𝓝 s1, sh.surfaceNormal (f s) = some (R s)) ∧
        Curve R (normalChange e κ (p (j + 1) s0) v) s1) :
    r.dot dq = 0 ∧ ∃ g' : ℝ, n (j + 1) • dv =
      n j • sys[j + 1].tf.toNormal (sys[j].tf.fromNormal du) + (g' • r +
        (n (j + 1) * (u (j + 1) s0).z - n j * (sys[j + 1].tf.toNormal (sys[j].tf.fromNormal (u j s0))).z) •
          normalChange e κ (p (j + 1) s0) dq) := by
  obtain ⟨hi, -⟩ := arriving j hj hp hu
  constructor
  · obtain ⟨G, hG, hG'⟩ := (c08_gradient sh _ r hr).1 (fun s => (p (j + 1) s).x)
      (fun s => (p (j + 1) s).y) (fun s => (p (j + 1) s).z) dq s0 rfl rfl rfl hq.x hq.y hq.z
    refine hG'.unique ((hasDerivAt_const s0 (0 : ℝ)).congr_of_eventuallyEq ?_)
    filter_upwards [hG, B.sheet j hj sh m hA] with s h1 h2
    rw [h2] at h1
    exact (Option.some.inj h1).symm
  · obtain ⟨R, hR, hRc⟩ := hN (p (j + 1)) dq s0 rfl hq
    have hR0 : R s0 = r := by
      have := hR.self_of_nhds
      rw [hr] at this
      exact (Option.some.inj this).symm
    have hg := (hv.z.const_mul (n (j + 1))).sub (hi.z.const_mul (n j))
    have h := (Curve.smul (hasDerivAt_const s0 (n j)) hi).add (Curve.smul hg hRc)
    have h' := Curve.smul (hasDerivAt_const s0 (n (j + 1))) hv
    have hev : ∀ᶠ s in 𝓝 s0, n (j + 1) • u (j + 1) s =
        n j • sys[j + 1].tf.toNormal (sys[j].tf.fromNormal (u j s)) + (n (j + 1) * (u (j + 1) s).z -
          n j * (sys[j + 1].tf.toNormal (sys[j].tf.fromNormal (u j s))).z) • R s := by
      filter_upwards [B.step j hj (B.pos j (by omega)), hR] with s ⟨d, _, _, _, _, e5⟩ hRs
      obtain ⟨r', g, hr', h2⟩ := (e5 sh m hA).2 hid
      rw [hRs] at hr'
      obtain rfl := Option.some.inj hr'
      have hz : (R s).z = 1 := (c08_gradient sh _ _ hRs).2
      have hzz := congrArg V3.z h2
      simp only [add_z, smul_z, hz] at hzz
      rw [h2]
      congr 2
      linarith
    have := h'.unique (h.congr hev)
    rw [hR0] at this
    refine ⟨n (j + 1) * dv.z - n j * (sys[j + 1].tf.toNormal (sys[j].tf.fromNormal du)).z,
      Eq.trans ?_ (this.trans ?_)⟩
    · ext <;> simp
    · ext <;> simp

end Bundle

/-- A ray is determined by its start. -/
theorem Bundle.same {nwt : Shape.NewtonFn} {l : ℝ} {clp : Bool} {sys : List Elem} {s1 s2 : ℝ}
    {p1 u1 p2 u2 : ℕ → ℝ → V3} {t1 t2 : ℕ → ℝ → ℝ} {n n' : ℕ → ℝ}
    (B1 : Bundle nwt l clp sys s1 p1 u1 t1 n) (B2 : Bundle nwt l clp sys s2 p2 u2 t2 n')
    (hp : p1 0 s1 = p2 0 s2) (hu : u1 0 s1 = u2 0 s2) (hn : n 0 = n' 0) :
    ∀ j < sys.length, p1 j s1 = p2 j s2 ∧ u1 j s1 = u2 j s2 ∧ n j = n' j
  | 0, _ => ⟨hp, hu, hn⟩
  | j + 1, hj => by
    obtain ⟨ep, eu, en⟩ := B1.same B2 hp hu hn j (by omega)
    obtain ⟨arr, out, hlen, hout, hrow⟩ := B1.rays.self_of_nhds
    obtain ⟨arr', out', hlen', hout', hrow'⟩ := B2.rays.self_of_nhds
    obtain ⟨a, ha, hp1, hu1, han, -⟩ := hrow j (by omega)
    obtain ⟨b, hb, hq, hv, hbn, -⟩ := hrow (j + 1) hj
    obtain ⟨a', ha', hp1', hu1', han', -⟩ := hrow' j (by omega)
    obtain ⟨b', hb', hq', hv', hbn', -⟩ := hrow' (j + 1) hj
    obtain ⟨x, hx, hx1⟩ := trace_succ hlen hout j hj
    obtain ⟨x', hx', hx1'⟩ := trace_succ hlen' hout' j hj
    rw [ha] at hx; cases hx
    rw [hb] at hx1; cases hx1
    rw [ha'] at hx'; cases hx'
    rw [hb'] at hx1'; cases hx1'
    have : rayOfRow sys[j] a = rayOfRow sys[j] a' := by
      simp only [rayOfRow, hp1, hu1, han, hp1', hu1', han', ep, eu, en]
    rw [this] at hq hv hbn
    rw [hq] at hq'
    rw [hv] at hv'
    exact ⟨Option.some.inj hq', Option.some.inj hv', hbn.symm.trans hbn'⟩

/-- A bundle has the indices of its elements. -/
theorem Bundle.withIndex {nwt : Shape.NewtonFn} {l : ℝ} {clp : Bool} {sys : List Elem} {s0 : ℝ}
    {p u : ℕ → ℝ → V3} {t : ℕ → ℝ → ℝ} {n n' : ℕ → ℝ} (B : Bundle nwt l clp sys s0 p u t n)
    (h : ∀ j < sys.length, n' j = n j) (h0 : n' 0 = n 0) : Bundle nwt l clp sys s0 p u t n' :=
  ⟨B.placed, B.index, h0 ▸ B.start, B.unit, by
    filter_upwards [B.rays] with s ⟨arr, out, hlen, hout, hrow⟩
    refine ⟨arr, out, hlen, hout, fun j hj => ?_⟩
    rw [h j hj]
    exact hrow j hj, B.sheet⟩

/-- The symmetric form of the surface. -/
theorem normalChange_symm (e κ : ℝ) (q v w : V3) :
    (normalChange e κ q v).dot w = (normalChange e κ q w).dot v := by
  simp only [normalChange, V3.dot]; ring

/-- C93: two neighbours of one ray keep their invariant `n (du1 . dy2 - du2 . dy1)` from element to element:
the real trace is symplectic (the Lagrange invariant of C18 without the paraxial approximation). -/
theorem c93_symplectic {nwt : Shape.NewtonFn} {l : ℝ} {clp : Bool} {sys : List Elem} {s1 s2 : ℝ}
    {p1 u1 p2 u2 : ℕ → ℝ → V3} {t1 t2 : ℕ → ℝ → ℝ} {n n' : ℕ → ℝ}
    (B1 : Bundle nwt l clp sys s1 p1 u1 t1 n) (B2' : Bundle nwt l clp sys s2 p2 u2 t2 n')
    (dp1 du1 dp2 du2 : ℕ → V3)
    (hp1 : ∀ j < sys.length, Curve (p1 j) (dp1 j) s1) (hu1 : ∀ j < sys.length, Curve (u1 j) (du1 j) s1)
    (hp2 : ∀ j < sys.length, Curve (p2 j) (dp2 j) s2) (hu2 : ∀ j < sys.length, Curve (u2 j) (du2 j) s2)
    (hp0 : p1 0 s1 = p2 0 s2) (hu0 : u1 0 s1 = u2 0 s2) (hn0 : n 0 = n' 0) (j : ℕ) (hj : j < sys.length) :
    n j * ((du1 j).dot (dp2 j) - (du2 j).dot (dp1 j)) =
      n 0 * ((du1 0).dot (dp2 0) - (du2 0).dot (dp1 0)) := by
  have hp := fun j hj => (B1.same B2' hp0 hu0 hn0 j hj).1
  have hu := fun j hj => (B1.same B2' hp0 hu0 hn0 j hj).2.1
  have B2 := B2'.withIndex (fun j hj => (B1.same B2' hp0 hu0 hn0 j hj).2.2) hn0
  induction j with
  | zero => rfl
  | succ j ih =>
    have hj0 : j < sys.length := by omega
    rw [← ih hj0]
    have hR := B1.placed _ (List.getElem_mem hj)
    have hR0 := B1.placed _ (List.getElem_mem hj0)
    obtain ⟨d1, hd1⟩ := B1.transfer j hj (hp1 j hj0) (hu1 j hj0) (hp1 _ hj)
    obtain ⟨d2, hd2⟩ := B2.transfer j hj (hp2 j hj0) (hu2 j hj0) (hp2 _ hj)
    rw [← hp j hj0, ← hp _ hj, ← hu j hj0] at hd2
    have hW : ∀ a b : V3, (sys[j + 1].tf.toNormal (sys[j].tf.fromNormal a)).dot
        (sys[j + 1].tf.toNormal (sys[j].tf.fromNormal b)) = a.dot b := by
      intro a b
      rw [(c10_dot hR _ _).2.1, (c10_dot hR0 _ _).1]
    have o1 : (u1 j s1).dot (du1 j) = 0 := unit_curve (hu1 j hj0) (B1.units j hj0)
    have o2 : (u1 j s1).dot (du2 j) = 0 := by
      rw [hu j hj0]; exact unit_curve (hu2 j hj0) (B2.units j hj0)
    rw [← hW] at o1 o2
    have w1 := hW (du1 j) (dp2 j)
    have w2 := hW (du2 j) (dp1 j)
    -- up to the surface
    have hin : (sys[j + 1].tf.toNormal (sys[j].tf.fromNormal (du1 j))).dot (dp2 (j + 1)) -
        (sys[j + 1].tf.toNormal (sys[j].tf.fromNormal (du2 j))).dot (dp1 (j + 1)) =
        (du1 j).dot (dp2 j) - (du2 j).dot (dp1 j) := by
      rw [hd1, hd2, ← w1, ← w2]
      generalize (sys[j + 1].tf.toNormal (sys[j].tf.fromNormal (u1 j s1))).dot (p1 (j + 1) s1 -
        sys[j + 1].tf.toNormal (sys[j].tf.fromNormal (p1 j s1) - sys[j + 1].tf.offset)) = d
      simp only [V3.dot] at o1 o2 ⊢
      simp only [add_x, add_y, add_z, smul_x, smul_y, smul_z]
      linear_combination d2 * o1 - d1 * o2
    rw [← hin]
    have st1 := (B1.step j hj (B1.pos j hj0))
    have st2 := (B2.step j hj (B2.pos j hj0))
    obtain ⟨i1, -⟩ := Bundle.arriving (sys := sys) j hj (hp1 j hj0) (hu1 j hj0)
    obtain ⟨i2, -⟩ := Bundle.arriving (sys := sys) j hj (hp2 j hj0) (hu2 j hj0)
    have same : (∀ᶠ s in 𝓝 s1, u1 (j + 1) s = sys[j + 1].tf.toNormal (sys[j].tf.fromNormal (u1 j s))) →
        (∀ᶠ s in 𝓝 s2, u2 (j + 1) s = sys[j + 1].tf.toNormal (sys[j].tf.fromNormal (u2 j s))) →
        n (j + 1) = n j →
        n (j + 1) * ((du1 (j + 1)).dot (dp2 (j + 1)) - (du2 (j + 1)).dot (dp1 (j + 1))) =
        n j * ((sys[j + 1].tf.toNormal (sys[j].tf.fromNormal (du1 j))).dot (dp2 (j + 1)) -
        (sys[j + 1].tf.toNormal (sys[j].tf.fromNormal (du2 j))).dot (dp1 (j + 1))) := by
      intro h1 h2 hn
      rw [hn, (hu1 _ hj).unique (i1.congr h1), (hu2 _ hj).unique (i2.congr h2)]
    by_cases hA : ∃ sh m, Acts sys[j + 1] sh m
    · obtain ⟨sh, m, hA⟩ := hA
      by_cases hid : m.mirror = false ∧ n j = m.index l
      · exact same (st1.mono fun s ⟨d, _, _, _, _, e5⟩ => ((e5 sh m hA).1 hid).2)
          (st2.mono fun s ⟨d, _, _, _, _, e5⟩ => ((e5 sh m hA).1 hid).2)
          (let ⟨_, _, _, _, _, e5⟩ := st1.self_of_nhds; ((e5 sh m hA).1 hid).1)
      · obtain ⟨d, -, -, -, -, e5⟩ := st1.self_of_nhds
        obtain ⟨r, g, hr, -⟩ := (e5 sh m hA).2 hid
        obtain ⟨e, κ, hN⟩ := normal_curve sh _ r hr
        obtain ⟨r1, g1, b1⟩ := B1.bend j hj (hp1 j hj0) (hu1 j hj0) (hp1 _ hj) (hu1 _ hj) sh m hA hid r hr
          e κ hN
        rw [hp _ hj] at hr hN
        obtain ⟨r2, g2, b2⟩ := B2.bend j hj (hp2 j hj0) (hu2 j hj0) (hp2 _ hj) (hu2 _ hj) sh m hA hid r hr
          e κ hN
        rw [← hp _ hj, ← hu _ hj, ← hu _ hj0] at b2
        have hs := normalChange_symm e κ (p1 (j + 1) s1) (dp1 (j + 1)) (dp2 (j + 1))
        generalize normalChange e κ (p1 (j + 1) s1) (dp1 (j + 1)) = N1 at b1 hs
        generalize normalChange e κ (p1 (j + 1) s1) (dp2 (j + 1)) = N2 at b2 hs
        generalize n (j + 1) * (u1 (j + 1) s1).z -
          n j * (sys[j + 1].tf.toNormal (sys[j].tf.fromNormal (u1 j s1))).z = G at b1 b2
        have x1 := congrArg V3.x b1
        have y1 := congrArg V3.y b1
        have z1 := congrArg V3.z b1
        have x2 := congrArg V3.x b2
        have y2 := congrArg V3.y b2
        have z2 := congrArg V3.z b2
        simp only [add_x, add_y, add_z, smul_x, smul_y, smul_z] at x1 y1 z1 x2 y2 z2
        simp only [V3.dot] at hs r1 r2 ⊢
        linear_combination (dp2 (j + 1)).x * x1 + (dp2 (j + 1)).y * y1 + (dp2 (j + 1)).z * z1
          - (dp1 (j + 1)).x * x2 - (dp1 (j + 1)).y * y2 - (dp1 (j + 1)).z * z2 + g1 * r2 - g2 * r1 + G * hs
    · push Not at hA
      exact same (st1.mono fun s ⟨d, _, _, _, e4, _⟩ => (e4 hA).2)
        (st2.mono fun s ⟨d, _, _, _, e4, _⟩ => (e4 hA).2)
        (let ⟨_, _, _, _, e4, _⟩ := st1.self_of_nhds; (e4 hA).1)

/-! ### Example: a spherical mirror with the object in its centre -/

namespace MalusExample

/-- The object and the mirror of the example, and the centre of the mirror again. -/
noncomputable def exObject : Elem := ⟨Transform.update 0 ⟨0, 0, 1⟩ 0, .inf, none, none⟩
noncomputable def exMirror : Elem := ⟨Transform.update 10 ⟨0, 0, 1⟩ 0, .inf, some ⟨-1 / 10, 0, none, false⟩,
  some (some ⟨true, false, fun _ => 1⟩)⟩
noncomputable def exCentre : Elem := ⟨Transform.update 10 ⟨0, 0, -1⟩ 0, .inf, none, none⟩

/-- Unit vectors. -/
noncomputable def exDir (s : ℝ) : V3 := ⟨s, 0, √(1 - s ^ 2)⟩

theorem exDir_unit {s : ℝ} (hs : s ∈ Set.Ioo (-1 : ℝ) 1) : (exDir s).dot (exDir s) = 1 := by
  have : 0 ≤ 1 - s ^ 2 := by nlinarith [hs.1, hs.2]
  simp only [exDir, V3.dot, mul_zero, add_zero, Real.mul_self_sqrt this]
  ring

theorem exDir_pos {s : ℝ} (hs : s ∈ Set.Ioo (-1 : ℝ) 1) : 0 < (exDir s).z :=
  Real.sqrt_pos.mpr (by nlinarith [hs.1, hs.2])

theorem exDir_curve {s : ℝ} (hs : s ∈ Set.Ioo (-1 : ℝ) 1) : ∃ v, Curve exDir v s := by
  have h : 0 < 1 - s ^ 2 := by nlinarith [hs.1, hs.2]
  have hd : DifferentiableAt ℝ (fun s : ℝ => √(1 - s ^ 2)) s :=
    ((differentiableAt_const _).sub (differentiableAt_id.pow 2)).sqrt h.ne'
  exact ⟨⟨1, 0, _⟩, ⟨hasDerivAt_id s, hasDerivAt_const _ _, hd.hasDerivAt⟩⟩

/-- Positions, directions, paths and indices of the rays of the example. -/
noncomputable def exPos : ℕ → ℝ → V3
  | 1 => fun s => (10 : ℝ) • exDir s - ⟨0, 0, 10⟩
  | _ => fun _ => 0
noncomputable def exAim : ℕ → ℝ → V3
  | 0 => exDir
  | 1 => fun s => (-1 : ℝ) • exDir s
  | _ => fun s => ((-1 : ℝ) • exDir s).turn (-1)

theorem exMirror_normal {s : ℝ} (hs : s ∈ Set.Ioo (-1 : ℝ) 1) :
    (⟨-1 / 10, 0, none, false⟩ : Shape).surfaceNormal (exPos 1 s) = some ((1 / (exDir s).z) • exDir s) := by
  have hu := exDir_unit hs
  have hz := exDir_pos hs
  unfold Shape.surfaceNormal
  simp only [Shape.rsq]
  have h1 : 1 - (1 + 0) * (-1 / 10 : ℝ) ^ 2 * ((exPos 1 s).x * (exPos 1 s).x + (exPos 1 s).y * (exPos 1 s).y) =
      (exDir s).z ^ 2 := by
    simp only [V3.dot] at hu
    simp only [exPos, sub_x, sub_y, smul_x, smul_y]
    linear_combination -hu
  simp only [h1, Real.sqrt_sq hz.le]
  norm_num
  refine ⟨_, ⟨hz.ne', rfl⟩, ?_⟩
  simp only [exPos]
  ext <;> simp <;> field_simp

theorem exMirror_step (nwt : Shape.NewtonFn) {s : ℝ} (hs : s ∈ Set.Ioo (-1 : ℝ) 1) :
    step nwt 1 false exMirror ⟨some 0, some (exDir s), 1⟩ =
      (⟨some (exPos 1 s), some (exAim 1 s), 1, some (exDir s), some 10⟩,
        ⟨some (exPos 1 s), some (exAim 1 s), 1⟩) := by
  have hA : OnAxis 1 exMirror.tf := onAxis_update 10 1 (by norm_num) (.inl rfl)
  have hoff : exMirror.tf.offset = ⟨0, 0, 10⟩ := by
    rw [hA.off]; simp [exMirror, Transform.update_distance]
  have hu := exDir_unit hs
  have hz := exDir_pos hs
  have hturn : ∀ v : V3, v.turn 1 = v := fun v => by ext <;> simp [V3.turn]
  have hint : exMirror.intercept nwt (0 - ⟨0, 0, 10⟩) (exDir s) = some 10 := by
    simp only [Elem.intercept, exMirror, Shape.intercept]
    rw [interceptConic_eq _ _ _ (norm_eq_one hu) (by norm_num)]
    have hd : ((-1 / 10 : ℝ) * ((exDir s).x * (0 - (⟨0, 0, 10⟩ : V3)).x + (exDir s).y * (0 - (⟨0, 0, 10⟩ : V3)).y +
        (exDir s).z * (0 - (⟨0, 0, 10⟩ : V3)).z * (1 + 0)) - (exDir s).z) = 0 := by simp; ring
    have hE : quadCoeff (-1 / 10) 0 (exDir s) = -1 / 10 := by
      unfold quadCoeff
      simp only [V3.dot] at hu
      linear_combination (-1 / 10) * hu
    simp only [hd, hE]
    norm_num
  have hr := exMirror_normal hs
  have hy : ((0 : V3) - ⟨0, 0, 10⟩) + (10 : ℝ) • exDir s = exPos 1 s := by
    ext <;> simp [exPos]; ring
  have href : refractAt ((1 / (exDir s).z) • exDir s) (exDir s) (-1) = some (exAim 1 s) := by
    have h2 : ((1 / (exDir s).z) • exDir s).dot ((1 / (exDir s).z) • exDir s) = (1 / (exDir s).z) ^ 2 := by
      simp only [V3.dot, smul_x, smul_y, smul_z] at hu ⊢
      linear_combination (1 / (exDir s).z) ^ 2 * hu
    have h3 : (exDir s).dot ((1 / (exDir s).z) • exDir s) = 1 / (exDir s).z := by
      simp only [V3.dot, smul_x, smul_y, smul_z] at hu ⊢
      linear_combination (1 / (exDir s).z) * hu
    unfold refractAt
    rw [if_neg (by norm_num)]
    dsimp only
    rw [h2, h3, if_neg (by positivity), if_pos rfl]
    congr 1
    have h4 : 2 * (|(-1 : ℝ)| * (1 / (exDir s).z) / (1 / (exDir s).z) ^ 2) = 2 * (exDir s).z := by
      rw [abs_neg, abs_one]; field_simp
    rw [h4]
    simp only [exAim]
    ext <;> simp <;> field_simp <;> ring
  unfold Elem.step
  simp only [Option.map_some, hoff, hA.into, hturn, Elem.propagate, Option.bind_some, hint, hy]
  have hs' : exMirror.shape = some ⟨-1 / 10, 0, none, false⟩ := rfl
  have hn : getNMu (exMirror.material.getD none) 1 1 = (1, -1) := rfl
  simp only [hs', hn, refract, Option.bind_some, if_neg (show (-1 : ℝ) ≠ 1 by norm_num), hr, href,
    if_neg (show (-1 : ℝ) ≠ 0 by norm_num), Option.map_some, hA.back, hturn, mul_one, Bool.false_eq_true,
    if_false]

theorem exCentre_step (nwt : Shape.NewtonFn) {s : ℝ} (hs : s ∈ Set.Ioo (-1 : ℝ) 1) :
    (step nwt 1 false exCentre ⟨some (exPos 1 s), some (exAim 1 s), 1⟩).1 =
      ⟨some (exPos 2 s), some (exAim 2 s), 1, some (exAim 2 s), some 10⟩ := by
  have hA : OnAxis (-1) exCentre.tf := onAxis_update 10 (-1) (by norm_num) (.inr rfl)
  have hoff : exCentre.tf.offset = ⟨0, 0, -10⟩ := by
    rw [hA.off]; simp [exCentre, Transform.update_distance]
  have hz := exDir_pos hs
  have hi : exCentre.tf.toNormal (exAim 1 s) = exAim 2 s := hA.into _
  have hy : exCentre.tf.toNormal (exPos 1 s - ⟨0, 0, -10⟩) = ((10 : ℝ) • exDir s).turn (-1) := by
    rw [hA.into]; congr 1; ext <;> simp [exPos]
  have hint : exCentre.intercept nwt (((10 : ℝ) • exDir s).turn (-1)) (exAim 2 s) = some 10 := by
    have hz' : (exAim 2 s).z ≠ 0 := by simp [exAim, V3.turn, hz.ne']
    simp only [Elem.intercept, exCentre, Shape.interceptPlane, if_neg hz']
    congr 1
    simp only [exAim, V3.turn, smul_z]
    field_simp
  have hp : ((10 : ℝ) • exDir s).turn (-1) + (10 : ℝ) • exAim 2 s = exPos 2 s := by
    ext <;> simp [exAim, exPos, V3.turn]
  have hsh : exCentre.shape = none := rfl
  unfold Elem.step
  simp only [Option.map_some, hoff, hi, hy, Elem.propagate, Option.bind_some, hint, hsh, hp, mul_one,
    Bool.false_eq_true, if_false]

theorem exTrace (nwt : Shape.NewtonFn) {s : ℝ} (h : s ∈ Set.Ioo (-1 : ℝ) 1) :
    gtPropagate nwt [exObject, exMirror, exCentre] 1 false 1 none
      [⟨some 0, some (exDir s), 1, none, none⟩, ⟨none, none, 0, none, none⟩, ⟨none, none, 0, none, none⟩] =
    some [⟨some 0, some (exDir s), 1, none, none⟩,
      ⟨some (exPos 1 s), some (exAim 1 s), 1, some (exDir s), some 10⟩,
      ⟨some (exPos 2 s), some (exAim 2 s), 1, some (exAim 2 s), some 10⟩] := by
  have hO : OnAxis 1 exObject.tf := onAxis_update 0 1 le_rfl (.inl rfl)
  have hturn : ∀ v : V3, v.turn 1 = v := fun v => by ext <;> simp [V3.turn]
  have h0 : rayOfRow exObject ⟨some 0, some (exDir s), 1, none, none⟩ = ⟨some 0, some (exDir s), 1⟩ := by
    simp only [rayOfRow, Option.map_some, hO.back, hturn]
  change some (writeRows _ 1 (Sys.rows nwt 1 false [exMirror, exCentre] (rayOfRow exObject _))) = _
  rw [h0]
  simp only [Sys.rows, exMirror_step nwt h, exCentre_step nwt h]
  rfl

/-- The rays from the centre of the mirror are a bundle around each of them. -/
theorem exBundle (nwt : Shape.NewtonFn) {s0 : ℝ} (hs : s0 ∈ Set.Ioo (-1 : ℝ) 1) :
    Bundle nwt 1 false [exObject, exMirror, exCentre] s0 exPos exAim (fun _ _ => 10) fun _ => 1 where
  placed := by
    intro e he
    fin_cases he <;> exact reachable_update _ _ _
  index := by
    intro e he sh m hA hm
    fin_cases he
    · cases hA.1
    · cases hA.2; cases hm
    · cases hA.1
  start := one_pos
  unit := by
    filter_upwards [isOpen_Ioo.mem_nhds hs] with s h using exDir_unit h
  rays := by
    filter_upwards [isOpen_Ioo.mem_nhds hs] with s h
    refine ⟨_, _, rfl, exTrace nwt h, ?_⟩
    intro j hj
    have : j < 3 := hj
    interval_cases j
    · exact ⟨_, rfl, rfl, rfl, rfl, fun h => absurd h (lt_irrefl 0)⟩
    · exact ⟨_, rfl, rfl, rfl, rfl, fun _ => rfl⟩
    · exact ⟨_, rfl, rfl, rfl, rfl, fun _ => rfl⟩
  sheet := by
    intro j hj sh m hA
    have : j + 1 < 3 := hj
    obtain rfl | rfl : j = 0 ∨ j = 1 := by omega
    · cases hA.1
      filter_upwards [isOpen_Ioo.mem_nhds hs] with s h
      have hu := exDir_unit h
      have hz := exDir_pos h
      have h1 : 1 - (1 + 0) * (-1 / 10 : ℝ) ^ 2 *
          ((exPos 1 s).x * (exPos 1 s).x + (exPos 1 s).y * (exPos 1 s).y) = (exDir s).z ^ 2 := by
        simp only [V3.dot] at hu
        simp only [exPos, sub_x, sub_y, smul_x, smul_y]
        linear_combination -hu
      unfold Shape.surfaceSag
      simp only [Shape.rsq, h1, Real.sqrt_sq hz.le, if_neg (not_lt.mpr (sq_nonneg (exDir s).z))]
      norm_num
      have h2 : (exPos 1 s).x * (exPos 1 s).x + (exPos 1 s).y * (exPos 1 s).y =
          100 * (1 - (exDir s).z) * (1 + (exDir s).z) := by linear_combination (-100) * h1
      have h3 : (1 + (exDir s).z) ≠ 0 := by positivity
      rw [h2]
      simp only [exPos, sub_z, smul_z]
      field_simp
      ring
    · cases hA.1

theorem exCurves {s : ℝ} (hs : s ∈ Set.Ioo (-1 : ℝ) 1) (j : ℕ) :
    (∃ v, Curve (exPos j) v s) ∧ ∃ v, Curve (exAim j) v s := by
  obtain ⟨v, hv⟩ := exDir_curve hs
  have hm : ∀ c : ℝ, Curve (fun s => c • exDir s) ((0 : ℝ) • exDir s + c • v) s := fun c =>
    hv.smul (hasDerivAt_const s c)
  match j with
  | 0 => exact ⟨⟨_, Curve.const 0⟩, _, hv⟩
  | 1 => exact ⟨⟨_, (hm 10).sub (Curve.const _)⟩, _, hm (-1)⟩
  | j + 2 =>
    set w : V3 := (0 : ℝ) • exDir s + (-1 : ℝ) • v
    exact ⟨⟨_, Curve.const 0⟩, ⟨w.x, -1 * w.y, -1 * w.z⟩, (hm (-1)).x, (hm (-1)).y.const_mul (-1),
      (hm (-1)).z.const_mul (-1)⟩

/-- All hypotheses of `c93_fermat` and so of `c93_step`, `c93_path` and `c93_malus` hold. -/
example (nwt : Shape.NewtonFn) : ∑ j ∈ Finset.range 2, (fun _ _ => (10 : ℝ) : ℕ → ℝ → ℝ) (j + 1) (3 / 5) =
    ∑ j ∈ Finset.range 2, (fun _ _ => (10 : ℝ) : ℕ → ℝ → ℝ) (j + 1) 0 :=
  c93_fermat (fun _ h => exBundle nwt h) (fun j _ _ h => (exCurves h j).1) (fun j _ _ h => (exCurves h j).2) 2
    (by simp) 0 0 (fun _ _ => rfl) (fun _ _ => rfl) (3 / 5) 0 ⟨by norm_num, by norm_num⟩ ⟨by norm_num, by norm_num⟩

end MalusExample

end RayOpt
