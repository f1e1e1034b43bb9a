import Verif.Props.Trace
import Verif.Props.Surface
import Verif.Model.System

/-!
Property C65: every row of a trace obeys the laws of optics with the indices of the materials of the
system (the laws of C01-C08 for one surface, assembled by `System.propagate`).
-/

namespace RayOpt

open V3 Elem Sys

section

variable {nwt : Shape.NewtonFn} {l : ℝ} {clp : Bool} {sys : List Elem} {arr out : List Row}

/-- The direction after clipping. -/
theorem clipped_some {R : Radius} {y u : Option V3} {v : V3}
    (h : (if clp = true then clip R y u else u) = some v) : u = some v := by
  cases clp
  · simpa using h
  · simp only [if_true, clip] at h
    cases y with
    | none => simp at h
    | some p =>
      simp only at h
      split_ifs at h
      exact h

/-- C65: the ray that arrives at an element is, in the lab, the ray that left the previous one. -/
theorem c65_incoming (hlen : arr.length = sys.length) (hsys : ∀ e ∈ sys, Reachable e.tf)
    (h : gtPropagate nwt sys l clp 1 none arr = some out) (j : ℕ) (hj : j + 1 < sys.length)
    (a b : Row) (ha : out[j]? = some a) (hb : out[j + 1]? = some b) (i : V3) (hi : b.i = some i) :
    ∃ u, a.u = some u ∧ sys[j + 1].tf.fromNormal i = sys[j].tf.fromNormal u := by
  obtain ⟨x, hx, hx1⟩ := trace_succ hlen h j hj
  rw [ha] at hx; cases hx
  rw [hb] at hx1; cases hx1
  simp only [step, rayOfRow, Option.map_map, Option.map_eq_some_iff] at hi
  obtain ⟨u, hu, rfl⟩ := hi
  refine ⟨u, hu, ?_⟩
  exact (c10_inverse (hsys _ (List.getElem_mem hj)) _).1

/-- C65: in the lab the point on an element is the point on the previous one, moved along the direction
in which the ray left it. -/
theorem c65_straight (hlen : arr.length = sys.length) (hsys : ∀ e ∈ sys, Reachable e.tf)
    (h : gtPropagate nwt sys l clp 1 none arr = some out) (j : ℕ) (hj : j + 1 < sys.length)
    (a b : Row) (ha : out[j]? = some a) (hb : out[j + 1]? = some b) (q : V3) (hq : b.y = some q) :
    ∃ (p u : V3) (s : ℝ) (oa ob : V3), a.y = some p ∧ a.u = some u ∧ (origins sys)[j]? = some oa ∧
      (origins sys)[j + 1]? = some ob ∧
      ob + sys[j + 1].tf.fromNormal q =
        oa + sys[j].tf.fromNormal p + s • sys[j].tf.fromNormal u := by
  have ht : ∃ τ, b.t = some τ := by
    obtain ⟨x, hx, hx1⟩ := trace_succ hlen h j hj
    rw [hb] at hx1; cases hx1
    rw [← Option.isSome_iff_exists]
    have hs : (step nwt l clp sys[j + 1] (rayOfRow sys[j] x)).1.y.isSome = true := by rw [hq]; rfl
    revert hs
    obtain ⟨xy, xu, xn, xi, xt⟩ := x
    simp only [step, Elem.propagate, rayOfRow]
    cases sys[j + 1].shape <;> cases xy <;> cases xu <;> simp
  obtain ⟨τ, hτ⟩ := ht
  obtain ⟨p, q', u, s, oa, ob, hp, hq', hu, hoa, hob, e, -, -⟩ :=
    c14_path hlen hsys h j hj a b ha hb τ hτ
  rw [hq] at hq'; cases hq'
  refine ⟨p, u, s, oa, ob, hp, hu, hoa, hob, ?_⟩
  rw [← e]
  unfold labPos
  ext <;> simp

/-- C65: the point where a ray meets a conic surface lies on the surface. -/
theorem c65_on_surface (hlen : arr.length = sys.length)
    (h : gtPropagate nwt sys l clp 1 none arr = some out) (j : ℕ) (hj : j + 1 < sys.length)
    (b : Row) (hb : out[j + 1]? = some b) (p i : V3) (hp : b.y = some p)
    (hi : b.i = some i) (hu : i.norm = 1) :
    (sys[j + 1].shape = none → p.z = 0) ∧
    (∀ sh, sys[j + 1].shape = some sh → sh.aspherics = none →
      OnQuadric sh.curvature sh.conic p) := by
  obtain ⟨x, hx, hx1⟩ := trace_succ hlen h j hj
  rw [hb] at hx1; cases hx1
  generalize sys[j + 1] = e at *
  simp only [step] at hi hp
  rw [hi] at hp
  have hp' : ∃ y t, e.intercept nwt y i = some t ∧ p = y + t • i := by
    unfold Elem.propagate at hp
    cases hs : e.shape <;> rw [hs] at hp <;>
      simp only [Option.bind_some, Option.bind_eq_some_iff, Option.map_eq_some_iff] at hp <;>
      obtain ⟨y, hy, t, ⟨y', hy', ht⟩, rfl⟩ := hp <;>
      (obtain ⟨z, hz, rfl⟩ := hy; obtain ⟨z', hz', rfl⟩ := hy'; rw [hz] at hz'; cases hz';
        exact ⟨_, t, ht, rfl⟩)
  obtain ⟨y, t, ht, rfl⟩ := hp'
  constructor
  · intro hs
    simp only [Elem.intercept, hs, Shape.interceptPlane] at ht
    split_ifs at ht with hz
    cases ht
    simp only [add_z, smul_z]; field_simp; ring
  · intro sh hs hasp
    simp only [Elem.intercept, hs] at ht
    exact c06_on_quadric nwt sh y i t hasp hu ht

/-- C65: on an aspheric surface, which is met by Newton's method, the point is as close to the surface as
the solver's roots are to roots. -/
theorem c65_on_asphere (hlen : arr.length = sys.length)
    (h : gtPropagate nwt sys l clp 1 none arr = some out) (j : ℕ) (hj : j + 1 < sys.length)
    (b : Row) (hb : out[j + 1]? = some b) (p : V3) (hp : b.y = some p) (sh : Shape)
    (hs : sys[j + 1].shape = some sh) (hasp : sh.aspherics ≠ none) (ε : ℝ)
    (hnwt : ∀ f f' x t, nwt f f' x = some t → ∃ r, f t = some r ∧ |r| ≤ ε) :
    ∃ r, sh.surfaceSag p = some r ∧ |r| ≤ ε := by
  obtain ⟨x, hx, hx1⟩ := trace_succ hlen h j hj
  rw [hb] at hx1; cases hx1
  generalize sys[j + 1] = e at *
  have hp' : ∃ y i t, e.intercept nwt y i = some t ∧ p = y + t • i := by
    simp only [step, Elem.propagate, hs, Option.bind_eq_some_iff, Option.map_eq_some_iff] at hp
    obtain ⟨y, hy, i, hi, t, ⟨y', hy', i', hi', ht⟩, rfl⟩ := hp
    obtain ⟨z, hz, rfl⟩ := hy
    obtain ⟨z', hz', rfl⟩ := hy'
    obtain ⟨w, hw, rfl⟩ := hi
    obtain ⟨w', hw', rfl⟩ := hi'
    rw [hz] at hz'; cases hz'
    rw [hw] at hw'; cases hw'
    exact ⟨_, _, t, ht, rfl⟩
  obtain ⟨y, i, t, ht, rfl⟩ := hp'
  obtain ⟨cs, hcs⟩ := Option.ne_none_iff_exists'.mp hasp
  simp only [Elem.intercept, hs, Shape.intercept, hcs, Shape.interceptNewton,
    Option.bind_eq_some_iff] at ht
  obtain ⟨s0, -, ht⟩ := ht
  exact hnwt _ _ _ _ ht

/-- A solver that answers with a root if the start value is one finds the vertex of an asphere for the
axial ray. -/
example : ∃ nwt : Shape.NewtonFn,
    (∀ f f' x t, nwt f f' x = some t → ∃ r, f t = some r ∧ |r| ≤ 0) ∧
    (⟨1 / 5, 1, some [0, 1 / 1000], false⟩ : Shape).intercept nwt ⟨0, 0, -1⟩ ez = some 1 := by
  classical
  refine ⟨fun f _ x => if f x = some 0 then some x else none, fun f f' x t h => ?_, ?_⟩
  · simp only at h
    split_ifs at h with h0
    cases h
    exact ⟨0, h0, by simp⟩
  · have e : (⟨0, 0, -1⟩ : V3) + (1 : ℝ) • ez = 0 := by ext <;> simp [ez]
    have h0 : (⟨1 / 5, 1, some [0, 1 / 1000], false⟩ : Shape).surfaceSag 0 = some 0 := by
      rw [c08_sag_value _ _ _ rfl (by norm_num)]
      simp
    simp [Shape.intercept, Shape.interceptNewton, Shape.interceptPlane, ez] at *
    simp [e, h0]

/-- C65: an element that is only a reference plane, or has no material, leaves direction and index
alone. -/
theorem c65_passive (hlen : arr.length = sys.length)
    (h : gtPropagate nwt sys l clp 1 none arr = some out) (j : ℕ) (hj : j + 1 < sys.length)
    (a b : Row) (ha : out[j]? = some a) (hb : out[j + 1]? = some b)
    (he : sys[j + 1].shape = none ∨ sys[j + 1].mat = none) :
    b.n = a.n ∧ ∀ v, b.u = some v → b.i = some v := by
  obtain ⟨x, hx, hx1⟩ := trace_succ hlen h j hj
  rw [ha] at hx; cases hx
  rw [hb] at hx1; cases hx1
  generalize sys[j + 1] = e at *
  simp only [step]
  unfold Elem.propagate
  cases hs : e.shape with
  | none => exact ⟨rfl, fun v hv => clipped_some hv⟩
  | some sh =>
    have hm : e.material.getD none = none := he.resolve_left (by rw [hs]; simp)
    simp only [hm, getNMu, one_ne_zero, if_false]
    refine ⟨rfl, fun v hv => ?_⟩
    simp only [refract, if_true, Option.bind_fun_some] at hv
    exact clipped_some hv

/-- The outgoing direction at a surface that acts. -/
theorem refract_some {s : Shape} {y u0 : Option V3} {mu : ℝ} {v p : V3} (h1 : mu ≠ 1)
    (hy : y = some p) (h : refract s y u0 mu = some v) :
    ∃ i r, u0 = some i ∧ s.surfaceNormal p = some r ∧ refractAt r i mu = some v := by
  unfold refract at h
  simp only [Option.bind_eq_some_iff, if_neg h1, hy] at h
  obtain ⟨i, hi, r, hr, hv⟩ := h
  exact ⟨i, r, hi, hr, hv⟩

/-- C65: a mirror keeps the index and reflects about its normal at the point where the ray meets
it. -/
theorem c65_mirror (hlen : arr.length = sys.length)
    (h : gtPropagate nwt sys l clp 1 none arr = some out) (j : ℕ) (hj : j + 1 < sys.length)
    (a b : Row) (ha : out[j]? = some a) (hb : out[j + 1]? = some b) (sh : Shape)
    (hs : sys[j + 1].shape = some sh) (m : Material) (hm : sys[j + 1].mat = some m)
    (hmir : m.mirror = true) :
    b.n = a.n ∧ ∀ v p, b.u = some v → b.y = some p → ∃ i r, b.i = some i ∧
      sh.surfaceNormal p = some r ∧ Reflected r i v := by
  obtain ⟨x, hx, hx1⟩ := trace_succ hlen h j hj
  rw [ha] at hx; cases hx
  rw [hb] at hx1; cases hx1
  generalize sys[j + 1] = e at *
  have hm' : e.material.getD none = some m := hm
  simp only [step]
  unfold Elem.propagate
  rw [hs]
  simp only [hm', getNMu, hmir, if_true]
  refine ⟨rfl, fun v p hv hp => ?_⟩
  rw [if_neg (by norm_num)] at hv
  obtain ⟨i, r, hi, hr, hv⟩ := refract_some (by norm_num) hp hv
  have hr0 : r ≠ 0 := by
    intro h0
    have := (c08_gradient sh p r hr).2
    rw [h0] at this; simp at this
  exact ⟨i, r, clipped_some hi, hr, (c03_reflect hr0 v).mp hv⟩

/-- C65: a refracting surface switches to the index of its material at the traced wavelength, and a
unit direction that arrives with the normal leaves according to Snell's law between the two
indices. -/
theorem c65_snell (hlen : arr.length = sys.length)
    (h : gtPropagate nwt sys l clp 1 none arr = some out) (j : ℕ) (hj : j + 1 < sys.length)
    (a b : Row) (ha : out[j]? = some a) (hb : out[j + 1]? = some b) (sh : Shape)
    (hs : sys[j + 1].shape = some sh) (m : Material) (hm : sys[j + 1].mat = some m)
    (hmir : m.mirror = false) :
    b.n = m.index l ∧ (0 < a.n → 0 < m.index l → ∀ v p i r, b.u = some v → b.y = some p →
      b.i = some i → i.dot i = 1 → sh.surfaceNormal p = some r → 0 ≤ i.dot r →
      Snell a.n (m.index l) r i v) := by
  obtain ⟨x, hx, hx1⟩ := trace_succ hlen h j hj
  rw [ha] at hx; cases hx
  rw [hb] at hx1; cases hx1
  generalize sys[j + 1] = e at *
  have hm' : e.material.getD none = some m := hm
  simp only [step]
  unfold Elem.propagate
  rw [hs]
  simp only [hm', getNMu, hmir, Bool.false_eq_true, if_false]
  refine ⟨trivial, fun hn0 hn v p i r hv hp hi hu hr hside => ?_⟩
  have hr0 : r ≠ 0 := by
    intro h0
    have := (c08_gradient sh p r hr).2
    rw [h0] at this; simp at this
  have hn0' : 0 < (rayOfRow sys[j] a).n := hn0
  rw [if_neg (div_pos hn0' hn).ne'] at hv
  rw [← c02_snell hn0 hn hr0 hu hside]
  by_cases h1 : (rayOfRow sys[j] a).n / m.index l = 1
  · have h1' : a.n / m.index l = 1 := h1
    rw [h1] at hv
    simp only [refract, if_true, Option.bind_fun_some] at hv
    have := clipped_some hv
    rw [hi] at this; cases this
    rw [h1', refractAt, if_pos rfl]
  · obtain ⟨i', r', hi', hr', hv'⟩ := refract_some h1 hp hv
    have := clipped_some hi'
    rw [hi] at this; cases this
    rw [hr] at hr'; cases hr'
    exact hv'

end

/-- A lens surface and a mirror behind an object plane: the hypotheses hold for an axial ray. -/
example : ∃ out, gtPropagate (fun _ _ _ => none)
    [⟨Transform.init 0 ez 0 none, .inf, none, none⟩,
     ⟨Transform.init 1 ez 0 none, .inf, some ⟨0, 0, none, false⟩,
       some (some ⟨false, true, fun _ => 3 / 2⟩)⟩,
     ⟨Transform.init 2 ez 0 none, .inf, some ⟨0, 0, none, false⟩,
       some (some ⟨true, false, fun _ => 1⟩)⟩] 1 true 1 none
    [⟨some 0, some ez, 1, none, none⟩, ⟨none, none, 0, none, none⟩, ⟨none, none, 0, none, none⟩]
    = some out := ⟨_, rfl⟩

end RayOpt
