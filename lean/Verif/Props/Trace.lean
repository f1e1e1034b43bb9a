import Verif.Lemmas.Trace
import Verif.Lemmas.Surface
import Verif.Props.Placement
import Verif.Props.Refraction

/-!
Properties C01 (whole trace), C09, C13 (geometric part), C14: ray tracing through a system.
-/

namespace RayOpt

open V3 Elem Sys

/-! ## Specification -/

/-- Aperture of radius `R` (possibly infinite), in the element's own coordinates. -/
def InAperture (R : Radius) (p : V3) : Prop := ∀ r, R = .fin r → p.x ^ 2 + p.y ^ 2 ≤ r ^ 2

/-- A direction is finite and of unit length, or NaN. -/
def UnitOrNone (u : Option V3) : Prop := ∀ v, u = some v → v.norm = 1

/-! ## C13 -/

/-- C13 (geometric): tracing `start..stop` equals tracing `start..m` and resuming at `m`; this is
the API-level statement about `GeometricTrace.propagate`, whose arrays keep all rows. -/
theorem c13_geometric_split (nwt : Shape.NewtonFn) (l : ℝ) (clp : Bool) (sys : List Elem)
    (start m : ℕ) (stop : Option ℤ) (arr mid out : List Row)
    (hlen : arr.length = sys.length) (hs : 1 ≤ start) (hsm : start ≤ m)
    (hm : m ≤ pyStop sys.length stop)
    (hmid : gtPropagate nwt sys l clp start (some m) arr = some mid)
    (hout : gtPropagate nwt sys l clp start stop arr = some out) :
    gtPropagate nwt sys l clp m stop mid = some out := by
  have hb := pyStop_le sys.length stop
  have hmb : pyStop sys.length (some (m : ℤ)) = m := pyBound_nat _ _ (by omega)
  obtain ⟨hl1, hk1, hr1⟩ := gtPropagate_spec nwt l clp hlen hs hmid
  obtain ⟨hl2, hk2, hr2⟩ := gtPropagate_spec nwt l clp hlen hs hout
  rw [hmb] at hk1 hr1
  have hm0 : start - 1 < sys.length := by
    unfold gtPropagate at hmid
    split at hmid
    · rename_i e0 r0 he0 hr0; exact (List.getElem?_eq_some_iff.mp he0).1
    · cases hmid
  have hm1 : m - 1 < sys.length := by omega
  have hdef : ∃ out', gtPropagate nwt sys l clp m stop mid = some out' := by
    unfold gtPropagate
    rw [List.getElem?_eq_getElem hm1, List.getElem?_eq_getElem (by omega)]
    exact ⟨_, rfl⟩
  obtain ⟨out', hout'⟩ := hdef
  rw [hout']
  obtain ⟨hl3, hk3, hr3⟩ := gtPropagate_spec nwt l clp hl1 (by omega) hout'
  -- rows before m agree
  have hlow : ∀ j, j < m → mid[j]? = out[j]? := by
    intro j hj
    by_cases hjs : j < start
    · rw [hk1 j (Or.inl hjs), hk2 j (Or.inl hjs)]
    · apply trace_unique nwt l clp (t := m) hs (by omega) hl1 hl2 _ _ _ j (by omega) hj
      · rw [hk1 _ (Or.inl (by omega)), hk2 _ (Or.inl (by omega))]
      · intro j e e' x h1 h2; exact hr1 j e e' x h1 h2
      · intro j e e' x h1 h2; exact hr2 j e e' x h1 (by omega)
  congr 1
  apply List.ext_getElem?
  intro j
  by_cases hjm : j < m
  · rw [hk3 j (Or.inl hjm), hlow j hjm]
  · by_cases hjb : j < pyStop sys.length stop
    · apply trace_unique nwt l clp (s := m) (t := pyStop sys.length stop) (by omega) hb hl3 hl2
        _ _ _ j (by omega) hjb
      · rw [hk3 _ (Or.inl (by omega)), hlow _ (by omega)]
      · intro j e e' x h1 h2; exact hr3 j e e' x h1 h2
      · intro j e e' x h1 h2; exact hr2 j e e' x (by omega) h2
    · rw [hk3 j (Or.inr (by omega)), hk1 j (Or.inr (by omega)), hk2 j (Or.inr (by omega))]

/-- C13: a run yields exactly one result per traversed element, and never fails on a system with
an element to start from. -/
theorem c13_geometric_count (nwt : Shape.NewtonFn) (l : ℝ) (clp : Bool) (sys : List Elem)
    (r : Ray) (start : ℕ) (stop : Option ℤ) (h : start ≤ sys.length) :
    (Sys.propagate nwt sys r l start stop clp).length = pyStop sys.length stop - start := by
  unfold Sys.propagate; rw [rows_length, pySlice_length _ _ h]

/-- C13: a negative `stop = -k` leaves out exactly the last `k` elements, a negative `start = -k`
leaves out everything before them. -/
theorem c13_range (nwt : Shape.NewtonFn) (l : ℝ) (clp : Bool) (pre post : List Elem) (r : Ray)
    (start : ℕ) (hp : post ≠ []) (hs : start ≤ pre.length) :
    Sys.propagate nwt (pre ++ post) r l start (some (-post.length)) clp
      = Sys.propagate nwt pre r l start none clp ∧
    Sys.propagate nwt (pre ++ post) r l (-post.length) none clp
      = Sys.propagate nwt post r l 0 none clp := by
  have hl : 0 < post.length := List.length_pos_iff.mpr hp
  have h1 : pyBound (pre ++ post).length (-(post.length : ℤ)) = pre.length := by
    unfold pyBound
    rw [if_pos (by omega)]
    simp
  have h2 : pyBound (pre ++ post).length (start : ℤ) = start := by
    unfold pyBound
    rw [if_neg (by omega)]
    simp; omega
  have h3 : pyBound pre.length (start : ℤ) = start := by
    unfold pyBound
    rw [if_neg (by omega)]
    simp; omega
  unfold Sys.propagate pySlice pyStop
  simp only [h1, h2, h3]
  constructor
  · simp
  · rw [List.take_length, List.drop_left]
    simp [pyBound]

/-- A system of two flat elements can be traced in two pieces. -/
example : ∃ mid, gtPropagate (fun _ _ _ => none)
    [⟨Transform.init 0 ez 0 none, .inf, none, none⟩, ⟨Transform.init 1 ez 0 none, .inf, none, none⟩,
     ⟨Transform.init 2 ez 0 none, .inf, none, none⟩] 1 true 1 (some 2)
    [⟨some 0, some ez, 1, none, none⟩, ⟨none, none, 0, none, none⟩, ⟨none, none, 0, none, none⟩]
    = some mid := ⟨_, rfl⟩

/-! ## One step -/

section Step

variable (nwt : Shape.NewtonFn) (l : ℝ)

theorem propagate_dead (e : Elem) (y : Option V3) (n l : ℝ) (clp : Bool) :
    (e.propagate nwt y none n l clp).y = none ∧ (e.propagate nwt y none n l clp).u = none := by
  have hc : ∀ R y, clip R y none = none := by
    intro R y; cases y
    · rfl
    · simp [clip]
  cases hs : e.shape with
  | none => cases y <;> cases clp <;> simp [Elem.propagate, hs, hc]
  | some s =>
    cases y <;> cases clp <;> simp [Elem.propagate, hs, hc, Elem.refract]

theorem step_dead (clp : Bool) (e : Elem) (r : Ray) (h : r.u = none) :
    (step nwt l clp e r).1.y = none ∧ (step nwt l clp e r).1.u = none := by
  unfold step
  rw [h]
  exact propagate_dead nwt e _ _ _ _

theorem step_lost (clp : Bool) (e : Elem) (r : Ray) (h : r.y = none) :
    (step nwt l clp e r).1.y = none := by
  unfold step
  rw [h]
  cases hs : e.shape <;> simp [Elem.propagate, hs]

/-- Clipping changes nothing but the outgoing direction. -/
theorem step_clip (e : Elem) (r : Ray) :
    (step nwt l true e r).1.y = (step nwt l false e r).1.y ∧
    (step nwt l true e r).1.n = (step nwt l false e r).1.n ∧
    (step nwt l true e r).1.i = (step nwt l false e r).1.i ∧
    (step nwt l true e r).1.t = (step nwt l false e r).1.t := by
  unfold step
  cases hs : e.shape <;> simp [Elem.propagate, hs]

theorem step_clip_u (e : Elem) (r : Ray) :
    (∀ p, (step nwt l true e r).1.y = some p → InAperture e.radius p →
      (step nwt l true e r).1.u = (step nwt l false e r).1.u) ∧
    ((¬ ∃ p, (step nwt l true e r).1.y = some p ∧ InAperture e.radius p) →
      (step nwt l true e r).1.u = none) := by
  have hin : ∀ p, inside e.radius p ↔ InAperture e.radius p := by
    intro p; unfold InAperture
    cases e.radius <;> simp [inside]
  unfold step
  constructor
  · intro p hp hi
    cases hs : e.shape <;> simp only [Elem.propagate, hs, if_true, Bool.false_eq_true, if_false]
      at hp ⊢
    all_goals
      rw [hp]
      simp only [clip, (hin p).mpr hi, if_true]
  · intro h
    cases hs : e.shape <;> simp only [Elem.propagate, hs, if_true] at h ⊢
    all_goals
      generalize hy : (Option.bind (Option.map _ r.y) _ : Option V3) = yy at h ⊢
      have hcl : ∀ u, clip e.radius yy u = none := by
        intro u
        cases yy with
        | none => rfl
        | some p =>
          have : ¬ inside e.radius p := fun hi => h ⟨p, rfl, (hin p).mp hi⟩
          simp [clip, this]
      rw [hcl]
      try simp [Elem.refract]

theorem propagate_unit (clp : Bool) (e : Elem) (y u : Option V3) (n l : ℝ) (h : UnitOrNone u) :
    UnitOrNone (e.propagate nwt y u n l clp).u := by
  have hclip : ∀ y : Option V3, UnitOrNone (if clp then clip e.radius y u else u) := by
    intro y v hv
    cases clp
    · exact h v hv
    · simp only [if_true, clip] at hv
      cases y with
      | none => cases hv
      | some p =>
        simp only at hv
        split_ifs at hv
        exact h v hv
  unfold Elem.propagate
  simp only
  generalize (Option.bind y _ : Option V3) = yy
  replace hclip := hclip yy
  generalize (if clp then clip e.radius yy u else u) = uu at hclip
  cases hs : e.shape with
  | none => exact hclip
  | some s =>
    intro v hv
    simp only at hv
    by_cases h0 : (getNMu (e.material.getD none) n l).2 = 0
    · rw [if_pos h0] at hv; exact hclip v hv
    · rw [if_neg h0] at hv
      generalize (getNMu (e.material.getD none) n l).2 = mu at *
      unfold Elem.refract at hv
      rw [Option.bind_eq_some_iff] at hv
      obtain ⟨u1, hu1, hv⟩ := hv
      have hun := hclip u1 hu1
      by_cases h1 : mu = 1
      · rw [if_pos h1] at hv; cases hv; exact hun
      · rw [if_neg h1, Option.bind_eq_some_iff] at hv
        obtain ⟨r1, hr1, hv⟩ := hv
        exact norm_eq_one (c01_refract_unit h0 (dot_self_of_norm hun) hv)

/-- Directions stay unit vectors. -/
theorem step_unit (clp : Bool) (e : Elem) (r : Ray) (he : Reachable e.tf)
    (h : UnitOrNone r.u) :
    UnitOrNone (step nwt l clp e r).1.u ∧ UnitOrNone (step nwt l clp e r).1.i ∧
    UnitOrNone (step nwt l clp e r).2.u := by
  have hrot : ∀ u, r.u = some u → (e.tf.toNormal u).norm = 1 := by
    intro u hu
    apply norm_eq_one
    rw [(c10_dot he u u).2.1]
    exact dot_self_of_norm (h u hu)
  have hi : UnitOrNone (step nwt l clp e r).1.i := by
    intro v hv
    simp only [step, Option.map_eq_some_iff] at hv
    obtain ⟨u, hu, rfl⟩ := hv
    exact hrot u hu
  have hu : UnitOrNone (step nwt l clp e r).1.u := by
    exact propagate_unit nwt clp e _ _ _ _ hi
  refine ⟨hu, hi, ?_⟩
  intro v hv
  simp only [step, Option.map_eq_some_iff] at hv
  obtain ⟨u, hu', rfl⟩ := hv
  apply norm_eq_one
  rw [(c10_dot he u u).1]
  exact dot_self_of_norm (hu u hu')

end Step

/-! ## Whole traces

`out` is the content of a `GeometricTrace` after `propagate()` with the default arguments. -/

section Whole

variable {nwt : Shape.NewtonFn} {l : ℝ} {clp : Bool} {sys : List Elem} {arr out : List Row}

theorem trace_succ (hlen : arr.length = sys.length)
    (h : gtPropagate nwt sys l clp 1 none arr = some out) (j : ℕ) (hj : j + 1 < sys.length) :
    ∃ x, out[j]? = some x ∧ out[j + 1]? =
      some (step nwt l clp (sys[j + 1]) (rayOfRow (sys[j]) x)).1 := by
  obtain ⟨hl, _, hr⟩ := gtPropagate_spec nwt l clp hlen (le_refl 1) h
  refine ⟨out[j]'(by omega), List.getElem?_eq_getElem _, ?_⟩
  exact hr j _ _ _ (by omega) hj (List.getElem?_eq_getElem _) (List.getElem?_eq_getElem _)
    (List.getElem?_eq_getElem _)

theorem trace_zero (hlen : arr.length = sys.length)
    (h : gtPropagate nwt sys l clp 1 none arr = some out) : out[0]? = arr[0]? :=
  (gtPropagate_spec nwt l clp hlen (le_refl 1) h).2.1 0 (Or.inl (by omega))

/-- C01, whole trace: if the given ray directions are unit vectors then every direction stored in
the trace, before and after every surface, is a unit vector or NaN. -/
theorem c01_trace_unit (hlen : arr.length = sys.length) (hsys : ∀ e ∈ sys, Reachable e.tf)
    (h : gtPropagate nwt sys l clp 1 none arr = some out)
    (h0 : ∀ x, arr[0]? = some x → UnitOrNone x.u ∧ UnitOrNone x.i) :
    ∀ (j : ℕ) (x : Row), out[j]? = some x → UnitOrNone x.u ∧ UnitOrNone x.i := by
  intro j
  induction j with
  | zero => intro x hx; rw [trace_zero hlen h] at hx; exact h0 x hx
  | succ j ih =>
    intro x hx
    have hj : j + 1 < sys.length := by
      have := (List.getElem?_eq_some_iff.mp hx).1
      rw [(gtPropagate_spec nwt l clp hlen (le_refl 1) h).1] at this
      exact this
    obtain ⟨x0, hx0, hx1⟩ := trace_succ hlen h j hj
    rw [hx1] at hx
    cases hx
    have hu0 := (ih x0 hx0).1
    have hray : UnitOrNone (rayOfRow (sys[j]) x0).u := by
      intro v hv
      simp only [rayOfRow, Option.map_eq_some_iff] at hv
      obtain ⟨u, hu, rfl⟩ := hv
      apply norm_eq_one
      rw [(c10_dot (hsys _ (List.getElem_mem _)) u u).1]
      exact dot_self_of_norm (hu0 u hu)
    have := step_unit nwt l clp (sys[j + 1]) _ (hsys _ (List.getElem_mem _)) hray
    exact ⟨this.1, this.2.1⟩

/-- Lab position of a traced point: the origin of the element plus the point turned out of the
element's frame (as drawn by `GeometricTrace.plot`). -/
noncomputable def labPos (e : Elem) (origin p : V3) : V3 := origin + e.tf.fromNormal p

theorem scanl_get {α β : Type*} (f : β → α → β) (b : β) (xs : List α) (j : ℕ) (x : α) (o : β)
    (hx : xs[j]? = some x) (ho : (xs.scanl f b)[j]? = some o) :
    (xs.scanl f b)[j + 1]? = some (f o x) := by
  induction xs generalizing b j with
  | nil => simp at hx
  | cons a xs ih =>
    cases j with
    | zero => 
      simp at hx ho; subst hx ho
      simp [List.scanl_cons]
    | succ j =>
      simp only [List.scanl_cons, List.getElem?_cons_succ] at hx ho ⊢
      exact ih _ _ hx ho

theorem origins_succ (sys : List Elem) (j : ℕ) (hj : j + 1 < sys.length) :
    ∃ o, (origins sys)[j]? = some o ∧ (origins sys)[j + 1]? = some (o + sys[j + 1].tf.offset) := by
  have hl : (origins sys).length = sys.length := by simp [origins]
  refine ⟨(origins sys)[j]'(by omega), List.getElem?_eq_getElem _, ?_⟩
  unfold origins
  rw [List.getElem?_tail]
  apply scanl_get
  · simp [hj]
  · rw [← List.getElem?_tail]; exact List.getElem?_eq_getElem _

/-- C14: between consecutive elements every traced ray is a straight segment in the lab along its
outgoing direction, and the reported optical path is the index times the signed length of this
segment. -/
theorem c14_path (hlen : arr.length = sys.length) (hsys : ∀ e ∈ sys, Reachable e.tf)
    (h : gtPropagate nwt sys l clp 1 none arr = some out) (j : ℕ) (hj : j + 1 < sys.length)
    (a b : Row) (ha : out[j]? = some a) (hb : out[j + 1]? = some b) (τ : ℝ) (ht : b.t = some τ) :
    ∃ p q u s oa ob, a.y = some p ∧ b.y = some q ∧ a.u = some u ∧
      (origins sys)[j]? = some oa ∧ (origins sys)[j + 1]? = some ob ∧
      labPos sys[j + 1] ob q - labPos sys[j] oa p = s • sys[j].tf.fromNormal u ∧
      τ = a.n * s ∧
      (u.norm = 1 → |τ| = |a.n| * (labPos sys[j + 1] ob q - labPos sys[j] oa p).norm) := by
  obtain ⟨x0, hx0, hx1⟩ := trace_succ hlen h j hj
  rw [ha] at hx0; cases hx0
  rw [hb] at hx1; cases hx1
  obtain ⟨oa, hoa, hob⟩ := origins_succ sys j hj
  have hR := hsys _ (List.getElem_mem hj)
  have hR0 := hsys _ (List.getElem_mem (Nat.lt_of_succ_lt hj))
  -- the intercept parameter
  have key : ∃ p u s, a.y = some p ∧ a.u = some u ∧ τ = s * a.n ∧
      (step nwt l clp sys[j + 1] (rayOfRow sys[j] a)).1.y =
        some (sys[j + 1].tf.toNormal (sys[j].tf.fromNormal p - sys[j + 1].tf.offset)
          + s • sys[j + 1].tf.toNormal (sys[j].tf.fromNormal u)) := by
    simp only [step, rayOfRow] at ht ⊢
    have h1 : ∀ (y u : Option V3) (n : ℝ), (sys[j + 1].propagate nwt y u n l clp).t =
        (y.bind fun y => u.bind fun u => sys[j + 1].intercept nwt y u).map (· * n) := by
      intro y u n; unfold Elem.propagate; cases sys[j + 1].shape <;> rfl
    have h2 : ∀ (y u : Option V3) (n : ℝ), (sys[j + 1].propagate nwt y u n l clp).y =
        y.bind fun y' => u.bind fun u' =>
          (y.bind fun y => u.bind fun u => sys[j + 1].intercept nwt y u).map
            fun t => y' + t • u' := by
      intro y u n; unfold Elem.propagate; cases sys[j + 1].shape <;> rfl
    rw [h1] at ht
    rw [h2]
    cases hy : a.y with
    | none => rw [hy] at ht; simp at ht
    | some p =>
      cases hu : a.u with
      | none => rw [hy, hu] at ht; simp at ht
      | some u =>
        rw [hy, hu] at ht
        simp only [Option.map_some, Option.bind_some, Option.map_eq_some_iff] at ht ⊢
        obtain ⟨s, hs, rfl⟩ := ht
        refine ⟨p, u, s, rfl, rfl, rfl, ?_⟩
        simp [hs]
  obtain ⟨p, u, s, hy, hu, hτ, hq⟩ := key
  refine ⟨p, _, u, s, oa, _, hy, hq, hu, hoa, hob, ?_, by rw [hτ, mul_comm], ?_⟩
  · unfold labPos
    rw [Transform.fromNormal, Transform.doRotate_linear, ← Transform.fromNormal,
      ← Transform.fromNormal, (c10_inverse hR _).1, (c10_inverse hR _).1]
    ext <;> simp <;> ring
  · intro hun
    have e1 : labPos sys[j + 1] (oa + sys[j + 1].tf.offset)
        (sys[j + 1].tf.toNormal (sys[j].tf.fromNormal p - sys[j + 1].tf.offset)
          + s • sys[j + 1].tf.toNormal (sys[j].tf.fromNormal u)) - labPos sys[j] oa p
        = s • sys[j].tf.fromNormal u := by
      unfold labPos
      rw [Transform.fromNormal, Transform.doRotate_linear, ← Transform.fromNormal,
        ← Transform.fromNormal, (c10_inverse hR _).1, (c10_inverse hR _).1]
      ext <;> simp <;> ring
    rw [e1, norm_smul, hτ, abs_mul, mul_comm]
    have : (sys[j].tf.fromNormal u).norm = 1 := by
      apply norm_eq_one
      rw [(c10_dot hR0 u u).1]; exact dot_self_of_norm hun
    rw [this, mul_one]

/-! ## C09 -/

/-- C09: relation between a trace with clipping (`out`) and the same trace without (`out0`).
A ray keeps its direction at surface `j` iff the unclipped ray has one and was inside the aperture
of every surface up to and including `j`; it keeps its position at `j` iff the unclipped ray has one
and was inside the aperture of every surface before `j`. -/
theorem c09_clip_iff {out0 : List Row} (hlen : arr.length = sys.length)
    (h : gtPropagate nwt sys l true 1 none arr = some out)
    (h0 : gtPropagate nwt sys l false 1 none arr = some out0)
    (j : ℕ) (x x0 : Row) (hx : out[j]? = some x) (hx0 : out0[j]? = some x0) :
    (∀ u, x.u = some u ↔ x0.u = some u ∧ ∀ i e y, 1 ≤ i → i ≤ j → sys[i]? = some e →
      out0[i]? = some y → ∃ p, y.y = some p ∧ InAperture e.radius p) ∧
    (∀ p, x.y = some p ↔ x0.y = some p ∧ ∀ i e y, 1 ≤ i → i < j → sys[i]? = some e →
      out0[i]? = some y → ∃ p, y.y = some p ∧ InAperture e.radius p) := by
  -- induction: either never clipped (rows equal) or dead
  have main : ∀ j x x0, out[j]? = some x → out0[j]? = some x0 →
      ((∀ i e y, 1 ≤ i → i ≤ j → sys[i]? = some e → out0[i]? = some y →
          ∃ p, y.y = some p ∧ InAperture e.radius p) ∧ x = x0) ∨
      (1 ≤ j ∧ (¬ ∀ i e y, 1 ≤ i → i ≤ j → sys[i]? = some e → out0[i]? = some y →
          ∃ p, y.y = some p ∧ InAperture e.radius p) ∧ x.u = none ∧
        ((∀ i e y, 1 ≤ i → i < j → sys[i]? = some e → out0[i]? = some y →
          ∃ p, y.y = some p ∧ InAperture e.radius p) → x.y = x0.y) ∧
        ((¬ ∀ i e y, 1 ≤ i → i < j → sys[i]? = some e → out0[i]? = some y →
          ∃ p, y.y = some p ∧ InAperture e.radius p) → x.y = none)) := by
    intro j
    induction j with
    | zero =>
      intro x x0 hx hx0
      left
      refine ⟨fun i e y h1 h2 => by omega, ?_⟩
      rw [trace_zero hlen h] at hx
      rw [trace_zero hlen h0, hx] at hx0
      exact Option.some.inj hx0
    | succ j ih =>
      intro x x0 hx hx0
      have hj : j + 1 < sys.length := by
        have := (List.getElem?_eq_some_iff.mp hx).1
        rw [(gtPropagate_spec nwt l true hlen (le_refl 1) h).1] at this
        exact this
      obtain ⟨a, ha, ha1⟩ := trace_succ hlen h j hj
      obtain ⟨b, hb, hb1⟩ := trace_succ hlen h0 j hj
      rw [hx] at ha1; cases ha1
      rw [hx0] at hb1; cases hb1
      have hlt : (∀ i e y, 1 ≤ i → i < j + 1 → sys[i]? = some e → out0[i]? = some y →
          ∃ p, y.y = some p ∧ InAperture e.radius p) ↔
          (∀ i e y, 1 ≤ i → i ≤ j → sys[i]? = some e → out0[i]? = some y →
          ∃ p, y.y = some p ∧ InAperture e.radius p) :=
        ⟨fun H i e y h1 h2 => H i e y h1 (by omega), fun H i e y h1 h2 => H i e y h1 (by omega)⟩
      rcases ih a b ha hb with ⟨hall, hab⟩ | ⟨hj1, hnot, hu, hy1, hy2⟩
      · subst hab
        obtain ⟨c1, c2, c3, c4⟩ := step_clip nwt l sys[j + 1] (rayOfRow sys[j] a)
        obtain ⟨d1, d2⟩ := step_clip_u nwt l sys[j + 1] (rayOfRow sys[j] a)
        by_cases hin : ∃ p, (step nwt l true sys[j + 1] (rayOfRow sys[j] a)).1.y = some p ∧
            InAperture sys[j + 1].radius p
        · left
          obtain ⟨p, hp, hpi⟩ := hin
          have c5 := d1 p hp hpi
          constructor
          · intro i e y h1 h2 h3 h4
            by_cases hi : i ≤ j
            · exact hall i e y h1 hi h3 h4
            · have hi' : i = j + 1 := by omega
              subst hi'
              rw [List.getElem?_eq_getElem hj] at h3
              cases h3
              rw [hx0] at h4; cases h4
              exact ⟨p, by rw [← c1]; exact hp, hpi⟩
          · generalize (step nwt l true sys[j + 1] (rayOfRow sys[j] a)).1 = X at *
            generalize (step nwt l false sys[j + 1] (rayOfRow sys[j] a)).1 = Y at *
            obtain ⟨_, _, _, _, _⟩ := X
            obtain ⟨_, _, _, _, _⟩ := Y
            simp_all
        · right
          refine ⟨by omega, ?_, d2 hin, fun _ => c1, fun H => absurd (hlt.mpr hall) H⟩
          intro H
          obtain ⟨p, hp, hpi⟩ := H (j + 1) _ _ (by omega) (le_refl _)
            (List.getElem?_eq_getElem hj) hx0
          exact hin ⟨p, by rw [c1]; exact hp, hpi⟩
      · right
        have hdead := step_dead nwt l true sys[j + 1] (rayOfRow sys[j] a) (by simp [rayOfRow, hu])
        refine ⟨by omega, ?_, hdead.2, fun H => absurd (hlt.mp H) hnot, fun _ => hdead.1⟩
        intro H
        exact hnot fun i e y h1 h2 => H i e y h1 (by omega)
  rcases main j x x0 hx hx0 with ⟨hall, rfl⟩ | ⟨_, hnot, hu, hy1, hy2⟩
  · refine ⟨fun u => ⟨fun hu => ⟨hu, hall⟩, fun hu => hu.1⟩,
      fun p => ⟨fun hp => ⟨hp, fun i e y h1 h2 => hall i e y h1 h2.le⟩, fun hp => hp.1⟩⟩
  · refine ⟨fun u => ⟨fun H => absurd (hu.symm.trans H) (by simp), fun H => absurd H.2 hnot⟩, fun p => ?_⟩
    constructor
    · intro hp
      by_cases H : ∀ i e y, 1 ≤ i → i < j → sys[i]? = some e → out0[i]? = some y →
          ∃ p, y.y = some p ∧ InAperture e.radius p
      · exact ⟨by rw [← hy1 H]; exact hp, H⟩
      · rw [hy2 H] at hp; cases hp
    · rintro ⟨hp, H⟩
      rw [hy1 H]; exact hp

/-- C09: a ray that has lost its direction never becomes valid again (with or without
clipping). -/
theorem c09_persistent (hlen : arr.length = sys.length)
    (h : gtPropagate nwt sys l clp 1 none arr = some out)
    (i j : ℕ) (hij : i < j) (x y : Row) (hx : out[i]? = some x) (hy : out[j]? = some y)
    (hu : x.u = none) : y.y = none ∧ y.u = none := by
  induction j generalizing y with
  | zero => omega
  | succ j ih =>
    have hj : j + 1 < sys.length := by
      have := (List.getElem?_eq_some_iff.mp hy).1
      rw [(gtPropagate_spec nwt l clp hlen (le_refl 1) h).1] at this
      exact this
    obtain ⟨a, ha, ha1⟩ := trace_succ hlen h j hj
    rw [hy] at ha1; cases ha1
    have hau : a.u = none := by
      by_cases hij' : i = j
      · subst hij'; rw [hx] at ha; cases ha; exact hu
      · exact (ih (by omega) a ha).2
    exact step_dead nwt l clp _ _ (by simp [rayOfRow, hau])

end Whole

/-- Two elements, the second with aperture radius 1: a ray at height 2 is clipped, a ray at height
1/2 is not.  (Hypotheses of `c09_clip_iff` are met by any traced system.) -/
example : InAperture (.fin 1) ⟨1 / 2, 0, 0⟩ ∧ ¬ InAperture (.fin 1) ⟨2, 0, 0⟩ := by
  constructor
  · intro r hr; cases hr; norm_num
  · intro h; have := h 1 rfl; norm_num at this

end RayOpt
