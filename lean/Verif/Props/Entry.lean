import Verif.Model.Entry
import Verif.Model.Solve
import Verif.Props.Aiming
import Verif.Props.Sampling
import Verif.Props.Trace

/-!
Property C88: the rays a `GeometricTrace` is started with.
-/

namespace RayOpt.Entry

open RayOpt RayOpt.V3 RayOpt.Elem RayOpt.Sys

/-! ## `rays_given` and `propagate` -/

theorem mapM_some {α β : Type*} {f : α → Option β} {g : α → β} :
    ∀ {l : List α}, (∀ a ∈ l, f a = some (g a)) → l.mapM f = some (l.map g)
  | [], _ => rfl
  | a :: l, h => by
    rw [List.mapM_cons, h a (by simp), mapM_some (l := l) fun b hb => h b (by simp [hb])]
    rfl

/-- The arrays that `rays_given` uses have one entry per ray, and rows of the length of the system if
those of the trace have. -/
theorem arrays_length {old : Option State} {junk : List Row} {n m : ℕ} (hj : junk.length = m)
    (ho : ∀ s, old = some s → ∀ a ∈ s.arr, a.length = m) :
    (arrays old junk n).length = n ∧ ∀ a ∈ arrays old junk n, a.length = m := by
  unfold arrays
  cases old with
  | none => exact ⟨by simp, fun a ha => by rw [List.eq_of_mem_replicate ha]; exact hj⟩
  | some s =>
    dsimp only
    split_ifs with h
    · exact ⟨h, ho s rfl⟩
    · exact ⟨by simp, fun a ha => by rw [List.eq_of_mem_replicate ha]; exact hj⟩

/-- The rows of one ray: the start row and what `System.propagate` yields. -/
noncomputable def traced (nwt : Shape.NewtonFn) (e0 : Elem) (sys : List Elem) (l n0 : ℝ) (clip : Bool)
    (r : Option (V3 × V3)) : List Row :=
  ⟨r.map Prod.fst, r.map Prod.snd, n0, r.map Prod.snd, some 0⟩ :: Sys.propagate nwt sys
    ⟨r.map fun r => e0.tf.fromNormal r.1, r.map fun r => e0.tf.fromNormal r.2, n0⟩ l 1 none clip

theorem gtPropagate_set (nwt : Shape.NewtonFn) (e0 : Elem) (es : List Elem) (l n0 : ℝ) (clip : Bool)
    (r : Option (V3 × V3)) (a : List Row) (ha : a.length = (e0 :: es).length) :
    gtPropagate nwt (e0 :: es) l clip 1 none (a.set 0 (startRow n0 r)) =
      some (traced nwt e0 (e0 :: es) l n0 clip r) := by
  cases a with
  | nil => simp at ha
  | cons a0 as =>
    have hr : rayOfRow e0 (startRow n0 r) =
        ⟨r.map fun r => e0.tf.fromNormal r.1, r.map fun r => e0.tf.fromNormal r.2, n0⟩ := by
      simp [rayOfRow, startRow, Option.map_map, Function.comp_def]
    have hl : (Sys.propagate nwt (e0 :: es) (rayOfRow e0 (startRow n0 r)) l 1 none clip).length
        = es.length := by
      have := c13_geometric_count nwt l clip (e0 :: es) (rayOfRow e0 (startRow n0 r)) 1 none (by simp)
      simpa [pyStop] using this
    unfold gtPropagate
    simp only [List.set_cons_zero, Nat.sub_self, List.getElem?_cons_zero, Option.some.injEq]
    have hl' : (Sys.propagate nwt (e0 :: es) (rayOfRow e0 (startRow n0 r)) l ((1 : ℕ) : ℤ) none
        clip).length = es.length := by simpa using hl
    change _ = startRow n0 r :: _
    rw [hr] at hl' ⊢
    apply List.ext_getElem?
    intro j
    rw [writeRows_get]
    cases j with
    | zero => simp
    | succ j =>
      simp only [List.length_cons, add_lt_add_iff_right, List.getElem?_cons_succ,
        Nat.add_sub_cancel]
      rw [hl']
      have hj' : as.length = es.length := by simpa using ha
      by_cases hj : j < es.length
      · rw [if_pos ⟨by omega, by omega, by omega⟩]
        simp
      · rw [if_neg (by omega), List.getElem?_eq_none (by omega), List.getElem?_eq_none]
        have : (Sys.propagate nwt (e0 :: es) ⟨r.map fun r => e0.tf.fromNormal r.1,
          r.map fun r => e0.tf.fromNormal r.2, n0⟩ l 1 none clip).length = es.length := by
          simpa using hl'
        omega

/-- C88: `rays_given` and `propagate` give, for every ray in the order given, the ray itself at the
object and what the system makes of it at the other elements; the weights are the given ones or
equal with sum one.  What the trace object held before does not matter, if it was made for a system
of the same length. -/
theorem c88_given (nwt : Shape.NewtonFn) (e0 : Elem) (es : List Elem) (n0 l : ℝ) (clip : Bool)
    (old : Option State) (junk : List Row) (rays : List (Option (V3 × V3))) (w : Option (List ℝ))
    (ref : ℕ) (hj : junk.length = (e0 :: es).length)
    (ho : ∀ s, old = some s → ∀ a ∈ s.arr, a.length = (e0 :: es).length) :
    ∃ s, propagate nwt (e0 :: es) clip (raysGiven old junk n0 rays l w ref) = some s ∧
      s.arr = rays.map (traced nwt e0 (e0 :: es) l n0 clip) ∧ s.ref = ref ∧ s.l = l ∧
      (∀ v, w = some v → s.w = v) ∧
      (w = none → s.w.length = rays.length ∧ (∀ x ∈ s.w, ∀ y ∈ s.w, x = y) ∧
        (rays ≠ [] → s.w.sum = 1)) := by
  obtain ⟨h1, h2⟩ := arrays_length (n := rays.length) hj ho
  have hz : List.zipWith (fun a r => a.set 0 (startRow n0 r)) (arrays old junk rays.length) rays =
      ((arrays old junk rays.length).zip rays).map fun ar => ar.1.set 0 (startRow n0 ar.2) := by
    rw [List.zip, List.map_zipWith]
  have hm : (List.zipWith (fun a r => a.set 0 (startRow n0 r)) (arrays old junk rays.length)
      rays).mapM (fun a => if (e0 :: es).length ≤ a.length then
        gtPropagate nwt (e0 :: es) l clip 1 none a else none) =
      some (rays.map (traced nwt e0 (e0 :: es) l n0 clip)) := by
    rw [hz, List.mapM_map]
    rw [mapM_some (g := fun ar => traced nwt e0 (e0 :: es) l n0 clip ar.2)]
    · congr 1
      have : ((arrays old junk rays.length).zip rays).map Prod.snd = rays :=
        List.map_snd_zip (by omega)
      conv_rhs => rw [← this]
      rw [List.map_map]; rfl
    · intro ar har
      have ha := h2 ar.1 (List.of_mem_zip har).1
      simp only [Function.comp_apply, List.length_set]
      rw [if_pos ha.ge]
      exact gtPropagate_set nwt e0 es l n0 clip ar.2 ar.1 ha
  refine ⟨{ raysGiven old junk n0 rays l w ref with
    arr := rays.map (traced nwt e0 (e0 :: es) l n0 clip) }, ?_, rfl, rfl, rfl, ?_, ?_⟩
  · unfold propagate raysGiven
    dsimp only
    rw [hm]
    rfl
  · rintro v rfl; rfl
  · rintro rfl
    refine ⟨by simp [raysGiven], ?_, ?_⟩
    · intro x hx y hy
      rw [List.eq_of_mem_replicate hx, List.eq_of_mem_replicate hy]
    · intro hne
      have : (rays.length : ℝ) ≠ 0 := by
        simpa using hne
      simp [raysGiven, this]

/-- C88: two columns are completed to a unit vector that points forwards; the position is in the
vertex plane. -/
theorem c88_columns (y u : ℝ × ℝ) (h : u.1 ^ 2 + u.2 ^ 2 ≤ 1) :
    ∃ p d : V3, given2 y u = some (p, d) ∧ (p.x, p.y) = y ∧ p.z = 0 ∧ (d.x, d.y) = u ∧ 0 ≤ d.z ∧
      d.dot d = 1 := by
  refine ⟨_, _, if_neg (by linarith), rfl, rfl, rfl, Real.sqrt_nonneg _, ?_⟩
  have := Real.mul_self_sqrt (show 0 ≤ 1 - (u.1 ^ 2 + u.2 ^ 2) by linarith)
  simp only [dot]
  linarith

/-- Flat elements for the examples and violations. -/
noncomputable def flat (d : ℝ) : Elem := ⟨Transform.init d ez 0 none, .inf, none, none⟩

/-- An old row: a ray at height seven. -/
noncomputable def oldRow : Row := ⟨some ⟨7, 0, 0⟩, some ⟨0, 0, 1⟩, 1, some ⟨0, 0, 1⟩, some 0⟩

/-- C88, violation: after an element was removed from the system, the last row of the arrays of a
reused trace is still that of the old trace; after one was added, `propagate` raises `IndexError`. -/
theorem c88_stale_violation (nwt : Shape.NewtonFn) :
    (∃ s : State, propagate nwt [flat 0, flat 1] false (raysGiven
        (some ⟨[[oldRow, oldRow, oldRow]], [1], 0, 1⟩) [oldRow, oldRow] 1
        [some (⟨0, 0, 0⟩, ⟨0, 0, 1⟩)] 1 none 0) = some s ∧
      s.arr.map (·.getLast?) = [some oldRow]) ∧
    propagate nwt [flat 0, flat 1, flat 1] false (raysGiven
        (some ⟨[[oldRow, oldRow]], [1], 0, 1⟩) [oldRow, oldRow, oldRow] 1
        [some (⟨0, 0, 0⟩, ⟨0, 0, 1⟩)] 1 none 0) = none := by
  constructor
  · refine ⟨_, rfl, ?_⟩
    simp [Sys.propagate, pySlice, pyStop, pyBound, rows, writeRows]
  · simp [propagate, raysGiven, arrays]

/-! ## `rays_paraxial` -/

/-- The component along `axis`. -/
def along (axis : Fin 2) (v : V3) : ℝ := if axis = 0 then v.x else v.y

/-- The transverse component across `axis`. -/
def across (axis : Fin 2) (v : V3) : ℝ := if axis = 0 then v.y else v.x

theorem sinarctan_sq (u : ℝ) : Util.sinarctan u ^ 2 = u ^ 2 / (1 + u ^ 2) := by
  unfold Util.sinarctan
  have : 0 < 1 + u ^ 2 := by positivity
  rw [mul_pow, div_pow, Real.sq_sqrt this.le]
  ring

/-- C88: in an object space of index one the rays of `rays_paraxial` start like the marginal and the
chief ray of the paraxial trace: in the vertex plane of the object, at their heights, with their
slopes, and in the plane of the axis. -/
theorem c88_paraxial (axis : Fin 2) (r : PRow) (hn : r.n = 1) :
    ∃ p d : Fin 2 → V3, paraxialStarts axis r = [some (p 0, d 0), some (p 1, d 1)] ∧
      ∀ k, along axis (p k) = r.y k ∧ across axis (p k) = 0 ∧ (p k).z = 0 ∧ across axis (d k) = 0 ∧
        0 < (d k).z ∧ (d k).dot (d k) = 1 ∧ along axis (d k) / (d k).z = r.u k / r.n := by
  have key : ∀ u : ℝ, 0 < 1 - Util.sinarctan u ^ 2 ∧
      Util.sinarctan u / Real.sqrt (1 - Util.sinarctan u ^ 2) = u := by
    intro u
    have h1 : 0 < 1 + u ^ 2 := by positivity
    have h2 : 1 - Util.sinarctan u ^ 2 = 1 / (1 + u ^ 2) := by rw [sinarctan_sq]; field_simp; ring
    refine ⟨by rw [h2]; positivity, ?_⟩
    rw [h2, Real.sqrt_div zero_le_one, Real.sqrt_one]
    unfold Util.sinarctan
    have : Real.sqrt (1 + u ^ 2) ≠ 0 := (Real.sqrt_pos.mpr h1).ne'
    field_simp
  have hs : ∀ u : ℝ, Real.sqrt (1 - Util.sinarctan u ^ 2) * Real.sqrt (1 - Util.sinarctan u ^ 2) =
      1 - Util.sinarctan u ^ 2 := fun u => Real.mul_self_sqrt (key u).1.le
  by_cases ha : axis = 0
  · refine ⟨fun k => ⟨r.y k, 0, 0⟩,
      fun k => ⟨Util.sinarctan (r.u k), 0, Real.sqrt (1 - Util.sinarctan (r.u k) ^ 2)⟩, ?_, ?_⟩
    · have : ∀ k, |Util.sinarctan (r.u k)| ≤ 1 := fun k => by
        rw [← sq_le_one_iff_abs_le_one]; linarith [(key (r.u k)).1]
      simp [paraxialStarts, ha, given2, this]
    · intro k
      simp only [along, across, ha, if_true, dot]
      refine ⟨trivial, trivial, trivial, trivial, Real.sqrt_pos.mpr (key _).1, ?_, ?_⟩
      · linear_combination hs (r.u k)
      · rw [(key _).2, hn, div_one]
  · refine ⟨fun k => ⟨0, r.y k, 0⟩,
      fun k => ⟨0, Util.sinarctan (r.u k), Real.sqrt (1 - Util.sinarctan (r.u k) ^ 2)⟩, ?_, ?_⟩
    · have : ∀ k, |Util.sinarctan (r.u k)| ≤ 1 := fun k => by
        rw [← sq_le_one_iff_abs_le_one]; linarith [(key (r.u k)).1]
      simp [paraxialStarts, ha, given2, this]
    · intro k
      simp only [along, across, ha, if_false, dot]
      refine ⟨trivial, trivial, trivial, trivial, Real.sqrt_pos.mpr (key _).1, ?_, ?_⟩
      · linear_combination hs (r.u k)
      · rw [(key _).2, hn, div_one]

/-- C88, violation: in an object space of index 2 the marginal ray of slope one half, for which the
paraxial trace holds `n u = 1`, is started with slope one. -/
theorem c88_paraxial_violation : ∃ (p d : V3) (rest : List (Option (V3 × V3))),
    paraxialStarts 1 ⟨2, ![0, 0], ![2 * (1 / 2), 0]⟩ = some (p, d) :: rest ∧ d.y / d.z = 1 := by
  obtain ⟨p, d, h, hk⟩ := c88_paraxial 1 ⟨1, ![0, 0], ![2 * (1 / 2), 0]⟩ rfl
  refine ⟨p 0, d 0, [some (p 1, d 1)], h, ?_⟩
  have := (hk 0).2.2.2.2.2.2
  simpa [along] using this

/-! ## `rays_point` -/

theorem map_sym {r : ℝ} (hr : 0 < r) (yp : ℝ × ℝ) :
    Pupil.map yp (aperture r).1 (aperture r).2 true =
      if yp.1 ^ 2 + yp.2 ^ 2 ≤ 1 then some (yp.1 * r, yp.2 * r) else none := by
  have e1 : (-r + r) / 2 = 0 := by ring
  have e2 : (r - -r) / 2 = r := by ring
  have h4 : ∀ x : ℝ, (x * r) ^ 2 / r ^ 2 = x ^ 2 := fun x => by field_simp
  simp only [Pupil.map, aperture, abs_neg, abs_of_pos hr, max_self, if_true, e1, e2, hr.ne', or_self,
    if_false, sub_zero, h4]

/-- A round pupil: the filter keeps exactly the unit disc. -/
theorem keeps_sym (o : Object) {r z : ℝ} (hr : 0 < r) (yp : ℝ × ℝ) :
    o.keeps z (aperture r) yp = true ↔ yp.1 ^ 2 + yp.2 ^ 2 ≤ 1 := by
  unfold Object.keeps
  cases o with
  | finite =>
    dsimp only
    rw [Finite.pupilPoint_filter hr, Finite.pupilPoint_sym hr.le (Or.inl hr.ne')]
    split_ifs with h <;> simp [h]
  | infinite =>
    dsimp only
    rw [map_sym hr]
    split_ifs with h <;> simp [h]

/-- Which rays `rays` starts: those with `filter=False`, and all of a unit disc in a round pupil. -/
theorem aimAll_eq (o : Object) (yo : ℝ × ℝ) (yps : List (ℝ × ℝ)) (z : ℝ) (p : (ℝ × ℝ) × (ℝ × ℝ))
    (filter : Bool)
    (hf : filter = false ∨ (∀ q ∈ yps, q.1 ^ 2 + q.2 ^ 2 ≤ 1) ∧ ∃ r, 0 < r ∧ p = aperture r) :
    o.aimAll yo yps z p filter = yps.map fun yp => o.aim yo (some yp) z p := by
  unfold Object.aimAll
  rcases hf with rfl | ⟨h, r, hr, rfl⟩
  · simp
  · cases filter
    · simp
    · rw [if_pos rfl, List.filter_eq_self.mpr]
      intro q hq
      exact (keeps_sym o hr q).mpr (h q hq)

/-- The chief ray of the field point `yo` through the pupil at `z`: from a finite object it starts at
the inverted object point and passes the pupil centre, or runs parallel to the axis for a telecentric
pupil; from an infinite one it has the direction of the field and passes the pupil centre. -/
def Chief (o : Object) (yo : ℝ × ℝ) (z : ℝ) (y d : V3) : Prop :=
  match o with
  | .finite r tel _ => y.x = -(yo.1 * r) ∧ y.y = -(yo.2 * r) ∧ d.dot d = 1 ∧
      ∃ t, 0 < t * z ∧ y + t • d = if tel then y + ⟨0, 0, z⟩ else ⟨0, 0, z⟩
  | .infinite pr ang _ => Infinite.map pr yo ang = some d ∧ ∃ t : ℝ, y + t • d = ⟨0, 0, z⟩

theorem aim_centre (o : Object) (yo : ℝ × ℝ) (z : ℝ) (p : (ℝ × ℝ) × (ℝ × ℝ)) (hz : z ≠ 0)
    (y d : V3) (h : o.aim yo (some (0, 0)) z p = some (y, d)) : Chief o yo z y d := by
  cases o with
  | finite r tel sf =>
    simp only [Object.aim] at h
    obtain ⟨h1, h2, -⟩ := Finite.c37_object h
    obtain ⟨p', q', s, m, hpq, -, -, hd, ⟨t, ht, hl⟩, -⟩ := Finite.c37_aim hz h
    simp only [Finite.pupilPoint, Pupil.map, zero_mul, Bool.false_eq_true, if_false,
      Option.map_some, Real.tan_zero, mul_zero, Option.some.injEq, Prod.mk.injEq] at hpq
    obtain ⟨rfl, rfl⟩ := hpq
    refine ⟨h1, h2, hd, t, ht, ?_⟩
    rw [hl]
    unfold Finite.chief
    cases tel <;> ext <;> simp
  | infinite pr ang sf =>
    simp only [Object.aim] at h
    obtain ⟨h1, -, h2, -⟩ := Infinite.c38_aim hz h
    obtain ⟨p', q', s, m, hpq, -, t, hl⟩ := h2 _ rfl
    simp only [Pupil.map, zero_mul, Bool.false_eq_true, if_false, Option.some.injEq,
      Prod.mk.injEq] at hpq
    obtain ⟨rfl, rfl⟩ := hpq
    refine ⟨h1, t, ?_⟩
    rw [hl]
    ext <;> simp

theorem weights_length (d : Sampling.Distribution) (n : ℕ) (v : List ℝ) (h : weights d n = some v) :
    v.length = (Sampling.pupilDistribution d n).2.length := by
  unfold weights at h
  split_ifs at h with hn
  cases d with
  | quadrature x w =>
    simp only [Option.some.injEq] at h
    subst h
    simp [Sampling.pupilDistribution, hn]
  | _ => cases h

/-- C88: `rays_point` traces one ray for every point of the distribution, in its order, each aimed
from the field point through its pupil point; there is a weight for every ray, and the reference ray
is the chief ray.  This needs `filter=False` (as with clipping) or a round pupil, and a distribution
whose reference is the pupil centre. -/
theorem c88_point (nwt : Shape.NewtonFn) (e0 : Elem) (es : List Elem) (o : Object) (n0 l z : ℝ)
    (old : Option State) (junk : List Row) (yo : ℝ × ℝ) (p : (ℝ × ℝ) × (ℝ × ℝ)) (n : ℕ)
    (d : Sampling.Distribution) (filter : Option Bool) (clip : Bool) (hz : z ≠ 0) (hn : 1 ≤ n)
    (hr : d.RefOk n) (hj : junk.length = (e0 :: es).length)
    (ho : ∀ s, old = some s → ∀ a ∈ s.arr, a.length = (e0 :: es).length)
    (hf : filter = some false ∨ (filter = none ∧ clip = true) ∨ d.Ok ∧ ∃ r, 0 < r ∧ p = aperture r) :
    ∃ s, raysPoint nwt (e0 :: es) o n0 old junk yo l z p n d filter clip = some s ∧ s.l = l ∧
      s.arr = (Sampling.pupilDistribution d n).2.map
        (fun yp => traced nwt e0 (e0 :: es) l n0 clip (o.aim yo (some yp) z p)) ∧
      s.w.length = s.arr.length ∧
      ∃ x, s.arr[s.ref]? = some (traced nwt e0 (e0 :: es) l n0 clip x) ∧
        ∀ y u, x = some (y, u) → Chief o yo z y u := by
  have ha : o.aimAll yo (Sampling.pupilDistribution d n).2 z p (filter.getD (!clip)) =
      (Sampling.pupilDistribution d n).2.map fun yp => o.aim yo (some yp) z p := by
    apply aimAll_eq
    rcases hf with rfl | ⟨rfl, rfl⟩ | ⟨hd, hp⟩
    · exact Or.inl rfl
    · exact Or.inl rfl
    · exact Or.inr ⟨Sampling.c36_disc d hd n, hp⟩
  obtain ⟨s, hs, harr, hrf, hl, hw1, hw2⟩ := c88_given nwt e0 es n0 l clip old junk
    (o.aimAll yo (Sampling.pupilDistribution d n).2 z p (filter.getD (!clip))) (weights d n)
    (Sampling.pupilDistribution d n).1 hj ho
  rw [ha, List.map_map] at harr
  refine ⟨s, hs, hl, harr, ?_, o.aim yo (some (0, 0)) z p, ?_, aim_centre o yo z p hz⟩
  · rw [harr, List.length_map]
    cases h : weights d n with
    | none => rw [(hw2 h).1, ha, List.length_map]
    | some v => rw [hw1 v h]; exact weights_length d n v h
  · rw [harr, hrf, List.getElem?_map, Sampling.c36_reference d n hn hr]
    rfl

/-- C88, violation: the rays outside of a vignetted pupil are left out by default, but the index of
the reference ray and the weights are those of all rays.  Of the three rays of a sagittal fan the
first is outside of the pupil, and ray `ref` is the edge ray. -/
theorem c88_filter_violation (nwt : Shape.NewtonFn) (e0 : Elem) (es : List Elem) (l : ℝ)
    (junk : List Row) (hj : junk.length = (e0 :: es).length) :
    ∃ s, raysPoint nwt (e0 :: es) (.infinite .rectilinear 0 none) 1 none junk (0, 0) l 1
        ((-1 / 2, -1), (1, 1)) 2 .sagittal none false = some s ∧
      (Sampling.pupilDistribution .sagittal 2).2 = [(-1, 0), (0, 0), (1, 0)] ∧
      s.arr.length = 2 ∧
      s.arr[s.ref]? = some (traced nwt e0 (e0 :: es) l 1 false
        ((Object.infinite .rectilinear 0 none).aim (0, 0) (some (1, 0)) 1 ((-1 / 2, -1), (1, 1)))) := by
  have hp : (Sampling.pupilDistribution .sagittal 2) = (1, [(-1, 0), (0, 0), (1, 0)]) := by
    simp [Sampling.pupilDistribution, Sampling.linspace, List.range_succ]
    norm_num
  have hk : ∀ q : ℝ × ℝ, (Object.infinite .rectilinear 0 none).keeps 1 ((-1 / 2, -1), (1, 1)) q =
      decide ((q.1 - 1 / 4) ^ 2 / (3 / 4) ^ 2 + q.2 ^ 2 ≤ 1) := by
    intro q
    have e1 : max (max |(-1 / 2 : ℝ)| |(-1 : ℝ)|) (max |(1 : ℝ)| |(1 : ℝ)|) = 1 := by
      rw [abs_neg, abs_one, abs_of_neg (by norm_num : (-1 / 2 : ℝ) < 0)]; norm_num
    have e2 : ((-1 / 2 : ℝ) + 1) / 2 = 1 / 4 := by norm_num
    have e3 : ((1 : ℝ) - -1 / 2) / 2 = 3 / 4 := by norm_num
    have e4 : ((-1 : ℝ) + 1) / 2 = 0 := by norm_num
    have e5 : ((1 : ℝ) - -1) / 2 = 1 := by norm_num
    simp only [Object.keeps, Pupil.map, e1, e2, e3, e4, e5, mul_one, if_true, sub_zero, one_pow,
      div_one]
    rw [if_neg (by norm_num)]
    split_ifs with h
    · simp only [Option.isSome_some, decide_eq_true h]
    · simp only [Option.isSome_none, decide_eq_false h]
  have ha : (Object.infinite .rectilinear 0 none).aimAll (0, 0) (Sampling.pupilDistribution .sagittal 2).2
      1 ((-1 / 2, -1), (1, 1)) true = [(0, 0), (1, 0)].map fun yp =>
        (Object.infinite .rectilinear 0 none).aim (0, 0) (some yp) 1 ((-1 / 2, -1), (1, 1)) := by
    rw [hp]
    unfold Object.aimAll
    simp only [if_true, List.filter_cons, hk, List.filter_nil]
    rw [if_neg (by norm_num), if_pos (by norm_num), if_pos (by norm_num)]
  obtain ⟨s, hs, harr, hrf, -, -⟩ := c88_given nwt e0 es 1 l false none junk
    ((Object.infinite .rectilinear 0 none).aimAll (0, 0) (Sampling.pupilDistribution .sagittal 2).2
      1 ((-1 / 2, -1), (1, 1)) true) (weights .sagittal 2) (Sampling.pupilDistribution .sagittal 2).1
    hj (by simp)
  rw [ha] at harr
  refine ⟨s, hs, by rw [hp], by rw [harr]; simp, ?_⟩
  rw [harr, hrf, hp]
  simp

example : Sampling.Distribution.RefOk 21 .hexapolar ∧ Sampling.Distribution.Ok .hexapolar :=
  ⟨trivial, trivial⟩

/-! ## `rays_clipping` -/

/-- A pupil point on an axis. -/
def onAxis (axis : Fin 2) (v : ℝ) : ℝ × ℝ := if axis = 0 then (v, 0) else (0, v)

/-- The component of an aperture row along an axis. -/
def comp (axis : Fin 2) (v : ℝ × ℝ) : ℝ := if axis = 0 then v.1 else v.2

/-- The scalar aperture that `aim_marginal` passes to `aim`, rayopt/system.py 545. -/
def scalar (a : ℝ) : (ℝ × ℝ) × (ℝ × ℝ) := ((a, a), (a, a))

theorem arctan2_pos (x : ℝ) {z : ℝ} (hz : 0 < z) : arctan2 x z = Real.arctan (x / z) := by
  have h := Complex.abs_arg_lt_pi_div_two_iff (z := ⟨z, x⟩) |>.mpr (Or.inl hz)
  rw [abs_lt] at h
  rw [← Finite.tan_arctan2 x z, Real.arctan_tan (by exact h.1) (by exact h.2)]

theorem abs_arctan (x : ℝ) : |Real.arctan x| = Real.arctan |x| := by
  rcases le_total 0 x with h | h
  · rw [abs_of_nonneg h, abs_of_nonneg (Real.arctan_nonneg.mpr h)]
  · rw [abs_of_nonpos h, Real.arctan_neg, abs_of_nonpos]
    have := Real.arctan_nonneg.mpr (neg_nonneg.mpr h)
    rw [Real.arctan_neg] at this
    linarith

/-- The largest pupil angle is that of the largest pupil coordinate. -/
theorem absMax_arctan2 (p : (ℝ × ℝ) × (ℝ × ℝ)) {z : ℝ} (hz : 0 < z) :
    max (max |arctan2 p.1.1 z| |arctan2 p.1.2 z|) (max |arctan2 p.2.1 z| |arctan2 p.2.2 z|) =
      Real.arctan (absMax p / z) := by
  have hm : Monotone fun x : ℝ => Real.arctan (x / z) := fun a b h =>
    Real.arctan_strictMono.monotone (by gcongr)
  simp only [arctan2_pos _ hz, abs_arctan, abs_div, abs_of_pos hz]
  unfold absMax
  rw [hm.map_max, hm.map_max, hm.map_max]

theorem pupilPoint_pos (yp : ℝ × ℝ) (p : (ℝ × ℝ) × (ℝ × ℝ)) {z : ℝ} (hz : 0 < z) :
    Finite.pupilPoint yp p z false =
      some (z * Real.tan (yp.1 * Real.arctan (absMax p / z)),
        z * Real.tan (yp.2 * Real.arctan (absMax p / z))) := by
  have := absMax_arctan2 p hz
  simp only [Finite.pupilPoint, Pupil.map, Bool.false_eq_true, if_false, Option.map_some]
  rw [this]

theorem absMax_scalar (a : ℝ) : absMax (scalar a) = |a| := by simp [absMax, scalar]

theorem aim_finite_congr (r : ℝ) (tel : Bool) (sf : Option Shape) (yo yp yp' : ℝ × ℝ) (z : ℝ)
    (p p' : (ℝ × ℝ) × (ℝ × ℝ))
    (h : Finite.pupilPoint yp p z false = Finite.pupilPoint yp' p' z false) :
    (Object.finite r tel sf).aim yo (some yp) z p = (Object.finite r tel sf).aim yo (some yp') z p' := by
  simp only [Object.aim, Finite.aim, h]

theorem aim_infinite_congr (pr : Projection) (ang : ℝ) (sf : Option (V3 → V3 → Option ℝ))
    (yo yp yp' : ℝ × ℝ) (z : ℝ) (p p' : (ℝ × ℝ) × (ℝ × ℝ))
    (h : Pupil.map yp p.1 p.2 false = Pupil.map yp' p'.1 p'.2 false) :
    (Object.infinite pr ang sf).aim yo (some yp) z p =
      (Object.infinite pr ang sf).aim yo (some yp') z p' := by
  simp only [Object.aim, Infinite.aim, h]

/-- When the rays of `rays_clipping` along `axis` are right: always for an infinite object; for a
finite one the pupil has to be real and its radii along the axis the largest ones. -/
def ClipOk (o : Object) (axis : Fin 2) (z : ℝ) (p : (ℝ × ℝ) × (ℝ × ℝ)) : Prop :=
  match o with
  | .finite _ _ _ => 0 < z ∧ |comp axis p.1| = absMax p ∧ |comp axis p.2| = absMax p
  | .infinite _ _ _ => True

/-- C88: `rays_clipping` starts the chief ray and the two rays that `aim_marginal` found to touch the
rims: those through the edge of the pupil whose radius is the lower, respectively upper, one along
the axis. -/
theorem c88_clipping (o : Object) (yo : ℝ × ℝ) (z : ℝ) (p : (ℝ × ℝ) × (ℝ × ℝ)) (axis : Fin 2)
    (hok : ClipOk o axis z p) (h0 : absMax p ≠ 0) (hl : comp axis p.1 ≤ 0) (hh : 0 ≤ comp axis p.2) :
    o.aimAll yo (clippingPoints axis p) z p false =
      [o.aim yo (some (0, 0)) z p,
       o.aim yo (some (onAxis axis (-1))) z (scalar (comp axis p.1)),
       o.aim yo (some (onAxis axis 1)) z (scalar (comp axis p.2))] := by
  have hpts : clippingPoints axis p =
      [(0, 0), onAxis axis (comp axis p.1 / absMax p), onAxis axis (comp axis p.2 / absMax p)] := by
    unfold clippingPoints onAxis comp
    by_cases ha : axis = 0 <;> simp [ha]
  rw [hpts]
  unfold Object.aimAll
  simp only [Bool.false_eq_true, if_false, List.map_cons, List.map_nil, List.cons.injEq, true_and,
    and_true]
  have haz : ∀ a v : ℝ, onAxis axis (a * v) = ((onAxis axis a).1 * v, (onAxis axis a).2 * v) := by
    intro a v
    unfold onAxis
    split_ifs <;> simp
  cases o with
  | finite r tel sf =>
    obtain ⟨hz, h1, h2⟩ := hok
    have e1 : comp axis p.1 / absMax p = -1 := by
      rw [← h1] at h0 ⊢
      rw [abs_of_nonpos hl] at h0 ⊢
      rw [div_neg, div_self (by simpa using h0)]
    have e2 : comp axis p.2 / absMax p = 1 := by
      rw [← h2] at h0 ⊢
      rw [abs_of_nonneg hh] at h0 ⊢
      rw [div_self h0]
    rw [e1, e2]
    constructor <;> apply aim_finite_congr <;> rw [pupilPoint_pos _ _ hz, pupilPoint_pos _ _ hz,
      absMax_scalar]
    · rw [h1]
    · rw [h2]
  | infinite pr ang sf =>
    have hm : ∀ (yp : ℝ × ℝ) (q : (ℝ × ℝ) × (ℝ × ℝ)),
        Pupil.map yp q.1 q.2 false = some (yp.1 * absMax q, yp.2 * absMax q) := fun yp q => by
      simp [Pupil.map, absMax]
    constructor <;> apply aim_infinite_congr <;> rw [hm, hm, absMax_scalar, ← haz, ← haz,
      div_mul_cancel₀ _ h0]
    · rw [abs_of_nonpos hl]; simp
    · rw [abs_of_nonneg hh]; simp

/-- C88: `rays_clipping` traces exactly three rays with equal weights, none is filtered or clipped: the
chief ray, which is the reference, and the two rays that `aim_marginal` found to touch the rims. -/
theorem c88_clipping_run (nwt : Shape.NewtonFn) (e0 : Elem) (es : List Elem) (o : Object)
    (n0 l z : ℝ) (old : Option State) (junk : List Row) (yo : ℝ × ℝ) (p : (ℝ × ℝ) × (ℝ × ℝ))
    (axis : Fin 2) (hz : z ≠ 0) (hok : ClipOk o axis z p) (h0 : absMax p ≠ 0)
    (hl : comp axis p.1 ≤ 0) (hh : 0 ≤ comp axis p.2) (hj : junk.length = (e0 :: es).length)
    (ho : ∀ s, old = some s → ∀ a ∈ s.arr, a.length = (e0 :: es).length) :
    ∃ s chief, raysClipping nwt (e0 :: es) o n0 old junk yo l z p axis = some s ∧ s.l = l ∧
      s.ref = 0 ∧ s.w = [1 / 3, 1 / 3, 1 / 3] ∧
      (∀ y d, chief = some (y, d) → Chief o yo z y d) ∧
      s.arr = [chief, o.aim yo (some (onAxis axis (-1))) z (scalar (comp axis p.1)),
        o.aim yo (some (onAxis axis 1)) z (scalar (comp axis p.2))].map
          (traced nwt e0 (e0 :: es) l n0 false) := by
  obtain ⟨s, h1, h2, h3, h4, -, h6⟩ := c88_given nwt e0 es n0 l false old junk
    (o.aimAll yo (clippingPoints axis p) z p false) none 0 hj ho
  have hc := c88_clipping o yo z p axis hok h0 hl hh
  refine ⟨s, o.aim yo (some (0, 0)) z p, h1, h4, h3, ?_, ?_, ?_⟩
  · have e : s.w = List.replicate 3 (1 / 3) := by
      obtain ⟨ha, hb, hs⟩ := h6 rfl
      rw [hc] at ha hs
      obtain ⟨a, b, c, hw⟩ : ∃ a b c, s.w = [a, b, c] := by
        match hw : s.w, ha with
        | [a, b, c], _ => exact ⟨a, b, c, rfl⟩
      have hab := hb a (by simp [hw]) b (by simp [hw])
      have hac := hb a (by simp [hw]) c (by simp [hw])
      have hsum := hs (by simp)
      rw [hw] at hsum ⊢
      simp only [List.sum_cons, List.sum_nil] at hsum
      have : a = 1 / 3 := by linarith
      rw [← hab, ← hac, this]; rfl
    rw [e]; rfl
  · exact fun y d h => aim_centre o yo z p hz y d h
  · rw [h2, hc]

/-- C88, violation: with a vignetted finite object the clipping rays miss the rims.  The pupil at
distance 1 has the lower radius 1/2 and the other radii 1; the lower ray, which should pass the pupil
at -1/2, passes it at `-tan (π/8)`, inside of it. -/
theorem c88_clipping_violation :
    ∃ d d' : V3, ((Object.finite 0 false none).aimAll (0, 0)
        (clippingPoints 1 ((-1, -1 / 2), (1, 1))) 1 ((-1, -1 / 2), (1, 1)) false)[1]? =
        some (some (0, d)) ∧
      (Object.finite 0 false none).aim (0, 0) (some (0, -1)) 1 (scalar (-1 / 2)) = some (0, d') ∧
      d.y / d.z = -Real.tan (Real.pi / 8) ∧ d'.y / d'.z = -1 / 2 ∧ -1 / 2 < d.y / d.z := by
  have hP : absMax ((-1, -1 / 2), ((1, 1) : ℝ × ℝ)) = 1 := by
    simp only [absMax, abs_neg, abs_one, max_self]
    rw [abs_of_neg (by norm_num : (-1 / 2 : ℝ) < 0)]; norm_num
  have hpt : Finite.pupilPoint (0, -1 / 2) ((-1, -1 / 2), (1, 1)) 1 false =
      some (0, -Real.tan (Real.pi / 8)) := by
    rw [pupilPoint_pos _ _ one_pos, hP, div_one, Real.arctan_one, ← Real.tan_neg]
    simp only [zero_mul, Real.tan_zero, mul_zero, one_mul]
    congr 3
    ring
  have hpt' : Finite.pupilPoint (0, -1) (scalar (-1 / 2)) 1 false = some (0, -1 / 2) := by
    rw [pupilPoint_pos _ _ one_pos, absMax_scalar, abs_of_neg (by norm_num : (-1 / 2 : ℝ) < 0)]
    simp only [zero_mul, Real.tan_zero, mul_zero, one_mul, neg_mul, Real.tan_neg, div_one,
      Real.tan_arctan]
    norm_num
  obtain ⟨⟨y, d⟩, hd⟩ := Finite.c37_defined 0 1 false (0, 0) (0, -1 / 2) ((-1, -1 / 2), (1, 1)) false
    one_ne_zero hpt
  obtain ⟨⟨y', d'⟩, hd'⟩ := Finite.c37_defined 0 1 false (0, 0) (0, -1) (scalar (-1 / 2)) false
    one_ne_zero hpt'
  obtain ⟨rfl, -, p, q, hpq, t, ht, htd⟩ := Finite.c37_axis one_ne_zero hd
  obtain ⟨rfl, -, p', q', hpq', t', ht', htd'⟩ := Finite.c37_axis one_ne_zero hd'
  rw [hpt] at hpq
  rw [hpt'] at hpq'
  simp only [Option.some.injEq, Prod.mk.injEq] at hpq hpq'
  obtain ⟨rfl, rfl⟩ := hpq
  obtain ⟨rfl, rfl⟩ := hpq'
  have hs : ∀ (t : ℝ) (d : V3) (q : ℝ), 0 < t * 1 → t • d = ⟨0, SignType.sign (1 : ℝ) * q, 1⟩ →
      d.y / d.z = q := by
    intro t d q ht h
    have h1 := congrArg V3.y h
    have h2 := congrArg V3.z h
    simp only [smul_y, smul_z, sign_one, SignType.coe_one, one_mul] at h1 h2
    have hd : d.z ≠ 0 := by rintro h0; rw [h0] at h2; simp at h2
    have ht0 : t ≠ 0 := by rintro rfl; simp at ht
    rw [div_eq_iff hd]
    apply mul_left_cancel₀ ht0
    linear_combination h1 - q * h2
  have h1 := hs t d _ ht htd
  have h2 := hs t' d' _ ht' htd'
  refine ⟨d, d', ?_, hd', h1, h2, ?_⟩
  · have : clippingPoints 1 ((-1, -1 / 2), ((1, 1) : ℝ × ℝ)) = [(0, 0), (0, -1 / 2), (0, 1)] := by
      simp [clippingPoints, hP]
    rw [this]
    simp only [Object.aimAll, Bool.false_eq_true, if_false, List.map_cons, List.map_nil,
      List.getElem?_cons_succ, List.getElem?_cons_zero, Object.aim]
    rw [hd]
  · rw [h1]
    have hlt : Real.tan (Real.pi / 8) < 1 / 2 := by
      have h4 : Real.tan (2 * (Real.pi / 8)) = 1 := by
        rw [show 2 * (Real.pi / 8) = Real.pi / 4 by ring]; exact Real.tan_pi_div_four
      have hpos : 0 < Real.tan (Real.pi / 8) :=
        Real.tan_pos_of_pos_of_lt_pi_div_two (by positivity) (by linarith [Real.pi_pos])
      rw [Real.tan_two_mul] at h4
      by_contra hge
      push Not at hge
      have hne : 1 - Real.tan (Real.pi / 8) ^ 2 ≠ 0 := by
        intro h0; rw [h0] at h4; simp at h4
      rw [div_eq_one_iff_eq hne] at h4
      nlinarith
    linarith

example : ClipOk (.finite 3 false none) 1 10 ((-1, -2), (1, 2)) ∧
    absMax ((-1, -2), ((1, 2) : ℝ × ℝ)) ≠ 0 := by
  have : absMax ((-1, -2), ((1, 2) : ℝ × ℝ)) = 2 := by simp [absMax]
  simp [ClipOk, comp, this]

/-! ## `rays_line` -/

theorem lineLoop_spec (o : Object) (chief : ℝ × ℝ → ℝ → Option ℝ) {eps r : ℝ} (he : |eps| ≤ 1)
    (hr : 0 < r) : ∀ (ys : List (ℝ × ℝ)) (z : ℝ) (ts : List (Fin 3 → Option (V3 × V3))),
    lineLoop o chief eps (aperture r) ys z = some ts → ts.length = ys.length ∧
      ∃ zs : List ℝ, zs.length = ys.length ∧ ∀ (k : ℕ) (yi : ℝ × ℝ), ys[k]? = some yi →
        ∃ z0 z1, (z :: zs)[k]? = some z0 ∧ zs[k]? = some z1 ∧ chief yi z0 = some z1 ∧
          ts[k]? = some ![o.aim yi (some (0, 0)) z1 (aperture r),
            o.aim yi (some (0, eps)) z1 (aperture r), o.aim yi (some (eps, 0)) z1 (aperture r)]
  | [], z, ts, h => by
    simp only [lineLoop, Option.some.injEq] at h
    subst h
    exact ⟨rfl, [], rfl, by simp⟩
  | yi :: ys, z, ts, h => by
    simp only [lineLoop, Option.bind_eq_some_iff, Option.map_eq_some_iff] at h
    obtain ⟨z1, hz1, t, ht, ts', hts, rfl⟩ := h
    obtain ⟨hl, zs, hzl, hk⟩ := lineLoop_spec o chief he hr ys z1 ts' hts
    have hpt : ∀ q ∈ linePoints eps, q.1 ^ 2 + q.2 ^ 2 ≤ 1 := by
      have : eps ^ 2 ≤ 1 := by rwa [sq_le_one_iff_abs_le_one]
      intro q hq
      simp only [linePoints, List.mem_cons, List.not_mem_nil, or_false] at hq
      rcases hq with rfl | rfl | rfl <;> norm_num
      · simpa using he
      · simpa using he
    rw [aimAll_eq o yi _ z1 _ true (Or.inr ⟨hpt, r, hr, rfl⟩)] at ht
    simp only [linePoints, List.map_cons, List.map_nil, three, Option.some.injEq] at ht
    subst ht
    refine ⟨by simp [hl], z1 :: zs, by simp [hzl], ?_⟩
    rintro (_ | k) y hy
    · simp only [List.getElem?_cons_zero, Option.some.injEq] at hy
      subst hy
      exact ⟨z, z1, rfl, rfl, hz1, rfl⟩
    · simp only [List.getElem?_cons_succ] at hy
      obtain ⟨z0, z2, a, b, c, d⟩ := hk k y hy
      exact ⟨z0, z2, by simpa using a, by simpa using b, c, by simpa using d⟩

/-- C88: `rays_line` starts first the chief rays of `n` field points from the centre to `yo`, then
for each of them the ray displaced in the meridional direction of the pupil, then the one displaced
in the sagittal direction.  The pupil distance of each field is found from that of the field before. -/
theorem c88_line (o : Object) (chief : ℝ × ℝ → ℝ → Option ℝ) (yo : ℝ × ℝ) (n : ℕ) (eps z r : ℝ)
    (he : |eps| ≤ 1) (hr : 0 < r) (starts : List (Option (V3 × V3)))
    (h : lineStarts o chief yo n eps z (aperture r) = some starts) :
    starts.length = 3 * n ∧ ∃ zs : List ℝ, zs.length = n ∧ ∀ k < n, ∃ z0 z1 : ℝ,
      let yi : ℝ × ℝ := ((k : ℝ) / ((n - 1 : ℕ) : ℝ) * yo.1, (k : ℝ) / ((n - 1 : ℕ) : ℝ) * yo.2)
      (z :: zs)[k]? = some z0 ∧ zs[k]? = some z1 ∧ chief yi z0 = some z1 ∧
      starts[k]? = some (o.aim yi (some (0, 0)) z1 (aperture r)) ∧
      starts[n + k]? = some (o.aim yi (some (0, eps)) z1 (aperture r)) ∧
      starts[2 * n + k]? = some (o.aim yi (some (eps, 0)) z1 (aperture r)) ∧
      (z1 ≠ 0 → ∀ y d, o.aim yi (some (0, 0)) z1 (aperture r) = some (y, d) → Chief o yi z1 y d) := by
  unfold lineStarts at h
  rw [Option.map_eq_some_iff] at h
  obtain ⟨ts, hts, rfl⟩ := h
  obtain ⟨hl, zs, hzl, hk⟩ := lineLoop_spec o chief he hr _ z ts hts
  have hlen : (lineFields yo n).length = n := by simp [lineFields, Sampling.linspace]
  rw [hlen] at hl hzl
  refine ⟨by simp [hl]; omega, zs, hzl, fun k hkn => ?_⟩
  have hf : (lineFields yo n)[k]? =
      some ((k : ℝ) / ((n - 1 : ℕ) : ℝ) * yo.1, (k : ℝ) / ((n - 1 : ℕ) : ℝ) * yo.2) := by
    unfold lineFields
    rw [List.getElem?_map, Sampling.linspace_getElem? 0 1 n k hkn]
    simp only [Option.map_some, sub_zero, zero_add, Option.some.injEq, Prod.mk.injEq]
    constructor <;> ring
  obtain ⟨z0, z1, h1, h2, h3, h4⟩ := hk k _ hf
  refine ⟨z0, z1, h1, h2, h3, ?_, ?_, ?_, fun hz y d hyd => aim_centre o _ z1 _ hz y d hyd⟩
  · rw [List.append_assoc, List.getElem?_append_left (by simp; omega), List.getElem?_map, h4]
    rfl
  · rw [List.append_assoc, List.getElem?_append_right (by simp; omega),
      List.getElem?_append_left (by simp; omega), List.getElem?_map]
    simp only [List.length_map, hl, Nat.add_sub_cancel_left, h4]
    rfl
  · rw [List.getElem?_append_right (by simp; omega), List.getElem?_map]
    have : 2 * n + k - (ts.map (· 0) ++ ts.map (· 1)).length = k := by simp [hl]; omega
    rw [this, h4]
    rfl

/-- The hypothesis can be met: without aiming (`pupil.aim` is false) the distance is kept. -/
example : ∃ starts, lineStarts (.infinite .rectilinear (1 / 2) none) (fun _ z => some z) (0, 1) 3
    (1 / 100) 5 (aperture 2) = some starts := by
  have he : |(1 / 100 : ℝ)| ≤ 1 := by rw [abs_of_pos] <;> norm_num
  have hpt : ∀ q ∈ linePoints (1 / 100), q.1 ^ 2 + q.2 ^ 2 ≤ 1 := by
    intro q hq
    simp only [linePoints, List.mem_cons, List.not_mem_nil, or_false] at hq
    rcases hq with rfl | rfl | rfl <;> norm_num
  have h : ∀ (ys : List (ℝ × ℝ)), ∃ ts, lineLoop (.infinite .rectilinear (1 / 2) none)
      (fun _ z => some z) (1 / 100) (aperture 2) ys 5 = some ts := by
    intro ys
    induction ys with
    | nil => exact ⟨_, rfl⟩
    | cons y ys ih =>
      obtain ⟨ts, hts⟩ := ih
      simp only [lineLoop, Option.bind_some]
      rw [aimAll_eq _ y _ 5 _ true (Or.inr ⟨hpt, 2, two_pos, rfl⟩), hts]
      exact ⟨_, rfl⟩
  obtain ⟨ts, hts⟩ := h (lineFields (0, 1) 3)
  exact ⟨_, by unfold lineStarts; rw [hts]; rfl⟩

/-- The hypotheses of `c88_given` and `c88_point` can be met. -/
example (nwt : Shape.NewtonFn) : ∃ s, raysPoint nwt [flat 0, flat 10, flat 5]
    (.infinite .rectilinear (1 / 4) none) 1 none [oldRow, oldRow, oldRow] (0, 1) 1 20 (aperture 3) 7
    .hexapolar none true = some s :=
  let ⟨s, hs, _⟩ := c88_point nwt (flat 0) [flat 10, flat 5] (.infinite .rectilinear (1 / 4) none) 1 1
    20 none [oldRow, oldRow, oldRow] (0, 1) (aperture 3) 7 .hexapolar none true (by norm_num)
    (by norm_num) trivial rfl (by simp) (Or.inr (Or.inl ⟨rfl, rfl⟩))
  ⟨s, hs⟩

end RayOpt.Entry
