import Verif.Props.Smooth
import Verif.Model.Figures

/-!
Property C104: astigmatism.  Near a ray in a plane with the axis, the sagittal and the tangential rays have
foci that follow the equations of Coddington from element to element, with the two curvatures of the
surface where the ray meets it; the astigmatism that `Analysis` draws approaches these foci.
-/

namespace RayOpt

open V3 Elem Sys Filter Topology Shape

/-! ## The curvatures of a surface -/

/-- Specification: `z = ζ y` is the section of the surface with the plane `x = 0` near `y0`; `ζ1` is its
slope and `ζ2` the second derivative at `y0`. -/
def Meridian (sh : Shape) (y0 : ℝ) (ζ ζ1 : ℝ → ℝ) (ζ2 : ℝ) : Prop :=
  (∀ᶠ y in 𝓝 y0, sh.surfaceSag ⟨0, y, ζ y⟩ = some 0 ∧ HasDerivAt ζ (ζ1 y) y) ∧ HasDerivAt ζ1 ζ2 y0

/-- Specification: the curvatures of the surface of revolution at height `y0`.  `cT` is the curvature of the
section; `1 / cS` is the distance from the axis along the normal. -/
def Curvatures (sh : Shape) (y0 cS cT : ℝ) : Prop :=
  ∃ (ζ ζ1 : ℝ → ℝ) (ζ2 : ℝ), Meridian sh y0 ζ ζ1 ζ2 ∧ cT = ζ2 / √(1 + ζ1 y0 ^ 2) ^ 3 ∧
    cS = if y0 = 0 then ζ2 else ζ1 y0 / (y0 * √(1 + ζ1 y0 ^ 2))

/-- The curvatures from the slope of the normal. -/
theorem curvature_profile (sh : Shape) (q r : V3) (hx : q.x = 0) (hr : sh.surfaceNormal q = some r)
    (cS cT : ℝ) (hc : Curvatures sh q.y cS cT) :
    ∃ e κ : ℝ, r = ⟨0, q.y * e, 1⟩ ∧ √(r.dot r) * cS = -e ∧ √(r.dot r) ^ 3 * cT = -(e + κ * q.y ^ 2) ∧
      ∀ (f : ℝ → V3) (v : V3) (s1 : ℝ), f s1 = q → Curve f v s1 →
      ∃ R : ℝ → V3, (∀ᶠ s in 𝓝 s1, sh.surfaceNormal (f s) = some (R s)) ∧
        Curve R (normalChange e κ q v) s1 := by
  obtain ⟨E, hE, hN⟩ := normal_profile sh q r hr
  obtain ⟨ζ, ζ1, ζ2, ⟨hζ, hζ1⟩, hT, hS⟩ := hc
  have hρ0 : rsq q = q.y ^ 2 := by simp only [rsq, hx]; ring
  rw [hρ0] at hE hN
  have hr0 : r = ⟨0, q.y * E (q.y ^ 2), 1⟩ := by
    have := hN.self_of_nhds q hρ0
    rw [hr, hx] at this
    have := Option.some.inj this
    rw [this]; simp
  have hcont : Tendsto (fun y : ℝ => y ^ 2) (𝓝 q.y) (𝓝 (q.y ^ 2)) := by
    have : ContinuousAt (fun y : ℝ => y ^ 2) q.y := by fun_prop
    exact this
  -- the slope of the section
  have hslope : ∀ᶠ y in 𝓝 q.y, ζ1 y = -(y * E (y ^ 2)) := by
    filter_upwards [hcont.eventually hN, hζ, eventually_eventually_nhds.mpr hζ] with y h1 h2 h3
    have hny := h1 ⟨0, y, ζ y⟩ (by simp only [rsq]; ring)
    obtain ⟨G, hG, hG'⟩ := (c08_gradient sh _ _ hny).1 (fun _ => 0) (fun t => t) ζ ⟨0, 1, ζ1 y⟩ y rfl rfl rfl
      (hasDerivAt_const _ _) (hasDerivAt_id _) h2.2
    have h0 := hG'.unique ((hasDerivAt_const y (0 : ℝ)).congr_of_eventuallyEq (by
      filter_upwards [hG, h3] with t h4 h5
      rw [h5.1] at h4
      exact (Option.some.inj h4).symm))
    simp only [V3.dot] at h0
    linarith
  have hζ0 := hslope.self_of_nhds
  have hd : HasDerivAt (fun y => -(y * E (y ^ 2))) (-(E (q.y ^ 2) + 2 * deriv E (q.y ^ 2) * q.y ^ 2)) q.y := by
    have h1 : HasDerivAt (fun y : ℝ => y ^ 2) (2 * q.y) q.y := by
      simpa using hasDerivAt_pow 2 q.y
    have h2 := (hasDerivAt_id q.y).mul (HasDerivAt.comp q.y (h₂ := E) (h := fun y : ℝ => y ^ 2) hE.hasDerivAt h1)
    refine h2.neg.congr_deriv ?_
    simp only [Function.comp, id]
    ring
  have hζ2 : ζ2 = -(E (q.y ^ 2) + 2 * deriv E (q.y ^ 2) * q.y ^ 2) :=
    hζ1.unique (hd.congr_of_eventuallyEq hslope)
  have hrr : r.dot r = 1 + ζ1 q.y ^ 2 := by
    rw [hr0, hζ0]; simp only [V3.dot]; ring
  have hpos : 0 < √(1 + ζ1 q.y ^ 2) := Real.sqrt_pos.mpr (by positivity)
  refine ⟨E (q.y ^ 2), 2 * deriv E (q.y ^ 2), hr0, ?_, ?_, fun f v s1 hf hv => ?_⟩
  · rw [hrr, hS]
    split_ifs with h0
    · rw [hζ2, hζ0, h0]; simp
    · have : √(1 + ζ1 q.y ^ 2) * (ζ1 q.y / (q.y * √(1 + ζ1 q.y ^ 2))) = ζ1 q.y / q.y := by field_simp
      rw [this, hζ0]; field_simp
  · rw [hrr, hT, mul_div_cancel₀ _ (by positivity), hζ2]
  · have := profile_curve sh q E (by rwa [hρ0]) (by rwa [hρ0]) f v s1 hf hv
    rw [hρ0] at this
    exact this

/-- C104: the curvatures of a conic surface are `c / w` and `c / w^3` with `w^2 = 1 - k c^2 y^2`; those of a
sphere are both `c`. -/
theorem c104_conic (sh : Shape) (y0 w : ℝ) (ha : sh.aspherics = none)
    (h : 0 < 1 - (1 + sh.conic) * sh.curvature ^ 2 * y0 ^ 2) (hw : 0 < w)
    (hw2 : w ^ 2 = 1 - sh.conic * sh.curvature ^ 2 * y0 ^ 2) :
    Curvatures sh y0 (sh.curvature / w) (sh.curvature / w ^ 3) := by
  set c := sh.curvature with hc
  set k := sh.conic with hk
  set D : ℝ → ℝ := fun y => 1 - (1 + k) * c ^ 2 * y ^ 2 with hD
  have hDd : ∀ y, HasDerivAt D (-(2 * ((1 + k) * c ^ 2 * y))) y := by
    intro y
    have := ((hasDerivAt_pow 2 y).const_mul ((1 + k) * c ^ 2)).const_sub 1
    exact this.congr_deriv (by simp; ring)
  have hev : ∀ᶠ y in 𝓝 y0, 0 < D y := (hDd y0).continuousAt.eventually (lt_mem_nhds h)
  have hsd : ∀ y, 0 < D y → HasDerivAt (fun y => √(D y)) (-((1 + k) * c ^ 2 * y) / √(D y)) y := by
    intro y hy
    refine ((hDd y).sqrt hy.ne').congr_deriv ?_
    have := Real.sqrt_pos.mpr hy
    field_simp
  have hs0 : 0 < √(D y0) := Real.sqrt_pos.mpr h
  have hsq0 : √(D y0) ^ 2 = D y0 := Real.sq_sqrt h.le
  have hD0 : D y0 = 1 - (1 + k) * c ^ 2 * y0 ^ 2 := rfl
  have hw1 : √(1 + (c * y0 / √(D y0)) ^ 2) = w / √(D y0) := by
    rw [show 1 + (c * y0 / √(D y0)) ^ 2 = (w / √(D y0)) ^ 2 by
      have hDne : D y0 ≠ 0 := h.ne'
      rw [div_pow, div_pow, hw2, hsq0]
      field_simp
      rw [hD0]
      ring]
    exact Real.sqrt_sq (by positivity)
  refine ⟨fun y => c * y ^ 2 / (1 + √(D y)), fun y => c * y / √(D y), c / √(D y0) ^ 3, ⟨?_, ?_⟩, ?_, ?_⟩
  · filter_upwards [hev] with y hy
    have hs := Real.sqrt_pos.mpr hy
    have hsq : √(D y) ^ 2 = D y := Real.sq_sqrt hy.le
    have hDy : D y = 1 - (1 + k) * c ^ 2 * y ^ 2 := rfl
    constructor
    · unfold surfaceSag
      rw [ha]
      have e : 1 - (1 + sh.conic) * sh.curvature ^ 2 * rsq ⟨0, y, c * y ^ 2 / (1 + √(D y))⟩ = D y := by
        simp only [rsq, hDy]; ring
      by_cases h0 : c = 0
      · rw [if_pos ⟨h0, rfl⟩, h0]; simp
      · rw [if_neg (fun hh => h0 hh.1)]
        dsimp only
        rw [if_pos h0, e, if_neg (not_lt.mpr hy.le)]
        congr 1
        simp only [rsq]
        rw [← hc]
        ring
    · have h1 := ((hasDerivAt_pow 2 y).const_mul c).div ((hsd y hy).const_add 1) (by positivity)
      refine h1.congr_deriv ?_
      have : (1 + k) * c ^ 2 * y ^ 2 = 1 - √(D y) ^ 2 := by rw [hsq, hDy]; ring
      simp only [Nat.cast_ofNat, Nat.add_one_sub_one, pow_one]
      field_simp
      linear_combination c * y * this
  · have h1 := ((hasDerivAt_id y0).const_mul c).div (hsd y0 h) hs0.ne'
    refine h1.congr_deriv ?_
    simp only [id, mul_one]
    have : (1 + k) * c ^ 2 * y0 ^ 2 = 1 - √(D y0) ^ 2 := by rw [hsq0, hD0]; ring
    field_simp
    linear_combination c * this
  · rw [hw1]; field_simp
  · rw [hw1]
    split_ifs with h0
    · have h1 : D y0 = 1 := by rw [hD0, h0]; ring
      have h2 : w = 1 := by
        rw [h0] at hw2
        nlinarith [hw2]
      rw [h1, h2]; simp
    · field_simp

/-- C104: the curvatures of an asphere, from the slope `s1` and the second derivative `s2` of its section
`z = c y^2 / (1 + sqrt (1 - (1 + k) c^2 y^2)) + sum a_i y^(2 i + 2)`; at the vertex both are `c + 2 a_0`. -/
theorem c104_asphere (sh : Shape) (y0 s1 s2 : ℝ) (l : List ℝ) (ha : sh.aspherics = some l)
    (h : 0 < 1 - (1 + sh.conic) * sh.curvature ^ 2 * y0 ^ 2)
    (h1 : s1 = sh.curvature * y0 / √(1 - (1 + sh.conic) * sh.curvature ^ 2 * y0 ^ 2) +
      ∑ i : Fin l.length, l[i] * ((2 * i.val + 2) * y0 ^ (2 * i.val + 1)))
    (h2 : s2 = sh.curvature / √(1 - (1 + sh.conic) * sh.curvature ^ 2 * y0 ^ 2) ^ 3 +
      ∑ i : Fin l.length, l[i] * ((2 * i.val + 2) * (2 * i.val + 1) * y0 ^ (2 * i.val))) :
    (y0 ≠ 0 → Curvatures sh y0 (s1 / (y0 * √(1 + s1 ^ 2))) (s2 / √(1 + s1 ^ 2) ^ 3)) ∧
    (y0 = 0 → Curvatures sh y0 (sh.curvature + 2 * l.getD 0 0) (sh.curvature + 2 * l.getD 0 0)) := by
  set c := sh.curvature with hc
  set k := sh.conic with hk
  set D : ℝ → ℝ := fun y => 1 - (1 + k) * c ^ 2 * y ^ 2 with hD
  have hDd : ∀ y, HasDerivAt D (-(2 * ((1 + k) * c ^ 2 * y))) y := by
    intro y
    have := ((hasDerivAt_pow 2 y).const_mul ((1 + k) * c ^ 2)).const_sub 1
    exact this.congr_deriv (by simp; ring)
  have hev : ∀ᶠ y in 𝓝 y0, 0 < D y := (hDd y0).continuousAt.eventually (lt_mem_nhds h)
  have hsd : ∀ y, 0 < D y → HasDerivAt (fun y => √(D y)) (-((1 + k) * c ^ 2 * y) / √(D y)) y := by
    intro y hy
    refine ((hDd y).sqrt hy.ne').congr_deriv ?_
    have := Real.sqrt_pos.mpr hy
    field_simp
  have hs0 : 0 < √(D y0) := Real.sqrt_pos.mpr h
  have hsq0 : √(D y0) ^ 2 = D y0 := Real.sq_sqrt h.le
  have hD0 : D y0 = 1 - (1 + k) * c ^ 2 * y0 ^ 2 := rfl
  have hM : Meridian sh y0 (fun y => c * y ^ 2 / (1 + √(D y)) + ∑ i : Fin l.length, l[i] * y ^ (2 * i.val + 2))
      (fun y => c * y / √(D y) + ∑ i : Fin l.length, l[i] * ((2 * i.val + 2) * y ^ (2 * i.val + 1))) s2 := by
    refine ⟨?_, ?_⟩
    · filter_upwards [hev] with y hy
      have hs := Real.sqrt_pos.mpr hy
      have hsq : √(D y) ^ 2 = D y := Real.sq_sqrt hy.le
      have hDy : D y = 1 - (1 + k) * c ^ 2 * y ^ 2 := rfl
      constructor
      · have e : (0 : ℝ) ^ 2 + y ^ 2 = y ^ 2 := by ring
        rw [c08_sag_value sh _ l ha (by dsimp only; rw [e]; exact hy.le)]
        dsimp only
        rw [e, ← hc, ← hk, ← hDy]
        have e2 : ∑ i : Fin l.length, l[i] * (y ^ 2) ^ (i.val + 1) =
            ∑ i : Fin l.length, l[i] * y ^ (2 * i.val + 2) :=
          Finset.sum_congr rfl fun i _ => by rw [← pow_mul]; congr 2
        rw [e2]
        congr 1
        ring
      · have h1 := ((hasDerivAt_pow 2 y).const_mul c).div ((hsd y hy).const_add 1) (by positivity)
        refine HasDerivAt.add (h1.congr_deriv ?_) (HasDerivAt.fun_sum fun i _ => ?_)
        · have : (1 + k) * c ^ 2 * y ^ 2 = 1 - √(D y) ^ 2 := by rw [hsq, hDy]; ring
          simp only [Nat.cast_ofNat, Nat.add_one_sub_one, pow_one]
          field_simp
          linear_combination c * y * this
        · refine ((hasDerivAt_pow (2 * i.val + 2) y).const_mul _).congr_deriv ?_
          push_cast
          rfl
    · have h1 := ((hasDerivAt_id y0).const_mul c).div (hsd y0 h) hs0.ne'
      rw [h2]
      refine HasDerivAt.add (h1.congr_deriv ?_) (HasDerivAt.fun_sum fun i _ => ?_)
      · simp only [id, mul_one]
        have : (1 + k) * c ^ 2 * y0 ^ 2 = 1 - √(D y0) ^ 2 := by rw [hsq0, hD0]; ring
        have e : √(1 - (1 + k) * c ^ 2 * y0 ^ 2) = √(D y0) := rfl
        rw [e]
        field_simp
        linear_combination c * this
      · refine (((hasDerivAt_pow (2 * i.val + 1) y0).const_mul _).const_mul _).congr_deriv ?_
        rw [Nat.add_sub_cancel]
        push_cast
        ring
  have e1 : c * y0 / √(D y0) + ∑ i : Fin l.length, l[i] * ((2 * i.val + 2) * y0 ^ (2 * i.val + 1)) = s1 :=
    h1.symm
  constructor
  · intro h0
    exact ⟨_, _, _, hM, by rw [e1], by rw [if_neg h0, e1]⟩
  · intro h0
    have hz : s1 = 0 := by rw [h1, h0]; simp
    have hs : s2 = c + 2 * l.getD 0 0 := by
      rw [h2, h0]
      simp only [ne_eq, OfNat.ofNat_ne_zero, not_false_eq_true, zero_pow, mul_zero, sub_zero, Real.sqrt_one,
        one_pow, div_one]
      congr 1
      cases l with
      | nil => simp
      | cons a r =>
        have := Fin.sum_univ_succ (n := r.length)
          fun i => (a :: r).get i * ((2 * (i.val : ℝ) + 2) * (2 * i.val + 1) * 0 ^ (2 * i.val))
        refine this.trans ?_
        simp
        ring
    refine ⟨_, _, _, hM, ?_, ?_⟩
    · rw [e1, hz, ← hs]; simp
    · rw [if_pos h0, ← hs]

/-- The vertex of an asphere with the curvature 1/2 and the coefficients 1 and 3. -/
example : Curvatures ⟨1 / 2, -1, some [1, 3], false⟩ 0 (5 / 2) (5 / 2) := by
  have := (c104_asphere ⟨1 / 2, -1, some [1, 3], false⟩ 0 _ _ [1, 3] rfl (by norm_num) rfl rfl).2 rfl
  norm_num at this
  exact this

/-! ## The foci -/

/-- The component of `w` in the plane `x = 0`, across the ray with direction `u`. -/
def across (u w : V3) : ℝ := w.y * u.z - w.z * u.y

/-- Specification: the neighbouring rays have a sagittal focus at the distance `1 / V` along the ray with
direction `u` (`V = 0`: at infinity). -/
def SagittalAt (V : ℝ) (dp du : V3) : Prop := du.x = -(V * dp.x)

/-- Specification: the neighbouring rays have a tangential focus at the distance `1 / V`. -/
def TangentialAt (V : ℝ) (u dp du : V3) : Prop := across u du = -(V * across u dp)

/-- C104: the foci are where the points of the rays do not move across the ray. -/
theorem c104_focus (p u : ℝ → V3) (dp du w : V3) (s0 a : ℝ) (ha : a ≠ 0) (hp : Curve p dp s0)
    (hu : Curve u du s0) (hw : Curve (fun s => p s + a • u s) w s0) :
    (SagittalAt (1 / a) dp du ↔ w.x = 0) ∧ (TangentialAt (1 / a) (u s0) dp du ↔ across (u s0) w = 0) := by
  have h := hp.add (Curve.smul (hasDerivAt_const s0 a) hu)
  have e := hw.unique h
  rw [e]
  simp only [SagittalAt, TangentialAt, across, add_x, add_y, add_z, smul_x, smul_y, smul_z]
  constructor
  · constructor <;> intro h
    · rw [h]; field_simp; ring
    · field_simp; linarith
  · constructor <;> intro h
    · field_simp at h; linarith
    · field_simp; linarith

/-! ## From element to element -/

namespace Bundle

variable {nwt : Shape.NewtonFn} {l : ℝ} {clp : Bool} {sys : List Elem} {s0 : ℝ}
  {p u : ℕ → ℝ → V3} {t : ℕ → ℝ → ℝ} {n : ℕ → ℝ}

/-- The direction in which the rays arrive at element `j + 1`, in its frame. -/
noncomputable def incoming (sys : List Elem) (j : ℕ) (hj : j + 1 < sys.length) (v : V3) : V3 :=
  sys[j + 1].tf.toNormal (sys[j].tf.fromNormal v)

theorem incoming_axis (σ : ℕ → ℝ) (hax : ∀ j (h : j < sys.length), OnAxis (σ j) sys[j].tf) (j : ℕ)
    (hj : j + 1 < sys.length) (v : V3) : (incoming sys j hj v).x = v.x ∧
      (incoming sys j hj v).y = σ (j + 1) * (σ j * v.y) ∧
      (incoming sys j hj v).z = σ (j + 1) * (σ j * v.z) := by
  unfold incoming
  rw [(hax _ hj).into, (hax j (by omega)).back]
  exact ⟨rfl, rfl, rfl⟩

/-- A ray in the plane `x = 0` stays in it. -/
theorem plane (B : Bundle nwt l clp sys s0 p u t n) (σ : ℕ → ℝ)
    (hax : ∀ j (h : j < sys.length), OnAxis (σ j) sys[j].tf) (hp0 : (p 0 s0).x = 0) (hu0 : (u 0 s0).x = 0) :
    ∀ j < sys.length, (p j s0).x = 0 ∧ (u j s0).x = 0
  | 0, _ => ⟨hp0, hu0⟩
  | j + 1, hj => by
    obtain ⟨hp, hu⟩ := B.plane σ hax hp0 hu0 j (by omega)
    obtain ⟨d, e1, -, hn, e4, e5⟩ := (B.step j hj (B.pos j (by omega))).self_of_nhds
    have hi : (sys[j + 1].tf.toNormal (sys[j].tf.fromNormal (u j s0))).x = 0 := by
      rw [(hax _ hj).into, (hax j (by omega)).back]; exact hu
    have hq : (p (j + 1) s0).x = 0 := by
      rw [e1, add_x, smul_x, hi, mul_zero, add_zero, (hax _ hj).into, (hax j (by omega)).back, (hax _ hj).off]
      simp [V3.turn, hp]
    refine ⟨hq, ?_⟩
    by_cases hA : ∃ sh m, Acts sys[j + 1] sh m
    · obtain ⟨sh, m, hA⟩ := hA
      by_cases hid : m.mirror = false ∧ n j = m.index l
      · rw [((e5 sh m hA).1 hid).2, hi]
      · obtain ⟨r, g, hr, h2⟩ := (e5 sh m hA).2 hid
        obtain ⟨E, -, hN⟩ := normal_profile sh _ r hr
        have := hN.self_of_nhds _ rfl
        rw [hr] at this
        have hrx : r.x = 0 := by rw [Option.some.inj this, hq, zero_mul]
        have hx := congrArg V3.x h2
        simp only [add_x, smul_x, hi, hrx, mul_zero, add_zero] at hx
        exact (mul_eq_zero.mp hx).resolve_left hn.ne'
    · push Not at hA
      rw [(e4 hA).2, hi]

end Bundle

open Bundle

section system

variable {nwt : Shape.NewtonFn} {l : ℝ} {clp : Bool} {sys : List Elem} {s0 : ℝ}
  {p u : ℕ → ℝ → V3} {t : ℕ → ℝ → ℝ} {n : ℕ → ℝ}

/-- The displacements of the rays at the next element. -/
theorem transfer_components (B : Bundle nwt l clp sys s0 p u t n) (σ : ℕ → ℝ)
    (hax : ∀ j (h : j < sys.length), OnAxis (σ j) sys[j].tf) (hp0 : (p 0 s0).x = 0) (hu0 : (u 0 s0).x = 0)
    (j : ℕ) (hj : j + 1 < sys.length) {dp du dq : V3} (hp : Curve (p j) dp s0) (hu : Curve (u j) du s0)
    (hq : Curve (p (j + 1)) dq s0) (d : ℝ) (hd : t (j + 1) s0 = n j * d) :
    dq.x = dp.x + d * du.x ∧ (incoming sys j hj du).x = du.x ∧
    across (incoming sys j hj (u j s0)) dq = across (u j s0) dp + d * across (u j s0) du ∧
    across (incoming sys j hj (u j s0)) (incoming sys j hj du) = across (u j s0) du := by
  have hn := B.pos j (by omega)
  obtain ⟨d', hdq⟩ := B.transfer j hj hp hu hq
  obtain ⟨-, hux⟩ := B.plane σ hax hp0 hu0 j (by omega)
  have hD : (incoming sys j hj (u j s0)).dot (p (j + 1) s0 -
        sys[j + 1].tf.toNormal (sys[j].tf.fromNormal (p j s0) - sys[j + 1].tf.offset)) = d := by
    obtain ⟨d1, e1, e2, -⟩ := (B.step j hj hn).self_of_nhds
    have h1 := (B.units j (by omega)).self_of_nhds
    have h2 : (incoming sys j hj (u j s0)).dot (incoming sys j hj (u j s0)) = 1 := by
      unfold incoming
      rw [(c10_dot (B.placed _ (List.getElem_mem hj)) _ _).2.1,
        (c10_dot (B.placed _ (List.getElem_mem (Nat.lt_of_succ_lt hj))) _ _).1, h1]
    have h3 : d1 = d := by
      rw [hd] at e2
      exact (mul_left_cancel₀ hn.ne' e2).symm
    rw [e1, h3]
    change (incoming sys j hj (u j s0)).dot (_ + d • incoming sys j hj (u j s0) - _) = d
    simp only [V3.dot] at h2 ⊢
    simp only [add_x, add_y, add_z, sub_x, sub_y, sub_z, smul_x, smul_y, smul_z]
    linear_combination d * h2
  change dq = incoming sys j hj dp + (d' • incoming sys j hj (u j s0) +
    (incoming sys j hj (u j s0)).dot (p (j + 1) s0 -
        sys[j + 1].tf.toNormal (sys[j].tf.fromNormal (p j s0) - sys[j + 1].tf.offset)) •
      incoming sys j hj du) at hdq
  rw [hD] at hdq
  have hxx := congrArg V3.x hdq
  have hyy := congrArg V3.y hdq
  have hzz := congrArg V3.z hdq
  simp only [add_x, add_y, add_z, smul_x, smul_y, smul_z] at hxx hyy hzz
  obtain ⟨a1, a2, a3⟩ := incoming_axis σ hax j hj dp
  obtain ⟨b1, b2, b3⟩ := incoming_axis σ hax j hj (u j s0)
  obtain ⟨c1, c2, c3⟩ := incoming_axis σ hax j hj du
  have s1 : σ (j + 1) * σ (j + 1) = 1 := by rcases (hax _ hj).sign with h | h <;> rw [h] <;> norm_num
  have s2 : σ j * σ j = 1 := by
    rcases (hax j (by omega)).sign with h | h <;> rw [h] <;> norm_num
  have s3 : σ (j + 1) * σ (j + 1) * (σ j * σ j) = 1 := by rw [s1, s2, one_mul]
  refine ⟨?_, c1, ?_, ?_⟩
  · rw [hxx, a1, b1, c1, hux]; ring
  · unfold across
    rw [hyy, hzz, a2, a3, b2, b3, c2, c3]
    linear_combination ((dp.y * (u j s0).z - dp.z * (u j s0).y) + d * (du.y * (u j s0).z - du.z * (u j s0).y)) * s3
  · unfold across
    rw [b2, b3, c2, c3]
    linear_combination (du.y * (u j s0).z - du.z * (u j s0).y) * s3

/-- C104: between two elements the foci stay where they are: the distances become shorter by the path `d`. -/
theorem c104_transfer (B : Bundle nwt l clp sys s0 p u t n) (σ : ℕ → ℝ)
    (hax : ∀ j (h : j < sys.length), OnAxis (σ j) sys[j].tf) (hp0 : (p 0 s0).x = 0) (hu0 : (u 0 s0).x = 0)
    (j : ℕ) (hj : j + 1 < sys.length) {dp du dq : V3} (hp : Curve (p j) dp s0) (hu : Curve (u j) du s0)
    (hq : Curve (p (j + 1)) dq s0) (d V : ℝ) (hd : t (j + 1) s0 = n j * d) (hV : 1 - d * V ≠ 0) :
    (SagittalAt V dp du → SagittalAt (V / (1 - d * V)) dq (incoming sys j hj du)) ∧
    (TangentialAt V (u j s0) dp du →
      TangentialAt (V / (1 - d * V)) (incoming sys j hj (u j s0)) dq (incoming sys j hj du)) := by
  obtain ⟨e1, e2, e3, e4⟩ := transfer_components B σ hax hp0 hu0 j hj hp hu hq d hd
  obtain ⟨W, hW⟩ : ∃ W, V / (1 - d * V) = W := ⟨_, rfl⟩
  have hW' : W * (1 - d * V) = V := by rw [← hW, div_mul_cancel₀ _ hV]
  rw [hW]
  constructor
  · intro h
    unfold SagittalAt at h ⊢
    rw [e1, e2, h]
    linear_combination dp.x * hW'
  · intro h
    unfold TangentialAt at h ⊢
    rw [e3, e4, h]
    linear_combination across (u j s0) dp * hW'

/-- C104: rays from one point have this point as focus, at the distance `-d` from the next element. -/
theorem c104_point (B : Bundle nwt l clp sys s0 p u t n) (σ : ℕ → ℝ)
    (hax : ∀ j (h : j < sys.length), OnAxis (σ j) sys[j].tf) (hp0 : (p 0 s0).x = 0) (hu0 : (u 0 s0).x = 0)
    (j : ℕ) (hj : j + 1 < sys.length) {du dq : V3} (hp : Curve (p j) 0 s0) (hu : Curve (u j) du s0)
    (hq : Curve (p (j + 1)) dq s0) (d : ℝ) (hd : t (j + 1) s0 = n j * d) (h0 : d ≠ 0) :
    SagittalAt (1 / -d) dq (incoming sys j hj du) ∧
    TangentialAt (1 / -d) (incoming sys j hj (u j s0)) dq (incoming sys j hj du) := by
  obtain ⟨e1, e2, e3, e4⟩ := transfer_components B σ hax hp0 hu0 j hj hp hu hq d hd
  have h1 : across (u j s0) 0 = 0 := by simp [across]
  constructor
  · unfold SagittalAt
    rw [e1, e2]
    simp only [zero_x]
    field_simp
    ring
  · unfold TangentialAt
    rw [e3, e4, h1]
    field_simp
    ring

/-- C104, equations of Coddington: at a surface with the curvatures `cS` and `cT` the sagittal focus follows
`n' / s' = n / s + cS (n' cos I' - n cos I)` and the tangential one
`n' cos^2 I' / t' = n cos^2 I / t + cT (n' cos I' - n cos I)`, in refraction and in reflection. -/
theorem c104_surface (B : Bundle nwt l clp sys s0 p u t n) (σ : ℕ → ℝ)
    (hax : ∀ j (h : j < sys.length), OnAxis (σ j) sys[j].tf) (hp0 : (p 0 s0).x = 0) (hu0 : (u 0 s0).x = 0)
    (j : ℕ) (hj : j + 1 < sys.length) {dp du dq dv : V3} (hp : Curve (p j) dp s0) (hu : Curve (u j) du s0)
    (hq : Curve (p (j + 1)) dq s0) (hv : Curve (u (j + 1)) dv s0) (sh : Shape) (m : Material)
    (hA : Acts sys[j + 1] sh m) (r : V3) (hr : sh.surfaceNormal (p (j + 1) s0) = some r) (cS cT cosI cosI' : ℝ)
    (hc : Curvatures sh (p (j + 1) s0).y cS cT)
    (hI : cosI = (incoming sys j hj (u j s0)).dot r / √(r.dot r))
    (hI' : cosI' = (u (j + 1) s0).dot r / √(r.dot r)) (V V' : ℝ) :
    (SagittalAt V dq (incoming sys j hj du) →
      (n (j + 1) * V' = n j * V + cS * (n (j + 1) * cosI' - n j * cosI) → SagittalAt V' dq dv) ∧
      (dq.x ≠ 0 → SagittalAt V' dq dv →
        n (j + 1) * V' = n j * V + cS * (n (j + 1) * cosI' - n j * cosI))) ∧
    (cosI ≠ 0 → cosI' ≠ 0 → TangentialAt V (incoming sys j hj (u j s0)) dq (incoming sys j hj du) →
      (n (j + 1) * cosI' ^ 2 * V' = n j * cosI ^ 2 * V + cT * (n (j + 1) * cosI' - n j * cosI) →
        TangentialAt V' (u (j + 1) s0) dq dv) ∧
      (across (u (j + 1) s0) dq ≠ 0 → TangentialAt V' (u (j + 1) s0) dq dv →
        n (j + 1) * cosI' ^ 2 * V' = n j * cosI ^ 2 * V + cT * (n (j + 1) * cosI' - n j * cosI))) := by
  have hn' := B.pos (j + 1) hj
  obtain ⟨hqx, hvx⟩ := B.plane σ hax hp0 hu0 (j + 1) hj
  have hix : (incoming sys j hj (u j s0)).x = 0 := by
    rw [(incoming_axis σ hax j hj _).1]; exact (B.plane σ hax hp0 hu0 j (by omega)).2
  obtain ⟨e, κ, hr0, hS, hT, hN⟩ := curvature_profile sh _ r hqx hr cS cT hc
  set i := incoming sys j hj (u j s0) with hi
  set di := incoming sys j hj du with hdi
  set q := p (j + 1) s0 with hqdef
  set v := u (j + 1) s0 with hvdef
  have hrr : 0 < r.dot r := by rw [hr0]; simp only [V3.dot]; nlinarith [sq_nonneg (q.y * e)]
  have hR : 0 < √(r.dot r) := Real.sqrt_pos.mpr hrr
  have hR2 : √(r.dot r) ^ 2 = r.dot r := Real.sq_sqrt hrr.le
  -- the displacement is along the surface, and the law of refraction is differentiated
  have main : r.dot dq = 0 ∧ ∃ G g g' : ℝ, n (j + 1) • v = n j • i + G • r ∧ n (j + 1) • dv =
      n j • di + (g' • r + g • normalChange e κ q dq) ∧ g = G := by
    by_cases hid : m.mirror = false ∧ n j = m.index l
    · obtain ⟨d, e1, -, -, -, e5⟩ := (B.step j hj (B.pos j (by omega))).self_of_nhds
      obtain ⟨h1, h2⟩ := (e5 sh m hA).1 hid
      refine ⟨?_, 0, 0, 0, ?_, ?_, rfl⟩
      · obtain ⟨G, hG, hG'⟩ := (c08_gradient sh _ r hr).1 (fun s => (p (j + 1) s).x)
          (fun s => (p (j + 1) s).y) (fun s => (p (j + 1) s).z) dq s0 rfl rfl rfl hq.x hq.y hq.z
        refine hG'.unique ((hasDerivAt_const s0 (0 : ℝ)).congr_of_eventuallyEq ?_)
        filter_upwards [hG, B.sheet j hj sh m hA] with s h1 h2
        rw [h2] at h1
        exact (Option.some.inj h1).symm
      · rw [h1, hvdef, h2]
        change n j • i = _
        ext <;> simp
      · have : dv = di := by
          refine hv.unique ((arriving (sys := sys) j hj hp hu).1.congr ?_)
          filter_upwards [B.step j hj (B.pos j (by omega))] with s ⟨_, _, _, _, _, e5⟩
          exact ((e5 sh m hA).1 hid).2
        rw [h1, this]
        ext <;> simp
    · obtain ⟨hrd, g', hb⟩ := B.bend j hj hp hu hq hv sh m hA hid r hr e κ hN
      refine ⟨hrd, n (j + 1) * v.z - n j * i.z, _, g', ?_, hb, rfl⟩
      obtain ⟨d, -, -, -, -, e5⟩ := (B.step j hj (B.pos j (by omega))).self_of_nhds
      obtain ⟨r', g, hr', h2⟩ := (e5 sh m hA).2 hid
      rw [hr] at hr'
      obtain rfl := Option.some.inj hr'
      change n (j + 1) • v = n j • i + g • r at h2
      have hz := congrArg V3.z h2
      simp only [add_z, smul_z, hr0, mul_one] at hz
      rw [h2, hz]
      congr 2
      ring
  obtain ⟨hrd, G, g, g', hlaw, hbend, rfl⟩ := main
  have hii : i.dot i = 1 := by
    have h1 := (B.units j (by omega)).self_of_nhds
    rw [hi]
    unfold incoming
    rw [(c10_dot (B.placed _ (List.getElem_mem hj)) _ _).2.1,
      (c10_dot (B.placed _ (List.getElem_mem (Nat.lt_of_succ_lt hj))) _ _).1, h1]
  have hvv : v.dot v = 1 := (B.units (j + 1) hj).self_of_nhds
  have hidi : i.dot di = 0 := by
    have h1 := unit_curve hu (B.units j (by omega))
    rw [hi, hdi]
    unfold incoming
    rw [(c10_dot (B.placed _ (List.getElem_mem hj)) _ _).2.1,
      (c10_dot (B.placed _ (List.getElem_mem (Nat.lt_of_succ_lt hj))) _ _).1, h1]
  have hvdv : v.dot dv = 0 := unit_curve hv (B.units (j + 1) hj)
  -- the change of the normal components
  have hΓ : n (j + 1) * cosI' - n j * cosI = g * √(r.dot r) := by
    have : n (j + 1) * v.dot r - n j * i.dot r = g * r.dot r := by
      have hx := congrArg V3.x hlaw
      have hy := congrArg V3.y hlaw
      have hz := congrArg V3.z hlaw
      simp only [add_x, add_y, add_z, smul_x, smul_y, smul_z] at hx hy hz
      simp only [V3.dot]
      linear_combination r.x * hx + r.y * hy + r.z * hz
    rw [hI, hI']
    field_simp
    rw [hR2]
    linarith
  have hx := congrArg V3.x hbend
  have hy := congrArg V3.y hbend
  have hz := congrArg V3.z hbend
  simp only [add_x, add_y, add_z, smul_x, smul_y, smul_z, normalChange, hqx, zero_mul, zero_add, mul_zero,
    add_zero] at hx hy hz
  have hrx : r.x = 0 := by rw [hr0]
  have hry : r.y = q.y * e := by rw [hr0]
  have hrz : r.z = 1 := by rw [hr0]
  rw [hrx, mul_zero, zero_add] at hx
  rw [hry] at hy
  rw [hrz, mul_one] at hz
  simp only [V3.dot, hrx, hry, hrz] at hrd
  constructor
  · intro h
    unfold SagittalAt at h ⊢
    have key : n (j + 1) * dv.x = -(n j * V + cS * (n (j + 1) * cosI' - n j * cosI)) * dq.x := by
      rw [hΓ, hx, h]
      linear_combination (g * dq.x) * hS
    constructor
    · intro h1
      rw [← h1] at key
      exact mul_left_cancel₀ hn'.ne' (by rw [key]; ring)
    · intro h0 h1
      rw [h1] at key
      exact mul_right_cancel₀ h0 (by linarith)
  · intro hc1 hc2 h
    -- the components in the plane
    have iy : di.y * i.y + di.z * i.z = 0 := by
      simp only [V3.dot, hix] at hidi; linarith
    have vy : dv.y * v.y + dv.z * v.z = 0 := by
      simp only [V3.dot, hvx] at hvdv; linarith
    have i1 : i.y ^ 2 + i.z ^ 2 = 1 := by simp only [V3.dot, hix] at hii; linarith
    have v1 : v.y ^ 2 + v.z ^ 2 = 1 := by simp only [V3.dot, hvx] at hvv; linarith
    have hcI : cosI * √(r.dot r) = i.y * (q.y * e) + i.z := by
      rw [hI, div_mul_cancel₀ _ hR.ne']
      simp only [V3.dot, hrx, hry, hrz]; ring
    have hcI' : cosI' * √(r.dot r) = v.y * (q.y * e) + v.z := by
      rw [hI', div_mul_cancel₀ _ hR.ne']
      simp only [V3.dot, hrx, hry, hrz]; ring
    have hdz : dq.z = -(q.y * e * dq.y) := by linarith
    have wi : across i dq = dq.y * (cosI * √(r.dot r)) := by
      rw [hcI]; unfold across; rw [hdz]; ring
    have wv : across v dq = dq.y * (cosI' * √(r.dot r)) := by
      rw [hcI']; unfold across; rw [hdz]; ring
    have ai : di.y - q.y * e * di.z = across i di * (cosI * √(r.dot r)) := by
      rw [hcI]; unfold across
      linear_combination (-(q.y * e * i.z) + i.y) * iy - (di.y - q.y * e * di.z) * i1
    have av : dv.y - q.y * e * dv.z = across v dv * (cosI' * √(r.dot r)) := by
      rw [hcI']; unfold across
      linear_combination (-(q.y * e * v.z) + v.y) * vy - (dv.y - q.y * e * dv.z) * v1
    have law : n (j + 1) * (across v dv * cosI') * √(r.dot r) = n j * (across i di * cosI) * √(r.dot r) -
        g * (√(r.dot r) ^ 3 * cT) * dq.y := by
      rw [hT]
      linear_combination n j * ai - n (j + 1) * av + hy - q.y * e * hz
    unfold TangentialAt at h ⊢
    rw [h, wi] at law
    set R := √(r.dot r) with hRdef
    have key : n (j + 1) * (across v dv * cosI') =
        -(n j * cosI ^ 2 * V + cT * (n (j + 1) * cosI' - n j * cosI)) * (dq.y * R) := by
      rw [hΓ]
      refine mul_right_cancel₀ hR.ne' ?_
      linear_combination law
    rw [wv]
    constructor
    · intro h1
      rw [← h1] at key
      refine mul_left_cancel₀ (mul_ne_zero hn'.ne' hc2) ?_
      linear_combination key
    · intro h0 h1
      rw [h1] at key
      refine mul_right_cancel₀ (b := dq.y * R) ?_ ?_
      · intro h2
        apply h0
        linear_combination cosI' * h2
      · linear_combination -key

/-- C104: an element that is not a refracting or reflecting surface leaves the foci where they are. -/
theorem c104_dummy (B : Bundle nwt l clp sys s0 p u t n) (j : ℕ) (hj : j + 1 < sys.length) {dp du dq dv : V3}
    (hp : Curve (p j) dp s0) (hu : Curve (u j) du s0) (hv : Curve (u (j + 1)) dv s0)
    (hA : ∀ sh m, ¬ Acts sys[j + 1] sh m) (V : ℝ) :
    n (j + 1) = n j ∧ (SagittalAt V dq (incoming sys j hj du) ↔ SagittalAt V dq dv) ∧
    (TangentialAt V (incoming sys j hj (u j s0)) dq (incoming sys j hj du) ↔
      TangentialAt V (u (j + 1) s0) dq dv) := by
  obtain ⟨d, -, -, -, e4, -⟩ := (B.step j hj (B.pos j (by omega))).self_of_nhds
  obtain ⟨h1, h2⟩ := e4 hA
  have : dv = incoming sys j hj du := by
    refine hv.unique ((arriving (sys := sys) j hj hp hu).1.congr ?_)
    filter_upwards [B.step j hj (B.pos j (by omega))] with s ⟨_, _, _, _, e4, _⟩
    exact (e4 hA).2
  refine ⟨h1, by rw [this], ?_⟩
  rw [this, h2]
  rfl

/-- Specification: `V` behind element `j` and `V'` behind element `j + 1` fulfil the sagittal equation of
Coddington, where `d` is the path between the elements. -/
def SagittalStep (sys : List Elem) (s0 : ℝ) (p u : ℕ → ℝ → V3) (n : ℕ → ℝ) (j : ℕ) (hj : j + 1 < sys.length)
    (d V V' : ℝ) : Prop :=
  1 - d * V ≠ 0 ∧ (∀ sh m, Acts sys[j + 1] sh m → ∃ (r : V3) (cS cT : ℝ),
    sh.surfaceNormal (p (j + 1) s0) = some r ∧ Curvatures sh (p (j + 1) s0).y cS cT ∧
    n (j + 1) * V' = n j * (V / (1 - d * V)) + cS * (n (j + 1) * ((u (j + 1) s0).dot r / √(r.dot r)) -
      n j * ((incoming sys j hj (u j s0)).dot r / √(r.dot r)))) ∧
  ((∀ sh m, ¬ Acts sys[j + 1] sh m) → V' = V / (1 - d * V))

/-- Specification: the tangential equation of Coddington. -/
def TangentialStep (sys : List Elem) (s0 : ℝ) (p u : ℕ → ℝ → V3) (n : ℕ → ℝ) (j : ℕ) (hj : j + 1 < sys.length)
    (d V V' : ℝ) : Prop :=
  1 - d * V ≠ 0 ∧ (∀ sh m, Acts sys[j + 1] sh m → ∃ (r : V3) (cS cT cosI cosI' : ℝ),
    sh.surfaceNormal (p (j + 1) s0) = some r ∧ Curvatures sh (p (j + 1) s0).y cS cT ∧
    cosI = (incoming sys j hj (u j s0)).dot r / √(r.dot r) ∧ cosI' = (u (j + 1) s0).dot r / √(r.dot r) ∧
    cosI ≠ 0 ∧ cosI' ≠ 0 ∧ n (j + 1) * cosI' ^ 2 * V' = n j * cosI ^ 2 * (V / (1 - d * V)) +
      cT * (n (j + 1) * cosI' - n j * cosI)) ∧
  ((∀ sh m, ¬ Acts sys[j + 1] sh m) → V' = V / (1 - d * V))

/-- C104: the foci of a whole system: the solutions of the equations of Coddington that start with the foci
behind some element `k` are the foci behind every later element. -/
theorem c104_system (B : Bundle nwt l clp sys s0 p u t n) (σ : ℕ → ℝ)
    (hax : ∀ j (h : j < sys.length), OnAxis (σ j) sys[j].tf) (hp0 : (p 0 s0).x = 0) (hu0 : (u 0 s0).x = 0)
    (dp du : ℕ → V3) (hp : ∀ j < sys.length, Curve (p j) (dp j) s0)
    (hu : ∀ j < sys.length, Curve (u j) (du j) s0) (d VS VT : ℕ → ℝ) (k : ℕ)
    (hd : ∀ j, j + 1 < sys.length → t (j + 1) s0 = n j * d j) :
    ((∀ j (hj : j + 1 < sys.length), k ≤ j → SagittalStep sys s0 p u n j hj (d j) (VS j) (VS (j + 1))) →
      SagittalAt (VS k) (dp k) (du k) → ∀ j < sys.length, k ≤ j → SagittalAt (VS j) (dp j) (du j)) ∧
    ((∀ j (hj : j + 1 < sys.length), k ≤ j → TangentialStep sys s0 p u n j hj (d j) (VT j) (VT (j + 1))) →
      TangentialAt (VT k) (u k s0) (dp k) (du k) →
      ∀ j < sys.length, k ≤ j → TangentialAt (VT j) (u j s0) (dp j) (du j)) := by
  constructor
  · intro hV h0 j
    induction j with
    | zero =>
      intro _ hk
      obtain rfl : k = 0 := by omega
      exact h0
    | succ j ih =>
      intro hj hk
      by_cases hk' : k = j + 1
      · rw [← hk']; exact h0
      obtain ⟨h1, h2, h3⟩ := hV j hj (by omega)
      have ht := (c104_transfer B σ hax hp0 hu0 j hj (hp j (by omega)) (hu j (by omega)) (hp _ hj) (d j) _
        (hd j hj) h1).1 (ih (by omega) (by omega))
      by_cases hA : ∃ sh m, Acts sys[j + 1] sh m
      · obtain ⟨sh, m, hA⟩ := hA
        obtain ⟨r, cS, cT, hr, hc, he⟩ := h2 sh m hA
        exact ((c104_surface B σ hax hp0 hu0 j hj (hp j (by omega)) (hu j (by omega)) (hp _ hj) (hu _ hj) sh m hA
          r hr cS cT _ _ hc rfl rfl _ _).1 ht).1 he
      · push Not at hA
        rw [h3 hA]
        exact (c104_dummy B j hj (hp j (by omega)) (hu j (by omega)) (hu _ hj) hA _).2.1.mp ht
  · intro hV h0 j
    induction j with
    | zero =>
      intro _ hk
      obtain rfl : k = 0 := by omega
      exact h0
    | succ j ih =>
      intro hj hk
      by_cases hk' : k = j + 1
      · rw [← hk']; exact h0
      obtain ⟨h1, h2, h3⟩ := hV j hj (by omega)
      have ht := (c104_transfer B σ hax hp0 hu0 j hj (hp j (by omega)) (hu j (by omega)) (hp _ hj) (d j) _
        (hd j hj) h1).2 (ih (by omega) (by omega))
      by_cases hA : ∃ sh m, Acts sys[j + 1] sh m
      · obtain ⟨sh, m, hA⟩ := hA
        obtain ⟨r, cS, cT, cosI, cosI', hr, hc, hI, hI', g1, g2, he⟩ := h2 sh m hA
        exact ((c104_surface B σ hax hp0 hu0 j hj (hp j (by omega)) (hu j (by omega)) (hp _ hj) (hu _ hj) sh m hA
          r hr cS cT _ _ hc hI hI' _ _).2 g1 g2 ht).1 he
      · push Not at hA
        rw [h3 hA]
        exact (c104_dummy B j hj (hp j (by omega)) (hu j (by omega)) (hu _ hj) hA _).2.2.mp ht

/-! ## The astigmatism that is drawn -/

/-- The quotient of two differences. -/
theorem quotient_limit {A P : ℝ → ℝ} {A' P' : ℝ} (hA : HasDerivAt A A' s0) (hP : HasDerivAt P P' s0)
    (h0 : P' ≠ 0) : (∀ᶠ s in 𝓝[≠] s0, P s - P s0 ≠ 0) ∧
      Tendsto (fun s => -(A s - A s0) / (P s - P s0)) (𝓝[≠] s0) (𝓝 (-A' / P')) := by
  have hA1 := hasDerivAt_iff_tendsto_slope.mp hA
  have hP1 := hasDerivAt_iff_tendsto_slope.mp hP
  have hne : ∀ᶠ s in 𝓝[≠] s0, P s - P s0 ≠ 0 := by
    filter_upwards [hP1.eventually_ne h0] with s hs h1
    apply hs
    rw [slope_def_field, h1, zero_div]
  refine ⟨hne, ((hA1.neg.div hP1 h0)).congr' ?_⟩
  filter_upwards [hne, self_mem_nhdsWithin] with s hs hs1
  have h2 : s - s0 ≠ 0 := sub_ne_zero.mpr hs1
  simp only [Pi.div_apply, slope_def_field]
  field_simp

/-- C104: the points of the astigmatism curves approach the foci as the rays approach the chief ray: both are
distances from the plane of the image along the axis, positive behind it. -/
theorem c104_drawn (R : ℝ → Row) (q i : ℝ → V3) (dq di : V3)
    (hR : ∀ᶠ s in 𝓝 s0, (R s).y = some (q s) ∧ (R s).i = some (i s)) (hq : Curve q dq s0) (hi : Curve i di s0)
    (hix : (i s0).x = 0) (hiz : (i s0).z ≠ 0) (V : ℝ) (hV : V ≠ 0) :
    (SagittalAt V dq di → dq.x ≠ 0 → ∃ F : ℝ → ℝ,
      (∀ᶠ s in 𝓝[≠] s0, Figures.sagittal (R s0) (R s) = some (F s)) ∧
        Tendsto F (𝓝[≠] s0) (𝓝 ((i s0).z * (1 / V)))) ∧
    (TangentialAt V (i s0) dq di → dq.z = 0 → dq.y ≠ 0 → ∃ F : ℝ → ℝ,
      (∀ᶠ s in 𝓝[≠] s0, Figures.tangential (R s0) (R s) = some (F s)) ∧
        Tendsto F (𝓝[≠] s0) (𝓝 ((i s0).z * (1 / V)))) := by
  have hz : ∀ᶠ s in 𝓝 s0, (i s).z ≠ 0 := hi.z.continuousAt.eventually_ne hiz
  have hR0 := hR.self_of_nhds
  have hcross : ∀ (c : ℝ × ℝ → ℝ) (s : ℝ), (R s).y = some (q s) → (R s).i = some (i s) → (i s).z ≠ 0 →
      c ((i s).x / (i s).z, (i s).y / (i s).z) - c ((i s0).x / (i s0).z, (i s0).y / (i s0).z) ≠ 0 →
      Figures.crossing c (R s0) (R s) = some (-(c ((q s).x, (q s).y) - c ((q s0).x, (q s0).y)) /
        (c ((i s).x / (i s).z, (i s).y / (i s).z) - c ((i s0).x / (i s0).z, (i s0).y / (i s0).z))) := by
    intro c s h1 h2 h3 h4
    unfold Figures.crossing
    simp only [h1, h2, hR0.1, hR0.2, Spot.slope, Option.bind_some, if_neg h3, if_neg hiz, if_neg h4, Spot.xy]
  constructor
  · intro h hx
    have hP := hi.x.div hi.z hiz
    have hne : (di.x * (i s0).z - (i s0).x * di.z) / (i s0).z ^ 2 = -(V * dq.x) / (i s0).z := by
      rw [hix, show di.x = -(V * dq.x) from h]
      field_simp
      ring
    rw [hne] at hP
    obtain ⟨h1, h2⟩ := quotient_limit hq.x hP (div_ne_zero (neg_ne_zero.mpr (mul_ne_zero hV hx)) hiz)
    rw [show -dq.x / (-(V * dq.x) / (i s0).z) = (i s0).z * (1 / V) by field_simp] at h2
    refine ⟨_, ?_, h2⟩
    filter_upwards [h1, nhdsWithin_le_nhds hR, nhdsWithin_le_nhds hz] with s g1 g2 g3
    exact hcross Prod.fst s g2.1 g2.2 g3 g1
  · intro h hz0 hy
    have hP := hi.y.div hi.z hiz
    have hne : (di.y * (i s0).z - (i s0).y * di.z) / (i s0).z ^ 2 = -(V * dq.y) / (i s0).z := by
      have h' : di.y * (i s0).z - di.z * (i s0).y = -(V * (dq.y * (i s0).z - dq.z * (i s0).y)) := h
      rw [hz0] at h'
      field_simp
      linear_combination h'
    rw [hne] at hP
    obtain ⟨h1, h2⟩ := quotient_limit hq.y hP (div_ne_zero (neg_ne_zero.mpr (mul_ne_zero hV hy)) hiz)
    rw [show -dq.y / (-(V * dq.y) / (i s0).z) = (i s0).z * (1 / V) by field_simp] at h2
    refine ⟨_, ?_, h2⟩
    filter_upwards [h1, nhdsWithin_le_nhds hR, nhdsWithin_le_nhds hz] with s g1 g2 g3
    exact hcross Prod.snd s g2.1 g2.2 g3 g1

/-- The rows of the traces of a bundle. -/
theorem Bundle.incidence (B : Bundle nwt l clp sys s0 p u t n) (j : ℕ) (hj : j + 1 < sys.length) :
    ∀ᶠ s in 𝓝 s0, ∃ arr out b, arr.length = sys.length ∧ gtPropagate nwt sys l clp 1 none arr = some out ∧
      out[j + 1]? = some b ∧ b.y = some (p (j + 1) s) ∧ b.i = some (incoming sys j hj (u j s)) := by
  filter_upwards [B.rays] with s ⟨arr, out, hlen, hout, hrow⟩
  obtain ⟨a, ha, hp, hu, -, -⟩ := hrow j (by omega)
  obtain ⟨b, hb, hq, -, -, -⟩ := hrow (j + 1) hj
  refine ⟨arr, out, b, hlen, hout, hb, hq, ?_⟩
  obtain ⟨x, hx, hx1⟩ := trace_succ hlen hout j hj
  rw [ha] at hx; cases hx
  rw [hb] at hx1; cases hx1
  simp only [Elem.step, rayOfRow, hu, Option.map_some]
  rfl

/-- C104: the astigmatism drawn for a system whose last surface is flat: with foci at the distances `1 / V`
behind the surface before and the path `d` from there, the curves approach the distances `1 / V - d`
from the image, measured along the axis. -/
theorem c104_astigmatism (B : Bundle nwt l clp sys s0 p u t n) (σ : ℕ → ℝ)
    (hax : ∀ j (h : j < sys.length), OnAxis (σ j) sys[j].tf) (hp0 : (p 0 s0).x = 0) (hu0 : (u 0 s0).x = 0)
    (j : ℕ) (hj : j + 1 < sys.length) {dp du dq : V3} (hp : Curve (p j) dp s0) (hu : Curve (u j) du s0)
    (hq : Curve (p (j + 1)) dq s0) (hflat : ∀ᶠ s in 𝓝 s0, (p (j + 1) s).z = 0) (d V : ℝ)
    (hd : t (j + 1) s0 = n j * d) (hV : V ≠ 0) (hdV : 1 - d * V ≠ 0) (hz : (u j s0).z ≠ 0) :
    ∃ R : ℝ → Row, (∀ᶠ s in 𝓝 s0, ∃ arr out, arr.length = sys.length ∧
        gtPropagate nwt sys l clp 1 none arr = some out ∧ out[j + 1]? = some (R s) ∧
        (R s).y = some (p (j + 1) s)) ∧
      (SagittalAt V dp du → dq.x ≠ 0 → ∃ F : ℝ → ℝ,
        (∀ᶠ s in 𝓝[≠] s0, Figures.sagittal (R s0) (R s) = some (F s)) ∧
          Tendsto F (𝓝[≠] s0) (𝓝 ((incoming sys j hj (u j s0)).z * (1 / V - d)))) ∧
      (TangentialAt V (u j s0) dp du → dq.y ≠ 0 → ∃ F : ℝ → ℝ,
        (∀ᶠ s in 𝓝[≠] s0, Figures.tangential (R s0) (R s) = some (F s)) ∧
          Tendsto F (𝓝[≠] s0) (𝓝 ((incoming sys j hj (u j s0)).z * (1 / V - d)))) := by
  classical
  have hinc := B.incidence j hj
  refine ⟨fun s => if h : ∃ arr out b, arr.length = sys.length ∧ gtPropagate nwt sys l clp 1 none arr = some out ∧
      out[j + 1]? = some b ∧ b.y = some (p (j + 1) s) ∧ b.i = some (incoming sys j hj (u j s))
    then h.choose_spec.choose_spec.choose else ⟨none, none, 0, none, none⟩, ?_, ?_⟩
  · filter_upwards [hinc] with s hs
    rw [dif_pos hs]
    have := hs.choose_spec.choose_spec.choose_spec
    exact ⟨_, _, this.1, this.2.1, this.2.2.1, this.2.2.2.1⟩
  · set R : ℝ → Row := fun s => if h : ∃ arr out b, arr.length = sys.length ∧
      gtPropagate nwt sys l clp 1 none arr = some out ∧
      out[j + 1]? = some b ∧ b.y = some (p (j + 1) s) ∧ b.i = some (incoming sys j hj (u j s))
      then h.choose_spec.choose_spec.choose else ⟨none, none, 0, none, none⟩ with hRdef
    have hR : ∀ᶠ s in 𝓝 s0, (R s).y = some (p (j + 1) s) ∧ (R s).i = some (incoming sys j hj (u j s)) := by
      filter_upwards [hinc] with s hs
      rw [hRdef]
      dsimp only
      rw [dif_pos hs]
      have := hs.choose_spec.choose_spec.choose_spec
      exact this.2.2.2
    have hax' := incoming_axis σ hax j hj (u j s0)
    have hiz : (incoming sys j hj (u j s0)).z ≠ 0 := by
      rw [hax'.2.2]
      have h1 : σ (j + 1) ≠ 0 := by rcases (hax _ hj).sign with h | h <;> rw [h] <;> norm_num
      have h2 : σ j ≠ 0 := by rcases (hax j (by omega)).sign with h | h <;> rw [h] <;> norm_num
      exact mul_ne_zero h1 (mul_ne_zero h2 hz)
    have hix : (incoming sys j hj (u j s0)).x = 0 := by
      rw [hax'.1]; exact (B.plane σ hax hp0 hu0 j (by omega)).2
    have ht := c104_transfer B σ hax hp0 hu0 j hj hp hu hq d V hd hdV
    have hdr := c104_drawn R (p (j + 1)) (fun s => incoming sys j hj (u j s)) dq (incoming sys j hj du) hR hq
      (arriving (sys := sys) j hj hp hu).1 hix hiz (V / (1 - d * V)) (div_ne_zero hV hdV)
    rw [show 1 / (V / (1 - d * V)) = 1 / V - d by field_simp] at hdr
    have hdz : dq.z = 0 := hq.z.unique ((hasDerivAt_const s0 (0 : ℝ)).congr_of_eventuallyEq hflat)
    exact ⟨fun h => hdr.1 (ht.1 h), fun h => hdr.2 (ht.2 h) hdz⟩

/-- The rows of the traces follow from each other. -/
theorem Bundle.next (B : Bundle nwt l clp sys s0 p u t n) (j : ℕ) (hj : j + 1 < sys.length) :
    ∀ᶠ s in 𝓝 s0, ∃ b, (Elem.step nwt l clp sys[j + 1] ⟨some (sys[j].tf.fromNormal (p j s)),
        some (sys[j].tf.fromNormal (u j s)), n j⟩).1 = b ∧ b.y = some (p (j + 1) s) ∧
      b.u = some (u (j + 1) s) ∧ b.n = n (j + 1) ∧ b.t = some (t (j + 1) s) := by
  filter_upwards [B.rays] with s ⟨arr, out, hlen, hout, hrow⟩
  obtain ⟨a, ha, hp, hu, hn, -⟩ := hrow j (by omega)
  obtain ⟨b, hb, h1, h2, h3, h4⟩ := hrow (j + 1) hj
  obtain ⟨x, hx, hx1⟩ := trace_succ hlen hout j hj
  rw [ha] at hx; cases hx
  rw [hb] at hx1
  refine ⟨b, ?_, h1, h2, h3, h4 (by omega)⟩
  rw [Option.some.inj hx1]
  simp only [rayOfRow, hp, hu, hn, Option.map_some]

/-- C104: on an element without a surface, such as the image, the rays end in its plane. -/
theorem c104_flat (B : Bundle nwt l clp sys s0 p u t n) (j : ℕ) (hj : j + 1 < sys.length)
    (hs : sys[j + 1].shape = none) : ∀ᶠ s in 𝓝 s0, (p (j + 1) s).z = 0 := by
  filter_upwards [B.next j hj] with s ⟨b, hb, h1, _, _, h4⟩
  rw [← hb] at h1
  simp only [Elem.step, Elem.propagate, Option.map_some, Option.bind_some, hs, Elem.intercept,
    Shape.interceptPlane] at h1
  split_ifs at h1 with h0
  · simp at h1
  · simp only [Option.map_some, Option.some.injEq] at h1
    rw [← h1]
    simp only [add_z, smul_z]
    field_simp
    ring

end system

/-! ### Example: a spherical mirror hit obliquely at its vertex -/

namespace CoddingtonExample

open MalusExample

/-- The direction of the chief ray, and where it starts. -/
noncomputable def chief : V3 := ⟨0, 3 / 5, 4 / 5⟩
noncomputable def point : V3 := ⟨0, -15 / 2, 0⟩

theorem chief_unit : chief.dot chief = 1 := by simp only [chief, V3.dot]; norm_num

theorem vertex_step (nwt : NewtonFn) : Elem.step nwt 1 false exMirror ⟨some point, some chief, 1⟩ =
    (⟨some 0, some ⟨0, 3 / 5, -4 / 5⟩, 1, some chief, some (25 / 2)⟩, ⟨some 0, some ⟨0, 3 / 5, -4 / 5⟩, 1⟩) := by
  have hA : OnAxis 1 exMirror.tf := onAxis_update 10 1 (by norm_num) (.inl rfl)
  have hoff : exMirror.tf.offset = ⟨0, 0, 10⟩ := by
    rw [hA.off]; simp [exMirror, Transform.update_distance]
  have hturn : ∀ v : V3, v.turn 1 = v := fun v => by ext <;> simp [V3.turn]
  have hint : exMirror.intercept nwt (point - ⟨0, 0, 10⟩) chief = some (25 / 2) := by
    simp only [Elem.intercept, exMirror, Shape.intercept]
    rw [interceptConic_eq _ _ _ (norm_eq_one chief_unit) (by norm_num)]
    have hsq : √(16 / 25 : ℝ) = 4 / 5 := by
      rw [show (16 / 25 : ℝ) = (4 / 5) ^ 2 by norm_num]; exact Real.sqrt_sq (by norm_num)
    simp only [quadCoeff, chief, point, sub_x, sub_y, sub_z]
    norm_num
    rw [show √(16 : ℝ) / √25 = 4 / 5 by rw [← Real.sqrt_div (by norm_num), hsq]]
    norm_num
  have hy : (point - ⟨0, 0, 10⟩) + (25 / 2 : ℝ) • chief = 0 := by
    ext
    · simp [point, chief]
    · simp [point, chief]; norm_num
    · simp [point, chief]; norm_num
  have hr : (⟨-1 / 10, 0, none, false⟩ : Shape).surfaceNormal 0 = some ⟨0, 0, 1⟩ := by
    unfold Shape.surfaceNormal
    simp [Shape.rsq]
  have href : refractAt ⟨0, 0, 1⟩ chief (-1) = some ⟨0, 3 / 5, -4 / 5⟩ := by
    unfold refractAt
    rw [if_neg (by norm_num)]
    simp only [V3.dot, chief]
    norm_num
    ext <;> simp; norm_num
  unfold Elem.step
  simp only [Option.map_some, hoff, hA.into, hturn, Elem.propagate, Option.bind_some, hint, hy]
  have hs' : exMirror.shape = some ⟨-1 / 10, 0, none, false⟩ := rfl
  have hn : getNMu (exMirror.material.getD none) 1 1 = (1, -1) := rfl
  simp only [hs', hn, refract, Option.bind_some, if_neg (show (-1 : ℝ) ≠ 1 by norm_num), hr, href,
    if_neg (show (-1 : ℝ) ≠ 0 by norm_num), Option.map_some, hA.back, hturn, mul_one, Bool.false_eq_true,
    if_false]

theorem image_step (nwt : NewtonFn) :
    (Elem.step nwt 1 false exCentre ⟨some 0, some ⟨0, 3 / 5, -4 / 5⟩, 1⟩).1 =
      ⟨some ⟨0, -15 / 2, 0⟩, some ⟨0, -3 / 5, 4 / 5⟩, 1, some ⟨0, -3 / 5, 4 / 5⟩, some (25 / 2)⟩ := by
  have hA : OnAxis (-1) exCentre.tf := onAxis_update 10 (-1) (by norm_num) (.inr rfl)
  have hoff : exCentre.tf.offset = ⟨0, 0, -10⟩ := by
    rw [hA.off]; simp [exCentre, Transform.update_distance]
  have hi : exCentre.tf.toNormal ⟨0, 3 / 5, -4 / 5⟩ = ⟨0, -3 / 5, 4 / 5⟩ := by
    rw [hA.into]; ext <;> simp [V3.turn] <;> norm_num
  have hy : exCentre.tf.toNormal (0 - ⟨0, 0, -10⟩) = ⟨0, 0, -10⟩ := by
    rw [hA.into]; ext <;> simp [V3.turn]
  have hint : exCentre.intercept nwt ⟨0, 0, -10⟩ ⟨0, -3 / 5, 4 / 5⟩ = some (25 / 2) := by
    simp only [Elem.intercept, exCentre, Shape.interceptPlane]
    norm_num
  have hp : (⟨0, 0, -10⟩ : V3) + (25 / 2 : ℝ) • ⟨0, -3 / 5, 4 / 5⟩ = ⟨0, -15 / 2, 0⟩ := by
    ext <;> simp <;> norm_num
  have hsh : exCentre.shape = none := rfl
  unfold Elem.step
  simp only [Option.map_some, hoff, hi, hy, Elem.propagate, Option.bind_some, hint, hsh, hp, mul_one,
    Bool.false_eq_true, if_false]

theorem oblique_trace (nwt : NewtonFn) :
    gtPropagate nwt [exObject, exMirror, exCentre] 1 false 1 none
      [⟨some point, some chief, 1, none, none⟩, ⟨none, none, 0, none, none⟩, ⟨none, none, 0, none, none⟩] =
    some [⟨some point, some chief, 1, none, none⟩,
      ⟨some 0, some ⟨0, 3 / 5, -4 / 5⟩, 1, some chief, some (25 / 2)⟩,
      ⟨some ⟨0, -15 / 2, 0⟩, some ⟨0, -3 / 5, 4 / 5⟩, 1, some ⟨0, -3 / 5, 4 / 5⟩, some (25 / 2)⟩] := by
  have hO : OnAxis 1 exObject.tf := onAxis_update 0 1 le_rfl (.inl rfl)
  have hturn : ∀ v : V3, v.turn 1 = v := fun v => by ext <;> simp [V3.turn]
  have h0 : rayOfRow exObject ⟨some point, some chief, 1, none, none⟩ = ⟨some point, some chief, 1⟩ := by
    simp only [rayOfRow, Option.map_some, hO.back, hturn]
  change some (writeRows _ 1 (Sys.rows nwt 1 false [exMirror, exCentre] (rayOfRow exObject _))) = _
  rw [h0]
  simp only [Sys.rows, vertex_step nwt, image_step nwt]
  rfl

/-- Rays parallel to the chief ray, displaced in `x` and in `y`. -/
theorem oblique (nwt : NewtonFn) (a b : ℝ) : ∃ (p u : ℕ → ℝ → V3) (t : ℕ → ℝ → ℝ) (n : ℕ → ℝ),
    Bundle nwt 1 false [exObject, exMirror, exCentre] 0 p u t n ∧
      p 0 = (fun s => ⟨a * s, -15 / 2 + b * s, 0⟩) ∧ u 0 = (fun _ => chief) ∧ n 0 = 1 ∧
      ∀ j < 3, Moves (p j) 0 ∧ Moves (u j) 0 := by
  have B := exBundle nwt (s0 := 0) ⟨by norm_num, by norm_num⟩
  have e : (⟨a * 0, -15 / 2 + b * 0, 0⟩ : V3) = point := by simp [point]
  refine c93_smooth nwt 1 [exObject, exMirror, exCentre] B.placed B.index 1 one_pos
    (p0 := fun s => ⟨a * s, -15 / 2 + b * s, 0⟩) (u0 := fun _ => chief)
    ⟨⟨a, b, 0⟩, by simpa using (hasDerivAt_id (0 : ℝ)).const_mul a,
      by simpa using ((hasDerivAt_id (0 : ℝ)).const_mul b).const_add (-15 / 2), hasDerivAt_const _ _⟩
    ⟨0, Curve.const _⟩ (Eventually.of_forall fun _ => chief_unit) none none
    [⟨none, none, 0, none, none⟩, ⟨none, none, 0, none, none⟩] rfl
    _ (by rw [e]; exact oblique_trace nwt) ?_
  intro j hj
  have : j + 1 < 3 := hj
  obtain rfl | rfl : j = 0 ∨ j = 1 := by omega
  · refine ⟨_, rfl, rfl, rfl, fun sh h => ?_⟩
    obtain rfl := Option.some.inj h
    refine ⟨rfl, _, _, _, ⟨0, 0, 1⟩, rfl, rfl, rfl, ?_, ?_, ?_, ?_⟩
    · unfold OnVertexSheet; simp
    · unfold Shape.surfaceNormal
      simp [Shape.rsq]
    · simp [V3.dot, chief]
    · simp [V3.dot]
  · exact ⟨_, rfl, rfl, rfl, fun sh h => by cases h⟩

/-- Where the bundle is at the mirror and at the image. -/
theorem oblique_rows {nwt : NewtonFn} {p u : ℕ → ℝ → V3} {t : ℕ → ℝ → ℝ} {n : ℕ → ℝ}
    (B : Bundle nwt 1 false [exObject, exMirror, exCentre] 0 p u t n) (hp : p 0 0 = point) (hu : u 0 0 = chief)
    (hn : n 0 = 1) : (p 1 0 = 0 ∧ u 1 0 = ⟨0, 3 / 5, -4 / 5⟩ ∧ n 1 = 1 ∧ t 1 0 = 25 / 2) ∧ t 2 0 = 25 / 2 := by
  have hO : OnAxis 1 exObject.tf := onAxis_update 0 1 le_rfl (.inl rfl)
  have hM : OnAxis 1 exMirror.tf := onAxis_update 10 1 (by norm_num) (.inl rfl)
  have hturn : ∀ v : V3, v.turn 1 = v := fun v => by ext <;> simp [V3.turn]
  obtain ⟨b, hb, h1, h2, h3, h4⟩ := (B.next 0 (by simp)).self_of_nhds
  simp only [zero_add, List.getElem_cons_succ, List.getElem_cons_zero, hp, hu, hn, hO.back, hturn,
    vertex_step] at hb
  rw [← hb] at h1 h2 h3 h4
  obtain ⟨b', hb', -, -, -, k4⟩ := (B.next 1 (by simp)).self_of_nhds
  simp only [zero_add, Option.some.injEq, Nat.reduceAdd] at h1 h2 h3 h4 k4
  simp only [Nat.reduceAdd, List.getElem_cons_succ, List.getElem_cons_zero, ← h1, ← h2, ← h3, hM.back, hturn,
    image_step] at hb'
  rw [← hb'] at k4
  exact ⟨⟨h1.symm, h2.symm, h3.symm, h4.symm⟩, (Option.some.inj k4).symm⟩

theorem oblique_axis : ∀ j (h : j < [exObject, exMirror, exCentre].length),
    OnAxis (if j = 2 then -1 else 1) [exObject, exMirror, exCentre][j].tf := by
  intro j hj
  have : j < 3 := hj
  interval_cases j
  · exact onAxis_update 0 1 le_rfl (.inl rfl)
  · exact onAxis_update 10 1 (by norm_num) (.inl rfl)
  · exact onAxis_update 10 (-1) (by norm_num) (.inr rfl)

theorem oblique_curvatures : Curvatures ⟨-1 / 10, 0, none, false⟩ 0 (-1 / 10) (-1 / 10) := by
  have := c104_conic ⟨-1 / 10, 0, none, false⟩ 0 1 rfl (by norm_num) one_pos (by norm_num)
  simpa using this

/-- Parallel rays in the sagittal plane meet at `R / (2 cos I)` from the mirror, `5` before the image: all
hypotheses of `c104_transfer`, `c104_surface` and `c104_astigmatism` hold. -/
example (nwt : NewtonFn) : ∃ (p u : ℕ → ℝ → V3) (t : ℕ → ℝ → ℝ) (n : ℕ → ℝ) (R : ℝ → Row) (F : ℝ → ℝ),
    Bundle nwt 1 false [exObject, exMirror, exCentre] 0 p u t n ∧ p 0 = (fun s => ⟨s, -15 / 2, 0⟩) ∧
    (∀ᶠ s in 𝓝[≠] 0, Figures.sagittal (R 0) (R s) = some (F s)) ∧ Tendsto F (𝓝[≠] 0) (𝓝 (-5)) := by
  obtain ⟨p, u, t, n, B, h0, h1, h2, h3⟩ := oblique nwt 1 0
  have hp0 : p 0 = (fun s => ⟨s, -15 / 2, 0⟩) := by rw [h0]; funext s; simp
  obtain ⟨⟨r1, r2, r3, r4⟩, r5⟩ := oblique_rows B (by rw [hp0]; rfl) (by rw [h1]) h2
  have hx : (p 0 0).x = 0 := by rw [hp0]
  have hux : (u 0 0).x = 0 := by rw [h1]; rfl
  have hc0 : Curve (p 0) ⟨1, 0, 0⟩ 0 := by
    rw [hp0]; exact ⟨hasDerivAt_id _, hasDerivAt_const _ _, hasDerivAt_const _ _⟩
  have hd0 : Curve (u 0) 0 0 := by rw [h1]; exact Curve.const _
  obtain ⟨⟨dq, hq⟩, dv, hv⟩ := h3 1 (by norm_num)
  obtain ⟨⟨dw, hw⟩, -⟩ := h3 2 (by norm_num)
  have hs0 : SagittalAt 0 ⟨1, 0, 0⟩ 0 := by simp [SagittalAt]
  have hpath : t (0 + 1) 0 = n 0 * (25 / 2) := by rw [h2, one_mul]; exact r4
  have ht := (c104_transfer B _ oblique_axis hx hux 0 (by simp) hc0 hd0 hq (25 / 2) 0 hpath (by norm_num)).1 hs0
  have hn : (⟨-1 / 10, 0, none, false⟩ : Shape).surfaceNormal (p (0 + 1) 0) = some ⟨0, 0, 1⟩ := by
    rw [r1]; unfold Shape.surfaceNormal; simp [Shape.rsq]
  have hin : incoming [exObject, exMirror, exCentre] 0 (by simp) (u 0 0) = chief := by
    obtain ⟨i1, i2, i3⟩ := incoming_axis _ oblique_axis 0 (by simp) (u 0 0)
    ext
    · rw [i1, h1]
    · rw [i2, h1]; simp
    · rw [i3, h1]; simp
  have hS := ((c104_surface B _ oblique_axis hx hux 0 (by simp) hc0 hd0 hq hv _ _ ⟨rfl, rfl⟩ ⟨0, 0, 1⟩ hn
    (-1 / 10) (-1 / 10) (4 / 5) (-4 / 5) (by rw [r1]; exact oblique_curvatures)
    (by rw [hin]; simp [V3.dot, chief]) (by rw [r2]; simp [V3.dot]) _ (4 / 25)).1 ht).1
    (by rw [h2, r3]; norm_num)
  have hq1 := (transfer_components B _ oblique_axis hx hux 0 (by simp) hc0 hd0 hq (25 / 2) hpath).1
  have hw1 := (transfer_components B _ oblique_axis hx hux 1 (by simp) hq hv hw (25 / 2)
    (by rw [r3, one_mul]; exact r5)).1
  have hwx : dw.x ≠ 0 := by
    rw [hw1, show dv.x = -(4 / 25 * dq.x) from hS, hq1]
    simp
    norm_num
  obtain ⟨R, -, hR, -⟩ := c104_astigmatism B _ oblique_axis hx hux 1 (by simp) hq hv hw
    (c104_flat B 1 (by simp) rfl) (25 / 2) (4 / 25) (by rw [r3, one_mul]; exact r5) (by norm_num) (by norm_num)
    (by rw [r2]; norm_num)
  obtain ⟨F, hF, hl⟩ := hR hS hwx
  refine ⟨p, u, t, n, R, F, B, hp0, hF, ?_⟩
  have hz : (incoming [exObject, exMirror, exCentre] 1 (by simp) (u 1 0)).z = 4 / 5 := by
    rw [(incoming_axis _ oblique_axis 1 (by simp) _).2.2, r2]; norm_num
  rw [hz] at hl
  convert hl using 2
  norm_num

/-- Parallel rays in the meridional plane meet at `R cos I / 2` from the mirror, `34 / 5` before the image: all
hypotheses of `c104_system` hold. -/
example (nwt : NewtonFn) : ∃ (p u : ℕ → ℝ → V3) (t : ℕ → ℝ → ℝ) (n : ℕ → ℝ) (R : ℝ → Row) (F : ℝ → ℝ),
    Bundle nwt 1 false [exObject, exMirror, exCentre] 0 p u t n ∧ p 0 = (fun s => ⟨0, -15 / 2 + s, 0⟩) ∧
    (∀ᶠ s in 𝓝[≠] 0, Figures.tangential (R 0) (R s) = some (F s)) ∧ Tendsto F (𝓝[≠] 0) (𝓝 (-34 / 5)) := by
  obtain ⟨p, u, t, n, B, h0, h1, h2, h3⟩ := oblique nwt 0 1
  have hp0 : p 0 = (fun s => ⟨0, -15 / 2 + s, 0⟩) := by rw [h0]; funext s; simp
  obtain ⟨⟨r1, r2, r3, r4⟩, r5⟩ := oblique_rows B (by rw [hp0]; ext <;> simp [point]) (by rw [h1]) h2
  have hx : (p 0 0).x = 0 := by rw [hp0]
  have hux : (u 0 0).x = 0 := by rw [h1]; rfl
  have hc0 : Curve (p 0) ⟨0, 1, 0⟩ 0 := by
    rw [hp0]; exact ⟨hasDerivAt_const _ _, (hasDerivAt_id (0 : ℝ)).const_add _, hasDerivAt_const _ _⟩
  have hd0 : Curve (u 0) 0 0 := by rw [h1]; exact Curve.const _
  choose! dp hdp using fun j hj => (h3 j hj).1
  choose! du hdu using fun j hj => (h3 j hj).2
  have e0 : dp 0 = ⟨0, 1, 0⟩ := (hdp 0 (by norm_num)).unique hc0
  have e1 : du 0 = 0 := (hdu 0 (by norm_num)).unique hd0
  have hn : (⟨-1 / 10, 0, none, false⟩ : Shape).surfaceNormal (p (0 + 1) 0) = some ⟨0, 0, 1⟩ := by
    rw [r1]; unfold Shape.surfaceNormal; simp [Shape.rsq]
  have hin : incoming [exObject, exMirror, exCentre] 0 (by simp) (u 0 0) = chief := by
    obtain ⟨i1, i2, i3⟩ := incoming_axis _ oblique_axis 0 (by simp) (u 0 0)
    ext
    · rw [i1, h1]
    · rw [i2, h1]; simp
    · rw [i3, h1]; simp
  have hpath : ∀ j, j + 1 < [exObject, exMirror, exCentre].length → t (j + 1) 0 = n j * (25 / 2) := by
    intro j hj
    have : j + 1 < 3 := hj
    obtain rfl | rfl : j = 0 ∨ j = 1 := by omega
    · rw [h2, one_mul]; exact r4
    · rw [r3, one_mul]; exact r5
  have hT := (c104_system B _ oblique_axis hx hux dp du hdp hdu (fun _ => 25 / 2) (fun _ => 0)
    (fun j => if j = 0 then 0 else if j = 1 then 1 / 4 else -2 / 17) 0 hpath).2 (by
      intro j hj _
      have : j + 1 < 3 := hj
      obtain rfl | rfl : j = 0 ∨ j = 1 := by omega
      · refine ⟨by norm_num, fun sh m hA => ?_, fun h => absurd ⟨rfl, rfl⟩ (h _ _)⟩
        cases hA.1
        refine ⟨⟨0, 0, 1⟩, -1 / 10, -1 / 10, 4 / 5, -4 / 5, hn, by rw [r1]; exact oblique_curvatures,
          by rw [hin]; simp [V3.dot, chief], by rw [r2]; simp [V3.dot], by norm_num, by norm_num, ?_⟩
        rw [h2, r3]; norm_num
      · exact ⟨by norm_num, fun sh m hA => (by cases hA.1), fun _ => by norm_num⟩)
    (by rw [e1]; simp [TangentialAt, across]) 1 (by simp) (by simp)
  obtain ⟨-, -, hq1, -⟩ := transfer_components B _ oblique_axis hx hux 0 (by simp) (hdp 0 (by norm_num))
    (hdu 0 (by norm_num)) (hdp 1 (by norm_num)) (25 / 2) (hpath 0 (by simp))
  obtain ⟨-, -, hw1, -⟩ := transfer_components B _ oblique_axis hx hux 1 (by simp) (hdp 1 (by norm_num))
    (hdu 1 (by norm_num)) (hdp 2 (by norm_num)) (25 / 2) (hpath 1 (by simp))
  -- the displacement at the image
  have hflat := c104_flat B 1 (by simp) rfl
  have hz2 : (dp 2).z = 0 :=
    (hdp 2 (by norm_num)).z.unique ((hasDerivAt_const (0 : ℝ) (0 : ℝ)).congr_of_eventuallyEq hflat)
  have hr1 : (dp 1).z = 0 := by
    obtain ⟨G, hG, hG'⟩ := (c08_gradient _ _ _ hn).1 (fun s => (p 1 s).x) (fun s => (p 1 s).y)
      (fun s => (p 1 s).z) (dp 1) 0 rfl rfl rfl (hdp 1 (by norm_num)).x (hdp 1 (by norm_num)).y
      (hdp 1 (by norm_num)).z
    have := hG'.unique ((hasDerivAt_const (0 : ℝ) (0 : ℝ)).congr_of_eventuallyEq (by
      filter_upwards [hG, B.sheet 0 (by simp) _ _ ⟨rfl, rfl⟩] with s g1 g2
      rw [g2] at g1
      exact (Option.some.inj g1).symm))
    simpa [V3.dot] using this
  have hy1 : (dp 1).y = 1 := by
    rw [hin, h1, e0, e1] at hq1
    simp only [across, chief, zero_y, zero_z, hr1] at hq1
    linarith
  have hiz : ∀ v : V3, (incoming [exObject, exMirror, exCentre] 1 (by simp) v).z = -v.z := fun v => by
    rw [(incoming_axis _ oblique_axis 1 (by simp) _).2.2]; norm_num
  have hwy : (dp 2).y ≠ 0 := by
    have h5 : across (u 1 0) (du 1) = -(1 / 4 * across (u 1 0) (dp 1)) := by
      simpa [TangentialAt] using hT
    rw [h5] at hw1
    simp only [across, hiz, r2, hy1, hr1, hz2] at hw1
    intro h6
    rw [h6] at hw1
    norm_num at hw1
  obtain ⟨R, -, -, hR⟩ := c104_astigmatism B _ oblique_axis hx hux 1 (by simp) (hdp 1 (by norm_num))
    (hdu 1 (by norm_num)) (hdp 2 (by norm_num)) hflat (25 / 2) (1 / 4) (hpath 1 (by simp)) (by norm_num)
    (by norm_num) (by rw [r2]; norm_num)
  obtain ⟨F, hF, hl⟩ := hR (by simpa using hT) hwy
  refine ⟨p, u, t, n, R, F, B, hp0, hF, ?_⟩
  rw [hiz, r2] at hl
  convert hl using 2
  norm_num

/-- Rays from the centre of the mirror: all hypotheses of `c104_point` hold. -/
example (nwt : NewtonFn) : ∃ dq du : V3, Curve (exPos 1) dq 0 ∧ Curve (exAim 0) du 0 ∧
    SagittalAt (1 / -10) dq (incoming [exObject, exMirror, exCentre] 0 (by simp) du) := by
  have hs : (0 : ℝ) ∈ Set.Ioo (-1 : ℝ) 1 := ⟨by norm_num, by norm_num⟩
  obtain ⟨⟨dq, hq⟩, -⟩ := exCurves hs 1
  obtain ⟨-, du, hu⟩ := exCurves hs 0
  exact ⟨dq, du, hq, hu, (c104_point (exBundle nwt hs) _ oblique_axis rfl rfl 0 (by simp) (Curve.const 0) hu hq 10
    (by norm_num) (by norm_num)).1⟩

/-- The hypotheses of `c104_conic` hold for a paraboloid. -/
example : Curvatures ⟨1 / 10, -1, none, false⟩ (15 / 2) ((1 / 10) / (5 / 4)) ((1 / 10) / (5 / 4) ^ 3) :=
  c104_conic ⟨1 / 10, -1, none, false⟩ (15 / 2) (5 / 4) rfl (by norm_num) (by norm_num) (by norm_num)

/-- All hypotheses of `c104_focus` hold: rays that meet at the distance `2`. -/
example : SagittalAt (1 / 2) ⟨1, 0, 0⟩ ⟨-1 / 2, 0, 0⟩ :=
  (c104_focus (fun s => ⟨s, 0, 0⟩) (fun s => ⟨-1 / 2 * s, 0, 1⟩) _ _ 0 0 2 two_ne_zero
    ⟨hasDerivAt_id _, hasDerivAt_const _ _, hasDerivAt_const _ _⟩
    ⟨by simpa using (hasDerivAt_id (0 : ℝ)).const_mul (-1 / 2), hasDerivAt_const _ _, hasDerivAt_const _ _⟩
    ⟨by
      have : (fun s : ℝ => ((⟨s, 0, 0⟩ : V3) + (2 : ℝ) • (⟨-1 / 2 * s, 0, 1⟩ : V3)).x) = fun _ => 0 := by
        funext s; simp; ring
      rw [this]; exact hasDerivAt_const _ _, by simpa using hasDerivAt_const (0 : ℝ) (0 : ℝ),
      by simpa using hasDerivAt_const (0 : ℝ) (2 : ℝ)⟩).1.mpr rfl

end CoddingtonExample

end RayOpt
