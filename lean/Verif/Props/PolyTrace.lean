import Verif.Lemmas.PolySurf
import Verif.Lemmas.Paraxial

/-!
C69, C70: the polynomial trace (rayopt/poly_trace.py and the `*_poly` methods of
rayopt/elements.py).

`cls d m tb a` is the polynomial with coefficients `a`, as an element of the ring of real polynomials
in `d` variables modulo all terms of degree `m` and above; `κ` are the constants.
-/

namespace RayOpt.Poly

open Simplex MvPolynomial

section
variable {d m : ℕ} {tb : Tables} {abi : ℕ → List (ℕ × ℕ)}

/-- The constant terms of `r`, `p`, `k` vanish: the expansion is about the axis. -/
def OnAxis (st : PolyState) : Prop := st.r 0 = 0 ∧ st.p 0 = 0 ∧ st.k 0 = 0

/-- C69: a spherical surface.  The new point lies on the surface `u (r + f²) = 2 f` of signed
curvature `u`, on the branch through the vertex; the direction obeys Snell's law with the normal
`(-2 fr y, 1)` where `fr = df/dr`.  `1 + p` is the squared length of the direction `(U, 1)`, so
`(1+p)^(-1/2) (U, 1)` is a unit vector. -/
theorem c69_sphere (K : Ctx d m tb abi) (sh : Shape) (mat : Option Material) (dz l : ℝ)
    (ha : sh.aspherics = none ∨ sh.aspherics = some []) (hdz : dz ≠ 0 ∨ sh.curvature = 0)
    (st : PolyState) (h0 : OnAxis st) {st' : PolyState} (hst : st' = surfPoly abi m sh mat dz l st)
    {F : Co → Q d m} (hF : F = cls d m tb) {u mu : ℝ} (hu : u = sh.curvature * Real.sign dz)
    (hmu : mu = (Elem.getNMu mat st.n l).2) :
    OnAxis st' ∧ st'.f 0 = 0 ∧ st'.n = (Elem.getNMu mat st.n l).1 ∧
    (u = sh.curvature ∨ u = -sh.curvature) ∧
    κ u * (F st'.r + F st'.f ^ 2) = 2 * F st'.f ∧
    (F st'.s = F st.s + (κ dz + F st'.f - F st.f) * F st.v ∧
      F st'.t = F st.t + (κ dz + F st'.f - F st.f) * F st.w ∧
      F st'.r = F st.r + (κ dz + F st'.f - F st.f) *
        (2 * F st.k + (κ dz + F st'.f - F st.f) * F st.p)) ∧
    (∃ fr : Q d m, κ u * (1 + 2 * F st'.f * fr) = 2 * fr ∧
      (let h := F (pow abi m (shift st.p 1) (-1 / 2))
       let h' := F (pow abi m (shift st'.p 1) (-1 / 2))
       h ^ 2 * (1 + F st.p) = 1 ∧ h' ^ 2 * (1 + F st'.p) = 1 ∧
       h' * F st'.v - κ mu * h * F st.v = (h' - κ mu * h) * (-2 * fr * F st'.s) ∧
       h' * F st'.w - κ mu * h * F st.w = (h' - κ mu * h) * (-2 * fr * F st'.t) ∧
       h' * F st'.k - κ mu * h * (F st.k + (κ dz + F st'.f - F st.f) * F st.p)
         = (h' - κ mu * h) * (-2 * fr * F st'.r))) ∧
    F st'.o = F st.o + κ st.n *
      ((κ dz + F st'.f - F st.f) * F (pow abi m (shift st.p 1) (1 / 2))) := by
  obtain ⟨hr, hp, hk⟩ := h0
  obtain ⟨t1, t2⟩ := transfer_const K dz st hr hp hk
  have hi := intercept_good K sh dz (Or.inr ha) t1 hp t2
  have hs := refract_spec K _ dz (Elem.getNMu mat st.n l).1 mu st hp hr hk hi
    (st' := st') (by rw [hst, hmu]; rfl) hF
  obtain ⟨s1, s2, s3, -, s5, s6, s7⟩ := hs
  have hiF := hi.f0
  rw [← s6] at hiF
  have hsgn : u = sh.curvature ∨ u = -sh.curvature := by
    rcases hdz with h | h
    · rcases lt_or_gt_of_ne h with h | h
      · right; rw [hu, Real.sign_of_neg h]; ring
      · left; rw [hu, Real.sign_of_pos h]; ring
    · left; rw [hu, h]; ring
  have hsph : κ u * (F st'.r + F st'.f ^ 2) = 2 * F st'.f ∧
      2 * F (interceptPoly abi m sh dz (transferPoly abi dz st).2.1 st.p (transferPoly abi dz st).2.2).fr
        * (1 - κ u * F st'.f) = κ u := by
    have e : interceptPoly abi m sh dz (transferPoly abi dz st).2.1 st.p (transferPoly abi dz st).2.2
        = if u = 0 then planePoly (transferPoly abi dz st).2.1
          else spherePoly abi m u (transferPoly abi dz st).2.1 st.p (transferPoly abi dz st).2.2 := by
      rw [hu]
      unfold interceptPoly
      rcases ha with ha | ha <;> simp [ha]
    rw [s6, e]
    by_cases h : u = 0
    · rw [if_pos h, h, κ_zero]
      simp only [planePoly, hF, cls_zero]
      constructor <;> ring
    · rw [if_neg h]
      obtain ⟨-, q2, q3, q4, -⟩ := sphere_spec K h t1 hp t2
      rw [hF]
      rw [q3] at q4
      refine ⟨?_, q4⟩
      have hR : cls d m tb st'.r = cls d m tb (transferPoly abi dz st).2.1 +
          cls d m tb (spherePoly abi m u (transferPoly abi dz st).2.1 st.p
            (transferPoly abi dz st).2.2).f * (2 * cls d m tb (transferPoly abi dz st).2.2 +
          cls d m tb (spherePoly abi m u (transferPoly abi dz st).2.1 st.p
            (transferPoly abi dz st).2.2).f * cls d m tb st.p) := by
        have s23 := s2.2.2
        rw [hF, s6, e, if_neg h] at s23
        rw [s23]
        change _ = cls d m tb (st.r + mul abi (shift (-st.f) dz)
            ((2 : ℝ) • st.k + mul abi (shift (-st.f) dz) st.p)) + _ * (2 * cls d m tb
              (st.k + mul abi (shift (-st.f) dz) st.p) + _)
        rw [cls_add, cls_mul K, cls_shift K, cls_neg, cls_add, cls_smul, cls_mul K, cls_shift K,
          cls_neg, cls_add, cls_mul K, cls_shift K, cls_neg, κ_ofNat]
        ring
      rw [hR, ← q2]
  have p10 : (shift st.p 1) 0 = 1 := by rw [shift_const, hp, zero_add]
  have p10' : (shift st'.p 1) 0 = 1 := by rw [shift_const, s1.2.1, zero_add]
  refine ⟨s1, hiF, s7, hsgn, hsph.1, s2, ⟨_, ?_, ?_, ?_, s3.1, s3.2.1, s3.2.2⟩, s5⟩
  · linear_combination -hsph.2
  · have := pow_isqrt K _ p10
    rw [cls_shift K, κ_one] at this
    rw [hF]
    linear_combination this
  · have := pow_isqrt K _ p10'
    rw [cls_shift K, κ_one] at this
    rw [hF]
    linear_combination this

/-- C69: a flat surface with aspheric coefficients `a_0, a_1, ...`.  Snell's law holds with the slope
`fr = Σ (i+1) a_i r^i`; the point lies on the profile `f = Σ a_i r^(i+1)` when the order `m` does not
exceed the number of coefficients plus one. -/
theorem c69_asphere (K : Ctx d m tb abi) (sh : Shape) (mat : Option Material) (dz l : ℝ)
    (hc : sh.curvature = 0) (a : ℝ) (as : List ℝ) (ha : sh.aspherics = some (a :: as))
    (st : PolyState) (h0 : OnAxis st) {st' : PolyState} (hst : st' = surfPoly abi m sh mat dz l st)
    {F : Co → Q d m} (hF : F = cls d m tb) {mu : ℝ} (hmu : mu = (Elem.getNMu mat st.n l).2) :
    OnAxis st' ∧ st'.f 0 = 0 ∧
    (m ≤ (a :: as).length + 1 → F st'.f = ∑ i ∈ Finset.range (a :: as).length,
      κ ((a :: as).getD i 0 * Real.sign dz) * F st'.r ^ (i + 1)) ∧
    (F st'.s = F st.s + (κ dz + F st'.f - F st.f) * F st.v ∧
      F st'.t = F st.t + (κ dz + F st'.f - F st.f) * F st.w ∧
      F st'.r = F st.r + (κ dz + F st'.f - F st.f) *
        (2 * F st.k + (κ dz + F st'.f - F st.f) * F st.p)) ∧
    (let fr := ∑ i ∈ Finset.range (a :: as).length,
       κ (((i : ℝ) + 1) * (a :: as).getD i 0 * Real.sign dz) * F st'.r ^ i
     let h := F (pow abi m (shift st.p 1) (-1 / 2))
     let h' := F (pow abi m (shift st'.p 1) (-1 / 2))
     h' * F st'.v - κ mu * h * F st.v = (h' - κ mu * h) * (-2 * fr * F st'.s) ∧
     h' * F st'.w - κ mu * h * F st.w = (h' - κ mu * h) * (-2 * fr * F st'.t)) := by
  obtain ⟨hr, hp, hk⟩ := h0
  obtain ⟨t1, t2⟩ := transfer_const K dz st hr hp hk
  have hi := intercept_good K sh dz (Or.inl (by rw [hc, zero_mul])) t1 hp t2
  have hs := refract_spec K _ dz (Elem.getNMu mat st.n l).1 mu st hp hr hk hi
    (st' := st') (by rw [hst, hmu]; rfl) hF
  obtain ⟨s1, s2, s3, -, s5, s6, s7⟩ := hs
  have hiF := hi.f0
  rw [← s6] at hiF
  set R := (aspLoop abi (Real.sign dz) (a :: as) (transferPoly abi dz st).2.1 st.p
    (transferPoly abi dz st).2.2 (as.length + 1)).2 with hR
  set D := (aspLoop abi (Real.sign dz) (a :: as) (transferPoly abi dz st).2.1 st.p
    (transferPoly abi dz st).2.2 (as.length + 1)).1 with hD
  have e1 : (interceptPoly abi m sh dz (transferPoly abi dz st).2.1 st.p
      (transferPoly abi dz st).2.2).f = D := by
    unfold interceptPoly
    simp only [hc, zero_mul, if_true, ha, planePoly, zero_add]
    rfl
  have e2 : (interceptPoly abi m sh dz (transferPoly abi dz st).2.1 st.p
      (transferPoly abi dz st).2.2).fr = aspFr abi (Real.sign dz) (a :: as) R := by
    unfold interceptPoly
    simp only [hc, zero_mul, if_true, ha, planePoly, zero_add]
    rfl
  have hl := aspLoop_cls K (Real.sign dz) (a :: as) (transferPoly abi dz st).2.1 st.p
    (transferPoly abi dz st).2.2 (as.length + 1)
  rw [← hR, ← hD] at hl
  have hRR : F st'.r = F R := by
    rw [s2.2.2, s6, e1, hF, hl]
    change _ = cls d m tb (st.r + mul abi (shift (-st.f) dz)
      ((2 : ℝ) • st.k + mul abi (shift (-st.f) dz) st.p)) + _ * (2 * cls d m tb
        (st.k + mul abi (shift (-st.f) dz) st.p) + _)
    rw [cls_add, cls_mul K, cls_shift K, cls_neg, cls_add, cls_smul, cls_mul K, cls_shift K,
      cls_neg, cls_add, cls_mul K, cls_shift K, cls_neg, κ_ofNat]
    ring
  have hfr := aspFr_cls K (Real.sign dz) (a :: as) R
  rw [← hF, ← hRR] at hfr
  rw [e2, hfr] at s3
  refine ⟨s1, hiF, ?_, s2, s3.1, s3.2.1⟩
  intro hm
  rw [hRR, s6, e1, hF]
  exact aspLoop_fixed K (Real.sign dz) a as _ _ _ t1 t2 hp hm

/-- C69: a surface without material, or between equal indices, changes no direction. -/
theorem c69_no_refraction (K : Ctx d m tb abi) (sh : Shape) (mat : Option Material) (dz l : ℝ)
    (st : PolyState) (h0 : OnAxis st)
    (hm : mat = none ∨ ∃ M, mat = some M ∧ M.mirror = false ∧ M.index l = st.n ∧ st.n ≠ 0) :
    cls d m tb (surfPoly abi m sh mat dz l st).p = cls d m tb st.p ∧
    cls d m tb (surfPoly abi m sh mat dz l st).v = cls d m tb st.v ∧
    cls d m tb (surfPoly abi m sh mat dz l st).w = cls d m tb st.w := by
  obtain ⟨hr, hp, hk⟩ := h0
  obtain ⟨t1, t2⟩ := transfer_const K dz st hr hp hk
  have hmu : (Elem.getNMu mat st.n l).2 = 1 := by
    rcases hm with rfl | ⟨M, rfl, h1, h2, h3⟩
    · rfl
    · simp [Elem.getNMu, h1, h2, div_self h3]
  obtain ⟨i1, i2, -⟩ := intercept_const (m := m) K sh dz t1 hp t2
  exact refract_one K _ _ _ (Elem.getNMu mat st.n l).1 st hp t2 i2 (st' := surfPoly abi m sh mat dz l st)
    (by rw [← hmu]; rfl)

end

section
variable {m : ℕ} {tb : Tables} {abi : ℕ → List (ℕ × ℕ)}

/-! ### Where the intercept is wrong -/

/-- The start of a trace through a pupil in the plane of the object, as in `PolyTrace.rays` for a
telecentric object. -/
theorem start_onAxis (n0 pos : ℝ) : OnAxis (startState n0 pos) := by
  unfold OnAxis startState
  simp

theorem transfer_zero (K : Ctx 3 m tb abi) (n0 : ℝ) :
    cls 3 m tb (transferPoly abi 0 (startState n0 0)).2.1 = cls 3 m tb (startState n0 0).r ∧
    cls 3 m tb (transferPoly abi 0 (startState n0 0)).2.2 = cls 3 m tb (startState n0 0).k := by
  constructor
  · change cls 3 m tb (_ + mul abi (shift (-(shift 0 0)) 0)
      ((2 : ℝ) • _ + mul abi (shift (-(shift 0 0)) 0) _)) = _
    rw [cls_add, cls_mul K, cls_shift K, cls_neg, cls_shift K, cls_zero, κ_zero]
    ring
  · change cls 3 m tb (_ + mul abi (shift (-(shift 0 0)) 0) _) = _
    rw [cls_add, cls_mul K, cls_shift K, cls_neg, cls_shift K, cls_zero, κ_zero]
    ring

theorem start_classes (K : Ctx 3 m tb abi) (hm : 2 ≤ m) (n0 pos : ℝ) :
    cls 3 m tb (startState n0 pos).r = var 0 ∧ cls 3 m tb (startState n0 pos).p = var 1 ∧
    cls 3 m tb (startState n0 pos).k = var 2 ∧ cls 3 m tb (startState n0 pos).s = 1 ∧
    cls 3 m tb (startState n0 pos).t = 0 ∧ cls 3 m tb (startState n0 pos).v = 0 ∧
    cls 3 m tb (startState n0 pos).w = 1 ∧ cls 3 m tb (startState n0 pos).f = κ pos := by
  refine ⟨cls_var K hm 0, cls_var K hm 1, cls_var K hm 2, ?_, cls_zero, cls_zero, ?_, ?_⟩
  all_goals
    change cls 3 m tb (shift 0 _) = _
    rw [cls_shift K, cls_zero]
    simp [κ_one]

/-- C69, violated at distance zero: the code multiplies the curvature by `sign(offset[2])`, so a curved
surface at distance zero is traced as a plane and the point does not lie on it. -/
theorem c69_zero_distance (K : Ctx 3 m tb abi) (hm : 2 ≤ m) (sh : Shape) (hc : sh.curvature ≠ 0)
    (ha : sh.aspherics = none) (mat : Option Material) (l n0 : ℝ) {st' : PolyState}
    (hst : st' = surfPoly abi m sh mat 0 l (startState n0 0)) :
    st'.f = 0 ∧ ∀ u : ℝ, u = sh.curvature ∨ u = -sh.curvature →
      κ u * (cls 3 m tb st'.r + cls 3 m tb st'.f ^ 2) ≠ 2 * cls 3 m tb st'.f := by
  obtain ⟨hr, hp, hk⟩ := start_onAxis n0 0
  obtain ⟨t1, t2⟩ := transfer_const K 0 (startState n0 0) hr hp hk
  have hi := intercept_good K sh 0 (Or.inl (by simp)) t1 hp t2
  obtain ⟨-, s2, -, -, -, s6, -⟩ := refract_spec K _ 0 (Elem.getNMu mat n0 l).1
    (Elem.getNMu mat n0 l).2 (startState n0 0) hp hr hk hi (st' := st') (by rw [hst]; rfl) rfl
  have hf : st'.f = 0 := by
    rw [s6]
    unfold interceptPoly
    simp [ha, planePoly]
  obtain ⟨c1, -, -, -, -, -, -, c8⟩ := start_classes K hm n0 0
  have hR : cls 3 m tb st'.r = var 0 := by
    rw [s2.2.2, c1, c8, hf, cls_zero, κ_zero]; ring
  refine ⟨hf, fun u hu hc' => ?_⟩
  rw [hR, hf, cls_zero] at hc'
  have := congrArg (lc (fun _ => 1) 1) hc'
  rw [lc_mul_one _ hm, lc_κ _ (by omega), lc_κ _ (by omega), mul_zero, lc_zero _ (by omega)] at this
  simp only [ne_eq, OfNat.ofNat_ne_zero, not_false_eq_true, zero_pow, add_zero] at this
  rw [lc_var _ (by omega)] at this
  simp at this
  rcases hu with hu | hu
  · exact hc (hu ▸ this)
  · apply hc; rw [this] at hu; linarith

/-- The linear terms along a line, just after the first transfer. -/
theorem first_point (hm : 2 ≤ m) (a : Fin 3 → ℝ) (A : Q 3 m) :
    lc a 1 (var 0 + A * (2 * var 2 + A * var 1) : Q 3 m)
      = a 0 + lc a 0 A * (2 * a 2 + lc a 0 A * a 1) := by
  have h1 : 1 < m := by omega
  have h0 : 0 < m := by omega
  have h2 : (2 : Q 3 m) = κ 2 := (κ_ofNat 2).symm
  rw [h2]
  simp only [lc_add a h1, lc_mul_one a hm, lc_add a h0, lc_mul_zero a h0, lc_var a h1, lc_var a h0,
    lc_κ a h1, lc_κ a h0]
  simp

/-- C69, violated for conics: `intercept_poly` ignores the conic constant.  From order three on the
point does not lie on the conic `u (r + (1 + conic) f²) = 2 f`. -/
theorem c69_conic (K : Ctx 3 m tb abi) (hm : 3 ≤ m) (sh : Shape) (hc : sh.curvature ≠ 0)
    (hk : sh.conic ≠ 0) (ha : sh.aspherics = none) (mat : Option Material) (dz l n0 pos : ℝ)
    (hdz : 0 < dz) {st' : PolyState} (hst : st' = surfPoly abi m sh mat dz l (startState n0 pos)) :
    κ sh.curvature * (cls 3 m tb st'.r + κ (1 + sh.conic) * cls 3 m tb st'.f ^ 2)
      ≠ 2 * cls 3 m tb st'.f := by
  intro hcon
  obtain ⟨-, hf0, -, -, hsph, ⟨-, -, hR⟩, -⟩ := c69_sphere K sh mat dz l (Or.inl ha) (Or.inl hdz.ne')
    (startState n0 pos) (start_onAxis n0 pos) hst rfl rfl rfl
  rw [Real.sign_of_pos hdz, mul_one] at hsph
  have h2 : (2 : Q 3 m) = κ 2 := (κ_ofNat 2).symm
  have hm1 : 1 < m := by omega
  have hm0 : 0 < m := by omega
  have hm2 : 2 < m := by omega
  obtain ⟨c1, c2, c3, -, -, -, -, c8⟩ := start_classes K (by omega : 2 ≤ m) n0 pos
  rw [c1, c2, c3] at hR
  set a : Fin 3 → ℝ := ![1, 0, 0] with hadef
  have hR1 : lc a 1 (cls 3 m tb st'.r) = 1 := by
    rw [hR, first_point (by omega) a]; simp [hadef]
  have e1 := congrArg (lc a 1) hsph
  rw [h2] at e1
  simp only [pow_two, lc_add a hm1, lc_mul_one a (by omega : 2 ≤ m), lc_add a hm0, lc_mul_zero a hm0,
    lc_cls a K, hf0, lc_κ a hm1, lc_κ a hm0, hR1] at e1
  simp at e1
  have e2 : κ sh.curvature * κ sh.conic * (cls 3 m tb st'.f * cls 3 m tb st'.f) = 0 := by
    rw [κ_add, κ_one] at hcon
    linear_combination hcon - hsph
  have e3 := congrArg (lc a 2) e2
  simp only [lc_mul_two a hm, lc_mul_one a (by omega : 2 ≤ m), lc_mul_zero a hm0, lc_cls a K, hf0,
    lc_κ a hm0, lc_κ a hm1, lc_κ a hm2, lc_zero a hm2] at e3
  simp [hc, hk] at e3
  rw [e3, mul_zero] at e1
  exact hc e1

example : ∃ tb abi, Ctx 3 4 tb abi := by
  have hf : Fits 3 4 := ⟨by norm_num, by norm_num, by decide +kernel⟩
  obtain ⟨tb, abi, h, -⟩ := c45_three_variables 4 hf
  exact ⟨tb, abi, hf, h⟩

/-- C69, violated for aspheres beyond the guard: one coefficient means one pass of the fixed-point
loop, and from order three on the point does not lie on the profile `f = a r`. -/
theorem c69_one_pass (K : Ctx 3 m tb abi) (hm : 3 ≤ m) (sh : Shape) (hc : sh.curvature = 0) (a : ℝ)
    (ha0 : a ≠ 0) (ha : sh.aspherics = some [a]) (mat : Option Material) (l n0 : ℝ) {st' : PolyState}
    (hst : st' = surfPoly abi m sh mat 1 l (startState n0 0)) :
    cls 3 m tb st'.f ≠ κ a * cls 3 m tb st'.r := by
  intro hcon
  obtain ⟨hr, hp, hk⟩ := start_onAxis n0 0
  obtain ⟨t1, t2⟩ := transfer_const K 1 (startState n0 0) hr hp hk
  have hi := intercept_good K sh 1 (Or.inl (by rw [hc, zero_mul])) t1 hp t2
  obtain ⟨-, s2, -, -, -, s6, -⟩ := refract_spec K _ 1 (Elem.getNMu mat n0 l).1
    (Elem.getNMu mat n0 l).2 (startState n0 0) hp hr hk hi (st' := st') (by rw [hst]; rfl) rfl
  have hm1 : 1 < m := by omega
  have hm0 : 0 < m := by omega
  have hm2 : 2 < m := by omega
  have h2 : (2 : Q 3 m) = κ 2 := (κ_ofNat 2).symm
  obtain ⟨c1, c2, c3, -, -, -, -, c8⟩ := start_classes K (by omega : 2 ≤ m) n0 0
  have hfeq : st'.f = aspF abi 1 [a] (transferPoly abi 1 (startState n0 0)).2.1 := by
    rw [s6]
    unfold interceptPoly
    simp only [hc, zero_mul, if_true, ha, planePoly, zero_add, Real.sign_one]
    rfl
  have hrt : cls 3 m tb (transferPoly abi 1 (startState n0 0)).2.1 = var 0 + (2 * var 2 + var 1) := by
    change cls 3 m tb ((startState n0 0).r + mul abi (shift (-(startState n0 0).f) 1)
      ((2 : ℝ) • (startState n0 0).k + mul abi (shift (-(startState n0 0).f) 1) (startState n0 0).p)) = _
    rw [cls_add, cls_mul K, cls_shift K, cls_neg, cls_add, cls_smul, cls_mul K, cls_shift K, cls_neg,
      c1, c2, c3, c8, κ_ofNat, κ_zero, κ_one]
    ring
  have hF : cls 3 m tb st'.f = κ a * (var 0 + (2 * var 2 + var 1)) := by
    rw [hfeq, aspF_cls K, hrt]; simp
  have hR := s2.2.2
  rw [c1, c2, c3, c8, κ_one, κ_zero] at hR
  have key : κ a * (cls 3 m tb st'.f * (2 * (var 2 + var 1) + cls 3 m tb st'.f * var 1)) = 0 := by
    rw [hR] at hcon
    linear_combination hF - hcon
  set x : Fin 3 → ℝ := ![1, 0, 1] with hx
  have hF1 : lc x 1 (cls 3 m tb st'.f) = 3 * a := by
    rw [hF, h2]
    simp only [lc_add x hm1, lc_mul_one x (by omega : 2 ≤ m), lc_add x hm0, lc_mul_zero x hm0,
      lc_var x hm1, lc_var x hm0, lc_κ x hm1, lc_κ x hm0]
    simp [hx]
    ring
  have hF0 : lc x 0 (cls 3 m tb st'.f) = 0 := by
    rw [lc_cls x K, s6, hi.f0]
  have := congrArg (lc x 2) key
  rw [h2] at this
  simp only [lc_add x hm2, lc_add x hm1, lc_add x hm0, lc_mul_two x hm,
    lc_mul_one x (by omega : 2 ≤ m), lc_mul_zero x hm0, lc_var x hm2, lc_var x hm1, lc_var x hm0,
    lc_κ x hm2, lc_κ x hm1, lc_κ x hm0, lc_zero x hm2, hF0, hF1] at this
  simp [hx] at this
  exact ha0 this

/-- C69, violated for surfaces with curvature and aspheric terms: the code takes the squared height
without the factor `1/u²` and normalises with the aspheric slope alone, so after any refraction or
reflection `p` is not the squared slope of the direction.  Here curvature 1, aspherics `[1]`. -/
theorem c69_curved_asphere (K : Ctx 3 m tb abi) (hm : 2 ≤ m) (sh : Shape) (hc : sh.curvature = 1)
    (ha : sh.aspherics = some [1]) (mat : Option Material) (l n0 : ℝ)
    (hmu : (Elem.getNMu mat n0 l).2 ≠ 1) {st' : PolyState}
    (hst : st' = surfPoly abi m sh mat 1 l (startState n0 0)) :
    cls 3 m tb st'.p ≠ cls 3 m tb st'.v ^ 2 * var 0 + 2 * cls 3 m tb st'.v * cls 3 m tb st'.w * var 2
      + cls 3 m tb st'.w ^ 2 * var 1 := by
  intro hcon
  obtain ⟨hr, hp, hk⟩ := start_onAxis n0 0
  obtain ⟨t1, t2⟩ := transfer_const K 1 (startState n0 0) hr hp hk
  have hi := intercept_const (m := m) K sh 1 t1 hp t2
  set ic := interceptPoly abi m sh 1 (transferPoly abi 1 (startState n0 0)).2.1 (startState n0 0).p
    (transferPoly abi 1 (startState n0 0)).2.2 with hic
  set mu := (Elem.getNMu mat n0 l).2 with hmu'
  have hst' : st' = refractPoly abi m ic (transferPoly abi 1 (startState n0 0)).1
      (transferPoly abi 1 (startState n0 0)).2.2 (Elem.getNMu mat n0 l).1 mu (startState n0 0) := hst
  obtain ⟨-, ⟨d1, -⟩, d2, -⟩ := refract_const K ic 1 _ mu (startState n0 0) hp hr hk hi.1 hi.2.1 hst'
  have hm1 : 1 < m := by omega
  have hm0 : 0 < m := by omega
  have h2 : (2 : Q 3 m) = κ 2 := (κ_ofNat 2).symm
  obtain ⟨c1, c2, c3, -, -, -, -, c8⟩ := start_classes K hm n0 0
  have hs0 : (startState n0 0).s 0 = 1 := by simp [startState, shift]
  have hv0 : (startState n0 0).v 0 = 0 := by simp [startState]
  rw [hs0, hv0] at d1
  rw [hv0, d1, hi.2.2, hc, ha] at d2
  have v0 : st'.v 0 = -3 * (1 - mu) := by
    rw [d2]; simp; ring
  set x : Fin 3 → ℝ := ![1, 0, 0] with hx
  have hrt : cls 3 m tb (transferPoly abi 1 (startState n0 0)).2.1 = var 0 + (2 * var 2 + var 1) := by
    change cls 3 m tb ((startState n0 0).r + mul abi (shift (-(startState n0 0).f) 1)
      ((2 : ℝ) • (startState n0 0).k + mul abi (shift (-(startState n0 0).f) 1) (startState n0 0).p)) = _
    rw [cls_add, cls_mul K, cls_shift K, cls_neg, cls_add, cls_smul, cls_mul K, cls_shift K, cls_neg,
      c1, c2, c3, c8, κ_ofNat, κ_zero, κ_one]
    ring
  have hkt : cls 3 m tb (transferPoly abi 1 (startState n0 0)).2.2 = var 2 + var 1 := by
    change cls 3 m tb ((startState n0 0).k
      + mul abi (shift (-(startState n0 0).f) 1) (startState n0 0).p) = _
    rw [cls_add, cls_mul K, cls_shift K, cls_neg, c2, c3, c8, κ_zero, κ_one]
    ring
  have hp1 : lc x 1 (cls 3 m tb (startState n0 0).p) = 0 := by
    rw [c2, lc_var x hm1]; simp [hx]
  have hk1 : lc x 1 (cls 3 m tb (transferPoly abi 1 (startState n0 0)).2.2) = 0 := by
    rw [hkt, lc_add x hm1, lc_var x hm1, lc_var x hm1]; simp [hx]
  have hr1 : lc x 1 (cls 3 m tb (transferPoly abi 1 (startState n0 0)).2.1) = 1 := by
    rw [hrt, h2, lc_add x hm1, lc_add x hm1, lc_mul_one x hm, lc_var x hm1, lc_var x hm1,
      lc_var x hm1, lc_var x hm0, lc_κ x hm0, lc_κ x hm1]
    simp [hx]
  have hlin := refract_lin x K hm ic (transferPoly abi 1 (startState n0 0)).1
    (transferPoly abi 1 (startState n0 0)).2.2 (Elem.getNMu mat n0 l).1 mu (startState n0 0) hp t2
    hi.1 hi.2.1 hp1 hk1
  rw [← hst'] at hlin
  have hg1 : lc x 1 (cls 3 m tb ic.g) = -2 := by
    obtain ⟨b1, -, -, -, b5⟩ := sphere_spec K (u := 1) one_ne_zero t1 hp t2
    set b := spherePoly abi m 1 (transferPoly abi 1 (startState n0 0)).2.1 (startState n0 0).p
      (transferPoly abi 1 (startState n0 0)).2.2 with hb
    have br0 : b.r 0 = 0 := by
      have := congrArg (lc x 0) b5
      rw [lc_cls x K, κ_one, one_pow, one_mul, lc_add x hm0, lc_mul_zero x hm0, lc_cls x K, lc_cls x K,
        t1, b1.f0] at this
      rw [this]; ring
    have br1 : lc x 1 (cls 3 m tb b.r) = 1 := by
      rw [b5, κ_one, one_pow, one_mul, lc_add x hm1, lc_mul_one x hm, hr1, lc_add x hm0,
        lc_mul_zero x hm0, lc_mul_zero x hm0, h2]
      simp only [lc_cls x K, b1.f0, t2]
      ring
    set D := aspLoop abi 1 [1] b.r (startState n0 0).p (transferPoly abi 1 (startState n0 0)).2.2 1
      with hD
    have e : ic.g = pow abi m (shift (mul abi (mul abi ((4 : ℝ) • D.2) (aspFr abi 1 [1] D.2))
        (aspFr abi 1 [1] D.2)) 1) (-1 / 2) := by
      rw [hic]
      unfold interceptPoly
      simp only [hc, ha, Real.sign_one, one_mul, if_neg one_ne_zero, ← hb]
      rfl
    obtain ⟨l1, l2⟩ := aspLoop_const K 1 [1] b.r _ _ br0 1
    rw [← hD] at l1 l2
    have lR := aspLoop_cls K 1 [1] b.r (startState n0 0).p
      (transferPoly abi 1 (startState n0 0)).2.2 1
    rw [← hD] at lR
    have R1 : lc x 1 (cls 3 m tb D.2) = 1 := by
      rw [lR, lc_add x hm1, lc_mul_one x hm, br1, lc_add x hm0, lc_mul_zero x hm0,
        lc_mul_zero x hm0, h2]
      simp only [lc_cls x K, l1, t2]
      ring
    have fr0 : aspFr abi 1 [1] D.2 0 = 1 := by rw [aspFr_const K 1 1 [] _ l2]; ring
    clear_value D
    have h0 : (shift (mul abi (mul abi ((4 : ℝ) • D.2) (aspFr abi 1 [1] D.2))
        (aspFr abi 1 [1] D.2)) 1) 0 = 1 := by
      rw [shift_const, mul_const K, mul_const K, Pi.smul_apply, l2]; simp
    have hg := pow_isqrt K _ h0
    rw [← e, cls_shift K, cls_mul K, cls_mul K, cls_smul] at hg
    have := congrArg (lc x 1) hg
    simp only [lc_mul_one x hm, lc_add x hm1, lc_add x hm0, lc_mul_zero x hm0, lc_cls x K, hi.2.1,
      fr0, l2, R1, lc_κ x hm0, lc_κ x hm1, lc_one x hm1] at this
    simp at this
    linarith
  have e := congrArg (lc x 1) hcon
  rw [hlin, hg1] at e
  simp only [pow_two, h2, lc_add x hm1, lc_mul_one x hm, lc_mul_zero x hm0, lc_var x hm1,
    lc_var x hm0, lc_cls x K, v0] at e
  simp [hx] at e
  apply hmu
  have : (1 - mu) ^ 2 = 0 := by nlinarith
  have := pow_eq_zero_iff (two_ne_zero) |>.mp this
  linarith

/-! ### Whole traces -/

theorem tracePoly_cons (l : ℝ) (st : PolyState) (e : Elem) (es : List Elem) :
    tracePoly abi m l st (e :: es)
      = (stepPoly abi m l st e).bind fun st => tracePoly abi m l st es := rfl

/-- No element is both curved and aspheric. -/
def SimpleElem (e : Elem) : Prop :=
  ∀ sh, e.shape = some sh → Simple sh e.tf.offset.z

/-- Sign of the reflections so far. -/
def mirrorSign (es : List Elem) : ℝ :=
  (es.map fun e => match e.material with
    | some (some M) => if M.mirror then -1 else 1
    | _ => 1).prod

theorem trace_spec (K : Ctx 3 m tb abi) (l : ℝ) (es : List Elem) (hes : ∀ e ∈ es, SimpleElem e)
    (hn : ∀ e ∈ es, ∀ M, e.material = some (some M) → M.mirror = false → M.index l ≠ 0)
    (ρ π χ : Q 3 m) {F : Co → Q 3 m} (hF : F = cls 3 m tb) (st st' : PolyState) (h0 : OnAxis st)
    (htr : tracePoly abi m l st es = some st')
    (h1 : F st.r = F st.s ^ 2 * ρ + 2 * F st.s * F st.t * χ + F st.t ^ 2 * π)
    (h2 : F st.k = F st.s * F st.v * ρ + (F st.s * F st.w + F st.t * F st.v) * χ
      + F st.t * F st.w * π)
    (h3 : F st.p = F st.v ^ 2 * ρ + 2 * F st.v * F st.w * χ + F st.w ^ 2 * π) :
    OnAxis st' ∧
    F st'.r = F st'.s ^ 2 * ρ + 2 * F st'.s * F st'.t * χ + F st'.t ^ 2 * π ∧
    F st'.k = F st'.s * F st'.v * ρ + (F st'.s * F st'.w + F st'.t * F st'.v) * χ
      + F st'.t * F st'.w * π ∧
    F st'.p = F st'.v ^ 2 * ρ + 2 * F st'.v * F st'.w * χ + F st'.w ^ 2 * π ∧
    κ st'.n * F (pow abi m (shift st'.p 1) (-1 / 2)) * (F st'.s * F st'.w - F st'.t * F st'.v)
      = κ (mirrorSign es) * (κ st.n * F (pow abi m (shift st.p 1) (-1 / 2)) *
        (F st.s * F st.w - F st.t * F st.v)) := by
  induction es generalizing st with
  | nil =>
    have : st = st' := by simpa [tracePoly] using htr
    subst this
    refine ⟨h0, h1, h2, h3, ?_⟩
    simp [mirrorSign, κ_one]
  | cons e es ih =>
    rw [tracePoly_cons, Option.bind_eq_some_iff] at htr
    obtain ⟨sm, hsm, htr⟩ := htr
    unfold stepPoly at hsm
    rw [Option.map_eq_some_iff] at hsm
    obtain ⟨sh, hsh, rfl⟩ := hsm
    obtain ⟨hr, hp, hk⟩ := h0
    obtain ⟨t1, t2⟩ := transfer_const K e.tf.offset.z st hr hp hk
    have hi := intercept_good K sh e.tf.offset.z (hes e (by simp) sh hsh) t1 hp t2
    obtain ⟨s1, s2, s3, s4, -, -, s7⟩ := refract_spec K _ e.tf.offset.z
      (Elem.getNMu (e.material.getD none) st.n l).1 (Elem.getNMu (e.material.getD none) st.n l).2 st
      hp hr hk hi (st' := surfPoly abi m sh (e.material.getD none) e.tf.offset.z l st) rfl hF
    obtain ⟨i1, i2, i3⟩ := s4 ρ π χ h1 h2 h3
    obtain ⟨j1, j2, j3, j4, j5⟩ := ih (fun e he => hes e (List.mem_cons_of_mem _ he))
      (fun e he => hn e (List.mem_cons_of_mem _ he)) _ s1 htr i1 i2 i3
    refine ⟨j1, j2, j3, j4, ?_⟩
    rw [j5]
    set sm := surfPoly abi m sh (e.material.getD none) e.tf.offset.z l st
    set mu := (Elem.getNMu (e.material.getD none) st.n l).2 with hmu
    have hskew : F (pow abi m (shift sm.p 1) (-1 / 2)) * (F sm.s * F sm.w - F sm.t * F sm.v)
        = κ mu * F (pow abi m (shift st.p 1) (-1 / 2)) * (F st.s * F st.w - F st.t * F st.v) := by
      obtain ⟨s31, s32, -⟩ := s3
      obtain ⟨s21, s22, -⟩ := s2
      linear_combination F sm.s * s32 - F sm.t * s31 +
        κ mu * F (pow abi m (shift st.p 1) (-1 / 2)) * (F st.w * s21 - F st.v * s22)
    have hsign : sm.n * mu = (match e.material with
        | some (some M) => if M.mirror then -1 else 1
        | _ => 1) * st.n := by
      rw [s7, hmu]
      rcases hmat : e.material with _ | _ | M
      · simp [Elem.getNMu]
      · simp [Elem.getNMu]
      · by_cases hM : M.mirror
        · simp [Elem.getNMu, hM]
        · have := hn e (by simp) M hmat (by simpa using hM)
          simp only [Option.getD_some, Elem.getNMu, hM]
          simp
          field_simp
    have hms : mirrorSign (e :: es) = (match e.material with
        | some (some M) => if M.mirror then -1 else 1
        | _ => 1) * mirrorSign es := by
      simp [mirrorSign]
    have hk : (κ sm.n : Q 3 m) * κ mu * κ (mirrorSign es) = κ (mirrorSign (e :: es)) * κ st.n := by
      rw [hms, ← κ_mul, ← κ_mul, ← κ_mul, hsign]
      congr 1; ring
    linear_combination κ (mirrorSign es) * κ sm.n * hskew +
      F (pow abi m (shift st.p 1) (-1 / 2)) * (F st.s * F st.w - F st.t * F st.v) * hk

/-- C70: along a whole trace, with `x` and `U` the transverse position and slope at the start and
`r0 = x·x`, `p0 = U·U`, `k0 = x·U` the three variables, the ray is `y = s x + t U` with slope
`v x + w U`, and `r`, `k`, `p` are `y·y`, `y·slope` and `slope·slope`. -/
theorem c70_ray (K : Ctx 3 m tb abi) (hm : 2 ≤ m) (l n0 pos : ℝ) (es : List Elem)
    (hes : ∀ e ∈ es, SimpleElem e)
    (hn : ∀ e ∈ es, ∀ M, e.material = some (some M) → M.mirror = false → M.index l ≠ 0)
    {F : Co → Q 3 m} (hF : F = cls 3 m tb) (st : PolyState)
    (htr : tracePoly abi m l (startState n0 pos) es = some st) :
    F st.r = F st.s ^ 2 * var 0 + 2 * F st.s * F st.t * var 2 + F st.t ^ 2 * var 1 ∧
    F st.k = F st.s * F st.v * var 0 + (F st.s * F st.w + F st.t * F st.v) * var 2
      + F st.t * F st.w * var 1 ∧
    F st.p = F st.v ^ 2 * var 0 + 2 * F st.v * F st.w * var 2 + F st.w ^ 2 * var 1 := by
  obtain ⟨c1, c2, c3, c4, c5, c6, c7, -⟩ := start_classes K hm n0 pos
  have := trace_spec K l es hes hn (var 0) (var 1) (var 2) hF (startState n0 pos) st
    (start_onAxis n0 pos) htr (by rw [hF, c1, c4, c5]; ring) (by rw [hF, c3, c4, c5, c6, c7]; ring)
    (by rw [hF, c2, c6, c7]; ring)
  exact ⟨this.2.1, this.2.2.1, this.2.2.2.1⟩

/-- C70: the skewness invariant.  `(s w - t v)` times the index over the length of `(slope, 1)` is
conserved along the whole trace, up to a sign for each mirror. -/
theorem c70_skew (K : Ctx 3 m tb abi) (hm : 2 ≤ m) (l n0 pos : ℝ) (es : List Elem)
    (hes : ∀ e ∈ es, SimpleElem e)
    (hn : ∀ e ∈ es, ∀ M, e.material = some (some M) → M.mirror = false → M.index l ≠ 0)
    {F : Co → Q 3 m} (hF : F = cls 3 m tb) (st : PolyState)
    (htr : tracePoly abi m l (startState n0 pos) es = some st) :
    ∃ h0 h : Q 3 m, h0 ^ 2 * (1 + var 1) = 1 ∧ h ^ 2 * (1 + F st.p) = 1 ∧
      lc 0 0 h0 = 1 ∧ lc 0 0 h = 1 ∧
      κ st.n * h * (F st.s * F st.w - F st.t * F st.v) = κ (mirrorSign es * n0) * h0 := by
  obtain ⟨c1, c2, c3, c4, c5, c6, c7, -⟩ := start_classes K hm n0 pos
  have hsp := trace_spec K l es hes hn (var 0) (var 1) (var 2) hF (startState n0 pos) st
    (start_onAxis n0 pos) htr (by rw [hF, c1, c4, c5]; ring) (by rw [hF, c3, c4, c5, c6, c7]; ring)
    (by rw [hF, c2, c6, c7]; ring)
  have p10 : (shift (startState n0 pos).p 1) 0 = 1 := by
    rw [shift_const, (start_onAxis n0 pos).2.1, zero_add]
  have p10' : (shift st.p 1) 0 = 1 := by rw [shift_const, hsp.1.2.1, zero_add]
  refine ⟨F (pow abi m (shift (startState n0 pos).p 1) (-1 / 2)),
    F (pow abi m (shift st.p 1) (-1 / 2)), ?_, ?_, ?_, ?_, ?_⟩
  · have := pow_isqrt K _ p10
    rw [cls_shift K, κ_one, c2] at this
    rw [hF]; linear_combination this
  · have := pow_isqrt K _ p10'
    rw [cls_shift K, κ_one] at this
    rw [hF]; linear_combination this
  · rw [hF, lc_cls _ K, pow_const K _ p10]
  · rw [hF, lc_cls _ K, pow_const K _ p10']
  · rw [hsp.2.2.2.2, hF, c4, c5, c6, c7, κ_mul]
    change κ (mirrorSign es) * (κ n0 * _ * _) = _
    ring

/-! ### The constant terms are the paraxial trace -/

open Matrix Parax in
/-- A centred refracting surface for which both traces apply. -/
structure Centred (e : Elem) (l : ℝ) : Prop where
  shape : ∃ sh, e.shape = some sh ∧ sh.aspherics ≠ some []
  ax : e.tf.angles.x = 0
  az : e.tf.angles.z = 0
  off : e.tf.offset.z = e.tf.distance
  pos : 0 < e.tf.distance
  mat : ∀ M, e.material = some (some M) → M.mirror = false ∧ 0 < M.index l

/-- The paraxial rays in a polynomial state: heights `s`, `t` and optical slopes `n v`, `n w`. -/
def axisVec (st : PolyState) : PVec :=
  Sum.elim ![st.s 0, st.t 0] ![st.n * st.v 0, st.n * st.w 0]

open Matrix Parax in
theorem paraxial_step (K : Ctx 3 m tb abi) (l : ℝ) (e : Elem) (he : Centred e l) (st : PolyState)
    (h0 : OnAxis st) (hf : st.f 0 = 0) (hn : 0 < st.n) :
    ∃ st', stepPoly abi m l st e = some st' ∧ OnAxis st' ∧ st'.f 0 = 0 ∧ 0 < st'.n ∧
      e.propagateParaxial (axisVec st) st.n l = some (axisVec st', st'.n) := by
  obtain ⟨⟨sh, hsh, ha⟩, hax, haz, hoff, hpos, hmat⟩ := he
  obtain ⟨hr, hp, hk⟩ := h0
  obtain ⟨t1, t2⟩ := transfer_const K e.tf.offset.z st hr hp hk
  obtain ⟨i1, i2, i3⟩ := intercept_const (m := m) K sh e.tf.offset.z t1 hp t2
  set st' := surfPoly abi m sh (e.material.getD none) e.tf.offset.z l st with hst
  have hd : st'.n = (Elem.getNMu (e.material.getD none) st.n l).1 := rfl
  obtain ⟨⟨d1, d2, d3, d4⟩, ⟨d5, d6⟩, d7, d8⟩ := refract_const K _ e.tf.offset.z
    (Elem.getNMu (e.material.getD none) st.n l).1 (Elem.getNMu (e.material.getD none) st.n l).2 st
    hp hr hk i1 i2 (st' := st') rfl
  rw [i3, hoff, Real.sign_of_pos hpos, mul_one] at d7 d8
  rw [hoff, hf, sub_zero] at d5 d6
  have hnpos : 0 < st'.n := by
    rw [hd]
    rcases hm : e.material with _ | _ | M
    · exact hn
    · exact hn
    · obtain ⟨hm1, hm2⟩ := hmat M hm
      simpa [Elem.getNMu, hm1] using hm2
  refine ⟨st', by rw [stepPoly, hsh]; rfl, ⟨d1, d2, d3⟩, d4, hnpos, ?_⟩
  obtain ⟨c, hc, hc2⟩ : ∃ c, sh.paraxCurv = some c ∧
      sh.curvature + 2 * (sh.aspherics.getD []).getD 0 0 = c := by
    unfold Shape.paraxCurv
    rcases h : sh.aspherics with _ | _ | ⟨a, as⟩
    · exact ⟨_, rfl, by simp⟩
    · exact absurd h ha
    · exact ⟨_, rfl, by simp⟩
  rw [hc2] at d7 d8
  set mu := (Elem.getNMu (e.material.getD none) st.n l).2 with hmu
  -- the surface matrix
  have hM : ∃ M20 : ℝ, Elem.surfMat sh e.mat 0 st.n (e.paraxN st.n l)
      = some (fromBlocks 1 0 !![M20, 0; 0, M20] 1) ∧ M20 = (st.n - st'.n) * c ∧
      e.paraxN st.n l = st'.n ∧ st'.n * mu = st.n := by
    unfold Elem.surfMat Elem.paraxN Elem.index? Elem.mat
    rw [hc, hsh, hd, hmu]
    rcases hm : e.material with _ | _ | M
    · refine ⟨0, ?_, ?_, rfl, ?_⟩
      · simp only [Option.bind_some, Option.getD_none]
        congr 1
        rw [← fromBlocks_one]
        congr 1
        ext i j; fin_cases i <;> fin_cases j <;> simp
      · simp [Elem.getNMu]
      · simp [Elem.getNMu]
    · refine ⟨0, ?_, ?_, rfl, ?_⟩
      · simp only [Option.bind_some, Option.getD_some]
        congr 1
        rw [← fromBlocks_one]
        congr 1
        ext i j; fin_cases i <;> fin_cases j <;> simp
      · simp [Elem.getNMu]
      · simp [Elem.getNMu]
    · obtain ⟨hm1, hm2⟩ := hmat M hm
      have hq : 0 < M.index l / st.n := div_pos hm2 hn
      refine ⟨(st.n - M.index l) * c, ?_, ?_, ?_, ?_⟩
      · simp only [Option.bind_some, Option.getD_some, hm1, Option.map_some, Real.cos_zero]
        simp only [Bool.false_eq_true, if_false]
        rw [if_neg (by
          push_neg
          refine ⟨hq.ne', one_ne_zero, ?_⟩
          nlinarith [mul_pos hq hq])]
        congr 1
        have hpr : pRoot (M.index l / st.n) 1 = M.index l / st.n := by
          unfold pRoot
          rw [one_pow, add_sub_cancel_right, Real.sqrt_sq hq.le]
        unfold refractMat
        simp only [hpr]
        congr 1
        · ext i j; fin_cases i <;> fin_cases j <;> simp [hm2.ne', hn.ne']
        · ext i j; fin_cases i <;> fin_cases j <;> simp <;> field_simp
        · ext i j; fin_cases i <;> fin_cases j <;> simp [hm2.ne', hn.ne']
      · simp [Elem.getNMu, hm1]
      · simp [Elem.getNMu, hm1]
      · simp [Elem.getNMu, hm1]
        field_simp
  obtain ⟨M20, hM1, hM2, hM3, hM4⟩ := hM
  rw [hM3] at hM1
  unfold Elem.propagateParaxial Elem.paraxialMatrix
  rw [if_neg hn.ne', hsh]
  simp only [hax, haz, hM3, hM1, Option.map_some]
  rw [Option.some.injEq, Prod.mk.injEq]
  refine ⟨?_, rfl⟩
  have hrot : rotMat 0 = fromBlocks !![1, 0; 0, -1] 0 0 !![1, 0; 0, -1] := by
    unfold rotMat rotBlock; simp
  have hrotT : (rotBlock 0)ᵀ = !![1, 0; 0, -1] := by
    ext i j; fin_cases i <;> fin_cases j <;> simp [rotBlock]
  rw [rotMat_transpose, hrot, hrotT]
  unfold transfer
  simp only [fromBlocks_multiply, Matrix.one_fin_two]
  have hv : st'.n * st'.v 0 = st.n * st.v 0 + (st.n - st'.n) * c * st'.s 0 := by
    rw [d7]
    linear_combination (st.v 0 + c * st'.s 0) * hM4
  have hw : st'.n * st'.w 0 = st.n * st.w 0 + (st.n - st'.n) * c * st'.t 0 := by
    rw [d8]
    linear_combination (st.w 0 + c * st'.t 0) * hM4
  unfold axisVec
  rw [hv, hw, d5, d6, hM2]
  ext i
  rcases i with i | i <;> fin_cases i <;>
    simp [fromBlocks_mulVec, Matrix.mul_apply, Fin.sum_univ_two, Matrix.mulVec, dotProduct] <;>
    field_simp <;> ring

/-- C70: the constant terms of `s, t, v, w` are the paraxial trace of the two rays with heights `s`,
`t` and slopes `v`, `w`, through any list of centred refracting surfaces, conic or aspheric. -/
theorem c70_paraxial (K : Ctx 3 m tb abi) (l : ℝ) (es : List Elem) (hes : ∀ e ∈ es, Centred e l)
    (st : PolyState) (h0 : OnAxis st) (hf : st.f 0 = 0) (hn : 0 < st.n) :
    ∃ st' out, tracePoly abi m l st es = some st' ∧
      Sys.scanM (fun e s => e.propagateParaxial s.1 s.2 l) es (axisVec st, st.n) = some out ∧
      out.getLastD (axisVec st, st.n) = (axisVec st', st'.n) := by
  induction es generalizing st with
  | nil => exact ⟨st, [], rfl, rfl, rfl⟩
  | cons e es ih =>
    obtain ⟨s1, h1, h2, h3, h4, h5⟩ := paraxial_step K l e (hes e (by simp)) st h0 hf hn
    obtain ⟨s2, out, g1, g2, g3⟩ := ih (fun e he => hes e (List.mem_cons_of_mem _ he)) s1 h2 h3 h4
    refine ⟨s2, (axisVec s1, s1.n) :: out, ?_, ?_, ?_⟩
    · rw [tracePoly_cons, h1, Option.bind_some, g1]
    · simp only [Sys.scanM, h5, Option.bind_some, g2, Option.map_some]
    · rw [List.getLastD_cons, g3]

/-! ### A concrete lens -/

/-- Glass of index 3/2. -/
noncomputable def exGlass : Material := ⟨false, true, fun _ => 3 / 2⟩

/-- A centred surface at distance `z`. -/
def exSurf (z c : ℝ) (asp : Option (List ℝ)) (mat : Option Material) : Elem where
  tf := ⟨z, ⟨0, 0, 1⟩, ⟨0, 0, z⟩, ⟨0, 0, 0⟩, True, True, none, none⟩
  radius := .inf
  shape := some ⟨c, 0, asp, false⟩
  material := some mat

/-- A lens with a spherical and an aspheric face, and an image plane. -/
noncomputable def exLens : List Elem :=
  [exSurf 1 (1 / 10) none (some exGlass), exSurf 2 0 (some [-1 / 20, 1 / 100]) (some ⟨false, false, fun _ => 1⟩),
    exSurf 20 0 none none]

example : ∃ tb abi, Ctx 3 4 tb abi ∧ ∃ st, tracePoly abi 4 0 (startState 1 0) exLens = some st ∧
    cls 3 4 tb st.p = cls 3 4 tb st.v ^ 2 * var 0 + 2 * cls 3 4 tb st.v * cls 3 4 tb st.w * var 2
      + cls 3 4 tb st.w ^ 2 * var 1 := by
  have hf : Fits 3 4 := ⟨by norm_num, by norm_num, by decide +kernel⟩
  obtain ⟨tb, abi, h, -⟩ := c45_three_variables 4 hf
  have K : Ctx 3 4 tb abi := ⟨hf, h⟩
  refine ⟨tb, abi, K, _, rfl, ?_⟩
  refine (c70_ray K (by norm_num) 0 1 0 exLens ?_ ?_ rfl _ rfl).2.2
  · intro e he
    simp only [exLens, List.mem_cons, List.not_mem_nil, or_false] at he
    rcases he with rfl | rfl | rfl <;> intro sh hsh <;>
      simp only [exSurf, Option.some.injEq] at hsh <;> subst hsh <;> simp [Simple, exSurf]
  · intro e he M hM _
    simp only [exLens, List.mem_cons, List.not_mem_nil, or_false] at he
    rcases he with rfl | rfl | rfl <;> simp [exSurf] at hM <;> subst hM <;> norm_num [exGlass]

example (e : Elem) (he : e ∈ exLens) : Centred e 0 := by
  simp only [exLens, List.mem_cons, List.not_mem_nil, or_false] at he
  rcases he with rfl | rfl | rfl
  · exact ⟨⟨_, rfl, by simp⟩, rfl, rfl, rfl, by norm_num [exSurf], by
      intro M hM; simp [exSurf] at hM; subst hM; norm_num [exGlass]⟩
  · exact ⟨⟨_, rfl, by simp⟩, rfl, rfl, rfl, by norm_num [exSurf], by
      intro M hM; simp [exSurf] at hM; subst hM; norm_num⟩
  · exact ⟨⟨_, rfl, by simp⟩, rfl, rfl, rfl, by norm_num [exSurf], by
      intro M hM; simp [exSurf] at hM⟩

/-- The start state meets the hypotheses of the surface theorems. -/
example : OnAxis (startState 1 5) := start_onAxis 1 5

end

end RayOpt.Poly
