import Verif.Model.Figures
import Verif.Props.Entry

/-!
Property C89: what the ray figures of `Analysis` show.
-/

namespace RayOpt.Figures

open RayOpt RayOpt.V3 RayOpt.Elem
open RayOpt.Spot (V2 slope xy)

/-- `q` is on the line through `y` along `d`. -/
def OnRay (y d q : V3) : Prop := ∃ t : ℝ, q = y + t • d

theorem onRay_slope {y d q : V3} (h : OnRay y d q) (hd : d.z ≠ 0) :
    q.x = y.x + (q.z - y.z) * (d.x / d.z) ∧ q.y = y.y + (q.z - y.z) * (d.y / d.z) := by
  obtain ⟨t, rfl⟩ := h
  simp only [add_x, add_y, add_z, smul_x, smul_y, smul_z]
  constructor <;> field_simp <;> ring

theorem slope_some {i : V3} {s : V2} (h : slope (some i) = some s) :
    i.z ≠ 0 ∧ s = (i.x / i.z, i.y / i.z) := by
  simp only [Spot.slope, Option.bind_some] at h
  split_ifs at h with hz
  exact ⟨hz, (Option.some.inj h).symm⟩

/-- C89: the pupil coordinates of the fan plots are those where the ray crosses the plane at distance
`p` behind the vertex of the object, relative to the reference ray, and the aberrations are the
differences of the image positions; for rays that start in the vertex plane. -/
theorem c89_fan (p : ℝ) (r0 rk ref0 refk : Row) (y d yr dr yk ykr q qr : V3)
    (hy : r0.y = some y) (hu : r0.u = some d) (hyr : ref0.y = some yr) (hur : ref0.u = some dr)
    (hk : rk.y = some yk) (hkr : refk.y = some ykr) (h0 : y.z = 0) (h0r : yr.z = 0)
    (hd : d.z ≠ 0) (hdr : dr.z ≠ 0) (hq : OnRay y d q) (hqr : OnRay yr dr qr) (hz : q.z = p)
    (hzr : qr.z = p) :
    fanPoint p r0 rk ref0 refk =
      some ((q.x - qr.x, q.y - qr.y), (yk.x - ykr.x, yk.y - ykr.y)) := by
  obtain ⟨a, b⟩ := onRay_slope hq hd
  obtain ⟨a', b'⟩ := onRay_slope hqr hdr
  rw [h0, hz, sub_zero] at a b
  rw [h0r, hzr, sub_zero] at a' b'
  simp only [fanPoint, pupilCoord, hy, hu, hyr, hur, hk, hkr, Spot.slope, Option.bind_some, if_neg hd,
    if_neg hdr, Option.map_some, xy, Option.some.injEq, Prod.mk.injEq, Prod.smul_mk, smul_eq_mul,
    Prod.mk_add_mk, Prod.mk_sub_mk]
  refine ⟨⟨?_, ?_⟩, trivial⟩
  · rw [a, a']
  · rw [b, b']

/-- C89, violation: on a curved object the pupil coordinate is wrong.  A ray from a point one unit
behind the vertex plane with slope one passes the plane at distance 2 at height 1; the figure shows
it at 2, relative to the axial ray. -/
theorem c89_curved_violation : ∃ r0 ref0 rk : Row, ∃ y d q : V3, r0.y = some y ∧ r0.u = some d ∧
    OnRay y d q ∧ q = ⟨0, 1, 2⟩ ∧ fanPoint 2 r0 rk ref0 rk = some ((0, 2), (0, 0)) := by
  refine ⟨⟨some ⟨0, 0, 1⟩, some ⟨0, 1, 1⟩, 1, none, none⟩, ⟨some 0, some ⟨0, 0, 1⟩, 1, none, none⟩,
    ⟨some 0, none, 1, none, none⟩, ⟨0, 0, 1⟩, ⟨0, 1, 1⟩, ⟨0, 1, 2⟩, rfl, rfl,
    ⟨1, by ext <;> simp; norm_num⟩, rfl, ?_⟩
  simp [fanPoint, pupilCoord, Spot.slope, xy]

/-- C89: of the rays of the tee, those before the reference are the meridional ones from the lower to
the upper edge of the pupil, the others are the sagittal ones from the centre to the edge; both have
equal steps. -/
theorem c89_tee (n : ℕ) (hn : 5 ≤ n) : ∃ m, 1 ≤ m ∧ 3 * m + 2 ≤ n ∧ n < 3 * m + 5 ∧
    let d := Sampling.pupilDistribution .tee n
    d.1 = 2 * m + 1 ∧
    d.2.take d.1 = (List.range (2 * m + 1)).map (fun (i : ℕ) => ((0 : ℝ), ((i : ℝ) - m) / m)) ∧
    d.2.drop d.1 = (List.range (m + 1)).map (fun (i : ℕ) => ((i : ℝ) / m, (0 : ℝ))) := by
  refine ⟨(n - 2) / 3, by omega, by omega, by omega, ?_⟩
  have hm : (((n - 2) / 3 : ℕ) : ℝ) ≠ 0 := by
    have : 1 ≤ (n - 2) / 3 := by omega
    exact_mod_cast (by omega : (n - 2) / 3 ≠ 0)
  generalize hN : (n - 2) / 3 = m at *
  have h1 : n ≠ 1 := by omega
  simp only [Sampling.pupilDistribution, if_neg h1, hN, true_and]
  constructor
  · rw [List.take_left' (by simp [Sampling.linspace])]
    simp only [Sampling.linspace, List.map_map]
    apply List.map_congr_left
    intro i _
    simp only [Function.comp_apply, Nat.add_sub_cancel, Nat.cast_mul, Nat.cast_ofNat, Prod.mk.injEq,
      true_and]
    field_simp
    ring
  · rw [List.drop_left' (by simp [Sampling.linspace])]
    simp only [Sampling.linspace, List.map_map]
    apply List.map_congr_left
    intro i _
    simp only [Function.comp_apply, Nat.add_sub_cancel, Prod.mk.injEq, and_true]
    field_simp
    ring

/-- C89: the curves of the fan plots: pupil y against image y for the rays before the reference, then
pupil x against image y and image x for the others. -/
theorem c89_fans (ref : ℕ) (pts : List (V2 × V2)) (j : ℕ) (q : V2 × V2) (hj : pts[j]? = some q) :
    (j < ref → (fans ref pts).1[j]? = some (q.1.2, q.2.2)) ∧
    (ref ≤ j → (fans ref pts).2.1[j - ref]? = some (q.1.1, q.2.2) ∧
      (fans ref pts).2.2[j - ref]? = some (q.1.1, q.2.1)) := by
  constructor
  · intro h
    simp [fans, h, hj]
  · intro h
    have : ref + (j - ref) = j := by omega
    simp [fans, List.getElem?_drop, this, hj]

/-- C89: in the spot diagram at defocus `z` a ray is drawn where it crosses the plane `z` behind a
flat image plane, relative to the point where the reference ray meets the image plane. -/
theorem c89_spot (z : ℝ) (rk refk : Row) (y i y0 q : V3) (hy : rk.y = some y) (hi : rk.i = some i)
    (h0 : refk.y = some y0) (hiz : i.z ≠ 0) (hflat : y.z = 0) (hq : OnRay y i q) (hz : q.z = z) :
    spot z rk refk = some (q.x - y0.x, q.y - y0.y) := by
  obtain ⟨a, b⟩ := onRay_slope hq hiz
  rw [hflat, hz, sub_zero] at a b
  simp only [spot, hy, hi, h0, Option.bind_some, Spot.slope, if_neg hiz, Option.map_some, xy,
    Option.some.injEq, Prod.smul_mk, smul_eq_mul, Prod.mk_add_mk, Prod.mk_sub_mk, Prod.mk.injEq]
  rw [a, b]
  constructor <;> ring

/-- C89: the planes of the spot diagrams are one Rayleigh range apart and the one in the middle is
the image plane. -/
theorem c89_defocus (nd : ℕ) (zr : ℝ) : (defocus nd zr).length = nd ∧
    (0 < nd → (defocus nd zr)[nd / 2]? = some 0) ∧
    ∀ (j : ℕ) (a b : ℝ), (defocus nd zr)[j]? = some a → (defocus nd zr)[j + 1]? = some b →
      b - a = zr := by
  refine ⟨by simp [defocus], fun h => ?_, fun j a b ha hb => ?_⟩
  · have : nd / 2 < nd := Nat.div_lt_self h (by norm_num)
    simp [defocus, this]
  · simp only [defocus, List.getElem?_map, Option.map_eq_some_iff] at ha hb
    obtain ⟨j', hj', rfl⟩ := ha
    obtain ⟨k', hk', rfl⟩ := hb
    have h1 := (List.getElem?_eq_some_iff.mp hj').2
    have h2 := (List.getElem?_eq_some_iff.mp hk').2
    simp only [List.getElem_range] at h1 h2
    subst h1 h2
    push_cast
    ring

/-- C89: the parts of a split list are the first `n` entries, the next `n` and the rest. -/
theorem c89_split {α : Type*} (n : ℕ) (l : List α) (k : ℕ) :
    (split3 n l).1[k]? = (if k < n then l[k]? else none) ∧
    (split3 n l).2.1[k]? = (if k < n then l[n + k]? else none) ∧
    (split3 n l).2.2[k]? = l[2 * n + k]? := by
  refine ⟨by simp [split3, List.getElem?_take], ?_, by simp [split3]⟩
  simp only [split3, List.getElem?_drop, List.getElem?_take]
  by_cases hk : k < n
  · rw [if_pos (by omega), if_pos hk]
  · rw [if_neg (by omega), if_neg hk]

theorem crossing_spec (c : V2 → ℝ) (hc : ∀ a b : V2, ∀ t : ℝ, c (a + t • b) = c a + t * c b)
    (a b : Row) (ya ia yb ib : V3) (hya : a.y = some ya) (hia : a.i = some ia) (hyb : b.y = some yb)
    (hib : b.i = some ib) (hfa : ya.z = 0) (hfb : yb.z = 0) (f : ℝ) (h : crossing c a b = some f)
    (qa qb : V3) (ha : OnRay ya ia qa) (hb : OnRay yb ib qb) (hz : qa.z = qb.z) :
    c (xy qa) = c (xy qb) ↔ qa.z = f := by
  simp only [crossing, hya, hia, hyb, hib, Option.bind_some, Option.bind_eq_some_iff] at h
  obtain ⟨p, hp, q, hq, h⟩ := h
  split_ifs at h with hne
  obtain ⟨h1, rfl⟩ := slope_some hp
  obtain ⟨h2, rfl⟩ := slope_some hq
  obtain ⟨a1, a2⟩ := onRay_slope ha h1
  obtain ⟨b1, b2⟩ := onRay_slope hb h2
  rw [hfa, sub_zero] at a1 a2
  rw [hfb, sub_zero] at b1 b2
  have ea : xy qa = xy ya + qa.z • ((ia.x / ia.z, ia.y / ia.z) : V2) := by
    unfold xy; ext <;> simp <;> assumption
  have eb : xy qb = xy yb + qa.z • ((ib.x / ib.z, ib.y / ib.z) : V2) := by
    unfold xy; rw [hz]; ext <;> simp <;> assumption
  rw [ea, eb, hc, hc]
  simp only [Option.some.injEq] at h
  rw [← h, eq_div_iff hne]
  constructor <;> intro e <;> linarith

/-- C89: the tangential focus is the distance behind a flat image plane at which the chief ray and
the meridional ray have the same height `y`. -/
theorem c89_tangential (a b : Row) (ya ia yb ib : V3) (hya : a.y = some ya) (hia : a.i = some ia)
    (hyb : b.y = some yb) (hib : b.i = some ib) (hfa : ya.z = 0) (hfb : yb.z = 0) (f : ℝ)
    (h : tangential a b = some f) (qa qb : V3) (ha : OnRay ya ia qa) (hb : OnRay yb ib qb)
    (hz : qa.z = qb.z) : qa.y = qb.y ↔ qa.z = f :=
  crossing_spec Prod.snd (fun _ _ _ => rfl) a b ya ia yb ib hya hia hyb hib hfa hfb f h qa qb ha hb hz

/-- C89: the sagittal focus is the distance behind a flat image plane at which the chief ray and the
sagittal ray have the same `x`. -/
theorem c89_sagittal (a c : Row) (ya ia yc ic : V3) (hya : a.y = some ya) (hia : a.i = some ia)
    (hyc : c.y = some yc) (hic : c.i = some ic) (hfa : ya.z = 0) (hfc : yc.z = 0) (f : ℝ)
    (h : sagittal a c = some f) (qa qc : V3) (ha : OnRay ya ia qa) (hc : OnRay yc ic qc)
    (hz : qa.z = qc.z) : qa.x = qc.x ↔ qa.z = f :=
  crossing_spec Prod.fst (fun _ _ _ => rfl) a c ya ia yc ic hya hia hyc hic hfa hfc f h qa qc ha hc hz

/-- C89: a focus is found whenever the slopes of the two rays differ. -/
theorem c89_defined (a b : Row) (ya ia yb ib : V3) (hya : a.y = some ya) (hia : a.i = some ia)
    (hyb : b.y = some yb) (hib : b.i = some ib) (h1 : ia.z ≠ 0) (h2 : ib.z ≠ 0) :
    ((∃ f, tangential a b = some f) ↔ ia.y / ia.z ≠ ib.y / ib.z) ∧
    ((∃ f, sagittal a b = some f) ↔ ia.x / ia.z ≠ ib.x / ib.z) := by
  constructor
  · simp only [tangential, crossing, hya, hia, hyb, hib, Option.bind_some, Spot.slope, if_neg h1, if_neg h2]
    constructor
    · rintro ⟨f, hf⟩ e
      rw [if_pos (by rw [e]; ring)] at hf
      cases hf
    · intro e
      exact ⟨_, if_neg (sub_ne_zero.mpr (Ne.symm e))⟩
  · simp only [sagittal, crossing, hya, hia, hyb, hib, Option.bind_some, Spot.slope, if_neg h1, if_neg h2]
    constructor
    · rintro ⟨f, hf⟩ e
      rw [if_pos (by rw [e]; ring)] at hf
      cases hf
    · intro e
      exact ⟨_, if_neg (sub_ne_zero.mpr (Ne.symm e))⟩

/-- C89: the spherical aberration of a ray is the distance behind a flat image plane at which the ray
crosses the plane `y = 0`; the reference ray has none. -/
theorem c89_spherical (ref k : ℕ) (r : Row) (y i : V3) (hy : r.y = some y) (hi : r.i = some i)
    (hflat : y.z = 0) :
    (spherical ref ref r = none) ∧ ∀ f, spherical ref k r = some f → ∀ q, OnRay y i q →
      (q.y = 0 ↔ q.z = f) := by
  refine ⟨if_pos rfl, fun f h q hq => ?_⟩
  simp only [spherical, hy, hi, Option.bind_some] at h
  split_ifs at h with hk
  rw [Option.bind_eq_some_iff] at h
  obtain ⟨u, hu, h⟩ := h
  split_ifs at h with hu0
  obtain ⟨h1, rfl⟩ := slope_some hu
  obtain ⟨-, b⟩ := onRay_slope hq h1
  rw [hflat, sub_zero] at b
  simp only [Option.some.injEq] at h
  rw [b, ← h, eq_div_iff hu0]
  constructor <;> intro e <;> linarith

/-- C89: the axial colour at a wavelength is the difference of the distances at which the rays of
this and of the first wavelength cross the axis; for forward rays in the meridional plane. -/
theorem c89_axial (r : Row) (y i : V3) (hy : r.y = some y) (hi : r.i = some i) (hflat : y.z = 0)
    (hunit : i.dot i = 1) (hx : i.x = 0) (hiz : 0 < i.z) (hiy : i.y ≠ 0) :
    ∃ f, axialFocus r = some f ∧ (∀ q, OnRay y i q → (q.y = 0 ↔ q.z = f)) ∧
      ∀ r0 f0, axialFocus r0 = some f0 → axialColour r0 r = some (f - f0) := by
  have h1 : 1 - i.y ^ 2 = i.z ^ 2 := by
    simp only [dot, hx] at hunit; linear_combination -hunit
  have h2 : tanarcsin1 i = some (i.y / i.z) := by
    have : ¬ 1 - i.y ^ 2 ≤ 0 := by rw [h1, not_le]; positivity
    rw [tanarcsin1, if_neg this, h1, Real.sqrt_sq hiz.le]
  have h3 : i.y / i.z ≠ 0 := div_ne_zero hiy hiz.ne'
  have hf : axialFocus r = some (-y.y / (i.y / i.z)) := by
    simp only [axialFocus, hy, hi, Option.bind_some, h2, if_neg h3]
  refine ⟨_, hf, fun q hq => ?_, fun r0 f0 h0 => ?_⟩
  · obtain ⟨-, b⟩ := onRay_slope hq hiz.ne'
    rw [hflat, sub_zero] at b
    rw [b, eq_div_iff h3]
    constructor <;> intro e <;> linarith
  · simp only [axialColour, hf, h0, Option.bind_some, Option.map_some]

/-- C89: the lateral colour is what the image at the first wavelength has to be raised by to become the image
at the other wavelength; it is there iff both rays reach the image, and for images of the object height `h`
with the magnifications `m` and `m0` it is the difference of the magnifications times the height. -/
theorem c89_lateral (a a0 : Row) :
    (∀ d, lateralColour a a0 = some d ↔
      ∃ y y0 : V3, a.y = some y ∧ a0.y = some y0 ∧ y0.y + d = y.y) ∧
    (∀ (m m0 h : ℝ) (y y0 : V3), a.y = some y → a0.y = some y0 → y.y = m * h → y0.y = m0 * h →
      lateralColour a a0 = some ((m - m0) * h)) := by
  have key : ∀ d, lateralColour a a0 = some d ↔
      ∃ y y0 : V3, a.y = some y ∧ a0.y = some y0 ∧ y0.y + d = y.y := by
    intro d
    simp only [lateralColour, Option.bind_eq_some_iff, Option.map_eq_some_iff]
    constructor
    · rintro ⟨y, hy, y0, hy0, e⟩
      exact ⟨y, y0, hy, hy0, by linarith⟩
    · rintro ⟨y, y0, hy, hy0, e⟩
      exact ⟨y, hy, y0, hy0, by linarith⟩
  refine ⟨key, fun m m0 h y y0 hy hy0 e e0 => (key _).mpr ⟨y, y0, hy, hy0, ?_⟩⟩
  rw [e, e0]; ring

/-- The image heights 3 and 5 of the height 1: the lateral colour is 2. -/
example : lateralColour ⟨some ⟨0, 5, 0⟩, none, 1, none, none⟩ ⟨some ⟨0, 3, 0⟩, none, 1, none, none⟩ =
    some ((5 - 3) * 1) :=
  (c89_lateral _ _).2 5 3 1 ⟨0, 5, 0⟩ ⟨0, 3, 0⟩ rfl rfl (by norm_num) (by norm_num)

/-- C89: the distortion compares the image height with the field fraction of the image radius: it is
zero for every field of an ideal system whose image is inverted. -/
theorem c89_distortion (n : ℕ) (height R r m : ℝ) (k : ℕ) (hk : 0 < k) (hn : 2 ≤ n)
    (hR : R = |m| * r) (hr : 0 < r) (hh : height ≠ 0) (hm : m ≠ 0) (a : Row) (y : V3)
    (hy : a.y = some y) (hy' : y.y = m * -((k : ℝ) / ((n - 1 : ℕ) : ℝ) * height * r)) :
    (m < 0 → distortion n height R k a = some 0) ∧
    (0 < m → distortion n height R k a = some (-2)) := by
  have hn1 : (((n - 1 : ℕ) : ℝ)) ≠ 0 := by exact_mod_cast (by omega : n - 1 ≠ 0)
  have hk0 : (k : ℝ) ≠ 0 := by exact_mod_cast hk.ne'
  have hm' : |m| ≠ 0 := abs_ne_zero.mpr hm
  have hne : (k : ℝ) * (height * R / ((n - 1 : ℕ) : ℝ)) ≠ 0 := by
    rw [hR]
    have := hr.ne'
    positivity
  constructor <;> intro hs
  · simp only [distortion, hy, Option.map_some]
    rw [if_neg (by simp only [hne, or_false]; omega), hy', div_eq_zero_iff.mpr (Or.inl _)]
    rw [hR, abs_of_neg hs]
    ring
  · simp only [distortion, hy, Option.map_some]
    rw [if_neg (by simp only [hne, or_false]; omega)]
    congr 1
    rw [div_eq_iff hne, hy', hR, abs_of_pos hs]
    ring

/-- C89, violation: the distortion of an ideal system with an upright image is -2. -/
theorem c89_upright_violation : ∃ (a : Row) (m R r : ℝ), 0 < m ∧ R = m * r ∧
    a.y = some ⟨0, m * (-r), 0⟩ ∧ distortion 2 1 R 1 a = some (-2) := by
  refine ⟨⟨some ⟨0, 1 * (-1), 0⟩, none, 1, none, none⟩, 1, 1, 1, by norm_num, by norm_num, rfl, ?_⟩
  simp [distortion]
  norm_num

/-- A ray from the vertex with slope 3/4 crosses the pupil at distance 4 at height 3. -/
example : fanPoint 4 ⟨some 0, some ⟨0, 3 / 5, 4 / 5⟩, 1, none, none⟩ ⟨some ⟨0, 1, 0⟩, none, 1, none, none⟩
    ⟨some 0, some ⟨0, 0, 1⟩, 1, none, none⟩ ⟨some ⟨0, 2, 0⟩, none, 1, none, none⟩ =
      some ((0, 3), (0, -1)) := by
  have := c89_fan 4 ⟨some 0, some ⟨0, 3 / 5, 4 / 5⟩, 1, none, none⟩
    ⟨some ⟨0, 1, 0⟩, none, 1, none, none⟩ ⟨some 0, some ⟨0, 0, 1⟩, 1, none, none⟩
    ⟨some ⟨0, 2, 0⟩, none, 1, none, none⟩ 0 ⟨0, 3 / 5, 4 / 5⟩ 0 ⟨0, 0, 1⟩ ⟨0, 1, 0⟩ ⟨0, 2, 0⟩
    ⟨0, 3, 4⟩ ⟨0, 0, 4⟩ rfl rfl rfl rfl rfl rfl rfl rfl (by norm_num) (by norm_num)
    ⟨5, by ext <;> simp <;> norm_num⟩ ⟨4, by ext <;> simp⟩ rfl rfl
  rw [this]
  norm_num

/-- The same ray one unit behind the image plane. -/
example : spot 1 ⟨some ⟨0, 1, 0⟩, none, 1, some ⟨0, 3 / 5, 4 / 5⟩, none⟩ ⟨some 0, none, 1, none, none⟩ =
    some (0, 7 / 4) := by
  have := c89_spot 1 ⟨some ⟨0, 1, 0⟩, none, 1, some ⟨0, 3 / 5, 4 / 5⟩, none⟩
    ⟨some 0, none, 1, none, none⟩ ⟨0, 1, 0⟩ ⟨0, 3 / 5, 4 / 5⟩ 0 ⟨0, 7 / 4, 1⟩ rfl rfl rfl (by norm_num)
    rfl ⟨5 / 4, by ext <;> simp; norm_num⟩ rfl
  rw [this]
  norm_num

/-- It crosses the axis 4/3 before the image plane, in both ways of computing it. -/
example : spherical 0 1 ⟨some ⟨0, 1, 0⟩, none, 1, some ⟨0, 3 / 5, 4 / 5⟩, none⟩ = some (-4 / 3) ∧
    ∃ f, axialFocus ⟨some ⟨0, 1, 0⟩, none, 1, some ⟨0, 3 / 5, 4 / 5⟩, none⟩ = some f := by
  constructor
  · simp [spherical, Spot.slope]
    norm_num
  · obtain ⟨f, h, -⟩ := c89_axial ⟨some ⟨0, 1, 0⟩, none, 1, some ⟨0, 3 / 5, 4 / 5⟩, none⟩ ⟨0, 1, 0⟩
      ⟨0, 3 / 5, 4 / 5⟩ rfl rfl rfl (by norm_num [dot]) rfl (by norm_num) (by norm_num)
    exact ⟨f, h⟩

/-- Half field, magnification -2. -/
example : distortion 3 1 2 1 ⟨some ⟨0, 1, 0⟩, none, 1, none, none⟩ = some 0 :=
  (c89_distortion 3 1 2 1 (-2) 1 (by norm_num) (by norm_num) (by norm_num) (by norm_num) (by norm_num)
    (by norm_num) _ ⟨0, 1, 0⟩ rfl (by norm_num)).1 (by norm_num)

/-- A converging pencil: chief ray through the vertex, meridional ray meeting it 2 behind the image. -/
example : tangential ⟨some 0, none, 1, some ⟨0, 3 / 5, 4 / 5⟩, none⟩
    ⟨some ⟨0, 1, 0⟩, none, 1, some ⟨0, 1 / 4, 1⟩, none⟩ = some 2 := by
  simp [tangential, crossing, Spot.slope, xy]
  norm_num

end RayOpt.Figures
