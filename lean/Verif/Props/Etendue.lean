import Verif.Props.Malus
import Mathlib.LinearAlgebra.Matrix.Determinant.Basic

/-!
Property C103: what follows for images and rays of whole systems from the laws of the trace: the skew
invariant, conservation of etendue, the sine condition of Abbe and the condition of Herschel.
-/

namespace RayOpt

open V3 Elem Sys Filter Topology

/-! ## The skew invariant -/

/-- The normals of the shapes meet the axis. -/
theorem normal_radial (sh : Shape) (q r : V3) (h : sh.surfaceNormal q = some r) :
    q.x * r.y - q.y * r.x = 0 := by
  unfold Shape.surfaceNormal at h
  split_ifs at h with h1 h2
  · cases h; simp
  · dsimp only at h
    rw [Option.map_eq_some_iff] at h
    obtain ⟨e, -, rfl⟩ := h
    ring

/-- A ray that reaches an element had a position and a direction before it, and has a path there. -/
theorem step_alive (nwt : Shape.NewtonFn) (l : ℝ) (clp : Bool) (e0 e : Elem) (a : Row) (q : V3)
    (hq : (step nwt l clp e (rayOfRow e0 a)).1.y = some q) :
    (∃ p, a.y = some p) ∧ (∃ u, a.u = some u) ∧
      ∃ t, (step nwt l clp e (rayOfRow e0 a)).1.t = some t := by
  have h1 : ∀ (y u : Option V3) (n : ℝ), (e.propagate nwt y u n l clp).t =
      (y.bind fun y => u.bind fun u => e.intercept nwt y u).map (· * n) := by
    intro y u n; unfold Elem.propagate; cases e.shape <;> rfl
  have h2 : ∀ (y u : Option V3) (n : ℝ), (e.propagate nwt y u n l clp).y =
      y.bind fun y' => u.bind fun u' =>
        (y.bind fun y => u.bind fun u => e.intercept nwt y u).map fun t => y' + t • u' := by
    intro y u n; unfold Elem.propagate; cases e.shape <;> rfl
  simp only [step, rayOfRow] at hq ⊢
  rw [h2] at hq
  cases hy : a.y with
  | none => rw [hy] at hq; simp at hq
  | some p =>
    cases hu : a.u with
    | none => rw [hy, hu] at hq; simp at hq
    | some u =>
      rw [hy, hu] at hq
      simp only [Option.map_some, Option.bind_some, Option.map_eq_some_iff] at hq
      obtain ⟨t, ht, -⟩ := hq
      refine ⟨⟨p, rfl⟩, ⟨u, rfl⟩, t * a.n, ?_⟩
      rw [h1]
      simp only [Option.map_some, Option.bind_some, ht]

/-- The moment of the direction `v` at the point `q` about the z axis. -/
def moment (q v : V3) : ℝ := q.x * v.y - q.y * v.x

/-- C103: in a system along the z axis (elements may be turned over, `σ = -1`) every real ray keeps the
product of the index and the moment of its direction about the axis: the skew invariant. -/
theorem c103_skew {nwt : Shape.NewtonFn} {l : ℝ} {clp : Bool} {sys : List Elem} {arr out : List Row}
    (hlen : arr.length = sys.length) (hout : gtPropagate nwt sys l clp 1 none arr = some out)
    (σ : ℕ → ℝ) (hax : ∀ j (h : j < sys.length), OnAxis (σ j) sys[j].tf)
    (hidx : ∀ e ∈ sys, ∀ sh m, Acts e sh m → m.mirror = false → 0 < m.index l)
    (a : Row) (p u : V3) (h0 : out[0]? = some a) (hp : a.y = some p) (hu : a.u = some u) (hn : 0 < a.n)
    (j : ℕ) (hj : j < sys.length) (b : Row) (q v : V3) (hb : out[j]? = some b) (hq : b.y = some q)
    (hv : b.u = some v) :
    0 < b.n ∧ σ j * (b.n * moment q v) = σ 0 * (a.n * moment p u) := by
  induction j generalizing b q v with
  | zero =>
    rw [h0] at hb; cases hb
    rw [hp] at hq; cases hq
    rw [hu] at hv; cases hv
    exact ⟨hn, rfl⟩
  | succ j ih =>
    obtain ⟨x, hx, hx1⟩ := trace_succ hlen hout j hj
    rw [hb] at hx1; cases hx1
    obtain ⟨⟨p', hp'⟩, ⟨u', hu'⟩, ⟨t, ht⟩⟩ := step_alive nwt l clp _ _ x q hq
    obtain ⟨hpos, ih⟩ := ih (by omega) x p' u' hx hp' hu'
    rw [← ih]
    have hA := hax (j + 1) hj
    have hA0 := hax j (by omega)
    obtain ⟨d, h1, -, h3, h4, h5⟩ := step_law nwt l clp _ _ x p' u' q v t hp' hu' hq hv ht hpos
      (hidx _ (List.getElem_mem _))
    refine ⟨h3, ?_⟩
    rw [hA.into, hA.into, hA0.back, hA0.back, hA.off] at h1
    have hi : sys[j + 1].tf.toNormal (sys[j].tf.fromNormal u') = (u'.turn (σ j)).turn (σ (j + 1)) := by
      rw [hA.into, hA0.back]
    rw [hi] at h4 h5
    have hs := hA.sign
    have hs0 := hA0.sign
    -- before the surface
    have hin : σ (j + 1) * moment q ((u'.turn (σ j)).turn (σ (j + 1))) = σ j * moment p' u' := by
      rw [h1]
      simp only [moment, V3.turn, add_x, add_y, smul_x, smul_y, sub_x, sub_y]
      rcases hs with hs | hs <;> rcases hs0 with hs0 | hs0 <;> rw [hs, hs0] <;> ring
    have same : (step nwt l clp sys[j + 1] (rayOfRow sys[j] x)).1.n = x.n ∧
        v = (u'.turn (σ j)).turn (σ (j + 1)) →
        σ (j + 1) * ((step nwt l clp sys[j + 1] (rayOfRow sys[j] x)).1.n * moment q v) =
        σ j * (x.n * moment p' u') := by
      rintro ⟨e1, e2⟩
      rw [e1, e2]
      linear_combination x.n * hin
    by_cases hact : ∃ sh m, Acts sys[j + 1] sh m
    · obtain ⟨sh, m, hact⟩ := hact
      by_cases hid : m.mirror = false ∧ x.n = m.index l
      · exact same ((h5 sh m hact).1 hid)
      · obtain ⟨r, g, hr, hg⟩ := (h5 sh m hact).2 hid
        have hrad := normal_radial sh q r hr
        have hx' := congrArg V3.x hg
        have hy' := congrArg V3.y hg
        simp only [add_x, add_y, smul_x, smul_y] at hx' hy'
        simp only [moment] at hin ⊢
        linear_combination σ (j + 1) * q.x * hy' - σ (j + 1) * q.y * hx' + x.n * hin +
          σ (j + 1) * g * hrad
    · push Not at hact
      exact same (h4 hact)

/-- C103: a ray that is in a plane with the axis at the object is in a plane with the axis at every element that
it reaches, and a skew ray stays skew. -/
theorem c103_meridional {nwt : Shape.NewtonFn} {l : ℝ} {clp : Bool} {sys : List Elem} {arr out : List Row}
    (hlen : arr.length = sys.length) (hout : gtPropagate nwt sys l clp 1 none arr = some out)
    (σ : ℕ → ℝ) (hax : ∀ j (h : j < sys.length), OnAxis (σ j) sys[j].tf)
    (hidx : ∀ e ∈ sys, ∀ sh m, Acts e sh m → m.mirror = false → 0 < m.index l)
    (a : Row) (p u : V3) (h0 : out[0]? = some a) (hp : a.y = some p) (hu : a.u = some u) (hn : 0 < a.n)
    (j : ℕ) (hj : j < sys.length) (b : Row) (q v : V3) (hb : out[j]? = some b) (hq : b.y = some q)
    (hv : b.u = some v) : moment q v = 0 ↔ moment p u = 0 := by
  obtain ⟨h1, h2⟩ := c103_skew hlen hout σ hax hidx a p u h0 hp hu hn j hj b q v hb hq hv
  have hne : ∀ i (h : i < sys.length), σ i ≠ 0 := by
    intro i h
    rcases (hax i h).sign with h | h <;> rw [h] <;> norm_num
  have hj0 := hne j hj
  have h00 := hne 0 (by omega)
  constructor
  · intro h
    rw [h] at h2
    simpa [h00, hn.ne'] using h2.symm
  · intro h
    rw [h] at h2
    simpa [hj0, h1.ne'] using h2

/-! ## Etendue -/

/-- The matrix of four displacements of a ray in a plane across the z axis: positions and transverse
directions. -/
def phaseMatrix (dp du : Fin 4 → V3) : Matrix (Fin 4) (Fin 4) ℝ :=
  Matrix.of fun k => ![(dp k).x, (dp k).y, (du k).x, (du k).y]

/-- The determinant in terms of the invariants of pairs. -/
theorem phase_det (dp du : Fin 4 → V3) (hz : ∀ k, (dp k).z = 0) :
    (phaseMatrix dp du).det =
      -(((du 0).dot (dp 1) - (du 1).dot (dp 0)) * ((du 2).dot (dp 3) - (du 3).dot (dp 2)) -
        ((du 0).dot (dp 2) - (du 2).dot (dp 0)) * ((du 1).dot (dp 3) - (du 3).dot (dp 1)) +
        ((du 0).dot (dp 3) - (du 3).dot (dp 0)) * ((du 1).dot (dp 2) - (du 2).dot (dp 1))) := by
  simp only [phaseMatrix, Matrix.det_succ_row_zero, Fin.sum_univ_succ, V3.dot, hz]
  simp [Fin.succAbove]
  ring

/-- C103: the etendue of a bundle around a ray, `n^2 dx dy dL dM` with the transverse direction cosines `L` and
`M`, is the same on every two elements where the points of the bundle move in the vertex plane. -/
theorem c103_etendue {nwt : Shape.NewtonFn} {l : ℝ} {clp : Bool} {sys : List Elem} (s : Fin 4 → ℝ)
    (p u : Fin 4 → ℕ → ℝ → V3) (t : Fin 4 → ℕ → ℝ → ℝ) (n : ℕ → ℝ)
    (B : ∀ k, Bundle nwt l clp sys (s k) (p k) (u k) (t k) n) (dp du : ℕ → Fin 4 → V3)
    (hp : ∀ k, ∀ j < sys.length, Curve (p k j) (dp j k) (s k))
    (hu : ∀ k, ∀ j < sys.length, Curve (u k j) (du j k) (s k))
    (P U : V3) (hP : ∀ k, p k 0 (s k) = P) (hU : ∀ k, u k 0 (s k) = U)
    (i j : ℕ) (hi : i < sys.length) (hj : j < sys.length)
    (hiz : ∀ k, (dp i k).z = 0) (hjz : ∀ k, (dp j k).z = 0) :
    n i ^ 2 * (phaseMatrix (dp i) (du i)).det = n j ^ 2 * (phaseMatrix (dp j) (du j)).det := by
  have key : ∀ k m, n i * ((du i k).dot (dp i m) - (du i m).dot (dp i k)) =
      n j * ((du j k).dot (dp j m) - (du j m).dot (dp j k)) := by
    intro k m
    have h := c93_symplectic (B k) (B m) (fun j => dp j k) (fun j => du j k) (fun j => dp j m)
      (fun j => du j m) (hp k) (hu k) (hp m) (hu m) (by rw [hP, hP]) (by rw [hU, hU]) rfl
    rw [h i hi, h j hj]
  rw [phase_det _ _ hiz, phase_det _ _ hjz]
  have h01 := key 0 1
  have h02 := key 0 2
  have h03 := key 0 3
  have h12 := key 1 2
  have h13 := key 1 3
  have h23 := key 2 3
  generalize (du i 0).dot (dp i 1) - (du i 1).dot (dp i 0) = a01 at *
  generalize (du i 0).dot (dp i 2) - (du i 2).dot (dp i 0) = a02 at *
  generalize (du i 0).dot (dp i 3) - (du i 3).dot (dp i 0) = a03 at *
  generalize (du i 1).dot (dp i 2) - (du i 2).dot (dp i 1) = a12 at *
  generalize (du i 1).dot (dp i 3) - (du i 3).dot (dp i 1) = a13 at *
  generalize (du i 2).dot (dp i 3) - (du i 3).dot (dp i 2) = a23 at *
  generalize (du j 0).dot (dp j 1) - (du j 1).dot (dp j 0) = b01 at *
  generalize (du j 0).dot (dp j 2) - (du j 2).dot (dp j 0) = b02 at *
  generalize (du j 0).dot (dp j 3) - (du j 3).dot (dp j 0) = b03 at *
  generalize (du j 1).dot (dp j 2) - (du j 2).dot (dp j 1) = b12 at *
  generalize (du j 1).dot (dp j 3) - (du j 3).dot (dp j 1) = b13 at *
  generalize (du j 2).dot (dp j 3) - (du j 3).dot (dp j 2) = b23 at *
  linear_combination (-(n i * a23)) * h01 - n j * b01 * h23 + n i * a13 * h02 + n j * b02 * h13
    - n i * a12 * h03 - n j * b03 * h12

/-! ## Sharp images of neighbouring points -/

/-- Specification: a family of rays through the ray of the fan `p, u` at `s` that moves the object point with
the velocity `v`; the point on element `k` then has the velocity `w`. -/
def Shifted (nwt : Shape.NewtonFn) (l : ℝ) (clp : Bool) (sys : List Elem) (n0 : ℝ) (P U v : V3) (k : ℕ)
    (w : V3) : Prop :=
  ∃ (p u : ℕ → ℝ → V3) (t : ℕ → ℝ → ℝ) (n : ℕ → ℝ) (x : ℝ), Bundle nwt l clp sys x p u t n ∧ n 0 = n0 ∧
    p 0 x = P ∧ u 0 x = U ∧ (∀ j < sys.length, ∃ dp, Curve (p j) dp x) ∧
    (∀ j < sys.length, ∃ du, Curve (u j) du x) ∧ Curve (p 0) v x ∧ Curve (p k) w x

/-- One ray of the fan: the change of its directions and the shift of the image. -/
theorem shifted_law {nwt : Shape.NewtonFn} {l : ℝ} {clp : Bool} {sys : List Elem} {a b : ℝ}
    {p u : ℕ → ℝ → V3} {t : ℕ → ℝ → ℝ} {n : ℕ → ℝ}
    (B : ∀ s ∈ Set.Ioo a b, Bundle nwt l clp sys s p u t n)
    (hp : ∀ j < sys.length, ∀ s ∈ Set.Ioo a b, ∃ dp, Curve (p j) dp s)
    (hu : ∀ j < sys.length, ∀ s ∈ Set.Ioo a b, ∃ du, Curve (u j) du s)
    (k : ℕ) (hk : k < sys.length) (P Q : V3) (h0 : ∀ s ∈ Set.Ioo a b, p 0 s = P)
    (hQ : ∀ s ∈ Set.Ioo a b, p k s = Q) (s : ℝ) (hs : s ∈ Set.Ioo a b) (v w : V3)
    (hN : Shifted nwt l clp sys (n 0) P (u 0 s) v k w) (du0 duk : V3) (hd0 : Curve (u 0) du0 s)
    (hdk : Curve (u k) duk s) : n k * duk.dot w = n 0 * du0.dot v := by
  obtain ⟨p', u', t', n', x, B', hn', hP', hU', hp', hu', hv, hw⟩ := hN
  classical
  choose! dp hdp using fun j hj => hp j hj s hs
  choose! du hdu using fun j hj => hu j hj s hs
  choose! dp' hdp' using hp'
  choose! du' hdu' using hu'
  have hev : ∀ᶠ x in 𝓝 s, x ∈ Set.Ioo a b := isOpen_Ioo.mem_nhds hs
  have h0' : 0 < sys.length := by omega
  have e0 : dp 0 = 0 := (hdp 0 h0').unique ((Curve.const P).congr (hev.mono h0))
  have ek : dp k = 0 := (hdp k hk).unique ((Curve.const Q).congr (hev.mono hQ))
  have h := c93_symplectic (B s hs) B' dp du dp' du' hdp hdu hdp' hdu' (by rw [h0 s hs, hP']) hU'.symm
    hn'.symm k hk
  rw [e0, ek, (hdp' 0 h0').unique hv, (hdp' k hk).unique hw, (hdu 0 h0').unique hd0,
    (hdu k hk).unique hdk] at h
  simpa [V3.dot] using h

/-- C103: the law of cosines.  Let the rays of a fan from the object point `P` meet in the image point `Q`, and
let the point moved by `v` have a sharp image too, moved by `w`.  Then `n' u' . w - n u . v` is the same for
all rays of the fan.  For `v` and `w` across the axis this is the sine condition of Abbe, along the axis the
condition of Herschel. -/
theorem c103_cosine {nwt : Shape.NewtonFn} {l : ℝ} {clp : Bool} {sys : List Elem} {a b : ℝ}
    {p u : ℕ → ℝ → V3} {t : ℕ → ℝ → ℝ} {n : ℕ → ℝ}
    (B : ∀ s ∈ Set.Ioo a b, Bundle nwt l clp sys s p u t n)
    (hp : ∀ j < sys.length, ∀ s ∈ Set.Ioo a b, ∃ dp, Curve (p j) dp s)
    (hu : ∀ j < sys.length, ∀ s ∈ Set.Ioo a b, ∃ du, Curve (u j) du s)
    (k : ℕ) (hk : k < sys.length) (P Q : V3) (h0 : ∀ s ∈ Set.Ioo a b, p 0 s = P)
    (hQ : ∀ s ∈ Set.Ioo a b, p k s = Q) (v w : V3)
    (hN : ∀ s ∈ Set.Ioo a b, Shifted nwt l clp sys (n 0) P (u 0 s) v k w)
    (s s' : ℝ) (hs : s ∈ Set.Ioo a b) (hs' : s' ∈ Set.Ioo a b) :
    n k * (u k s).dot w - n 0 * (u 0 s).dot v = n k * (u k s').dot w - n 0 * (u 0 s').dot v := by
  have hd : ∀ s ∈ Set.Ioo a b,
      HasDerivAt (fun s => n k * (u k s).dot w - n 0 * (u 0 s).dot v) 0 s := by
    intro s hs
    obtain ⟨du0, h1⟩ := hu 0 (by omega) s hs
    obtain ⟨duk, h2⟩ := hu k hk s hs
    have h := shifted_law B hp hu k hk P Q h0 hQ s hs v w (hN s hs) du0 duk h1 h2
    have e1 := ((h2.dot (Curve.const w)).const_mul (n k)).sub ((h1.dot (Curve.const v)).const_mul (n 0))
    refine e1.congr_deriv ?_
    simp only [V3.dot, zero_x, zero_y, zero_z] at h ⊢
    linear_combination h
  exact isOpen_Ioo.is_const_of_deriv_eq_zero isPreconnected_Ioo
    (fun s hs => (hd s hs).differentiableAt.differentiableWithinAt) (fun s hs => (hd s hs).deriv) hs hs'

/-- C103, the sine condition of Abbe: if moreover one ray of the fan (the axis) is perpendicular to the shifts of
object and image, `n sin U dy = n' sin U' dy'` for all rays of the fan. -/
theorem c103_sine {nwt : Shape.NewtonFn} {l : ℝ} {clp : Bool} {sys : List Elem} {a b : ℝ}
    {p u : ℕ → ℝ → V3} {t : ℕ → ℝ → ℝ} {n : ℕ → ℝ}
    (B : ∀ s ∈ Set.Ioo a b, Bundle nwt l clp sys s p u t n)
    (hp : ∀ j < sys.length, ∀ s ∈ Set.Ioo a b, ∃ dp, Curve (p j) dp s)
    (hu : ∀ j < sys.length, ∀ s ∈ Set.Ioo a b, ∃ du, Curve (u j) du s)
    (k : ℕ) (hk : k < sys.length) (P Q : V3) (h0 : ∀ s ∈ Set.Ioo a b, p 0 s = P)
    (hQ : ∀ s ∈ Set.Ioo a b, p k s = Q) (v w : V3)
    (hN : ∀ s ∈ Set.Ioo a b, Shifted nwt l clp sys (n 0) P (u 0 s) v k w)
    (c : ℝ) (hc : c ∈ Set.Ioo a b) (hcv : (u 0 c).dot v = 0) (hcw : (u k c).dot w = 0)
    (s : ℝ) (hs : s ∈ Set.Ioo a b) : n 0 * (u 0 s).dot v = n k * (u k s).dot w := by
  have h := c103_cosine B hp hu k hk P Q h0 hQ v w hN s c hs hc
  rw [hcv, hcw] at h
  linarith

/-- C103, the converse: if the sine condition holds along the fan with the image shift `w`, the image shift `w'`
by each ray of the fan agrees with `w` in the direction in which the image rays fan out: no tangential coma. -/
theorem c103_coma {nwt : Shape.NewtonFn} {l : ℝ} {clp : Bool} {sys : List Elem} {a b : ℝ}
    {p u : ℕ → ℝ → V3} {t : ℕ → ℝ → ℝ} {n : ℕ → ℝ}
    (B : ∀ s ∈ Set.Ioo a b, Bundle nwt l clp sys s p u t n)
    (hp : ∀ j < sys.length, ∀ s ∈ Set.Ioo a b, ∃ dp, Curve (p j) dp s)
    (hu : ∀ j < sys.length, ∀ s ∈ Set.Ioo a b, ∃ du, Curve (u j) du s)
    (k : ℕ) (hk : k < sys.length) (P Q : V3) (h0 : ∀ s ∈ Set.Ioo a b, p 0 s = P)
    (hQ : ∀ s ∈ Set.Ioo a b, p k s = Q) (v w : V3)
    (hsine : ∀ s ∈ Set.Ioo a b, n 0 * (u 0 s).dot v = n k * (u k s).dot w)
    (s : ℝ) (hs : s ∈ Set.Ioo a b) (w' : V3) (hN : Shifted nwt l clp sys (n 0) P (u 0 s) v k w')
    (du : V3) (hdu : Curve (u k) du s) : du.dot w' = du.dot w := by
  obtain ⟨du0, h1⟩ := hu 0 (by omega) s hs
  have h := shifted_law B hp hu k hk P Q h0 hQ s hs v w' hN du0 du h1 hdu
  have e0 := (h1.dot (Curve.const v)).const_mul (n 0)
  have ek := (hdu.dot (Curve.const w)).const_mul (n k)
  have hev : ∀ᶠ x in 𝓝 s, x ∈ Set.Ioo a b := isOpen_Ioo.mem_nhds hs
  have h2 := e0.unique (ek.congr_of_eventuallyEq (hev.mono hsine))
  have hpos := (B s hs).pos k hk
  have h3 : n k * du.dot w' = n k * du.dot w := by
    simp only [V3.dot, zero_x, zero_y, zero_z] at h h2 ⊢
    linear_combination h + h2
  exact mul_left_cancel₀ hpos.ne' h3

/-! ## Example: a plane mirror -/

namespace MirrorExample

open MalusExample

/-- A plane mirror at the distance 10 and the place of the (virtual) image. -/
noncomputable def flatMirror : Elem := ⟨Transform.update 10 ⟨0, 0, 1⟩ 0, .inf, some ⟨0, 0, none, false⟩,
  some (some ⟨true, false, fun _ => 1⟩)⟩
noncomputable def flatImage : Elem := ⟨Transform.update 10 ⟨0, 0, 1⟩ 0, .inf, none, none⟩

/-- The third direction cosine. -/
noncomputable def third (L M : ℝ) : ℝ := √(1 - (L ^ 2 + M ^ 2))

/-- Positions, directions and paths of the rays of the example. -/
noncomputable def mPos (x y L M : ℝ) : ℕ → V3
  | 1 => ⟨x + 10 / third L M * L, y + 10 / third L M * M, 0⟩
  | _ => ⟨x, y, 0⟩
noncomputable def mAim (L M : ℝ) : ℕ → V3
  | 0 => ⟨L, M, third L M⟩
  | _ => ⟨L, M, -third L M⟩
noncomputable def mPath (L M : ℝ) : ℕ → ℝ
  | 1 => 10 / third L M
  | _ => -10 / third L M

variable {L M : ℝ}

theorem third_pos (h : L ^ 2 + M ^ 2 < 1) : 0 < third L M := Real.sqrt_pos.mpr (by linarith)

theorem third_sq (h : L ^ 2 + M ^ 2 < 1) : third L M * third L M = 1 - (L ^ 2 + M ^ 2) :=
  Real.mul_self_sqrt (by linarith)

theorem mirror_step (nwt : Shape.NewtonFn) (x y : ℝ) (h : L ^ 2 + M ^ 2 < 1) :
    step nwt 1 false flatMirror ⟨some ⟨x, y, 0⟩, some (mAim L M 0), 1⟩ =
      (⟨some (mPos x y L M 1), some (mAim L M 1), 1, some (mAim L M 0), some (mPath L M 1)⟩,
        ⟨some (mPos x y L M 1), some (mAim L M 1), 1⟩) := by
  have hA : OnAxis 1 flatMirror.tf := onAxis_update 10 1 (by norm_num) (.inl rfl)
  have hoff : flatMirror.tf.offset = ⟨0, 0, 10⟩ := by
    rw [hA.off]; simp [flatMirror, Transform.update_distance]
  have hz := third_pos h
  have hturn : ∀ v : V3, v.turn 1 = v := fun v => by ext <;> simp [V3.turn]
  have hint : flatMirror.intercept nwt ((⟨x, y, 0⟩ : V3) - ⟨0, 0, 10⟩) (mAim L M 0) =
      some (mPath L M 1) := by
    simp [Elem.intercept, flatMirror, Shape.intercept, Shape.interceptConic, Shape.interceptPlane, mAim,
      mPath, hz.ne']
  have hr : (⟨0, 0, none, false⟩ : Shape).surfaceNormal (mPos x y L M 1) = some ⟨0, 0, 1⟩ := by
    simp [Shape.surfaceNormal]
  have hy : ((⟨x, y, 0⟩ : V3) - ⟨0, 0, 10⟩) + mPath L M 1 • mAim L M 0 = mPos x y L M 1 := by
    ext <;> simp [mPos, mPath, mAim]
    field_simp
    ring
  have href : refractAt ⟨0, 0, 1⟩ (mAim L M 0) (-1) = some (mAim L M 1) := by
    unfold refractAt
    rw [if_neg (by norm_num)]
    dsimp only
    rw [if_neg (by norm_num [V3.dot]), if_pos rfl]
    congr 1
    simp only [mAim]
    ext <;> simp [V3.dot]
    ring
  unfold Elem.step
  simp only [Option.map_some, hoff, hA.into, hturn, Elem.propagate, Option.bind_some, hint, hy]
  have hs' : flatMirror.shape = some ⟨0, 0, none, false⟩ := rfl
  have hn : getNMu (flatMirror.material.getD none) 1 1 = (1, -1) := rfl
  simp only [hs', hn, refract, Option.bind_some, if_neg (show (-1 : ℝ) ≠ 1 by norm_num), hr, href,
    if_neg (show (-1 : ℝ) ≠ 0 by norm_num), Option.map_some, hA.back, hturn, mul_one, Bool.false_eq_true,
    if_false]

theorem image_step (nwt : Shape.NewtonFn) (x y : ℝ) (h : L ^ 2 + M ^ 2 < 1) :
    (step nwt 1 false flatImage ⟨some (mPos x y L M 1), some (mAim L M 1), 1⟩).1 =
      ⟨some (mPos x y L M 2), some (mAim L M 2), 1, some (mAim L M 2), some (mPath L M 2)⟩ := by
  have hA : OnAxis 1 flatImage.tf := onAxis_update 10 1 (by norm_num) (.inl rfl)
  have hoff : flatImage.tf.offset = ⟨0, 0, 10⟩ := by
    rw [hA.off]; simp [flatImage, Transform.update_distance]
  have hz := third_pos h
  have hturn : ∀ v : V3, v.turn 1 = v := fun v => by ext <;> simp [V3.turn]
  have hint : flatImage.intercept nwt (mPos x y L M 1 - ⟨0, 0, 10⟩) (mAim L M 1) =
      some (mPath L M 2) := by
    simp [Elem.intercept, flatImage, Shape.interceptPlane, mAim, mPath, mPos, hz.ne']
    field_simp
  have hp : mPos x y L M 1 - ⟨0, 0, 10⟩ + mPath L M 2 • mAim L M 1 = mPos x y L M 2 := by
    ext <;> simp [mAim, mPos, mPath] <;> field_simp <;> ring
  have hsh : flatImage.shape = none := rfl
  unfold Elem.step
  simp only [Option.map_some, hoff, hA.into, hturn, Elem.propagate, Option.bind_some, hint, hsh, hp,
    mul_one, Bool.false_eq_true, if_false]
  rfl

theorem mirror_trace (nwt : Shape.NewtonFn) (x y : ℝ) (h : L ^ 2 + M ^ 2 < 1) :
    gtPropagate nwt [exObject, flatMirror, flatImage] 1 false 1 none
      [⟨some ⟨x, y, 0⟩, some (mAim L M 0), 1, none, none⟩, ⟨none, none, 0, none, none⟩,
        ⟨none, none, 0, none, none⟩] =
    some [⟨some ⟨x, y, 0⟩, some (mAim L M 0), 1, none, none⟩,
      ⟨some (mPos x y L M 1), some (mAim L M 1), 1, some (mAim L M 0), some (mPath L M 1)⟩,
      ⟨some (mPos x y L M 2), some (mAim L M 2), 1, some (mAim L M 2), some (mPath L M 2)⟩] := by
  have hO : OnAxis 1 exObject.tf := onAxis_update 0 1 le_rfl (.inl rfl)
  have hturn : ∀ v : V3, v.turn 1 = v := fun v => by ext <;> simp [V3.turn]
  have h0 : rayOfRow exObject ⟨some ⟨x, y, 0⟩, some (mAim L M 0), 1, none, none⟩ =
      ⟨some ⟨x, y, 0⟩, some (mAim L M 0), 1⟩ := by
    simp only [rayOfRow, Option.map_some, hO.back, hturn]
  change some (writeRows _ 1 (Sys.rows nwt 1 false [flatMirror, flatImage] (rayOfRow exObject _))) = _
  rw [h0]
  simp only [Sys.rows, mirror_step nwt x y h, image_step nwt x y h]
  rfl

/-- The skew invariant of a skew ray: `1 * 0.6 - 2 * 0 = 0.6`. -/
example (nwt : Shape.NewtonFn) : moment (mPos 1 2 0 (3 / 5) 1) (mAim 0 (3 / 5) 1) = 3 / 5 := by
  have h : (0 : ℝ) ^ 2 + (3 / 5) ^ 2 < 1 := by norm_num
  have hax : ∀ j (hj : j < [exObject, flatMirror, flatImage].length),
      OnAxis 1 ([exObject, flatMirror, flatImage][j]).tf := by
    intro j hj
    have : j < 3 := hj
    interval_cases j
    · exact onAxis_update 0 1 le_rfl (.inl rfl)
    · exact onAxis_update 10 1 (by norm_num) (.inl rfl)
    · exact onAxis_update 10 1 (by norm_num) (.inl rfl)
  have := (c103_skew (by simp) (mirror_trace nwt 1 2 h) (fun _ => 1) hax (by
    intro e he sh m hA hm
    fin_cases he
    · cases hA.1
    · cases hA.2; cases hm
    · cases hA.1) _ _ _ rfl rfl rfl one_pos 1 (by simp) _ _ _ rfl rfl rfl).2
  simpa [moment, mAim] using this

/-- Families of rays at the mirror. -/
theorem mirrorBundle (nwt : Shape.NewtonFn) (X Y L M : ℝ → ℝ) {s0 : ℝ}
    (h : ∀ᶠ s in 𝓝 s0, L s ^ 2 + M s ^ 2 < 1) :
    Bundle nwt 1 false [exObject, flatMirror, flatImage] s0 (fun j s => mPos (X s) (Y s) (L s) (M s) j)
      (fun j s => mAim (L s) (M s) j) (fun j s => mPath (L s) (M s) j) fun _ => 1 where
  placed := by
    intro e he
    fin_cases he <;> exact reachable_update _ _ _
  index := by
    intro e he sh m hA hm
    fin_cases he
    · cases hA.1
    · cases hA.2; cases hm
    · cases hA.1
  start := one_pos
  unit := by
    filter_upwards [h] with s h
    have := third_sq h
    simp only [mAim, V3.dot]
    linarith
  rays := by
    filter_upwards [h] with s h
    refine ⟨_, _, rfl, mirror_trace nwt (X s) (Y s) h, ?_⟩
    intro j hj
    have : j < 3 := hj
    interval_cases j
    · exact ⟨_, rfl, rfl, rfl, rfl, fun h => absurd h (lt_irrefl 0)⟩
    · exact ⟨_, rfl, rfl, rfl, rfl, fun _ => rfl⟩
    · exact ⟨_, rfl, rfl, rfl, rfl, fun _ => rfl⟩
  sheet := by
    intro j hj sh m hA
    have : j + 1 < 3 := hj
    obtain rfl | rfl : j = 0 ∨ j = 1 := by omega
    · cases hA.1
      filter_upwards [h] with s h
      simp [Shape.surfaceSag, mPos]
    · cases hA.1

theorem mirrorCurves {X Y L M : ℝ → ℝ} {s : ℝ} (h : L s ^ 2 + M s ^ 2 < 1)
    (hX : DifferentiableAt ℝ X s) (hY : DifferentiableAt ℝ Y s) (hL : DifferentiableAt ℝ L s)
    (hM : DifferentiableAt ℝ M s) (j : ℕ) :
    (∃ v, Curve (fun s => mPos (X s) (Y s) (L s) (M s) j) v s) ∧
      ∃ v, Curve (fun s => mAim (L s) (M s) j) v s := by
  have ht : DifferentiableAt ℝ (fun s => third (L s) (M s)) s := by
    unfold third
    refine DifferentiableAt.sqrt ?_ (by linarith)
    fun_prop
  have hne := (third_pos h).ne'
  have hq : DifferentiableAt ℝ (fun s => 10 / third (L s) (M s)) s :=
    (differentiableAt_const _).div ht hne
  constructor
  · match j with
    | 0 => exact ⟨⟨_, _, 0⟩, hX.hasDerivAt, hY.hasDerivAt, hasDerivAt_const _ _⟩
    | 1 => exact ⟨⟨_, _, 0⟩, (hX.add (hq.mul hL)).hasDerivAt, (hY.add (hq.mul hM)).hasDerivAt,
        hasDerivAt_const _ _⟩
    | j + 2 => exact ⟨⟨_, _, 0⟩, hX.hasDerivAt, hY.hasDerivAt, hasDerivAt_const _ _⟩
  · match j with
    | 0 => exact ⟨⟨_, _, _⟩, hL.hasDerivAt, hM.hasDerivAt, ht.hasDerivAt⟩
    | j + 1 => exact ⟨⟨_, _, _⟩, hL.hasDerivAt, hM.hasDerivAt, ht.neg.hasDerivAt⟩

theorem fan_inside {s : ℝ} (hs : s ∈ Set.Ioo (-1 : ℝ) 1) : s ^ 2 + (0 : ℝ) ^ 2 < 1 := by
  nlinarith [hs.1, hs.2]

/-- All hypotheses of `c103_sine`, and so of `c103_cosine`, hold for the fan in the xz plane and shifts along x. -/
example (nwt : Shape.NewtonFn) (s : ℝ) (hs : s ∈ Set.Ioo (-1 : ℝ) 1) :
    1 * (mAim s 0 0).dot ⟨1, 0, 0⟩ = 1 * (mAim s 0 2).dot ⟨1, 0, 0⟩ := by
  have hev : ∀ s ∈ Set.Ioo (-1 : ℝ) 1, ∀ᶠ x in 𝓝 s, x ^ 2 + (0 : ℝ) ^ 2 < 1 := fun s hs =>
    (isOpen_Ioo.eventually_mem hs).mono fun x hx => fan_inside hx
  have hc := fun (j : ℕ) (s : ℝ) (hs : s ∈ Set.Ioo (-1 : ℝ) 1) =>
    mirrorCurves (X := fun _ => 0) (Y := fun _ => 0) (L := fun s => s) (M := fun _ => 0) (fan_inside hs)
      (by fun_prop) (by fun_prop) (by fun_prop) (by fun_prop) j
  refine c103_sine (a := -1) (b := 1)
    (fun s hs => mirrorBundle nwt (fun _ => 0) (fun _ => 0) (fun s => s) (fun _ => 0) (hev s hs))
    (fun j _ s hs => (hc j s hs).1) (fun j _ s hs => (hc j s hs).2) 2 (by simp) 0 0 (fun _ _ => rfl)
    (fun _ _ => rfl) ⟨1, 0, 0⟩ ⟨1, 0, 0⟩ ?_ 0 ⟨by norm_num, by norm_num⟩ (by simp [V3.dot, mAim])
    (by simp [V3.dot, mAim]) s hs
  intro s hs
  have hc' := fun (j : ℕ) =>
    mirrorCurves (X := fun x => x) (Y := fun _ => 0) (L := fun _ => s) (M := fun _ => 0) (s := 0)
      (fan_inside hs) (by fun_prop) (by fun_prop) (by fun_prop) (by fun_prop) j
  exact ⟨_, _, _, _, 0, mirrorBundle nwt (fun x => x) (fun _ => 0) (fun _ => s) (fun _ => 0)
    (Eventually.of_forall fun _ => fan_inside hs), rfl, rfl, rfl, fun j _ => (hc' j).1,
    fun j _ => (hc' j).2, ⟨hasDerivAt_id _, hasDerivAt_const _ _, hasDerivAt_const _ _⟩,
    ⟨hasDerivAt_id _, hasDerivAt_const _ _, hasDerivAt_const _ _⟩⟩

/-- Four families around the ray along the axis of the mirror that displace position and direction. -/
example (nwt : Shape.NewtonFn) : ∃ dp du : ℕ → Fin 4 → V3, (phaseMatrix (dp 0) (du 0)).det = 1 ∧
    (phaseMatrix (dp 2) (du 2)).det = 1 := by
  let c : Fin 4 → Fin 4 → ℝ → ℝ := fun k m x => if k = m then x else 0
  have hd : ∀ k m, DifferentiableAt ℝ (c k m) 0 := by
    intro k m
    by_cases h : k = m
    · simp only [c, h, if_true]; fun_prop
    · simp only [c, h, if_false]; fun_prop
  have h0 : ∀ k m, c k m 0 = 0 := by intro k m; simp [c]
  have hin : ∀ k, ∀ᶠ x in 𝓝 (0 : ℝ), c k 2 x ^ 2 + c k 3 x ^ 2 < 1 := by
    intro k
    have hcont : ContinuousAt (fun x => c k 2 x ^ 2 + c k 3 x ^ 2) 0 :=
      ((hd k 2).continuousAt.pow 2).add ((hd k 3).continuousAt.pow 2)
    exact hcont.eventually_lt continuousAt_const (by simp [h0])
  have hcur := fun (k : Fin 4) (j : ℕ) => mirrorCurves (X := c k 0) (Y := c k 1) (L := c k 2) (M := c k 3)
    (s := 0) (hin k).self_of_nhds (hd k 0) (hd k 1) (hd k 2) (hd k 3) j
  choose dp hdp using fun j k => (hcur k j).1
  choose du hdu using fun j k => (hcur k j).2
  have hcd : ∀ k m, HasDerivAt (c k m) (if k = m then 1 else 0) 0 := by
    intro k m
    by_cases h : k = m
    · simp only [c, h, if_true]; exact hasDerivAt_id _
    · simp only [c, h, if_false]; exact hasDerivAt_const _ _
  have hz : ∀ k, (dp 0 k).z = 0 ∧ (dp 2 k).z = 0 := fun k =>
    ⟨(hdp 0 k).z.unique (hasDerivAt_const _ _), (hdp 2 k).z.unique (hasDerivAt_const _ _)⟩
  have h1 : (phaseMatrix (dp 0) (du 0)).det = 1 := by
    have : phaseMatrix (dp 0) (du 0) = 1 := by
      ext k m
      fin_cases m
      · exact ((hdp 0 k).x.unique (hcd k 0)).trans (Matrix.one_apply).symm
      · exact ((hdp 0 k).y.unique (hcd k 1)).trans (Matrix.one_apply).symm
      · exact ((hdu 0 k).x.unique (hcd k 2)).trans (Matrix.one_apply).symm
      · exact ((hdu 0 k).y.unique (hcd k 3)).trans (Matrix.one_apply).symm
    rw [this, Matrix.det_one]
  refine ⟨dp, du, h1, ?_⟩
  have := c103_etendue (fun _ => 0) _ _ _ (fun _ => 1) (fun k => mirrorBundle nwt (c k 0) (c k 1) (c k 2)
    (c k 3) (hin k)) dp du (fun k j _ => hdp j k) (fun k j _ => hdu j k) 0 ⟨0, 0, third 0 0⟩
    (fun k => by simp only [h0]; rfl) (fun k => by simp only [h0]; rfl) 0 2 (by simp) (by simp)
    (fun k => (hz k).1) (fun k => (hz k).2)
  rw [h1] at this
  linarith

end MirrorExample

end RayOpt
