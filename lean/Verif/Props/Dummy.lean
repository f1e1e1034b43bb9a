import Verif.Props.BackwardsTilted
import Verif.Props.GaussianModes
import Verif.Props.LimitSystem

/-!
Property C117: a surface without material, put into a gap, changes nothing.
-/

namespace RayOpt

open Sys V3 Transform Elem Shape

/-! ## Specification -/

/-- The element moved along its own direction to the distance `d`. -/
noncomputable def moved (e : Elem) (d : ℝ) : Elem := { e with tf := e.tf.setDistance d }

/-- `D` can stand in the gap before `e`: it has no material and is reached in the same direction, and no further. -/
structure InGap (D e : Elem) : Prop where
  reachable : Reachable D.tf
  reachable' : Reachable e.tf
  direction : D.tf.direction = e.tf.direction
  near : D.tf.distance ≤ e.tf.distance
  medium : D.mat = none

/-! ## Helpers -/

theorem moved_tf {e : Elem} (h : Reachable e.tf) {d : ℝ} (hd : 0 ≤ d) :
    (moved e d).tf.offset = d • e.tf.direction ∧ (moved e d).tf.rotNormal = e.tf.rotNormal := by
  obtain ⟨-, h2, h3⟩ := inLine_rev ⟨h, rfl⟩ hd none
  exact ⟨h2, h3⟩

/-- The intersection counted from another point of the ray. -/
theorem intercept_shift (nwt : NewtonFn) {s : Shape} (ha : s.aspherics = none) (y : V3) {u : V3} (hu : u.dot u = 1)
    (t : ℝ) : s.intercept nwt (y + t • u) u = (s.intercept nwt y u).map (· - t) := by
  unfold Shape.intercept
  rw [ha]; dsimp only
  by_cases hc : s.curvature = 0
  · simp only [interceptConic, hc, if_true, interceptPlane]
    by_cases hz : u.z = 0
    · simp [hz]
    · simp only [hz, if_false, Option.map_some, Option.some.injEq, add_z, smul_z]
      field_simp; ring
  · rw [interceptConic_eq s _ u (norm_eq_one hu) hc, interceptConic_eq s y u (norm_eq_one hu) hc]
    dsimp only
    have hd : s.curvature * (u.x * (y + t • u).x + u.y * (y + t • u).y + u.z * (y + t • u).z * (1 + s.conic)) - u.z =
        (s.curvature * (u.x * y.x + u.y * y.y + u.z * y.z * (1 + s.conic)) - u.z) +
          quadCoeff s.curvature s.conic u * t := by
      simp only [quadCoeff, add_x, add_y, add_z, smul_x, smul_y, smul_z]; ring
    have hf : s.curvature * ((y + t • u).x ^ 2 + (y + t • u).y ^ 2 + (y + t • u).z ^ 2 * (1 + s.conic)) -
          2 * (y + t • u).z =
        (s.curvature * (y.x ^ 2 + y.y ^ 2 + y.z ^ 2 * (1 + s.conic)) - 2 * y.z) +
          2 * (s.curvature * (u.x * y.x + u.y * y.y + u.z * y.z * (1 + s.conic)) - u.z) * t +
          quadCoeff s.curvature s.conic u * t ^ 2 := by
      simp only [quadCoeff, add_x, add_y, add_z, smul_x, smul_y, smul_z]; ring
    rw [hd, hf]
    generalize s.curvature * (u.x * y.x + u.y * y.y + u.z * y.z * (1 + s.conic)) - u.z = d
    generalize s.curvature * (y.x ^ 2 + y.y ^ 2 + y.z ^ 2 * (1 + s.conic)) - 2 * y.z = f
    generalize quadCoeff s.curvature s.conic u = e
    rw [show (d + e * t) ^ 2 - e * (f + 2 * d * t + e * t ^ 2) = d ^ 2 - e * f by ring]
    split_ifs with h1 h2
    · rfl
    · rfl
    · simp only [Option.map_some, Option.some.injEq]
      field_simp; ring
    · simp only [Option.map_some, Option.some.injEq]
      field_simp; ring

theorem elem_intercept_shift (nwt : NewtonFn) {e : Elem} (ha : ∀ s, e.shape = some s → s.aspherics = none) (y : V3)
    {u : V3} (hu : u.dot u = 1) (t : ℝ) : e.intercept nwt (y + t • u) u = (e.intercept nwt y u).map (· - t) := by
  unfold Elem.intercept
  cases h : e.shape with
  | none =>
    simp only [interceptPlane]
    by_cases hz : u.z = 0
    · simp [hz]
    · simp only [hz, if_false, Option.map_some, Option.some.injEq, add_z, smul_z]
      field_simp; ring
  | some s => exact intercept_shift nwt (ha s h) y hu t

/-- One surface, reached from another point of the ray. -/
theorem propagate_shift (nwt : NewtonFn) {e : Elem} (ha : ∀ s, e.shape = some s → s.aspherics = none) (y : V3)
    {u : V3} (hu : u.dot u = 1) (t n l : ℝ) (clp : Bool) :
    e.propagate nwt (some (y + t • u)) (some u) n l clp =
      { e.propagate nwt (some y) (some u) n l clp with
        t := (e.propagate nwt (some y) (some u) n l clp).t.map (· - t * n) } := by
  have h := elem_intercept_shift nwt ha y hu t
  have hy : (e.intercept nwt (y + t • u) u).map (fun s => y + t • u + s • u) =
      (e.intercept nwt y u).map (fun s => y + s • u) := by
    rw [h, Option.map_map]
    congr 1
    funext s
    ext <;> simp <;> ring
  have ht : (e.intercept nwt (y + t • u) u).map (· * n) = ((e.intercept nwt y u).map (· * n)).map (· - t * n) := by
    rw [h, Option.map_map, Option.map_map]
    congr 1
    funext s
    simp only [Function.comp]; ring
  unfold Elem.propagate
  simp only [Option.bind_some, hy, ht]
  cases e.shape <;> rfl

/-- Behind the dummy surface. -/
theorem dummy_step (nwt : NewtonFn) (l : ℝ) (clp : Bool) {D e : Elem} (h : InGap D e)
    (ha : ∀ s, e.shape = some s → s.aspherics = none) {y u : V3} (hu : u.dot u = 1) {n : ℝ}
    (hy : (step nwt l clp D ⟨some y, some u, n⟩).1.y ≠ none)
    (hv : (step nwt l clp D ⟨some y, some u, n⟩).1.u ≠ none) :
    ∃ s : ℝ, (step nwt l clp D ⟨some y, some u, n⟩).1.t = some (s * n) ∧
      (step nwt l clp D ⟨some y, some u, n⟩).1.n = n ∧
      (step nwt l clp D ⟨some y, some u, n⟩).1.u = (step nwt l clp D ⟨some y, some u, n⟩).1.i ∧
      step nwt l clp (moved e (e.tf.distance - D.tf.distance)) (step nwt l clp D ⟨some y, some u, n⟩).2 =
        ({ (step nwt l clp e ⟨some y, some u, n⟩).1 with
            t := (step nwt l clp e ⟨some y, some u, n⟩).1.t.map (· - s * n) }, (step nwt l clp e ⟨some y, some u, n⟩).2) := by
  obtain ⟨ho, hr⟩ := moved_tf h.reachable' (sub_nonneg.mpr h.near)
  have hto : (moved e (e.tf.distance - D.tf.distance)).tf.toNormal = e.tf.toNormal := by
    funext x; unfold Transform.toNormal; rw [hr]
  have hfrom : (moved e (e.tf.distance - D.tf.distance)).tf.fromNormal = e.tf.fromNormal := by
    funext x; unfold Transform.fromNormal; rw [hr]
  have hinv := fun x => (c10_inverse h.reachable x).1
  simp only [step, Option.map_some] at hy hv
  obtain ⟨s, hs⟩ := image_propagate nwt l clp h.medium _ _ n hy hv
  have hoD : D.tf.offset = D.tf.distance • e.tf.direction := by rw [(c12_invariant h.reachable).2.2, h.direction]
  have hoe : e.tf.offset = e.tf.distance • e.tf.direction := (c12_invariant h.reachable').2.2
  have hq : e.tf.toNormal (y - D.tf.offset + s • u - (e.tf.distance - D.tf.distance) • e.tf.direction) =
      e.tf.toNormal (y - e.tf.offset) + s • e.tf.toNormal u := by
    rw [← toNormal_lin, hoD, hoe]
    congr 1
    ext <;> simp <;> ring
  have hu' : (e.tf.toNormal u).dot (e.tf.toNormal u) = 1 := by rw [(c10_dot h.reachable' u u).2.1, hu]
  have hp := propagate_shift nwt (e := moved e (e.tf.distance - D.tf.distance)) ha (e.tf.toNormal (y - e.tf.offset)) hu'
    s n l clp
  have hm : ∀ a b, (moved e (e.tf.distance - D.tf.distance)).propagate nwt a b n l clp = e.propagate nwt a b n l clp :=
    fun _ _ => rfl
  rw [hm, hm] at hp
  refine ⟨s, ?_, ?_, ?_, ?_⟩
  · simp only [step, Option.map_some, hs]
  · simp only [step, Option.map_some, hs]
  · simp only [step, Option.map_some, hs]
  · simp only [step, Option.map_some, hs, hto, hfrom, ho, fromNormal_lin, hinv, hq, hm, hp]

/-! ## The property -/

/-- A surface without material in a gap changes no other row of the trace; the optical path over the gap is divided, and
its sum is what it was.  The surface behind the gap is a conic or a plane, the dummy surface has any shape that the ray
meets; all other elements are arbitrary. -/
theorem c117_real (nwt : NewtonFn) (l : ℝ) (clp : Bool) (obj : Elem) (pre post : List Elem) {D e : Elem} (h : InGap D e)
    (ha : ∀ s, e.shape = some s → s.aspherics = none) (r : Ray)
    {F G : List Row} (hF : F = Sys.propagate nwt (obj :: (pre ++ e :: post)) r l 1 none clp)
    (hG : G = Sys.propagate nwt
      (obj :: (pre ++ D :: moved e (e.tf.distance - D.tf.distance) :: post)) r l 1 none clp)
    (hin : ∀ x, F[pre.length]? = some x → ∃ i, x.i = some i ∧ i.dot i = 1)
    (hmeet : ∀ x, G[pre.length]? = some x → x.y ≠ none ∧ x.u ≠ none) :
    ∃ (x d x' : Row), F[pre.length]? = some x ∧
      G = F.take pre.length ++ d :: x' :: F.drop (pre.length + 1) ∧
      x'.y = x.y ∧ x'.u = x.u ∧ x'.n = x.n ∧ x'.i = x.i ∧ d.u = d.i ∧
      ∃ s, d.t = some s ∧ x.t = x'.t.map (s + ·) := by
  have hF' : F = rows nwt l clp (pre ++ e :: post) r := by rw [hF, Sys.propagate, pySlice_one, List.tail_cons]
  have hG' : G = rows nwt l clp (pre ++ D :: moved e (e.tf.distance - D.tf.distance) :: post) r := by
    rw [hG, Sys.propagate, pySlice_one, List.tail_cons]
  rw [rows_concat] at hF' hG'
  have hlen : (rows nwt l clp pre r).length = pre.length := by
    clear hF' hG' hF hG hin hmeet
    induction pre generalizing r with
    | nil => rfl
    | cons e es ih => simp [rows, ih]
  generalize rows nwt l clp pre r = P at *
  generalize endRay nwt l clp pre r = R at *
  obtain ⟨y, u, n⟩ := R
  have hx : F[pre.length]? = some (step nwt l clp e ⟨y, u, n⟩).1 := by
    rw [hF', ← hlen, List.getElem?_append_right le_rfl]; simp [rows]
  have hd : G[pre.length]? = some (step nwt l clp D ⟨y, u, n⟩).1 := by
    rw [hG', ← hlen, List.getElem?_append_right le_rfl]; simp [rows]
  obtain ⟨i, hi, hi1⟩ := hin _ hx
  obtain ⟨hm1, hm2⟩ := hmeet _ hd
  cases u with
  | none => simp [step] at hi
  | some u =>
    cases y with
    | none =>
      exfalso; apply hm1
      simp only [step, Elem.propagate, Option.map_none, Option.bind_none]
      cases D.shape <;> rfl
    | some y =>
      have hu : u.dot u = 1 := by
        simp only [step, Option.map_some, Option.some.injEq] at hi
        rw [← (c10_dot h.reachable' u u).2.1, hi, hi1]
      obtain ⟨s, h1, h2, h3, h4⟩ := dummy_step nwt l clp h ha hu hm1 hm2
      refine ⟨_, _, { (step nwt l clp e ⟨some y, some u, n⟩).1 with
          t := (step nwt l clp e ⟨some y, some u, n⟩).1.t.map (· - s * n) }, hx, ?_, ?_, ?_, ?_, ?_, h3, s * n, h1, ?_⟩
      · rw [hG', hF', ← hlen, List.take_left, List.drop_append]
        simp only [rows, h4]
        simp
      · rfl
      · rfl
      · rfl
      · rfl
      · dsimp only
        rw [Option.map_map]
        cases (step nwt l clp e ⟨some y, some u, n⟩).1.t <;> simp

/-! ### Paraxial rays and Gaussian beams -/

open Matrix Parax

theorem transfer_comm (phi a n : ℝ) : (rotMat phi)ᵀ * transfer a n = transfer a n * (rotMat phi)ᵀ := by
  rw [rotMat_transpose]
  unfold transfer
  rw [fromBlocks_multiply, fromBlocks_multiply]
  congr 1 <;> ext i j <;> fin_cases i <;> fin_cases j <;> 
    simp [Matrix.mul_apply, Matrix.vecMul, dotProduct, Fin.sum_univ_two] <;> ring

/-- The dummy surface is not rolled, and has a curvature at its vertex. -/
def Plain (D : Elem) : Prop := ∀ sh, D.shape = some sh → D.tf.angles.z = 0 ∧ sh.aspherics ≠ some []

theorem dummy_matrix {D : Elem} (hm : D.mat = none) (hD : Plain D) {n : ℝ} (hn : n ≠ 0) (l : ℝ) :
    D.paraxialMatrix n l = some (n, transfer D.tf.distance n) := by
  unfold Elem.paraxialMatrix
  rw [if_neg hn]
  cases hs : D.shape with
  | none => rfl
  | some sh =>
    obtain ⟨hz, hc⟩ := hD sh hs
    obtain ⟨c, hc⟩ : ∃ c, sh.paraxCurv = some c := by
      unfold Shape.paraxCurv
      split
      · exact ⟨_, rfl⟩
      · next h => exact absurd h hc
      · exact ⟨_, rfl⟩
    have hN : D.paraxN n l = n := by simp [paraxN, index?, hs, hm]
    simp only [surfMat, hc, hm, Option.bind_some, Option.map_some, hN, hz, one_mul]
    rw [rotMat_zero_conj (transfer_decoupled _ _)]

theorem moved_matrix {D e : Elem} (h : InGap D e) {n n' l : ℝ} {M : PM} (hM : e.paraxialMatrix n l = some (n', M)) :
    n ≠ 0 ∧ ∃ M', (moved e (e.tf.distance - D.tf.distance)).paraxialMatrix n l = some (n', M') ∧
      M' * transfer D.tf.distance n = M := by
  obtain ⟨-, hd, ha⟩ := c12_distance h.reachable' (e.tf.distance - D.tf.distance)
  rw [abs_of_nonneg (sub_nonneg.mpr h.near)] at hd
  have hd : (moved e (e.tf.distance - D.tf.distance)).tf.distance = e.tf.distance - D.tf.distance := hd
  have ha : (moved e (e.tf.distance - D.tf.distance)).tf.angles = e.tf.angles := ha
  have hsum : transfer (e.tf.distance - D.tf.distance) n * transfer D.tf.distance n = transfer e.tf.distance n := by
    rw [transfer_add]; congr 1; ring
  unfold Elem.paraxialMatrix at hM ⊢
  by_cases hn : n = 0
  · simp [hn] at hM
  refine ⟨hn, ?_⟩
  rw [if_neg hn] at hM ⊢
  have hsh : (moved e (e.tf.distance - D.tf.distance)).shape = e.shape := rfl
  rw [hsh, hd, ha]
  cases hs : e.shape with
  | none =>
    rw [hs] at hM
    simp only [Option.some.injEq, Prod.mk.injEq] at hM
    obtain ⟨rfl, rfl⟩ := hM
    exact ⟨_, rfl, hsum⟩
  | some sh =>
    rw [hs] at hM
    simp only [Option.map_eq_some_iff, Prod.mk.injEq] at hM ⊢
    obtain ⟨m, hm, h1, h2⟩ := hM
    refine ⟨_, ⟨m, hm, h1, rfl⟩, ?_⟩
    rw [← h2, ← hsum]
    simp only [Matrix.mul_assoc, transfer_comm]

theorem scan_insert {α : Type*} (f : Elem → α → Option α) {D e e' : Elem} (pre post : List Elem) (s : α) (L : List α)
    (hL : scanM f (pre ++ e :: post) s = some L)
    (hstep : ∀ s s2, f e s = some s2 → ∃ x, f D s = some x ∧ f e' x = some s2) :
    ∃ x, scanM f (pre ++ D :: e' :: post) s = some (L.take pre.length ++ x :: L.drop pre.length) := by
  induction pre generalizing s L with
  | nil =>
    simp only [List.nil_append, scanM, Option.bind_eq_some_iff, Option.map_eq_some_iff] at hL
    obtain ⟨s2, h2, R, hR, rfl⟩ := hL
    obtain ⟨x, h3, h4⟩ := hstep s s2 h2
    exact ⟨x, by simp [scanM, h3, h4, hR]⟩
  | cons a pre ih =>
    simp only [List.cons_append, scanM, Option.bind_eq_some_iff, Option.map_eq_some_iff] at hL
    obtain ⟨s2, h2, R, hR, rfl⟩ := hL
    obtain ⟨x, hx⟩ := ih s2 R hR
    exact ⟨x, by simp [scanM, h2, hx]⟩

theorem scan_insert' {α : Type*} (f : Elem → α → Option α) {D e e' : Elem} (pre post : List Elem) (s : α) (L G : List α)
    (hL : scanM f (pre ++ e :: post) s = some L) (hG : scanM f (pre ++ D :: e' :: post) s = some G)
    (hstep : ∀ s s2 x, f e s = some s2 → f D s = some x → f e' x = some s2) :
    ∃ x, G = L.take pre.length ++ x :: L.drop pre.length := by
  induction pre generalizing s L G with
  | nil =>
    simp only [List.nil_append, scanM, Option.bind_eq_some_iff, Option.map_eq_some_iff] at hL hG
    obtain ⟨s2, h2, R, hR, rfl⟩ := hL
    obtain ⟨x, h3, R', ⟨s3, h4, R'', hR'', rfl⟩, rfl⟩ := hG
    have := hstep s s2 x h2 h3
    rw [this, Option.some.injEq] at h4
    subst h4
    rw [hR, Option.some.injEq] at hR''
    subst hR''
    exact ⟨x, by simp⟩
  | cons a pre ih =>
    simp only [List.cons_append, scanM, Option.bind_eq_some_iff, Option.map_eq_some_iff] at hL hG
    obtain ⟨s2, h2, R, hR, rfl⟩ := hL
    obtain ⟨s3, h3, R', hR', rfl⟩ := hG
    rw [h2, Option.some.injEq] at h3
    subst h3
    obtain ⟨x, rfl⟩ := ih s2 R R' hR hR'
    exact ⟨x, by simp⟩

/-- The paraxial trace has one row more and is otherwise unchanged.  All elements but the dummy one are arbitrary. -/
theorem c117_paraxial (obj : Elem) (pre post : List Elem) {D e : Elem} (h : InGap D e) (hD : Plain D) (yu : PVec)
    (n l : ℝ) {L : List (PVec × ℝ)} (hL : Sys.propagateParaxial (obj :: (pre ++ e :: post)) yu n l 1 none = some L) :
    ∃ x, Sys.propagateParaxial (obj :: (pre ++ D :: moved e (e.tf.distance - D.tf.distance) :: post)) yu n l 1 none =
      some (L.take pre.length ++ x :: L.drop pre.length) := by
  rw [Sys.propagateParaxial, pySlice_one, List.tail_cons] at hL ⊢
  refine scan_insert _ pre post _ L hL ?_
  rintro ⟨v, n⟩ s2 h2
  simp only [Elem.propagateParaxial, Option.map_eq_some_iff] at h2 ⊢
  obtain ⟨⟨n', M⟩, hM, rfl⟩ := h2
  obtain ⟨hn, M', hM', hp⟩ := moved_matrix h hM
  refine ⟨_, ⟨_, dummy_matrix h.medium hD hn l, rfl⟩, _, hM', ?_⟩
  simp only [Matrix.mulVec_mulVec, hp]

/-- So has the trace of a Gaussian beam. -/
theorem c117_gaussian (obj : Elem) (pre post : List Elem) {D e : Elem} (h : InGap D e) (hD : Plain D) (q : QM)
    (n l : ℝ) {L G : List (QM × ℝ)} (hL : Sys.propagateGaussian (obj :: (pre ++ e :: post)) q n l 1 none = some L)
    (hG : Sys.propagateGaussian (obj :: (pre ++ D :: moved e (e.tf.distance - D.tf.distance) :: post)) q n l 1 none =
      some G) :
    ∃ x, G = L.take pre.length ++ x :: L.drop pre.length := by
  rw [Sys.propagateGaussian, pySlice_one, List.tail_cons] at hL hG
  refine scan_insert' _ pre post _ L G hL hG ?_
  rintro ⟨v, n⟩ s2 x h2 h3
  simp only [Elem.propagateGaussian, Option.bind_eq_some_iff, Option.map_eq_some_iff] at h2 h3 ⊢
  obtain ⟨⟨n', M⟩, hM, q2, hq2, rfl⟩ := h2
  obtain ⟨hn, M', hM', hp⟩ := moved_matrix h hM
  rw [dummy_matrix h.medium hD hn l] at h3
  obtain ⟨nm, h4, q3, hq3, rfl⟩ := h3
  cases h4
  refine ⟨_, hM', q2, ?_, rfl⟩
  rw [← gaussStep_mul _ _ _ _ hq3, hp]
  exact hq2

/-! ### Examples -/

/-- The plane of the examples. -/
noncomputable def screen (d : ℝ) : Elem := surf d 0 none

theorem screen_gap : InGap (screen (1/2)) (surf 1 1 (some crown)) := by
  refine ⟨(surf_cen _ _ _ (by norm_num)).1, (surf_cen _ _ _ zero_le_one).1, ?_, ?_, rfl⟩
  · rw [show (screen (1/2)).tf.direction = _ from (surf_cen _ _ _ (by norm_num)).2.1, (surf_cen _ _ _ zero_le_one).2.1]
  · rw [show (screen (1/2)).tf.distance = _ from surf_dist (by norm_num) _ _, surf_dist zero_le_one]; norm_num

/-- The hypotheses of `c117_real` hold for a screen half way to the sphere of `ball_rows`. -/
example (nwt : NewtonFn) (l : ℝ) : ∃ (d x' : Row),
    Sys.propagate nwt [surf 0 0 (some vacuum), screen (1/2), moved (surf 1 1 (some crown)) (1 - 1/2), surf 1 0 none]
      ⟨some ⟨0, 3/5, 0⟩, some ez, 1⟩ l 1 none true =
      [d, x', ⟨some ⟨0, 3/5 - 52/63 * (16/65), 0⟩, some ⟨0, -16/65, 63/65⟩, 39/25, some ⟨0, -16/65, 63/65⟩,
        some (52/63 * (39/25))⟩] ∧
    x'.y = some ⟨0, 3/5, 1/5⟩ ∧ x'.u = some ⟨0, -16/65, 63/65⟩ ∧ ∃ s, d.t = some s ∧ some (6/5) = x'.t.map (s + ·) := by
  have hF0 : Sys.propagate nwt (surf 0 0 (some vacuum) :: ([] ++ surf 1 1 (some crown) :: [surf 1 0 none]))
      ⟨some ⟨0, 3/5, 0⟩, some ez, 1⟩ l 1 none true =
      rows nwt l true ([surf 1 1 (some crown)] ++ [surf 1 0 none]) ⟨some ⟨0, 3/5, 0⟩, some ez, 1⟩ := by
    rw [Sys.propagate, pySlice_one, List.tail_cons]
    rfl
  have hF := hF0.trans (ball_rows nwt l)
  have hstep : step nwt l true (screen (1/2)) ⟨some ⟨0, 3/5, 0⟩, some ez, 1⟩ =
      (⟨some ⟨0, 3/5, 0⟩, some ez, 1, some ez, some (1/2)⟩, ⟨some ⟨0, 3/5, 0⟩, some ez, 1⟩) := by
    unfold screen
    rw [step_centred nwt l true (surf_cen _ _ _ (by norm_num)), surf_dist (by norm_num)]
    have hp : (⟨0, 3/5, 0⟩ : V3) - ⟨0, 0, 1/2⟩ + (1/2 : ℝ) • ez = ⟨0, 3/5, 0⟩ := by ext <;> norm_num [ez]
    have ht : (⟨0, 0, none, false⟩ : Shape).intercept nwt ((⟨0, 3/5, 0⟩ : V3) - ⟨0, 0, 1/2⟩) ez = some (1/2) := by
      simp only [Shape.intercept, interceptConic, interceptPlane, ez]
      norm_num
    have := propagate_conic_of nwt (e := surf (1/2) 0 none) (clp := true) (l := l) (n := 1) (n' := 1)
      (mu := 1) (v := ez) rfl rfl rfl one_ne_zero ht
      (by intro _; rw [hp]; simp only [surf, inside]; norm_num) (by simp [refract])
    simp only [this, hp, mul_one]
  obtain ⟨x, d, x', h1, h2, h3, h4, -, -, -, s, h6, h7⟩ := c117_real nwt l true (surf 0 0 (some vacuum)) []
    [surf 1 0 none] screen_gap (by intro s h; cases h; rfl) ⟨some ⟨0, 3/5, 0⟩, some ez, 1⟩ hF.symm rfl
    (by
      intro x hx
      simp only [List.length_nil, List.getElem?_cons_zero, Option.some.injEq] at hx
      subst hx
      exact ⟨ez, rfl, ez_dot⟩)
    (by
      intro x hx
      rw [Sys.propagate, pySlice_one, List.tail_cons] at hx
      simp only [List.nil_append, rows, List.length_nil, List.getElem?_cons_zero, Option.some.injEq, hstep] at hx
      subst hx
      exact ⟨by simp, by simp⟩)
  simp only [List.length_nil, List.getElem?_cons_zero, Option.some.injEq] at h1
  subst h1
  refine ⟨d, x', ?_, h3, h4, s, h6, h7⟩
  rw [show (screen (1/2)).tf.distance = 1/2 from surf_dist (by norm_num) _ _, surf_dist zero_le_one] at h2
  simpa using h2

/-- Those of `c117_paraxial` too: the sphere images through the screen as without it. -/
example (yu : PVec) (l : ℝ) : ∃ x y, Sys.propagateParaxial
      [surf 0 0 (some vacuum), screen (1/2), moved (surf 1 1 (some crown)) (1 - 1/2)] yu 1 l 1 none = some [x, y] ∧
    Sys.propagateParaxial [surf 0 0 (some vacuum), surf 1 1 (some crown)] yu 1 l 1 none = some [y] := by
  have hP : Plain (screen (1/2)) := by
    intro sh h
    cases h
    exact ⟨by rw [show (screen (1/2)).tf.angles = 0 from Transform.update_angles _ _ _]; rfl, by simp⟩
  obtain ⟨y, hy⟩ : ∃ y, Sys.propagateParaxial (surf 0 0 (some vacuum) :: ([] ++ surf 1 1 (some crown) :: [])) yu 1 l 1
      none = some [y] := by
    rw [Sys.propagateParaxial, pySlice_one, List.tail_cons]
    have h1 : Real.cos (surf 1 1 (some crown)).tf.angles.x = 1 := by
      rw [show (surf 1 1 (some crown)).tf.angles = 0 from Transform.update_angles _ _ _]; simp
    have hsh : (surf 1 1 (some crown)).shape = some ⟨1, 0, none, false⟩ := rfl
    have hmt : (surf 1 1 (some crown)).mat = some crown := rfl
    have hmi : crown.mirror = false := rfl
    have hix : crown.index l = 39 / 25 := rfl
    simp only [List.nil_append, scanM, Elem.propagateParaxial, Elem.paraxialMatrix, one_ne_zero, if_false, hsh, hmt,
      surfMat, Shape.paraxCurv, Option.bind_some, h1, paraxN, index?,
      hmi, hix, Option.map_some, Option.getD_some]
    norm_num
  obtain ⟨x, hx⟩ := c117_paraxial (surf 0 0 (some vacuum)) [] [] screen_gap hP yu 1 l hy
  rw [show (screen (1/2)).tf.distance = 1/2 from surf_dist (by norm_num) _ _, surf_dist zero_le_one] at hx
  exact ⟨x, y, by simpa using hx, hy⟩

/-- Those of `c117_gaussian` hold for every physical beam and a screen half way to another one. -/
example (q : QM) (hq : PhysicalBeam q) (l : ℝ) : ∃ x y, Sys.propagateGaussian
      [surf 0 0 (some vacuum), screen (1/2), moved (screen 1) (1 - 1/2)] q 1 l 1 none = some [x, y] ∧
    Sys.propagateGaussian [surf 0 0 (some vacuum), screen 1] q 1 l 1 none = some [y] := by
  have hP : ∀ d, Plain (screen d) := by
    intro d sh h
    cases h
    exact ⟨by rw [show (screen d).tf.angles = 0 from Transform.update_angles _ _ _]; rfl, by simp⟩
  have hd : ∀ d, 0 ≤ d → (screen d).tf.distance = d := fun d h => surf_dist h _ _
  have hg : InGap (screen (1/2)) (screen 1) := by
    refine ⟨(surf_cen _ _ _ (by norm_num)).1, (surf_cen _ _ _ zero_le_one).1, ?_, ?_, rfl⟩
    · rw [show (screen (1/2)).tf.direction = _ from (surf_cen _ _ _ (by norm_num)).2.1,
        show (screen 1).tf.direction = _ from (surf_cen _ _ _ zero_le_one).2.1]
    · rw [hd _ (by norm_num), hd _ zero_le_one]; norm_num
  obtain ⟨q1, h1, -⟩ := c43_physical (transfer_symplectic 1 1) hq
  obtain ⟨q2, h2, hq2⟩ := c43_physical (transfer_symplectic (1/2) 1) hq
  have hM := dummy_matrix (show (screen 1).mat = none from rfl) (hP 1) one_ne_zero l
  have hM2 := dummy_matrix (show (screen (1/2)).mat = none from rfl) (hP _) one_ne_zero l
  obtain ⟨-, M', hM', hp⟩ := moved_matrix hg hM
  rw [hd _ (by norm_num)] at hM2 hp
  rw [hd _ zero_le_one] at hM hp hM'
  rw [hd _ (by norm_num)] at hM'
  have h3 : gaussStep M' q2 = some q1 := by rw [← gaussStep_mul _ _ _ _ h2, hp, h1]
  have hL : Sys.propagateGaussian (surf 0 0 (some vacuum) :: ([] ++ screen 1 :: [])) q 1 l 1 none = some [(q1, 1)] := by
    rw [Sys.propagateGaussian, pySlice_one, List.tail_cons]
    simp [scanM, Elem.propagateGaussian, hM, h1]
  have hG : Sys.propagateGaussian (surf 0 0 (some vacuum) :: ([] ++ screen (1/2) :: moved (screen 1) (1 - 1/2) :: [])) q
      1 l 1 none = some [(q2, 1), (q1, 1)] := by
    rw [Sys.propagateGaussian, pySlice_one, List.tail_cons]
    simp only [List.nil_append, scanM, Elem.propagateGaussian, hM2, Option.bind_some, h2, Option.map_some, hM', h3]
  have h4 := c117_gaussian (surf 0 0 (some vacuum)) [] [] hg (hP _) q 1 l hL
    (by rw [hd 1 zero_le_one, hd (1/2) (by norm_num)]; exact hG)
  obtain ⟨x, hx⟩ := h4
  exact ⟨x, _, by rw [List.nil_append] at hG; rw [hG, hx]; rfl, hL⟩

/-- A plane without material at the distance zero, rolled by 45 degrees. -/
noncomputable def rolled : Elem :=
  ⟨Transform.update 0 ez ⟨0, 0, Real.pi / 4⟩, .inf, some ⟨0, 0, none, false⟩, some none⟩

/-- C117 fails for a rolled surface: in the paraxial trace a plane without material that is only turned about the axis
moves the ray. -/
theorem c117_roll_violation (l : ℝ) : Reachable rolled.tf ∧ rolled.tf.direction = ez ∧ rolled.tf.distance = 0 ∧
    rolled.mat = none ∧
    rolled.propagateParaxial (Sum.elim ![1, 0] ![0, 0]) 1 l = some (Sum.elim ![1, 1] ![0, 0], 1) := by
  have hd : rolled.tf.distance = 0 := by unfold rolled; rw [update_distance, abs_zero]
  have hz : rolled.tf.angles.z = Real.pi / 4 := by unfold rolled; rw [update_angles]
  refine ⟨⟨0, ez, ⟨0, 0, Real.pi / 4⟩, none, [], rfl⟩, ?_, hd, rfl, ?_⟩
  · unfold rolled
    rw [update_direction, updDir_of_unit ez_dot, if_neg (by norm_num)]
  · have hsh : rolled.shape = some ⟨0, 0, none, false⟩ := rfl
    have hmt : rolled.mat = none := rfl
    have hT : transfer 0 1 = 1 := by
      unfold transfer
      rw [← fromBlocks_one]
      congr 1
      ext i j; fin_cases i <;> fin_cases j <;> simp
    have hB := rotBlock_mul_transpose (Real.pi / 4)
    rw [show 2 * (Real.pi / 4) = Real.pi / 2 by ring, Real.sin_pi_div_two] at hB
    simp only [Elem.propagateParaxial, Elem.paraxialMatrix, one_ne_zero, if_false, hsh, hmt, surfMat, Shape.paraxCurv,
      Option.bind_some, Option.map_some, paraxN, index?, Option.map_none, Option.getD_none, hd, hz, hT, one_mul]
    rw [rotMat_transpose]
    unfold rotMat
    rw [fromBlocks_multiply]
    simp only [hB, Matrix.mul_zero, Matrix.zero_mul, add_zero, zero_add]
    congr 2
    funext i
    rcases i with i | i <;> fin_cases i <;> simp [Matrix.mulVec, dotProduct, Fintype.sum_sum_type]

end RayOpt
