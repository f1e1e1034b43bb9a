import Verif.Props.BackwardsTilted
import Verif.Props.GaussianModes
import Verif.Props.LimitSystem

/-!
Property C119: parallel plates.
-/

namespace RayOpt

open Sys V3 Transform Elem Shape

/-! ## Specification -/

/-- A plane with the normal `N`, a boundary between two media or an imaginary one; it can be rolled about its normal. -/
structure PlaneAcross (N : V3) (l : ℝ) (e : Elem) : Prop where
  reachable : Reachable e.tf
  normal : e.tf.fromNormal ez = N
  flat : ∀ s, e.shape = some s → s.curvature = 0 ∧ s.aspherics = none
  medium : ∀ m, e.mat = some m → m.mirror = false ∧ 0 < m.index l

/-- Of a ray in the direction `u` in a medium of index `m`: `m • u` differs from `K` along the normal only. -/
structure SameAcross (N K : V3) (u : V3) (m : ℝ) : Prop where
  unit : u.dot u = 1
  forward : 0 ≤ u.dot N
  across : ∃ a : ℝ, m • u = K + a • N

/-! ## Helpers -/

theorem cross_ez_eq {n n' : ℝ} {u v : V3} (h : n' • v.cross ez = n • u.cross ez) :
    n' • v = n • u + (n' * v.z - n * u.z) • ez := by
  have hx := congrArg V3.x h; have hy := congrArg V3.y h
  simp only [V3.cross, ez, smul_x, smul_y] at hx hy
  ext <;> simp only [ez, add_x, add_y, add_z, smul_x, smul_y, smul_z] <;> linarith

theorem fromNormal_scale (t : Transform) (b : V3) (s : ℝ) : t.fromNormal (s • b) = s • t.fromNormal b := by
  have h0 : t.fromNormal 0 = 0 := by
    have := fromNormal_lin t 0 0 (-1)
    rw [show (0 : V3) + (-1 : ℝ) • (0 : V3) = 0 by ext <;> simp] at this
    rw [this]; ext <;> simp
  have := fromNormal_lin t 0 b s
  rw [h0] at this
  rw [show s • b = 0 + s • b by ext <;> simp, this]
  ext <;> simp

theorem add_along (K N : V3) (a b : ℝ) : K + a • N + b • N = K + (a + b) • N := by
  ext <;> simp <;> ring

/-- The direction behind a plane, in the coordinates of the plane. -/
theorem plane_snell (nwt : NewtonFn) (l : ℝ) (clp : Bool) {N : V3} {e : Elem} (hP : PlaneAcross N l e) (y : Option V3)
    {i v : V3} {n : ℝ} (hn : 0 < n) (hi : i.dot i = 1) (hz : 0 ≤ i.z)
    (hv : (e.propagate nwt y (some i) n l clp).u = some v) :
    v.dot v = 1 ∧ 0 ≤ v.z ∧ (e.propagate nwt y (some i) n l clp).n • v.cross ez = n • i.cross ez := by
  have hclip : ∀ p, (if clp = true then clip e.radius p (some i) else some i) = some i ∨
      (if clp = true then clip e.radius p (some i) else some i) = none := by
    intro p
    cases clp with
    | false => left; rfl
    | true =>
      cases p with
      | none => right; rfl
      | some p =>
        simp only [clip, if_true]
        split_ifs
        · left; rfl
        · right; rfl
  unfold Elem.propagate at hv ⊢
  dsimp only at hv ⊢
  generalize (y.bind fun y1 => (some i).bind fun u =>
    ((y.bind fun y => (some i).bind fun u => e.intercept nwt y u).map fun t => y1 + t • u)) = p at hv ⊢
  cases hs : e.shape with
  | none =>
    rw [hs] at hv
    dsimp only at hv ⊢
    rcases hclip p with h | h
    · rw [h] at hv
      cases hv
      exact ⟨hi, hz, rfl⟩
    · rw [h] at hv
      cases hv
  | some s =>
    obtain ⟨hc, ha⟩ := hP.flat s hs
    rw [hs] at hv
    dsimp only at hv ⊢
    rcases hclip p with h | h
    · rw [h] at hv
      have hmu : ∃ n', 0 < n' ∧ getNMu (e.material.getD none) n l = (n', n / n') := by
        cases hm : e.material.getD none with
        | none => exact ⟨n, hn, by rw [div_self hn.ne']; rfl⟩
        | some m =>
          obtain ⟨h1, h2⟩ := hP.medium m hm
          exact ⟨m.index l, h2, by simp [getNMu, h1]⟩
      obtain ⟨n', hn', hmu⟩ := hmu
      rw [hmu] at hv ⊢
      dsimp only at hv ⊢
      rw [if_neg (div_pos hn hn').ne'] at hv
      by_cases h1 : n / n' = 1
      · simp only [refract, Option.bind_some, h1, if_true, Option.some.injEq] at hv
        subst hv
        rw [(div_eq_one_iff_eq hn'.ne').mp h1]
        exact ⟨hi, hz, rfl⟩
      · have hr : refractAt ez i (n / n') = some v := by
          cases p with
          | none => simpa [refract, h1, hc, ha] using hv
          | some p => simpa [refract, h1, Shape.surfaceNormal, hc, ha, ez] using hv
        have hS := (c02_snell hn hn' (r := ez) (by intro h; simpa [ez] using congrArg V3.z h) hi
          (by simpa [V3.dot, ez] using hz) v).mp hr
        exact ⟨hS.unit, by simpa [V3.dot, ez] using hS.side, hS.tangential⟩
    · rw [h] at hv
      simp [refract] at hv

theorem plane_index (nwt : NewtonFn) (l : ℝ) (clp : Bool) {N : V3} {e : Elem} (hP : PlaneAcross N l e) (y u : Option V3)
    {n : ℝ} (hn : 0 < n) : 0 < (e.propagate nwt y u n l clp).n := by
  unfold Elem.propagate
  dsimp only
  cases e.shape with
  | none => exact hn
  | some s =>
    dsimp only
    cases hm : e.material.getD none with
    | none => exact hn
    | some m =>
      obtain ⟨h1, h2⟩ := hP.medium m hm
      simpa [getNMu, h1] using h2

theorem plate_step (nwt : NewtonFn) (l : ℝ) (clp : Bool) {N K : V3} {e : Elem} (hP : PlaneAcross N l e) {r : Ray}
    (hn : 0 < r.n) (hr : ∀ u, r.u = some u → SameAcross N K u r.n) {v : V3} (hv : (step nwt l clp e r).1.u = some v) :
    SameAcross N K (e.tf.fromNormal v) (step nwt l clp e r).1.n := by
  obtain ⟨y, u, n⟩ := r
  cases u with
  | none =>
    simp only [step, Option.map_none] at hv
    rw [(propagate_dead nwt e _ n l clp).2] at hv
    cases hv
  | some u =>
    obtain ⟨hu, hf, a, ha⟩ := hr u rfl
    simp only [step, Option.map_some] at hv ⊢
    have hi : (e.tf.toNormal u).dot (e.tf.toNormal u) = 1 := by rw [(c10_dot hP.reachable u u).2.1, hu]
    have hzz : (e.tf.toNormal u).z = u.dot N := by
      rw [← hP.normal, ← (c10_dot hP.reachable u _).2.1, (c10_inverse hP.reachable ez).2.1]
      simp [V3.dot, ez]
    obtain ⟨h1, h2, h3⟩ := plane_snell nwt l clp hP _ hn hi (by rw [hzz]; exact hf) hv
    refine ⟨by rw [(c10_dot hP.reachable v v).1, h1], ?_, ?_⟩
    · rw [← hP.normal, (c10_dot hP.reachable v _).1]
      simpa [V3.dot, ez] using h2
    · have h4 := congrArg e.tf.fromNormal (cross_ez_eq h3)
      rw [fromNormal_lin, fromNormal_scale, fromNormal_scale, (c10_inverse hP.reachable u).1, hP.normal, ha] at h4
      exact ⟨_, h4.trans (add_along _ _ _ _)⟩

/-! ## The property -/

/-- C119: through any number of parallel plane surfaces the component of the direction across the normal, times the index,
stays what it was, and where the ray is back in its first medium, so is its direction. -/
theorem c119_plates (nwt : NewtonFn) (l : ℝ) (clp : Bool) (obj : Elem) (es : List Elem) {N : V3}
    (hP : ∀ e ∈ es, PlaneAcross N l e) (y : Option V3) {u : V3} {n : ℝ} (hn : 0 < n) (hu : u.dot u = 1)
    (hf : 0 ≤ u.dot N) {k : ℕ} {e : Elem} {x : Row} {v : V3} (he : es[k]? = some e)
    (hx : (Sys.propagate nwt (obj :: es) ⟨y, some u, n⟩ l 1 none clp)[k]? = some x) (hv : x.u = some v) :
    (∃ a : ℝ, x.n • e.tf.fromNormal v = n • u + a • N) ∧ (x.n = n → e.tf.fromNormal v = u) := by
  rw [Sys.propagate, pySlice_one, List.tail_cons] at hx
  have key : ∀ (es : List Elem) (k : ℕ) (r : Ray), (∀ e ∈ es, PlaneAcross N l e) → 0 < r.n →
      (∀ u', r.u = some u' → SameAcross N (n • u) u' r.n) → es[k]? = some e → (rows nwt l clp es r)[k]? = some x →
      PlaneAcross N l e ∧ SameAcross N (n • u) (e.tf.fromNormal v) x.n := by
    intro es
    induction es with
    | nil => intro k r _ _ _ h; simp at h
    | cons e' es ih =>
      intro k r hP hn hr he hx
      have hs := fun v => plate_step nwt l clp (hP e' (by simp)) hn hr (v := v)
      cases k with
      | zero =>
        simp only [List.getElem?_cons_zero, Option.some.injEq, rows] at he hx
        subst he
        refine ⟨hP _ (by simp), ?_⟩
        rw [← hx] at hv ⊢
        exact hs v hv
      | succ k =>
        simp only [List.getElem?_cons_succ, rows] at he hx
        refine ih k _ (fun e h => hP e (by simp [h])) ?_ ?_ he hx
        · exact plane_index nwt l clp (hP e' (by simp)) _ _ hn
        · intro u' hu'
          simp only [step, Option.map_eq_some_iff] at hu'
          obtain ⟨w, hw, rfl⟩ := hu'
          exact hs w hw
  obtain ⟨hPe, h1, h2, a, h3⟩ := key es k ⟨y, some u, n⟩ hP hn
    (by rintro _ ⟨⟩; exact ⟨hu, hf, 0, by ext <;> simp⟩) he hx
  refine ⟨⟨a, h3⟩, fun hxn => ?_⟩
  rw [hxn] at h3
  have hN : N.dot N = 1 := by
    rw [← hPe.normal, (c10_dot hPe.reachable _ _).1]; simp [V3.dot, ez]
  generalize e.tf.fromNormal v = V at *
  have hV : V = u + (a / n) • N := by
    have hx := congrArg V3.x h3; have hy := congrArg V3.y h3; have hz := congrArg V3.z h3
    simp only [add_x, add_y, add_z, smul_x, smul_y, smul_z] at hx hy hz
    ext <;> simp only [add_x, add_y, add_z, smul_x, smul_y, smul_z] <;> field_simp <;> linarith
  generalize a / n = b at hV
  have hVN : V.dot N = u.dot N + b := by
    rw [hV]; simp only [V3.dot, add_x, add_y, add_z, smul_x, smul_y, smul_z] at hN ⊢; linear_combination b * hN
  have hb : b * (b + 2 * u.dot N) = 0 := by
    rw [hV] at h1
    simp only [V3.dot, add_x, add_y, add_z, smul_x, smul_y, smul_z] at h1 hN hu ⊢
    linear_combination h1 - hu - b ^ 2 * hN
  have hb0 : b = 0 := by
    rcases mul_eq_zero.mp hb with h | h
    · exact h
    · rw [hVN] at h2; linarith
  rw [hV, hb0]
  ext <;> simp

/-! ### Paraxial rays -/

open Matrix Parax

/-- A plane that is not tilted, a boundary between two media or an imaginary one. -/
structure PlaneUpright (l : ℝ) (e : Elem) : Prop where
  flat : ∀ s, e.shape = some s → s.curvature = 0 ∧ s.aspherics = none
  bare : e.shape = none → e.mat = none
  tilt : e.tf.angles.x = 0
  roll : e.tf.angles.z = 0
  medium : ∀ m, e.mat = some m → m.mirror = false ∧ 0 < m.index l

/-- The index behind the element. -/
def indexBehind (l n : ℝ) (e : Elem) : ℝ := (e.mat.map fun m => m.index l).getD n

/-- The sum of the distances, each divided by the index of its medium. -/
noncomputable def reducedLength (l : ℝ) : ℝ → List Elem → ℝ
  | _, [] => 0
  | n, e :: es => e.tf.distance / n + reducedLength l (indexBehind l n e) es

theorem plane_matrix {l n : ℝ} (hn : 0 < n) {e : Elem} (h : PlaneUpright l e) :
    0 < indexBehind l n e ∧ e.paraxialMatrix n l = some (indexBehind l n e, transfer (e.tf.distance / n) 1) := by
  have ht : transfer (e.tf.distance / n) 1 = transfer e.tf.distance n := by unfold transfer; rw [div_one]
  rw [ht]
  have hpos : 0 < indexBehind l n e := by
    unfold indexBehind
    cases hm : e.mat with
    | none => exact hn
    | some m => exact (h.medium m hm).2
  refine ⟨hpos, ?_⟩
  unfold Elem.paraxialMatrix
  rw [if_neg hn.ne']
  cases hs : e.shape with
  | none => simp [indexBehind, h.bare hs]
  | some s =>
    obtain ⟨hc, ha⟩ := h.flat s hs
    have hN : e.paraxN n l = indexBehind l n e := by simp [paraxN, index?, hs, indexBehind]
    have hS : surfMat s e.mat e.tf.angles.x n (e.paraxN n l) = some 1 := by
      rw [hN]
      simp only [surfMat, Shape.paraxCurv, ha, hc, Option.bind_some, h.tilt, Real.cos_zero]
      cases hm : e.mat with
      | none => rfl
      | some m =>
        have hmu : 0 < indexBehind l n e / n := div_pos hpos hn
        simp only [(h.medium m hm).1, Bool.false_eq_true, if_false]
        rw [if_neg (by
          push Not
          exact ⟨hmu.ne', one_ne_zero, by nlinarith⟩)]
        have hp : pRoot (indexBehind l n e / n) 1 = indexBehind l n e / n := by
          unfold pRoot
          rw [show (indexBehind l n e / n) ^ 2 + 1 ^ 2 - 1 = (indexBehind l n e / n) ^ 2 by ring, Real.sqrt_sq hmu.le]
        simp only [refractMat, hp, mul_one, mul_zero, zero_mul, zero_div, div_self hmu.ne', div_one]
        congr 1
        rw [← fromBlocks_one]
        congr 1 <;> ext i j <;> fin_cases i <;> fin_cases j <;> simp
    dsimp only
    rw [hS]
    simp only [Option.map_some, hN, one_mul, h.roll]
    rw [rotMat_zero_conj (transfer_decoupled _ _)]

/-- C119: for paraxial rays any number of plane surfaces is a gap of the reduced length, at each of the surfaces. -/
theorem c119_paraxial (l : ℝ) (obj : Elem) (es : List Elem) (hP : ∀ e ∈ es, PlaneUpright l e) (yu : PVec) {n : ℝ}
    (hn : 0 < n) : ∃ L, Sys.propagateParaxial (obj :: es) yu n l 1 none = some L ∧ L.length = es.length ∧
      ∀ k x, L[k]? = some x → x.1 = transfer (reducedLength l n (es.take (k + 1))) 1 *ᵥ yu := by
  rw [Sys.propagateParaxial, pySlice_one, List.tail_cons]
  have key : ∀ (es : List Elem) (n a : ℝ), 0 < n → (∀ e ∈ es, PlaneUpright l e) →
      ∃ L, scanM (fun e s => e.propagateParaxial s.1 s.2 l) es (transfer a 1 *ᵥ yu, n) = some L ∧
      L.length = es.length ∧
      ∀ k x, L[k]? = some x → x.1 = transfer (a + reducedLength l n (es.take (k + 1))) 1 *ᵥ yu := by
    intro es
    induction es with
    | nil => intro n a _ _; exact ⟨[], rfl, rfl, by simp⟩
    | cons e es ih =>
      intro n a hn hP
      obtain ⟨h1, h2⟩ := plane_matrix hn (hP e (by simp))
      have hT : transfer (e.tf.distance / n) 1 *ᵥ (transfer a 1 *ᵥ yu) = transfer (a + e.tf.distance / n) 1 *ᵥ yu := by
        rw [mulVec_mulVec]
        congr 1
        unfold transfer
        rw [fromBlocks_multiply]
        congr 1 <;> ext i j <;> fin_cases i <;> fin_cases j <;> simp
      obtain ⟨L, hL, hl, hk⟩ := ih (indexBehind l n e) (a + e.tf.distance / n) h1 fun e h => hP e (by simp [h])
      refine ⟨(transfer (a + e.tf.distance / n) 1 *ᵥ yu, indexBehind l n e) :: L, ?_, by simp [hl], ?_⟩
      · simp only [scanM, Elem.propagateParaxial, h2, Option.map_some, Option.bind_some, hT]
        simp only [Elem.propagateParaxial] at hL
        rw [hL]; rfl
      · intro k x hx
        cases k with
        | zero =>
          simp only [List.getElem?_cons_zero, Option.some.injEq] at hx
          subst hx
          simp [reducedLength]
        | succ k =>
          rw [List.getElem?_cons_succ] at hx
          rw [hk k x hx, List.take_succ_cons, reducedLength, add_assoc]
  obtain ⟨L, h1, h2, h3⟩ := key es n 0 hn hP
  have h0 : transfer 0 1 *ᵥ yu = yu := by
    have : transfer 0 1 = 1 := by
      unfold transfer
      rw [← fromBlocks_one]
      congr 1
      ext i j; fin_cases i <;> fin_cases j <;> simp
    rw [this, one_mulVec]
  rw [h0] at h1
  exact ⟨L, h1, h2, fun k x hx => by rw [h3 k x hx, zero_add]⟩

/-! ### Examples -/

theorem pane_across (l : ℝ) {d : ℝ} (hd : 0 ≤ d) (m : Material) (hm : m.mirror = false) (hi : 0 < m.index l) :
    PlaneAcross ez l (surf d 0 (some m)) ∧ PlaneUpright l (surf d 0 (some m)) := by
  have hC := surf_cen d 0 (some m) hd
  obtain ⟨h4, -, -⟩ := centred_tf hC.1 hC.2.1 hC.2.2
  refine ⟨⟨hC.1, by simp [Transform.fromNormal, h4, doRotate], ?_, ?_⟩, ⟨?_, ?_, by rw [hC.2.2]; rfl, by rw [hC.2.2]; rfl, ?_⟩⟩
  · rintro s ⟨⟩; exact ⟨rfl, rfl⟩
  · rintro m' h; cases h; exact ⟨hm, hi⟩
  · rintro s ⟨⟩; exact ⟨rfl, rfl⟩
  · rintro ⟨⟩
  · rintro m' h; cases h; exact ⟨hm, hi⟩

theorem pane_step (nwt : NewtonFn) (l : ℝ) {d : ℝ} (hd : 0 ≤ d) (m : Material) (hm : m.mirror = false) {x z n : ℝ}
    {u v : V3} (hz : 0 < u.z) (hy : u.y = 0) (hu : u.dot u = 1) (hn : 0 < n) (hi : 0 < m.index l) (hne : n ≠ m.index l)
    (hS : Snell n (m.index l) ez u v) :
    step nwt l false (surf d 0 (some m)) ⟨some ⟨x, 0, z⟩, some u, n⟩ =
      (⟨some ⟨x + (d - z) / u.z * u.x, 0, 0⟩, some v, m.index l, some u, some ((d - z) / u.z * n)⟩,
        ⟨some ⟨x + (d - z) / u.z * u.x, 0, 0⟩, some v, m.index l⟩) := by
  rw [step_centred nwt l false (surf_cen _ _ _ hd), surf_dist hd]
  have hp : (⟨x, 0, z⟩ : V3) - ⟨0, 0, d⟩ + ((d - z) / u.z) • u = ⟨x + (d - z) / u.z * u.x, 0, 0⟩ := by
    ext <;> simp [hy]
    field_simp; ring
  have ht : (⟨0, 0, none, false⟩ : Shape).intercept nwt ((⟨x, 0, z⟩ : V3) - ⟨0, 0, d⟩) u = some ((d - z) / u.z) := by
    simp only [Shape.intercept, interceptConic, interceptPlane, if_true, hz.ne', if_false, sub_z, neg_sub]
  have h1 : n / m.index l ≠ 1 := fun h => hne ((div_eq_one_iff_eq hi.ne').mp h)
  have := propagate_conic_of nwt (e := surf d 0 (some m)) (clp := false) (l := l) (n := n) (n' := m.index l)
    (mu := n / m.index l) (v := v) rfl rfl (show getNMu (some m) n l = _ by simp [getNMu, hm]) (div_pos hn hi).ne' ht (by simp)
    (by
      simp only [refract, Option.bind_some, h1, if_false, Shape.surfaceNormal, true_and, if_true]
      exact (c02_snell hn hi (r := ez) (by intro h; simpa [ez] using congrArg V3.z h) hu
        (by simpa [V3.dot, ez] using hz.le) v).mpr hS)
  simp only [this, hp]

/-- A slanting ray through a plate of crown glass in air: the hypotheses of `c119_plates` hold and it leaves as it came. -/
example (nwt : NewtonFn) (l : ℝ) :
    (∀ e ∈ [surf 1 0 (some crown), surf 1 0 (some vacuum)], PlaneAcross ez l e) ∧
    ∃ x1 x2, Sys.propagate nwt [surf 0 0 (some vacuum), surf 1 0 (some crown), surf 1 0 (some vacuum)]
      ⟨some ⟨0, 0, 0⟩, some ⟨3 / 5, 0, 4 / 5⟩, 1⟩ l 1 none false = [x1, x2] ∧
      x1.u = some ⟨5 / 13, 0, 12 / 13⟩ ∧ x1.n = 39 / 25 ∧ x2.u = some ⟨3 / 5, 0, 4 / 5⟩ ∧ x2.n = 1 := by
  refine ⟨?_, ?_⟩
  · intro e he
    simp only [List.mem_cons, List.not_mem_nil, or_false] at he
    rcases he with rfl | rfl
    · exact (pane_across l zero_le_one crown rfl (by norm_num [crown])).1
    · exact (pane_across l zero_le_one vacuum rfl (by norm_num [vacuum])).1
  · rw [Sys.propagate, pySlice_one, List.tail_cons]
    have h1 := pane_step nwt l zero_le_one crown rfl (x := 0) (z := 0) (n := 1) (u := ⟨3 / 5, 0, 4 / 5⟩)
      (v := ⟨5 / 13, 0, 12 / 13⟩) (by norm_num) rfl (by norm_num [V3.dot]) one_pos (by norm_num [crown])
      (by norm_num [crown])
      ⟨by norm_num [V3.dot], by ext <;> norm_num [V3.cross, ez, crown], by norm_num [V3.dot, ez]⟩
    have h2 := fun x => pane_step nwt l zero_le_one vacuum rfl (x := x) (z := 0) (n := crown.index l)
      (u := ⟨5 / 13, 0, 12 / 13⟩) (v := ⟨3 / 5, 0, 4 / 5⟩) (by norm_num) rfl (by norm_num [V3.dot]) (by norm_num [crown])
      (by norm_num [vacuum]) (by norm_num [crown, vacuum])
      ⟨by norm_num [V3.dot], by ext <;> norm_num [V3.cross, ez, crown, vacuum], by norm_num [V3.dot, ez]⟩
    simp only [rows, h1, h2]
    exact ⟨_, _, rfl, rfl, rfl, rfl, rfl⟩

/-- `c119_paraxial` for the same plate: its reduced length. -/
example (l : ℝ) (yu : PVec) : ∃ x y, Sys.propagateParaxial
      [surf 0 0 (some vacuum), surf 1 0 (some crown), surf 1 0 (some vacuum)] yu 1 l 1 none = some [x, y] ∧
    y.1 = transfer (1 + 25 / 39) 1 *ᵥ yu := by
  obtain ⟨L, h1, h2, h3⟩ := c119_paraxial l (surf 0 0 (some vacuum)) [surf 1 0 (some crown), surf 1 0 (some vacuum)]
    (by
      intro e he
      simp only [List.mem_cons, List.not_mem_nil, or_false] at he
      rcases he with rfl | rfl
      · exact (pane_across l zero_le_one crown rfl (by norm_num [crown])).2
      · exact (pane_across l zero_le_one vacuum rfl (by norm_num [vacuum])).2) yu one_pos
  obtain ⟨x, y, rfl⟩ := List.length_eq_two.mp h2
  refine ⟨x, y, h1, ?_⟩
  rw [h3 1 y rfl]
  congr 2
  simp only [List.take_succ_cons, List.take_zero, reducedLength, surf_dist zero_le_one]
  simp only [indexBehind, mat, surf, crown, Option.getD_some, Option.map_some]
  norm_num

end RayOpt
