import Verif.Props.Dummy

/-!
Property C117: a surface between two media of the same index is a surface without material.
-/

namespace RayOpt

open Sys V3 Transform Elem Shape Matrix Parax

/-- The element without its material. -/
def bare (e : Elem) : Elem := { e with material := some none }

theorem same_propagate (nwt : NewtonFn) (l : ℝ) (clp : Bool) {e : Elem} {m : Material} (hm : e.mat = some m)
    (hr : m.mirror = false) {n : ℝ} (hn : n ≠ 0) (hi : m.index l = n) (y u : Option V3) :
    e.propagate nwt y u n l clp = (bare e).propagate nwt y u n l clp := by
  have h1 : getNMu (e.material.getD none) n l = (n, 1) := by
    rw [show e.material.getD none = some m from hm]
    simp [getNMu, hr, hi, hn]
  have h2 : getNMu ((bare e).material.getD none) n l = (n, 1) := rfl
  unfold Elem.propagate
  rw [h1, h2]
  rfl

theorem bare_index (nwt : NewtonFn) (l : ℝ) (clp : Bool) (e : Elem) (r : Ray) :
    (step nwt l clp (bare e) r).1.n = r.n := by
  simp only [step]
  unfold Elem.propagate
  cases h : (bare e).shape <;> rfl

/-- C117: a surface whose material has the index of the medium before it does to real rays what it would do without any
material: nothing but to be met.  The index before it is that of its row once the material is taken away. -/
theorem c117_same_index (nwt : NewtonFn) (l : ℝ) (clp : Bool) (obj : Elem) (pre post : List Elem) {e : Elem} {m : Material}
    (hm : e.mat = some m) (hr : m.mirror = false) (hi : m.index l ≠ 0) (r : Ray) {G : List Row} {x : Row}
    (hG : Sys.propagate nwt (obj :: (pre ++ bare e :: post)) r l 1 none clp = G) (hx : G[pre.length]? = some x)
    (hn : x.n = m.index l) : Sys.propagate nwt (obj :: (pre ++ e :: post)) r l 1 none clp = G := by
  rw [Sys.propagate, pySlice_one, List.tail_cons] at hG ⊢
  have hlen : ∀ (es : List Elem) (r : Ray), (rows nwt l clp es r).length = es.length := by
    intro es
    induction es with
    | nil => intro r; rfl
    | cons a es ih => intro r; simp [rows, ih]
  rw [rows_concat] at hG ⊢
  rw [← hG, List.getElem?_append_right (by rw [hlen]), hlen, Nat.sub_self] at hx
  rw [← hG]
  generalize endRay nwt l clp pre r = r' at hx ⊢
  simp only [rows, List.getElem?_cons_zero, Option.some.injEq] at hx ⊢
  have hrn : m.index l = r'.n := by rw [← hn, ← hx, bare_index]
  have hs : step nwt l clp e r' = step nwt l clp (bare e) r' := by
    simp only [step]
    rw [same_propagate nwt l clp hm hr (hrn ▸ hi) hrn]
    rfl
  rw [hs]

/-- C117: so it is for paraxial rays and Gaussian beams, if the surface is tilted by less than a right angle. -/
theorem c117_same_matrix (l : ℝ) {e : Elem} {m : Material} (hm : e.mat = some m) (hr : m.mirror = false) {n : ℝ}
    (hn : 0 < n) (hi : m.index l = n) (ht : 0 < Real.cos e.tf.angles.x) (yu : PVec) (q : QM) :
    e.paraxialMatrix n l = (bare e).paraxialMatrix n l ∧ e.propagateParaxial yu n l = (bare e).propagateParaxial yu n l ∧
      e.propagateGaussian q n l = (bare e).propagateGaussian q n l := by
  have h : e.paraxialMatrix n l = (bare e).paraxialMatrix n l := by
    unfold Elem.paraxialMatrix
    cases hs : e.shape with
    | none => simp [bare, hs]
    | some s =>
      have h1 : e.paraxN n l = n := by
        unfold Elem.paraxN Elem.index?
        simp [hs, hm, hi]
      have h2 : (bare e).paraxN n l = n := by
        unfold Elem.paraxN Elem.index?
        simp [bare, hs, Elem.mat]
      have h3 : surfMat s e.mat e.tf.angles.x n n = surfMat s (bare e).mat (bare e).tf.angles.x n n := by
        have hp : pRoot 1 (Real.cos e.tf.angles.x) = Real.cos e.tf.angles.x := by
          unfold pRoot
          rw [show (1 : ℝ) ^ 2 + Real.cos e.tf.angles.x ^ 2 - 1 = Real.cos e.tf.angles.x ^ 2 by ring, Real.sqrt_sq ht.le]
        have hone : ∀ c, refractMat c n 1 (Real.cos e.tf.angles.x) = 1 := by
          intro c
          unfold refractMat
          simp only [hp, one_mul, div_self ht.ne', sub_self, mul_zero, zero_div, div_one]
          rw [← fromBlocks_one]
          congr 1 <;> ext i j <;> fin_cases i <;> fin_cases j <;> simp
        unfold surfMat
        rw [hm]
        congr 1
        funext c
        simp only [hr, Bool.false_eq_true, if_false, div_self hn.ne', hone, bare, Elem.mat, Option.getD_some]
        rw [if_neg]
        rintro (h | h | h)
        · exact one_ne_zero h
        · exact ht.ne' h
        · have := pow_pos ht 2; linarith
      have hs' : (bare e).shape = some s := hs
      rw [hs']
      dsimp only
      rw [h1, h2, h3]
      rfl
  exact ⟨h, by simp only [Elem.propagateParaxial, h], by simp only [Elem.propagateGaussian, h]⟩

theorem scan_replace {α : Type*} (f : Elem → α → Option α) {b e : Elem} (pre post : List Elem) (s : α) {L : List α} {x : α}
    (hL : scanM f (pre ++ b :: post) s = some L) (hx : L[pre.length]? = some x)
    (hstep : ∀ s, f b s = some x → f e s = some x) : scanM f (pre ++ e :: post) s = some L := by
  induction pre generalizing s L with
  | nil =>
    simp only [List.nil_append, scanM, Option.bind_eq_some_iff, Option.map_eq_some_iff] at hL
    obtain ⟨s2, h2, R, hR, rfl⟩ := hL
    simp only [List.length_nil, List.getElem?_cons_zero, Option.some.injEq] at hx
    subst hx
    simp [scanM, hstep s h2, hR]
  | cons a pre ih =>
    simp only [List.cons_append, scanM, Option.bind_eq_some_iff, Option.map_eq_some_iff] at hL
    obtain ⟨s2, h2, R, hR, rfl⟩ := hL
    simp only [List.length_cons, List.getElem?_cons_succ] at hx
    simp [scanM, h2, ih s2 hR hx]

theorem bare_matrix_index {e : Elem} {n l : ℝ} {nm : ℝ × PM} (h : (bare e).paraxialMatrix n l = some nm) : nm.1 = n := by
  rw [paraxialMatrix_fst h]
  unfold Elem.paraxN Elem.index?
  cases hs : (bare e).shape <;> simp [bare, Elem.mat]

/-- C117: the same for the traces of paraxial rays and of Gaussian beams through any system. -/
theorem c117_same_trace (l : ℝ) (obj : Elem) (pre post : List Elem) {e : Elem} {m : Material} (hm : e.mat = some m)
    (hr : m.mirror = false) (hi : 0 < m.index l) (ht : 0 < Real.cos e.tf.angles.x) (n : ℝ) :
    (∀ (yu : PVec) (L : List (PVec × ℝ)) (x : PVec × ℝ),
      Sys.propagateParaxial (obj :: (pre ++ bare e :: post)) yu n l 1 none = some L → L[pre.length]? = some x →
      x.2 = m.index l → Sys.propagateParaxial (obj :: (pre ++ e :: post)) yu n l 1 none = some L) ∧
    ∀ (q : QM) (L : List (QM × ℝ)) (x : QM × ℝ),
      Sys.propagateGaussian (obj :: (pre ++ bare e :: post)) q n l 1 none = some L → L[pre.length]? = some x →
      x.2 = m.index l → Sys.propagateGaussian (obj :: (pre ++ e :: post)) q n l 1 none = some L := by
  constructor
  · intro yu L x hL hx hn
    rw [Sys.propagateParaxial, pySlice_one, List.tail_cons] at hL ⊢
    refine scan_replace _ pre post _ hL hx ?_
    rintro ⟨v, n'⟩ h
    have hn' : n' = m.index l := by
      have h' := h
      simp only [Elem.propagateParaxial, Option.map_eq_some_iff] at h'
      obtain ⟨nm, hnm, rfl⟩ := h'
      rw [← hn, ← bare_matrix_index hnm]
    subst hn'
    rw [← h]
    exact (c117_same_matrix l hm hr hi rfl ht v 0).2.1
  · intro q L x hL hx hn
    rw [Sys.propagateGaussian, pySlice_one, List.tail_cons] at hL ⊢
    refine scan_replace _ pre post _ hL hx ?_
    rintro ⟨v, n'⟩ h
    have hn' : n' = m.index l := by
      have h' := h
      simp only [Elem.propagateGaussian, Option.bind_eq_some_iff, Option.map_eq_some_iff] at h'
      obtain ⟨nm, hnm, q2, hq2, rfl⟩ := h'
      rw [← hn, ← bare_matrix_index hnm]
    subst hn'
    rw [← h]
    exact (c117_same_matrix l hm hr hi rfl ht 0 v).2.2

/-- A sphere of air in air, turned about by 180 degrees. -/
noncomputable def turnedOver : Elem :=
  ⟨Transform.update 0 ez ⟨Real.pi, 0, 0⟩, .inf, some ⟨1, 0, none, false⟩, some (some vacuum)⟩

/-- C117 fails for a surface tilted by more than a right angle, as one that is turned over: between media of the same
index it acts on paraxial rays as a lens, though real rays go straight through it. -/
theorem c117_turned_violation (nwt : NewtonFn) (l : ℝ) : Reachable turnedOver.tf ∧ turnedOver.mat = some vacuum ∧
    vacuum.index l = 1 ∧
    turnedOver.propagateParaxial (Sum.elim ![1, 0] ![0, 0]) 1 l = some (Sum.elim ![1, 0] ![-2, 0], 1) ∧
    (bare turnedOver).propagateParaxial (Sum.elim ![1, 0] ![0, 0]) 1 l = some (Sum.elim ![1, 0] ![0, 0], 1) ∧
    ∀ y u, (turnedOver.propagate nwt y u 1 l false).u = u := by
  have hd : turnedOver.tf.distance = 0 := by unfold turnedOver; rw [update_distance, abs_zero]
  have hz : turnedOver.tf.angles = ⟨Real.pi, 0, 0⟩ := by unfold turnedOver; rw [update_angles]
  have hT : transfer 0 1 = 1 := by
    unfold transfer
    rw [← fromBlocks_one]
    congr 1
    ext i j; fin_cases i <;> fin_cases j <;> simp
  have hsh : turnedOver.shape = some ⟨1, 0, none, false⟩ := rfl
  have hmt : turnedOver.mat = some vacuum := rfl
  have hrot : rotMat 0 = fromBlocks !![1, 0; 0, -1] 0 0 !![1, 0; 0, -1] := by
    unfold rotMat rotBlock; simp
  have hrotT : (!![1, 0; 0, -1] : M2)ᵀ = !![1, 0; 0, -1] := by
    ext i j; fin_cases i <;> fin_cases j <;> simp
  refine ⟨⟨0, ez, ⟨Real.pi, 0, 0⟩, none, [], rfl⟩, rfl, rfl, ?_, ?_, ?_⟩
  · have hp : pRoot 1 (-1) = 1 := by unfold pRoot; norm_num
    have hM : surfMat ⟨1, 0, none, false⟩ (some vacuum) Real.pi 1 1 =
        some (fromBlocks !![1, 0; 0, -1] 0 !![-2, 0; 0, 2] !![1, 0; 0, -1]) := by
      simp only [surfMat, Shape.paraxCurv, Option.bind_some, Real.cos_pi, vacuum, Bool.false_eq_true, if_false, div_one,
        refractMat, hp]
      rw [if_neg (by norm_num)]
      norm_num
    have hN : turnedOver.paraxN 1 l = 1 := rfl
    simp only [Elem.propagateParaxial, Elem.paraxialMatrix, one_ne_zero, if_false, hsh, hmt, hN, hz, hM, Option.map_some,
      hd, hT, mul_one, hrot, fromBlocks_transpose, fromBlocks_multiply, hrotT]
    congr 2
    funext i
    rcases i with i | i <;> fin_cases i <;>
      simp [Matrix.mulVec, dotProduct, Fintype.sum_sum_type, Fin.sum_univ_two]
  · have hN : (bare turnedOver).paraxN 1 l = 1 := rfl
    have hsh' : (bare turnedOver).shape = some ⟨1, 0, none, false⟩ := rfl
    have hmt' : (bare turnedOver).mat = none := rfl
    have htf : (bare turnedOver).tf = turnedOver.tf := rfl
    simp only [Elem.propagateParaxial, Elem.paraxialMatrix, one_ne_zero, if_false, hsh', hmt', hN, htf, hz, surfMat,
      Shape.paraxCurv, Option.bind_some, Option.map_some, hd, hT, mul_one, one_mul, hrot, fromBlocks_transpose,
      fromBlocks_multiply, hrotT]
    congr 2
    funext i
    rcases i with i | i <;> fin_cases i <;>
      simp [Matrix.mulVec, dotProduct, Fintype.sum_sum_type, Fin.sum_univ_two]
  · intro y u
    rw [same_propagate nwt l false hmt rfl one_ne_zero rfl]
    cases u <;> simp [Elem.propagate, bare, turnedOver, getNMu, refract]

/-- The hypotheses of `c117_same_index` and `c117_same_matrix`: a plane of air in air. -/
example (nwt : NewtonFn) (l : ℝ) (r : Ray) (hr : r.n = 1) :
    (surf 1 0 (some vacuum)).mat = some vacuum ∧ vacuum.mirror = false ∧ vacuum.index l = 1 ∧
    0 < Real.cos (surf 1 0 (some vacuum)).tf.angles.x ∧
    ∃ x, (Sys.propagate nwt (surf 0 0 (some vacuum) :: ([] ++ bare (surf 1 0 (some vacuum)) :: [surf 1 1 (some crown)])) r
      l 1 none false)[0]? = some x ∧ x.n = vacuum.index l := by
  refine ⟨rfl, rfl, rfl, ?_, ?_⟩
  · rw [(surf_cen 1 0 _ zero_le_one).2.2]; simp
  · rw [Sys.propagate, pySlice_one, List.tail_cons]
    refine ⟨_, rfl, ?_⟩
    rw [bare_index, hr]
    rfl

/-- A paraxial ray through a sphere of air in air behind the object. -/
example (l : ℝ) (yu : PVec) : 0 < vacuum.index l ∧ 0 < Real.cos (surf 1 0 (some vacuum)).tf.angles.x ∧
    ∃ L x, Sys.propagateParaxial (surf 0 0 (some vacuum) :: ([] ++ bare (surf 1 0 (some vacuum)) :: [])) yu 1 l 1 none =
      some L ∧ L[0]? = some x ∧ x.2 = vacuum.index l := by
  refine ⟨zero_lt_one, ?_, ?_⟩
  · rw [(surf_cen 1 0 _ zero_le_one).2.2]; simp
  · obtain ⟨nm, hnm⟩ : ∃ nm, (bare (surf 1 0 (some vacuum))).paraxialMatrix 1 l = some nm := by
      unfold Elem.paraxialMatrix
      rw [if_neg one_ne_zero]
      exact ⟨_, rfl⟩
    refine ⟨[(nm.2 *ᵥ yu, nm.1)], _, ?_, rfl, bare_matrix_index hnm⟩
    rw [Sys.propagateParaxial, pySlice_one, List.tail_cons]
    simp [scanM, Elem.propagateParaxial, hnm]

end RayOpt
