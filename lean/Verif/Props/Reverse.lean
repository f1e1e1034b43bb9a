import Verif.Props.System
import Verif.Props.Paraxial

/-!
Property C23: the paraxial matrix of a reversed system.
-/

namespace RayOpt

open Matrix Parax Sys V3 Transform

/-! ## Helpers: matrices -/

/-- Surface of power `-phi` without tilt. -/
noncomputable def powMat (phi : ℝ) : PM := fromBlocks 1 0 !![phi, 0; 0, phi] 1

/-- `diag(1, 1, -1, -1)`: reversing the direction of a ray. -/
noncomputable def flipMat : PM := fromBlocks 1 0 0 (-1)

/-- The matrix of the light path run backwards. -/
noncomputable def backwards (M : PM) : PM := flipMat * M⁻¹ * flipMat

theorem flipMat_sq : flipMat * flipMat = 1 := by
  simp [flipMat, fromBlocks_multiply]

theorem backwards_mul (A B : PM) : backwards (A * B) = backwards B * backwards A := by
  unfold backwards
  rw [Matrix.mul_inv_rev]
  calc flipMat * (B⁻¹ * A⁻¹) * flipMat
      = flipMat * B⁻¹ * (flipMat * flipMat) * A⁻¹ * flipMat := by
        rw [flipMat_sq]; simp only [Matrix.mul_one, Matrix.mul_assoc]
    _ = _ := by simp only [Matrix.mul_assoc]

theorem backwards_one : backwards 1 = 1 := by
  unfold backwards; rw [inv_one, Matrix.mul_one, flipMat_sq]

theorem backwards_transfer (d n : ℝ) : backwards (transfer d n) = transfer d n := by
  unfold backwards
  have : (transfer d n)⁻¹ = transfer (-d) n := by
    apply Matrix.inv_eq_right_inv
    simp only [transfer, fromBlocks_multiply]
    rw [← fromBlocks_one]
    congr 1
    · simp
    · ext i j; fin_cases i <;> fin_cases j <;> simp <;> ring
    · simp
    · simp
  rw [this]
  simp only [transfer, flipMat, fromBlocks_multiply]
  congr 1
  · simp
  · ext i j; fin_cases i <;> fin_cases j <;> simp <;> ring
  · simp
  · simp

theorem backwards_powMat (phi : ℝ) : backwards (powMat phi) = powMat phi := by
  unfold backwards
  have : (powMat phi)⁻¹ = powMat (-phi) := by
    apply Matrix.inv_eq_right_inv
    simp only [powMat, fromBlocks_multiply]
    rw [← fromBlocks_one]
    congr 1
    · simp
    · simp
    · ext i j; fin_cases i <;> fin_cases j <;> simp
    · simp
  rw [this]
  simp only [powMat, flipMat, fromBlocks_multiply]
  congr 1
  · simp
  · simp
  · ext i j; fin_cases i <;> fin_cases j <;> simp
  · simp

theorem rotMat_conj_scalar (a b c d : ℝ) :
    rotMat 0 * (fromBlocks !![a, 0; 0, a] !![b, 0; 0, b] !![c, 0; 0, c] !![d, 0; 0, d]
      * (rotMat 0)ᵀ) = fromBlocks !![a, 0; 0, a] !![b, 0; 0, b] !![c, 0; 0, c] !![d, 0; 0, d] := by
  rw [rotMat_transpose]
  simp only [rotMat, rotBlock, fromBlocks_multiply]
  congr 1 <;>
  · ext i j; fin_cases i <;> fin_cases j <;> simp [Matrix.vecMul, dotProduct, Fin.sum_univ_two]

/-! ## Specification -/

/-- An untilted rotationally symmetric surface. -/
def CentredSurface (e : Elem) : Prop :=
  Reachable e.tf ∧ e.tf.angles.x = 0 ∧ e.tf.angles.z = 0 ∧
    ∃ sh, e.shape = some sh ∧ sh.aspherics ≠ some []

/-- The medium behind the surface is given explicitly, is no mirror, and has index `n > 0`. -/
def MediumAfter (e : Elem) (l n : ℝ) : Prop :=
  ∃ m, e.mat = some m ∧ m.mirror = false ∧ m.index l = n ∧ 0 < n

/-! ## One surface -/

theorem centred_glass {e : Elem} {l n0 n c : ℝ} {sh : Shape} (hx : e.tf.angles.x = 0)
    (hz : e.tf.angles.z = 0) (hs : e.shape = some sh) (hc : sh.paraxCurv = some c)
    (hm : MediumAfter e l n) (h0 : 0 < n0) :
    e.paraxialMatrix n0 l = some (n, powMat (c * (n0 - n)) * transfer e.tf.distance n0) := by
  obtain ⟨m, hm1, hm2, hm3, hn⟩ := hm
  have hN : e.paraxN n0 l = n := by simp [Elem.paraxN, Elem.index?, hs, hm1, hm3]
  unfold Elem.paraxialMatrix
  rw [if_neg h0.ne']
  simp only [hs, hN, hx, hz, hm1]
  have hmu : 0 < n / n0 := by positivity
  have hp : pRoot (n / n0) 1 = n / n0 := by
    unfold pRoot
    rw [show (n / n0) ^ 2 + 1 ^ 2 - 1 = (n / n0) ^ 2 by ring]
    exact Real.sqrt_sq hmu.le
  have hsm : Elem.surfMat sh (some m) 0 n0 n = some (powMat (c * (n0 - n))) := by
    unfold Elem.surfMat
    simp only [hc, Option.bind_some, hm2, Real.cos_zero]
    rw [if_neg (by simp), if_neg]
    · have hmu1 : n / n0 / (n / n0) = 1 := div_self hmu.ne'
      simp only [refractMat, powMat, hp]
      congr 2
      · ext i j; fin_cases i <;> fin_cases j <;> simp [hmu1]
      · ext i j; fin_cases i <;> fin_cases j <;> simp <;> field_simp
      · ext i j; fin_cases i <;> fin_cases j <;> simp [hmu1]
    · rw [not_or, not_or]
      refine ⟨hmu.ne', one_ne_zero, ?_⟩
      rw [not_le]
      have := sq_pos_of_pos hmu
      linarith
  rw [hsm, Option.map_some]
  congr 2
  have := rotMat_conj_scalar 1 (e.tf.distance / n0) (c * (n0 - n))
    (c * (n0 - n) * (e.tf.distance / n0) + 1)
  have hprod : powMat (c * (n0 - n)) * transfer e.tf.distance n0
      = fromBlocks !![1, 0; 0, 1] !![e.tf.distance / n0, 0; 0, e.tf.distance / n0]
          !![c * (n0 - n), 0; 0, c * (n0 - n)]
          !![c * (n0 - n) * (e.tf.distance / n0) + 1, 0; 0,
            c * (n0 - n) * (e.tf.distance / n0) + 1] := by
    simp only [powMat, transfer, fromBlocks_multiply]
    congr 1 <;>
    · ext i j; fin_cases i <;> fin_cases j <;> simp [Matrix.mul_apply, Fin.sum_univ_two]
  rw [hprod, this]

theorem centred_none {e : Elem} {l n0 c : ℝ} {sh : Shape}
    (hz : e.tf.angles.z = 0) (hs : e.shape = some sh) (hc : sh.paraxCurv = some c)
    (hm : e.mat = none) (h0 : 0 < n0) :
    e.paraxialMatrix n0 l = some (n0, transfer e.tf.distance n0) := by
  have hN : e.paraxN n0 l = n0 := by simp [Elem.paraxN, Elem.index?, hs, hm]
  unfold Elem.paraxialMatrix
  rw [if_neg h0.ne']
  simp only [hs, hN, hz, hm]
  have hsm : Elem.surfMat sh none e.tf.angles.x n0 n0 = some 1 := by
    simp [Elem.surfMat, hc]
  rw [hsm, Option.map_some, Matrix.one_mul]
  congr 2
  have := rotMat_conj_scalar 1 (e.tf.distance / n0) 0 1
  have hprod : transfer e.tf.distance n0
      = fromBlocks !![1, 0; 0, 1] !![e.tf.distance / n0, 0; 0, e.tf.distance / n0]
          !![0, 0; 0, 0] !![1, 0; 0, 1] := by
    simp only [transfer]
    congr 1 <;>
    · ext i j; fin_cases i <;> fin_cases j <;> simp
  rw [hprod, this]

/-! ## Chains of surfaces -/

/-- The surfaces `es`, entered from index `n0`, have total matrix `M` and end in index `n`. -/
def Chain (l : ℝ) (es : List Elem) (n0 n : ℝ) (M : PM) : Prop :=
  ∃ ms, matricesFrom l es n0 = some ms ∧ (ms.getLast?.map Prod.fst).getD n0 = n ∧
    (accumulate ms).2 = M

theorem Chain.append {l : ℝ} {a b : List Elem} {n0 n1 n2 : ℝ} {A B : PM}
    (ha : Chain l a n0 n1 A) (hb : Chain l b n1 n2 B) : Chain l (a ++ b) n0 n2 (B * A) := by
  obtain ⟨ma, h1, h2, h3⟩ := ha
  obtain ⟨mb, k1, k2, k3⟩ := hb
  refine ⟨ma ++ mb, ?_, ?_, ?_⟩
  · rw [matricesFrom_append, h1, Option.bind_some, h2, k1]; rfl
  · rw [← k2, List.getLast?_append]
    cases mb.getLast? <;> simp [h2]
  · rw [accumulate_append, k3, h3]

theorem Chain.single {l : ℝ} {e : Elem} {n0 n : ℝ} {M : PM}
    (h : e.paraxialMatrix n0 l = some (n, M)) : Chain l [e] n0 n M := by
  refine ⟨[(n, M)], ?_, rfl, ?_⟩
  · simp [matricesFrom, h]
  · simp [accumulate]

theorem Chain.cons {l : ℝ} {e : Elem} {es : List Elem} {n0 n1 n2 : ℝ} {A B : PM}
    (h : e.paraxialMatrix n0 l = some (n1, A)) (hb : Chain l es n1 n2 B) :
    Chain l (e :: es) n0 n2 (B * A) := (Chain.single h).append hb

theorem Chain.toMatrix {l : ℝ} {e : Elem} {es : List Elem} {n0 n : ℝ} {M : PM} (hes : es ≠ [])
    (h0 : refractiveIndex (e :: es) l 0 = n0) (h : Chain l es n0 n M) :
    paraxialMatrix (e :: es) l 1 none = some (n, M) := by
  obtain ⟨ms, h1, h2, h3⟩ := h
  have hsl : pySlice (e :: es) 1 none = es := by
    simp [pySlice, pyStop, pyBound]
  have hms : ms ≠ [] := by
    rintro rfl
    cases es with
    | nil => exact hes rfl
    | cons a es =>
      simp only [matricesFrom, Option.bind_eq_some_iff, Option.map_eq_some_iff] at h1
      obtain ⟨_, _, _, _, h⟩ := h1
      cases h
  unfold paraxialMatrix paraxialMatrices
  rw [hsl, show (1 : ℤ) - 1 = 0 by norm_num, h0, h1, Option.map_some]
  congr 1
  apply Prod.ext
  · rw [accumulate_fst, ← h2]
    obtain ⟨x, hx⟩ := Option.ne_none_iff_exists'.mp (mt List.getLast?_eq_none_iff.mp hms)
    rw [hx]; rfl
  · exact h3

/-! ## The reversed list, recursively -/

/-- One reversed element with new distance and material. -/
noncomputable def revElem (e : Elem) (d : ℝ) (m : Option Material) : Elem :=
  { e.reverse with tf := e.tf.setDistance d, material := some m }

/-- Distance of the first element, 0 if there is none. -/
noncomputable def headDist (es : List Elem) : ℝ := (es.head?.map fun e => e.tf.distance).getD 0

/-- Recursive description of `reverse`. -/
noncomputable def revAux (pm : Option Material) : List Elem → List Elem
  | [] => []
  | e :: es => revAux e.mat es ++ [revElem e (headDist es) pm]

theorem reverse_eq_revAux (sys : List Elem) : reverse sys = revAux none sys := by
  have hlast : ∀ (l : List (Option Material)) (x : Option Material),
      (none :: (l ++ [x])).getLastD none = x := by
    intro l x
    rw [← List.cons_append, List.getLastD_concat]
  have key : ∀ (es pre : List Elem),
      ((es.zipIdx pre.length).map fun ei : Elem × ℕ =>
        ({ ei.1.reverse with
          tf := ei.1.tf.setDistance
            (((pre ++ es).map (fun e : Elem => e.tf.distance) ++ [(0 : ℝ)]).getD (ei.2 + 1) 0)
          material := some ((none :: (pre ++ es).map Elem.mat).getD ei.2 none) } : Elem)).reverse
      = revAux ((none :: pre.map Elem.mat).getLastD none) es := by
    intro es
    induction es with
    | nil => intro pre; rfl
    | cons e es ih =>
      intro pre
      simp only [List.zipIdx_cons, List.map_cons, List.reverse_cons, revAux]
      have h := ih (pre ++ [e])
      simp only [List.length_append, List.length_singleton, List.append_assoc,
        List.singleton_append, List.map_append, List.map_cons, List.map_nil] at h
      congr 1
      · simp only [List.map_append, List.map_cons, List.append_assoc]
        rw [h]
        congr 1
        exact hlast _ _
      · simp only [List.cons.injEq, and_true, revElem]
        congr 1
        · congr 1
          rw [List.getD_eq_getElem?_getD]
          cases es with
          | nil =>
            rw [List.getElem?_append_right (by simp)]
            simp [headDist]
          | cons f es =>
            rw [List.getElem?_append_left (by simp), List.getElem?_map,
              List.getElem?_append_right (by simp)]
            simp [headDist]
        · congr 1
          rw [List.getD_eq_getElem?_getD]
          cases pre using List.reverseRecOn with
          | nil => simp
          | append_singleton pre p _ =>
            simp only [List.length_append, List.length_singleton, List.getElem?_cons_succ,
              List.append_assoc, List.singleton_append, List.map_append, List.map_cons,
              List.map_nil]
            rw [List.getElem?_append_right (by simp)]
            rw [hlast]
            simp
  have := key sys []
  simpa [reverse] using this

theorem revAux_ne_nil (pm : Option Material) (e : Elem) (es : List Elem) :
    revAux pm (e :: es) ≠ [] := by simp [revAux]

/-- The first element of a reversed list carries the material of the last but one element. -/
theorem revAux_head (pm : Option Material) (es : List Elem) (e : Elem) (d : Elem) :
    ((revAux pm (es ++ [e, d])).head?).map Elem.mat = some e.mat := by
  induction es generalizing pm with
  | nil => simp [revAux, revElem, Elem.mat]
  | cons a es ih =>
    simp only [List.cons_append, revAux]
    have hne : revAux a.mat (es ++ [e, d]) ≠ [] := by
      cases es <;> simp [revAux]
    rw [List.head?_append_of_ne_nil _ hne]
    exact ih _

theorem paraxCurv_reverse {sh : Shape} {c : ℝ} (h : sh.paraxCurv = some c) :
    sh.reverse.paraxCurv = some (-c) := by
  unfold Shape.paraxCurv at *
  unfold Shape.reverse
  cases ha : sh.aspherics with
  | none => simp [ha] at h ⊢; linarith
  | some as =>
    cases as with
    | nil => simp [ha] at h
    | cons a as => simp [ha] at h ⊢; linarith

theorem revElem_dist {e : Elem} (h : Reachable e.tf) {d : ℝ} (hd : 0 ≤ d) (m : Option Material) :
    (revElem e d m).tf.distance = d ∧ (revElem e d m).tf.angles = e.tf.angles := by
  obtain ⟨-, h2, h3⟩ := c12_distance h d
  exact ⟨by rw [show (revElem e d m).tf = e.tf.setDistance d from rfl, h2, abs_of_nonneg hd], h3⟩

/-- Matrix of the reversed surface `e` (paraxial curvature `c`) entered from `n` towards `pm`,
without transfer. -/
noncomputable def revPow (c n : ℝ) (l : ℝ) (pm : Option Material) : PM :=
  match pm with
  | none => 1
  | some m => powMat (-c * (n - m.index l))

theorem rev_chain_single {e : Elem} {sh : Shape} {c n l d : ℝ} (he : CentredSurface e)
    (hs : e.shape = some sh) (hc : sh.paraxCurv = some c) (hn : 0 < n) (hd : 0 ≤ d)
    (pm : Option Material) (hpm : ∀ m, pm = some m → m.mirror = false ∧ 0 < m.index l) :
    Chain l [revElem e d pm] n ((pm.map fun m => m.index l).getD n)
      (revPow c n l pm * transfer d n) := by
  obtain ⟨hR, hx, hz, -⟩ := he
  obtain ⟨hd', ha'⟩ := revElem_dist hR hd pm
  apply Chain.single
  have hs' : (revElem e d pm).shape = some sh.reverse := by simp [revElem, Elem.reverse, hs]
  have hc' := paraxCurv_reverse hc
  have hz' : (revElem e d pm).tf.angles.z = 0 := by rw [ha']; exact hz
  have hx' : (revElem e d pm).tf.angles.x = 0 := by rw [ha']; exact hx
  cases pm with
  | none =>
    rw [centred_none hz' hs' hc' rfl hn, hd']
    simp [revPow]
  | some m =>
    obtain ⟨h1, h2⟩ := hpm m rfl
    rw [centred_glass hx' hz' hs' hc' (n := m.index l) ⟨m, rfl, h1, rfl, h2⟩ hn, hd']
    simp [revPow]

theorem mediumAfter_pm {e : Elem} {l n : ℝ} (h : MediumAfter e l n) :
    ∀ m, e.mat = some m → m.mirror = false ∧ 0 < m.index l := by
  obtain ⟨m, h1, h2, h3, h4⟩ := h
  intro m' hm'
  rw [h1] at hm'; cases hm'
  exact ⟨h2, h3 ▸ h4⟩

theorem reverse_chain (l : ℝ) (img : Elem) (himg : CentredSurface img) (hnone : img.mat = none)
    (mid : List Elem) : ∀ (e : Elem) (n : ℝ) (sh : Shape) (c : ℝ) (pm : Option Material),
    CentredSurface e → MediumAfter e l n → e.shape = some sh → sh.paraxCurv = some c →
    (∀ m, pm = some m → m.mirror = false ∧ 0 < m.index l) →
    (∀ f ∈ mid, CentredSurface f ∧ ∃ n, MediumAfter f l n) →
    ∃ n1 nl M, Chain l (mid ++ [img]) n n1 M ∧
      ((revAux pm (e :: (mid ++ [img]))).head?.bind fun e => e.mat.map fun m => m.index l)
        = some nl ∧
      Chain l (revAux pm (e :: (mid ++ [img]))).tail nl ((pm.map fun m => m.index l).getD n)
        (revPow c n l pm * backwards M) := by
  induction mid with
  | nil =>
    intro e n sh c pm he hm hs hc hpm _
    obtain ⟨hR, hx, hz, shi, hsi, hai⟩ := himg
    obtain ⟨m, hm1, hm2, hm3, hn⟩ := hm
    have hci : ∃ ci, shi.paraxCurv = some ci := by
      unfold Shape.paraxCurv
      match h : shi.aspherics with
      | none => exact ⟨_, rfl⟩
      | some [] => exact absurd h hai
      | some (a :: as) => exact ⟨_, rfl⟩
    obtain ⟨ci, hci⟩ := hci
    refine ⟨n, n, transfer img.tf.distance n, ?_, ?_, ?_⟩
    · exact Chain.single (centred_none hz hsi hci hnone hn)
    · simp [revAux, revElem, Elem.mat] 
      exact ⟨m, hm1, hm3⟩
    · have : (revAux pm (e :: ([] ++ [img]))).tail = [revElem e img.tf.distance pm] := by
        simp [revAux, headDist]
      rw [this, backwards_transfer]
      exact rev_chain_single he hs hc hn (c12_invariant hR).1 pm hpm
  | cons f mid ih =>
    intro e n sh c pm he hm hs hc hpm hmid
    obtain ⟨hf, nf, hmf⟩ := hmid f (by simp)
    obtain ⟨hR, hx, hz, shf, hsf, haf⟩ := hf
    have hcf : ∃ cf, shf.paraxCurv = some cf := by
      unfold Shape.paraxCurv
      match h : shf.aspherics with
      | none => exact ⟨_, rfl⟩
      | some [] => exact absurd h haf
      | some (a :: as) => exact ⟨_, rfl⟩
    obtain ⟨cf, hcf⟩ := hcf
    obtain ⟨n1, nl, M, h1, h2, h3⟩ := ih f nf shf cf e.mat ⟨hR, hx, hz, shf, hsf, haf⟩ hmf hsf hcf
      (mediumAfter_pm hm) (fun g hg => hmid g (by simp [hg]))
    have hn : 0 < n := by obtain ⟨_, _, _, _, h⟩ := hm; exact h
    obtain ⟨me, hme1, hme2, hme3, -⟩ := hm
    refine ⟨n1, nl, M * (powMat (cf * (n - nf)) * transfer f.tf.distance n), ?_, ?_, ?_⟩
    · exact Chain.cons (centred_glass hx hz hsf hcf hmf hn) h1
    · rw [← h2]
      rw [revAux, List.cons_append, List.head?_append_of_ne_nil _ (revAux_ne_nil _ _ _)]
    · rw [revAux, List.cons_append, List.tail_append_of_ne_nil (revAux_ne_nil _ _ _)]
      have hend : ((e.mat.map fun m => m.index l).getD nf) = n := by simp [hme1, hme3]
      rw [hend] at h3
      have h4 := rev_chain_single he hs hc hn (c12_invariant hR).1 pm hpm
      have h5 := h3.append h4
      simp only [headDist, List.head?_cons, Option.map_some, Option.getD_some]
      have hmat : revPow c n l pm * transfer f.tf.distance n * (revPow cf nf l e.mat * backwards M)
          = revPow c n l pm *
            backwards (M * (powMat (cf * (n - nf)) * transfer f.tf.distance n)) := by
        rw [backwards_mul, backwards_mul, backwards_transfer, backwards_powMat]
        have : revPow cf nf l e.mat = powMat (cf * (n - nf)) := by
          simp only [revPow, hme1, hme3]; congr 1; ring
        rw [this]; simp only [Matrix.mul_assoc]
      rw [hmat] at h5
      exact h5

/-! ## C23 -/

/-- The data shared by the theorems: an object surface, any number of refracting surfaces and an
image surface without a material of its own. -/
structure RefractingSystem (obj : Elem) (mid : List Elem) (img : Elem) (l n0 : ℝ) : Prop where
  obj_centred : CentredSurface obj
  obj_medium : MediumAfter obj l n0
  mid_ok : ∀ f ∈ mid, CentredSurface f ∧ ∃ n, MediumAfter f l n
  img_centred : CentredSurface img
  img_none : img.mat = none

/-- C23: for a system of centred refracting surfaces of any length the paraxial matrix of the
reversed system is `J M⁻¹ J`, with `J = diag(1,1,-1,-1)`, and ends in the object medium. -/
theorem c23_matrix {obj : Elem} {mid : List Elem} {img : Elem} {l n0 : ℝ}
    (h : RefractingSystem obj mid img l n0) :
    ∃ n M, paraxialMatrix (obj :: (mid ++ [img])) l 1 none = some (n, M) ∧
      M * M⁻¹ = 1 ∧
      paraxialMatrix (reverse (obj :: (mid ++ [img]))) l 1 none
        = some (n0, flipMat * M⁻¹ * flipMat) := by
  obtain ⟨hR, hx, hz, sh, hs, ha⟩ := h.obj_centred
  have hc : ∃ c, sh.paraxCurv = some c := by
    unfold Shape.paraxCurv
    match h : sh.aspherics with
    | none => exact ⟨_, rfl⟩
    | some [] => exact absurd h ha
    | some (a :: as) => exact ⟨_, rfl⟩
  obtain ⟨c, hc⟩ := hc
  obtain ⟨n1, nl, M, h1, h2, h3⟩ := reverse_chain l img h.img_centred h.img_none mid obj n0 sh c
    none h.obj_centred h.obj_medium hs hc (by simp) h.mid_ok
  have hM := Chain.toMatrix (e := obj) (by simp) (by
    obtain ⟨m, hm1, hm2, hm3, _⟩ := h.obj_medium
    have := refractiveIndex_nat (obj :: (mid ++ [img])) l 0
    simp only [Nat.cast_zero] at this
    rw [this]
    simp [Elem.index?, hs, hm1, hm3]) h1
  refine ⟨n1, M, hM, ?_, ?_⟩
  · have hroll : NoRoll (obj :: (mid ++ [img])) := by
      intro e he _
      have : e.tf.angles.z = 0 := by
        simp only [List.mem_cons, List.mem_append, List.not_mem_nil, or_false] at he
        rcases he with rfl | he | rfl
        · exact hz
        · exact (h.mid_ok e he).1.2.2.1
        · exact h.img_centred.2.2.1
      rw [this]; simp
    have hdet := (c18_symplectic _ l 1 none hroll n1 M hM).2
    exact Matrix.mul_nonsing_inv _ (by rw [hdet]; exact isUnit_one)
  · rw [reverse_eq_revAux]
    cases hr : revAux none (obj :: (mid ++ [img])) with
    | nil => exact absurd hr (revAux_ne_nil _ _ _)
    | cons r rs =>
      rw [hr] at h2 h3
      simp only [List.head?_cons, Option.bind_some, Option.map_eq_some_iff] at h2
      obtain ⟨m, hm1, hm2⟩ := h2
      have hrshape : ∃ s, r.shape = some s := by
        have : ∀ (es : List Elem) pm, (∀ e ∈ es, ∃ s, e.shape = some s) →
            ∀ x ∈ revAux pm es, ∃ s, x.shape = some s := by
          intro es
          induction es with
          | nil => intro pm _ x hx; simp [revAux] at hx
          | cons a es ih =>
            intro pm hall x hx
            simp only [revAux, List.mem_append, List.mem_singleton] at hx
            rcases hx with hx | rfl
            · exact ih _ (fun e he => hall e (by simp [he])) x hx
            · obtain ⟨s, hs⟩ := hall a (by simp)
              exact ⟨s.reverse, by simp [revElem, Elem.reverse, hs]⟩
        refine this (obj :: (mid ++ [img])) none ?_ r (by rw [hr]; simp)
        intro e he
        simp only [List.mem_cons, List.mem_append, List.not_mem_nil, or_false] at he
        rcases he with rfl | he | rfl
        · exact ⟨sh, hs⟩
        · obtain ⟨s, hs', _⟩ := (h.mid_ok e he).1.2.2.2; exact ⟨s, hs'⟩
        · obtain ⟨s, hs', _⟩ := h.img_centred.2.2.2; exact ⟨s, hs'⟩
      obtain ⟨s, hrs⟩ := hrshape
      have hne : rs ≠ [] := by
        have : (r :: rs).length = (obj :: (mid ++ [img])).length := by
          rw [← hr, ← reverse_eq_revAux]; simp [reverse]
        rintro rfl
        simp at this
      have := Chain.toMatrix (e := r) hne (by
        have := refractiveIndex_nat (r :: rs) l 0
        simp only [Nat.cast_zero] at this
        rw [this]
        simp [Elem.index?, hrs, hm1, hm2]) h3
      rw [this]
      simp [revPow, backwards]

/-- A paraxial ray with its direction reversed. -/
def flipRay (v : PVec) : PVec := Sum.elim (fun i => v (.inl i)) (fun i => -v (.inr i))

/-- C23: light runs backwards: the ray that leaves the system, turned round and sent through the
reversed system, comes out as the turned round incoming ray. -/
theorem c23_backwards {obj : Elem} {mid : List Elem} {img : Elem} {l n0 : ℝ}
    (h : RefractingSystem obj mid img l n0) (v : PVec) :
    ∃ n M n' M', paraxialMatrix (obj :: (mid ++ [img])) l 1 none = some (n, M) ∧
      paraxialMatrix (reverse (obj :: (mid ++ [img]))) l 1 none = some (n', M') ∧
      M' *ᵥ flipRay (M *ᵥ v) = flipRay v := by
  obtain ⟨n, M, h1, h2, h3⟩ := c23_matrix h
  refine ⟨n, M, n0, _, h1, h3, ?_⟩
  have hflip : ∀ w : PVec, flipRay w = flipMat *ᵥ w := by
    intro w
    funext i
    rcases i with i | i <;>
      simp [flipRay, flipMat, Matrix.mulVec, dotProduct, Matrix.one_apply]
  have hMM : M⁻¹ * M = 1 := mul_eq_one_comm.mp h2
  rw [hflip, hflip, mulVec_mulVec, mulVec_mulVec]
  congr 1
  calc flipMat * M⁻¹ * flipMat * flipMat * M
      = flipMat * (M⁻¹ * ((flipMat * flipMat) * M)) := by simp only [Matrix.mul_assoc]
    _ = flipMat := by rw [flipMat_sq, Matrix.one_mul, hMM, Matrix.mul_one]

/-- The hypotheses are met by a biconvex lens with an aspheric surface. -/
example (l : ℝ) : RefractingSystem
    ⟨Transform.init 0 ez 0 none, .fin 1, some ⟨0, 0, none, false⟩, some (some vacuum)⟩
    [⟨Transform.init 5 ez 0 none, .fin 1, some ⟨1 / 10, 0, none, false⟩, some (some glass)⟩,
     ⟨Transform.init 1 ez 0 none, .fin 1, some ⟨-1 / 10, 0, some [0, 1], false⟩,
       some (some vacuum)⟩]
    ⟨Transform.init 9 ez 0 none, .fin 1, some ⟨0, 0, none, false⟩, some none⟩ l 1 := by
  have hang : ∀ d, (Transform.init d ez 0 none).angles = 0 := fun d =>
    Transform.update_angles _ _ _
  have hr : ∀ d, Reachable (Transform.init d ez 0 none) := fun d => ⟨d, ez, 0, none, [], rfl⟩
  refine ⟨⟨hr _, by simp [hang], by simp [hang], _, rfl, by simp⟩,
    ⟨vacuum, rfl, rfl, rfl, one_pos⟩, ?_,
    ⟨hr _, by simp [hang], by simp [hang], _, rfl, by simp⟩, rfl⟩
  intro f hf
  simp only [List.mem_cons, List.not_mem_nil, or_false] at hf
  rcases hf with rfl | rfl
  · exact ⟨⟨hr _, by simp [hang], by simp [hang], _, rfl, by simp⟩, 3 / 2,
      glass, rfl, rfl, rfl, by norm_num⟩
  · exact ⟨⟨hr _, by simp [hang], by simp [hang], _, rfl, by simp⟩, 1,
      vacuum, rfl, rfl, rfl, one_pos⟩

/-- An untilted surface. -/
noncomputable def surf (d c : ℝ) (m : Option Material) : Elem :=
  ⟨Transform.init d ez 0 none, .fin 1, some ⟨c, 0, none, false⟩, some m⟩

theorem surf_centred (d c : ℝ) (m : Option Material) : CentredSurface (surf d c m) := by
  have hang : (Transform.init d ez 0 none).angles = 0 := Transform.update_angles _ _ _
  exact ⟨⟨d, ez, 0, none, [], rfl⟩, by simp [surf, hang], by simp [surf, hang], _, rfl, by simp⟩

theorem surf_dist {d : ℝ} (hd : 0 ≤ d) (c : ℝ) (m : Option Material) :
    (surf d c m).tf.distance = d := by
  simp only [surf, Transform.init, update_distance, abs_of_nonneg hd]

theorem surf_glass {d c l n0 : ℝ} (hd : 0 ≤ d) (m : Material) (hm : m.mirror = false)
    (hi : 0 < m.index l) (h0 : 0 < n0) : (surf d c (some m)).paraxialMatrix n0 l
      = some (m.index l, powMat (c * (n0 - m.index l)) * transfer d n0) := by
  obtain ⟨-, hx, hz, -⟩ := surf_centred d c (some m)
  rw [centred_glass (c := c) hx hz rfl rfl ⟨m, rfl, hm, rfl, hi⟩ h0, surf_dist hd]

theorem surf_none {d c l n0 : ℝ} (hd : 0 ≤ d) (h0 : 0 < n0) :
    (surf d c none).paraxialMatrix n0 l = some (n0, transfer d n0) := by
  obtain ⟨-, hx, hz, -⟩ := surf_centred d c none
  rw [centred_none (c := c) hz rfl rfl rfl h0, surf_dist hd]

theorem revElem_surf {d c d' : ℝ} (hd : 0 ≤ d) (m m' : Option Material) :
    revElem (surf d c m) d' m' = surf d' (-c) m' := by
  have h1 : (surf d c m).tf.setDistance d' = Transform.init d' ez 0 none := by
    have hu : ez.dot ez = 1 := ez_dot
    simp only [surf, Transform.init, setDistance, update_direction, update_angles,
      updDir_of_unit hu, if_neg (not_lt.mpr hd)]
  simp only [revElem, h1]
  simp [surf, Elem.reverse, Shape.reverse]

/-- A system with a dummy surface (`material=None`, e.g. a stop) in front of a lens surface. -/
noncomputable def dummySystem : List Elem :=
  [surf 0 0 (some vacuum), surf 1 0 none, surf 1 1 (some glass), surf 1 0 none]

/-- C23 fails when a surface has no material of its own: reversing moves the materials by one
surface, the refracting surface becomes a dummy one and the system loses its power. -/
theorem c23_dummy_violation (l : ℝ) :
    ∃ n M n' M', paraxialMatrix dummySystem l 1 none = some (n, M) ∧
      paraxialMatrix (reverse dummySystem) l 1 none = some (n', M') ∧
      M (.inr 0) (.inl 0) = -1 / 2 ∧ M' (.inr 0) (.inl 0) = 0 ∧
      M' ≠ flipMat * M⁻¹ * flipMat := by
  have gi : glass.index l = 3 / 2 := rfl
  have vi : vacuum.index l = 1 := rfl
  have c1 : Chain l [surf 1 0 none, surf 1 1 (some glass), surf 1 0 none] 1 (3 / 2)
      (transfer 1 (3 / 2) * (powMat (1 * (1 - 3 / 2)) * transfer 1 1) * transfer 1 1) := by
    refine Chain.cons (surf_none zero_le_one one_pos)
      (Chain.cons (n1 := 3 / 2) ?_ (Chain.single ?_))
    · rw [surf_glass zero_le_one glass rfl (by rw [gi]; norm_num) one_pos, gi]
    · exact surf_none zero_le_one (by norm_num)
  have hrev : reverse dummySystem = [surf 0 (-0) (some glass), surf 1 (-1) none,
      surf 1 (-0) (some vacuum), surf 1 (-0) none] := by
    rw [reverse_eq_revAux]
    simp only [dummySystem, revAux, headDist, List.head?_cons, Option.map_some, Option.getD_some,
      List.head?_nil, Option.map_none, Option.getD_none, surf_dist zero_le_one,
      revElem_surf zero_le_one, revElem_surf le_rfl, List.nil_append, List.cons_append]
    rfl
  have c2 : Chain l [surf 1 (-1) none, surf 1 (-0) (some vacuum), surf 1 (-0) none] (3 / 2) 1
      (transfer 1 1 * (powMat (-0 * (3 / 2 - 1)) * transfer 1 (3 / 2)) * transfer 1 (3 / 2)) := by
    refine Chain.cons (surf_none zero_le_one (by norm_num))
      (Chain.cons (n1 := 1) ?_ (Chain.single ?_))
    · rw [surf_glass zero_le_one vacuum rfl (by rw [vi]; norm_num) (by norm_num), vi]
    · exact surf_none zero_le_one one_pos
  have m1 := Chain.toMatrix (e := surf 0 0 (some vacuum)) (by simp) (by
    have := refractiveIndex_nat (surf 0 0 (some vacuum) ::
      [surf 1 0 none, surf 1 1 (some glass), surf 1 0 none]) l 0
    simp only [Nat.cast_zero] at this
    rw [this]
    simp [Elem.index?, surf, Elem.mat, vacuum]) c1
  have m2 := Chain.toMatrix (e := surf 0 (-0) (some glass)) (by simp) (by
    have := refractiveIndex_nat (surf 0 (-0) (some glass) ::
      [surf 1 (-1) none, surf 1 (-0) (some vacuum), surf 1 (-0) none]) l 0
    simp only [Nat.cast_zero] at this
    rw [this]
    simp [Elem.index?, surf, Elem.mat, glass]) c2
  have e1 : (transfer 1 (3 / 2) * (powMat (1 * (1 - 3 / 2)) * transfer 1 1) * transfer 1 1)
      (.inr 0) (.inl 0) = -1 / 2 := by
    simp [transfer, powMat, fromBlocks_multiply]; norm_num
  have e2 : (transfer 1 1 * (powMat (-0 * (3 / 2 - 1)) * transfer 1 (3 / 2)) * transfer 1 (3 / 2))
      (.inr 0) (.inl 0) = 0 := by
    simp [transfer, powMat, fromBlocks_multiply]
  refine ⟨_, _, _, _, m1, by rw [hrev]; exact m2, e1, e2, ?_⟩
  intro heq
  rw [heq] at e2
  have hb : flipMat *
      (transfer 1 (3 / 2) * (powMat (1 * (1 - 3 / 2)) * transfer 1 1) * transfer 1 1)⁻¹ * flipMat
      = transfer 1 1 * (transfer 1 1 * powMat (1 * (1 - 3 / 2)) * transfer 1 (3 / 2)) := by
    have : ∀ A : PM, flipMat * A⁻¹ * flipMat = backwards A := fun _ => rfl
    rw [this, backwards_mul, backwards_mul, backwards_mul, backwards_transfer, backwards_transfer,
      backwards_powMat]
  rw [hb] at e2
  simp [transfer, powMat, fromBlocks_multiply] at e2
  norm_num at e2

end RayOpt
