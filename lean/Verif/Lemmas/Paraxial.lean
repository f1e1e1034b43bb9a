import Verif.Model.Paraxial
import Verif.Lemmas.Trace

/-!
Helper lemmas on paraxial matrices and the propagation loops.
-/

namespace RayOpt

open Matrix Parax Sys

/-! ## Loops -/

theorem pySlice_append {α : Type*} (xs : List α) (a m : ℕ) (stop : Option ℤ) (h1 : a ≤ m)
    (h2 : m ≤ pyStop xs.length stop) :
    pySlice xs a stop = pySlice xs a (some m) ++ pySlice xs m stop := by
  have hl := pyStop_le xs.length stop
  have e1 : pyStop xs.length (some (m : ℤ)) = m := pyBound_nat _ _ (by omega)
  unfold pySlice
  rw [e1, pyBound_nat _ _ (by omega), pyBound_nat _ _ (by omega)]
  generalize pyStop xs.length stop = t at *
  have : xs.take t = xs.take m ++ (xs.take t).drop m := by
    conv_lhs => rw [← List.take_append_drop m (xs.take t)]
    rw [List.take_take, min_eq_left h2]
  conv_lhs => rw [this]
  rw [List.drop_append_of_le_length]
  rw [List.length_take, min_eq_left (by omega)]; exact h1

theorem scanM_append {α : Type*} (f : Elem → α → Option α) (a b : List Elem) (s : α) :
    scanM f (a ++ b) s = (scanM f a s).bind fun o1 =>
      (scanM f b (o1.getLast?.getD s)).map fun o2 => o1 ++ o2 := by
  induction a generalizing s with
  | nil => simp [scanM]
  | cons e a ih =>
    simp only [List.cons_append, scanM]
    cases f e s with
    | none => rfl
    | some s' =>
      simp only [Option.bind_some, ih]
      cases h : scanM f a s' with
      | none => rfl
      | some o1 =>
        simp only [Option.map_some, Option.bind_some]
        have : (s' :: o1).getLast?.getD s = o1.getLast?.getD s' := by
          rw [List.getLast?_cons]; cases o1.getLast? <;> simp
        rw [this]
        cases scanM f b (o1.getLast?.getD s') <;> simp

theorem scanM_length {α : Type*} (f : Elem → α → Option α) (a : List Elem) (s : α) (o : List α)
    (h : scanM f a s = some o) : o.length = a.length := by
  induction a generalizing s o with
  | nil => simp [scanM] at h; simp [← h]
  | cons e a ih =>
    simp only [scanM, Option.bind_eq_some_iff, Option.map_eq_some_iff] at h
    obtain ⟨s', _, r, hr, rfl⟩ := h
    simp [ih _ _ hr]

theorem matricesFrom_append (l : ℝ) (a b : List Elem) (n : ℝ) :
    matricesFrom l (a ++ b) n = (matricesFrom l a n).bind fun o1 =>
      (matricesFrom l b ((o1.getLast?.map Prod.fst).getD n)).map fun o2 => o1 ++ o2 := by
  induction a generalizing n with
  | nil => simp [matricesFrom]
  | cons e a ih =>
    simp only [List.cons_append, matricesFrom]
    cases e.paraxialMatrix n l with
    | none => rfl
    | some nm =>
      simp only [Option.bind_some, ih]
      cases h : matricesFrom l a nm.1 with
      | none => rfl
      | some o1 =>
        simp only [Option.map_some, Option.bind_some]
        have : ((nm :: o1).getLast?.map Prod.fst).getD n
            = (o1.getLast?.map Prod.fst).getD nm.1 := by
          rw [List.getLast?_cons]; cases o1.getLast? <;> simp
        rw [this]
        cases matricesFrom l b ((o1.getLast?.map Prod.fst).getD nm.1) <;> simp

theorem accumulate_foldl (ms : List (ℝ × PM)) (a : ℝ × PM) :
    ms.foldl (fun acc nm => (nm.1, nm.2 * acc.2)) a
      = ((ms.getLast?.map Prod.fst).getD a.1, (accumulate ms).2 * a.2) := by
  have key : ∀ (ms : List (ℝ × PM)) (a : ℝ × PM),
      (ms.foldl (fun acc nm => (nm.1, nm.2 * acc.2)) a).2 = (ms.map Prod.snd).reverse.prod * a.2
      ∧ (ms.foldl (fun acc nm => (nm.1, nm.2 * acc.2)) a).1
        = (ms.getLast?.map Prod.fst).getD a.1 := by
    intro ms
    induction ms with
    | nil => intro a; simp
    | cons m ms ih =>
      intro a
      simp only [List.foldl_cons]
      obtain ⟨h1, h2⟩ := ih (m.1, m.2 * a.2)
      refine ⟨?_, ?_⟩
      · rw [h1]; simp [mul_assoc]
      · rw [h2, List.getLast?_cons]; cases ms.getLast? <;> simp
  apply Prod.ext
  · exact (key ms a).2
  · rw [(key ms a).1]
    unfold accumulate
    rw [(key ms (1, 1)).1]; simp

theorem accumulate_append (a b : List (ℝ × PM)) :
    accumulate (a ++ b)
      = ((b.getLast?.map Prod.fst).getD (accumulate a).1, (accumulate b).2 * (accumulate a).2) := by
  unfold accumulate
  rw [List.foldl_append]
  exact accumulate_foldl b _

theorem accumulate_fst (a : List (ℝ × PM)) :
    (accumulate a).1 = (a.getLast?.map Prod.fst).getD 1 := by
  have := accumulate_foldl a (1, 1)
  unfold accumulate
  rw [this]

/-! ## Refractive index of the spaces -/

theorem refractiveIndex_nat (sys : List Elem) (l : ℝ) (i : ℕ) :
    refractiveIndex sys l i = (((sys.take (i + 1)).reverse).findSome? fun e => e.index? l).getD 1
    := by
  unfold refractiveIndex sliceDown
  rw [if_neg (by omega)]
  simp

theorem refractiveIndex_succ (sys : List Elem) (l : ℝ) (i : ℕ) (e : Elem)
    (h : sys[i + 1]? = some e) :
    refractiveIndex sys l ((i + 1 : ℕ) : ℤ) = (e.index? l).getD (refractiveIndex sys l i) := by
  rw [refractiveIndex_nat, refractiveIndex_nat]
  rw [List.take_add_one (l := sys) (i := i + 1), h]
  simp only [Option.toList_some, List.reverse_append, List.reverse_singleton, List.singleton_append,
    List.findSome?_cons]
  cases e.index? l <;> rfl

theorem paraxialMatrix_fst {e : Elem} {n0 l : ℝ} {nm : ℝ × PM}
    (h : e.paraxialMatrix n0 l = some nm) : nm.1 = e.paraxN n0 l := by
  unfold Elem.paraxialMatrix at h
  split at h
  · cases h
  · split at h
    · rename_i hs
      cases h
      simp [Elem.paraxN, Elem.index?, hs]
    · rename_i sh hs
      rw [Option.map_eq_some_iff] at h
      obtain ⟨m, _, rfl⟩ := h
      rfl

theorem matricesFrom_index (l : ℝ) (sys : List Elem) (s : ℕ) (es : List Elem)
    (hes : ∀ j e, es[j]? = some e → sys[s + 1 + j]? = some e) (ms : List (ℝ × PM))
    (h : matricesFrom l es (refractiveIndex sys l s) = some ms) :
    ∀ j nm, ms[j]? = some nm → nm.1 = refractiveIndex sys l ((s + 1 + j : ℕ) : ℤ) := by
  induction es generalizing s ms with
  | nil => simp [matricesFrom] at h; subst h; intro j nm hj; simp at hj
  | cons e es ih =>
    simp only [matricesFrom, Option.bind_eq_some_iff, Option.map_eq_some_iff] at h
    obtain ⟨nm, hnm, r, hr, rfl⟩ := h
    have h1 : nm.1 = refractiveIndex sys l ((s + 1 : ℕ) : ℤ) := by
      rw [paraxialMatrix_fst hnm, refractiveIndex_succ sys l s e (by simpa using hes 0 e rfl)]
      rfl
    rw [h1] at hr
    have := ih (s + 1) (fun j e' hj => by
      have := hes (j + 1) e' (by simpa using hj)
      rw [show s + 1 + 1 + j = s + 1 + (j + 1) by ring]; exact this) r hr
    intro j nm' hj
    cases j with
    | zero => simp at hj; subst hj; exact h1
    | succ j =>
      simp at hj
      rw [this j nm' hj]
      congr 1
      push_cast; ring

theorem pySlice_sub {α : Type*} (xs : List α) (s : ℕ) (stop : Option ℤ) (j : ℕ) (e : α)
    (h : (pySlice xs s stop)[j]? = some e) : xs[s + j]? = some e := by
  by_cases hs : s ≤ xs.length
  · rw [pySlice_get xs s hs] at h
    split at h
    · exact h
    · cases h
  · have hb : pyBound xs.length (s : ℤ) = xs.length := by
      unfold pyBound; rw [if_neg (by omega)]; simp; omega
    unfold pySlice at h
    rw [hb, List.drop_eq_nil_of_le (by simp)] at h
    simp at h

/-! ## Symplecticity of the element matrices -/

theorem transfer_symplectic (d n0 : ℝ) : transfer d n0 ∈ symplecticGroup (Fin 2) ℝ := by
  unfold transfer
  rw [SymplecticGroup.fromBlocks_mem_iff]
  refine ⟨by simp, ?_, by simp⟩
  ext i j; fin_cases i <;> fin_cases j <;> simp

theorem mirrorMat_symplectic (c ct : ℝ) : mirrorMat c ct ∈ symplecticGroup (Fin 2) ℝ := by
  unfold mirrorMat
  rw [SymplecticGroup.fromBlocks_mem_iff]
  refine ⟨?_, by simp, by simp⟩
  ext i j; fin_cases i <;> fin_cases j <;> simp

theorem refractMat_symplectic {c n0 mu ct : ℝ} (hmu : mu ≠ 0) (hct : ct ≠ 0)
    (hp : 0 < mu ^ 2 + ct ^ 2 - 1) : refractMat c n0 mu ct ∈ symplecticGroup (Fin 2) ℝ := by
  have hp' : pRoot mu ct ≠ 0 := (Real.sqrt_pos.mpr hp).ne'
  unfold refractMat
  rw [SymplecticGroup.fromBlocks_mem_iff]
  refine ⟨?_, by simp, ?_⟩
  · ext i j; fin_cases i <;> fin_cases j <;> simp [Matrix.mul_apply, mul_comm]
  · ext i j; fin_cases i <;> fin_cases j <;> simp [Matrix.mul_apply]
    field_simp

theorem rotMat_transpose (phi : ℝ) : (rotMat phi)ᵀ
    = fromBlocks (rotBlock phi)ᵀ 0 0 (rotBlock phi)ᵀ := by
  simp [rotMat, fromBlocks_transpose]

theorem rotBlock_mul_transpose (phi : ℝ) : rotBlock phi * (rotBlock phi)ᵀ
    = !![1, Real.sin (2 * phi); Real.sin (2 * phi), 1] := by
  have h := Real.sin_sq_add_cos_sq phi
  have h2 := Real.sin_two_mul phi
  ext i j
  fin_cases i <;> fin_cases j <;> simp [rotBlock, Matrix.mul_apply, Fin.sum_univ_two, h2] <;>
    nlinarith

theorem rotMat_symplectic {phi : ℝ} (h : Real.sin (2 * phi) = 0) :
    rotMat phi ∈ symplecticGroup (Fin 2) ℝ := by
  have h1 := rotBlock_mul_transpose phi
  rw [h] at h1
  have h2 : rotBlock phi * (rotBlock phi)ᵀ = 1 := by
    rw [h1]; ext i j; fin_cases i <;> fin_cases j <;> simp
  have h3 : (rotBlock phi)ᵀ * rotBlock phi = 1 := mul_eq_one_comm.mp h2
  unfold rotMat
  rw [SymplecticGroup.fromBlocks_mem_iff]
  exact ⟨by simp, by simp, by simpa using h3⟩

theorem surfMat_symplectic {sh : Shape} {m : Option Material} {theta n0 n : ℝ} {M : PM}
    (h : Elem.surfMat sh m theta n0 n = some M) : M ∈ symplecticGroup (Fin 2) ℝ := by
  unfold Elem.surfMat at h
  rw [Option.bind_eq_some_iff] at h
  obtain ⟨c, _, h⟩ := h
  cases m with
  | none => cases h; exact Submonoid.one_mem _
  | some m =>
    simp only at h
    split_ifs at h
    · cases h; exact mirrorMat_symplectic _ _
    · cases h
      rename_i hh
      push Not at hh
      exact refractMat_symplectic hh.1 hh.2.1 hh.2.2

theorem paraxialMatrix_symplectic {e : Elem} {n0 l : ℝ} {nm : ℝ × PM}
    (hphi : e.shape.isSome → Real.sin (2 * e.tf.angles.z) = 0)
    (h : e.paraxialMatrix n0 l = some nm) : nm.2 ∈ symplecticGroup (Fin 2) ℝ := by
  unfold Elem.paraxialMatrix at h
  split at h
  · cases h
  · split at h
    · cases h; exact transfer_symplectic _ _
    · rename_i sh hs
      rw [Option.map_eq_some_iff] at h
      obtain ⟨m, hm, rfl⟩ := h
      have hr := rotMat_symplectic (hphi (by simp [hs]))
      exact Submonoid.mul_mem _ hr (Submonoid.mul_mem _
        (Submonoid.mul_mem _ (surfMat_symplectic hm) (transfer_symplectic _ _))
        (SymplecticGroup.transpose_mem hr))

end RayOpt
