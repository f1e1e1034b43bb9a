import Verif.Props.Resonator
import Verif.Lemmas.ParaxialTrace

/-!
Property C62: a lens guide, the elements of a system over and over again.
-/

namespace RayOpt

open Matrix Parax Sys Gauss V3

theorem Decoupled.astig {M : PM} (h : Decoupled M) : isSimpleAstigmatic M := by
  obtain ⟨a1, a2, a3, a4⟩ := h 0 1 (by decide)
  obtain ⟨b1, b2, b3, b4⟩ := h 1 0 (by decide)
  exact ⟨a1, a2, b1, b2, a3, a4, b3, b4⟩

/-- One period: rays that start within a bound meet every element within a bound. -/
theorem guide_period (l : ℝ) (axis : Fin 2) (es : List Elem) (hes : NoRoll es) (n : ℝ) (ms : List (ℝ × PM))
    (hms : matricesFrom l es n = some ms) (C : ℝ) :
    ∃ D, ∀ v : PVec, |v (.inl axis)| ≤ C → |v (.inr axis)| ≤ C →
      ∃ o, scanM (fun e s => e.propagateParaxial s.1 s.2 l) es (v, n) = some o ∧
        o.getLast?.getD (v, n) = ((accumulate ms).2 *ᵥ v, (ms.getLast?.map Prod.fst).getD n) ∧
        ∀ x ∈ o, |x.1 (.inl axis)| ≤ D ∧ |x.1 (.inr axis)| ≤ D := by
  induction es generalizing n ms C with
  | nil =>
    simp only [matricesFrom, Option.some.injEq] at hms
    subst hms
    exact ⟨0, fun v _ _ => ⟨[], rfl, by simp [accumulate], by simp⟩⟩
  | cons e es ih =>
    simp only [matricesFrom, Option.bind_eq_some_iff, Option.map_eq_some_iff] at hms
    obtain ⟨nm, hnm, r, hr, rfl⟩ := hms
    have hd := (paraxialMatrix_decoupled (hes e (by simp)) hnm).astig
    set B := |nm.2 (.inl axis) (.inl axis)| * C + |nm.2 (.inl axis) (.inr axis)| * C +
      (|nm.2 (.inr axis) (.inl axis)| * C + |nm.2 (.inr axis) (.inr axis)| * C) with hB
    obtain ⟨D, hD⟩ := ih (fun e he => hes e (by simp [he])) nm.1 r hr B
    refine ⟨max B D, fun v h1 h2 => ?_⟩
    have hC : 0 ≤ C := (abs_nonneg _).trans h1
    have hsum : ∀ p q : ℝ, |p * v (.inl axis) + q * v (.inr axis)| ≤ |p| * C + |q| * C := by
      intro p q
      refine (abs_add_le _ _).trans ?_
      rw [abs_mul, abs_mul]
      exact add_le_add (mul_le_mul_of_nonneg_left h1 (abs_nonneg p)) (mul_le_mul_of_nonneg_left h2 (abs_nonneg q))
    have hp : ∀ p q : ℝ, 0 ≤ |p| * C + |q| * C := fun p q => by positivity
    have hl : |(nm.2 *ᵥ v) (.inl axis)| ≤ B := by
      rw [(pass_axis hd v axis).1, hB]
      exact (hsum _ _).trans (le_add_of_nonneg_right (hp _ _))
    have hr' : |(nm.2 *ᵥ v) (.inr axis)| ≤ B := by
      rw [(pass_axis hd v axis).2, hB]
      exact (hsum _ _).trans (le_add_of_nonneg_left (hp _ _))
    obtain ⟨o, ho, hlast, hall⟩ := hD _ hl hr'
    refine ⟨(nm.2 *ᵥ v, nm.1) :: o, ?_, ?_, ?_⟩
    · have h3 : e.propagateParaxial v n l = some (nm.2 *ᵥ v, nm.1) := by simp [Elem.propagateParaxial, hnm]
      simp only [scanM, h3, Option.bind_some, ho, Option.map_some]
    · have h3 : ((nm.2 *ᵥ v, nm.1) :: o).getLast?.getD (v, n) = o.getLast?.getD (nm.2 *ᵥ v, nm.1) := by
        rw [List.getLast?_cons]; cases o.getLast? <;> simp
      have h4 : ((nm :: r).getLast?.map Prod.fst).getD n = (r.getLast?.map Prod.fst).getD nm.1 := by
        rw [List.getLast?_cons]; cases r.getLast? <;> simp
      have h5 : (accumulate (nm :: r)).2 = (accumulate r).2 * nm.2 := by
        have := congrArg Prod.snd (accumulate_append [nm] r)
        simpa [accumulate] using this
      rw [h3, hlast, h4, h5, mulVec_mulVec]
    · intro x hx
      rcases List.mem_cons.mp hx with rfl | hx
      · exact ⟨le_max_of_le_left hl, le_max_of_le_left hr'⟩
      · exact ⟨le_max_of_le_right (hall x hx).1, le_max_of_le_right (hall x hx).2⟩

/-- C62: the elements of a system that ends in the medium it starts in, repeated any number of times.  If the system is
stable along an axis, the paraxial trace of a ray through all of them stays within a bound at every element. -/
theorem c62_guide (obj : Elem) (es : List Elem) (hes : NoRoll (obj :: es)) {l n : ℝ} {M : PM}
    (hM : Sys.paraxialMatrix (obj :: es) l 1 none = some (n, M)) (hn : refractiveIndex (obj :: es) l 0 = n)
    {axis : Fin 2} (hs : stable M axis) (yu : PVec) :
    ∃ C, ∀ k : ℕ, ∃ L, Sys.propagateParaxial (obj :: (List.replicate k es).flatten) yu n l 1 none = some L ∧
      L.length = k * es.length ∧ ∀ x ∈ L, |x.1 (.inl axis)| ≤ C ∧ |x.1 (.inr axis)| ≤ C := by
  have hp : isProper M := c62_proper (obj :: es) l 1 none hes n M (by exact_mod_cast hM)
  have hes' : NoRoll es := fun e he => hes e (by simp [he])
  unfold Sys.paraxialMatrix paraxialMatrices at hM
  rw [pySlice_one, List.tail_cons, sub_self, hn, Option.map_eq_some_iff] at hM
  obtain ⟨ms, hms, hacc⟩ := hM
  have hM2 : (accumulate ms).2 = M := by rw [hacc]
  have ha : isSimpleAstigmatic M := by
    rw [← hM2]
    exact (accumulate_decoupled ms (matricesFrom_decoupled l es hes' n ms hms)).astig
  have hend : (ms.getLast?.map Prod.fst).getD n = n := by
    have h1 : (accumulate ms).1 = n := by rw [hacc]
    rw [accumulate_fst] at h1
    cases hg : ms.getLast? with
    | none => rfl
    | some x => rw [hg] at h1; simpa using h1
  obtain ⟨A, hA⟩ := c62_bounded M ha hp axis hs yu
  obtain ⟨C, hC⟩ := guide_period l axis es hes' n ms hms A
  refine ⟨C, fun k => ?_⟩
  rw [Sys.propagateParaxial, pySlice_one, List.tail_cons]
  suffices ∃ L, scanM (fun e s => e.propagateParaxial s.1 s.2 l) (List.replicate k es).flatten (yu, n) = some L ∧
      L.getLast?.getD (yu, n) = (M ^ k *ᵥ yu, n) ∧ ∀ x ∈ L, |x.1 (.inl axis)| ≤ C ∧ |x.1 (.inr axis)| ≤ C by
    obtain ⟨L, h1, -, h2⟩ := this
    exact ⟨L, h1, by rw [scanM_length _ _ _ _ h1]; simp, h2⟩
  induction k with
  | zero => exact ⟨[], rfl, by simp, by simp⟩
  | succ k ih =>
    obtain ⟨L, h1, h2, h3⟩ := ih
    obtain ⟨o, h4, h5, h6⟩ := hC _ (hA k).1 (hA k).2
    refine ⟨L ++ o, ?_, ?_, ?_⟩
    · rw [List.replicate_succ', List.flatten_append, scanM_append, h1]
      simp [h2, h4]
    · have h7 : (L ++ o).getLast?.getD (yu, n) = o.getLast?.getD (L.getLast?.getD (yu, n)) := by
        rw [List.getLast?_append]; cases o.getLast? <;> simp
      rw [h7, h2, h5, hM2, hend, pass_succ]
    · intro x hx
      rcases List.mem_append.mp hx with hx | hx
      · exact h3 x hx
      · exact h6 x hx

/-- A plane in air. -/
noncomputable def guideStart : Elem :=
  ⟨Transform.init 0 ez 0 none, .fin 1, some ⟨0, 0, none, false⟩, some (some ⟨false, false, fun _ => 1⟩)⟩

/-- A concave mirror, half its radius of curvature behind the element before it. -/
noncomputable def guideMirror : Elem :=
  ⟨Transform.init 1 ez 0 none, .fin 1, some ⟨-(1 / 2), 0, none, false⟩, some (some mirrorMaterial)⟩

theorem guide_matrix (l : ℝ) :
    guideMirror.paraxialMatrix 1 l = some (1, fromBlocks 1 1 (-1) 0) := by
  have hd : guideMirror.tf.distance = 1 := by
    unfold guideMirror Transform.init; simp [Transform.update_distance]
  have hz : guideMirror.tf.angles = 0 := Transform.update_angles _ _ _
  have hr : rotMat 0 = fromBlocks !![1, 0; 0, -1] 0 0 !![1, 0; 0, -1] := by simp [rotMat, rotBlock]
  have hn : guideMirror.paraxN 1 l = 1 := rfl
  unfold Elem.paraxialMatrix
  rw [if_neg one_ne_zero, show guideMirror.shape = some ⟨-(1 / 2), 0, none, false⟩ from rfl]
  simp only [hd, hz, hn]
  have hsm : Elem.surfMat ⟨-(1 / 2), 0, none, false⟩ guideMirror.mat (0 : V3).x 1 1 = some (mirrorMat (-(1 / 2)) 1) := by
    rw [show guideMirror.mat = some mirrorMaterial from rfl]
    simp [Elem.surfMat, Shape.paraxCurv, mirrorMaterial]
  rw [hsm, Option.map_some]
  congr 2
  rw [show (0 : V3).z = 0 from rfl, hr, mirrorMat, transfer, fromBlocks_transpose]
  simp only [fromBlocks_multiply]
  congr 1 <;> ext i j <;> fin_cases i <;> fin_cases j <;> simp [vecMul, dotProduct, Fin.sum_univ_two, Matrix.one_fin_two]

/-- The mirror repeated over and over meets the hypotheses of `c62_guide`. -/
example (l : ℝ) : NoRoll [guideStart, guideMirror] ∧
    Sys.paraxialMatrix [guideStart, guideMirror] l 1 none = some (1, fromBlocks 1 1 (-1) 0) ∧
    refractiveIndex [guideStart, guideMirror] l 0 = 1 ∧ ∀ i, stable (fromBlocks 1 1 (-1) 0) i := by
  have hi : refractiveIndex [guideStart, guideMirror] l 0 = 1 := by
    simp [refractiveIndex, sliceDown, pyBound, guideStart, Elem.index?, Elem.mat]
  refine ⟨?_, ?_, hi, fun i => by fin_cases i <;> simp [stable, halfTrace] <;> norm_num⟩
  · intro e he _
    have h0 : e.tf.angles = 0 := by
      rcases List.mem_cons.mp he with rfl | he
      · exact Transform.update_angles _ _ _
      · rw [List.mem_singleton.mp he]; exact Transform.update_angles _ _ _
    rw [h0, show (0 : V3).z = 0 from rfl]
    simp
  · unfold Sys.paraxialMatrix paraxialMatrices
    rw [pySlice_one, List.tail_cons, sub_self, hi]
    simp [matricesFrom, guide_matrix, accumulate]

end RayOpt
