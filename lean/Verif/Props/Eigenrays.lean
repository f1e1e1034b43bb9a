import Verif.Props.Paraxial
import Mathlib.LinearAlgebra.Matrix.ToLinearEquiv
import Mathlib.LinearAlgebra.Eigenspace.Triangularizable
import Mathlib.Analysis.Complex.Polynomial.Basic
import Verif.Model.ParaxialTrace
import Verif.Props.OldSolve

/-!
C18, the eigenrays of a system (rayopt/paraxial_trace.py 207-211): what the rays do that are given by
the eigenvectors of the whole paraxial matrix, and how the eigenvalues belong together.
-/

namespace RayOpt

open Matrix Parax Sys PTrace

/-- The contract of `np.linalg.eig` at one matrix: every pair it gives is an eigenvalue with an
eigenvector (both may be complex). -/
def IsEig (m : PM) (ps : List (ℂ × (Fin 2 ⊕ Fin 2 → ℂ))) : Prop :=
  ∀ p ∈ ps, p.2 ≠ 0 ∧ (m.map (fun x : ℝ => (x : ℂ))) *ᵥ p.2 = p.1 • p.2

/-- Every complex matrix has an eigenvector. -/
theorem exists_eig (m : PM) : ∃ p : ℂ × (Fin 2 ⊕ Fin 2 → ℂ), IsEig m [p] := by
  obtain ⟨e, he⟩ := Module.End.exists_eigenvalue (K := ℂ)
    (Matrix.toLin' (m.map (fun x : ℝ => (x : ℂ))))
  obtain ⟨v, hv⟩ := he.exists_hasEigenvector
  refine ⟨(e, v), ?_⟩
  intro p hp
  simp only [List.mem_singleton] at hp
  subst hp
  refine ⟨hv.2, ?_⟩
  have := hv.apply_eq_smul
  rwa [Matrix.toLin'_apply] at this

/-- C18: an eigenray traced through the whole system comes out multiplied by its eigenvalue; where the
pair is complex, its real and imaginary part are traced to the real and imaginary part of the
multiple. -/
theorem c18_eigenray (eig : PM → List (ℂ × (Fin 2 ⊕ Fin 2 → ℂ))) (sys : List Elem) (l : ℝ)
    (heig : ∀ m, IsEig m (eig m)) (hlen : 1 < sys.length)
    (ps : List (ℂ × (Fin 2 ⊕ Fin 2 → ℂ))) (h : eigenrays eig sys l = some ps)
    (e : ℂ) (v : Fin 2 ⊕ Fin 2 → ℂ) (hp : (e, v) ∈ ps) :
    (∃ out, propagateParaxial sys (fun i => (v i).re) (refractiveIndex sys l 0) l 1 none = some out ∧
      (out.getLast?).map Prod.fst = some fun i => (e * v i).re) ∧
    ∃ out, propagateParaxial sys (fun i => (v i).im) (refractiveIndex sys l 0) l 1 none = some out ∧
      (out.getLast?).map Prod.fst = some fun i => (e * v i).im := by
  unfold eigenrays at h
  rw [Option.map_eq_some_iff] at h
  obtain ⟨⟨n, M⟩, hM, rfl⟩ := h
  obtain ⟨-, hv⟩ := heig M _ hp
  have key : ∀ i, ∑ j, (M i j : ℂ) * v j = e * v i := by
    intro i
    have := congrFun hv i
    simpa [Matrix.mulVec, dotProduct] using this
  have hs : 1 < pyStop sys.length none := by simpa [pyStop] using hlen
  constructor
  · obtain ⟨out, ho, hl⟩ := c17_action sys l 1 none n M hM hs (fun i => (v i).re)
    refine ⟨out, by simpa using ho, ?_⟩
    rw [hl]
    simp only [Option.map_some, Option.some.injEq]
    funext i
    rw [← key i, Complex.re_sum]
    simp [Matrix.mulVec, dotProduct]
  · obtain ⟨out, ho, hl⟩ := c17_action sys l 1 none n M hM hs (fun i => (v i).im)
    refine ⟨out, by simpa using ho, ?_⟩
    rw [hl]
    simp only [Option.map_some, Option.some.injEq]
    funext i
    rw [← key i, Complex.im_sum]
    simp [Matrix.mulVec, dotProduct]

/-- C18: the eigenvalues of a system without rolled surfaces are not zero and come in reciprocal
pairs (and, the matrix being real, in conjugate pairs). -/
theorem c18_eigen_pairs (eig : PM → List (ℂ × (Fin 2 ⊕ Fin 2 → ℂ))) (sys : List Elem) (l : ℝ)
    (heig : ∀ m, IsEig m (eig m)) (hes : NoRoll sys) (n : ℝ) (M : PM)
    (hM : paraxialMatrix sys l 1 none = some (n, M))
    (ps : List (ℂ × (Fin 2 ⊕ Fin 2 → ℂ))) (h : eigenrays eig sys l = some ps)
    (e : ℂ) (v : Fin 2 ⊕ Fin 2 → ℂ) (hp : (e, v) ∈ ps) :
    e ≠ 0 ∧ (∃ w, IsEig M [(e⁻¹, w)]) ∧ ∃ w, IsEig M [(starRingEnd ℂ e, w)] := by
  unfold eigenrays at h
  rw [hM, Option.map_some, Option.some.injEq] at h
  subst h
  obtain ⟨hv0, hv⟩ := heig M _ hp
  simp only at hv0 hv
  obtain ⟨hsp, hdet⟩ := c18_symplectic sys l 1 none hes n M hM
  set A : Matrix (Fin 2 ⊕ Fin 2) (Fin 2 ⊕ Fin 2) ℂ := M.map (fun x : ℝ => (x : ℂ)) with hA
  have hAdet : A.det = 1 := by
    have : A.det = ((M.det : ℝ) : ℂ) := by
      rw [hA]; exact (RingHom.map_det Complex.ofRealHom M).symm
    rw [this, hdet]; simp
  have he : e ≠ 0 := by
    rintro rfl
    have : A.det = 0 := Matrix.exists_mulVec_eq_zero_iff.mp ⟨v, hv0, by simpa using hv⟩
    rw [hAdet] at this
    exact one_ne_zero this
  refine ⟨he, ?_, ?_⟩
  · -- Aᵀ J A = J
    have hJ : Aᵀ * Matrix.J (Fin 2) ℂ * A = Matrix.J (Fin 2) ℂ := by
      have h1 := SymplecticGroup.mem_iff'.mp hsp
      have h2 := congrArg (fun m : PM => m.map Complex.ofRealHom) h1
      simp only [Matrix.map_mul] at h2
      have h3 : (Matrix.J (Fin 2) ℝ).map Complex.ofRealHom = Matrix.J (Fin 2) ℂ := by
        ext i j
        rcases i with i | i <;> rcases j with j | j <;>
          simp [Matrix.J, Matrix.one_apply, apply_ite]
      rw [h3] at h2
      exact h2
    have hw : Aᵀ *ᵥ (Matrix.J (Fin 2) ℂ *ᵥ v) = e⁻¹ • (Matrix.J (Fin 2) ℂ *ᵥ v) := by
      have h1 : (Aᵀ * Matrix.J (Fin 2) ℂ * A) *ᵥ v = Matrix.J (Fin 2) ℂ *ᵥ v := by rw [hJ]
      rw [← Matrix.mulVec_mulVec, hv, Matrix.mulVec_smul, ← Matrix.mulVec_mulVec] at h1
      rw [← h1, smul_smul, inv_mul_cancel₀ he, one_smul]
      rw [h1]
    have hw0 : Matrix.J (Fin 2) ℂ *ᵥ v ≠ 0 := by
      intro h0
      apply hv0
      have : (Matrix.J (Fin 2) ℂ * Matrix.J (Fin 2) ℂ) *ᵥ v = 0 := by
        rw [← Matrix.mulVec_mulVec, h0, Matrix.mulVec_zero]
      rw [Matrix.J_squared, Matrix.neg_mulVec, Matrix.one_mulVec, neg_eq_zero] at this
      exact this
    have hd : (Aᵀ - e⁻¹ • (1 : Matrix (Fin 2 ⊕ Fin 2) (Fin 2 ⊕ Fin 2) ℂ)).det = 0 :=
      Matrix.exists_mulVec_eq_zero_iff.mp ⟨_, hw0, by
        rw [Matrix.sub_mulVec, hw, Matrix.smul_mulVec, Matrix.one_mulVec, sub_self]⟩
    have hd2 : (A - e⁻¹ • (1 : Matrix (Fin 2 ⊕ Fin 2) (Fin 2 ⊕ Fin 2) ℂ)).det = 0 := by
      rw [← Matrix.det_transpose, Matrix.transpose_sub, Matrix.transpose_smul,
        Matrix.transpose_one]
      exact hd
    obtain ⟨w, w0, hw2⟩ := Matrix.exists_mulVec_eq_zero_iff.mpr hd2
    refine ⟨w, ?_⟩
    intro p hp'
    simp only [List.mem_singleton] at hp'
    subst hp'
    refine ⟨w0, ?_⟩
    rw [Matrix.sub_mulVec, Matrix.smul_mulVec, Matrix.one_mulVec, sub_eq_zero] at hw2
    exact hw2
  · refine ⟨fun i => starRingEnd ℂ (v i), ?_⟩
    intro p hp'
    simp only [List.mem_singleton] at hp'
    subst hp'
    constructor
    · intro h0
      apply hv0
      funext i
      have := congrFun h0 i
      simpa using this
    · funext i
      have h1 := congrArg (starRingEnd ℂ) (congrFun hv i)
      simpa [Matrix.mulVec, dotProduct, hA, map_sum] using h1

/-- The thin lens `plano` has eigenrays, whichever solver finds them. -/
example (l : ℝ) : ∃ eig : PM → List (ℂ × (Fin 2 ⊕ Fin 2 → ℂ)), ∃ n M p,
    (∀ m, IsEig m (eig m)) ∧ 1 < (plano 1).length ∧ NoRoll (plano 1) ∧
    paraxialMatrix (plano 1) l 1 none = some (n, M) ∧
    eigenrays eig (plano 1) l = some [p] := by
  choose f hf using exists_eig
  obtain ⟨M1, M2, M3, h, -⟩ := plano_matrices 1 0 l
  have i0 : refractiveIndex (plano 1) l 0 = 1 := by
    have := refractiveIndex_nat (plano 1) l 0
    simp only [Nat.cast_zero] at this
    rw [this]
    simp [plano, Elem.index?, Elem.mat, vacuum]
  have hn : paraxialMatrix (plano 1) l 1 none =
      some (accumulate [(3 / 2, M1), (1, M2), (1, M3)]) := by
    unfold paraxialMatrix paraxialMatrices
    rw [show pySlice (plano 1) 1 none = (plano 1).tail by
      simp [pySlice, pyStop, pyBound, plano], show (1 : ℤ) - 1 = 0 by norm_num, i0, h]
    rfl
  refine ⟨fun m => [f m], (accumulate [(3 / 2, M1), (1, M2), (1, M3)]).1,
    (accumulate [(3 / 2, M1), (1, M2), (1, M3)]).2,
    f (accumulate [(3 / 2, M1), (1, M2), (1, M3)]).2, hf, by simp [plano], plano_noRoll 1, hn, ?_⟩
  simp [eigenrays, hn]

end RayOpt
