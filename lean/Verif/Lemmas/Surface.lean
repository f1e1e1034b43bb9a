import Verif.Lemmas.Vec
import Mathlib.Analysis.SpecialFunctions.Sqrt
import Mathlib.Analysis.Calculus.Deriv.Inv
import Mathlib.Analysis.Calculus.Deriv.Add
import Mathlib.Analysis.Calculus.Deriv.Mul
import Mathlib.Algebra.BigOperators.Fin
import Mathlib.Tactic.LinearCombination

/-! Helper lemmas about the spheroid surface. -/

namespace RayOpt

open V3 Shape

theorem aspSag_nil (ρ : ℝ) : aspSag ρ [] = 0 := rfl
theorem aspSag_cons (ρ a : ℝ) (l : List ℝ) : aspSag ρ (a :: l) = (aspSag ρ l + a) * ρ := rfl

theorem aspSag_sum (ρ : ℝ) (l : List ℝ) :
    aspSag ρ l = ∑ i : Fin l.length, l[i] * ρ ^ (i.val + 1) := by
  induction l with
  | nil => simp [aspSag]
  | cons a l ih =>
    rw [aspSag_cons, ih]
    simp only [List.length_cons, Fin.sum_univ_succ, Fin.getElem_fin, Fin.val_zero, Fin.val_succ,
      List.getElem_cons_zero, List.getElem_cons_succ]
    rw [add_mul, Finset.sum_mul, add_comm]
    congr 1
    · ring
    · apply Finset.sum_congr rfl; intro i _; ring

/-- Horner polynomial without the leading factor. -/
def aspP (ρ : ℝ) (l : List ℝ) : ℝ := l.foldr (fun a d => d * ρ + a) 0

theorem aspSag_eq (ρ : ℝ) (l : List ℝ) : aspSag ρ l = aspP ρ l * ρ := by
  induction l with
  | nil => simp [aspSag, aspP]
  | cons a l ih => rw [aspSag_cons, ih]; simp [aspP]

/-- The slope loop started at index `n`. -/
def aspSlopeFrom (ρ : ℝ) (n : ℕ) (l : List ℝ) : ℝ :=
  (l.zipIdx n).foldr (fun ai d => d * ρ + 2 * ((ai.2 : ℝ) + 1) * ai.1) 0

theorem aspSlopeFrom_cons (ρ a : ℝ) (n : ℕ) (l : List ℝ) :
    aspSlopeFrom ρ n (a :: l) = aspSlopeFrom ρ (n + 1) l * ρ + 2 * ((n : ℝ) + 1) * a := by
  simp [aspSlopeFrom, List.zipIdx_cons]

theorem aspSlopeFrom_eq (ρ : ℝ) (n : ℕ) (l : List ℝ) :
    aspSlopeFrom ρ n l = aspSlope ρ l + 2 * n * aspP ρ l := by
  have h : aspSlope ρ l = aspSlopeFrom ρ 0 l := rfl
  rw [h]
  induction l generalizing n with
  | nil => simp [aspSlopeFrom, aspP]
  | cons a l ih =>
    rw [aspSlopeFrom_cons, aspSlopeFrom_cons, ih (n + 1) rfl, ih (0 + 1) rfl]
    simp only [aspP, List.foldr_cons]
    push_cast; ring

theorem aspSag_hasDeriv (l : List ℝ) (ρ : ℝ) :
    HasDerivAt (fun ρ => aspSag ρ l) (aspSlope ρ l / 2) ρ := by
  induction l with
  | nil =>
    simp only [aspSag, aspSlope, List.foldr_nil, List.zipIdx_nil]
    simpa using hasDerivAt_const ρ (0 : ℝ)
  | cons a l ih =>
    have h := (ih.add_const a).mul (hasDerivAt_id ρ)
    have e : aspSlope ρ (a :: l) / 2 = aspSlope ρ l / 2 * id ρ + (aspSag ρ l + a) * 1 := by
      have : aspSlope ρ (a :: l) = aspSlopeFrom ρ 0 (a :: l) := rfl
      rw [this, aspSlopeFrom_cons, aspSlopeFrom_eq, aspSag_eq]
      simp only [id]; push_cast; ring
    rw [e]
    exact h

/-- The conic sag as a function of the squared radius. -/
noncomputable def conicSag (c κ ρ : ℝ) : ℝ := c * ρ / (1 + √(1 - κ * c ^ 2 * ρ))

theorem conicSag_hasDeriv {c κ ρ : ℝ} (h : 0 < 1 - κ * c ^ 2 * ρ) :
    HasDerivAt (conicSag c κ) (c / √(1 - κ * c ^ 2 * ρ) / 2) ρ := by
  have hin : HasDerivAt (fun ρ : ℝ => 1 - κ * c ^ 2 * ρ) (-(κ * c ^ 2)) ρ := by
    have := ((hasDerivAt_id ρ).const_mul (κ * c ^ 2)).const_sub 1
    simpa using this
  have hs := hin.sqrt h.ne'
  have hden := hs.const_add 1
  have hnum : HasDerivAt (fun ρ : ℝ => c * ρ) c ρ := by
    simpa using (hasDerivAt_id ρ).const_mul c
  have hw : 0 < √(1 - κ * c ^ 2 * ρ) := Real.sqrt_pos.mpr h
  have hq := hnum.div hden (by positivity)
  have e : c / √(1 - κ * c ^ 2 * ρ) / 2 =
      (c * (1 + √(1 - κ * c ^ 2 * ρ)) - c * ρ * (-(κ * c ^ 2) / (2 * √(1 - κ * c ^ 2 * ρ)))) /
        (1 + √(1 - κ * c ^ 2 * ρ)) ^ 2 := by
    have hsq := Real.sq_sqrt h.le
    generalize √(1 - κ * c ^ 2 * ρ) = w at *
    field_simp
    linear_combination (-c) * hsq
  rw [e]
  exact hq

end RayOpt
