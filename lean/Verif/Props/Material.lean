import Verif.Model.Material
import Mathlib.Tactic

/-!
C51, C52, C72: refractive indices of materials (rayopt/material.py and the glass tables of
rayopt/rii.py, rayopt/zemax.py, rayopt/oslo.py).
-/

namespace RayOpt.Glass

/-! ### C51: Abbe number materials -/

/-- C51: the index at the reference line is `n` and the Abbe number at the material's own lines is
`v`. -/
theorem c51_definition (a : Abbe) (v : ℝ) (hv : a.v = .fin v) (hv0 : v ≠ 0) (hn : a.n ≠ 1)
    (hl : a.long ≠ a.short) :
    a.index a.ref = some a.n ∧ dispersion a.index a.short a.ref a.long = some (.fin v) := by
  have hls : a.long - a.short ≠ 0 := sub_ne_zero.mpr hl
  have hn' : 1 - a.n ≠ 0 := sub_ne_zero.mpr (Ne.symm hn)
  have hi : ∀ l, a.index l = some (a.n + (l - a.ref) / (a.long - a.short) * (1 - a.n) / v) := by
    intro l; simp [Abbe.index, hv, hv0, hls]
  have hd : (a.n + (a.short - a.ref) / (a.long - a.short) * (1 - a.n) / v)
      - (a.n + (a.long - a.ref) / (a.long - a.short) * (1 - a.n) / v) = (a.n - 1) / v := by
    field_simp; ring
  constructor
  · rw [hi]; simp
  · have h1 : (a.n - 1) / v ≠ 0 := div_ne_zero (sub_ne_zero.mpr hn) hv0
    simp only [dispersion, hi, Option.bind_some, Option.map_some, hd]
    rw [if_pos h1]
    have h2 := sub_ne_zero.mpr hn
    simp [h2]

example : (⟨1.5, .fin 60, 550e-9, 700e-9, 450e-9⟩ : Abbe).v = .fin 60 ∧ (60 : ℝ) ≠ 0 ∧
    (1.5 : ℝ) ≠ 1 ∧ (700e-9 : ℝ) ≠ 450e-9 := ⟨rfl, by norm_num, by norm_num, by norm_num⟩

theorem lines_ne : lambdaC - lambdaF ≠ 0 := by norm_num [lambdaC, lambdaF]

/-- C51: with the default lines `nd` is `n` and `vd` is `v`; `n = 1` reports an infinite Abbe number
whatever `v` is, and `v = inf` has no dispersion at all. -/
theorem c51_default (n v : ℝ) (hv : v ≠ 0) :
    nd (Abbe.ofNV n (.fin v)).index = some n ∧
    (n ≠ 1 → vd (Abbe.ofNV n (.fin v)).index = some (.fin v)) ∧
    vd (Abbe.ofNV 1 (.fin v)).index = some .inf ∧
    (∀ l, (Abbe.ofNV n .inf).index l = some n) ∧ vd (Abbe.ofNV n .inf).index = some .inf := by
  have hls := lines_ne
  refine ⟨?_, fun hn => ?_, ?_, fun l => ?_, ?_⟩
  · simp [nd, Abbe.index, Abbe.ofNV, hls, hv]
  · exact (c51_definition (Abbe.ofNV n (.fin v)) v rfl hv hn (sub_ne_zero.mp hls)).2
  · simp [vd, dispersion, Abbe.index, Abbe.ofNV, hls, hv]
  · simp [Abbe.index, Abbe.ofNV, hls]
  · simp [vd, dispersion, Abbe.index, Abbe.ofNV, hls]

example : (64.17 : ℝ) ≠ 0 := by norm_num

/-- C51: what the property `vd` is for a material defined at other lines: it uses the lines F, d and
C and is `v` only if `v*((long - short) - (C - F)) = d - ref`. -/
theorem c51_other_lines (a : Abbe) (v : ℝ) (hv : a.v = .fin v) (hv0 : v ≠ 0) (hn : a.n ≠ 1)
    (hl : a.long ≠ a.short) :
    vd a.index = some (.fin ((v * (a.long - a.short) - (lambdaD - a.ref)) / (lambdaC - lambdaF))) ∧
    (vd a.index = some (.fin v) ↔
      v * ((a.long - a.short) - (lambdaC - lambdaF)) = lambdaD - a.ref) := by
  have hls : a.long - a.short ≠ 0 := sub_ne_zero.mpr hl
  have hn' : a.n - 1 ≠ 0 := sub_ne_zero.mpr hn
  have hc := lines_ne
  have hi : ∀ l, a.index l = some (a.n + (l - a.ref) / (a.long - a.short) * (1 - a.n) / v) := by
    intro l; simp [Abbe.index, hv, hv0, hls]
  have hd : (a.n + (lambdaF - a.ref) / (a.long - a.short) * (1 - a.n) / v)
      - (a.n + (lambdaC - a.ref) / (a.long - a.short) * (1 - a.n) / v)
      = (lambdaC - lambdaF) * (a.n - 1) / ((a.long - a.short) * v) := by
    field_simp; ring
  have h1 : (lambdaC - lambdaF) * (a.n - 1) / ((a.long - a.short) * v) ≠ 0 :=
    div_ne_zero (mul_ne_zero hc hn') (mul_ne_zero hls hv0)
  have key : vd a.index
      = some (.fin ((v * (a.long - a.short) - (lambdaD - a.ref)) / (lambdaC - lambdaF))) := by
    simp only [vd, dispersion, hi, Option.bind_some, Option.map_some, hd]
    rw [if_pos h1]
    congr 2
    field_simp
    ring
  refine ⟨key, ?_⟩
  rw [key]
  simp only [Option.some.injEq, Num.fin.injEq]
  rw [div_eq_iff hc]
  constructor <;> intro h <;> linarith

example : vd (⟨1.5, .fin 60, lambdaD, 2 * lambdaC - lambdaF, lambdaF⟩ : Abbe).index
    = some (.fin 120) := by
  have hc := lines_ne
  rw [(c51_other_lines ⟨1.5, .fin 60, lambdaD, 2 * lambdaC - lambdaF, lambdaF⟩ 60 rfl (by norm_num)
    (by norm_num) (by intro h; apply hc; simp only at h; linarith)).1]
  congr 2
  field_simp
  ring

/-- C51: with `n > 1`, `v > 0` and `short < long` the index falls with the wavelength. -/
theorem c51_normal (a : Abbe) (v : ℝ) (hv : a.v = .fin v) (hv0 : 0 < v) (hn : 1 < a.n)
    (hl : a.short < a.long) (l m : ℝ) (hlm : l < m) :
    ∃ nl nm, a.index l = some nl ∧ a.index m = some nm ∧ nm < nl := by
  have hls : 0 < a.long - a.short := sub_pos.mpr hl
  have hi : ∀ l, a.index l = some (a.n + (l - a.ref) / (a.long - a.short) * (1 - a.n) / v) := by
    intro l; simp [Abbe.index, hv, hv0.ne', hls.ne']
  refine ⟨_, _, hi l, hi m, ?_⟩
  have : (a.n + (l - a.ref) / (a.long - a.short) * (1 - a.n) / v)
      - (a.n + (m - a.ref) / (a.long - a.short) * (1 - a.n) / v)
      = (m - l) * (a.n - 1) / ((a.long - a.short) * v) := by
    field_simp; ring
  have h2 : 0 < (m - l) * (a.n - 1) / ((a.long - a.short) * v) := by
    apply div_pos (mul_pos (by linarith) (by linarith)) (mul_pos hls hv0)
  linarith

example : (0 : ℝ) < 64.17 ∧ (1 : ℝ) < 1.5168 ∧ lambdaF < lambdaC := by
  norm_num [lambdaF, lambdaC]

/-! ### C72: thermal change of the index -/

/-- C72: the change vanishes at the reference temperature and follows the Schott formula
`dn = (n²-1)/(2n) (D0 T + D1 T² + D2 T³ + (E0 T + E1 T²)/(λ² - λtk²))`. -/
theorem c72_formula (d : Fin 3 → ℝ) (e : Fin 2 → ℝ) (tref lref t n l : ℝ) (hn : n ≠ 0)
    (hl : (l / 1e-6) ^ 2 ≠ lref ^ 2) :
    ∃ dn, dnThermal d e tref lref t n (some l) = some dn ∧
      2 * n * dn * ((l / 1e-6) ^ 2 - lref ^ 2) = (n ^ 2 - 1) *
        ((∑ i, d i * (t - tref) ^ (i.val + 1)) * ((l / 1e-6) ^ 2 - lref ^ 2) +
          ∑ i, e i * (t - tref) ^ (i.val + 1)) ∧
      (t = tref → dn = 0) := by
  have h2 : ¬ (2 * n = 0 ∨ (l / 1e-6) ^ 2 - lref ^ 2 = 0) := by
    rintro (h | h)
    · exact hn (by linarith)
    · exact hl (by linarith)
  have h3 : (l / 1e-6) ^ 2 - lref ^ 2 ≠ 0 := sub_ne_zero.mpr hl
  refine ⟨_, by simp only [dnThermal]; rw [if_neg h2], ?_, ?_⟩
  · generalize (l / 1e-6) ^ 2 - lref ^ 2 = q at h3
    simp only [Fin.sum_univ_three, Fin.sum_univ_two]
    field_simp
    simp
    ring
  · rintro rfl; simp

example : ((500e-9 : ℝ) / 1e-6) ^ 2 ≠ 0.17 ^ 2 := by norm_num

/-- C72, violated without a wavelength: the default is the wavelength where the formula divides by
zero. -/
theorem c72_default_wavelength (d : Fin 3 → ℝ) (e : Fin 2 → ℝ) (tref lref t n : ℝ) :
    dnThermal d e tref lref t n none = none := by
  simp [dnThermal]

example : dnThermal ![1, 2, 3] ![4, 5] 20 0.17 30 1.5 none = none := c72_default_wavelength ..

/-- C72, violated for Zemax data: a line is `D0 D1 D2 E0 E1 λtk T0`, but the last two numbers are
taken as temperature and wavelength.  For the line of a borosilicate crown the index changes at its
reference temperature of 20 degrees, and stays at 0.17 degrees. -/
theorem c72_agf_swapped :
    let s : List ℝ := [1.86e-6, 1.31e-8, -1.37e-11, 4.34e-7, 6.27e-10, 0.17, 20]
    agfThermal s 20 1.5168 (some 587.56e-9) ≠ some 0 ∧
    agfThermal s 0.17 1.5168 (some 587.56e-9) = some 0 := by
  constructor
  · simp only [agfThermal, dnThermal]
    rw [if_neg (by norm_num)]
    rw [Ne, Option.some.injEq]
    simp only [Matrix.cons_val_zero, Matrix.cons_val_one, Matrix.cons_val_two]
    norm_num
  · simp only [agfThermal, dnThermal]
    rw [if_neg (by norm_num)]
    norm_num [Matrix.cons_val]

/-! ### C52: dispersion formulas -/

theorem sqrt?_eq_some {x n : ℝ} : sqrt? x = some n ↔ 0 ≤ n ∧ n ^ 2 = x := by
  unfold sqrt?
  split_ifs with h
  · constructor
    · simp
    · rintro ⟨-, h2⟩; nlinarith [sq_nonneg n]
  · rw [Option.some.injEq]
    constructor
    · rintro rfl; exact ⟨Real.sqrt_nonneg x, Real.sq_sqrt (by linarith)⟩
    · rintro ⟨h1, rfl⟩; exact Real.sqrt_sq h1

/-- Neighbouring pairs written out: the coefficient list of a formula with interleaved
coefficients. -/
def interleave (ps : List (ℝ × ℝ)) : List ℝ := ps.flatMap fun p => [p.1, p.2]

theorem pairs_interleave (ps : List (ℝ × ℝ)) : pairs (interleave ps) = some ps := by
  induction ps with
  | nil => rfl
  | cons p ps ih => simp only [interleave, List.flatMap_cons] at ih ⊢; simp [pairs, ih]

theorem length_interleave (ps : List (ℝ × ℝ)) : (interleave ps).length = 2 * ps.length := by
  induction ps with
  | nil => rfl
  | cons p ps ih => simp only [interleave, List.flatMap_cons] at ih ⊢; simp [ih]; ring

theorem offset_interleave (c0 : ℝ) (ps : List (ℝ × ℝ)) :
    pairs (offsetPart (c0 :: interleave ps)) = some ps := by
  rw [offsetPart, List.drop_one, List.tail_cons, List.take_of_length_le, pairs_interleave]
  simp [length_interleave]
  omega

theorem offset_interleave_extra (c0 x : ℝ) (ps : List (ℝ × ℝ)) :
    pairs (offsetPart (c0 :: (interleave ps ++ [x]))) = some ps := by
  rw [offsetPart, List.drop_one, List.tail_cons, List.take_append_of_le_length, List.take_of_length_le,
    pairs_interleave]
  · simp [length_interleave]; omega
  · simp [length_interleave]; omega

theorem halves_append (ps : List (ℝ × ℝ)) :
    halves (ps.map Prod.fst ++ ps.map Prod.snd) = some ps := by
  have : (ps.map Prod.fst ++ ps.map Prod.snd).length = 2 * ps.length := by simp; ring
  rw [halves, this, if_pos (by omega), Nat.mul_div_cancel_left _ (by norm_num : 0 < 2)]
  rw [List.take_left' (by simp), List.drop_left' (by simp)]
  rw [List.zip_map']
  simp

theorem sumOver_some {f : ℝ × ℝ → Option ℝ} {g : ℝ × ℝ → ℝ} {ps : List (ℝ × ℝ)}
    (h : ∀ p ∈ ps, f p = some (g p)) : sumOver f ps = some (ps.map g).sum := by
  induction ps with
  | nil => rfl
  | cons p ps ih =>
    rw [sumOver, h p (by simp), ih fun q hq => h q (by simp [hq])]
    simp

theorem sum_termSq {w : ℝ} {ps : List (ℝ × ℝ)} (h : ∀ p ∈ ps, w ^ 2 ≠ p.2 ^ 2) :
    sumOver (termSq w) ps = some (ps.map fun p => p.1 * w ^ 2 / (w ^ 2 - p.2 ^ 2)).sum :=
  sumOver_some fun p hp => by simp [termSq, div?, sub_ne_zero.mpr (h p hp)]

theorem sum_term {w : ℝ} {ps : List (ℝ × ℝ)} (h : ∀ p ∈ ps, w ^ 2 ≠ p.2) :
    sumOver (term w) ps = some (ps.map fun p => p.1 * w ^ 2 / (w ^ 2 - p.2)).sum :=
  sumOver_some fun p hp => by simp [term, div?, sub_ne_zero.mpr (h p hp)]

theorem laurent_eq (w n : ℝ) (c : List ℝ) :
    laurent w n c = n + ∑ i : Fin c.length, c[i] * (w ^ (2 * (i.val + 1)))⁻¹ := by
  have key : ∀ (l : List ℝ) (k : ℕ) (n : ℝ),
      (l.zipIdx k).foldl (fun n ci => n + ci.1 * w ^ (-2 * ((ci.2 : ℤ) + 1))) n
        = n + ∑ i : Fin l.length, l[i] * (w ^ (2 * (i.val + k + 1)))⁻¹ := by
    intro l
    induction l with
    | nil => intro k n; simp
    | cons a l ih =>
      intro k n
      rw [List.zipIdx_cons, List.foldl_cons, ih]
      simp only [List.length_cons, Fin.sum_univ_succ]
      have : w ^ (-2 * ((k : ℤ) + 1)) = (w ^ (2 * (k + 1)))⁻¹ := by
        rw [show (-2 * ((k : ℤ) + 1)) = -((2 * (k + 1) : ℕ) : ℤ) by push_cast; ring, zpow_neg,
          zpow_natCast]
      simp only [this]
      simp only [Fin.val_zero, Fin.val_succ, Fin.getElem_fin, List.getElem_cons_zero,
        List.getElem_cons_succ, zero_add, add_assoc]
      congr 3
      funext i
      congr 3
      ring
  rw [laurent, key]

/-- C52: the Sellmeier formulas for any number of terms `(b, c)`: `n² = 1 + Σ b w²/(w² - c²)` or
`n² = 1 + Σ b w²/(w² - c)`, with interleaved or separate coefficients. -/
theorem c52_sellmeier (w n : ℝ) (ps : List (ℝ × ℝ)) :
    ((∀ p ∈ ps, w ^ 2 ≠ p.2 ^ 2) → (Formula.sellmeier.eval w (interleave ps) = some n ↔
      0 ≤ n ∧ n ^ 2 = 1 + (ps.map fun p => p.1 * w ^ 2 / (w ^ 2 - p.2 ^ 2)).sum)) ∧
    ((∀ p ∈ ps, w ^ 2 ≠ p.2) → (Formula.sellmeierSquared.eval w (interleave ps) = some n ↔
      0 ≤ n ∧ n ^ 2 = 1 + (ps.map fun p => p.1 * w ^ 2 / (w ^ 2 - p.2)).sum)) ∧
    ((∀ p ∈ ps, w ^ 2 ≠ p.2) →
      (Formula.sellmeierSquaredTransposed.eval w (ps.map Prod.fst ++ ps.map Prod.snd) = some n ↔
        0 ≤ n ∧ n ^ 2 = 1 + (ps.map fun p => p.1 * w ^ 2 / (w ^ 2 - p.2)).sum)) := by
  refine ⟨fun h => ?_, fun h => ?_, fun h => ?_⟩
  · simp only [Formula.eval, pairs_interleave, Option.bind_some, sum_termSq h, sqrt?_eq_some]
  · simp only [Formula.eval, pairs_interleave, Option.bind_some, sum_term h, sqrt?_eq_some]
  · simp only [Formula.eval, halves_append, Option.bind_some, sum_term h, sqrt?_eq_some]

example : ∀ p ∈ [((1.04, 0.006) : ℝ × ℝ), (0.23, 0.02), (1.01, 103.6)], (0.5 : ℝ) ^ 2 ≠ p.2 := by
  simp; norm_num

/-- C52: refractiveindex.info formulas 1 to 5, 7 and 9, as documented there, for any number of
terms. -/
theorem c52_rii (w n c0 : ℝ) (ps : List (ℝ × ℝ)) :
    ((∀ p ∈ ps, w ^ 2 ≠ p.2 ^ 2) →
      ((riiFormula 1).bind (·.eval w (c0 :: interleave ps)) = some n ↔ 0 ≤ n ∧
        n ^ 2 - 1 = c0 + (ps.map fun p => p.1 * w ^ 2 / (w ^ 2 - p.2 ^ 2)).sum)) ∧
    ((∀ p ∈ ps, w ^ 2 ≠ p.2) →
      ((riiFormula 2).bind (·.eval w (c0 :: interleave ps)) = some n ↔ 0 ≤ n ∧
        n ^ 2 - 1 = c0 + (ps.map fun p => p.1 * w ^ 2 / (w ^ 2 - p.2)).sum)) ∧
    ((riiFormula 3).bind (·.eval w (c0 :: interleave ps)) = some n ↔ 0 ≤ n ∧
      n ^ 2 = c0 + (ps.map fun p => p.1 * w ^ p.2).sum) ∧
    (∀ c1 c2 c3 c4 c5 c6 c7 c8, w ^ 2 ≠ c3 ^ c4 → w ^ 2 ≠ c7 ^ c8 →
      ((riiFormula 4).bind
        (·.eval w (c0 :: c1 :: c2 :: c3 :: c4 :: c5 :: c6 :: c7 :: c8 :: interleave ps)) = some n ↔
      0 ≤ n ∧ n ^ 2 = c0 + c1 * w ^ c2 / (w ^ 2 - c3 ^ c4) + c5 * w ^ c6 / (w ^ 2 - c7 ^ c8) +
        (ps.map fun p => p.1 * w ^ p.2).sum)) ∧
    ((riiFormula 5).bind (·.eval w (c0 :: interleave ps)) = some n ↔
      n = c0 + (ps.map fun p => p.1 * w ^ p.2).sum) ∧
    (∀ c1 c2 c3 c4 c5, w ^ 2 ≠ 0.028 →
      ((riiFormula 7).bind (·.eval w [c0, c1, c2, c3, c4, c5]) = some n ↔
        n = c0 + c1 / (w ^ 2 - 0.028) + c2 * (1 / (w ^ 2 - 0.028)) ^ 2 + c3 * w ^ 2 + c4 * w ^ 4 +
          c5 * w ^ 6)) ∧
    (∀ c1 c2 c3 c4 c5, w ^ 2 ≠ c2 → (w - c4) ^ 2 + c5 ≠ 0 →
      ((riiFormula 9).bind (·.eval w [c0, c1, c2, c3, c4, c5]) = some n ↔ 0 ≤ n ∧
        n ^ 2 = c0 + c1 / (w ^ 2 - c2) + c3 * (w - c4) / ((w - c4) ^ 2 + c5))) := by
  have hs : sumOver (fun p => some (p.1 * w ^ p.2)) ps
      = some (ps.map fun p => p.1 * w ^ p.2).sum := sumOver_some fun p _ => rfl
  refine ⟨fun h => ?_, fun h => ?_, ?_, fun c1 c2 c3 c4 c5 c6 c7 c8 h1 h2 => ?_, ?_,
    fun c1 c2 c3 c4 c5 h => ?_, fun c1 c2 c3 c4 c5 h1 h2 => ?_⟩
  · simp only [riiFormula, Formula.eval, offset_interleave, Option.bind_some, sum_termSq h,
      sqrt?_eq_some]
    constructor <;> rintro ⟨h1, h2⟩ <;> exact ⟨h1, by linarith⟩
  · simp only [riiFormula, Formula.eval, offset_interleave, Option.bind_some, sum_term h,
      sqrt?_eq_some]
    constructor <;> rintro ⟨h1, h2⟩ <;> exact ⟨h1, by linarith⟩
  · simp only [riiFormula, Formula.eval, nCauchy, pairs_interleave, Option.bind_some, hs,
      Option.map_some, sqrt?_eq_some]
  · simp only [riiFormula, Formula.eval, pairs_interleave, Option.bind_some, hs, div?,
      if_neg (sub_ne_zero.mpr h1), if_neg (sub_ne_zero.mpr h2), sqrt?_eq_some]
  · simp only [riiFormula, Formula.eval, nCauchy, pairs_interleave, Option.bind_some, hs,
      Option.map_some, Option.some.injEq]
    exact eq_comm
  · simp only [riiFormula, Formula.eval, Option.bind_some, div?, if_neg (sub_ne_zero.mpr h),
      Option.map_some, Option.some.injEq]
    rw [eq_comm]
    constructor <;> intro h' <;> rw [h'] <;> ring
  · simp only [riiFormula, Formula.eval, Option.bind_some, div?, if_neg (sub_ne_zero.mpr h1),
      if_neg h2, sqrt?_eq_some]

example : (0.5 : ℝ) ^ 2 ≠ 0.2 ^ (2 : ℝ) ∧ (0.5 : ℝ) ^ 2 ≠ 0.028 := by
  constructor
  · rw [Real.rpow_two]; norm_num
  · norm_num

/-- C52, violated for refractiveindex.info formula 8, `(n²-1)/(n²+2) = a` with
`a = c0 + c1 w²/(w²-c2) + c3 w²`: whenever the code gives an index, it satisfies the formula only if
`a = 0`. -/
theorem c52_rii_8 (w c0 c1 c2 c3 n : ℝ) (h : (riiFormula 8).bind (·.eval w [c0, c1, c2, c3]) = some n) :
    (n ^ 2 - 1) / (n ^ 2 + 2) = c0 + c1 * w ^ 2 / (w ^ 2 - c2) + c3 * w ^ 2 ↔
      c0 + c1 * w ^ 2 / (w ^ 2 - c2) + c3 * w ^ 2 = 0 := by
  simp only [riiFormula, Formula.eval, Option.bind_some, div?] at h
  by_cases h1 : w ^ 2 - c2 = 0
  · simp [h1] at h
  rw [if_neg h1, Option.bind_some] at h
  generalize c0 + c1 * w ^ 2 / (w ^ 2 - c2) + c3 * w ^ 2 = a at h ⊢
  by_cases h2 : a - 1 = 0
  · simp [h2] at h
  rw [if_neg h2, Option.bind_some, sqrt?_eq_some] at h
  obtain ⟨-, h⟩ := h
  have h3 : n ^ 2 + 2 ≠ 0 := by positivity
  rw [div_eq_iff h3]
  have h4 : n ^ 2 * (a - 1) = 2 * (a - 1) + 1 := by rw [h]; field_simp
  constructor
  · intro h5
    have h6 : a * (a - 1) = 0 := by
      have h7 : (n ^ 2 - 1) * (a - 1) = a * (n ^ 2 + 2) * (a - 1) := by rw [h5]
      have h8 : 4 * (a * (a - 1)) = 0 := by linear_combination (-h7) + (1 - a) * h4
      linarith
    exact (mul_eq_zero.mp h6).resolve_right h2
  · rintro rfl
    linarith

example : (riiFormula 8).bind (·.eval 1 [(-1 : ℝ), 0, 0, 0]) = some (Real.sqrt (3 / 2)) := by
  simp only [riiFormula, Formula.eval, Option.bind_some, div?]
  norm_num [sqrt?]

/-- C52: refractiveindex.info formula 6, `n - 1 = c0 + Σ b/(c - w⁻²)`, is right for one term, but
for more terms the interleaved coefficients are read as two halves.  The coefficients of air give an
index above 5 at half a micrometre. -/
theorem c52_rii_6 :
    (∀ w c0 b c n : ℝ, w ≠ 0 → c ≠ (w ^ 2)⁻¹ →
      ((riiFormula 6).bind (·.eval w [c0, b, c]) = some n ↔ n - 1 = c0 + b / (c - (w ^ 2)⁻¹))) ∧
    (∃ n, (riiFormula 6).bind
        (·.eval 0.5 [0, 0.05792105, 238.0185, 0.00167917, 57.362]) = some n ∧ 5 < n) ∧
    0 + 0.05792105 / (238.0185 - ((0.5 : ℝ) ^ 2)⁻¹) + 0.00167917 / (57.362 - ((0.5 : ℝ) ^ 2)⁻¹)
      < 0.001 := by
  refine ⟨fun w c0 b c n hw hc => ?_, ?_, by norm_num⟩
  · have h1 : c - w ^ (-2 : ℤ) ≠ 0 := by
      rw [show (-2 : ℤ) = -((2 : ℕ) : ℤ) by norm_num, zpow_neg, zpow_natCast]
      exact sub_ne_zero.mpr hc
    have hh : halves [b, c] = some [(b, c)] := halves_append [(b, c)]
    simp only [riiFormula, Formula.eval, nGas, hh, Option.bind_some, if_neg hw, sumOver, div?,
      if_neg h1]
    rw [show (-2 : ℤ) = -((2 : ℕ) : ℤ) by norm_num, zpow_neg, zpow_natCast]
    simp
    constructor <;> intro h <;> linarith
  · have hh : halves [0.05792105, 238.0185, 0.00167917, 57.362]
        = some [(0.05792105, 0.00167917), (238.0185, 57.362)] :=
      halves_append [(0.05792105, 0.00167917), (238.0185, 57.362)]
    refine ⟨0 + (1 + (0.05792105 / (0.00167917 - 4) + (238.0185 / (57.362 - 4) + 0))), ?_,
      by norm_num⟩
    simp only [riiFormula, Formula.eval, nGas, hh, Option.bind_some, sumOver, div?]
    rw [if_neg (by norm_num), if_neg (by norm_num), if_neg (by norm_num)]
    norm_num

/-- C52: the power series: `n² = c0 + c1 w² + Σ c_i w^(-2i)` (Schott, any number of terms), with
`c2 w⁴` in addition (Hikari) or with `w⁴` and `w⁶` (extended 2). -/
theorem c52_series (w n c0 c1 c2 : ℝ) (c : List ℝ) :
    (Formula.schott.eval w (c0 :: c1 :: c) = some n ↔ 0 ≤ n ∧
      n ^ 2 = c0 + c1 * w ^ 2 + ∑ i : Fin c.length, c[i] / w ^ (2 * (i.val + 1))) ∧
    (Formula.hikari.eval w (c0 :: c1 :: c2 :: c) = some n ↔ 0 ≤ n ∧
      n ^ 2 = c0 + c1 * w ^ 2 + c2 * w ^ 4 + ∑ i : Fin c.length, c[i] / w ^ (2 * (i.val + 1))) ∧
    (∀ c3 c4 c5 c6 c7, Formula.extended2.eval w [c0, c1, c2, c3, c4, c5, c6, c7] = some n ↔ 0 ≤ n ∧
      n ^ 2 = c0 + c1 * w ^ 2 + c2 / w ^ 2 + c3 / w ^ 4 + c4 / w ^ 6 + c5 / w ^ 8 + c6 * w ^ 4 +
        c7 * w ^ 6) := by
  refine ⟨?_, ?_, fun c3 c4 c5 c6 c7 => ?_⟩
  · simp only [Formula.eval, sqrt?_eq_some, laurent_eq, div_eq_mul_inv]
  · simp only [Formula.eval, sqrt?_eq_some, laurent_eq, div_eq_mul_inv]
  · simp only [Formula.eval, sqrt?_eq_some, laurent_eq, div_eq_mul_inv]
    have : ∑ i : Fin [c2, c3, c4, c5].length, [c2, c3, c4, c5][i] * (w ^ (2 * (i.val + 1)))⁻¹
        = c2 * (w ^ 2)⁻¹ + c3 * (w ^ 4)⁻¹ + c4 * (w ^ 6)⁻¹ + c5 * (w ^ 8)⁻¹ := by
      simp [Fin.sum_univ_succ]
      ring
    rw [this]
    constructor <;> rintro ⟨h1, h2⟩ <;> exact ⟨h1, by linarith⟩

example : Formula.schott.eval 1 [1, 1, 1, 1] = some 2 := by
  rw [(c52_series 1 2 1 1 0 [1, 1]).1]
  simp [Fin.sum_univ_succ]
  norm_num

/-- C52: equivalent parametrisations give equal indices. -/
theorem c52_equivalent (w : ℝ) (ps : List (ℝ × ℝ)) (c : List ℝ) (c0 c1 c2 c3 : ℝ) :
    Formula.sellmeier.eval w (interleave ps)
      = Formula.sellmeierSquared.eval w (interleave (ps.map fun p => (p.1, p.2 ^ 2))) ∧
    Formula.sellmeierSquared.eval w (interleave ps)
      = Formula.sellmeierSquaredTransposed.eval w (ps.map Prod.fst ++ ps.map Prod.snd) ∧
    Formula.sellmeierOffset.eval w (0 :: interleave ps) = Formula.sellmeier.eval w (interleave ps) ∧
    Formula.sellmeierSquaredOffset.eval w (0 :: interleave ps)
      = Formula.sellmeierSquared.eval w (interleave ps) ∧
    Formula.schott.eval w (c0 :: c1 :: c) = Formula.hikari.eval w (c0 :: c1 :: 0 :: c) ∧
    Formula.extended2.eval w [c0, c1, c2, c3, 0, 0, 0, 0] = Formula.schott.eval w [c0, c1, c2, c3] ∧
    Formula.sellmeierSquared.eval w [c1, c2] = Formula.handbook2.eval w [1, c1, c2, 0] ∧
    (w ^ 2 ≠ c2 → Formula.handbook2.eval w [c0, c1, c2, c3]
      = Formula.handbook1.eval w [c0 + c1, c1 * c2, c2, c3]) := by
  refine ⟨?_, ?_, ?_, ?_, ?_, ?_, ?_, fun h => ?_⟩
  · simp only [Formula.eval, pairs_interleave, Option.bind_some]
    congr 1
    induction ps with
    | nil => rfl
    | cons p ps ih => simp only [List.map_cons, sumOver, ih]; rfl
  · simp only [Formula.eval, pairs_interleave, halves_append]
  · simp only [Formula.eval, offset_interleave, pairs_interleave, add_zero]
  · simp only [Formula.eval, offset_interleave, pairs_interleave, add_zero]
  · simp only [Formula.eval, zero_mul, add_zero]
  · simp only [Formula.eval, zero_mul, add_zero]
    congr 1
    simp [laurent, List.zipIdx]
  · have : pairs [c1, c2] = some [(c1, c2)] := rfl
    simp only [Formula.eval, this, Option.bind_some, sumOver, term, zero_mul, sub_zero]
    cases div? (c1 * w ^ 2) (w ^ 2 - c2) <;> simp
  · simp only [Formula.eval, div?, if_neg (sub_ne_zero.mpr h), Option.bind_some]
    congr 1
    have := sub_ne_zero.mpr h
    field_simp
    ring

example : (0.5 : ℝ) ^ 2 ≠ 0.01 := by norm_num

/-- C52: Zemax pads the coefficients with zeros up to ten numbers; for the formulas of any length
this does not change the index. -/
theorem c52_padding (w : ℝ) (hw : w ≠ 0) (ps : List (ℝ × ℝ)) (c0 c1 c2 : ℝ) (c : List ℝ) (k : ℕ) :
    Formula.sellmeierSquared.eval w (interleave ps ++ List.replicate (2 * k) 0)
      = Formula.sellmeierSquared.eval w (interleave ps) ∧
    Formula.sellmeierSquaredOffset.eval w (c0 :: (interleave ps ++ List.replicate k 0))
      = Formula.sellmeierSquaredOffset.eval w (c0 :: interleave ps) ∧
    Formula.schott.eval w (c0 :: c1 :: (c ++ List.replicate k 0))
      = Formula.schott.eval w (c0 :: c1 :: c) ∧
    Formula.hikari.eval w (c0 :: c1 :: c2 :: (c ++ List.replicate k 0))
      = Formula.hikari.eval w (c0 :: c1 :: c2 :: c) := by
  have hrep : ∀ k, interleave ps ++ List.replicate (2 * k) 0
      = interleave (ps ++ List.replicate k (0, 0)) := by
    intro k
    simp only [interleave, List.flatMap_append]
    congr 1
    induction k with
    | zero => rfl
    | succ k ih => rw [show 2 * (k + 1) = 2 * k + 1 + 1 by ring]; simp [List.replicate_succ, ← ih]
  have hw2 : w ^ 2 ≠ 0 := pow_ne_zero 2 hw
  have hsum : ∀ k, sumOver (term w) (ps ++ List.replicate k (0, 0)) = sumOver (term w) ps := by
    intro k
    induction ps with
    | nil =>
      induction k with
      | zero => rfl
      | succ k ih => rw [List.nil_append] at ih ⊢; simp [List.replicate_succ, sumOver, ih, term, div?, hw]
    | cons p ps ih =>
      simp only [List.cons_append, sumOver]
      rw [ih]
      intro k
      simp only [interleave, List.flatMap_append]
      congr 1
      induction k with
      | zero => rfl
      | succ k ih => rw [show 2 * (k + 1) = 2 * k + 1 + 1 by ring]; simp [List.replicate_succ, ← ih]
  have hl : ∀ n, laurent w n (c ++ List.replicate k 0) = laurent w n c := by
    intro n
    unfold laurent
    rw [List.zipIdx_append, List.foldl_append]
    have : ∀ (k j : ℕ) (n : ℝ), ((List.replicate k (0 : ℝ)).zipIdx j).foldl
        (fun n ci => n + ci.1 * w ^ (-2 * ((ci.2 : ℤ) + 1))) n = n := by
      intro k
      induction k with
      | zero => intros; rfl
      | succ k ih => intro j n; rw [List.replicate_succ, List.zipIdx_cons, List.foldl_cons, ih]; simp
    rw [this]
  refine ⟨?_, ?_, ?_, ?_⟩
  · rw [hrep]
    simp only [Formula.eval, pairs_interleave, Option.bind_some, hsum]
  · have : pairs (offsetPart (c0 :: (interleave ps ++ List.replicate k 0)))
        = some (ps ++ List.replicate (k / 2) (0, 0)) := by
      rcases Nat.mod_two_eq_zero_or_one k with hk | hk
      · have : k = 2 * (k / 2) := by omega
        conv_lhs => rw [this]
        rw [hrep, offset_interleave]
      · have : k = 2 * (k / 2) + 1 := by omega
        conv_lhs => rw [this]
        rw [List.replicate_succ', ← List.append_assoc, hrep, offset_interleave_extra]
    simp only [Formula.eval, this, offset_interleave, Option.bind_some, hsum]
  · simp only [Formula.eval, hl]
  · simp only [Formula.eval, hl]

example : (0.5 : ℝ) ≠ 0 := by norm_num

/-- C52, the Zemax table: formula 9 (`n² = A + B w²/(w²-C) + D w²/(w²-E)` in Zemax) is evaluated with
one added; formulas 4, 10 and 11 have no evaluator; formula 0 is read as the last entry. -/
theorem c52_agf :
    (∀ w a b c d e n : ℝ, w ^ 2 ≠ c → w ^ 2 ≠ e →
      ((agfFormula 9).bind fun f => f.bind (·.eval w [a, b, c, d, e])) = some n →
        n ^ 2 = a + b * w ^ 2 / (w ^ 2 - c) + d * w ^ 2 / (w ^ 2 - e) + 1) ∧
    (agfFormula 4, agfFormula 10, agfFormula 11) = (some none, some none, some none) ∧
    agfFormula 0 = agfFormula 13 ∧ glcFormula 0 = glcFormula 6 ∧
    (∀ a : ℤ, 13 < a → agfFormula a = none) := by
  refine ⟨fun w a b c d e n h1 h2 h => ?_, by decide, by decide, by decide, fun a ha => ?_⟩
  · have hf : agfFormula 9 = some (some .sellmeierSquaredOffset) := by decide
    rw [hf] at h
    have h3 : ∀ p ∈ [(b, c), (d, e)], w ^ 2 ≠ p.2 := by simp [h1, h2]
    have h4 := ((c52_rii w n a [(b, c), (d, e)]).2.1 h3).mp h
    have h5 := h4.2
    simp at h5
    linarith
  · have : agfTypes.length ≤ (a - 1).toNat := by simp [agfTypes]; omega
    rw [agfFormula, pyGet?, if_pos (by omega), List.getElem?_eq_none this]

example : ((agfFormula 9).bind fun f => f.bind (·.eval 1 [2, 1, 0, 0, 0])) = some (2 : ℝ) := by
  have hf : agfFormula 9 = some (some .sellmeierSquaredOffset) := by decide
  rw [hf]
  have h3 : ∀ p ∈ [((1, 0) : ℝ × ℝ), (0, 0)], (1 : ℝ) ^ 2 ≠ p.2 := by simp
  refine ((c52_rii 1 2 2 [(1, 0), (0, 0)]).2.1 h3).mpr ⟨by norm_num, ?_⟩
  norm_num

/-- C52: the formulas behind the numbers of the Zemax and OSLO glass catalogues that are evaluated as
documented by these programs: Schott, Sellmeier 1 and 3, Herzberger, Conrady, the two handbook formulas,
extended 2 and 3. -/
theorem c52_catalogues (w n : ℝ) (hw : 0 < w) (c0 c1 c2 c3 c4 c5 c6 c7 : ℝ) (c : List ℝ)
    (ps : List (ℝ × ℝ)) :
    (∀ f ∈ [agfFormula 1, some (glcFormula 1)], ((f.bind fun f => f.bind
      (·.eval w (c0 :: c1 :: c))) = some n ↔
      0 ≤ n ∧ n ^ 2 = c0 + c1 * w ^ 2 + ∑ i : Fin c.length, c[i] / w ^ (2 * (i.val + 1)))) ∧
    ((∀ p ∈ ps, w ^ 2 ≠ p.2) → (∀ f ∈ [agfFormula 2, agfFormula 6], ((f.bind fun f => f.bind
      (·.eval w (interleave ps))) = some n ↔
      0 ≤ n ∧ n ^ 2 = 1 + (ps.map fun p => p.1 * w ^ 2 / (w ^ 2 - p.2)).sum)) ∧
      (((glcFormula 2).bind (·.eval w (ps.map Prod.fst ++ ps.map Prod.snd))) = some n ↔
      0 ≤ n ∧ n ^ 2 = 1 + (ps.map fun p => p.1 * w ^ 2 / (w ^ 2 - p.2)).sum)) ∧
    (w ^ 2 ≠ 0.028 → (((agfFormula 3).bind fun f => f.bind (·.eval w [c0, c1, c2, c3, c4, c5])) =
      some n ↔ n = c0 + c1 / (w ^ 2 - 0.028) + c2 * (1 / (w ^ 2 - 0.028)) ^ 2 + c3 * w ^ 2 +
        c4 * w ^ 4 + c5 * w ^ 6)) ∧
    (∀ f ∈ [agfFormula 5, some (glcFormula 3)], ((f.bind fun f => f.bind (·.eval w [c0, c1, c2])) =
      some n ↔ n = c0 + c1 / w + c2 / (w ^ 3 * Real.sqrt w))) ∧
    (w ^ 2 ≠ c2 → ((((agfFormula 7).bind fun f => f.bind (·.eval w [c0, c1, c2, c3])) = some n ↔
      0 ≤ n ∧ n ^ 2 = c0 + c1 / (w ^ 2 - c2) - c3 * w ^ 2)) ∧
      (((agfFormula 8).bind fun f => f.bind (·.eval w [c0, c1, c2, c3])) = some n ↔
      0 ≤ n ∧ n ^ 2 = c0 + c1 * w ^ 2 / (w ^ 2 - c2) - c3 * w ^ 2)) ∧
    (((agfFormula 12).bind fun f => f.bind (·.eval w [c0, c1, c2, c3, c4, c5, c6, c7])) = some n ↔
      0 ≤ n ∧ n ^ 2 = c0 + c1 * w ^ 2 + c2 / w ^ 2 + c3 / w ^ 4 + c4 / w ^ 6 + c5 / w ^ 8 +
        c6 * w ^ 4 + c7 * w ^ 6) ∧
    (∀ f ∈ [agfFormula 13, some (glcFormula 6)], ((f.bind fun f => f.bind
      (·.eval w (c0 :: c1 :: c2 :: c))) = some n ↔ 0 ≤ n ∧
      n ^ 2 = c0 + c1 * w ^ 2 + c2 * w ^ 4 + ∑ i : Fin c.length, c[i] / w ^ (2 * (i.val + 1)))) := by
  have e1 : agfFormula 1 = some (some .schott) := by decide
  have e2 : agfFormula 2 = some (some .sellmeierSquared) := by decide
  have e3 : agfFormula 3 = some (some .herzberger) := by decide
  have e5 : agfFormula 5 = some (some .conrady) := by decide
  have e6 : agfFormula 6 = some (some .sellmeierSquared) := by decide
  have e7 : agfFormula 7 = some (some .handbook1) := by decide
  have e8 : agfFormula 8 = some (some .handbook2) := by decide
  have e12 : agfFormula 12 = some (some .extended2) := by decide
  have e13 : agfFormula 13 = some (some .hikari) := by decide
  have g1 : glcFormula 1 = some .schott := by decide
  have g2 : glcFormula 2 = some .sellmeierSquaredTransposed := by decide
  have g3 : glcFormula 3 = some .conrady := by decide
  have g6 : glcFormula 6 = some .hikari := by decide
  rw [e1, e2, e3, e5, e6, e7, e8, e12, e13, g1, g2, g3, g6]
  simp only [Option.bind_some, List.forall_mem_cons, List.not_mem_nil, IsEmpty.forall_iff,
    implies_true, and_true]
  obtain ⟨s1, s2, s3⟩ := c52_series w n c0 c1 c2 c
  refine ⟨⟨s1, s1⟩, ?_, ?_, ?_, ?_, s3 c3 c4 c5 c6 c7, s2, s2⟩
  · intro h
    obtain ⟨-, t2, t3⟩ := c52_sellmeier w n ps
    exact ⟨⟨t2 h, t2 h⟩, t3 h⟩
  · intro h
    exact (c52_rii w n c0 []).2.2.2.2.2.1 c1 c2 c3 c4 c5 h
  · have hp : w ^ (3.5 : ℝ) = w ^ 3 * Real.sqrt w := by
      rw [Real.sqrt_eq_rpow, show (3.5 : ℝ) = 3 + 1 / 2 by norm_num, Real.rpow_add hw]
      norm_num
    have : Formula.conrady.eval w [c0, c1, c2] = some n ↔
        n = c0 + c1 / w + c2 / (w ^ 3 * Real.sqrt w) := by
      simp only [Formula.eval, if_neg hw.ne', hp, Option.some.injEq]
      exact eq_comm
    exact ⟨this, this⟩
  · intro h
    constructor
    · simp only [Formula.eval, div?, if_neg (sub_ne_zero.mpr h), Option.bind_some, sqrt?_eq_some]
    · simp only [Formula.eval, div?, if_neg (sub_ne_zero.mpr h), Option.bind_some, sqrt?_eq_some]

/-- C52: `air` has an index between 1 and 1.001 for wavelengths from 200 nm on, falling with the
wavelength; a mirror of the same material has the negative index. -/
theorem c52_air (l m : ℝ) (hl : 200e-9 ≤ l) (hlm : l < m) :
    ∃ nl nm, coefficientsIndex .gas false airCoefficients l = some nl ∧
      coefficientsIndex .gas false airCoefficients m = some nm ∧
      coefficientsIndex .gas true airCoefficients l = some (-nl) ∧
      1 < nm ∧ nm < nl ∧ nl < 1.001 := by
  have hh : halves airCoefficients = some [(0.05792105, 238.0185), (0.00167917, 57.362)] :=
    halves_append [(0.05792105, 238.0185), (0.00167917, 57.362)]
  have hx : ∀ l : ℝ, 200e-9 ≤ l → 0 < ((l / 1e-6) ^ 2)⁻¹ ∧ ((l / 1e-6) ^ 2)⁻¹ ≤ 25 := by
    intro l hl
    have h1 : 0.2 ≤ l / 1e-6 := by rw [le_div_iff₀ (by norm_num)]; norm_num at hl ⊢; linarith
    have h2 : (0.04 : ℝ) ≤ (l / 1e-6) ^ 2 := by nlinarith
    refine ⟨by positivity, ?_⟩
    calc ((l / 1e-6) ^ 2)⁻¹ ≤ (0.04)⁻¹ := inv_anti₀ (by norm_num) h2
      _ = 25 := by norm_num
  have hmono : ((m / 1e-6) ^ 2)⁻¹ < ((l / 1e-6) ^ 2)⁻¹ := by
    have h0 : 0 < l := lt_of_lt_of_le (by norm_num) hl
    apply inv_strictAnti₀ (by positivity)
    have : l / 1e-6 < m / 1e-6 := by gcongr
    have : 0 < l / 1e-6 := by positivity
    nlinarith
  have hev : ∀ l : ℝ, 200e-9 ≤ l → Formula.gas.eval (l / 1e-6) airCoefficients
      = some (1 + (0.05792105 / (238.0185 - ((l / 1e-6) ^ 2)⁻¹)
        + (0.00167917 / (57.362 - ((l / 1e-6) ^ 2)⁻¹) + 0))) := by
    intro l hl
    obtain ⟨h1, h2⟩ := hx l hl
    have h0 : l / 1e-6 ≠ 0 := by
      have : 0 < l := lt_of_lt_of_le (by norm_num) hl
      positivity
    simp only [Formula.eval, nGas, if_neg h0, hh, Option.bind_some, sumOver, div?]
    rw [show (-2 : ℤ) = -((2 : ℕ) : ℤ) by norm_num, zpow_neg, zpow_natCast]
    rw [if_neg (by linarith), if_neg (by linarith)]
    rfl
  have hm : 200e-9 ≤ m := by linarith
  refine ⟨_, _, by rw [coefficientsIndex, hev l hl]; rfl, by rw [coefficientsIndex, hev m hm]; rfl,
    by rw [coefficientsIndex, hev l hl]; rfl, ?_, ?_, ?_⟩
  · obtain ⟨h1, h2⟩ := hx m hm
    simp only [Bool.false_eq_true, if_false]
    have a1 : 0 < 0.05792105 / (238.0185 - ((m / 1e-6) ^ 2)⁻¹) :=
      div_pos (by norm_num) (by linarith)
    have a2 : 0 < 0.00167917 / (57.362 - ((m / 1e-6) ^ 2)⁻¹) :=
      div_pos (by norm_num) (by linarith)
    linarith
  · obtain ⟨h1, h2⟩ := hx l hl
    simp only [Bool.false_eq_true, if_false]
    have a1 : 0.05792105 / (238.0185 - ((m / 1e-6) ^ 2)⁻¹)
        < 0.05792105 / (238.0185 - ((l / 1e-6) ^ 2)⁻¹) :=
      div_lt_div_of_pos_left (by norm_num) (by linarith) (by linarith)
    have a2 : 0.00167917 / (57.362 - ((m / 1e-6) ^ 2)⁻¹)
        < 0.00167917 / (57.362 - ((l / 1e-6) ^ 2)⁻¹) :=
      div_lt_div_of_pos_left (by norm_num) (by linarith) (by linarith)
    linarith
  · obtain ⟨h1, h2⟩ := hx l hl
    simp only [Bool.false_eq_true, if_false]
    have a1 : 0.05792105 / (238.0185 - ((l / 1e-6) ^ 2)⁻¹) ≤ 0.05792105 / 213 :=
      div_le_div_of_nonneg_left (by norm_num) (by norm_num) (by linarith)
    have a2 : 0.00167917 / (57.362 - ((l / 1e-6) ^ 2)⁻¹) ≤ 0.00167917 / 32 :=
      div_le_div_of_nonneg_left (by norm_num) (by norm_num) (by linarith)
    have a3 : (0.05792105 : ℝ) / 213 + 0.00167917 / 32 < 0.001 := by norm_num
    linarith

example : (200e-9 : ℝ) ≤ lambdaF ∧ lambdaF < lambdaC := by norm_num [lambdaF, lambdaC]

end RayOpt.Glass
