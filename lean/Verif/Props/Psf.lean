import Verif.Model.Psf
import Mathlib.Tactic

/-!
C79: the point spread function is non-negative, has the total one, does not depend on a constant optical
path difference, and is nowhere larger than at the centre of that of a perfect wavefront.
-/

namespace RayOpt.Psf

open Complex ComplexConjugate

/-- The kernel of the Fourier transform as power of a root of unity. -/
theorem kernel_eq (n p x : ℕ) :
    exp (-2 * I * Real.pi * (p * x / n)) = (exp (2 * Real.pi * I / n))⁻¹ ^ (p * x) := by
  rw [← Complex.exp_neg, ← Complex.exp_nat_mul]
  congr 1
  push_cast
  ring

theorem conj_root (n : ℕ) : conj (exp (2 * Real.pi * I / n)) = (exp (2 * Real.pi * I / n))⁻¹ := by
  rw [← Complex.exp_conj, ← Complex.exp_neg]
  congr 1
  simp only [map_div₀, map_mul, conj_I, map_natCast, map_ofNat, conj_ofReal]
  ring

/-- Orthogonality of the kernel. -/
theorem orthogonal (n x y : ℕ) (hx : x < n) (hy : y < n) :
    ∑ p ∈ Finset.range n, (exp (2 * Real.pi * I / n))⁻¹ ^ (p * x) *
      exp (2 * Real.pi * I / n) ^ (p * y) = if x = y then (n : ℂ) else 0 := by
  have hn : n ≠ 0 := by omega
  have hz := Complex.isPrimitiveRoot_exp n hn
  set z := exp (2 * Real.pi * I / n) with hzd
  have hz0 : z ≠ 0 := Complex.exp_ne_zero _
  have h1 : ∀ p, z⁻¹ ^ (p * x) * z ^ (p * y) = (z⁻¹ ^ x * z ^ y) ^ p := by
    intro p
    rw [mul_pow, ← pow_mul, ← pow_mul, mul_comm x p, mul_comm y p]
  simp only [h1]
  split
  · rename_i h
    subst h
    have : z⁻¹ ^ x * z ^ x = 1 := by rw [← mul_pow, inv_mul_cancel₀ hz0, one_pow]
    simp only [this, one_pow, Finset.sum_const, Finset.card_range, nsmul_eq_mul, mul_one]
  · rename_i h
    have hr : z⁻¹ ^ x * z ^ y ≠ 1 := by
      intro hc
      apply h
      refine hz.pow_inj hx hy ?_
      rw [inv_pow, inv_mul_eq_one₀ (pow_ne_zero _ hz0)] at hc
      exact hc
    rw [geom_sum_eq hr]
    have : (z⁻¹ ^ x * z ^ y) ^ n = 1 := by
      rw [mul_pow, ← pow_mul, ← pow_mul, mul_comm x n, mul_comm y n, pow_mul, pow_mul, inv_pow,
        hz.pow_eq_one]
      simp
    rw [this, sub_self, zero_div]

/-- Parseval's identity for a transform padded with zeros. -/
theorem parseval (n k : ℕ) (h : n ≤ k) (a : ℕ → ℂ) :
    ∑ p ∈ Finset.range k, normSq (∑ x ∈ Finset.range n, a x *
      exp (-2 * I * Real.pi * (p * x / k))) = k * ∑ x ∈ Finset.range n, normSq (a x) := by
  have key : ∀ p : ℕ, (normSq (∑ x ∈ Finset.range n, a x * exp (-2 * I * Real.pi * (p * x / k))) : ℂ) =
      ∑ x ∈ Finset.range n, ∑ y ∈ Finset.range n, a x * conj (a y) *
        ((exp (2 * Real.pi * I / k))⁻¹ ^ (p * x) * exp (2 * Real.pi * I / k) ^ (p * y)) := by
    intro p
    rw [← mul_conj, map_sum, Finset.sum_mul_sum]
    refine Finset.sum_congr rfl fun x _ => Finset.sum_congr rfl fun y _ => ?_
    rw [kernel_eq, kernel_eq, map_mul, map_pow, map_inv₀, conj_root, inv_inv]
    ring
  have : ((∑ p ∈ Finset.range k, normSq (∑ x ∈ Finset.range n, a x *
      exp (-2 * I * Real.pi * (p * x / k))) : ℝ) : ℂ) =
      ((k * ∑ x ∈ Finset.range n, normSq (a x) : ℝ) : ℂ) := by
    rw [ofReal_sum]
    simp only [key]
    rw [Finset.sum_comm]
    have : ∀ x ∈ Finset.range n, (∑ p ∈ Finset.range k, ∑ y ∈ Finset.range n, a x * conj (a y) *
        ((exp (2 * Real.pi * I / k))⁻¹ ^ (p * x) * exp (2 * Real.pi * I / k) ^ (p * y))) =
        k * (normSq (a x) : ℂ) := by
      intro x hx
      rw [Finset.sum_comm]
      simp only [← Finset.mul_sum]
      have hxn := Finset.mem_range.mp hx
      rw [Finset.sum_eq_single x]
      · rw [orthogonal k x x (by omega) (by omega), if_pos rfl, mul_conj]
        ring
      · intro y hy hne
        have hyn := Finset.mem_range.mp hy
        rw [orthogonal k x y (by omega) (by omega), if_neg (Ne.symm hne), mul_zero]
      · intro hc; exact absurd hx hc
    rw [Finset.sum_congr rfl this, ← Finset.mul_sum]
    push_cast
    rfl
  exact_mod_cast this

theorem fft2_eq (n m : ℕ) (a : ℕ → ℕ → ℂ) (nx ny p q : ℕ) : fft2 n m a nx ny p q =
    ∑ x ∈ Finset.range n, (∑ y ∈ Finset.range m, a x y * exp (-2 * I * Real.pi * (q * y / ny))) *
      exp (-2 * I * Real.pi * (p * x / nx)) := by
  unfold fft2
  refine Finset.sum_congr rfl fun x _ => ?_
  rw [Finset.sum_mul]
  refine Finset.sum_congr rfl fun y _ => ?_
  rw [mul_add, Complex.exp_add]
  ring

/-- Parseval's identity in two dimensions. -/
theorem parseval2 (n m : ℕ) (a : ℕ → ℕ → ℂ) (nx ny : ℕ) (hx : n ≤ nx) (hy : m ≤ ny) :
    ∑ p ∈ Finset.range nx, ∑ q ∈ Finset.range ny, normSq (fft2 n m a nx ny p q) =
      nx * ny * ∑ x ∈ Finset.range n, ∑ y ∈ Finset.range m, normSq (a x y) := by
  rw [Finset.sum_comm]
  simp only [fft2_eq]
  have : ∀ q ∈ Finset.range ny, (∑ p ∈ Finset.range nx, normSq (∑ x ∈ Finset.range n,
      (∑ y ∈ Finset.range m, a x y * exp (-2 * I * Real.pi * (q * y / ny))) *
      exp (-2 * I * Real.pi * (p * x / nx)))) = nx * ∑ x ∈ Finset.range n,
        normSq (∑ y ∈ Finset.range m, a x y * exp (-2 * I * Real.pi * (q * y / ny))) := fun q _ =>
    parseval n nx hx _
  rw [Finset.sum_congr rfl this, ← Finset.mul_sum, Finset.sum_comm]
  have : ∀ x ∈ Finset.range n, (∑ q ∈ Finset.range ny, normSq (∑ y ∈ Finset.range m, a x y *
      exp (-2 * I * Real.pi * (q * y / ny)))) = ny * ∑ y ∈ Finset.range m, normSq (a x y) :=
    fun x _ => parseval m ny hy _
  rw [Finset.sum_congr rfl this, ← Finset.mul_sum]
  ring

theorem normSq_phasor (o : Option ℝ) : normSq (phasor o) = if o.isSome then 1 else 0 := by
  cases o with
  | none => simp [phasor]
  | some o =>
    have : -2 * I * Real.pi * o = ((-2 * Real.pi * o : ℝ) : ℂ) * I := by push_cast; ring
    rw [phasor, this, normSq_eq_norm_sq, Complex.norm_exp_ofReal_mul_I]
    simp

theorem psf_eq (n m pad : ℕ) (o : ℕ → ℕ → Option ℝ) (p q : ℕ) : psf n m pad o p q =
    normSq (fft2 n m (amplitude n m o) (n * pad) (m * pad) p q) / ((n * pad) * (m * pad)) := by
  unfold psf
  simp only [mul_conj, ofReal_re]

theorem count_eq (n m : ℕ) (o : ℕ → ℕ → Option ℝ) : (count n m o : ℝ) =
    ∑ x ∈ Finset.range n, ∑ y ∈ Finset.range m, normSq (phasor (o x y)) := by
  simp only [normSq_phasor, count]
  push_cast
  rfl

theorem count_pos (n m : ℕ) (o : ℕ → ℕ → Option ℝ) (x y : ℕ) (hx : x < n) (hy : y < m)
    (h : o x y ≠ none) : 0 < count n m o := by
  refine Finset.sum_pos' (fun _ _ => Nat.zero_le _) ⟨x, Finset.mem_range.mpr hx, ?_⟩
  refine Finset.sum_pos' (fun _ _ => Nat.zero_le _) ⟨y, Finset.mem_range.mpr hy, ?_⟩
  rw [if_pos (Option.isSome_iff_ne_none.mpr h)]
  exact one_pos

theorem normSq_amplitude (n m : ℕ) (o : ℕ → ℕ → Option ℝ) (x y : ℕ) :
    normSq (amplitude n m o x y) = normSq (phasor (o x y)) / count n m o := by
  rw [amplitude, normSq_div, normSq_ofReal, Real.mul_self_sqrt (Nat.cast_nonneg _)]

/-- C79: the point spread function has no negative value and its total is one, whatever the
wavefront, as soon as one point of the pupil is reached. -/
theorem c79_total (n m pad : ℕ) (o : ℕ → ℕ → Option ℝ) (hp : 0 < pad) (x y : ℕ) (hx : x < n)
    (hy : y < m) (h : o x y ≠ none) :
    (∀ p q, 0 ≤ psf n m pad o p q) ∧
    ∑ p ∈ Finset.range (n * pad), ∑ q ∈ Finset.range (m * pad), psf n m pad o p q = 1 := by
  have hc : (0 : ℝ) < count n m o := by exact_mod_cast count_pos n m o x y hx hy h
  constructor
  · intro p q
    rw [psf_eq]
    exact div_nonneg (normSq_nonneg _) (by positivity)
  · simp only [psf_eq, ← Finset.sum_div]
    rw [parseval2 _ _ _ _ _ (Nat.le_mul_of_pos_right n hp) (Nat.le_mul_of_pos_right m hp)]
    simp only [normSq_amplitude, ← Finset.sum_div]
    rw [← count_eq, div_self hc.ne']
    have hn : (n : ℝ) ≠ 0 := by exact_mod_cast (by omega : n ≠ 0)
    have hm : (m : ℝ) ≠ 0 := by exact_mod_cast (by omega : m ≠ 0)
    have hp' : (pad : ℝ) ≠ 0 := by exact_mod_cast hp.ne'
    push_cast
    field_simp

/-- C79: a constant added to all optical path differences does not change the point spread
function. -/
theorem c79_piston (n m pad : ℕ) (o : ℕ → ℕ → Option ℝ) (c : ℝ) (p q : ℕ) :
    psf n m pad (fun x y => (o x y).map (· + c)) p q = psf n m pad o p q := by
  have hcount : count n m (fun x y => (o x y).map (· + c)) = count n m o := by
    simp [count]
  have hph : ∀ o : Option ℝ, phasor (o.map (· + c)) =
      phasor o * exp (((-2 * Real.pi * c : ℝ) : ℂ) * I) := by
    intro o
    cases o with
    | none => simp [phasor]
    | some o =>
      simp only [Option.map_some, phasor]
      rw [← Complex.exp_add]
      congr 1
      push_cast
      ring
  have hamp : ∀ x y, amplitude n m (fun x y => (o x y).map (· + c)) x y =
      amplitude n m o x y * exp (((-2 * Real.pi * c : ℝ) : ℂ) * I) := by
    intro x y
    rw [amplitude, hcount, hph, amplitude]
    ring
  have hfft : fft2 n m (amplitude n m fun x y => (o x y).map (· + c)) (n * pad) (m * pad) p q =
      fft2 n m (amplitude n m o) (n * pad) (m * pad) p q *
        exp (((-2 * Real.pi * c : ℝ) : ℂ) * I) := by
    unfold fft2
    rw [Finset.sum_mul]
    refine Finset.sum_congr rfl fun x _ => ?_
    rw [Finset.sum_mul]
    refine Finset.sum_congr rfl fun y _ => ?_
    rw [hamp]
    ring
  rw [psf_eq, psf_eq, hfft, normSq_mul, normSq_eq_norm_sq (exp _), Complex.norm_exp_ofReal_mul_I]
  simp

theorem norm_phasor_le (o : Option ℝ) : ‖phasor o‖ = if o.isSome then 1 else 0 := by
  have := normSq_phasor o
  rw [normSq_eq_norm_sq] at this
  by_cases h : o.isSome = true
  · rw [if_pos h] at this ⊢
    nlinarith [norm_nonneg (phasor o)]
  · rw [if_neg h] at this ⊢
    exact (pow_eq_zero_iff two_ne_zero).mp this

theorem norm_kernel (t : ℝ) : ‖exp (-2 * I * Real.pi * t)‖ = 1 := by
  have : -2 * I * Real.pi * t = ((-2 * Real.pi * t : ℝ) : ℂ) * I := by push_cast; ring
  rw [this, Complex.norm_exp_ofReal_mul_I]

/-- The transform of the amplitude is at most the square root of the number of good points. -/
theorem norm_fft2_le (n m : ℕ) (o : ℕ → ℕ → Option ℝ) (nx ny p q : ℕ) :
    normSq (fft2 n m (amplitude n m o) nx ny p q) ≤ count n m o := by
  have hle : ‖fft2 n m (amplitude n m o) nx ny p q‖ ≤ Real.sqrt (count n m o) := by
    unfold fft2
    have hterm : ∀ x y, ‖amplitude n m o x y *
        exp (-2 * I * Real.pi * (p * x / nx + q * y / ny))‖ =
        (if (o x y).isSome then 1 else 0) / Real.sqrt (count n m o) := by
      intro x y
      have hk : ‖exp (-2 * I * Real.pi * (p * x / nx + q * y / ny))‖ = 1 := by
        have := norm_kernel (p * x / nx + q * y / ny)
        push_cast at this
        exact this
      rw [norm_mul, hk, mul_one, amplitude, norm_div, norm_phasor_le, Complex.norm_real,
        Real.norm_of_nonneg (Real.sqrt_nonneg _)]
    calc _ ≤ ∑ x ∈ Finset.range n, ∑ y ∈ Finset.range m,
          (if (o x y).isSome then 1 else 0) / Real.sqrt (count n m o) := by
          refine (norm_sum_le _ _).trans (Finset.sum_le_sum fun x _ => ?_)
          refine (norm_sum_le _ _).trans (Finset.sum_le_sum fun y _ => ?_)
          exact (hterm x y).le
      _ = count n m o / Real.sqrt (count n m o) := by
          simp only [← Finset.sum_div]
          congr 1
          simp [count]
      _ = Real.sqrt (count n m o) := Real.div_sqrt
      _ ≤ _ := le_rfl
  rw [normSq_eq_norm_sq]
  calc ‖fft2 n m (amplitude n m o) nx ny p q‖ ^ 2 ≤ Real.sqrt (count n m o) ^ 2 :=
        pow_le_pow_left₀ (norm_nonneg _) hle 2
    _ = count n m o := Real.sq_sqrt (Nat.cast_nonneg _)

/-- The sum of squared distances from the mean. -/
theorem variance {ι : Type*} (s : Finset ι) (z : ι → ℂ) (hz : ∀ i ∈ s, normSq (z i) = 1)
    (h : normSq (∑ i ∈ s, z i) = (s.card : ℝ) ^ 2) : ∀ i ∈ s, ∀ j ∈ s, z i = z j := by
  rcases s.eq_empty_or_nonempty with rfl | hs
  · simp
  have hN : (0 : ℝ) < s.card := by exact_mod_cast hs.card_pos
  have hNc : (s.card : ℂ) ≠ 0 := by exact_mod_cast hN.ne'
  set S := ∑ i ∈ s, z i with hS
  have hsum : ∑ i ∈ s, normSq (z i - S / s.card) = 0 := by
    have e : ∀ i ∈ s, normSq (z i - S / s.card) =
        1 + 1 - 2 * (z i * conj (S / s.card)).re := by
      intro i hi
      rw [normSq_sub, hz i hi, normSq_div, h]
      congr 1
      rw [show normSq ((s.card : ℕ) : ℂ) = (s.card : ℝ) ^ 2 by
        rw [normSq_natCast]; ring, div_self (by positivity)]
    rw [Finset.sum_congr rfl e, Finset.sum_sub_distrib, ← Finset.mul_sum, ← Complex.re_sum,
      ← Finset.sum_mul, ← hS, map_div₀, map_natCast, ← mul_div_assoc, mul_conj, h]
    simp only [Finset.sum_const, nsmul_eq_mul]
    have : (((((s.card : ℝ) ^ 2 : ℝ) : ℂ)) / (s.card : ℂ)).re = s.card := by
      rw [show ((((s.card : ℝ) ^ 2 : ℝ) : ℂ)) / (s.card : ℂ) = ((s.card : ℝ) : ℂ) by
        push_cast; field_simp]
      exact ofReal_re _
    rw [this]
    ring
  have h0 := (Finset.sum_eq_zero_iff_of_nonneg fun i _ => normSq_nonneg _).mp hsum
  have h1 : ∀ i ∈ s, z i = S / s.card := fun i hi => sub_eq_zero.mp (normSq_eq_zero.mp (h0 i hi))
  exact fun i hi j hj => (h1 i hi).trans (h1 j hj).symm

theorem phasor_eq_iff (a b : ℝ) : phasor (some a) = phasor (some b) ↔ ∃ k : ℤ, a = b + k := by
  simp only [phasor]
  rw [Complex.exp_eq_exp_iff_exists_int]
  have hpi : (Real.pi : ℂ) ≠ 0 := by exact_mod_cast Real.pi_ne_zero
  have hI := Complex.I_ne_zero
  constructor
  · rintro ⟨k, hk⟩
    refine ⟨-k, ?_⟩
    have h1 : (-2 * I * Real.pi) * (a : ℂ) = (-2 * I * Real.pi) * ((b : ℂ) - k) := by
      linear_combination hk
    have h2 := mul_left_cancel₀ (by
      simp [hpi, hI] : (-2 * I * Real.pi : ℂ) ≠ 0) h1
    have : a = b - k := by exact_mod_cast h2
    rw [this]; push_cast; ring
  · rintro ⟨k, rfl⟩
    refine ⟨-k, ?_⟩
    push_cast
    ring

/-- C79: the Strehl ratio.  No value of the point spread function exceeds the central value of a
perfect wavefront, which is the number of pupil points over the size of the array; the centre reaches
it exactly if the optical path differences of all points differ by whole waves. -/
theorem c79_strehl (n m pad : ℕ) (o : ℕ → ℕ → Option ℝ) (hp : 0 < pad) (x y : ℕ) (hx : x < n)
    (hy : y < m) (h : o x y ≠ none) :
    (∀ p q, psf n m pad o p q ≤ count n m o / ((n * pad) * (m * pad))) ∧
    (psf n m pad o 0 0 = count n m o / ((n * pad) * (m * pad)) ↔
      ∀ x < n, ∀ y < m, ∀ x' < n, ∀ y' < m, ∀ a ∈ o x y, ∀ b ∈ o x' y', ∃ k : ℤ, a = b + k) := by
  have hc : (0 : ℝ) < count n m o := by exact_mod_cast count_pos n m o x y hx hy h
  have hn : (0 : ℝ) < n := by exact_mod_cast (by omega : 0 < n)
  have hm : (0 : ℝ) < m := by exact_mod_cast (by omega : 0 < m)
  have hp' : (0 : ℝ) < pad := by exact_mod_cast hp
  constructor
  · intro p q
    rw [psf_eq]
    gcongr
    exact norm_fft2_le n m o _ _ p q
  -- the good points
  set s : Finset (ℕ × ℕ) := ((Finset.range n) ×ˢ (Finset.range m)).filter
    fun v => (o v.1 v.2).isSome with hs
  have hsum : ∀ (M : Type) [AddCommMonoid M] (g : Option ℝ → M), g none = 0 →
      ∑ x ∈ Finset.range n, ∑ y ∈ Finset.range m, g (o x y) = ∑ v ∈ s, g (o v.1 v.2) := by
    intro M _ g hg
    rw [hs, Finset.sum_filter, Finset.sum_product]
    refine Finset.sum_congr rfl fun x _ => Finset.sum_congr rfl fun y _ => ?_
    split
    · rfl
    · rename_i hh
      rw [Option.not_isSome_iff_eq_none.mp hh, hg]
  have hcard : (count n m o : ℝ) = s.card := by
    rw [count_eq, hsum ℝ (fun a => normSq (phasor a)) (by simp [phasor])]
    rw [Finset.sum_congr rfl fun v hv => (normSq_phasor _).trans
      (if_pos (Finset.mem_filter.mp hv).2), Finset.sum_const, nsmul_eq_mul, mul_one]
  have hfft : fft2 n m (amplitude n m o) (n * pad) (m * pad) 0 0 =
      (∑ v ∈ s, phasor (o v.1 v.2)) / (Real.sqrt (count n m o) : ℝ) := by
    rw [← hsum ℂ phasor rfl]
    simp [fft2, amplitude, Finset.sum_div]
  have hnorm : normSq (fft2 n m (amplitude n m o) (n * pad) (m * pad) 0 0) =
      normSq (∑ v ∈ s, phasor (o v.1 v.2)) / count n m o := by
    rw [hfft, normSq_div, normSq_ofReal, Real.mul_self_sqrt hc.le]
  rw [psf_eq, div_left_inj' (by positivity), hnorm, div_eq_iff hc.ne', hcard, ← pow_two]
  have hmem : ∀ x < n, ∀ y < m, ∀ a ∈ o x y, (x, y) ∈ s := by
    intro x hx y hy a ha
    rw [hs, Finset.mem_filter, Finset.mem_product, Finset.mem_range, Finset.mem_range]
    exact ⟨⟨hx, hy⟩, by rw [show o x y = some a from ha]; rfl⟩
  constructor
  · intro h2 x hx y hy x' hx' y' hy' a ha b hb
    have := variance s (fun v => phasor (o v.1 v.2)) (fun v hv => (normSq_phasor _).trans
      (if_pos (Finset.mem_filter.mp hv).2)) h2 (x, y) (hmem x hx y hy a ha) (x', y')
      (hmem x' hx' y' hy' b hb)
    dsimp only at this
    rw [show o x y = some a from ha, show o x' y' = some b from hb] at this
    exact (phasor_eq_iff a b).mp this
  · intro h2
    obtain ⟨b, hb⟩ := Option.ne_none_iff_exists'.mp h
    have hall : ∀ v ∈ s, phasor (o v.1 v.2) = phasor (some b) := by
      intro v hv
      rw [hs, Finset.mem_filter, Finset.mem_product, Finset.mem_range, Finset.mem_range] at hv
      obtain ⟨a, ha⟩ := Option.isSome_iff_exists.mp hv.2
      rw [ha]
      exact (phasor_eq_iff a b).mpr (h2 v.1 hv.1.1 v.2 hv.1.2 x hx y hy a ha b hb)
    rw [Finset.sum_congr rfl hall, Finset.sum_const, nsmul_eq_mul, normSq_mul, normSq_phasor,
      normSq_natCast]
    simp
    ring

/-- A pupil of two points half a wave apart: the centre is dark. -/
example : psf 2 1 2 (fun x _ => some (x / 2)) 0 0 = 0 := by
  have : exp (-2 * I * Real.pi * ((1 : ℝ) / 2 : ℝ)) = -1 := by
    rw [show -2 * I * Real.pi * ((1 : ℝ) / 2 : ℝ) = -(Real.pi * I) by push_cast; ring, Complex.exp_neg,
      Complex.exp_pi_mul_I]
    norm_num
  rw [psf_eq]
  have : fft2 2 1 (amplitude 2 1 fun x _ => some (x / 2)) (2 * 2) (1 * 2) 0 0 = 0 := by
    simp only [fft2, amplitude, phasor, Finset.sum_range_succ, Finset.sum_range_zero]
    norm_num at this ⊢
    rw [this]
    ring
  rw [this]
  simp

end RayOpt.Psf
