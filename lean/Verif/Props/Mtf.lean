import Verif.Model.Mtf
import Verif.Props.Psf
import Verif.Props.Sums

/-!
C87: the transfer function of `Analysis.opds` is the autocorrelation of the pupil; encircled energy.
-/

namespace RayOpt.Psf

open Complex ComplexConjugate

theorem mod_shift {k c : ℕ} (hc : c ≤ k) {i : ℕ} (hi : i < k) :
    ((i + c) % k + (k - c)) % k = i := by
  rw [Nat.mod_add_mod, show i + c + (k - c) = i + k by omega, Nat.add_mod_right, Nat.mod_eq_of_lt hi]

theorem sum_shift {M : Type*} [AddCommMonoid M] {k c : ℕ} (hc : c ≤ k) (F : ℕ → M) :
    ∑ i ∈ Finset.range k, F ((i + c) % k) = ∑ i ∈ Finset.range k, F i := by
  rcases Nat.eq_zero_or_pos k with rfl | hk
  · simp
  refine Finset.sum_nbij' (fun i => (i + c) % k) (fun i => (i + (k - c)) % k) ?_ ?_ ?_ ?_ ?_
  · intro i _; exact Finset.mem_range.mpr (Nat.mod_lt _ hk)
  · intro i _; exact Finset.mem_range.mpr (Nat.mod_lt _ hk)
  · intro i hi; exact mod_shift hc (Finset.mem_range.mp hi)
  · intro i hi
    have := mod_shift (Nat.sub_le k c) (Finset.mem_range.mp hi)
    rwa [show k - (k - c) = c by omega] at this
  · intro i _; rfl

theorem fftshift_ifftshift {k q : ℕ} (hq : q < k) : fftshift k (ifftshift k q) = q :=
  mod_shift (Nat.div_le_self k 2) hq

theorem fft2_swap (n m : ℕ) (a : ℕ → ℕ → ℂ) (nx ny p q : ℕ) :
    fft2 n m a nx ny p q = fft2 m n (fun x y => a y x) ny nx q p := by
  unfold fft2
  rw [Finset.sum_comm]
  refine Finset.sum_congr rfl fun x _ => Finset.sum_congr rfl fun y _ => ?_
  rw [add_comm]

theorem count_swap (n m : ℕ) (o : ℕ → ℕ → Option ℝ) : count n m o = count m n (fun x y => o y x) := by
  unfold count; rw [Finset.sum_comm]

theorem psf_swap (n m pad : ℕ) (o : ℕ → ℕ → Option ℝ) (p q : ℕ) :
    psf n m pad o p q = psf m n pad (fun x y => o y x) q p := by
  rw [psf_eq, psf_eq, fft2_swap]
  have : (fun x y => amplitude n m o y x) = amplitude m n (fun x y => o y x) := by
    funext x y; unfold amplitude; rw [count_swap]
  rw [this]
  ring

theorem lineSum_swap (n m pad : ℕ) (o : ℕ → ℕ → Option ℝ) (i : ℕ) :
    lineSum n m pad o 1 i = lineSum m n pad (fun x y => o y x) 0 i := by
  unfold lineSum shifted
  refine Finset.sum_congr rfl fun j _ => psf_swap _ _ _ _ _ _

theorem otf_swap (n m pad : ℕ) (o : ℕ → ℕ → Option ℝ) (f : ℕ) :
    otf n m pad o 1 f = otf m n pad (fun x y => o y x) 0 f := by
  unfold otf
  simp only [if_true, one_ne_zero, if_false, lineSum_swap]
  rw [mul_comm ((n * pad : ℕ) : ℝ)]

/-- Autocorrelation of a padded transform: the inverse transform of its power. -/
theorem wiener (n k : ℕ) (a : ℕ → ℂ) (f : ℕ) (hf : f + n ≤ k) :
    ifft k (fun q => (normSq (∑ y ∈ Finset.range n, a y * exp (-2 * I * Real.pi * (q * y / k))) : ℂ)) f
      = ∑ y ∈ Finset.range n, if y + f < n then a (y + f) * conj (a y) else 0 := by
  rcases Nat.eq_zero_or_pos n with rfl | hn
  · simp [ifft]
  have hk : (k : ℂ) ≠ 0 := by exact_mod_cast (by omega : k ≠ 0)
  unfold ifft
  rw [div_eq_iff hk]
  set z := exp (2 * Real.pi * I / k) with hz
  have hpow : ∀ q : ℕ, exp (2 * I * Real.pi * (f * q / k)) = z ^ (q * f) := by
    intro q
    rw [hz, ← Complex.exp_nat_mul]
    congr 1
    push_cast
    ring
  have key : ∀ q : ℕ, (normSq (∑ y ∈ Finset.range n, a y * exp (-2 * I * Real.pi * (q * y / k))) : ℂ)
      * exp (2 * I * Real.pi * (f * q / k)) =
      ∑ y' ∈ Finset.range n, ∑ y ∈ Finset.range n, a y * conj (a y') *
        (z⁻¹ ^ (q * y) * z ^ (q * (y' + f))) := by
    intro q
    rw [← mul_conj, map_sum, Finset.sum_mul_sum, Finset.sum_comm, Finset.sum_mul]
    refine Finset.sum_congr rfl fun y' _ => ?_
    rw [Finset.sum_mul]
    refine Finset.sum_congr rfl fun y _ => ?_
    rw [kernel_eq, kernel_eq, map_mul, map_pow, map_inv₀, conj_root, inv_inv, hpow, ← hz, mul_add,
      pow_add]
    ring
  rw [Finset.sum_congr rfl fun q _ => key q, Finset.sum_comm, Finset.sum_mul]
  refine Finset.sum_congr rfl fun y' hy' => ?_
  have hy'n := Finset.mem_range.mp hy'
  rw [Finset.sum_comm]
  simp only [← Finset.mul_sum]
  have hinner : ∀ y ∈ Finset.range n, (∑ q ∈ Finset.range k, z⁻¹ ^ (q * y) * z ^ (q * (y' + f)))
      = if y = y' + f then (k : ℂ) else 0 := by
    intro y hy
    exact orthogonal k y (y' + f) (by have := Finset.mem_range.mp hy; omega) (by omega)
  rw [Finset.sum_congr rfl fun y hy => by rw [hinner y hy]]
  simp only [mul_ite, mul_zero, Finset.sum_ite_eq', Finset.mem_range]
  split
  · rfl
  · rw [zero_mul]

theorem lineSum_zero (n m pad : ℕ) (o : ℕ → ℕ → Option ℝ) {q : ℕ} (hq : q < m * pad)
    (hp : 0 < pad) : lineSum n m pad o 0 (ifftshift (m * pad) q) =
      (∑ x ∈ Finset.range n, normSq (∑ y ∈ Finset.range m, amplitude n m o x y *
        exp (-2 * I * Real.pi * (q * y / (m * pad : ℕ))))) / (m * pad : ℕ) := by
  unfold lineSum shifted
  dsimp only
  rw [fftshift_ifftshift hq]
  unfold fftshift
  rw [sum_shift (Nat.sub_le _ _) (fun p => psf n m pad o p q)]
  simp only [psf_eq, ← Finset.sum_div, fft2_eq]
  rw [parseval n (n * pad) (Nat.le_mul_of_pos_right n hp)]
  rcases Nat.eq_zero_or_pos n with rfl | hn
  · simp
  have h1 : ((n * pad : ℕ) : ℝ) ≠ 0 := by exact_mod_cast (Nat.mul_pos hn hp).ne'
  have h2 : ((m * pad : ℕ) : ℝ) ≠ 0 := by exact_mod_cast (by omega : m * pad ≠ 0)
  push_cast at h1 h2 ⊢
  have hp' : (pad : ℝ) ≠ 0 := by exact_mod_cast hp.ne'
  have hn' : (n : ℝ) ≠ 0 := by exact_mod_cast hn.ne'
  have hm' : (m : ℝ) ≠ 0 := fun h => h2 (by rw [h, zero_mul])
  field_simp

/-- C87: for the square grids of `opd`, the transfer function along each axis is the autocorrelation
of the amplitude in the pupil, up to the frequency `n (pad - 1)`, where the copies of the pupil begin
to meet. -/
theorem c87_autocorrelation (n pad : ℕ) (o : ℕ → ℕ → Option ℝ) (f : ℕ) (hf : f + n ≤ n * pad) :
    otf n n pad o 0 f = ∑ x ∈ Finset.range n, ∑ y ∈ Finset.range n,
      (if y + f < n then amplitude n n o x (y + f) * conj (amplitude n n o x y) else 0) ∧
    otf n n pad o 1 f = ∑ y ∈ Finset.range n, ∑ x ∈ Finset.range n,
      (if x + f < n then amplitude n n o (x + f) y * conj (amplitude n n o x y) else 0) := by
  have main : ∀ o : ℕ → ℕ → Option ℝ, otf n n pad o 0 f = ∑ x ∈ Finset.range n,
      ∑ y ∈ Finset.range n,
      (if y + f < n then amplitude n n o x (y + f) * conj (amplitude n n o x y) else 0) := by
    intro o
    rcases Nat.eq_zero_or_pos n with rfl | hn
    · simp [otf, ifft]
    have hp : 0 < pad := by
      rcases Nat.eq_zero_or_pos pad with rfl | h
      · omega
      · exact h
    unfold otf
    simp only [if_true]
    have hk : ((n * pad : ℕ) : ℝ) ≠ 0 := by exact_mod_cast (Nat.mul_pos hn hp).ne'
    rw [Real.sqrt_mul_self (Nat.cast_nonneg _)]
    have : ∀ x, ∑ y ∈ Finset.range n, (if y + f < n then amplitude n n o x (y + f) *
        conj (amplitude n n o x y) else 0) = ifft (n * pad) (fun q => (normSq (∑ y ∈ Finset.range n,
          amplitude n n o x y * exp (-2 * I * Real.pi * (q * y / (n * pad : ℕ)))) : ℂ)) f :=
      fun x => (wiener n (n * pad) _ f hf).symm
    rw [Finset.sum_congr rfl fun x _ => this x]
    unfold ifft
    rw [← Finset.sum_div, Finset.sum_comm]
    congr 1
    refine Finset.sum_congr rfl fun q hq => ?_
    dsimp only
    rw [lineSum_zero n n pad o (Finset.mem_range.mp hq) hp, div_mul_cancel₀ _ hk, ← Finset.sum_mul]
    push_cast
    rfl
  refine ⟨main o, ?_⟩
  rw [otf_swap, main]
  refine Finset.sum_congr rfl fun y _ => Finset.sum_congr rfl fun x _ => ?_
  have : ∀ x y, amplitude n n (fun x y => o y x) y x = amplitude n n o x y := by
    intro x y; unfold amplitude; rw [count_swap]
  rw [this, this]

/-- The grid points of the pupil that are still in the pupil after a shift by `f` along `axis`. -/
def overlap (n : ℕ) (o : ℕ → ℕ → Option ℝ) (axis : Fin 2) (f : ℕ) : ℕ :=
  ∑ x ∈ Finset.range n, ∑ y ∈ Finset.range n,
    if axis = 0 then (if y + f < n ∧ (o x y).isSome ∧ (o x (y + f)).isSome then 1 else 0)
    else (if x + f < n ∧ (o x y).isSome ∧ (o (x + f) y).isSome then 1 else 0)

theorem norm_amplitude (n m : ℕ) (o : ℕ → ℕ → Option ℝ) (x y : ℕ) :
    ‖amplitude n m o x y‖ = (if (o x y).isSome then 1 else 0) / Real.sqrt (count n m o) := by
  have h := normSq_phasor (o x y)
  unfold amplitude
  rw [norm_div, Complex.norm_real, Real.norm_of_nonneg (Real.sqrt_nonneg _)]
  congr 1
  rw [normSq_eq_norm_sq] at h
  split at h
  · next hs =>
    rw [if_pos hs]
    rcases sq_eq_sq_iff_eq_or_eq_neg.mp (h.trans (one_pow 2).symm) with h | h
    · exact h
    · linarith [norm_nonneg (phasor (o x y))]
  · next hs => rw [if_neg hs]; simpa using h

theorem norm_term_le (n : ℕ) (o : ℕ → ℕ → Option ℝ) (P : Prop) [Decidable P] (x y x' y' : ℕ) :
    ‖if P then amplitude n n o x' y' * conj (amplitude n n o x y) else 0‖
      = ((if P ∧ (o x y).isSome ∧ (o x' y').isSome then 1 else 0 : ℕ) : ℝ) / count n n o := by
  by_cases hP : P
  · rw [if_pos hP, norm_mul, RCLike.norm_conj, norm_amplitude, norm_amplitude, div_mul_div_comm,
      Real.mul_self_sqrt (Nat.cast_nonneg _)]
    congr 1
    cases (o x y).isSome <;> cases (o x' y').isSome <;> simp [hP]
  · simp [hP]

/-- C87, diffraction limit: the modulation is not larger than the part of the pupil common with its
shifted copy, so it is at most one, and zero beyond the cut-off where the copies separate. -/
theorem c87_limit (n pad : ℕ) (o : ℕ → ℕ → Option ℝ) (axis : Fin 2) (f : ℕ) (hf : f + n ≤ n * pad) :
    ‖otf n n pad o axis f‖ ≤ overlap n o axis f / count n n o ∧
    (n ≤ f → otf n n pad o axis f = 0) := by
  obtain ⟨h0, h1⟩ := c87_autocorrelation n pad o f hf
  have hov : ‖otf n n pad o axis f‖ ≤ overlap n o axis f / count n n o := by
    fin_cases axis
    · show ‖otf n n pad o 0 f‖ ≤ overlap n o 0 f / count n n o
      rw [h0]
      refine (norm_sum_le _ _).trans ?_
      simp only [overlap, if_true, Nat.cast_sum, Finset.sum_div]
      refine Finset.sum_le_sum fun x _ => (norm_sum_le _ _).trans ?_
      refine Finset.sum_le_sum fun y _ => ?_
      rw [norm_term_le]
    · show ‖otf n n pad o 1 f‖ ≤ overlap n o 1 f / count n n o
      rw [h1, Finset.sum_comm]
      refine (norm_sum_le _ _).trans ?_
      simp only [overlap, one_ne_zero, if_false, Nat.cast_sum, Finset.sum_div]
      refine Finset.sum_le_sum fun x _ => (norm_sum_le _ _).trans ?_
      refine Finset.sum_le_sum fun y _ => ?_
      rw [norm_term_le]
  refine ⟨hov, fun hn => ?_⟩
  have : overlap n o axis f = 0 := by
    unfold overlap
    refine Finset.sum_eq_zero fun x _ => Finset.sum_eq_zero fun y _ => ?_
    split
    · rw [if_neg (by omega)]
    · rw [if_neg (by omega)]
  rw [this] at hov
  simpa using hov

theorem overlap_le (n : ℕ) (o : ℕ → ℕ → Option ℝ) (axis : Fin 2) (f : ℕ) :
    overlap n o axis f ≤ count n n o := by
  unfold overlap count
  refine Finset.sum_le_sum fun x _ => Finset.sum_le_sum fun y _ => ?_
  by_cases h : (o x y).isSome
  · rw [if_pos h]; split <;> split <;> simp
  · rw [if_neg h]; simp [h]

/-- C87: at frequency zero the transfer function is one; it is at most one everywhere. -/
theorem c87_one (n pad : ℕ) (o : ℕ → ℕ → Option ℝ) (axis : Fin 2) (hp : 0 < pad) (x y : ℕ)
    (hx : x < n) (hy : y < n) (h : o x y ≠ none) :
    otf n n pad o axis 0 = 1 ∧ ∀ f, f + n ≤ n * pad → ‖otf n n pad o axis f‖ ≤ 1 := by
  have hc : (0 : ℝ) < count n n o := by exact_mod_cast count_pos n n o x y hx hy h
  refine ⟨?_, fun f hf => (c87_limit n pad o axis f hf).1.trans ?_⟩
  · obtain ⟨h0, h1⟩ := c87_autocorrelation n pad o 0
      (by rw [zero_add]; exact Nat.le_mul_of_pos_right n hp)
    have hsum : (∑ x ∈ Finset.range n, ∑ y ∈ Finset.range n,
        amplitude n n o x y * conj (amplitude n n o x y)) = 1 := by
      have : ∀ x y, amplitude n n o x y * conj (amplitude n n o x y)
          = ((normSq (phasor (o x y)) / count n n o : ℝ) : ℂ) := by
        intro x y; rw [mul_conj, normSq_amplitude]
      simp only [this]
      rw [← ofReal_one, ← div_self hc.ne']
      conv_rhs => rw [count_eq]
      simp only [← ofReal_sum, ← Finset.sum_div]
      rw [count_eq]
    fin_cases axis
    · refine Eq.trans h0 (Eq.trans ?_ hsum)
      refine Finset.sum_congr rfl fun x _ => Finset.sum_congr rfl fun y hy => ?_
      rw [add_zero, if_pos (Finset.mem_range.mp hy)]
    · refine Eq.trans h1 (Eq.trans ?_ hsum)
      rw [Finset.sum_comm]
      refine Finset.sum_congr rfl fun x hx => Finset.sum_congr rfl fun y _ => ?_
      rw [add_zero, if_pos (Finset.mem_range.mp hx)]
  · rw [div_le_one hc]
    exact_mod_cast overlap_le n o axis f

/-- C87: a wavefront without error attains the diffraction limit at every frequency. -/
theorem c87_perfect (n pad : ℕ) (o : ℕ → ℕ → Option ℝ) (c : ℝ) (ho : ∀ x y, o x y = none ∨ o x y = some c)
    (axis : Fin 2) (f : ℕ) (hf : f + n ≤ n * pad) :
    otf n n pad o axis f = overlap n o axis f / count n n o := by
  obtain ⟨h0, h1⟩ := c87_autocorrelation n pad o f hf
  have hterm : ∀ (P : Prop) [Decidable P] (x y x' y' : ℕ),
      (if P then amplitude n n o x' y' * conj (amplitude n n o x y) else 0)
      = ((if P ∧ (o x y).isSome ∧ (o x' y').isSome then 1 else 0 : ℕ) : ℂ) / count n n o := by
    intro P _ x y x' y'
    by_cases hP : P
    · rw [if_pos hP]
      rcases ho x y with h | h
      · simp [amplitude, h, phasor]
      rcases ho x' y' with h' | h'
      · simp [amplitude, h', phasor]
      have : amplitude n n o x' y' = amplitude n n o x y := by unfold amplitude; rw [h, h']
      rw [this, mul_conj, normSq_amplitude, normSq_phasor]
      simp [h, h', hP]
    · simp [hP]
  fin_cases axis
  · refine Eq.trans h0 ?_
    simp only [hterm]
    simp only [overlap, Fin.zero_eta, if_true, Nat.cast_sum, Finset.sum_div]
  · refine Eq.trans h1 ?_
    rw [Finset.sum_comm]
    simp only [hterm]
    simp only [overlap, Fin.mk_one, one_ne_zero, if_false, Nat.cast_sum, Finset.sum_div]

theorem shifted_total (n pad : ℕ) (o : ℕ → ℕ → Option ℝ) (hp : 0 < pad) (x y : ℕ)
    (hx : x < n) (hy : y < n) (h : o x y ≠ none) :
    (∀ i j, 0 ≤ shifted n n pad o i j) ∧
    ∑ i ∈ Finset.range (n * pad), ∑ j ∈ Finset.range (n * pad), shifted n n pad o i j = 1 := by
  obtain ⟨h0, h1⟩ := c79_total n n pad o hp x y hx hy h
  refine ⟨fun i j => h0 _ _, ?_⟩
  unfold shifted fftshift
  rw [sum_shift (Nat.sub_le _ _) (fun p => ∑ j ∈ Finset.range (n * pad),
    psf n n pad o p ((j + (n * pad - n * pad / 2)) % (n * pad)))]
  rw [← h1]
  exact Finset.sum_congr rfl fun p _ => sum_shift (Nat.sub_le _ _) (fun q => psf n n pad o p q)

/-- The frequencies after the shift are equally spaced, with zero in the middle. -/
theorem freq_shift {k : ℕ} (hk : Even k) (d : ℝ) {i : ℕ} (hi : i < k) :
    fftfreq k d (fftshift k i) = ((i : ℝ) - k / 2) / (k * d) := by
  obtain ⟨h, rfl⟩ := hk
  have h2 : (h + h) / 2 = h := by omega
  have hs : fftshift (h + h) i = if i < h then i + h else i - h := by
    unfold fftshift
    rw [h2]
    split
    · rw [Nat.mod_eq_of_lt (by omega)]; omega
    · rw [show i + (h + h - h) = (i - h) + (h + h) by omega, Nat.add_mod_right,
        Nat.mod_eq_of_lt (by omega)]
  unfold fftfreq
  rw [hs]
  congr 1
  split
  · rw [if_neg (by omega)]; push_cast; ring
  · rw [if_pos (by omega), Nat.cast_sub (by omega)]; push_cast; ring

/-- C87: the centre of the encircled energy is the centroid of the point spread function, in pixels
of the shifted array. -/
theorem c87_centre (n pad : ℕ) (o : ℕ → ℕ → Option ℝ) (hp : 0 < pad) (x y : ℕ) (hx : x < n)
    (hy : y < n) (h : o x y ≠ none) (hev : Even (n * pad)) (d : ℝ) (hd : d ≠ 0) :
    center n n pad o d =
      (∑ i ∈ Finset.range (n * pad), ∑ j ∈ Finset.range (n * pad), shifted n n pad o i j * i,
       ∑ i ∈ Finset.range (n * pad), ∑ j ∈ Finset.range (n * pad), shifted n n pad o i j * j) := by
  have hk : 0 < n * pad := Nat.mul_pos (by omega) hp
  have hk2 : 1 < n * pad := by obtain ⟨c, hc⟩ := hev; omega
  have hk' : ((n * pad : ℕ) : ℝ) ≠ 0 := by exact_mod_cast hk.ne'
  have ht := (shifted_total n pad o hp x y hx hy h).2
  have hpx : pixel n pad d = 1 / ((n * pad : ℕ) * d) := by
    unfold pixel coords
    dsimp only
    rw [freq_shift hev d hk2, freq_shift hev d hk]
    push_cast
    ring
  have hco : ∀ i ∈ Finset.range (n * pad), fftfreq (n * pad) d (fftshift (n * pad) i)
      = ((i : ℝ) - (n * pad : ℕ) / 2) / ((n * pad : ℕ) * d) := fun i hi =>
    freq_shift hev d (Finset.mem_range.mp hi)
  unfold center centroid coords
  dsimp only
  rw [hpx]
  have e1 : ∑ i ∈ Finset.range (n * pad), ∑ j ∈ Finset.range (n * pad),
      shifted n n pad o i j * fftfreq (n * pad) d (fftshift (n * pad) i) =
      (∑ i ∈ Finset.range (n * pad), ∑ j ∈ Finset.range (n * pad), shifted n n pad o i j * i
        - (n * pad : ℕ) / 2) / ((n * pad : ℕ) * d) := by
    have : ((n * pad : ℕ) : ℝ) / 2 = ∑ i ∈ Finset.range (n * pad), ∑ j ∈ Finset.range (n * pad),
        shifted n n pad o i j * ((n * pad : ℕ) / 2) := by
      simp only [← Finset.sum_mul]; rw [ht, one_mul]
    rw [this, ← Finset.sum_sub_distrib, Finset.sum_div]
    refine Finset.sum_congr rfl fun i hi => ?_
    rw [← Finset.sum_sub_distrib, Finset.sum_div]
    refine Finset.sum_congr rfl fun j hj => ?_
    rw [hco i hi]; ring
  have e2 : ∑ i ∈ Finset.range (n * pad), ∑ j ∈ Finset.range (n * pad),
      shifted n n pad o i j * fftfreq (n * pad) d (fftshift (n * pad) j) =
      (∑ i ∈ Finset.range (n * pad), ∑ j ∈ Finset.range (n * pad), shifted n n pad o i j * j
        - (n * pad : ℕ) / 2) / ((n * pad : ℕ) * d) := by
    have : ((n * pad : ℕ) : ℝ) / 2 = ∑ i ∈ Finset.range (n * pad), ∑ j ∈ Finset.range (n * pad),
        shifted n n pad o i j * ((n * pad : ℕ) / 2) := by
      simp only [← Finset.sum_mul]; rw [ht, one_mul]
    rw [this, ← Finset.sum_sub_distrib, Finset.sum_div]
    refine Finset.sum_congr rfl fun i hi => ?_
    rw [← Finset.sum_sub_distrib, Finset.sum_div]
    refine Finset.sum_congr rfl fun j hj => ?_
    rw [hco j hj]; ring
  rw [e1, e2]
  ext <;> (dsimp only; field_simp; ring)

theorem scanl_tail_getD (r : List ℝ) (a : ℝ) (k : ℕ) (hk : k < r.length) :
    ((r.scanl (· + ·) a).tail)[k]? = some (a + ∑ i ∈ Finset.range (k + 1), r.getD i 0) := by
  induction r generalizing a k with
  | nil => simp at hk
  | cons b r ih =>
    rw [List.scanl_cons, List.tail_cons]
    cases k with
    | zero => cases r <;> simp [List.scanl]
    | succ k =>
      have hk' : k < r.length := by simpa using hk
      have := ih (a + b) k hk'
      have hc : (List.scanl (· + ·) (a + b) r)[k + 1]? = ((List.scanl (· + ·) (a + b) r).tail)[k]? := by
        rw [List.getElem?_tail]
      rw [hc, this, Finset.sum_range_succ' _ (k + 1)]
      simp only [List.getD_cons_succ, List.getD_cons_zero]
      congr 1
      ring

/-- C87: the encircled energy at index `k` is the energy in the pixels nearer than `k + 1` pixels to
the centroid; it never decreases and ends with one. -/
theorem c87_encircled (n pad : ℕ) (o : ℕ → ℕ → Option ℝ) (hp : 0 < pad) (x y : ℕ) (hx : x < n)
    (hy : y < n) (h : o x y ≠ none) (d : ℝ) :
    ∃ ee, encircled n n pad o d = some ee ∧
      (∀ k, k < ee.length → ee[k]? = some (∑ i ∈ Finset.range (n * pad), ∑ j ∈ Finset.range (n * pad),
        open Classical in
        if Real.sqrt ((j - (center n n pad o d).2) ^ 2 + (i - (center n n pad o d).1) ^ 2) < k + 1
        then shifted n n pad o i j else 0)) ∧
      ee.Pairwise (· ≤ ·) ∧ ee.getLast? = some 1 := by
  obtain ⟨hnn, ht⟩ := shifted_total n pad o hp x y hx hy h
  set c := center n n pad o d with hcd
  obtain ⟨r, hr, hsum⟩ := Sums.c50_azimuthal_total (n * pad) (n * pad) (shifted n n pad o) c 1 none
    (by simp) (by simp)
  have hr1 : Sums.azimuthalSum (n * pad) (n * pad) (shifted n n pad o) c 1 (some 1) = some r := by
    rw [← hr]; unfold Sums.azimuthalSum; simp
  have hbins := Sums.c50_azimuthal_bins (n * pad) (n * pad) (shifted n n pad o) c 1 1 one_pos r hr1
  have hlen : ((r.scanl (· + ·) 0).tail).length = r.length := by simp
  have hpre : ∀ k : ℕ, ∑ b ∈ Finset.range (k + 1), r.getD b 0 =
      ∑ i ∈ Finset.range (n * pad), ∑ j ∈ Finset.range (n * pad),
        open Classical in
        if Real.sqrt ((j - c.2) ^ 2 + (i - c.1) ^ 2) < k + 1 then shifted n n pad o i j else 0 := by
    intro k
    induction k with
    | zero =>
      rw [Finset.sum_range_one, hbins]
      refine Finset.sum_congr rfl fun i _ => Finset.sum_congr rfl fun j _ => ?_
      simp [Real.sqrt_nonneg]
    | succ k ih =>
      rw [Finset.sum_range_succ, ih, hbins, ← Finset.sum_add_distrib]
      refine Finset.sum_congr rfl fun i _ => ?_
      rw [← Finset.sum_add_distrib]
      refine Finset.sum_congr rfl fun j _ => ?_
      push_cast
      simp only [mul_one]
      set D := Real.sqrt ((j - c.2) ^ 2 + (i - c.1) ^ 2)
      by_cases h1 : D < k + 1
      · rw [if_pos h1, if_neg (by rintro ⟨h2, -⟩; linarith), if_pos (by linarith), add_zero]
      · rw [if_neg h1, zero_add]
        push Not at h1
        by_cases h2 : D < k + 1 + 1
        · rw [if_pos ⟨h1, h2⟩, if_pos h2]
        · rw [if_neg (fun h => h2 h.2), if_neg h2]
  have hval : ∀ k, k < r.length → ((r.scanl (· + ·) 0).tail)[k]? =
      some (∑ b ∈ Finset.range (k + 1), r.getD b 0) := fun k hk => by
    rw [scanl_tail_getD r 0 k hk, zero_add]
  have hpos : ∀ b, 0 ≤ r.getD b 0 := fun b => by
    rw [hbins]
    exact Finset.sum_nonneg fun i _ => Finset.sum_nonneg fun j _ => by split; exacts [hnn _ _, le_rfl]
  refine ⟨(r.scanl (· + ·) 0).tail, by unfold encircled; rw [← hcd, hr]; rfl, ?_, ?_, ?_⟩
  · intro k hk
    rw [hval k (by rwa [hlen] at hk), hpre]
  · rw [List.pairwise_iff_getElem]
    intro i j hi hj hij
    have e1 := hval i (by rwa [hlen] at hi)
    have e2 := hval j (by rwa [hlen] at hj)
    rw [List.getElem?_eq_getElem hi] at e1
    rw [List.getElem?_eq_getElem hj] at e2
    rw [Option.some.inj e1, Option.some.inj e2]
    exact Finset.sum_le_sum_of_subset_of_nonneg (Finset.range_mono (by omega)) fun b _ _ => hpos b
  · have hne : r ≠ [] := by
      rintro rfl
      rw [List.sum_nil] at hsum
      have : Sums.total (n * pad) (n * pad) (shifted n n pad o) = 1 := ht
      linarith
    have hl : 0 < r.length := List.length_pos_iff.mpr hne
    rw [List.getLast?_eq_getElem?, hlen, hval _ (by omega)]
    congr 1
    rw [Nat.sub_add_cancel hl]
    have : ∑ b ∈ Finset.range r.length, r.getD b 0 = r.sum := by
      rw [← Fin.sum_univ_eq_sum_range (fun b => r.getD b 0), ← List.sum_ofFn]
      congr 1
      apply List.ext_getElem (by simp)
      intro i h1 h2
      simp
    rw [this, hsum]
    exact ht

/-- C87, violation: the encircled energy at index `k` is plotted over the radius of `k` pixels
(rayopt/analysis.py 337-338), one pixel too small: for a pupil of one point the curve is one at radius
zero, although every pixel is off the centroid. -/
theorem c87_radius_violation : ∃ ee, encircled 1 1 2 (fun _ _ => some 0) 1 = some ee ∧ ee[0]? = some 1 ∧
    ∀ i : ℕ, i < 2 → ∀ j : ℕ, j < 2 → 0 < Real.sqrt ((j - (center 1 1 2 (fun _ _ => some 0) 1).2) ^ 2 +
      (i - (center 1 1 2 (fun _ _ => some 0) 1).1) ^ 2) := by
  have hpsf : ∀ p q, psf 1 1 2 (fun _ _ => some 0) p q = 1 / 4 := by
    intro p q
    rw [psf_eq]
    simp [fft2, amplitude, phasor, count]
    norm_num
  have hsh : ∀ i j, shifted 1 1 2 (fun _ _ => some 0) i j = 1 / 4 := fun i j => hpsf _ _
  have hc : center 1 1 2 (fun _ _ => some 0) 1 = (1 / 2, 1 / 2) := by
    rw [c87_centre 1 2 _ (by norm_num) 0 0 (by norm_num) (by norm_num) (by simp) (by decide) 1
      one_ne_zero]
    simp only [hsh, Finset.sum_range_succ, Finset.sum_range_zero]
    ext <;> norm_num
  obtain ⟨ee, h1, h2, h3, h4⟩ := c87_encircled 1 2 (fun _ _ => some 0) (by norm_num) 0 0 (by norm_num)
    (by norm_num) (by simp) 1
  have hD : ∀ i < 2, ∀ j < 2, Real.sqrt (((j : ℕ) - (1 / 2 : ℝ)) ^ 2 + ((i : ℕ) - (1 / 2 : ℝ)) ^ 2)
      = Real.sqrt (1 / 2) := by
    intro i hi j hj
    congr 1
    interval_cases i <;> interval_cases j <;> norm_num
  have hs : Real.sqrt (1 / 2) < 1 := by
    rw [Real.sqrt_lt' one_pos]; norm_num
  refine ⟨ee, h1, ?_, ?_⟩
  · have hl : 0 < ee.length := by
      rcases Nat.eq_zero_or_pos ee.length with h | h
      · rw [List.length_eq_zero_iff.mp h] at h4; cases h4
      · exact h
    rw [h2 0 hl, hc]
    simp only [hsh]
    congr 1
    have : ∀ i ∈ Finset.range (1 * 2), ∀ j ∈ Finset.range (1 * 2),
        (open Classical in if Real.sqrt (((j : ℕ) - (1 / 2 : ℝ)) ^ 2 + ((i : ℕ) - (1 / 2 : ℝ)) ^ 2)
          < ((0 : ℕ) : ℝ) + 1 then (1 / 4 : ℝ) else 0) = 1 / 4 := by
      intro i hi j hj
      rw [if_pos]
      rw [hD i (Finset.mem_range.mp hi) j (Finset.mem_range.mp hj)]
      simpa using hs
    rw [Finset.sum_congr rfl fun i hi => Finset.sum_congr rfl fun j hj => this i hi j hj]
    simp
    norm_num
  · intro i hi j hj
    rw [hc, hD i hi j hj]
    exact Real.sqrt_pos.mpr (by norm_num)

/-- The hypotheses hold for a single bright point of a pupil of two by two points. -/
example : otf 2 2 4 (fun x y => if x = 0 ∧ y = 0 then some 0 else none) 0 1 = 0 := by
  rw [c87_perfect 2 4 _ 0 (fun x y => by split <;> simp) 0 1 (by norm_num)]
  simp [overlap]

/-- A full pupil of two by two points without aberration: the modulation at the first frequency is
one half. -/
example : otf 2 2 4 (fun _ _ => some 0) 0 1 = 1 / 2 := by
  rw [c87_perfect 2 4 _ 0 (fun x y => Or.inr rfl) 0 1 (by norm_num)]
  simp [overlap, count]
  norm_num

end RayOpt.Psf
