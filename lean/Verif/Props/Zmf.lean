import Verif.Model.Zmf
import Mathlib.Tactic

/-!
C54: the obfuscation of Zemax lens catalogues is an involution, byte by byte, and reading a catalogue
gives back the lenses that were written.
-/

namespace RayOpt.Zmf

variable (exponent : ℝ → List Char)

/-! ### The key -/

/-- C54: the digits of the text are those of the number, rounded to nine of them. -/
theorem c54_digits (x : ℝ) (hx : x ≠ 0) :
    10 ^ 8 ≤ mantissa x ∧ mantissa x < 10 ^ 9 ∧
    ∃ e : ℤ, abs (|x| - mantissa x * (10 : ℝ) ^ (e - 8)) ≤ 1 / 2 * (10 : ℝ) ^ (e - 8) := by
  have hp : 0 < |x| := abs_pos.mpr hx
  set e := Int.log 10 |x| with he
  have h1 : ((10 : ℕ) : ℝ) ^ e ≤ |x| := Int.zpow_log_le_self (by norm_num) hp
  have h2 : |x| < ((10 : ℕ) : ℝ) ^ (e + 1) := Int.lt_zpow_succ_log_self (by norm_num) _
  push_cast at h1 h2
  set y := |x| * (10 : ℝ) ^ (8 - e) with hy
  have h10 : (0 : ℝ) < 10 := by norm_num
  have hs : (10 : ℝ) ^ e * (10 : ℝ) ^ (8 - e) = 10 ^ 8 := by
    rw [← zpow_add₀ h10.ne']
    norm_num
  have hs' : (10 : ℝ) ^ (e + 1) * (10 : ℝ) ^ (8 - e) = 10 ^ 9 := by
    rw [← zpow_add₀ h10.ne', show e + 1 + (8 - e) = (9 : ℕ) by push_cast; ring, zpow_natCast]
  have hz : (0 : ℝ) < (10 : ℝ) ^ (8 - e) := zpow_pos h10 _
  have h3 : (10 : ℝ) ^ 8 ≤ y := by rw [← hs]; exact mul_le_mul_of_nonneg_right h1 hz.le
  have h4 : y < (10 : ℝ) ^ 9 := by rw [← hs']; exact mul_lt_mul_of_pos_right h2 hz
  have hr := abs_le.mp (abs_sub_round y)
  have hr1 : (10 : ℤ) ^ 8 ≤ round y := by
    have : (10 : ℝ) ^ 8 - 1 / 2 ≤ round y := by linarith [hr.1]
    by_contra hlt
    have h5 : round y ≤ 10 ^ 8 - 1 := by omega
    have h6 : ((round y : ℤ) : ℝ) ≤ 10 ^ 8 - 1 := by exact_mod_cast h5
    linarith
  have hr2 : round y ≤ (10 : ℤ) ^ 9 := by
    by_contra hlt
    have h5 : (10 : ℤ) ^ 9 + 1 ≤ round y := by omega
    have h6 : (10 : ℝ) ^ 9 + 1 ≤ ((round y : ℤ) : ℝ) := by exact_mod_cast h5
    linarith [hr.1]
  have hx8 : |x| = y * (10 : ℝ) ^ (e - 8) := by
    rw [hy, mul_assoc, ← zpow_add₀ h10.ne']
    norm_num
  have hz' : (0 : ℝ) < (10 : ℝ) ^ (e - 8) := zpow_pos h10 _
  have hc : ((round y).toNat : ℝ) = (round y : ℤ) := by
    have : ((round y).toNat : ℤ) = round y := Int.toNat_of_nonneg (by linarith)
    exact_mod_cast this
  unfold mantissa
  rw [if_neg hx]
  simp only [← he, ← hy]
  split
  · rename_i hcar
    refine ⟨le_refl _, by norm_num, e + 1, ?_⟩
    have h7 : ((round y : ℤ) : ℝ) = 10 ^ 9 := by rw [← hc, hcar]; norm_num
    have h8 : (10 : ℝ) ^ (e + 1 - 8) = 10 * (10 : ℝ) ^ (e - 8) := by
      rw [show e + 1 - 8 = (e - 8) + 1 by ring, zpow_add_one₀ h10.ne']
      ring
    rw [h8, hx8, show (((10 ^ 8 : ℕ) : ℝ)) * (10 * (10 : ℝ) ^ (e - 8)) =
      10 ^ 9 * (10 : ℝ) ^ (e - 8) by push_cast; ring, ← sub_mul, abs_mul, abs_of_pos hz']
    rw [h7] at hr
    have h9 : |y - 10 ^ 9| ≤ 1 / 2 := abs_le.mpr hr
    nlinarith
  · rename_i hcar
    refine ⟨by omega, by omega, e, ?_⟩
    rw [hc, hx8, ← sub_mul, abs_mul, abs_of_pos hz']
    exact mul_le_mul_of_nonneg_right (abs_sub_round y) hz'.le

example : 10 ^ 8 ≤ mantissa (-(1 / 3)) ∧ mantissa (-(1 / 3)) < 10 ^ 9 :=
  ⟨(c54_digits (-(1 / 3)) (by norm_num)).1, (c54_digits (-(1 / 3)) (by norm_num)).2.1⟩

theorem digitChar_toNat (d : ℕ) : (digitChar d).toNat = 48 + d % 10 := by
  unfold digitChar
  have : d % 10 < 10 := Nat.mod_lt _ (by norm_num)
  interval_cases d % 10 <;> rfl

theorem parseInt_three (a b c : ℕ) : parseInt [digitChar a, digitChar b, digitChar c] =
    some (100 * (a % 10) + 10 * (b % 10) + c % 10) := by
  unfold parseInt
  have h : ∀ d, 48 ≤ (digitChar d).toNat ∧ (digitChar d).toNat ≤ 57 := fun d => by
    rw [digitChar_toNat]
    omega
  rw [if_neg]
  · simp only [List.foldl_cons, List.foldl_nil, digitChar_toNat]
    congr 1
    omega
  · simp [h]

theorem three_digits (m : ℕ) :
    100 * (m / 10 ^ 2 % 10) + 10 * (m / 10 % 10) + m % 10 = m % 1000 := by omega

/-- C54: every position `p` has a key, a number below 1000: three of the decimals of the number
`13.2 (c + cos(655° c) + sin(17 (p + 3))) (p + 1)` where `c = cos(6 a + 3 b)`, which the minus sign of a
negative number shifts by one. -/
theorem c54_key (a b : ℝ) (p : ℕ) (c x : ℝ) (hc : c = Real.cos (6 * a + 3 * b))
    (hx : x = 66 / 5 * (p + 1) * (c + Real.cos (131 / 36 * Real.pi * c) + Real.sin (17 * p + 51))) :
    key exponent a b p = some (if x < 0 then mantissa x / 10 ^ 4 % 1000
      else mantissa x / 10 ^ 3 % 1000) := by
  have hk : keyReal a b p = x := by
    rw [hx]
    unfold keyReal start
    rw [← hc]
    dsimp only
    rw [show 655 * (Real.pi / 180) * c = 131 / 36 * Real.pi * c by ring,
      show 17 * ((p : ℝ) + 3) = 17 * p + 51 by ring]
    ring
  rw [← hk]
  unfold key sci
  simp only [show List.range 8 = [0, 1, 2, 3, 4, 5, 6, 7] from rfl, List.map_cons, List.map_nil]
  generalize mantissa (keyReal a b p) = m
  split
  · simp only [List.cons_append, List.nil_append, List.drop_succ_cons, List.drop_zero,
      List.take_succ_cons, List.take_zero, parseInt_three]
    congr 1
    have := three_digits (m / 10 ^ 4)
    rw [Nat.div_div_eq_div_mul, Nat.div_div_eq_div_mul] at this
    exact this
  · simp only [List.cons_append, List.nil_append, List.drop_succ_cons, List.drop_zero,
      List.take_succ_cons, List.take_zero, parseInt_three]
    congr 1
    have := three_digits (m / 10 ^ 3)
    rw [Nat.div_div_eq_div_mul, Nat.div_div_eq_div_mul] at this
    exact this

/-- The key of a position. -/
noncomputable def keyOf (a b : ℝ) (p : ℕ) : ℕ := (key exponent a b p).getD 0

theorem keys_eq (a b : ℝ) (n : ℕ) :
    keys exponent a b n = some ((List.range n).map (keyOf exponent a b)) := by
  induction n with
  | zero => rfl
  | succ n ih =>
    unfold keys
    rw [ih, List.range_succ, List.map_append]
    have : key exponent a b n = some (keyOf exponent a b n) := by
      unfold keyOf
      rw [c54_key _ _ _ _ _ _ rfl rfl]
      rfl
    rw [this]
    rfl

theorem obfuscate_eq (data : List UInt8) (a b : ℝ) : obfuscate exponent data a b =
    .ok (List.zipWith (fun d k => d ^^^ UInt8.ofNat k) data
      ((List.range data.length).map (keyOf exponent a b))) := by
  unfold obfuscate
  rw [keys_eq]

/-- C54: obfuscation never fails, keeps the length, and acts on each byte by itself. -/
theorem c54_bytes (data : List UInt8) (a b : ℝ) :
    ∃ out, obfuscate exponent data a b = .ok out ∧ out.length = data.length ∧
      ∀ p d, data[p]? = some d → ∃ k, key exponent a b p = some k ∧
        out[p]? = some (d ^^^ UInt8.ofNat k) := by
  refine ⟨_, obfuscate_eq exponent data a b, by simp, ?_⟩
  intro p d hd
  obtain ⟨hp, rfl⟩ := List.getElem?_eq_some_iff.mp hd
  refine ⟨_, c54_key exponent a b p _ _ rfl rfl, ?_⟩
  rw [List.getElem?_eq_getElem (by simpa using hp)]
  simp [keyOf, c54_key exponent a b p _ _ rfl rfl]

theorem xor_twice (d : UInt8) (k : UInt8) : d ^^^ k ^^^ k = d := by
  rw [UInt8.xor_assoc, UInt8.xor_self, UInt8.xor_zero]

theorem zipWith_twice (data : List UInt8) (k : List ℕ) (h : data.length ≤ k.length) :
    List.zipWith (fun d k => d ^^^ UInt8.ofNat k)
      (List.zipWith (fun d k => d ^^^ UInt8.ofNat k) data k) k = data := by
  induction data generalizing k with
  | nil => simp
  | cons d data ih =>
    cases k with
    | nil => simp at h
    | cons j k =>
      simp only [List.zipWith_cons_cons, xor_twice, ih k (by simpa using h)]

/-- C54: obfuscating twice with the same parameters gives the original bytes, for every length. -/
theorem c54_involution (data : List UInt8) (a b : ℝ) :
    ∃ out, obfuscate exponent data a b = .ok out ∧ obfuscate exponent out a b = .ok data := by
  refine ⟨_, obfuscate_eq exponent data a b, ?_⟩
  rw [obfuscate_eq]
  congr 1
  have : (List.zipWith (fun d k => d ^^^ UInt8.ofNat k) data
      ((List.range data.length).map (keyOf exponent a b))).length = data.length := by simp
  rw [this]
  exact zipWith_twice _ _ (by simp)

/-- C54: different texts stay different. -/
theorem c54_injective (d d' : List UInt8) (a b : ℝ)
    (h : obfuscate exponent d a b = obfuscate exponent d' a b) : d = d' := by
  obtain ⟨o, h1, h2⟩ := c54_involution exponent d a b
  obtain ⟨o', h1', h2'⟩ := c54_involution exponent d' a b
  rw [h1, h1'] at h
  cases h
  rw [h2] at h2'
  exact Except.ok.inj h2'

example : ∃ out, obfuscate exponent [86, 69, 82, 83] 50 12 = .ok out ∧
    obfuscate exponent out 50 12 = .ok [86, 69, 82, 83] :=
  c54_involution exponent _ _ _

/-! ### Catalogues -/

/-- A number as little-endian bytes. -/
def toLe : ℕ → ℕ → List UInt8
  | 0, _ => []
  | n + 1, x => UInt8.ofNat (x % 256) :: toLe n (x / 256)

theorem toLe_length (n x : ℕ) : (toLe n x).length = n := by
  induction n generalizing x with
  | zero => rfl
  | succ n ih => simp [toLe, ih]

theorem le_toLe (n x : ℕ) (h : x < 256 ^ n) : le (toLe n x) = x := by
  induction n generalizing x with
  | zero => simp at h; simp [toLe, le, h]
  | succ n ih =>
    simp only [toLe, le]
    rw [ih (x / 256) (by rw [Nat.div_lt_iff_lt_mul (by norm_num)]; rw [pow_succ] at h; exact h)]
    have : (UInt8.ofNat (x % 256)).toNat = x % 256 := by
      simp
    rw [this]
    omega

/-- The number that a text of decimal digits stands for. -/
def decimal (l : List UInt8) : ℕ := l.foldl (fun a c => 10 * a + (c.toNat - 48)) 0

theorem decimal_toDigits (n : ℕ) :
    decimal ((Nat.toDigits 10 n).map fun c => UInt8.ofNat c.toNat) = n ∧
      ∀ c ∈ (Nat.toDigits 10 n).map fun c => UInt8.ofNat c.toNat, 48 ≤ c.toNat ∧ c.toNat ≤ 57 := by
  have hd : ∀ d < 10, (UInt8.ofNat (Nat.digitChar d).toNat).toNat = 48 + d := by decide
  induction n using Nat.strong_induction_on with
  | _ n ih =>
    rw [Nat.toDigits_eq_if (by norm_num)]
    split_ifs with h
    · have := hd n h
      simp only [decimal, List.map_cons, List.map_nil, List.foldl_cons, List.foldl_nil, this,
        List.mem_singleton, forall_eq]
      omega
    · have h1 := hd (n % 10) (Nat.mod_lt _ (by norm_num))
      obtain ⟨i1, i2⟩ := ih (n / 10) (by omega)
      simp only [List.map_append, List.map_cons, List.map_nil]
      constructor
      · unfold decimal at i1 ⊢
        rw [List.foldl_append, i1]
        simp only [List.foldl_cons, List.foldl_nil, h1]
        omega
      · intro c hc
        rcases List.mem_append.mp hc with hc | hc
        · exact i2 c hc
        · rw [List.mem_singleton] at hc
          rw [hc, h1]
          omega

/-- C54: the line that a text has to start with: `VERS`, a blank, the version in decimal digits, six of them up
to 999999, and a line feed. -/
theorem c54_versline (n : ℕ) : ∃ ds, versLine n = "VERS ".toUTF8.data.toList ++ ds ++ "\n".toUTF8.data.toList ∧
    (∀ c ∈ ds, 48 ≤ c.toNat ∧ c.toNat ≤ 57) ∧ decimal ds = n ∧ 6 ≤ ds.length ∧
    (n < 1000000 → ds.length = 6) := by
  obtain ⟨h1, h2⟩ := decimal_toDigits n
  refine ⟨sixDigits n, ?_, ?_, ?_, ?_, ?_⟩
  · unfold versLine
    congr 1
  · intro c hc
    unfold sixDigits at hc
    rcases List.mem_append.mp hc with hc | hc
    · rw [List.eq_of_mem_replicate hc]; decide
    · exact h2 c hc
  · unfold sixDigits
    have h0 : ∀ k, (List.replicate k (48 : UInt8)).foldl (fun a c => 10 * a + (c.toNat - 48)) 0 = 0 := by
      intro k
      induction k with
      | zero => rfl
      | succ k ih => rw [List.replicate_succ, List.foldl_cons]; exact ih
    unfold decimal at h1 ⊢
    rw [List.foldl_append, h0, h1]
  · unfold sixDigits
    simp only [List.length_append, List.length_replicate]
    omega
  · intro hn
    have := (Nat.length_toDigits_le_iff (b := 10) (n := n) (k := 6) (by norm_num) (by norm_num)).mpr hn
    unfold sixDigits
    simp only [List.length_append, List.length_replicate, List.length_map]
    omega

/-- What is written for a lens: the bytes of the two doubles are given. -/
structure Entry where
  name : List UInt8
  version : ℕ
  elements : ℕ
  shape : ℕ
  aspheric : ℕ
  grin : ℕ
  toroidal : ℕ
  efl : List UInt8
  enp : List UInt8
  data : List UInt8

/-- An entry that fits the format: a name of at most 100 bytes without zeros at its ends, numbers of 32
bits, a known shape, and a text starting with the version. -/
structure Entry.Ok (e : Entry) : Prop where
  name : e.name.length ≤ 100 ∧ e.name.head? ≠ some 0 ∧ e.name.getLast? ≠ some 0
  numbers : e.version < 2 ^ 32 ∧ e.elements < 2 ^ 32 ∧ e.aspheric < 2 ^ 32 ∧ e.grin < 2 ^ 32 ∧
    e.toroidal < 2 ^ 32 ∧ e.data.length < 2 ^ 32
  shape : e.shape < 5
  doubles : e.efl.length = 8 ∧ e.enp.length = 8
  text : ∃ t, e.data = versLine e.version ++ t

/-- The record of an entry: the layout of Zemax catalogues. -/
def Entry.head (e : Entry) : List UInt8 :=
  e.name ++ List.replicate (100 - e.name.length) 0 ++ toLe 4 e.version ++ toLe 4 e.elements ++
    toLe 4 e.shape ++ toLe 4 e.aspheric ++ toLe 4 e.grin ++ toLe 4 e.toroidal ++
    toLe 4 e.data.length ++ e.efl ++ e.enp

/-- The catalogue file of a list of entries with their obfuscated texts. -/
def file (es : List (Entry × List UInt8)) : List UInt8 :=
  toLe 4 1001 ++ es.flatMap fun e => e.1.head ++ e.2

/-- The letters of the shapes: unknown, equi-, bi-, plano-, meniscus. -/
def letter : ℕ → Char
  | 1 => 'E'
  | 2 => 'B'
  | 3 => 'P'
  | 4 => 'M'
  | _ => '?'

/-- The lens of an entry. -/
noncomputable def Entry.lens (double : List UInt8 → ℝ) (e : Entry) : Lens :=
  ⟨e.name, e.version, e.elements, letter e.shape, e.aspheric, e.grin, e.toroidal,
    double e.efl, double e.enp, e.data⟩

theorem strip_pad (l : List UInt8) (n : ℕ) (h1 : l.head? ≠ some 0) (h2 : l.getLast? ≠ some 0) :
    strip (l ++ List.replicate n 0) = l := by
  unfold strip
  cases l with
  | nil =>
    have : (List.replicate n (0 : UInt8)).dropWhile (· = 0) = [] := by
      induction n with
      | zero => rfl
      | succ n ih => simp [List.replicate_succ, ih]
    simp [this]
  | cons a l =>
    have ha : a ≠ 0 := by simpa using h1
    rw [List.cons_append, List.dropWhile_cons_of_neg (by simpa using ha), ← List.cons_append,
      List.reverse_append, List.reverse_replicate]
    have h3 : ∀ (m : ℕ) (r : List UInt8), r.head? ≠ some 0 →
        (List.replicate m 0 ++ r).dropWhile (· = 0) = r := by
      intro m r hr
      induction m with
      | zero =>
        cases r with
        | nil => rfl
        | cons b r =>
          have hb : b ≠ 0 := by simpa using hr
          simp [hb]
      | succ m ih =>
        rw [List.replicate_succ, List.cons_append, List.dropWhile_cons_of_pos (by simp), ih]
    rw [h3 n _ (by rw [List.head?_reverse]; exact h2), List.reverse_reverse]

theorem slice_append (a b c : List UInt8) (i n : ℕ) (ha : a.length = i) (hb : b.length = n) :
    slice (a ++ (b ++ c)) i n = b := by
  unfold slice
  rw [← ha, List.drop_left, ← hb, List.take_left]

theorem head_length (e : Entry) (h : e.Ok) : e.head.length = 144 := by
  have := h.name.1
  have := h.doubles
  simp only [Entry.head, List.length_append, toLe_length, List.length_replicate]
  omega

theorem readLens_entry (double : List UInt8 → ℝ) (e : Entry) (h : e.Ok) (x rest : List UInt8)
    (hx : obfuscate exponent e.data (double e.efl) (double e.enp) = .ok x) :
    readLens exponent double e.head (x ++ rest) = .ok (e.lens double, rest) := by
  obtain ⟨o, ho1, ho2⟩ := c54_involution exponent e.data (double e.efl) (double e.enp)
  obtain rfl : o = x := Except.ok.inj (ho1.symm.trans hx)
  obtain ⟨out, hb1, hb2, -⟩ := c54_bytes exponent e.data (double e.efl) (double e.enp)
  obtain rfl : out = o := Except.ok.inj (hb1.symm.trans hx)
  have hn := h.name.1
  have hN : (e.name ++ List.replicate (100 - e.name.length) (0 : UInt8)).length = 100 := by
    simp; omega
  have hd := h.doubles
  have s0 : slice e.head 0 100 = e.name ++ List.replicate (100 - e.name.length) 0 := by
    have := slice_append [] (e.name ++ List.replicate (100 - e.name.length) 0)
      (toLe 4 e.version ++ toLe 4 e.elements ++ toLe 4 e.shape ++ toLe 4 e.aspheric ++
        toLe 4 e.grin ++ toLe 4 e.toroidal ++ toLe 4 e.data.length ++ e.efl ++ e.enp) 0 100 rfl hN
    simpa [Entry.head, List.append_assoc] using this
  have hlen : ∀ k, (toLe 4 k).length = 4 := toLe_length 4
  have s1 : slice e.head 100 4 = toLe 4 e.version := by
    have := slice_append (e.name ++ List.replicate (100 - e.name.length) 0) (toLe 4 e.version)
      (toLe 4 e.elements ++ toLe 4 e.shape ++ toLe 4 e.aspheric ++ toLe 4 e.grin ++
        toLe 4 e.toroidal ++ toLe 4 e.data.length ++ e.efl ++ e.enp) 100 4 hN (hlen _)
    simpa [Entry.head, List.append_assoc] using this
  have s2 : slice e.head 104 4 = toLe 4 e.elements := by
    have := slice_append (e.name ++ List.replicate (100 - e.name.length) 0 ++ toLe 4 e.version)
      (toLe 4 e.elements) (toLe 4 e.shape ++ toLe 4 e.aspheric ++ toLe 4 e.grin ++
        toLe 4 e.toroidal ++ toLe 4 e.data.length ++ e.efl ++ e.enp) 104 4
      (by rw [List.length_append, hN, hlen]) (hlen _)
    simpa [Entry.head, List.append_assoc] using this
  have s3 : slice e.head 108 4 = toLe 4 e.shape := by
    have := slice_append (e.name ++ List.replicate (100 - e.name.length) 0 ++ toLe 4 e.version ++
      toLe 4 e.elements) (toLe 4 e.shape) (toLe 4 e.aspheric ++ toLe 4 e.grin ++
        toLe 4 e.toroidal ++ toLe 4 e.data.length ++ e.efl ++ e.enp) 108 4
      (by simp only [List.length_append, hlen] at hN ⊢; omega) (hlen _)
    simpa [Entry.head, List.append_assoc] using this
  have s4 : slice e.head 112 4 = toLe 4 e.aspheric := by
    have := slice_append (e.name ++ List.replicate (100 - e.name.length) 0 ++ toLe 4 e.version ++
      toLe 4 e.elements ++ toLe 4 e.shape) (toLe 4 e.aspheric) (toLe 4 e.grin ++
        toLe 4 e.toroidal ++ toLe 4 e.data.length ++ e.efl ++ e.enp) 112 4
      (by simp only [List.length_append, hlen] at hN ⊢; omega) (hlen _)
    simpa [Entry.head, List.append_assoc] using this
  have s5 : slice e.head 116 4 = toLe 4 e.grin := by
    have := slice_append (e.name ++ List.replicate (100 - e.name.length) 0 ++ toLe 4 e.version ++
      toLe 4 e.elements ++ toLe 4 e.shape ++ toLe 4 e.aspheric) (toLe 4 e.grin)
        (toLe 4 e.toroidal ++ toLe 4 e.data.length ++ e.efl ++ e.enp) 116 4
      (by simp only [List.length_append, hlen] at hN ⊢; omega) (hlen _)
    simpa [Entry.head, List.append_assoc] using this
  have s6 : slice e.head 120 4 = toLe 4 e.toroidal := by
    have := slice_append (e.name ++ List.replicate (100 - e.name.length) 0 ++ toLe 4 e.version ++
      toLe 4 e.elements ++ toLe 4 e.shape ++ toLe 4 e.aspheric ++ toLe 4 e.grin)
        (toLe 4 e.toroidal) (toLe 4 e.data.length ++ e.efl ++ e.enp) 120 4
      (by simp only [List.length_append, hlen] at hN ⊢; omega) (hlen _)
    simpa [Entry.head, List.append_assoc] using this
  have s7 : slice e.head 124 4 = toLe 4 e.data.length := by
    have := slice_append (e.name ++ List.replicate (100 - e.name.length) 0 ++ toLe 4 e.version ++
      toLe 4 e.elements ++ toLe 4 e.shape ++ toLe 4 e.aspheric ++ toLe 4 e.grin ++
        toLe 4 e.toroidal) (toLe 4 e.data.length) (e.efl ++ e.enp) 124 4
      (by simp only [List.length_append, hlen] at hN ⊢; omega) (hlen _)
    simpa [Entry.head, List.append_assoc] using this
  have s8 : slice e.head 128 8 = e.efl := by
    have := slice_append (e.name ++ List.replicate (100 - e.name.length) 0 ++ toLe 4 e.version ++
      toLe 4 e.elements ++ toLe 4 e.shape ++ toLe 4 e.aspheric ++ toLe 4 e.grin ++
        toLe 4 e.toroidal ++ toLe 4 e.data.length) e.efl e.enp 128 8
      (by simp only [List.length_append, hlen] at hN ⊢; omega) hd.1
    simpa [Entry.head, List.append_assoc] using this
  have s9 : slice e.head 136 8 = e.enp := by
    have := slice_append (e.name ++ List.replicate (100 - e.name.length) 0 ++ toLe 4 e.version ++
      toLe 4 e.elements ++ toLe 4 e.shape ++ toLe 4 e.aspheric ++ toLe 4 e.grin ++
        toLe 4 e.toroidal ++ toLe 4 e.data.length ++ e.efl) e.enp [] 136 8
      (by simp only [List.length_append, hlen] at hN ⊢; omega) hd.2
    simpa [Entry.head, List.append_assoc] using this
  obtain ⟨n1, n2, n3, n4, n5, n6⟩ := h.numbers
  have hle : ∀ k, k < 2 ^ 32 → le (toLe 4 k) = k := fun k hk => le_toLe 4 k (by norm_num; omega)
  unfold readLens
  rw [s0, s1, s2, s3, s4, s5, s6, s7, s8, s9, hle _ n1, hle _ n2, hle _ n3, hle _ n4, hle _ n5,
    hle _ n6, hle _ (by have := h.shape; omega)]
  have hsh : shapes[e.shape]? = some (letter e.shape) := by
    have := h.shape
    interval_cases e.shape <;> rfl
  rw [hsh]
  have ht : (out ++ rest).take e.data.length = out := by rw [← hb2, List.take_left]
  simp only [ht, hb2, ne_eq, not_true_eq_false, if_false, ho2, Except.bind]
  rw [strip_pad _ _ h.name.2.1 h.name.2.2]
  obtain ⟨t, htext⟩ := h.text
  have hpre : (versLine e.version).isPrefixOf e.data = true := by
    rw [List.isPrefixOf_iff_prefix, htext]
    exact List.prefix_append _ _
  rw [if_pos hpre, ← hb2, List.drop_left]
  rfl

theorem readLenses_file (double : List UInt8 → ℝ) (es : List (Entry × List UInt8))
    (h : ∀ e ∈ es, e.1.Ok ∧
      obfuscate exponent e.1.data (double e.1.efl) (double e.1.enp) = .ok e.2)
    (extra : List UInt8) (hx : extra.length < 144) (fuel : ℕ) (hf : es.length < fuel) :
    readLenses exponent double fuel ((es.flatMap fun e => e.1.head ++ e.2) ++ extra) =
      .ok (es.map fun e => e.1.lens double) := by
  induction es generalizing fuel with
  | nil =>
    cases fuel with
    | zero => simp at hf
    | succ n => simp [readLenses, hx]
  | cons e es ih =>
    cases fuel with
    | zero => simp at hf
    | succ n =>
      have he := h e List.mem_cons_self
      have hl := head_length e.1 he.1
      unfold readLenses
      have hassoc : ((e :: es).flatMap fun e => e.1.head ++ e.2) ++ extra =
          e.1.head ++ (e.2 ++ ((es.flatMap fun e => e.1.head ++ e.2) ++ extra)) := by
        simp [List.append_assoc]
      rw [hassoc, if_neg (by rw [List.length_append, hl]; omega), ← hl, List.take_left,
        List.drop_left, readLens_entry exponent double e.1 he.1 e.2 _ he.2]
      simp only [Except.bind]
      rw [ih (fun x hx => h x (List.mem_cons_of_mem _ hx)) n (by simpa using hf)]
      rfl

/-- C54: reading a catalogue gives the lenses that were written, in order, with their texts; up to 143
bytes at the end of the file are ignored. -/
theorem c54_read (double : List UInt8 → ℝ) (es : List (Entry × List UInt8))
    (h : ∀ e ∈ es, e.1.Ok ∧
      obfuscate exponent e.1.data (double e.1.efl) (double e.1.enp) = .ok e.2)
    (extra : List UInt8) (hx : extra.length < 144) :
    read exponent double (file es ++ extra) = .ok (es.map fun e => e.1.lens double) := by
  have h4 : (toLe 4 1001).length = 4 := toLe_length _ _
  have hassoc : file es ++ extra =
      toLe 4 1001 ++ ((es.flatMap fun e => e.1.head ++ e.2) ++ extra) := by
    simp [file, List.append_assoc]
  unfold read
  rw [hassoc, if_neg (by rw [List.length_append, h4]; omega)]
  have ht : (toLe 4 1001 ++ ((es.flatMap fun e => e.1.head ++ e.2) ++ extra)).take 4 =
      toLe 4 1001 := List.take_left' h4
  have hd : (toLe 4 1001 ++ ((es.flatMap fun e => e.1.head ++ e.2) ++ extra)).drop 4 =
      (es.flatMap fun e => e.1.head ++ e.2) ++ extra := List.drop_left' h4
  rw [ht, hd, le_toLe 4 1001 (by norm_num), if_neg (by simp)]
  apply readLenses_file exponent double es h extra hx
  have hlen : ∀ es : List (Entry × List UInt8), (∀ e ∈ es, e.1.Ok) →
      es.length ≤ (es.flatMap fun e => e.1.head ++ e.2).length := by
    intro es
    induction es with
    | nil => simp
    | cons e es ih =>
      intro hok
      have := ih fun x hx => hok x (List.mem_cons_of_mem _ hx)
      have hl := head_length e.1 (hok e List.mem_cons_self)
      simp only [List.flatMap_cons, List.length_append, List.length_cons, hl] at *
      omega
  have := hlen es fun e he => (h e he).1
  rw [List.length_append, h4, List.length_append]
  omega

/-- C54: a file of fewer than four bytes is a `struct.error`, and only such a file. -/
theorem c54_short (double : List UInt8 → ℝ) (bs : List UInt8) (h : bs.length < 4) :
    read exponent double bs = .error .struct := by
  unfold read
  rw [if_pos h]

/-- C54: a catalogue of another version is refused. -/
theorem c54_version (double : List UInt8 → ℝ) (v : ℕ) (rest : List UInt8) (hv : v < 2 ^ 32)
    (h : v ≠ 1001) : read exponent double (toLe 4 v ++ rest) = .error .assertion := by
  have h4 : (toLe 4 v).length = 4 := toLe_length _ _
  unfold read
  rw [if_neg (by rw [List.length_append, h4]; omega)]
  have ht : (toLe 4 v ++ rest).take 4 = toLe 4 v := List.take_left' h4
  rw [ht, le_toLe 4 v (by norm_num; omega), if_pos h]

/-- C54: a catalogue cut off inside the text of a lens is refused. -/
theorem c54_cut (double : List UInt8 → ℝ) (es : List (Entry × List UInt8))
    (h : ∀ e ∈ es, e.1.Ok ∧
      obfuscate exponent e.1.data (double e.1.efl) (double e.1.enp) = .ok e.2)
    (e : Entry) (he : e.Ok) (part : List UInt8) (hp : part.length < e.data.length) :
    read exponent double (file es ++ (e.head ++ part)) = .error .assertion := by
  have h4 : (toLe 4 1001).length = 4 := toLe_length _ _
  have hassoc : file es ++ (e.head ++ part) =
      toLe 4 1001 ++ ((es.flatMap fun e => e.1.head ++ e.2) ++ (e.head ++ part)) := by
    simp [file, List.append_assoc]
  have hl := head_length e he
  have hbad : readLens exponent double e.head part = .error .assertion := by
    have hn := he.name.1
    have hN : (e.name ++ List.replicate (100 - e.name.length) (0 : UInt8)).length = 100 := by
      simp; omega
    have hlen : ∀ k, (toLe 4 k).length = 4 := toLe_length 4
    have s3 : slice e.head 108 4 = toLe 4 e.shape := by
      have := slice_append (e.name ++ List.replicate (100 - e.name.length) 0 ++ toLe 4 e.version ++
        toLe 4 e.elements) (toLe 4 e.shape) (toLe 4 e.aspheric ++ toLe 4 e.grin ++
          toLe 4 e.toroidal ++ toLe 4 e.data.length ++ e.efl ++ e.enp) 108 4
        (by simp only [List.length_append, hlen] at hN ⊢; omega) (hlen _)
      simpa [Entry.head, List.append_assoc] using this
    have s7 : slice e.head 124 4 = toLe 4 e.data.length := by
      have := slice_append (e.name ++ List.replicate (100 - e.name.length) 0 ++ toLe 4 e.version ++
        toLe 4 e.elements ++ toLe 4 e.shape ++ toLe 4 e.aspheric ++ toLe 4 e.grin ++
          toLe 4 e.toroidal) (toLe 4 e.data.length) (e.efl ++ e.enp) 124 4
        (by simp only [List.length_append, hlen] at hN ⊢; omega) (hlen _)
      simpa [Entry.head, List.append_assoc] using this
    have h7 := he.numbers.2.2.2.2.2
    have h8 := he.shape
    unfold readLens
    rw [s3, s7, le_toLe 4 _ (by norm_num; omega), le_toLe 4 _ (by norm_num; omega),
      List.getElem?_eq_getElem (by simpa [shapes] using h8)]
    simp only
    rw [if_pos]
    simp only [List.length_take]
    omega
  have hrun : ∀ (es : List (Entry × List UInt8)), (∀ e ∈ es, e.1.Ok ∧
      obfuscate exponent e.1.data (double e.1.efl) (double e.1.enp) = .ok e.2) →
      ∀ fuel, es.length < fuel →
      readLenses exponent double fuel
        ((es.flatMap fun e => e.1.head ++ e.2) ++ (e.head ++ part)) = .error .assertion := by
    intro es
    induction es with
    | nil =>
      intro _ fuel hf
      cases fuel with
      | zero => simp at hf
      | succ n =>
        unfold readLenses
        rw [List.flatMap_nil, List.nil_append, if_neg (by rw [List.length_append]; omega),
          List.take_left' hl, List.drop_left' hl, hbad]
        rfl
    | cons e' es ih =>
      intro hes fuel hf
      cases fuel with
      | zero => simp at hf
      | succ n =>
        have he' := hes e' List.mem_cons_self
        have hl' := head_length e'.1 he'.1
        unfold readLenses
        have hassoc : ((e' :: es).flatMap fun e => e.1.head ++ e.2) ++ (e.head ++ part) =
            e'.1.head ++ (e'.2 ++ ((es.flatMap fun e => e.1.head ++ e.2) ++ (e.head ++ part))) := by
          simp [List.append_assoc]
        rw [hassoc, if_neg (by rw [List.length_append, hl']; omega), List.take_left' hl',
          List.drop_left' hl', readLens_entry exponent double e'.1 he'.1 e'.2 _ he'.2]
        simp only [Except.bind]
        rw [ih (fun x hx => hes x (List.mem_cons_of_mem _ hx)) n (by simpa using hf)]
        rfl
  unfold read
  rw [hassoc, if_neg (by rw [List.length_append, h4]; omega), List.take_left' h4,
    List.drop_left' h4, le_toLe 4 1001 (by norm_num), if_neg (by simp)]
  apply hrun es h
  have hlen : ∀ es : List (Entry × List UInt8), (∀ e ∈ es, e.1.Ok) →
      es.length ≤ (es.flatMap fun e => e.1.head ++ e.2).length := by
    intro es
    induction es with
    | nil => simp
    | cons e es ih =>
      intro hok
      have := ih fun x hx => hok x (List.mem_cons_of_mem _ hx)
      have hl := head_length e.1 (hok e List.mem_cons_self)
      simp only [List.flatMap_cons, List.length_append, List.length_cons, hl] at *
      omega
  have := hlen es fun e he => (h e he).1
  rw [List.length_append, h4, List.length_append]
  omega

/-- An entry: a doublet called `A` whose text is only its version. -/
def sample : Entry :=
  ⟨[65], 100000, 2, 2, 0, 0, 0, [0, 0, 0, 0, 0, 0, 73, 64], [0, 0, 0, 0, 0, 0, 40, 64],
    [86, 69, 82, 83, 32, 49, 48, 48, 48, 48, 48, 10, 78]⟩

theorem sample_ok : sample.Ok where
  name := by decide
  numbers := by decide
  shape := by decide
  doubles := by decide
  text := ⟨[78], by decide +kernel⟩

example (double : List UInt8 → ℝ) : ∃ x,
    read exponent double (file [(sample, x), (sample, x)] ++ [1, 2, 3]) =
      .ok [sample.lens double, sample.lens double] := by
  obtain ⟨x, hx, -⟩ := c54_involution exponent sample.data (double sample.efl) (double sample.enp)
  refine ⟨x, c54_read exponent double [(sample, x), (sample, x)] ?_ [1, 2, 3] (by decide)⟩
  intro e he
  simp only [List.mem_cons, List.not_mem_nil, or_false, or_self] at he
  subst he
  exact ⟨sample_ok, hx⟩

example (double : List UInt8 → ℝ) :
    read exponent double (file [] ++ (sample.head ++ [1, 2, 3])) = .error .assertion :=
  c54_cut exponent double [] (by simp) sample sample_ok [1, 2, 3] (by decide)

end RayOpt.Zmf
