import Mathlib.Analysis.SpecialFunctions.Trigonometric.Basic
import Mathlib.Data.Int.Log
import Mathlib.Algebra.Order.Round

/-!
Zemax stock lens catalogues: `zmf_read` and `zmf_obfuscate` (rayopt/zemax.py 40-87).

Numbers are exact reals instead of doubles; the decoding of the eight bytes of a double is a parameter.
Conversion to `uint8` wraps as in numpy 1.
-/

namespace RayOpt.Zmf

/-- Exceptions. -/
inductive Err where
  | struct
  | assertion
  | index
  | value
deriving DecidableEq

/-! ### Obfuscation -/

/-- The nine decimal digits of `"%.8e" % x` as a number. -/
noncomputable def mantissa (x : ℝ) : ℕ :=
  if x = 0 then 0
  else
    let m := (round (|x| * (10 : ℝ) ^ (8 - Int.log 10 |x|))).toNat
    if m = 10 ^ 9 then 10 ^ 8 else m

/-- One decimal digit. -/
def digitChar (d : ℕ) : Char := Char.ofNat (48 + d % 10)

/-- `f"{x:.8e}"`; the text of the exponent is a parameter. -/
noncomputable def sci (exponent : ℝ → List Char) (x : ℝ) : List Char :=
  let m := mantissa x
  (if x < 0 then ['-'] else []) ++ [digitChar (m / 10 ^ 8), '.'] ++
    (List.range 8).map (fun i => digitChar (m / 10 ^ (7 - i))) ++ ['e'] ++ exponent x

/-- `int(text)` for texts of digits; `none` is the `ValueError` (signs, blanks and underscores are not
modelled). -/
def parseInt (t : List Char) : Option ℕ :=
  if t = [] ∨ ¬∀ c ∈ t, 48 ≤ c.toNat ∧ c.toNat ≤ 57 then none
  else some (t.foldl (fun a c => 10 * a + (c.toNat - 48)) 0)

/-- `iv`, rayopt/zemax.py 80-81. -/
noncomputable def start (a b : ℝ) : ℝ :=
  let iv := Real.cos (6 * a + 3 * b)
  Real.cos (655 * (Real.pi / 180) * iv) + iv

/-- `k` before the conversion to text, rayopt/zemax.py 82-83. -/
noncomputable def keyReal (a b : ℝ) (p : ℕ) : ℝ :=
  13.2 * (start a b + Real.sin (17 * (p + 3))) * (p + 1)

/-- The key of one position, rayopt/zemax.py 84. -/
noncomputable def key (exponent : ℝ → List Char) (a b : ℝ) (p : ℕ) : Option ℕ :=
  parseInt (((sci exponent (keyReal a b p)).drop 4).take 3)

/-- All keys, or the `ValueError` of one of them. -/
noncomputable def keys (exponent : ℝ → List Char) (a b : ℝ) : ℕ → Option (List ℕ)
  | 0 => some []
  | n + 1 => (keys exponent a b n).bind fun l => (key exponent a b n).map fun k => l ++ [k]

/-- `zmf_obfuscate(data, a, b)`, rayopt/zemax.py 79-87. -/
noncomputable def obfuscate (exponent : ℝ → List Char) (data : List UInt8) (a b : ℝ) :
    Except Err (List UInt8) :=
  match keys exponent a b data.length with
  | none => .error .value
  | some k => .ok (List.zipWith (fun d k => d ^^^ UInt8.ofNat k) data k)

/-! ### The catalogue file -/

/-- A little-endian number. -/
def le : List UInt8 → ℕ
  | [] => 0
  | b :: l => b.toNat + 256 * le l

/-- A lens of a catalogue, as assigned in rayopt/zemax.py 58-73. -/
structure Lens where
  name : List UInt8
  version : ℕ
  elements : ℕ
  shape : Char
  aspheric : ℕ
  grin : ℕ
  toroidal : ℕ
  efl : ℝ
  enp : ℝ
  data : List UInt8

/-- `.strip("\0")`. -/
def strip (l : List UInt8) : List UInt8 :=
  ((l.dropWhile (· = 0)).reverse.dropWhile (· = 0)).reverse

/-- The text of a number with at least six digits. -/
def sixDigits (n : ℕ) : List UInt8 :=
  let t := (Nat.toDigits 10 n).map fun c => UInt8.ofNat c.toNat
  List.replicate (6 - t.length) 48 ++ t

/-- `f"VERS {l.version:06d}\n"`. -/
def versLine (n : ℕ) : List UInt8 := [86, 69, 82, 83, 32] ++ sixDigits n ++ [10]

/-- `shapes`, rayopt/zemax.py 48. -/
def shapes : List Char := ['?', 'E', 'B', 'P', 'M']

/-- One field of a record. -/
def slice (r : List UInt8) (i n : ℕ) : List UInt8 := (r.drop i).take n

/-- One lens from its record of 144 bytes and the rest of the file: the lens and what is left,
rayopt/zemax.py 52-73. -/
noncomputable def readLens (exponent : ℝ → List Char) (double : List UInt8 → ℝ)
    (r rest : List UInt8) : Except Err (Lens × List UInt8) :=
  match shapes[le (slice r 108 4)]? with
  | none => .error .index
  | some shape =>
    let n := le (slice r 124 4)
    let text := rest.take n
    if text.length ≠ n then .error .assertion
    else
      let efl := double (slice r 128 8)
      let enp := double (slice r 136 8)
      (obfuscate exponent text efl enp).bind fun text =>
        let version := le (slice r 100 4)
        if (versLine version).isPrefixOf text then
          .ok (⟨strip (slice r 0 100), version, le (slice r 104 4), shape, le (slice r 112 4),
            le (slice r 116 4), le (slice r 120 4), efl, enp, text⟩, rest.drop n)
        else .error .assertion

/-- The loop over the lenses, rayopt/zemax.py 51-75, with fuel. -/
noncomputable def readLenses (exponent : ℝ → List Char) (double : List UInt8 → ℝ) :
    ℕ → List UInt8 → Except Err (List Lens)
  | 0, _ => .ok []
  | fuel + 1, bs =>
    if bs.length < 144 then .ok []
    else (readLens exponent double (bs.take 144) (bs.drop 144)).bind fun x =>
      (readLenses exponent double fuel x.2).map (x.1 :: ·)

/-- `zmf_read`, rayopt/zemax.py 40-76: the lenses of the catalogue.  Each lens takes at least 144 bytes,
so the length of the file is enough fuel. -/
noncomputable def read (exponent : ℝ → List Char) (double : List UInt8 → ℝ) (bs : List UInt8) :
    Except Err (List Lens) :=
  if bs.length < 4 then .error .struct
  else if le (bs.take 4) ≠ 1001 then .error .assertion
  else readLenses exponent double bs.length (bs.drop 4)

end RayOpt.Zmf
