import Verif.Base.NumIO
import Mathlib.Data.Int.Log
import Mathlib.Data.Rat.Floor

/-!
# Six digits: how numbers are written and read

The writers print coordinates with `Point3D::string()` (`mesh/ts_output.cpp:164`, `mesh/vs_output.cpp:161`, `mesh/pl_output.cpp`,
`model/internal/lso_output.cpp:235`) or `file << value`, and no file of /repo/src calls `setprecision`: both write six significant
digits in the manner of `printf( "%g" )`.  The readers call `geode::string_to_double`, that is `absl::SimpleAtod`, which returns
the double nearest to the decimal number.

The rest of the model takes these functions as a parameter (`Num`).  Here they are defined, for the doubles whose exponent is not
bounded: there are no infinities, no NaN, no negative zero and no subnormal numbers.  These functions belong to the standard
library and Abseil, not to /repo.
-/

namespace Verif.Decimal

/-! ## Rounding -/

/-- The nearest integer, and of two the even one. -/
def nearest (q : ℚ) : ℤ :=
  if q - ⌊q⌋ < 1 / 2 then ⌊q⌋
  else if 1 / 2 < q - ⌊q⌋ then ⌊q⌋ + 1
  else if ⌊q⌋ % 2 = 0 then ⌊q⌋ else ⌊q⌋ + 1

/-- Weight of the last of `p` digits of the positive number, as a power of the base. -/
def place (b p : ℕ) (q : ℚ) : ℤ := Int.log b q - (p - 1)

/-- A positive number rounded to `p` significant digits. -/
def roundPos (b p : ℕ) (q : ℚ) : ℚ := nearest (q / (b : ℚ) ^ place b p q) * (b : ℚ) ^ place b p q

/-- A number rounded to `p` significant digits in base `b`, to the nearest. -/
def roundTo (b p : ℕ) (q : ℚ) : ℚ := if q = 0 then 0 else if q < 0 then -roundPos b p (-q) else roundPos b p q

/-- Numbers with `p` significant digits in base `b`. -/
def IsSig (b p : ℕ) (q : ℚ) : Prop := q = 0 ∨ ∃ (m : ℕ) (e : ℤ), b ^ (p - 1) ≤ m ∧ m < b ^ p ∧ |q| = m * (b : ℚ) ^ e

/-- Rounding to the doubles. -/
def toDouble (q : ℚ) : ℚ := roundTo 2 53 q

/-- Rounding to the floats. -/
def toFloat (q : ℚ) : ℚ := roundTo 2 24 q

/-- Rounding to six decimal digits. -/
def six (q : ℚ) : ℚ := roundTo 10 6 q

/-! ## Writing -/

/-- The last `k` decimal digits of a number. -/
def digits : ℕ → ℕ → Str
  | 0, _ => []
  | k + 1, n => digits k (n / 10) ++ [digitChar (n % 10)]

/-- Without the zeros at the end. -/
def strip (s : Str) : Str := (s.reverse.dropWhile (· == '0')).reverse

/-- The digits after the point; the point is not written without them. -/
def fraction (s : Str) : Str := if strip s = [] then [] else '.' :: strip s

/-- The exponent: a sign and at least two digits. -/
def exponent (x : ℤ) : Str := 'e' :: (if x < 0 then '-' else '+') :: ((if x.natAbs < 10 then cs!"0" else []) ++ showNat x.natAbs)

/-- `%g` of the number `m * 10 ^ ( x - 5 )`, where `m` has six digits. -/
def layout (m : ℕ) (x : ℤ) : Str :=
  if x < -4 ∨ 6 ≤ x then (digits 6 m).take 1 ++ fraction ((digits 6 m).drop 1) ++ exponent x
  else if x < 0 then cs!"0" ++ fraction (List.replicate (-x - 1).toNat '0' ++ digits 6 m)
  else (digits 6 m).take (x + 1).toNat ++ fraction ((digits 6 m).drop (x + 1).toNat)

/-- `%g` of a positive number with six digits. -/
def textPos (q : ℚ) : Str := layout ⌊q / (10 : ℚ) ^ (Int.log 10 q - 5)⌋.toNat (Int.log 10 q)

/-- `%g` of a number with six digits. -/
def text (q : ℚ) : Str := if q = 0 then cs!"0" else if q < 0 then '-' :: textPos (-q) else textPos q

/-- `std::to_string( double )`, mesh/fem_output.cpp:227: `%f`, six digits after the point. -/
def fixed (q : ℚ) : Str :=
  (if q < 0 then cs!"-" else []) ++ showNat ((nearest (|q| * 10 ^ 6)).toNat / 10 ^ 6) ++ '.' :: digits 6 ((nearest (|q| * 10 ^ 6)).toNat % 10 ^ 6)

/-! ## Reading -/

/-- Digits with a point. -/
def readMantissa (s : Str) : Option ℚ :=
  let a := s.takeWhile (· != '.')
  let b := (s.dropWhile (· != '.')).drop 1
  (parseNat (a ++ b)).map fun n : ℕ => (n : ℚ) / (10 : ℚ) ^ b.length

/-- Digits with a sign. -/
def readExponent (s : Str) : Option ℤ :=
  match s with
  | '-' :: r => (parseNat r).map fun n : ℕ => -(n : ℤ)
  | _ => (parseNat (dropPlus s)).map fun n : ℕ => (n : ℤ)

/-- A decimal number without sign, in the usual or the scientific notation. -/
def readUnsigned (s : Str) : Option ℚ :=
  let a := s.takeWhile fun c => c != 'e' && c != 'E'
  match s.dropWhile fun c => c != 'e' && c != 'E' with
  | [] => readMantissa a
  | _ :: x => (readMantissa a).bind fun m => (readExponent x).map fun z => m * (10 : ℚ) ^ z

/-- A decimal number. -/
def readDecimal (s : Str) : Option ℚ :=
  match s with
  | '-' :: r => (readUnsigned r).map fun q => -q
  | _ => readUnsigned (dropPlus s)

end Verif.Decimal
