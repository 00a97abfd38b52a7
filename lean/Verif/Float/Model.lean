import Verif.Csv.Spec
import Verif.Duration.Scan
import Verif.Print.Model
import Mathlib.Algebra.Order.Field.Basic
import Mathlib.Data.Int.Log

/-! # Floating-point numbers and their texts (C43, C87)

Binary formats with `p` bits of precision, as in IEEE 754, and the conversions of the standard library between them and decimal texts:
`std::to_chars` with a precision (print.cpp:39) and `std::from_chars` (csv.tpp:91). The conversions are parameters with the contract of the standard:
correctly rounded, with any rule for ties. -/

namespace Guanaqo.Float

open Guanaqo.Duration (Text scanSpecial scanDecimal minusSign nanTail)

/-- A format: the precision in bits, the smallest and the largest exponent of the last bit. -/
structure Fmt where
  p : ℕ
  emin : ℤ
  emax : ℤ

def binary16 : Fmt := ⟨11, -24, 5⟩
def bfloat16 : Fmt := ⟨8, -133, 120⟩
/-- `float` -/
def binary32 : Fmt := ⟨24, -149, 104⟩
/-- `double` -/
def binary64 : Fmt := ⟨53, -1074, 971⟩
/-- `long double` (x86) -/
def x87 : Fmt := ⟨64, -16445, 16320⟩
def binary128 : Fmt := ⟨113, -16494, 16271⟩

/-- The absolute value of a finite number, `m * 2 ^ e`: either the first bit of the significand is set, or it is a subnormal number (or zero). -/
@[ext] structure Mag (f : Fmt) where
  m : ℕ
  e : ℤ
  lt : m < 2 ^ f.p
  lo : f.emin ≤ e
  hi : e ≤ f.emax
  normal : 2 ^ (f.p - 1) ≤ m ∨ e = f.emin

/-- The value. -/
def Mag.val {f : Fmt} (x : Mag f) : ℚ := x.m * (2 : ℚ) ^ x.e

/-- A floating-point number; of a NaN, only the sign. -/
inductive Fl (f : Fmt) where
  | fin (neg : Bool) (x : Mag f)
  | inf (neg : Bool)
  | nan (neg : Bool)

/-- The sign bit. -/
def Fl.neg {f : Fmt} : Fl f → Bool
  | .fin n _ => n
  | .inf n => n
  | .nan n => n

/-! ## Reading -/

/-- What is assumed of the rounding: if one number is closer to `q` than all others, and `q` is not beyond the range, then that is the result. (What the
result is for ties and outside of the range is not said.) -/
def Rounds {f : Fmt} (rnd : ℚ → Option (Mag f)) : Prop :=
  ∀ (q : ℚ) (x : Mag f), q < ((2 : ℚ) ^ f.p - 1 / 2) * 2 ^ f.emax → (∀ y : Mag f, y.val ≠ x.val → |q - x.val| < |q - y.val|) → rnd q = some x

/-- `std::from_chars` for floating-point numbers, format `general` (as `Duration.fromCharsDouble`, but rounded). -/
def fromChars {f : Fmt} (rnd : ℚ → Option (Mag f)) : Csv.Parser (Fl f) := fun s =>
  let (neg, body) := minusSign s
  match scanSpecial body with
  | some (.inf, r) => some (.inf neg, r)
  | some (.nan, r) => some (.nan neg, nanTail r)
  | some (.finite _, _) => none
  | none =>
    match scanDecimal body with
    | none => none
    | some (q, rest) => (rnd q).map fun x => (.fin neg x, rest)

/-! ## Writing -/

/-- `n` digits (or more, if the number has more). -/
def digits (n d : ℕ) : Text := List.replicate (n - (Print.showNat d).length) '0' ++ Print.showNat d

/-- The exponent: a sign and at least two digits. -/
def expDigits (e : ℤ) : Text := (if e < 0 then '-' else '+') :: digits 2 e.natAbs

/-- `d.ddd…e±dd`, the digits being those of `d`. -/
def sciText (prec d : ℕ) (e : ℤ) : Text :=
  (digits (prec + 1) d).take 1 ++ (if prec = 0 then [] else '.' :: (digits (prec + 1) d).drop 1) ++ 'e' :: expDigits e

/-- What is assumed of `std::to_chars` in scientific format with a precision (as `printf` with `%.{prec}e`): zero is written as zero; for other numbers,
the digits and the exponent are those of a decimal number with one digit before and `prec` digits after the point, off by at most half a unit of the last
of the digits that the exponent of `x` gives. -/
structure Writes {f : Fmt} (sci : Fl f → ℕ → Text) : Prop where
  zero : ∀ neg (x : Mag f) prec, x.val = 0 → sci (.fin neg x) prec = (if neg then ['-'] else []) ++ sciText prec 0 0
  fin : ∀ neg (x : Mag f) prec, x.val ≠ 0 → ∃ (d : ℕ) (e k : ℤ), sci (.fin neg x) prec = (if neg then ['-'] else []) ++ sciText prec d e ∧
    10 ^ prec ≤ d ∧ d < 10 ^ (prec + 1) ∧ (10 : ℚ) ^ k ≤ x.val ∧ x.val < (10 : ℚ) ^ (k + 1) ∧
    |d * (10 : ℚ) ^ (e - prec) - x.val| ≤ (10 : ℚ) ^ (k - prec) / 2
  inf : ∀ neg prec, sci (.inf neg) prec = (if neg then ['-'] else []) ++ "inf".toList
  nan : ∀ neg prec, sci (.nan neg) prec = (if neg then ['-'] else []) ++ "nan".toList

/-- The format for `Print.floatToStrVw`. -/
def fmt {f : Fmt} (sci : Fl f → ℕ → Text) (max_digits10 : ℕ) : Print.FloatFormat (Fl f) where
  signbit v := v.neg
  isnan v := match v with | .nan _ => true | _ => false
  sci := sci
  max_digits10 := max_digits10

end Guanaqo.Float
