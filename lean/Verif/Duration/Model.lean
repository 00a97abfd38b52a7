import Verif.Base
import Mathlib.Data.Rat.Floor

/-!
# Model of `src/include/guanaqo/duration-parse.hpp`

Strings are lists of characters (the code works on UTF-8 bytes; the characters it searches for are
ASCII, and "µs" is compared as a whole). `std::from_chars` for `double` is modelled by
`fromCharsDouble`, with the exact rational value of the text. The arithmetic of the conversion to ticks is
a parameter of the model: exact (`exactConv`), or that of `double`, with a rounding of the number in the
text and after every operation (`doubleConv` in `Duration/Double.lean`).
-/

namespace Guanaqo.Duration

abbrev Text := List Char

/-- Value of a `double` as far as the parser cares. -/
inductive Val where
  | finite (q : Rat)
  | inf
  | nan

/-- A decimal digit. -/
def isDigit (c : Char) : Bool := decide ('0' ≤ c) && decide (c ≤ '9')

/-- Value of a string of digits. -/
def digitsVal (ds : Text) : Nat := ds.foldl (fun acc c => acc * 10 + (c.toNat - '0'.toNat)) 0

/-- Split off the leading digits. -/
def scanDigits (s : Text) : Text × Text := (s.takeWhile isDigit, s.dropWhile isDigit)

/-- An optional decimal point and digits. -/
def scanFrac : Text → Text × Text
  | '.' :: s => scanDigits s
  | s => ([], s)

/-- An optional sign in an exponent. -/
def expSign : Text → Bool × Text
  | '-' :: r => (true, r)
  | '+' :: r => (false, r)
  | s => (false, s)

/-- An optional minus sign. -/
def minusSign : Text → Bool × Text
  | '-' :: r => (true, r)
  | s => (false, s)

/-- The exponent after an `e`: an optional sign and at least one digit. -/
def scanExpDigits (s : Text) : Option (Int × Text) :=
  let (neg, body) := expSign s
  let (ds, rest) := scanDigits body
  if ds.isEmpty then none else some (if neg then -(digitsVal ds : Int) else digitsVal ds, rest)

/-- An optional exponent. -/
def scanExp (s : Text) : Int × Text :=
  match s with
  | [] => (0, [])
  | c :: r => if c = 'e' ∨ c = 'E' then (scanExpDigits r).getD (0, s) else (0, s)

/-- An unsigned decimal number: digits with an optional decimal point (at least one digit), and an
optional exponent. -/
def scanDecimal (s : Text) : Option (Rat × Text) :=
  let (ip, s₁) := scanDigits s
  let (fp, s₂) := scanFrac s₁
  if (ip ++ fp).isEmpty then none
  else
    let (e, s₃) := scanExp s₂
    some ((digitsVal (ip ++ fp) : Rat) / 10 ^ fp.length * (10 : Rat) ^ e, s₃)

/-- Lower-case form of a letter. -/
def lower (c : Char) : Char := c.toLower

/-- The names of the special values, longest first. -/
def scanSpecial (s : Text) : Option (Val × Text) :=
  if (s.take 8).map lower = "infinity".toList then some (.inf, s.drop 8)
  else if (s.take 3).map lower = "inf".toList then some (.inf, s.drop 3)
  else if (s.take 3).map lower = "nan".toList then some (.nan, s.drop 3)
  else none

/-- The magnitudes that are in the range of `double` once rounded to nearest, ties to even: the midpoint
between the largest `double` and `2 ^ 1024` is too large, and what lies up to half the smallest `double`
(and is not zero) becomes zero, which counts as out of range too. -/
def DoubleRange (q : Rat) : Prop := q < 2 ^ 1024 - 2 ^ 970 ∧ (q = 0 ∨ 1 / 2 ^ 1075 < q)

instance (q : Rat) : Decidable (DoubleRange q) := by unfold DoubleRange; infer_instance

/-- The characters allowed in the payload of a NaN. -/
def isPayload (c : Char) : Bool := c.isAlphanum || c == '_'

/-- The text after `nan`, without a payload in parentheses. -/
def nanTail (r : Text) : Text :=
  match r with
  | '(' :: r' =>
    match r'.dropWhile isPayload with
    | ')' :: r'' => r''
    | _ => r
  | _ => r

/-- `std::from_chars` for `double`, format `general` (standard library), after the optional minus sign: a
decimal number, `inf`, `infinity` or `nan` (with an optional payload). An error if there is no number, or
if it is out of the range of `double`. -/
def fromCharsBody (neg : Bool) (body : Text) : Option (Val × Text) :=
  match scanSpecial body with
  | some (.nan, r) => some (.nan, nanTail r)
  | some r => some r
  | none =>
    match scanDecimal body with
    | none => none
    | some (q, rest) =>
      if DoubleRange q then some (.finite (if neg then -q else q), rest) else none

/-- `std::from_chars` for `double`, format `general` (standard library). -/
def fromCharsDouble (s : Text) : Option (Val × Text) := fromCharsBody (minusSign s).1 (minusSign s).2

/-- The result of a rounding: the number of ticks below, and whether to take the next one instead. -/
abbrev Rounded := Int × Bool

/-- The number of ticks chosen. -/
def Rounded.ticks (r : Rounded) : Int := if r.2 then r.1 + 1 else r.1

/-- `std::chrono::round` to whole ticks (standard library): to nearest, ties to even; in exact arithmetic
(for the arithmetic of `double`, see `Duration/Double.lean`). -/
def chronoRound (q : Rat) : Rounded :=
  let t0 := q.floor
  let t1 := t0 + 1
  let diff0 := q - t0
  let diff1 := t1 - q
  if diff0 = diff1 then (t0, decide (t0 % 2 = 1))
  else (t0, decide (¬ diff0 < diff1))

/-- A number in units of `f` ticks, to ticks, in exact arithmetic. -/
def exactConv (q f : Rat) : Rounded := chronoRound (q * f)

/-- The target duration type: signed ticks of `bits` bits, with `perSec` ticks per second; `conv` is the
arithmetic by which the number in the text, in units of so many ticks, becomes a number of ticks. -/
structure DurTy where
  bits : Nat
  perSec : Rat
  conv : Rat → Rat → Rounded

/-- Whether a number of ticks fits the representation. -/
def DurTy.fits (d : DurTy) (n : Int) : Prop :=
  -(2 ^ (d.bits - 1) : Int) ≤ n ∧ n < (2 ^ (d.bits - 1) : Int)

instance (d : DurTy) (n : Int) : Decidable (d.fits n) := by unfold DurTy.fits; infer_instance

/-- duration-parse.hpp:47, `cast`: value in a unit of `unit` seconds, rounded to ticks. Both candidates
are computed in the integer representation, so it is undefined if one of them does not fit (or for an
infinity or NaN). -/
def cast (d : DurTy) (v : Val) (unit : Rat) : Res Int :=
  match v with
  | .finite q =>
    let r := d.conv q (unit * d.perSec)
    if d.fits r.1 ∧ d.fits (r.1 + 1) then .ok r.ticks else .error .ub
  | _ => .error .ub

/-- duration-parse.hpp:48-62: the unit in seconds. -/
def unitSeconds (u : Text) : Option Rat :=
  if u = "s".toList ∨ u = [] then some 1
  else if u = "ms".toList then some (1 / 1000)
  else if u = "us".toList ∨ u = "µs".toList then some (1 / 1000000)
  else if u = "ns".toList then some (1 / 1000000000)
  else if u = "min".toList then some 60
  else if u = "h".toList then some 3600
  else none

/-- duration-parse.hpp:30: the characters skipped before a number. -/
def isTrim (c : Char) : Bool := c == '+' || c == '0' || c == ' '

/-- duration-parse.hpp:44: the characters that end a unit. -/
def isStop (c : Char) : Bool := c == '+' || c == '-' || isDigit c || c == '.' || c == ' '

/-- `t += …` (signed overflow is undefined). -/
def addTicks (d : DurTy) (t n : Int) : Res Int := if d.fits (t + n) then .ok (t + n) else .error .ub

/-- duration-parse.hpp:25-66, `parse_single_duration`: the new value of `t` and the remaining text.
`t` is not modified when it throws. -/
def parseSingle (d : DurTy) (t : Int) (s : Text) : Res (Int × Text) :=
  match s.dropWhile isTrim with                                     -- 30-33
  | [] => .ok (t, [])
  | s =>
    match fromCharsDouble s with                                    -- 36
    | none => .error (.throw .invalidDurationValue)
    | some (value, remainder) =>
      let units := remainder.takeWhile (fun c => !isStop c)         -- 44-45
      let rest := remainder.dropWhile (fun c => !isStop c)
      match unitSeconds units with
      | none => .error (.throw .invalidDurationUnits)
      | some u => do
        let n ← cast d value u
        let t ← addTicks d t n
        .ok (t, rest)                                               -- 63-65

/-- duration-parse.hpp:68-73, `parse_duration`: the value of `t` at the end (whether it returns or
throws), and the outcome; `none` if the loop needs more than `fuel` iterations. -/
def parseLoop (d : DurTy) : Nat → Int → Text → Option (Int × Res Unit)
  | _, t, [] => some (t, .ok ())
  | 0, _, _ :: _ => none
  | fuel + 1, t, c :: s =>
    match parseSingle d t (c :: s) with
    | .error e => some (t, .error e)
    | .ok (t, s) => parseLoop d fuel t s

/-- `parse_duration` as a whole: `none` would mean that it does not terminate. -/
def parseDuration (d : DurTy) (t : Int) (s : Text) : Option (Int × Res Unit) :=
  parseLoop d s.length t s

end Guanaqo.Duration
