import Verif.Duration.Model

/-!
# What a duration text means

Decimal numbers, units, sequences of number–unit pairs, rounding: stated without the parser.
-/

namespace Guanaqo.Duration

/-- A decimal literal. -/
structure Decimal where
  neg : Bool := false
  ip : Text
  fp : Option Text := none
  /-- the letter `e` or `E`, a sign text (`""`, `"+"` or `"-"`), and digits -/
  exp : Option (Char × Option Bool × Text) := none

/-- The digits after the decimal point. -/
def Decimal.frac (n : Decimal) : Text := n.fp.getD []

/-- The text of the sign of an exponent. -/
def signText : Option Bool → Text
  | none => []
  | some true => ['-']
  | some false => ['+']

/-- The text of an exponent. -/
def expText : Option (Char × Option Bool × Text) → Text
  | none => []
  | some (c, sg, ds) => c :: (signText sg ++ ds)

/-- The text of the fraction. -/
def fracText : Option Text → Text
  | none => []
  | some ds => '.' :: ds

/-- The text of a literal. -/
def Decimal.text (n : Decimal) : Text :=
  (if n.neg then ['-'] else []) ++ n.ip ++ fracText n.fp ++ expText n.exp

/-- The exponent of a literal. -/
def expVal : Option (Char × Option Bool × Text) → Int
  | none => 0
  | some (_, sg, ds) => if sg = some true then -(digitsVal ds : Int) else digitsVal ds

/-- The magnitude of a literal. -/
def Decimal.abs (n : Decimal) : Rat :=
  (digitsVal (n.ip ++ n.frac) : Rat) / 10 ^ n.frac.length * (10 : Rat) ^ expVal n.exp

/-- The value of a literal. -/
def Decimal.value (n : Decimal) : Rat := if n.neg then -n.abs else n.abs

/-- A well-formed literal: digits where digits belong, at least one digit in the mantissa and in the
exponent. -/
structure Decimal.Form (n : Decimal) : Prop where
  ip : ∀ c ∈ n.ip, isDigit c = true
  fp : ∀ c ∈ n.frac, isDigit c = true
  some_digit : n.ip ++ n.frac ≠ []
  exp : ∀ c sg ds, n.exp = some (c, sg, ds) →
    (c = 'e' ∨ c = 'E') ∧ ds ≠ [] ∧ ∀ d ∈ ds, isDigit d = true

/-- A well-formed literal that is not out of the range of `double`. -/
structure Decimal.Valid (n : Decimal) : Prop extends n.Form where
  range : DoubleRange n.abs

/-- The length of a unit in seconds; no unit means seconds. -/
inductive UnitLen : Text → Rat → Prop
  | none : UnitLen [] 1
  | s : UnitLen "s".toList 1
  | ms : UnitLen "ms".toList (1 / 1000)
  | us : UnitLen "us".toList (1 / 1000000)
  | mus : UnitLen "µs".toList (1 / 1000000)
  | ns : UnitLen "ns".toList (1 / 1000000000)
  | min : UnitLen "min".toList 60
  | hour: UnitLen "h".toList 3600

/-- `n` is a nearest integer to `q`, the even one if there are two. -/
def IsNearest (q : Rat) (n : Int) : Prop :=
  |q - n| ≤ 1 / 2 ∧ (|q - n| = 1 / 2 → n % 2 = 0)

/-- A number with its unit, and the plus signs and blanks before it. -/
structure Term where
  lead : Text := []
  num : Decimal
  unit : Text

/-- The text of a term. -/
def Term.text (x : Term) : Text := x.lead ++ x.num.text ++ x.unit

/-- The text of a sequence of terms, with trailing blanks. -/
def termsText (xs : List Term) (trail : Text) : Text := xs.flatMap Term.text ++ trail

/-- `n` is the number of ticks of the term, in the arithmetic of `d`. -/
def Term.Ticks (d : DurTy) (x : Term) (n : Int) : Prop :=
  ∃ u, UnitLen x.unit u ∧ n = (d.conv x.num.value (u * d.perSec)).ticks

/-- `q` is the exact number of ticks of the term (not rounded). -/
def Term.Exact (d : DurTy) (x : Term) (q : Rat) : Prop :=
  ∃ u, UnitLen x.unit u ∧ q = x.num.value * (u * d.perSec)

/-- All the ticks (and their neighbours, as rounding computes the integers on both sides), and all partial
sums, fit the representation. -/
def InRange (d : DurTy) (t : Int) (ticks : List Int) : Prop :=
  (∀ n ∈ ticks, d.fits (n - 1) ∧ d.fits (n + 1)) ∧ ∀ k, d.fits (t + (ticks.take k).sum)

end Guanaqo.Duration
