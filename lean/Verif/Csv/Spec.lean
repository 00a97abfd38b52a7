import Verif.Csv.Model

/-!
# What reading a CSV row means

Stated on texts: a line, its fields, and the number each field denotes.
-/

namespace Guanaqo.Csv

/-- The fields of a line: the pieces between separators. A trailing separator adds no field, and the
empty line has no fields. -/
def rowFields (sep : Char) (line : List Char) : List (List Char) :=
  let pieces := line.splitOn sep
  if pieces.getLast? = some [] then pieces.dropLast else pieces

/-- The number a field denotes: the conversion (after an optional plus sign) must accept the whole
field. -/
def numberOf {F : Type} (fromChars : Parser F) (field : List Char) : Option F :=
  match readSingle fromChars field with
  | some (v, []) => some v
  | _ => none

/-- The values of a line that must have exactly `n` fields. -/
def rowSpec {F : Type} (fromChars : Parser F) (sep : Char) (n : Nat) (line : List Char) :
    Option (List F) :=
  if (rowFields sep line).length = n then (rowFields sep line).mapM (numberOf fromChars) else none

/-- What is assumed of `std::from_chars`: it consumes a nonempty beginning of its input, and a
separator (which is no part of a number) ends its input. -/
structure Parser.Ok {F : Type} (fromChars : Parser F) (sep : Char) : Prop where
  consumes : ∀ s v t, fromChars s = some (v, t) → ∃ d, d ≠ [] ∧ s = d ++ t
  stops : ∀ f r, sep ∉ f →
    fromChars (f ++ sep :: r) = (fromChars f).map (fun p => (p.1, p.2 ++ sep :: r))

/-- The text of a sequence of comment lines. -/
def commentText (comments : List (List Char)) : List Char :=
  comments.flatMap (fun c => '#' :: c ++ ['\n'])

/-- The stream after a line: at the start of the next line, or at the end of the input. -/
def AfterLine (tail : List Char) (is : IStream) : Prop :=
  (tail = [] ∧ is.rest = [] ∧ is.eof = true) ∨ ∃ more, tail = '\n' :: more ∧ is = { rest := more }

end Guanaqo.Csv
