import Verif.Loops

/-!
# Model of the matrix printers

`src/include/guanaqo/implementation/print.tpp`, `src/include/guanaqo/print.hpp`, `src/src/print.cpp`.
The output stream is the text written so far. A matrix is a function of the row and column index (the
view it comes from is modelled in `Verif/MatView`). The conversion of a number to digits
(`std::to_chars`, `ostream <<`) is a parameter, except for the signed integers (`showInt`).
-/

namespace Guanaqo.Print

abbrev Text := List Char

/-- print.hpp:19-30, `PrintOpts` (with the default member values). -/
structure PrintOpts where
  precision : Nat := 0
  delimiter : Text := [',']
  line_start : Text := []
  line_end : Text := ['\n']
  start : Text := []
  «end» : Text := ['\n']
  indent : Nat := 0
  indent_char : Char := ' '
  column_vector_as_1d : Bool := true
  row_vector_as_1d : Bool := true

section
variable {E : Type} (pe : PrintOpts → E → Text)

/-- print.tpp:48-52 and 58-62: the loop over the columns. `more c` is the condition under which a
delimiter follows (lines 50 and 60). -/
def printCols (opts : PrintOpts) (row : Nat → E) (cols : Nat) (more : Nat → Bool) (os : Text) : Text :=
  (List.range cols).foldl (fun os (c : Nat) =>
    let os := os ++ pe opts (row c)
    if more c then os ++ opts.delimiter else os) os

/-- print.tpp:38-68, `print_csv_impl`. `pe` is `print_elem`; it is passed the options, of which the
code's `print_elem` (20-34) makes no use (see `printElemFloat`). -/
def printCsvImpl (os : Text) (rows cols : Nat) (M : Nat → Nat → E) (opts : PrintOpts) : Text :=
  let indent := List.replicate opts.indent opts.indent_char
  if (cols = 1 ∧ opts.column_vector_as_1d) ∨ (rows = 1 ∧ opts.row_vector_as_1d) then
    let os := os ++ indent ++ opts.start
    let os := (List.range rows).foldl (fun os (r : Nat) =>
      printCols pe opts (M r) cols (fun c => decide (r ≠ rows - 1) || decide (c ≠ cols - 1)) os) os
    os ++ opts.end
  else
    let os := (List.range rows).foldl (fun os (r : Nat) =>
      let os := os ++ indent ++ (if r = 0 then opts.start else opts.line_start)
      let os := printCols pe opts (M r) cols (fun c => decide (c ≠ cols - 1)) os
      if r ≠ rows - 1 then os ++ opts.line_end else os) os
    os ++ opts.end

/-- print.tpp:73-88: the options used by `print_matlab`. -/
def matlabOpts (cols : Nat) : PrintOpts :=
  if cols = 1 then { delimiter := "; ".toList, start := "[".toList, «end» := "]".toList }
  else { delimiter := " ".toList, line_start := " ".toList, line_end := ";\n".toList,
         start := "[".toList, «end» := "]".toList }

/-- print.tpp:70-90, `print_matlab_impl`. -/
def printMatlabImpl (os : Text) (rows cols : Nat) (M : Nat → Nat → E)
    («end» : Text := ";\n".toList) : Text :=
  printCsvImpl pe os rows cols M (matlabOpts cols) ++ «end»

/-- print.tpp:95-112: the options used by `print_python`. -/
def pythonOpts (rows cols : Nat) (squeeze : Bool) : PrintOpts :=
  if (cols = 1 ∧ squeeze) ∨ (rows = 1 ∧ squeeze) then
    { delimiter := ", ".toList, start := "[".toList, «end» := "]".toList }
  else
    { delimiter := ", ".toList, line_start := " [".toList, line_end := "],\n".toList,
      start := "[[".toList, «end» := "]]".toList, column_vector_as_1d := false,
      row_vector_as_1d := false }

/-- print.tpp:92-114, `print_python_impl`. -/
def printPythonImpl (os : Text) (rows cols : Nat) (M : Nat → Nat → E)
    («end» : Text := "\n".toList) (squeeze : Bool := true) : Text :=
  printCsvImpl pe os rows cols M (pythonOpts rows cols squeeze) ++ «end»

end

/-! ## Elements -/

/-- What `float_to_str_vw` needs to know of a floating-point type: the sign bit, whether a value is
a NaN, the scientific format with a number of digits (`std::to_chars`, standard library), and
`max_digits10`. -/
structure FloatFormat (F : Type) where
  signbit : F → Bool
  isnan : F → Bool
  sci : F → Nat → Text
  max_digits10 : Nat

/-- print.cpp:28-46, `float_to_str_vw_impl` with a buffer of `size ≥ 1` characters. If the text does
not fit, `std::to_chars` returns the end of the buffer and leaves its contents unspecified: the
returned view then has unspecified characters (`none`). -/
def floatToStrVw {F : Type} (ff : FloatFormat F) (size : Nat) (value : F) (precision : Nat) :
    Option Text :=
  let pre : Text := if !ff.signbit value && !ff.isnan value then ['+'] else []
  let digits := ff.sci value precision
  if digits.length ≤ size - pre.length then some (pre ++ digits) else none

/-- print.tpp:14-18, `float_to_str`. -/
def floatToStr {F : Type} (ff : FloatFormat F) (value : F) (precision : Nat) : Option Text :=
  floatToStrVw ff 64 value precision

/-- print.tpp:20-23, `print_elem` for floating-point values: the precision argument of
`float_to_str_vw` is left at its default, `max_digits10` (print.hpp:33-35). -/
def printElemFloat {F : Type} (ff : FloatFormat F) (_opts : PrintOpts) (value : F) : Text :=
  (floatToStrVw ff 64 value ff.max_digits10).getD []

/-- print.tpp:30-34, `print_elem` for complex values. -/
def printElemComplex {F : Type} (ff : FloatFormat F) (_opts : PrintOpts) (value : F × F) : Text :=
  (floatToStrVw ff 64 value.1 ff.max_digits10).getD [] ++ " + ".toList ++
    (floatToStrVw ff 64 value.2 ff.max_digits10).getD [] ++ ['j']

/-- Decimal digits of a natural number. -/
def showNat (n : Nat) : Text := Nat.toDigits 10 n

/-- `os << value` for a signed integer (standard library). -/
def showInt : Int → Text
  | .ofNat n => showNat n
  | .negSucc n => '-' :: showNat (n + 1)

/-- print.tpp:25-28, `print_elem` for integers. -/
def printElemInt (_opts : PrintOpts) (value : Int) : Text := showInt value

end Guanaqo.Print
