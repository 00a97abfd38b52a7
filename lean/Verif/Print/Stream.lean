import Verif.Print.Model

/-!
# Printing to a `std::ostream`: format state, failing stream buffers (C126, C127)

`print.tpp` again, this time with the stream: its format (width, fill character, flags, the grouping of its locale), its
state and its stream buffer, which may refuse characters. The formatted output functions of the standard library are
modelled as [ostream.formatted] and [facet.num.put.virtuals] describe them.
-/

namespace Guanaqo.Print.Stream

/-- `ios_base::adjustfield`; `right` stands for all other values than `left` and `internal`. -/
inductive Adjust where
  | left | internal | right
  deriving DecidableEq, Repr

/-- `ios_base::basefield`; `other` stands for `dec` and all other values than `oct` and `hex`. -/
inductive Base where
  | oct | hex | other
  deriving DecidableEq, Repr

/-- The format of a stream (standard library): width, fill character and flags, and the grouping of the locale
(`numpunct`; 0 and values of at least `CHAR_MAX` = 127 end the grouping). The defaults are those of a new stream. -/
structure Format where
  width : Nat := 0
  fill : Char := ' '
  adjust : Adjust := .right
  base : Base := .other
  showbase : Bool := false
  showpos : Bool := false
  uppercase : Bool := false
  sep : Char := ','
  grouping : List Nat := []
  deriving DecidableEq, Repr

/-- A stream buffer: what becomes of it when a character is put, and whether it has accepted the character (it may also
throw, which the stream turns into `badbit`). -/
structure Sink (σ : Type) where
  put : σ → Char → σ × Bool

/-- A stream: format, state (`good()`), stream buffer, and the characters that the buffer has accepted. -/
structure OStream (σ : Type) where
  fmt : Format := {}
  good : Bool := true
  buf : σ
  out : Text := []

variable {σ : Type} (S : Sink σ)

/-- `sputn` (standard library): characters are put until one is refused. The buffer, the characters accepted, and whether
all were. -/
def feed : σ → Text → σ × Text × Bool
  | s, [] => (s, [], true)
  | s, c :: t =>
    match S.put s c with
    | (s', true) => let r := feed s' t; (r.1, c :: r.2.1, r.2.2)
    | (s', false) => (s', [], false)

/-- A formatted output function (standard library): nothing happens unless the stream is good; the width is reset. -/
def OStream.insert (os : OStream σ) (text : Format → Text) : OStream σ :=
  if os.good then
    let r := feed S os.buf (text os.fmt)
    { fmt := { os.fmt with width := 0 }, good := r.2.2, buf := r.1, out := os.out ++ r.2.1 }
  else os

/-- Padding to the width (standard library): after the text, between `pre` and `body`, or before. -/
def pad (f : Format) (pre body : Text) : Text :=
  let p := List.replicate (f.width - (pre.length + body.length)) f.fill
  match f.adjust with
  | .left => pre ++ body ++ p
  | .internal => pre ++ p ++ body
  | .right => p ++ pre ++ body

/-- `os << s` for strings and characters (standard library). -/
def OStream.str (os : OStream σ) (t : Text) : OStream σ := os.insert S fun f => pad f [] t

/-- The grouping of digits, from the right (standard library, `num_put`); `fuel` is at least the number of digits. -/
def groupRev (sep : Char) : Nat → List Nat → Text → Text
  | 0, _, ds => ds
  | _, [], ds => ds
  | fuel + 1, k :: g, ds =>
    if k = 0 ∨ 127 ≤ k ∨ ds.length ≤ k then ds
    else ds.take k ++ sep :: groupRev sep fuel (if g = [] then [k] else g) (ds.drop k)

def group (f : Format) (ds : Text) : Text := (groupRev f.sep ds.length f.grouping ds.reverse).reverse

def toUpper (f : Format) (t : Text) : Text := if f.uppercase then t.map Char.toUpper else t

/-- The text of an integer of a type with `bits` bits before padding (standard library, `num_put`): what comes before the
place of internal padding, and the rest. Negative numbers are written in hexadecimal and octal as if unsigned. -/
def numParts (f : Format) (signed : Bool) (bits : Nat) (x : Int) : Text × Text :=
  match f.base with
  | .other =>
    (if x < 0 then ['-'] else if f.showpos && signed then ['+'] else [], group f (Nat.toDigits 10 x.natAbs))
  | .oct =>
    let u := (x % 2 ^ bits).toNat
    ([], (if f.showbase && decide (u ≠ 0) then ['0'] else []) ++ group f (Nat.toDigits 8 u))
  | .hex =>
    let u := (x % 2 ^ bits).toNat
    (if f.showbase && decide (u ≠ 0) then toUpper f ['0', 'x'] else [], group f (toUpper f (Nat.toDigits 16 u)))

def numText (f : Format) (signed : Bool) (bits : Nat) (x : Int) : Text :=
  pad f (numParts f signed bits x).1 (numParts f signed bits x).2

/-- `os << x` for an integer type other than the character types (standard library). -/
def OStream.num (os : OStream σ) (signed : Bool) (bits : Nat) (x : Int) : OStream σ :=
  os.insert S fun f => numText f signed bits x

/-! ## Elements -/

/-- An overload of `print_elem`. -/
abbrev ElemS (σ E : Type) := E → OStream σ → OStream σ

/-- print.tpp:20-23. -/
def floatElemS {F : Type} (ff : FloatFormat F) : ElemS σ F := fun value os =>
  os.str S ((floatToStrVw ff 64 value ff.max_digits10).getD [])

/-- print.tpp:25-28 for the types of more than 8 bits. -/
def intElemS (signed : Bool) (bits : Nat) : ElemS σ Int := fun value os => os.num S signed bits value

/-- print.tpp:25-28 for `char`, `signed char` and `unsigned char`. -/
def charElemS : ElemS σ Char := fun value os => os.str S [value]

/-- print.tpp:30-34. -/
def complexElemS {F : Type} (ff : FloatFormat F) : ElemS σ (F × F) := fun value os =>
  (((os.str S ((floatToStrVw ff 64 value.1 ff.max_digits10).getD [])).str S " + ".toList).str S
    ((floatToStrVw ff 64 value.2 ff.max_digits10).getD [])).str S ['j']

/-! ## Printers -/

section
variable {E : Type} (el : ElemS σ E)

/-- print.tpp:48-52 and 58-62. -/
def colsS (opts : PrintOpts) (row : Nat → E) (cols : Nat) (more : Nat → Bool) (os : OStream σ) : OStream σ :=
  (List.range cols).foldl (fun os (c : Nat) =>
    let os := el (row c) os
    if more c then os.str S opts.delimiter else os) os

/-- print.tpp:38-68, `print_csv_impl`. -/
def csvS (os : OStream σ) (rows cols : Nat) (M : Nat → Nat → E) (opts : PrintOpts) : OStream σ :=
  let indent := List.replicate opts.indent opts.indent_char
  if (cols = 1 ∧ opts.column_vector_as_1d) ∨ (rows = 1 ∧ opts.row_vector_as_1d) then
    let os := (os.str S indent).str S opts.start
    let os := (List.range rows).foldl (fun os (r : Nat) =>
      colsS S el opts (M r) cols (fun c => decide (r ≠ rows - 1) || decide (c ≠ cols - 1)) os) os
    os.str S opts.end
  else
    let os := (List.range rows).foldl (fun os (r : Nat) =>
      let os := (os.str S indent).str S (if r = 0 then opts.start else opts.line_start)
      let os := colsS S el opts (M r) cols (fun c => decide (c ≠ cols - 1)) os
      if r ≠ rows - 1 then os.str S opts.line_end else os) os
    os.str S opts.end

/-- print.tpp:70-90, `print_matlab_impl`. -/
def matlabS (os : OStream σ) (rows cols : Nat) (M : Nat → Nat → E) («end» : Text) : OStream σ :=
  (csvS S el os rows cols M (matlabOpts cols)).str S «end»

/-- print.tpp:92-114, `print_python_impl`. -/
def pythonS (os : OStream σ) (rows cols : Nat) (M : Nat → Nat → E) («end» : Text) (squeeze : Bool) : OStream σ :=
  (csvS S el os rows cols M (pythonOpts rows cols squeeze)).str S «end»

end

end Guanaqo.Print.Stream
