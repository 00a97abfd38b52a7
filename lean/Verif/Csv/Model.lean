import Verif.Loops

/-!
# Model of the CSV reader (`src/include/guanaqo/implementation/io/csv.tpp`)

Modelled: the `#if __cpp_lib_to_chars` configuration. Input streams (standard library) are modelled
by their remaining characters and the `eofbit`/`failbit` flags; `badbit` (I/O errors) is not
modelled. The number conversion `std::from_chars` is a parameter (`Parser`); `fromCharsInt` below is
its model for the signed integer types.
-/

namespace Guanaqo.Csv

/-- A `std::istream`: remaining characters, `eofbit`, `failbit`. -/
structure IStream where
  rest : List Char
  eof : Bool := false
  fail : Bool := false
  deriving DecidableEq, Repr

/-- `is.good()` -/
def IStream.good (is : IStream) : Bool := !is.eof && !is.fail

/-- `is.get(s, n + 1, '\n')` (standard library), for `n ≥ 1`: extracts at most `n` characters, stops
before a newline, sets `eofbit` at the end of the input and `failbit` if nothing was extracted or the
stream was not good. Implementations differ in whether `eofbit` is already set when the input ends
exactly with the `n`-th character: `eager` (libstdc++: yes, libc++: no). -/
def IStream.getBuf (eager : Bool) (is : IStream) (n : Nat) : List Char × IStream :=
  if is.good then
    let got := (is.rest.takeWhile (· != '\n')).take n
    let rest := is.rest.drop got.length
    (got, { rest := rest, eof := rest.isEmpty && (eager || decide (got.length < n)),
            fail := got.isEmpty })
  else ([], { is with fail := true })

/-- `is.peek()` (standard library; `none` is end of file). -/
def IStream.peek (is : IStream) : Option Char × IStream :=
  if is.good then
    match is.rest with
    | [] => (none, { is with eof := true })
    | c :: _ => (some c, is)
  else (none, { is with fail := true })

/-- `is.get()` (standard library; `none` is end of file). -/
def IStream.get (is : IStream) : Option Char × IStream :=
  if is.good then
    match is.rest with
    | [] => (none, { is with eof := true, fail := true })
    | c :: r => (some c, { is with rest := r })
  else (none, { is with fail := true })

/-- `std::from_chars` on a character range (standard library): on success the value and the
characters that were not consumed. -/
abbrev Parser (F : Type) := List Char → Option (F × List Char)

/-- `throw csv_read_error(...)` -/
def throwCsv {α : Type} : Res α := .error (.throw .csvReadError)

/-- csv.tpp:85-96, `read_single`: skip a plus sign, convert, return the value and the rest of the
buffer. -/
def readSingle {F : Type} (fromChars : Parser F) (buf : List Char) : Option (F × List Char) :=
  match buf with
  | '+' :: r => fromChars r
  | _ => fromChars buf

/-- csv.tpp:20: capacity of the internal buffer. -/
def bufmaxsize : Nat := 64

/-- csv.tpp:19-24: the reader; `buf` is `s[0 .. bufidx)`. -/
structure Reader where
  buf : List Char := []
  keep : Bool := true
  deriving DecidableEq, Repr

/-- csv.tpp:48-65, `read_chunk`. -/
def readChunk (eager dbg : Bool) (rd : Reader) (is : IStream) : Res (Reader × IStream) :=
  if is.fail then throwCsv                                            -- 50-54: `!is`
  else if rd.buf.length = bufmaxsize then .ok (rd, is)                -- 55-56
  else
    let (got, is) := is.getBuf eager (bufmaxsize - rd.buf.length)     -- 57
    if is.fail then throwCsv                                          -- 58-61
    else
      let buf := rd.buf ++ got                                        -- 62
      let (next, is) := is.peek                                       -- 63
      let keep := decide (next ≠ some '\n') && !is.eof
      if dbg && decide (bufmaxsize < buf.length) then .error .assertFail   -- 64
      else .ok (⟨buf, keep⟩, is)

/-- csv.tpp:132-135, `next_line`. -/
def nextLine (rd : Reader) (is : IStream) : Res IStream :=
  if 0 < rd.buf.length then throwCsv
  else if is.eof then .ok is
  else
    let (c, is) := is.get
    if c ≠ some '\n' then throwCsv else .ok is

/-- csv.tpp:75-78: the inner loop of `skip_comments`. The fuel bounds the number of iterations: each
one extracts at least one character (or throws). -/
def skipRest (eager dbg : Bool) : Nat → Reader → IStream → Res (Reader × IStream)
  | 0, _, _ => .error .ub
  | fuel + 1, rd, is =>
    if rd.keep then do
      let (rd, is) ← readChunk eager dbg { rd with buf := [] } is
      skipRest eager dbg fuel rd is
    else .ok (rd, is)

/-- csv.tpp:71-81: the outer loop of `skip_comments`, with fuel as above. -/
def skipLoop (eager dbg : Bool) : Nat → Reader → IStream → Res (Reader × IStream)
  | 0, _, _ => .error .ub
  | fuel + 1, rd, is =>
    if is.eof then .ok (rd, is)
    else do
      let (rd, is) ← readChunk eager dbg rd is
      match rd.buf with
      | '#' :: _ => do
        let (rd, is) ← skipRest eager dbg (is.rest.length + 1) rd is
        let rd : Reader := { rd with buf := [] }
        let is ← nextLine rd is
        skipLoop eager dbg fuel rd is
      | _ => .ok (rd, is)

/-- csv.tpp:67-82, `skip_comments`. -/
def skipComments (eager dbg : Bool) (rd : Reader) (is : IStream) : Res (Reader × IStream) :=
  if dbg && decide (rd.buf.length ≠ 0) then .error .assertFail        -- 68
  else if is.eof then .ok (rd, is)                                    -- 69-70
  else
    let (c, is) := is.peek
    if c = some '\n' then .ok (rd, is)
    else skipLoop eager dbg (is.rest.length + 2) rd is

/-- csv.tpp:28-29: get some characters to process. -/
def fill (eager dbg : Bool) (rd : Reader) (is : IStream) : Res (Reader × IStream) :=
  if rd.keep then readChunk eager dbg rd is else .ok (rd, is)

/-- csv.tpp:26-46, `read`. -/
def read {F : Type} (fromChars : Parser F) (eager dbg : Bool) (sep : Char) (rd : Reader)
    (is : IStream) : Res (F × Reader × IStream) := do
  let (rd, is) ← fill eager dbg rd is
  match readSingle fromChars rd.buf with
  | none => throwCsv
  | some (v, []) => .ok (v, { rd with buf := [] }, is)
  | some (v, c :: tail) => if c ≠ sep then throwCsv else .ok (v, { rd with buf := tail }, is)

/-- The loop `for (auto &vv : v) vv = reader.read(is, sep)` (csv.tpp:160-161, 172-173). -/
def readN {F : Type} (fromChars : Parser F) (eager dbg : Bool) (sep : Char) :
    Nat → Reader → IStream → Res (List F × Reader × IStream)
  | 0, rd, is => .ok ([], rd, is)
  | n + 1, rd, is => do
    let (v, rd, is) ← read fromChars eager dbg sep rd is
    let (vs, rd, is) ← readN fromChars eager dbg sep n rd is
    .ok (v :: vs, rd, is)

/-- One row: csv.tpp:159-162 and 171-174. -/
def readRowWith {F : Type} (fromChars : Parser F) (eager dbg : Bool) (sep : Char) (n : Nat)
    (rd : Reader) (is : IStream) : Res (List F × Reader × IStream) := do
  let (rd, is) ← skipComments eager dbg rd is
  let (vs, rd, is) ← readN fromChars eager dbg sep n rd is
  let is ← nextLine rd is
  .ok (vs, rd, is)

/-- csv.tpp:155-163, `csv_read_row` into a span of `n` elements: the values stored, and the
stream. -/
def csvReadRow {F : Type} (fromChars : Parser F) (eager dbg : Bool) (sep : Char) (n : Nat)
    (is : IStream) : Res (List F × IStream) := do
  let (vs, _, is) ← readRowWith fromChars eager dbg sep n {} is
  .ok (vs, is)

/-- csv.tpp:170-175: the row loop of `csv_read`. -/
def readRows {F : Type} (fromChars : Parser F) (eager dbg : Bool) (sep : Char) (cols : Nat) :
    Nat → Reader → IStream → Res (List (List F) × IStream)
  | 0, _, is => .ok ([], is)
  | rows + 1, rd, is => do
    let (vs, rd, is) ← readRowWith fromChars eager dbg sep cols rd is
    let (vss, is) ← readRows fromChars eager dbg sep cols rows rd is
    .ok (vs :: vss, is)

/-- csv.tpp:165-176, `csv_read` into a `rows × cols` view. Simplification: the result is the list of
rows stored into the view (`v(r, c)` is modelled in `Verif/MatView`). -/
def csvRead {F : Type} (fromChars : Parser F) (eager dbg : Bool) (sep : Char) (rows cols : Nat)
    (is : IStream) : Res (List (List F) × IStream) :=
  readRows fromChars eager dbg sep cols rows {} is

/-- csv.tpp:137-140, `done`. -/
def done (rd : Reader) (is : IStream) : Bool × IStream :=
  let (c, is) := is.peek
  let keep := decide (c ≠ some '\n') && !is.eof
  (rd.buf.isEmpty && !keep, is)

/-- csv.tpp:184-185: the loop of `csv_read_row_std_vector`; each iteration consumes at least one
character or throws, which the fuel reflects. -/
def readAll {F : Type} (fromChars : Parser F) (eager dbg : Bool) (sep : Char) :
    Nat → Reader → IStream → Res (List F × Reader × IStream)
  | 0, _, _ => .error .ub
  | fuel + 1, rd, is =>
    let (d, is) := done rd is
    if d then .ok ([], rd, is)
    else do
      let (v, rd, is) ← read fromChars eager dbg sep rd is
      let (vs, rd, is) ← readAll fromChars eager dbg sep fuel rd is
      .ok (v :: vs, rd, is)

/-- csv.tpp:178-188, `csv_read_row_std_vector`. -/
def csvReadRowVector {F : Type} (fromChars : Parser F) (eager dbg : Bool) (sep : Char)
    (is : IStream) : Res (List F × IStream) := do
  let (rd, is) ← skipComments eager dbg {} is
  let (vs, rd, is) ← readAll fromChars eager dbg sep (rd.buf.length + is.rest.length + 1) rd is
  let is ← nextLine rd is
  .ok (vs, is)

/-- Value of a decimal digit. -/
def digitVal (c : Char) : Option Nat :=
  if '0' ≤ c ∧ c ≤ '9' then some (c.toNat - '0'.toNat) else none

/-- Value of a string of decimal digits, most significant first. -/
def digitsVal (ds : List Char) : Nat :=
  ds.foldl (fun acc c => acc * 10 + (digitVal c).getD 0) 0

/-- `std::from_chars` for a signed integer type with `bits` bits (standard library): an optional
minus sign and the longest nonempty string of digits; an error if there is none or if the value does
not fit. -/
def fromCharsInt (bits : Nat) : Parser Int := fun s =>
  let (neg, body) := match s with
    | '-' :: r => (true, r)
    | _ => (false, s)
  let ds := body.takeWhile (fun c => (digitVal c).isSome)
  let rest := body.dropWhile (fun c => (digitVal c).isSome)
  if ds.isEmpty then none
  else
    let v : Int := if neg then -(digitsVal ds : Int) else digitsVal ds
    if -(2 ^ (bits - 1) : Int) ≤ v ∧ v < (2 ^ (bits - 1) : Int) then some (v, rest) else none

end Guanaqo.Csv
