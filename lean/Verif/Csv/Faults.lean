import Verif.Csv.Model
import Verif.MatView.Model

/-!
# Input errors while reading CSV (C118)

The reader of `Csv/Model` on a stream whose buffer may fail (throw, as for a disk error) at any access. An `std::istream` swallows the
exception and sets `badbit`. As in `Csv/Model`, `fail` stands for `is.fail()`, which is true if `failbit` or `badbit` is set: the code
distinguishes the two in the text of its messages only. The exception mask of the stream is empty (the default).
-/

namespace Guanaqo.Csv

/-- A stream and what the next accesses to its buffer do: `none` is success, `some k` an error after `k` characters. -/
structure FStream where
  is : IStream
  plan : List (Option Nat)
  /-- An error has occurred (`badbit`). -/
  hit : Bool := false
  deriving DecidableEq, Repr

/-- The next access. -/
def FStream.next (s : FStream) : Option Nat := s.plan.head?.getD none

/-- An access that succeeds. -/
def FStream.went (s : FStream) (is : IStream) : FStream := { s with is := is, plan := s.plan.tail }

/-- An access that fails: `badbit`. -/
def FStream.broke (s : FStream) (is : IStream) : FStream := { is := { is with fail := true }, plan := s.plan.tail, hit := true }

/-- `is.get(s, n + 1, '\n')` (standard library): what was extracted before an error stays extracted. -/
def FStream.getBuf (eager : Bool) (s : FStream) (n : Nat) : List Char × FStream :=
  if s.is.good then
    match s.next with
    | none => ((s.is.getBuf eager n).1, s.went (s.is.getBuf eager n).2)
    | some k =>
      let got := ((s.is.rest.takeWhile (· != '\n')).take n).take k
      (got, s.broke { s.is with rest := s.is.rest.drop got.length })
  else ((s.is.getBuf eager n).1, { s with is := (s.is.getBuf eager n).2 })

/-- `is.peek()` (standard library) -/
def FStream.peek (s : FStream) : Option Char × FStream :=
  if s.is.good then
    match s.next with
    | none => (s.is.peek.1, s.went s.is.peek.2)
    | some _ => (none, s.broke s.is)
  else (s.is.peek.1, { s with is := s.is.peek.2 })

/-- `is.get()` (standard library) -/
def FStream.get (s : FStream) : Option Char × FStream :=
  if s.is.good then
    match s.next with
    | none => (s.is.get.1, s.went s.is.get.2)
    | some _ => (none, s.broke s.is)
  else (s.is.get.1, { s with is := s.is.get.2 })

/-- csv.tpp:48-65, `read_chunk`. -/
def readChunkF (eager dbg : Bool) (rd : Reader) (s : FStream) : Res (Reader × FStream) :=
  if s.is.fail then throwCsv                                          -- 50-54: `!is`
  else if rd.buf.length = bufmaxsize then .ok (rd, s)                 -- 55-56
  else
    let (got, s) := s.getBuf eager (bufmaxsize - rd.buf.length)       -- 57
    if s.is.fail then throwCsv                                        -- 58-61
    else
      let buf := rd.buf ++ got                                        -- 62
      let (next, s) := s.peek                                         -- 63
      let keep := decide (next ≠ some '\n') && !s.is.eof
      if dbg && decide (bufmaxsize < buf.length) then .error .assertFail   -- 64
      else .ok (⟨buf, keep⟩, s)

/-- csv.tpp:132-135, `next_line`. -/
def nextLineF (rd : Reader) (s : FStream) : Res FStream :=
  if 0 < rd.buf.length then throwCsv
  else if s.is.eof then .ok s
  else
    let (c, s) := s.get
    if c ≠ some '\n' then throwCsv else .ok s

/-- csv.tpp:75-78: the inner loop of `skip_comments`, with fuel as in `skipRest`. -/
def skipRestF (eager dbg : Bool) : Nat → Reader → FStream → Res (Reader × FStream)
  | 0, _, _ => .error .ub
  | fuel + 1, rd, s =>
    if rd.keep then do
      let (rd, s) ← readChunkF eager dbg { rd with buf := [] } s
      skipRestF eager dbg fuel rd s
    else .ok (rd, s)

/-- csv.tpp:71-81: the outer loop of `skip_comments`. -/
def skipLoopF (eager dbg : Bool) : Nat → Reader → FStream → Res (Reader × FStream)
  | 0, _, _ => .error .ub
  | fuel + 1, rd, s =>
    if s.is.eof then .ok (rd, s)
    else do
      let (rd, s) ← readChunkF eager dbg rd s
      match rd.buf with
      | '#' :: _ => do
        let (rd, s) ← skipRestF eager dbg (s.is.rest.length + 1) rd s
        let rd : Reader := { rd with buf := [] }
        let s ← nextLineF rd s
        skipLoopF eager dbg fuel rd s
      | _ => .ok (rd, s)

/-- csv.tpp:67-82, `skip_comments`. -/
def skipCommentsF (eager dbg : Bool) (rd : Reader) (s : FStream) : Res (Reader × FStream) :=
  if dbg && decide (rd.buf.length ≠ 0) then .error .assertFail        -- 68
  else if s.is.eof then .ok (rd, s)                                   -- 69-70
  else
    let (c, s) := s.peek
    if c = some '\n' then .ok (rd, s)
    else skipLoopF eager dbg (s.is.rest.length + 2) rd s

/-- csv.tpp:28-29. -/
def fillF (eager dbg : Bool) (rd : Reader) (s : FStream) : Res (Reader × FStream) :=
  if rd.keep then readChunkF eager dbg rd s else .ok (rd, s)

/-- csv.tpp:26-46, `read`, for any `read_single`: that of csv.tpp:84-96 (`readSingle fc`, with `std::from_chars`) or those of
csv.tpp:97-131 (`strtolSingle`, `strtodSingle`). -/
def readF {F : Type} (single : Parser F) (eager dbg : Bool) (sep : Char) (rd : Reader)
    (s : FStream) : Res (F × Reader × FStream) := do
  let (rd, s) ← fillF eager dbg rd s
  match single rd.buf with
  | none => throwCsv
  | some (v, []) => .ok (v, { rd with buf := [] }, s)
  | some (v, c :: tail) => if c ≠ sep then throwCsv else .ok (v, { rd with buf := tail }, s)

/-- csv.tpp:137-140, `done`. -/
def doneF (rd : Reader) (s : FStream) : Bool × FStream :=
  let (c, s) := s.peek
  let keep := decide (c ≠ some '\n') && !s.is.eof
  (rd.buf.isEmpty && !keep, s)

/-! ### What is written to memory

The elements of a `std::span` or of a matrix view are assigned one at a time, so that an exception leaves the first of them assigned.
The outcome of a function is the memory it leaves and its result or exception. -/

/-- An outcome with the memory. -/
abbrev WithMem (F R : Type) := Mem F × Res R

/-- A step that does not write to memory, and then another. -/
def thenMem {F X R : Type} (m : Mem F) (x : Res X) (k : X → WithMem F R) : WithMem F R :=
  match x with
  | .ok x => k x
  | .error e => (m, .error e)

/-- `target(i) = reader.read(is, sep)` for `i` from `i` on, `n` times (csv.tpp:160-161, 172-173): the right side is evaluated first. An
assignment to an address that is not allocated is undefined behaviour. -/
def readInto {F : Type} (single : Parser F) (eager dbg : Bool) (sep : Char) (target : Nat → Res Int) :
    Nat → Nat → Reader → FStream → Mem F → WithMem F (Reader × FStream)
  | 0, _, rd, s, m => (m, .ok (rd, s))
  | n + 1, i, rd, s, m =>
    thenMem m (readF single eager dbg sep rd s) fun (v, rd, s) =>
      thenMem m (target i) fun a =>
        thenMem m (m.write a v) fun m => readInto single eager dbg sep target n (i + 1) rd s m

/-- One row: csv.tpp:159-162 and 171-174. -/
def rowInto {F : Type} (single : Parser F) (eager dbg : Bool) (sep : Char) (target : Nat → Res Int) (n : Nat)
    (rd : Reader) (s : FStream) (m : Mem F) : WithMem F (Reader × FStream) :=
  thenMem m (skipCommentsF eager dbg rd s) fun (rd, s) =>
    match readInto single eager dbg sep target n 0 rd s m with
    | (m, .error e) => (m, .error e)
    | (m, .ok (rd, s)) => thenMem m (nextLineF rd s) fun s => (m, .ok (rd, s))

/-- csv.tpp:170-175: the loop over the rows, from row `r` on. -/
def rowsInto {F : Type} (single : Parser F) (eager dbg : Bool) (sep : Char) (target : Nat → Nat → Res Int) (cols : Nat) :
    Nat → Nat → Reader → FStream → Mem F → WithMem F FStream
  | 0, _, _, s, m => (m, .ok s)
  | n + 1, r, rd, s, m =>
    match rowInto single eager dbg sep (target r) cols rd s m with
    | (m, .error e) => (m, .error e)
    | (m, .ok (rd, s)) => rowsInto single eager dbg sep target cols n (r + 1) rd s m

/-- csv.tpp:155-163, `csv_read_row` into a span of `n` elements at `data`. -/
def csvReadRowInto {F : Type} (single : Parser F) (eager dbg : Bool) (sep : Char) (data : Int) (n : Nat)
    (s : FStream) (m : Mem F) : WithMem F FStream :=
  match rowInto single eager dbg sep (fun i => .ok (data + i)) n {} s m with
  | (m, .error e) => (m, .error e)
  | (m, .ok (_, s)) => (m, .ok s)

/-- csv.tpp:165-176, `csv_read` into a view (with the assertions of `operator()`, mat-view.hpp:61-65). The overload for other index types
(csv.hpp:36-48) converts the members of the view to `ptrdiff_t`, which is the identity for values that fit. -/
def csvReadInto {F : Type} (single : Parser F) (eager dbg : Bool) (sep : Char) (v : MatView.View)
    (s : FStream) (m : Mem F) : WithMem F FStream :=
  rowsInto single eager dbg sep (fun r c => v.at r c) v.cols.toNat v.rows.toNat 0 {} s m

/-- csv.tpp:184-185: the loop of `csv_read_row_std_vector`, with fuel as in `readAll`. -/
def readAllF {F : Type} (single : Parser F) (eager dbg : Bool) (sep : Char) :
    Nat → Reader → FStream → Res (List F × Reader × FStream)
  | 0, _, _ => .error .ub
  | fuel + 1, rd, s =>
    let (d, s) := doneF rd s
    if d then .ok ([], rd, s)
    else do
      let (v, rd, s) ← readF single eager dbg sep rd s
      let (vs, rd, s) ← readAllF single eager dbg sep fuel rd s
      .ok (v :: vs, rd, s)

/-- csv.tpp:178-188, `csv_read_row_std_vector`. -/
def csvReadRowVectorF {F : Type} (single : Parser F) (eager dbg : Bool) (sep : Char)
    (s : FStream) : Res (List F × FStream) := do
  let (rd, s) ← skipCommentsF eager dbg {} s
  let (vs, rd, s) ← readAllF single eager dbg sep (rd.buf.length + s.is.rest.length + 1) rd s
  let s ← nextLineF rd s
  .ok (vs, s)

end Guanaqo.Csv
