import Verif.Print.Model

/-!
# What the printed texts mean

Readers for the literals of Python and MATLAB, written without reference to the printers: a character
at a time, with a small state.
-/

namespace Guanaqo.Print

/-- The text of a list of pieces with a separator between them. -/
def sepBy (sep : Text) (pieces : List Text) : Text := sep.intercalate pieces

/-- The rows of a matrix as lists. -/
def rowsOf {E : Type} (rows cols : Nat) (M : Nat → Nat → E) : List (List E) :=
  (List.range rows).map fun (r : Nat) => (List.range cols).map fun (c : Nat) => M r c

/-! ## Python -/

/-- A Python value: a number (its text without blanks) or a list. -/
inductive Py where
  | num : Text → Py
  | list : List Py → Py

/-- State of the reader: the open lists (innermost first, each with the elements read so far), the
characters of the number being read, and whether a value has just been completed (so that a comma or
a closing bracket must follow). -/
structure PyState where
  stack : List (List Py) := [[]]
  atom : Text := []
  afterValue : Bool := false

/-- End of a number. -/
def PyState.flush (s : PyState) : Option PyState :=
  match s.atom with
  | [] => some s
  | _ =>
    match s.stack with
    | top :: below =>
      if s.afterValue then none
      else some { stack := (top ++ [.num s.atom]) :: below, atom := [], afterValue := true }
    | [] => none

/-- One character. -/
def PyState.step (s : PyState) (c : Char) : Option PyState :=
  if c = ' ' ∨ c = '\n' then some s
  else if c = '[' then
    if s.afterValue ∨ s.atom ≠ [] then none else some { stack := [] :: s.stack }
  else if c = ']' then do
    let s ← s.flush
    match s.stack with
    | top :: next :: below => some { stack := (next ++ [.list top]) :: below, afterValue := true }
    | _ => none
  else if c = ',' then do
    let s ← s.flush
    if s.afterValue then some { s with afterValue := false } else none
  else some { s with atom := s.atom ++ [c] }

/-- The value of a Python expression consisting of numbers and list displays (a trailing comma is
allowed, as in Python). Outside any list, a single value is required. -/
def pyRead (t : Text) : Option Py := do
  let s ← t.foldlM PyState.step {}
  let s ← s.flush
  match s.stack with
  | [[v]] => some v
  | _ => none

/-! ## MATLAB -/

/-- State of the reader of a MATLAB matrix literal: completed rows, elements of the current row,
characters of the current element; `none` outside the brackets. -/
structure MState where
  rows : List (List Text) := []
  row : List Text := []
  atom : Text := []

/-- End of an element. -/
def MState.endElem (s : MState) : MState :=
  if s.atom = [] then s else { s with row := s.row ++ [s.atom], atom := [] }

/-- End of a row (empty rows are ignored, as in MATLAB). -/
def MState.endRow (s : MState) : MState :=
  let s := s.endElem
  if s.row = [] then s else { s with rows := s.rows ++ [s.row], row := [] }

inductive MParse where
  | before
  | inside (s : MState)
  | after (rows : List (List Text))

/-- One character. After the closing bracket only a semicolon and blanks may follow. -/
def MParse.step : MParse → Char → Option MParse
  | .before, c => if c = '[' then some (.inside {}) else if c = ' ' then some .before else none
  | .inside s, c =>
    if c = ' ' ∨ c = ',' then some (.inside s.endElem)
    else if c = ';' ∨ c = '\n' then some (.inside s.endRow)
    else if c = ']' then some (.after s.endRow.rows)
    else if c = '[' then none
    else some (.inside { s with atom := s.atom ++ [c] })
  | .after rows, c => if c = ';' ∨ c = '\n' ∨ c = ' ' then some (.after rows) else none

/-- The rows of a MATLAB matrix literal (elements as texts). -/
def matlabRead (t : Text) : Option (List (List Text)) := do
  match ← t.foldlM MParse.step .before with
  | .after rows => some rows
  | _ => none

/-- The characters that structure a literal. -/
def structural (c : Char) : Bool :=
  c == '[' || c == ']' || c == ',' || c == ';' || c == '\n' || c == '#'

/-- The text of an element: not empty, and without characters that structure a literal. -/
def ElemText (t : Text) : Prop := (∃ c ∈ t, c ≠ ' ') ∧ ∀ c ∈ t, structural c = false

/-- Text without blanks. -/
def noBlanks (t : Text) : Text := t.filter (· ≠ ' ')

end Guanaqo.Print
