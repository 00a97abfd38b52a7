import Verif.Base

/-!
# Model of `/repo/src/include/guanaqo/string-util.hpp`

Strings are lists of bytes (`Nat` values). `std::string_view`s are modelled by their contents.
-/

namespace Guanaqo.StrUtil

abbrev Str := List Nat

/-- `std::string_view::find(tok)`: the first position at which `tok` occurs. -/
def find (tok : Str) : Str → Option Nat
  | [] => if tok.isPrefixOf [] then some 0 else none
  | c :: s => if tok.isPrefixOf (c :: s) then some 0 else (find tok s).map (· + 1)

/-- `substr(0, n)` -/
def substrTo (s : Str) (n : Nat) : Str := s.take n
/-- `substr(pos)` -/
def substrFrom (s : Str) (pos : Nat) : Str := s.drop pos

/-- `split(full, tok)`, string-util.hpp:14-26. -/
def split (full tok : Str) : Str × Str :=
  match find tok full with
  | none => (full, [])
  | some pos => (substrTo full pos, substrFrom full (pos + tok.length))

/-- `split_second(full, tok)`, string-util.hpp:30-42. -/
def splitSecond (full tok : Str) : Str × Str :=
  match find tok full with
  | none => ([], full)
  | some pos => (substrTo full pos, substrFrom full (pos + tok.length))

/-- `join(strings, opt)`, string-util.hpp:53-66 (options `sep`, `empty`: 45-48). -/
def join (strings : List Str) (sep empty : Str) : Str :=
  match strings with
  | [] => empty
  | first :: rest => rest.foldl (fun acc e => acc ++ sep ++ e) first

/-- `join_quote(strings, opt)`, string-util.hpp:80-99. -/
def joinQuote (strings : List Str) (sep empty ql qr : Str) : Str :=
  match strings with
  | [] => empty
  | first :: rest =>
    rest.foldl (fun acc e => acc ++ qr ++ sep ++ ql ++ e) (ql ++ first) ++ qr

/-- `std::ranges::lexicographical_compare` on integers. -/
def lexCompare : List Int → List Int → Bool
  | _, [] => false
  | [], _ :: _ => true
  | a :: as, b :: bs => if a < b then true else if b < a then false else lexCompare as bs

/-- The comparator of `sort_case_insensitive`, string-util.hpp:103-108; `toupper` is
`std::toupper` of the current locale. -/
def cmpCI (toupper : Nat → Int) (a b : Str) : Bool :=
  lexCompare (a.map toupper) (b.map toupper)

/-- `sort_case_insensitive(range)`, string-util.hpp:102-110, for a given sorting algorithm. -/
def sortCI (sort : {α : Type} → (α → α → Bool) → List α → List α) (toupper : Nat → Int)
    (range : List Str) : List Str :=
  sort (cmpCI toupper) range

/-- `std::toupper` in the "C" locale. -/
def toupperC (c : Nat) : Int := if 97 ≤ c ∧ c ≤ 122 then (c : Int) - 32 else (c : Int)

/-- A caller's loop: `n` times `std::tie(x, rem) = split(rem, tok)`, collecting the pieces. -/
def splitLoop (tok : Str) : Nat → Str → List Str × Str
  | 0, rem => ([], rem)
  | n + 1, rem =>
    let (x, rem) := split rem tok
    let (xs, rem) := splitLoop tok n rem
    (x :: xs, rem)

end Guanaqo.StrUtil
