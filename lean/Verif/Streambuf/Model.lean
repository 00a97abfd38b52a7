import Verif.Loops

/-!
# Model of `callback_streambuf` and `scoped_ostream_redirect`
(`src/include/guanaqo/callback-streambuf.hpp`)

Not modelled here: callbacks that throw and the `badbit` of `std::ostream` (see `Verif/Streambuf/Throw.lean`), locales. `std::streambuf::sputc`
and `xsputn` (C++ standard library) are modelled as byte-by-byte writes: store at `pptr()` if
`pptr() < epptr()`, else call `overflow`.
-/

namespace Guanaqo.Streambuf

/-- A `callback_streambuf` (callback-streambuf.hpp:17, 97-99) together with the calls made to its
callback so far. `mem` is the memory allocated behind `buffer.data()` (at least `size` bytes; exactly
`size` when the allocator does not round up), `pptr` is `pptr() - pbase()`, and `pbase()` is always
`buffer.data()`, `epptr()` always `buffer.data() + size`. -/
structure SB where
  size : Nat
  mem : List UInt8
  pptr : Nat
  out : List (List UInt8)
  deriving DecidableEq, Repr

/-- callback-streambuf.hpp:88-92: the constructor; `spare` extra bytes happen to follow the vector's
elements in its allocation (the language guarantees 0). -/
def SB.init (size spare : Nat) : SB := ⟨size, List.replicate (size + spare) 0, 0, []⟩

/-- callback-streambuf.hpp:29 -/
def isAscii (c : UInt8) : Bool := c &&& 0x80 == 0x00
/-- callback-streambuf.hpp:30 -/
def isLeading (c : UInt8) : Bool := c &&& 0xC0 == 0xC0
/-- callback-streambuf.hpp:31 -/
def isLeading2b (c : UInt8) : Bool := c ≤ 0xDF
/-- callback-streambuf.hpp:32 -/
def isLeading3b (c : UInt8) : Bool := c ≤ 0xEF

/-- callback-streambuf.hpp:25-55, `utf8_remainder`, on the buffered bytes read backwards from
`pptr()`: `r[i]` is `rpptr[i]` and `r.length` is `rbase - rpptr`. Reading `*rpptr` of an empty buffer
is undefined (the documented precondition). -/
def utf8Remainder (r : List UInt8) : Res Nat :=
  match r[0]? with
  | none => .error .ub
  | some last =>
    if isAscii last then .ok 0                                     -- 34-35
    else
      let rpend := if 3 ≤ r.length then 3 else r.length            -- 38
      let leading := (r.take rpend).findIdx isLeading              -- 39: `rpend` when none is found
      if leading = r.length then .ok 0                             -- 40-41
      else
        match r[leading]? with
        | none => .error .ub
        | some lead =>
          if leading = 0 then .ok 1                                -- 45-46
          else if leading = 1 then .ok (if isLeading2b lead then 0 else leading + 1)  -- 47-48
          else if leading = 2 then .ok (if isLeading3b lead then 0 else leading + 1)  -- 49-50
          else .ok 0                                               -- 51-54

/-- callback-streambuf.hpp:58-74, `_sync`. -/
def SB.sync (s : SB) : Res SB :=
  if s.pptr ≠ 0 then do
    let size := s.pptr
    let remainder ← utf8Remainder (s.mem.take s.pptr).reverse
    let out := if remainder < size then s.out ++ [s.mem.take (size - remainder)] else s.out
    -- memmove(pbase(), pptr() - remainder, remainder)
    let mem := (s.mem.drop (size - remainder)).take remainder ++ s.mem.drop remainder
    .ok { s with mem := mem, pptr := remainder, out := out }
  else .ok s

/-- `*pptr() = c; pbump(1)`: undefined outside the allocation. -/
def SB.store (s : SB) (c : UInt8) : Res SB :=
  if s.pptr < s.mem.length then .ok { s with mem := s.mem.set s.pptr c, pptr := s.pptr + 1 }
  else .error .ub

/-- callback-streambuf.hpp:78-85, `overflow` (`none`: the argument is `eof`). -/
def SB.overflow (s : SB) : Option UInt8 → Res SB
  | some c => do
    let s ← s.store c
    s.sync
  | none => s.sync

/-- `std::streambuf::sputc` (standard library): `pptr() < epptr()` or else `overflow`. -/
def SB.sputc (s : SB) (c : UInt8) : Res SB :=
  if s.pptr < s.size then s.store c else s.overflow (some c)

/-- What a program does with the stream buffer. -/
inductive Op where
  /-- write one byte -/
  | put (c : UInt8)
  /-- flush (`pubsync`, callback-streambuf.hpp:76) -/
  | flush
  deriving DecidableEq, Repr

def SB.exec (s : SB) : Op → Res SB
  | .put c => s.sputc c
  | .flush => s.sync

/-- A history of writes and flushes. -/
def SB.run (s : SB) (ops : List Op) : Res SB := ops.foldlM SB.exec s

/-- callback-streambuf.hpp:95: the destructor; the chunks the callback has received at the end. -/
def SB.destroy (s : SB) : Res (List (List UInt8)) := do
  let s ← s.sync
  return s.out

end Guanaqo.Streambuf
