import Verif.Base

/-!
# Model of the circular iterators (`/repo/src/include/guanaqo/ringbuffer.hpp`)

`IndexT` is an unbounded integer (the sizes of interest are far from the limits of `size_t`);
the `assert`s of the increment and decrement operators are kept.
-/

namespace Guanaqo.Ring

/-- `struct CircularIndices`, ringbuffer.hpp:9-15. -/
structure Indices where
  zerobased : Int
  circular : Int
  deriving DecidableEq, Repr

/-- `operator==(CircularIndices, CircularIndices)`, ringbuffer.hpp:18-21. -/
def Indices.eqv (a b : Indices) : Bool := decide (a.zerobased = b.zerobased)

/-- `struct CircularIndexIterator`, ringbuffer.hpp:30-38. -/
structure Iter where
  i : Indices
  max : Int
  deriving DecidableEq, Repr

/-- `operator*`, ringbuffer.hpp:46. -/
def Iter.deref (it : Iter) : Indices := it.i

/-- `operator++()`, ringbuffer.hpp:47-52. -/
def Iter.inc (it : Iter) : Res Iter := do
  assertThat (decide (it.i.zerobased < it.max))
  return { it with i :=
    { zerobased := it.i.zerobased + 1
      circular := if it.i.circular + 1 = it.max then 0 else it.i.circular + 1 } }

/-- `operator--()`, ringbuffer.hpp:53-58. -/
def Iter.dec (it : Iter) : Res Iter := do
  assertThat (decide (it.i.zerobased > 0))
  return { it with i :=
    { zerobased := it.i.zerobased - 1
      circular := if it.i.circular = 0 then it.max - 1 else it.i.circular - 1 } }

/-- `operator==(CircularIndexIterator, CircularIndexIterator)`, ringbuffer.hpp:73-78. -/
def Iter.eqv (a b : Iter) : Res Bool := do
  assertThat (decide (a.max = b.max))
  return a.i.eqv b.i

/-- `class CircularRange`, ringbuffer.hpp:145-152,174-178. -/
structure Range where
  size : Int
  idx1 : Int
  idx2 : Int
  max : Int
  deriving DecidableEq, Repr

/-- `begin()`, ringbuffer.hpp:160. -/
def Range.begin (r : Range) : Iter := { i := { zerobased := 0, circular := r.idx1 }, max := r.max }

/-- `end()`, ringbuffer.hpp:161. -/
def Range.end' (r : Range) : Iter := { i := { zerobased := r.size, circular := r.idx2 }, max := r.max }

/-- `struct ReverseCircularIndexIterator`, ringbuffer.hpp:88-98. -/
structure RIter where
  fwd : Iter
  deriving DecidableEq, Repr

/-- `operator*`, ringbuffer.hpp:106-109. -/
def RIter.deref (it : RIter) : Res Indices := do
  let tmp ← it.fwd.dec
  return tmp.deref

/-- `operator++()`, ringbuffer.hpp:110-113. -/
def RIter.inc (it : RIter) : Res RIter := do return { fwd := ← it.fwd.dec }

/-- `operator--()`, ringbuffer.hpp:114-117. -/
def RIter.dec (it : RIter) : Res RIter := do return { fwd := ← it.fwd.inc }

/-- `operator==(ReverseCircularIndexIterator, …)`, ringbuffer.hpp:132-136. -/
def RIter.eqv (a b : RIter) : Res Bool := a.fwd.eqv b.fwd

/-- `rbegin()`, ringbuffer.hpp:165. -/
def Range.rbegin (r : Range) : RIter := { fwd := r.end' }

/-- `rend()`, ringbuffer.hpp:166. -/
def Range.rend (r : Range) : RIter := { fwd := r.begin }

/-- `class ReverseCircularRange`, ringbuffer.hpp:180-210: wraps a forward range. -/
structure RRange where
  fwd : Range
  deriving DecidableEq, Repr

/-- `ReverseCircularRange::begin`, ringbuffer.hpp:198. -/
def RRange.begin (r : RRange) : RIter := r.fwd.rbegin
/-- `ReverseCircularRange::end`, ringbuffer.hpp:199. -/
def RRange.end' (r : RRange) : RIter := r.fwd.rend
/-- `ReverseCircularRange::rbegin`, ringbuffer.hpp:203. -/
def RRange.rbegin (r : RRange) : Iter := r.fwd.begin
/-- `ReverseCircularRange::rend`, ringbuffer.hpp:204. -/
def RRange.rend (r : RRange) : Iter := r.fwd.end'

/-- A range-for loop `for (auto x : range)` over forward iterators, collecting the elements.
The fuel bounds the number of iterations (`none`: it ran out before reaching `end`). -/
def collect (stop : Iter) : Nat → Iter → Res (Option (List Indices))
  | fuel, it => do
    if ← it.eqv stop then return some []
    match fuel with
    | 0 => return none
    | fuel + 1 =>
      let x := it.deref
      let it ← it.inc
      return (← collect stop fuel it).map (x :: ·)

/-- The same loop over reverse iterators. -/
def rcollect (stop : RIter) : Nat → RIter → Res (Option (List Indices))
  | fuel, it => do
    if ← it.eqv stop then return some []
    match fuel with
    | 0 => return none
    | fuel + 1 =>
      let x ← it.deref
      let it ← it.inc
      return (← rcollect stop fuel it).map (x :: ·)

end Guanaqo.Ring
