import Verif.Base

/-!
# Model of `guanaqo::MaxHistory` (`/repo/src/include/guanaqo/max-history.hpp`)

The element type is any type with the comparison operators the class uses, passed as Boolean
functions `gt` (`operator>`), `lt` (`operator<`, used by `std::max_element`) and `eq`
(`operator==`). The member iterator `it` is an index together with the identity of the buffer
it points into: a defaulted copy constructor copies the iterator, which then still points into
the buffer of the *source* object.
-/

namespace Guanaqo.MaxHistory

/-- The comparison operators of `T`. -/
structure Ops (α : Type) where
  gt : α → α → Bool
  lt : α → α → Bool
  eq : α → α → Bool

variable {α : Type}

/-- Members of one object, max-history.hpp:41-44 (for objects that were not copied: `it` is an
index into the object's own `buffer`). -/
structure Hist (α : Type) where
  buffer : List α
  full : Bool
  it : Nat
  max : α
  deriving DecidableEq

/-- Constructor, max-history.hpp:13,42-44: a vector of `memory` value-initialised elements. -/
def init (zero : α) (memory : Nat) : Hist α :=
  { buffer := List.replicate memory zero, full := false, it := 0, max := zero }

/-- `std::max_element` over a non-empty range: the first largest element. -/
def maxElement (o : Ops α) : α → List α → α
  | best, [] => best
  | best, x :: xs => maxElement o (if o.lt best x then x else best) xs

/-- `*std::max_element(buffer.begin(), buffer.end())` (undefined for an empty buffer). -/
def derefMaxElement (o : Ops α) : List α → Res α
  | [] => .error .ub
  | x :: xs => .ok (maxElement o x xs)

/-- The update of `max_` when full, max-history.hpp:19-22; `buffer` already contains `newt`. -/
def fullMax (o : Ops α) (max oldt newt : α) (buffer : List α) : Res α :=
  if o.gt newt max then .ok newt
  else if o.eq oldt max then derefMaxElement o buffer
  else .ok max

/-- `add(newt)`, max-history.hpp:15-36. Dereferencing `it` when it is not inside the buffer
(zero-length memory) is undefined behaviour. -/
def add (o : Ops α) (h : Hist α) (newt : α) : Res (Hist α) :=
  match h.buffer[h.it]? with
  | none => .error .ub
  | some oldt =>
    if h.full then do
      let buffer := h.buffer.set h.it newt
      let max ← fullMax o h.max oldt newt buffer
      let it := h.it + 1
      return { buffer, full := true, it := if it = buffer.length then 0 else it, max }
    else
      let max := if h.it = 0 || o.gt newt h.max then newt else h.max
      let buffer := h.buffer.set h.it newt
      let it := h.it + 1
      if it = buffer.length then .ok { buffer, full := true, it := 0, max }
      else .ok { buffer, full := false, it, max }

/-- A sequence of `add` calls. -/
def addAll (o : Ops α) : Hist α → List α → Res (Hist α)
  | h, [] => .ok h
  | h, x :: xs => do addAll o (← add o h x) xs

/-! ### Objects and copies -/

/-- An object in memory: its own vector and the buffer its iterator points into
(`itBuf`: the index of the owning object). -/
structure Obj (α : Type) where
  buffer : List α
  full : Bool
  itBuf : Nat
  it : Nat
  max : α

/-- Copy construction (implicitly defaulted), max-history.hpp:10-45: member-wise copy. The
vector is deep-copied, the iterator is copied as is and keeps pointing into the source's
vector. -/
def copyObj (src : Obj α) : Obj α := src

/-- `add` on object number `k` of a list of live objects, max-history.hpp:15-36, with the
iterator possibly pointing into another object's vector. Comparing iterators of different
vectors (`it == buffer.begin()`, `it == buffer.end()`) is undefined behaviour. -/
def addObj (o : Ops α) (objs : List (Obj α)) (k : Nat) (newt : α) : Res (List (Obj α)) :=
  match objs[k]? with
  | none => .error .ub
  | some ob =>
    if ob.itBuf ≠ k then .error .ub
    else do
      let h ← add o { buffer := ob.buffer, full := ob.full, it := ob.it, max := ob.max } newt
      return objs.set k { buffer := h.buffer, full := h.full, itBuf := k, it := h.it, max := h.max }

end Guanaqo.MaxHistory
