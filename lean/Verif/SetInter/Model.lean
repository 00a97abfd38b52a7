import Verif.Base

/-!
# Model of `guanaqo::set_intersection_iterable`
(`/repo/src/include/guanaqo/set-intersection.hpp`)

An iterator is modelled by the list of the elements it has still to visit; its sentinel is the
empty list. Dereferencing or incrementing an exhausted underlying iterator is undefined
behaviour. The comparator and projections are arbitrary functions; the two projections map into
one key type (the C++ allows two key types comparable by `comp`).
-/

namespace Guanaqo.SetInter

variable {α β κ : Type}

/-- Comparator and projections, set-intersection.hpp:20-22. -/
structure Params (α β κ : Type) where
  comp : κ → κ → Bool
  proj1 : α → κ
  proj2 : β → κ

/-- `iter_t`, set-intersection.hpp:35-50: what remains of both ranges. -/
structure Iter (α β : Type) where
  first1 : List α
  first2 : List β
  deriving DecidableEq

/-- `operator!=(sentinel_t)`, set-intersection.hpp:55-57. -/
def Iter.notEnd (it : Iter α β) : Bool := !it.first1.isEmpty && !it.first2.isEmpty

/-- `advance()`, set-intersection.hpp:74-85. The loop condition is the match on two non-empty
lists. -/
def advance (p : Params α β κ) : List α → List β → Iter α β
  | a :: as, b :: bs =>
    if p.comp (p.proj1 a) (p.proj2 b) then advance p as (b :: bs)
    else if p.comp (p.proj2 b) (p.proj1 a) then advance p (a :: as) bs
    else { first1 := a :: as, first2 := b :: bs }
  | l1, l2 => { first1 := l1, first2 := l2 }
termination_by l1 l2 => l1.length + l2.length

/-- `begin()`, set-intersection.hpp:96-101. -/
def begin (p : Params α β κ) (r1 : List α) (r2 : List β) : Iter α β := advance p r1 r2

/-- `operator*`, set-intersection.hpp:73. -/
def Iter.deref (it : Iter α β) : Res (α × β) :=
  match it.first1, it.first2 with
  | a :: _, b :: _ => .ok (a, b)
  | _, _ => .error .ub

/-- `operator++()`, set-intersection.hpp:63-67. -/
def Iter.inc (p : Params α β κ) (it : Iter α β) : Res (Iter α β) :=
  match it.first1, it.first2 with
  | _ :: as, _ :: bs => .ok (advance p as bs)
  | _, _ => .error .ub

/-- `for (auto x : range)`, collecting the elements. The fuel bounds the number of iterations
(`none`: it ran out). -/
def collect (p : Params α β κ) : Nat → Iter α β → Res (Option (List (α × β)))
  | fuel, it => do
    if !it.notEnd then return some []
    match fuel with
    | 0 => return none
    | fuel + 1 =>
      let x ← it.deref
      let it ← it.inc p
      return (← collect p fuel it).map (x :: ·)

end Guanaqo.SetInter
