import Verif.TypeErased.Args

/-!
# C136: `guanaqo_tag_invoke` (tag-invoke.hpp)

The function object takes the tag by value and the other arguments by forwarding references, and calls the overload of the function
`guanaqo_tag_invoke` that is found by argument-dependent lookup. Which one that is is a matter of the language (`ov` below is the overload that was
found). Objects, parameters and calls are those of `Verif.TypeErased.Args`. `const` lvalues are lvalues here: what `Args` is deduced to is a
reference to the object in any case.
-/

namespace Guanaqo.TagInvoke

open Guanaqo.TypeErased.Args

variable {V R : Type}

/-- Which copy and move constructors are declared `noexcept`. -/
structure Nothrow where
  copy : Nat → Bool
  move : Nat → Bool

/-- An overload: the types of its parameters, the first of which is for the tag, whether it is declared `noexcept`, and what it does. -/
structure Overload (V R : Type) where
  params : List PTy
  noexcept : Bool
  body : List Loc → St V → Out R × St V

/-- How a call of a function ends that may be `noexcept`. -/
inductive Ended (R : Type) where
  | returned (r : R) | terminated
  deriving DecidableEq, Repr

/-- A `noexcept` function ends the program when an exception leaves its body. (What is done to the memory after that has no meaning.) -/
def guarded (nx : Bool) (r : Out R × St V) : Out (Ended R) × St V :=
  match r with
  | (.ret x, s) => (.ret (.returned x), s)
  | (.threw e, s) => if nx then (.ret .terminated, s) else (.threw e, s)
  | (.ub, s) => (.ub, s)

/-- The initialization of a parameter cannot throw: references bind, and by-value parameters have a `noexcept` constructor. -/
def initNothrow (nt : Nothrow) (p : PTy) (c : Cat) : Bool :=
  if p.mode = .val then (match c with | .lvalue => nt.copy p.cls | .xvalue => nt.move p.cls) else true

/-- The operator `noexcept` of the language, for a call: the function is `noexcept` and the initialization of its parameters cannot throw. -/
def callNothrow (nt : Nothrow) (ps : List PTy) (nx : Bool) (cats : List Cat) : Bool :=
  nx && (List.zipWith (initNothrow nt) ps cats).all id

/-- tag-invoke.hpp:28, the parameters `Tag tag, Args &&...args`: the tag by value, references to the others. -/
def fnParams (tagCls : Nat) (args : List Arg) : List PTy :=
  ⟨tagCls, .val⟩ :: args.map fun a => ⟨0, match a.2 with | .lvalue => .lref | .xvalue => .rref⟩

/-- tag-invoke.hpp:33, `std::move(tag), std::forward<Args>(args)...`. -/
def passedOn (tagCls : Nat) (tag : Arg) (args : List Arg) : List Arg :=
  let ps := fnParams tagCls args
  match forwarded ps (bounds .outer ps (tag :: args)) with
  | (l, _) :: rest => (l, .xvalue) :: rest
  | [] => []

/-- tag-invoke.hpp:29-30: the `noexcept` of `operator()`. -/
def fnNoexcept (nt : Nothrow) (ov : Overload V R) (args : List Arg) : Bool :=
  callNothrow nt ov.params ov.noexcept (.xvalue :: args.map (·.2))

/-- tag-invoke.hpp:24-34: `guanaqo_tag_invoke(tag, args...)`. The exception of a parameter of `operator()` itself is thrown in the caller, not in the
body. -/
def tagInvoke (nt : Nothrow) (sc : Sched) (tagCls : Nat) (ov : Overload V R) (tag : Arg) (args : List Arg) (s : St V) : Out (Ended R) × St V :=
  enter sc.thOuter .outer (fnParams tagCls args) (tag :: args) sc.ordOuter (fun s' =>
    let as := passedOn tagCls tag args
    guarded (fnNoexcept nt ov args) (enter sc.thInner .inner ov.params as sc.ordInner (ov.body (bounds .inner ov.params as)) s')) s

/-- tag-invoke.hpp:25-27 and 43-46: `tag_invocable`: the parameters of the overload can be initialized from `std::move(tag)` and the arguments, and the
tag from the one given. -/
def Invocable (cl : Classes) (tagCls : Nat) (params : List PTy) (tag : Cat) (args : List Cat) : Prop :=
  Binds cl ⟨tagCls, .val⟩ tag ∧ List.Forall₂ (Binds cl) params (.xvalue :: args)

/-- tag-invoke.hpp:48-55: `nothrow_tag_invocable`: the whole expression cannot throw, the initialization of the tag included. -/
def NothrowInvocable (nt : Nothrow) (tagCls : Nat) (ov : Overload V R) (tag : Cat) (args : List Arg) : Bool :=
  callNothrow nt (fnParams tagCls args) (fnNoexcept nt ov args) (tag :: args.map (·.2))

/-! ## Specification -/

/-- A direct call of the overload: `{ Tag t = tag; overload(std::move(t), args...); }` -/
def direct (sc : Sched) (tagCls : Nat) (ov : Overload V R) (tag : Arg) (args : List Arg) (s : St V) : Out R × St V :=
  enter sc.thOuter .outer [⟨tagCls, .val⟩] [tag] [0] (fun s' =>
    let as := (.outer 0, .xvalue) :: args
    enter sc.thInner .inner ov.params as sc.ordInner (ov.body (bounds .inner ov.params as)) s') s

/-- The constructor of class `c` that takes an argument of a category may throw: it is not declared `noexcept`. -/
def MayThrow (nt : Nothrow) (cls : Nat) (c : Cat) : Prop := (c = .lvalue → nt.copy cls = false) ∧ (c = .xvalue → nt.move cls = false)

/-- Constructors and functions that are declared `noexcept` do not throw. -/
structure Honest (nt : Nothrow) (sc : Sched) (tagCls : Nat) (ov : Overload V R) (tag : Arg) (args : List Arg) : Prop where
  tag : sc.thOuter 0 ≠ none → MayThrow nt tagCls tag.2
  params : ∀ (i : Nat) (p : PTy) (c : Cat), ov.params[i]? = some p → (Cat.xvalue :: args.map (·.2))[i]? = some c → sc.thInner i ≠ none →
    p.mode = .val → MayThrow nt p.cls c
  body : ov.noexcept = true → ∀ locs s e, (ov.body locs s).1 ≠ .threw e

end Guanaqo.TagInvoke
