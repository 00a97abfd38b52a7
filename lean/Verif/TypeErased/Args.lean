import Verif.Base
import Mathlib.Data.List.Forall2

/-!
# C133, C134: arguments of type-erased calls

`TypeErased::call` (type-erasure.hpp:644-705) and the functions that `type_erased_wrapped` makes (150-195): how the arguments of the caller become
those of the method. A wrapped call has two levels: the parameters of the function in the vtable are initialized from the arguments, and those of the
method from the parameters. C++ does not fix the order in which the parameters of a function are initialized.
-/

namespace Guanaqo.TypeErased.Args

/-! ## Types -/

/-- How a parameter is declared: `X`, `X &`, `const X &`, `X &&`. -/
inductive Mode where
  | val | lref | cref | rref
  deriving DecidableEq, Repr

/-- The type of a parameter: class and mode. -/
structure PTy where
  cls : Nat
  mode : Mode
  deriving DecidableEq, Repr

/-- `const VTable &`. -/
def vtRef : PTy := ⟨0, .cref⟩

/-- The category of an argument. -/
inductive Cat where
  | lvalue | xvalue
  deriving DecidableEq, Repr

/-- The constructors that the classes have. -/
structure Classes where
  copyable : Nat → Bool
  movable : Nat → Bool

/-- Whether a parameter can be initialized from an argument of its class and a category: overload resolution of constructors, and reference
binding. -/
def Binds (cl : Classes) (p : PTy) (c : Cat) : Prop :=
  match p.mode, c with
  | .val, .lvalue => cl.copyable p.cls = true
  | .val, .xvalue => cl.movable p.cls = true
  | .lref, .lvalue => True
  | .lref, .xvalue => False
  | .cref, _ => True
  | .rref, .lvalue => False
  | .rref, .xvalue => True

/-- The type of a member function: return type (0 is `void`), parameters, whether it is `const`. -/
structure Method where
  ret : Nat
  params : List PTy
  const : Bool

/-- The type of a function pointer in a vtable: `ret (*)(void * or const void *, params...)`. -/
structure FnTy where
  ret : Nat
  selfConst : Bool
  params : List PTy
  deriving DecidableEq, Repr

/-- What a wrapped function does. -/
inductive Does where
  | invokes | throwsConstness
  deriving DecidableEq, Repr

/-- type-erasure.hpp:160-177, `Launderer<Class, ExtraArgs...>::invoker_ovl`: the function made for a method, by whether `Class` is `const`. The lambda
that throws has no return type, so it returns `void`. -/
def invoker (classConst : Bool) (extra : List PTy) (m : Method) : FnTy × Does :=
  if m.const then (⟨m.ret, true, m.params ++ extra⟩, .invokes)
  else if classConst then (⟨0, false, m.params ++ extra⟩, .throwsConstness)
  else (⟨m.ret, false, m.params ++ extra⟩, .invokes)

/-- The entry of the vtable that is declared for a method: required-method.hpp:11-12, 18-20 (`extra` is empty for required methods, and a reference to
the vtable for optional ones). -/
def entry (extra : List PTy) (m : Method) : FnTy := ⟨m.ret, m.const, m.params ++ extra⟩

/-- `(vtable).member = type_erased_wrapped<type, &type::member, extra...>()` compiles: function pointer types do not convert. -/
def Assignable (classConst : Bool) (extra : List PTy) (m : Method) : Prop :=
  (invoker classConst extra m).1 = entry extra m

/-- **C134**, the full statement: a vtable with any methods can be made for a `const` class. -/
def AnyVTableForConst : Prop := ∀ (extra : List PTy) (m : Method), Assignable true extra m

/-- **C134**, exactly: it can be made for all non-const classes, and for `const` ones if and only if all non-const methods return `void`. -/
theorem assignable_iff (classConst : Bool) (extra : List PTy) (m : Method) :
    Assignable classConst extra m ↔ (classConst = true → m.const = false → m.ret = 0) := by
  rcases m with ⟨r, ps, c⟩
  cases c <;> cases classConst <;> simp [Assignable, invoker, entry, eq_comm]

/-- **C134** as it holds: if non-const methods return nothing; and then the functions for them throw, those for `const` methods call. -/
theorem vtable_for_const_partial (extra : List PTy) (m : Method) (h : m.const = false → m.ret = 0) :
    Assignable true extra m ∧ ((invoker true extra m).2 = .throwsConstness ↔ m.const = false) := by
  refine ⟨(assignable_iff _ _ _).2 fun _ => h, ?_⟩
  rcases m with ⟨r, ps, c⟩
  cases c <;> simp [invoker]

/-- For classes that are not `const` there is no condition, and all functions call the method. -/
theorem vtable_for_mutable (extra : List PTy) (m : Method) :
    Assignable false extra m ∧ (invoker false extra m).2 = .invokes := by
  refine ⟨(assignable_iff _ _ _).2 (by simp), ?_⟩
  rcases m with ⟨r, ps, c⟩
  cases c <;> simp [invoker]

/-- A counterexample to the full statement: a non-const method that returns a value, such as a counter that returns the new count. -/
theorem not_anyVTableForConst : ¬ AnyVTableForConst := fun h => by
  have := (assignable_iff true [] ⟨1, [], false⟩).1 (h [] ⟨1, [], false⟩) rfl rfl
  simp at this

/-! ## Values -/

/-- Where objects are: those of the caller, the vtable, the parameters of the function in the vtable and those of the method. -/
inductive Loc where
  | obj (n : Nat) | vtable | outer (i : Nat) | inner (i : Nat)
  deriving DecidableEq, Repr

variable {V R : Type}

/-- The state of an object: not alive, moved from, or with a value. -/
inductive Cell (V : Type) where
  | dead | moved | has (v : V)
  deriving DecidableEq, Repr

def Cell.isDead : Cell V → Bool
  | .dead => true
  | _ => false

/-- What happens to objects. -/
inductive Ev where
  | copy (src dst : Loc) | move (src dst : Loc) | destroy (l : Loc)
  deriving DecidableEq, Repr

structure St (V : Type) where
  mem : Loc → Cell V
  ev : List Ev

/-- How a call ends. -/
inductive Out (R : Type) where
  | ret (r : R) | threw (e : Nat) | ub
  deriving DecidableEq, Repr

def Out.isUb : Out R → Bool
  | .ub => true
  | _ => false

def setMem (m : Loc → Cell V) (l : Loc) (c : Cell V) : Loc → Cell V := fun l' => if l' = l then c else m l'

/-- An argument: a reference to an object, with its category. -/
abbrev Arg := Loc × Cat

/-- What a parameter is bound to, or where it is: by-value parameters are new objects in the frame of the function. -/
def bound (frame : Nat → Loc) (ps : List PTy) (as : List Arg) (i : Nat) : Loc :=
  match ps[i]?, as[i]? with
  | some p, some a => if p.mode = .val then frame i else a.1
  | _, _ => .vtable

/-- Initialization of parameter `i`. By value: the copy or move constructor (which throws `e` if `th i = some e`), of an object that must be alive;
a move leaves it moved from. References bind. -/
def initParam (th : Nat → Option Nat) (frame : Nat → Loc) (ps : List PTy) (as : List Arg) (i : Nat) (s : St V) : Out Unit × St V :=
  match ps[i]?, as[i]? with
  | some p, some a =>
    if p.mode = .val then
      if (s.mem a.1).isDead then (.ub, s)
      else match th i with
        | some e => (.threw e, s)
        | none =>
          match a.2 with
          | .lvalue => (.ret (), ⟨setMem s.mem (frame i) (s.mem a.1), s.ev ++ [.copy a.1 (frame i)]⟩)
          | .xvalue => (.ret (), ⟨setMem (setMem s.mem a.1 .moved) (frame i) (s.mem a.1), s.ev ++ [.move a.1 (frame i)]⟩)
    else (.ret (), s)
  | _, _ => (.ub, s)

/-- The end of the life of parameter `i`, on return and when an exception passes. -/
def endParam (frame : Nat → Loc) (ps : List PTy) (i : Nat) (r : Out R × St V) : Out R × St V :=
  if r.1.isUb then r
  else if (ps[i]?.map (·.mode)) = some .val then
    if (r.2.mem (frame i)).isDead then (.ub, r.2)
    else (r.1, ⟨setMem r.2.mem (frame i) .dead, r.2.ev ++ [.destroy (frame i)]⟩)
  else r

/-- A function call: the parameters are initialized in the order `ord`, then the body runs, then they are destroyed in reverse order. If the
initialization of one throws, those before it are destroyed and the body does not run. -/
def enter (th : Nat → Option Nat) (frame : Nat → Loc) (ps : List PTy) (as : List Arg) : List Nat → (St V → Out R × St V) → St V → Out R × St V
  | [], body, s => body s
  | i :: rest, body, s =>
    match initParam th frame ps as i s with
    | (.ret _, s') => endParam frame ps i (enter th frame ps as rest body s')
    | (.threw e, s') => (.threw e, s')
    | (.ub, s') => (.ub, s')

/-- `std::forward<Args>(args)...` of the named parameters, type-erasure.hpp:157: an lvalue for lvalue references, otherwise an xvalue. -/
def forwarded (ps : List PTy) (locs : List Loc) : List Arg :=
  List.zipWith (fun p l => (l, if p.mode = .lref ∨ p.mode = .cref then Cat.lvalue else Cat.xvalue)) ps locs

/-- The locations of all parameters. -/
def bounds (frame : Nat → Loc) (ps : List PTy) (as : List Arg) : List Loc := (List.range ps.length).map (bound frame ps as)

/-- type-traits.hpp:28-37, `last_type_t`: it is not defined for an empty pack. -/
def lastType : List PTy → Option PTy
  | [] => none
  | [only] => some only
  | _ :: p :: pack => lastType (p :: pack)

theorem lastType_eq : ∀ l : List PTy, lastType l = l.getLast?
  | [] => rfl
  | [_] => rfl
  | _ :: p :: pack => by rw [lastType, lastType_eq (p :: pack), List.getLast?_cons_cons]

/-- The arguments that `call` passes on, type-erasure.hpp:652-656, 666-670, 677, 686, 694, 704: the vtable is added if the last parameter of the
function is a reference to it (functions without parameters have overloads of their own, which pass nothing). -/
def passed (fargs : List PTy) (args : List Arg) : List Arg :=
  if lastType fargs = some vtRef then args ++ [(.vtable, .lvalue)] else args

/-- The call of the function in the vtable compiles. -/
def Compiles (cl : Classes) (fargs : List PTy) (args : List Arg) : Prop :=
  List.Forall₂ (fun p (a : Arg) => Binds cl p a.2) fargs (passed fargs args)

/-- What a run depends on besides the arguments: which constructors throw, and the orders of initialization, at both levels. -/
structure Sched where
  thOuter : Nat → Option Nat
  thInner : Nat → Option Nat
  ordOuter : List Nat
  ordInner : List Nat

/-- type-erasure.hpp:154-159, `do_invoke`: the extra parameters are ignored, the method gets the others. `body` is the method. -/
def doInvoke (sc : Sched) (ps : List PTy) (locs : List Loc) (body : List Loc → St V → Out R × St V) (s : St V) : Out R × St V :=
  let as := forwarded ps (locs.take ps.length)
  enter sc.thInner .inner ps as sc.ordInner (body (bounds .inner ps as)) s

/-- Which exception `bad_type_erased_constness` is. -/
def badConstness : Nat := 0

/-- type-erasure.hpp:647-705, `call` with a function for a method with parameters `ps` wrapped with the extra ones. `isConst`:
`referenced_object_is_const()`, which is only looked at for non-const methods. -/
def call (sc : Sched) (isConst methodConst : Bool) (ps extra : List PTy) (args : List Arg) (body : List Loc → St V → Out R × St V) (s : St V) :
    Out R × St V :=
  if methodConst = false ∧ isConst = true then (.threw badConstness, s)
  else
    let fargs := ps ++ extra
    let as := passed fargs args
    enter sc.thOuter .outer fargs as sc.ordOuter (doInvoke sc ps (bounds .outer fargs as) body) s

end Guanaqo.TypeErased.Args
