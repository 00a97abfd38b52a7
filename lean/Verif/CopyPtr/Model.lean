/-!
# `copyable_unique_ptr` (copyable-unique_ptr.hpp)

Histories of operations on `copyable_unique_ptr<T>` variables, for a type `T` with a value and two
`copyable_unique_ptr<T>` members (a flat `T` is the case in which these stay null; a list uses one of them).
The heap is explicit: every access to memory that is not a live object is undefined behaviour (`.ub`).
-/

namespace Guanaqo.CopyPtr

/-- An object of type `T`: a value and two pointer members. -/
structure Node where
  val : Int
  l : Option Nat
  r : Option Nat

def Node.get (n : Node) : Bool → Option Nat
  | false => n.l
  | true => n.r

def Node.set (n : Node) (b : Bool) (p : Option Nat) : Node :=
  match b with
  | false => { n with l := p }
  | true => { n with r := p }

/-- A block of the heap: allocated storage in which the object is not (or no longer) alive, or an object. -/
inductive Cell where
  | raw
  | obj (n : Node)

/-- `vars v = some p`: the variable `v` is alive and its `ptr` member is `p`. `next` is the next address the
allocator returns (never used before: simplification, addresses are not recycled, so that a dangling pointer
never becomes valid again by accident). `throws` decides, in the order in which they are reached, which of
the operations that can throw (an allocation, the copy of a value) throws; after its end none does. -/
structure St where
  heap : Nat → Option Cell := fun _ => none
  vars : Nat → Option (Option Nat) := fun _ => none
  next : Nat := 0
  throws : List Bool := []

inductive Out (α : Type) where
  | ok (a : α) (s : St)
  | exn (s : St)
  | ub

def M (α : Type) := St → Out α

def M.bind {α β : Type} (m : M α) (f : α → M β) : M β := fun s =>
  match m s with
  | .ok a s' => f a s'
  | .exn s' => .exn s'
  | .ub => .ub

instance : Monad M where
  pure a := fun s => .ok a s
  bind := M.bind

/-- Run `m`; if it throws, run the cleanup `c` and rethrow. -/
def onExn {α : Type} (m : M α) (c : M Unit) : M α := fun s =>
  match m s with
  | .ok a s' => .ok a s'
  | .exn s' => (match c s' with
    | .ok _ s'' => .exn s''
    | .exn _ => .ub
    | .ub => .ub)
  | .ub => .ub

def undefined {α : Type} : M α := fun _ => .ub

/-- A point that may throw. -/
def mayThrow : M Unit := fun s =>
  match s.throws with
  | [] => .ok () s
  | true :: ts => .exn { s with throws := ts }
  | false :: ts => .ok () { s with throws := ts }

def upd {α : Type} (f : Nat → α) (i : Nat) (v : α) : Nat → α := fun k => if k = i then v else f k

/-- A new block. -/
def newBlock : M Nat := fun s =>
  .ok s.next { s with heap := upd s.heap s.next (some .raw), next := s.next + 1 }

/-- `operator new`: may throw `std::bad_alloc`. -/
def alloc : M Nat := do
  mayThrow
  newBlock

/-- `operator delete` of storage in which no object is alive. -/
def dealloc (a : Nat) : M Unit := fun s =>
  match s.heap a with
  | some .raw => .ok () { s with heap := upd s.heap a none }
  | _ => .ub

/-- Read the object at `a`. -/
def load (a : Nat) : M Node := fun s =>
  match s.heap a with
  | some (.obj n) => .ok n s
  | _ => .ub

/-- The end of the construction of an object in raw storage. -/
def construct (a : Nat) (n : Node) : M Unit := fun s =>
  match s.heap a with
  | some .raw => .ok () { s with heap := upd s.heap a (some (.obj n)) }
  | _ => .ub

/-- The end of the destruction of an object. -/
def endLife (a : Nat) : M Unit := fun s =>
  match s.heap a with
  | some (.obj _) => .ok () { s with heap := upd s.heap a (some .raw) }
  | _ => .ub

/-- `~unique_ptr`, `default_delete`: destroys the members of the object in reverse order of declaration (each
of which does the same), ends its life and frees its storage. `fuel` is the stack depth available; running out
of stack is undefined behaviour. -/
def deletePtr : Nat → Option Nat → M Unit
  | _, none => pure ()
  | 0, some _ => undefined
  | fuel + 1, some a => do
    let n ← load a
    deletePtr fuel n.r
    deletePtr fuel n.l
    endLife a
    dealloc a

/-- copyable-unique_ptr.hpp:13-14 and 16: `o.ptr ? std::make_unique<T>(*o.ptr) : nullptr`. `make_unique`
allocates and then runs the (member-wise) copy constructor of `T`, which copies the value (may throw) and then
the two pointer members with the copy constructor of lines 13-14. If one of these throws, the members
constructed so far are destroyed and the storage is freed. -/
def copyPtr : Nat → Option Nat → M (Option Nat)
  | _, none => pure none
  | 0, some _ => undefined
  | fuel + 1, some o => do
    let a ← alloc
    let n ← load o
    onExn mayThrow (dealloc a)
    let l ← onExn (copyPtr fuel n.l) (dealloc a)
    let r ← onExn (copyPtr fuel n.r) (do deletePtr fuel l; dealloc a)
    construct a ⟨n.val, l, r⟩
    pure (some a)

/-- A `copyable_unique_ptr` object: a variable, or a member of an object on the heap. -/
inductive Slot where
  | var (v : Nat)
  | fld (a : Nat) (b : Bool)

def readSlot : Slot → M (Option Nat)
  | .var v => fun s => match s.vars v with
    | some p => .ok p s
    | none => .ub
  | .fld a b => do return (← load a).get b

def writeSlot (p : Option Nat) : Slot → M Unit
  | .var v => fun s => match s.vars v with
    | some _ => .ok () { s with vars := upd s.vars v (some p) }
    | none => .ub
  | .fld a b => fun s => match s.heap a with
    | some (.obj n) => .ok () { s with heap := upd s.heap a (some (.obj (n.set b p))) }
    | _ => .ub

/-- A place named in the program: a variable followed by member accesses through the pointers,
`v->m₁->m₂ …` (copyable-unique_ptr.hpp:26-29; lines 22-24 give access to the same pointer). -/
structure Loc where
  var : Nat
  path : List Bool

/-- The object a place denotes. Going through a null pointer is undefined. -/
def follow : Slot → List Bool → M Slot
  | s, [] => pure s
  | s, b :: π => do
    match ← readSlot s with
    | none => undefined
    | some a => do
      let _ ← load a
      follow (.fld a b) π

def resolve (x : Loc) : M Slot := do
  let _ ← readSlot (.var x.var)
  follow (.var x.var) x.path

/-- A variable starts to exist. -/
def declare (v : Nat) (p : Option Nat) : M Unit := fun s =>
  match s.vars v with
  | none => .ok () { s with vars := upd s.vars v (some p) }
  | some _ => .ub

/-- A variable ceases to exist. -/
def undeclare (v : Nat) : M Unit := fun s => .ok () { s with vars := upd s.vars v none }

/-- Assignment to the value of an object. -/
def storeVal (a : Nat) (k : Int) : M Unit := fun s =>
  match s.heap a with
  | some (.obj n) => .ok () { s with heap := upd s.heap a (some (.obj { n with val := k })) }
  | _ => .ub

/-- `unique_ptr::operator=(unique_ptr &&)` is `reset(u.release())`, and `reset` stores the new pointer before
it deletes the old one. -/
def reset (fuel : Nat) (dst : Slot) (p : Option Nat) : M Unit := do
  let old ← readSlot dst
  writeSlot p dst
  deletePtr fuel old

inductive Op where
  | default (v : Nat)
  | make (v : Nat) (x : Int)
  | copy (v : Nat) (src : Loc)
  | move (v : Nat) (src : Loc)
  | copyAssign (dst src : Loc)
  | moveAssign (dst src : Loc)
  | setVal (p : Loc) (x : Int)
  | getVal (p : Loc)
  | destroy (v : Nat)

/-- One operation of the program; the result is the value read by `getVal`. -/
def step (fuel : Nat) : Op → M (Option Int)
  | .default v => do declare v none; return none                       -- line 12
  | .make v x => do                                                    -- line 11
    let a ← alloc
    construct a ⟨x, none, none⟩
    declare v (some a)
    return none
  | .copy v src => do                                                  -- lines 13-14
    let s ← resolve src
    let p ← readSlot s
    let q ← copyPtr fuel p
    declare v q
    return none
  | .move v src => do                                                  -- line 19
    let s ← resolve src
    let p ← readSlot s
    writeSlot none s
    declare v p
    return none
  | .copyAssign dst src => do                                          -- lines 15-18
    let d ← resolve dst
    let s ← resolve src
    let p ← readSlot s
    let q ← copyPtr fuel p
    reset fuel d q
    return none
  | .moveAssign dst src => do                                          -- line 20
    let d ← resolve dst
    let s ← resolve src
    let p ← readSlot s
    writeSlot none s
    reset fuel d p
    return none
  | .setVal x k => do                                                  -- line 28
    let s ← resolve x
    match ← readSlot s with
    | none => undefined
    | some a => do
      storeVal a k
      return none
  | .getVal x => do                                                    -- line 29
    let s ← resolve x
    match ← readSlot s with
    | none => undefined
    | some a => return some (← load a).val
  | .destroy v => do
    let p ← readSlot (.var v)
    deletePtr fuel p
    undeclare v
    return none

/-- A program: it ends, or performs an operation and goes on depending on what it observed (`none`: the operation
threw, and the program caught the exception). -/
inductive Prog where
  | done
  | op (o : Op) (k : Option (Option Int) → Prog)

/-- The run of a program: its observations and the final state. -/
def run (fuel : Nat) : St → Prog → Option (List (Option (Option Int)) × St)
  | s, .done => some ([], s)
  | s, .op o k =>
    match step fuel o s with
    | .ok r s' => (run fuel s' (k (some r))).map fun (os, s'') => (some r :: os, s'')
    | .exn s' => (run fuel s' (k none)).map fun (os, s'') => (none :: os, s'')
    | .ub => none

/-! ## Specification: variables hold trees -/

/-- The value of a `copyable_unique_ptr`: null, or an object with the values of its members. -/
inductive Tree where
  | null
  | node (val : Int) (l r : Tree)

def Tree.child (l r : Tree) : Bool → Tree
  | false => l
  | true => r

def Tree.get : Tree → List Bool → Option Tree
  | t, [] => some t
  | .null, _ :: _ => none
  | .node _ l r, b :: π => (Tree.child l r b).get π
termination_by structural _ π => π

def Tree.put : Tree → List Bool → Tree → Tree
  | _, [], u => u
  | .null, _ :: _, _ => .null
  | .node v l r, false :: π, u => .node v (l.put π u) r
  | .node v l r, true :: π, u => .node v l (r.put π u)

def Tree.size : Tree → Nat
  | .null => 0
  | .node _ l r => 1 + l.size + r.size

/-- The longest chain of pointers. -/
def Tree.height : Tree → Nat
  | .null => 0
  | .node _ l r => 1 + max l.height r.height

abbrev Vals := Nat → Option Tree

def Vals.get (a : Vals) (x : Loc) : Option Tree := (a x.var).bind (·.get x.path)

def Vals.put (a : Vals) (x : Loc) (u : Tree) : Vals := fun v => if v = x.var then (a v).map (·.put x.path u) else a v

def Vals.declare (a : Vals) (v : Nat) (t : Tree) : Option Vals :=
  match a v with
  | none => some (upd a v (some t))
  | some _ => none

/-- What an operation means for the values. `none`: the operation is not allowed (an access through a null
pointer, a variable that is not alive, a redeclaration; or moving an object into a part of itself). -/
def spec (a : Vals) : Op → Option (Option Int × Vals)
  | .default v => (a.declare v .null).map fun a' => (none, a')
  | .make v x => (a.declare v (.node x .null .null)).map fun a' => (none, a')
  | .copy v src => (a.get src).bind fun t => (a.declare v t).map fun a' => (none, a')
  | .move v src => (a.get src).bind fun t => ((a.put src .null).declare v t).map fun a' => (none, a')
  | .copyAssign dst src => (a.get dst).bind fun _ => (a.get src).map fun t => (none, a.put dst t)
  | .moveAssign dst src => (a.get dst).bind fun _ => (a.get src).bind fun t =>
      if dst.var = src.var ∧ src.path <+: dst.path ∧ src.path ≠ dst.path then none
      else some (none, (a.put src .null).put dst t)
  | .setVal x k => (a.get x).bind fun t => match t with
      | .null => none
      | .node _ l r => some (none, a.put x (.node k l r))
  | .getVal x => (a.get x).bind fun t => match t with
      | .null => none
      | .node k _ _ => some (some k, a)
  | .destroy v => (a v).map fun _ => (none, upd a v none)

/-- The operations that may throw: those that make a new object. -/
def Op.canThrow : Op → Bool
  | .make _ _ | .copy _ _ | .copyAssign _ _ => true
  | _ => false

/-- The run of a program on values, if operation `i` throws iff `flags[i]`: an operation that throws changes
nothing. -/
def specRun : Vals → Prog → List Bool → Option (List (Option (Option Int)) × Vals)
  | a, .done, [] => some ([], a)
  | a, .op o k, threw :: flags =>
    (spec a o).bind fun (r, a') =>
      if threw then
        if o.canThrow then (specRun a (k none) flags).map fun (os, a'') => (none :: os, a'') else none
      else (specRun a' (k (some r)) flags).map fun (os, a'') => (some r :: os, a'')
  | _, _, _ => none

/-- A sequence of operations that is abandoned at the first exception. -/
def Prog.seq : List Op → Prog
  | [] => .done
  | o :: os => .op o fun r => match r with
    | none => .done
    | some _ => seq os

end Guanaqo.CopyPtr
