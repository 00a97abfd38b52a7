import Verif.TypeErased.Model

/-!
# What wrappers should do

Each wrapper holds nothing, a value of its own, or a (possibly const) reference to an object elsewhere.
`own k` says whether calls of optional method `k` go to the object's own method (or to the default).
There are no blocks, sizes, vtables or pointers here.
-/

namespace Guanaqo.TypeErased

inductive Content (V : Type) where
  | empty
  | owned (t : Nat) (v : V) (own : Nat → Bool)
  | ref (e : Nat) (c : Bool) (own : Nat → Bool)

/-- A wrapper: its allocator and what it holds. -/
structure Slot (V : Type) where
  alloc : Nat
  held : Content V

/-- The wrappers that are alive, and the objects outside. -/
structure World (V : Type) where
  wr : Nat → Option (Slot V)
  ext : Nat → Obj V

def World.set {V : Type} (a : World V) (w : Nat) (s : Option (Slot V)) : World V :=
  { a with wr := upd a.wr w s }

def World.setExt {V : Type} (a : World V) (e : Nat) (f : V → V) : World V :=
  { a with ext := upd a.ext e ⟨(a.ext e).ty, f (a.ext e).val⟩ }

/-- What an operation does: it returns, throws, or ends the program. -/
inductive Result (V : Type) where
  | done (o : Obs V) (a : World V)
  | threw (e : Exn) (a : World V)
  | terminated

/-- Values that do not fit the small buffer need memory from the allocator. -/
def Cfg.NeedsHeap (cfg : Cfg) (t : Nat) : Prop := cfg.sbs < cfg.sizeOf t

instance (cfg : Cfg) (t : Nat) : Decidable (cfg.NeedsHeap t) := by
  unfold Cfg.NeedsHeap; infer_instance

/-- C100: optional method `k` is the object's own if its type has the method and, if the type can say
whether it provides it, said so when the object was wrapped. -/
def Cfg.own (cfg : Cfg) (t : Nat) (provides : Nat → Bool) (k : Nat) : Bool :=
  decide (k < cfg.nOpt) && (cfg.decl t k).has && (!(cfg.decl t k).prov || provides k)

/-- The exception, if any, when storing a new value of type `t`: the allocator's (if it is needed), or
that of the value's constructor. -/
def storeThrows (cfg : Cfg) (t : Nat) (alloc ctor : Bool) : Option Exn :=
  if cfg.NeedsHeap t ∧ alloc then some .badAlloc else if ctor then some .user else none

/-- Copying: the exception it throws, if any. -/
def copyThrows (cfg : Cfg) (c : Content V) (th : Throws) : Option Exn :=
  match c with
  | .owned t _ _ => storeThrows cfg t th.alloc th.copy
  | _ => none

/-- Moving to a wrapper with an allocator that cannot take over the memory needs new memory; if there
is none, the program ends (moves do not throw). -/
def moveDies (cfg : Cfg) (c : Content V) (sameAlloc : Bool) (th : Throws) : Bool :=
  match c with
  | .owned t _ _ => decide (cfg.NeedsHeap t) && !sameAlloc && th.alloc
  | _ => false

/-- The type of what is held. -/
def World.heldType (a : World V) : Content V → Option Nat
  | .empty => none
  | .owned t _ _ => some t
  | .ref e _ _ => some (a.ext e).ty

def World.heldVal (a : World V) : Content V → Option V
  | .empty => none
  | .owned _ v _ => some v
  | .ref e _ _ => some (a.ext e).val

/-- Changing what is held. -/
def World.modifyHeld (a : World V) (w : Nat) (s : Slot V) (f : V → V) : Result V :=
  match s.held with
  | .empty => .done .unit a
  | .owned t v own => .done .unit (a.set w (some ⟨s.alloc, .owned t (f v) own⟩))
  | .ref _ true _ => .threw .badTypeErasedConstness a
  | .ref e false _ => .done .unit (a.setExt e f)

/-- The specification of the operations. `none`: the operation is not allowed (the wrapper is not
alive, or alive already, or what is accessed does not exist). -/
def spec (cfg : Cfg) (a : World V) : Op V → Option (Result V)
  | .default w al =>
    match a.wr w with
    | none => some (.done .unit (a.set w (some ⟨al, .empty⟩)))
    | _ => none
  | .value w al t v th =>
    match a.wr w with
    | none =>
      match storeThrows cfg t th.alloc (th.ctor || th.vtable) with
      | some e => some (.threw e a)
      | none => some (.done .unit (a.set w (some ⟨al, .owned t v (cfg.own t th.provides)⟩)))
    | _ => none
  | .make w al t v th =>
    match a.wr w with
    | none =>
      match storeThrows cfg t th.alloc (th.ctor || th.vtable) with
      | some e => some (.threw e a)
      | none => some (.done .unit (a.set w (some ⟨al, .owned t v (cfg.own t th.provides)⟩)))
    | _ => none
  | .ref w al e c th =>
    match a.wr w with
    | none => some (if th.vtable then .threw .user a else .done .unit (a.set w (some ⟨al, .ref e c (cfg.own (a.ext e).ty th.provides)⟩)))
    | _ => none
  | .copy w src th =>
    match a.wr w, a.wr src with
    | none, some s =>
      match copyThrows cfg s.held th with
      | some e => some (.threw e a)
      | none => some (.done .unit (a.set w (some ⟨cfg.socc s.alloc, s.held⟩)))
    | _, _ => none
  | .copyA w src al th =>
    match a.wr w, a.wr src with
    | none, some s =>
      match copyThrows cfg s.held th with
      | some e => some (.threw e a)
      | none => some (.done .unit (a.set w (some ⟨al, s.held⟩)))
    | _, _ => none
  | .move w src =>
    match a.wr w, a.wr src with
    | none, some s =>
      some (.done .unit ((a.set w (some s)).set src (some ⟨s.alloc, .empty⟩)))
    | _, _ => none
  | .moveA w src al th =>
    match a.wr w, a.wr src with
    | none, some s =>
      some (if moveDies cfg s.held (al == s.alloc) th then .terminated
        else .done .unit ((a.set w (some ⟨al, s.held⟩)).set src (some ⟨s.alloc, .empty⟩)))
    | _, _ => none
  | .copyAssign w src th =>
    match a.wr w, a.wr src with
    | some d, some s =>
      if src = w then some (.done .unit a)
      else
        let al := if cfg.pocca then s.alloc else d.alloc
        match copyThrows cfg s.held th with
        | some e => some (.threw e (a.set w (some ⟨al, .empty⟩)))
        | none => some (.done .unit (a.set w (some ⟨al, s.held⟩)))
    | _, _ => none
  | .moveAssign w src th =>
    match a.wr w, a.wr src with
    | some d, some s =>
      if src = w then some (.done .unit a)
      else
        let al := if cfg.pocma then s.alloc else d.alloc
        some (if moveDies cfg s.held (al == s.alloc) th then .terminated
          else .done .unit ((a.set w (some ⟨al, s.held⟩)).set src (some ⟨s.alloc, .empty⟩)))
    | _, _ => none
  | .destroy w =>
    match a.wr w with
    | some _ => some (.done .unit (a.set w none))
    | none => none
  | .modify w t f =>
    match a.wr w with
    | some s =>
      match a.heldType s.held with
      | none => none
      | some t' => some (if t' = t then a.modifyHeld w s f else .threw .badTypeErasedType a)
    | none => none
  | .read w t =>
    match a.wr w with
    | some s =>
      match a.heldType s.held, a.heldVal s.held with
      | some t', some v => some (if t' = t then .done (.val v) a else .threw .badTypeErasedType a)
      | _, _ => none
    | none => none
  | .query w =>
    match a.wr w with
    | some s =>
      match a.heldVal s.held with
      | some v => some (.done (.val v) a)
      | none => none
    | none => none
  | .update w f =>
    match a.wr w with
    | some s =>
      match a.heldType s.held with
      | none => none
      | some _ => some (a.modifyHeld w s f)
    | none => none
  | .optional w k =>
    match a.wr w with
    | some s =>
      match s.held with
      | .owned _ _ own => some (.done (.bool (own k)) a)
      | .ref _ _ own => some (.done (.bool (own k)) a)
      | .empty => none
    | none => none
  | .test w =>
    match a.wr w with
    | some s => some (.done (.bool (a.heldType s.held).isSome) a)
    | none => none
  | .poke w t f =>
    match a.wr w with
    | some s => if a.heldType s.held = some t then some (a.modifyHeld w s f) else none
    | none => none
  | .outside e f => some (.done .unit (a.setExt e f))

/-- Nothing exists but the objects outside. -/
def World.init (ext : Nat → Obj V) : World V := ⟨fun _ => none, ext⟩

/-- A history of operations: what each returned or threw, and the world at the end; `none` as the
world: the program ended. An operation that is not allowed makes the history impossible. -/
inductive Run (cfg : Cfg) : World V → List (Op V) → List (Except Exn (Obs V)) → Option (World V) → Prop
  | nil (a) : Run cfg a [] [] (some a)
  | done {a op o a' ops os r} (h : spec cfg a op = some (.done o a')) (t : Run cfg a' ops os r) :
      Run cfg a (op :: ops) (.ok o :: os) r
  | threw {a op e a' ops os r} (h : spec cfg a op = some (.threw e a')) (t : Run cfg a' ops os r) :
      Run cfg a (op :: ops) (.error e :: os) r
  | terminated {a op ops} (h : spec cfg a op = some .terminated) : Run cfg a (op :: ops) [] none

end Guanaqo.TypeErased
