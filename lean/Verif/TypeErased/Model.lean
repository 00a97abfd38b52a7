import Verif.Base

/-!
# Model of `src/include/guanaqo/type-erasure.hpp`: `TypeErased`

Wrappers, heap blocks and external objects are identified by numbers. Types are numbers (what
`typeid` distinguishes), with a size. A value of any type is an element of `V`. Allocators are
numbers, equal if they compare equal.

The memory is checked: using storage that does not exist, constructing over a living object, destroying
an object that is not there (or as another type), releasing storage that still holds an object, and
returning a block twice, with another size or to another allocator, are all the fault `ub`.

Simplifications: alignment is treated in `Verif.TypeErased.Align`; the moved-from object that a move
leaves behind keeps its value (it is destroyed right after); external objects outlive the wrappers
that refer to them; the move constructors of the stored types do not throw (the code says: assumed);
contained objects do not contain other wrappers of the history (see `Verif.TypeErased.Nested`).
-/

namespace Guanaqo.TypeErased

/-- How an evaluation can go wrong. -/
inductive Fault where
  /-- undefined behaviour, or storage or objects lost -/
  | ub
  /-- a failing `assert` -/
  | assertFail
  /-- `std::terminate` -/
  | terminate
  deriving DecidableEq, Repr

/-- An object: its type and its value. -/
structure Obj (V : Type) where
  ty : Nat
  val : V
  deriving DecidableEq

/-- A `void *`: null, the small buffer of a wrapper, a heap block, or an object elsewhere. -/
inductive Ptr where
  | null
  | small (w : Nat)
  | heap (b : Nat)
  | ext (e : Nat)
  deriving DecidableEq, Repr

/-- type-erasure.hpp:126-149, `BasicVTable`: the contained type (`none`: `void`) and the copy, move and
destroy functions (of which type, and whether of its const version; `none`: null pointer). A class
derived from it adds optional methods, numbered from 0; `own k`: method `k` is that of the contained
type and not the default. -/
structure VTable where
  ty : Option Nat := none
  cmd : Option (Nat × Bool) := none
  own : Nat → Bool := fun _ => false

/-- type-erasure.hpp:134-138: the vtable of an object of type `t` (const if `c`; `typeid` ignores
`const`), with its optional methods. -/
def VTable.of (t : Nat) (c : Bool) (own : Nat → Bool) : VTable := ⟨some t, some (t, c), own⟩

/-- What a type has for an optional method `m`: a member `m`, and a member `provides_m`. -/
structure Decl where
  has : Bool := false
  prov : Bool := false

/-- required-method.hpp:15-30, `GUANAQO_TE_OPTIONAL_METHOD` for method `k`; `provides` is what
`provides_m` returns, if it is called. -/
def VTable.optional (vt : VTable) (d : Decl) (k : Nat) (provides : Bool) : VTable :=
  if d.has then
    if d.prov then
      if provides then { vt with own := fun i => if i = k then true else vt.own i } else vt
    else { vt with own := fun i => if i = k then true else vt.own i }
  else vt

/-- type-erasure.hpp:239-240 -/
def invalidSize : Nat := 0xDEADBEEFDEADBEEF
/-- type-erasure.hpp:241-242 -/
def mutRefSize : Nat := 0xFFFFFFFFFFFFFFFF
/-- type-erasure.hpp:243-244 -/
def constRefSize : Nat := 0xFFFFFFFFFFFFFFFE
/-- type-erasure.hpp:245-247 -/
def sizeIndicatesOwnership (n : Nat) : Bool := n != constRefSize && n != mutRefSize
/-- type-erasure.hpp:248-250 -/
def sizeIndicatesConst (n : Nat) : Bool := n == constRefSize

/-- type-erasure.hpp:221-256, `TypeErased`: the data members. `buf` is the object living in the small
buffer, if any. -/
structure Wrapper (V : Type) where
  buf : Option (Obj V) := none
  alloc : Nat
  self : Ptr := .null
  size : Nat := invalidSize
  vt : VTable := {}

/-- A block obtained from an allocator, and the object living in it. -/
structure Block (V : Type) where
  alloc : Nat
  size : Nat
  obj : Option (Obj V)

/-- The state: wrappers (`none`: not alive), heap blocks (`none`: not allocated), the next unused block
number, and the objects outside. -/
structure St (V : Type) where
  wr : Nat → Option (Wrapper V)
  blk : Nat → Option (Block V)
  next : Nat
  ext : Nat → Obj V

/-- The parameters of the class template and its allocator. -/
structure Cfg where
  /-- `SmallBufferSize` -/
  sbs : Nat
  /-- `sizeof` -/
  sizeOf : Nat → Nat
  /-- `select_on_container_copy_construction` -/
  socc : Nat → Nat
  /-- `propagate_on_container_copy_assignment` -/
  pocca : Bool
  /-- `propagate_on_container_move_assignment` -/
  pocma : Bool
  /-- the number of optional methods of the vtable -/
  nOpt : Nat := 0
  /-- what a type has for each of them -/
  decl : Nat → Nat → Decl := fun _ _ => {}
  /-- `NDEBUG`: there are no assertions -/
  ndebug : Bool := false

/-- The constructor of a vtable for an object of type `t`: that of `BasicVTable` (type-erasure.hpp:134-138),
then required-method.hpp:15-30 for each optional method. `provides k`: what the member `provides_…` of
method `k` returns. -/
def VTable.make (cfg : Cfg) (t : Nat) (c : Bool) (provides : Nat → Bool) : VTable :=
  (List.range cfg.nOpt).foldl (fun vt k => vt.optional (cfg.decl t k) k (provides k)) (.of t c fun _ => false)

/-- Objects have a size, and no object is larger than half of the address space. -/
structure Cfg.Ok (cfg : Cfg) : Prop where
  size_pos : ∀ t, 0 < cfg.sizeOf t
  size_max : ∀ t, cfg.sizeOf t < 2 ^ 63

/-- Outcome of an evaluation. -/
inductive Out (V α : Type) where
  | ok (a : α) (s : St V)
  | thrown (e : Exn) (s : St V)
  | fault (f : Fault)

/-- Programs that change the state and may throw. -/
structure M (V α : Type) where
  run : St V → Out V α

def M.bind {V α β : Type} (m : M V α) (f : α → M V β) : M V β := ⟨fun s =>
  match m.run s with
  | .ok a s' => (f a).run s'
  | .thrown e s' => .thrown e s'
  | .fault f => .fault f⟩

instance {V : Type} : Monad (M V) where
  pure a := ⟨fun s => .ok a s⟩
  bind := M.bind

variable {V : Type}

def fail {α : Type} (f : Fault) : M V α := ⟨fun _ => .fault f⟩
def throwE {α : Type} (e : Exn) : M V α := ⟨fun s => .thrown e s⟩
/-- `assert(b)`, `<cassert>`. -/
def assertM (cfg : Cfg) (b : Bool) : M V Unit := if cfg.ndebug || b then pure () else fail .assertFail
/-- A RAII guard: `clean` runs if `m` throws. -/
def onThrow {α : Type} (m : M V α) (clean : M V Unit) : M V α := ⟨fun s =>
  match m.run s with
  | .ok a s' => .ok a s'
  | .thrown e s' =>
    match clean.run s' with
    | .ok _ s'' => .thrown e s''
    | .thrown _ _ => .fault .terminate
    | .fault f => .fault f
  | .fault f => .fault f⟩
/-- `noexcept`: an exception that would leave ends the program. -/
def noexcept {α : Type} (m : M V α) : M V α := ⟨fun s =>
  match m.run s with
  | .ok a s' => .ok a s'
  | .thrown _ _ => .fault .terminate
  | .fault f => .fault f⟩

def upd {α : Type} (f : Nat → α) (i : Nat) (v : α) : Nat → α := fun k => if k = i then v else f k

/-! ## Memory -/

/-- The members of a living wrapper. -/
def getW (w : Nat) : M V (Wrapper V) := ⟨fun s =>
  match s.wr w with
  | some W => .ok W s
  | none => .fault .ub⟩

/-- Assign members of a living wrapper. -/
def modW (w : Nat) (f : Wrapper V → Wrapper V) : M V Unit := ⟨fun s =>
  match s.wr w with
  | some W => .ok () { s with wr := upd s.wr w (some (f W)) }
  | none => .fault .ub⟩

/-- The storage at a pointer: its capacity and what lives in it. -/
def St.slot (s : St V) (cfg : Cfg) : Ptr → Option (Nat × Option (Obj V))
  | .small w => (s.wr w).map fun W => (cfg.sbs, W.buf)
  | .heap b => (s.blk b).map fun B => (B.size, B.obj)
  | _ => none

/-- Change what lives in some storage. -/
def St.setSlot (s : St V) (p : Ptr) (o : Option (Obj V)) : St V :=
  match p with
  | .small w => { s with wr := upd s.wr w ((s.wr w).map fun W => { W with buf := o }) }
  | .heap b => { s with blk := upd s.blk b ((s.blk b).map fun B => { B with obj := o }) }
  | _ => s

/-- Construct an object in raw storage that is large enough. -/
def construct (cfg : Cfg) (p : Ptr) (o : Obj V) : M V Unit := ⟨fun s =>
  match s.slot cfg p with
  | some (cap, none) => if cfg.sizeOf o.ty ≤ cap then .ok () (s.setSlot p (some o)) else .fault .ub
  | _ => .fault .ub⟩

/-- Destroy the object of type `t`. -/
def destroyAt (cfg : Cfg) (p : Ptr) (t : Nat) : M V Unit := ⟨fun s =>
  match s.slot cfg p with
  | some (_, some o) => if o.ty = t then .ok () (s.setSlot p none) else .fault .ub
  | _ => .fault .ub⟩

/-- The object at a pointer. -/
def St.objAt (s : St V) : Ptr → Option (Obj V)
  | .small w => (s.wr w).bind (·.buf)
  | .heap b => (s.blk b).bind (·.obj)
  | .ext e => some (s.ext e)
  | .null => none

/-- Read the object of type `t` at a pointer. -/
def readAs (p : Ptr) (t : Nat) : M V V := ⟨fun s =>
  match s.objAt p with
  | some o => if o.ty = t then .ok o.val s else .fault .ub
  | none => .fault .ub⟩

/-- Modify the object of type `t` at a pointer. -/
def writeAs (p : Ptr) (t : Nat) (f : V → V) : M V Unit := ⟨fun s =>
  match s.objAt p with
  | some o =>
    if o.ty = t then
      .ok () (match p with
        | .ext e => { s with ext := upd s.ext e ⟨t, f o.val⟩ }
        | p => s.setSlot p (some ⟨t, f o.val⟩))
    else .fault .ub
  | none => .fault .ub⟩

/-- `allocator.allocate(n)`: a new block, or an exception if `fails`. -/
def malloc (a n : Nat) (fails : Bool) : M V Ptr := ⟨fun s =>
  if fails then .thrown .badAlloc s
  else .ok (.heap s.next) { s with blk := upd s.blk s.next (some ⟨a, n, none⟩), next := s.next + 1 }⟩

/-- `allocator.deallocate(p, n)`: the block must have been obtained from an equal allocator with the
same size, and no object may live in it. -/
def mfree (a : Nat) (p : Ptr) (n : Nat) : M V Unit := ⟨fun s =>
  match p with
  | .heap b =>
    match s.blk b with
    | some ⟨a', n', none⟩ =>
      if a' = a ∧ n' = n then .ok () { s with blk := upd s.blk b none } else .fault .ub
    | _ => .fault .ub
  | _ => .fault .ub⟩

/-- The storage of a new wrapper, with initialised members. -/
def newW (w a : Nat) (vt : VTable) : M V Unit := ⟨fun s =>
  match s.wr w with
  | none => .ok () { s with wr := upd s.wr w (some { alloc := a, vt := vt }) }
  | some _ => .fault .ub⟩

/-- End of the lifetime of a wrapper's members; an object left in the small buffer would be lost. -/
def endW (w : Nat) : M V Unit := ⟨fun s =>
  match s.wr w with
  | some W => if W.buf.isNone then .ok () { s with wr := upd s.wr w none } else .fault .ub
  | none => .fault .ub⟩

/-! ## The vtable functions -/

/-- Construct an object with a constructor that may throw. -/
def constructOrThrow (cfg : Cfg) (p : Ptr) (o : Obj V) (fails : Bool) : M V Unit :=
  if fails then throwE .user else construct cfg p o

/-- type-erasure.hpp:101-104 and 140-142, `copy`: copy-construct; `fails`: the copy constructor
throws. -/
def vtCopy (cfg : Cfg) (vt : VTable) (self storage : Ptr) (fails : Bool) : M V Unit :=
  match vt.cmd with
  | none => fail .ub
  | some (t, _) => do
    let v ← readAs self t
    constructOrThrow cfg storage ⟨t, v⟩ fails

/-- type-erasure.hpp:105-113 and 143-145, `move`. -/
def vtMove (cfg : Cfg) (vt : VTable) (self storage : Ptr) : M V Unit :=
  match vt.cmd with
  | none => fail .ub
  | some (_, true) => fail .terminate
  | some (t, false) => do
    let v ← readAs self t
    construct cfg storage ⟨t, v⟩

/-- type-erasure.hpp:114-120 and 146-148, `destroy`. -/
def vtDestroy (cfg : Cfg) (vt : VTable) (self : Ptr) : M V Unit :=
  match vt.cmd with
  | none => fail .ub
  | some (_, true) => fail .terminate
  | some (t, false) => destroyAt cfg self t

/-! ## `TypeErased` -/

/-- type-erasure.hpp:563-564: the small buffer if the object fits, or else a new block. -/
def storageFor (cfg : Cfg) (w a n : Nat) (fails : Bool) : M V Ptr :=
  if n ≤ cfg.sbs then pure (.small w) else malloc a n fails

/-- type-erasure.hpp:558-567, `allocate`. -/
def allocate (cfg : Cfg) (w n : Nat) (fails : Bool) : M V Unit := do
  let W ← getW w
  assertM cfg (W.self == .null)                                        -- 559
  assertM cfg (n != invalidSize)
  assertM cfg (0 < n)
  assertM cfg (sizeIndicatesOwnership n)
  let p ← storageFor cfg w W.alloc n fails
  modW w fun W => { W with self := p }
  modW w fun W => { W with size := n }                             -- 565

/-- type-erasure.hpp:575-576: return the block, if the object did not fit the small buffer. -/
def releaseBlock (cfg : Cfg) (W : Wrapper V) : M V Unit :=
  if cfg.sbs < W.size then mfree W.alloc W.self W.size else pure ()

/-- type-erasure.hpp:570-578, `deallocate`. -/
def deallocate (cfg : Cfg) (w : Nat) : M V Unit := do
  let W ← getW w
  assertM cfg (W.size != invalidSize)
  assertM cfg (0 < W.size)
  assertM cfg (sizeIndicatesOwnership W.size)
  releaseBlock cfg W
  modW w fun W => { W with self := .null }                         -- 577

/-- type-erasure.hpp:582-589, `cleanup`. -/
def cleanup (cfg : Cfg) (w : Nat) : M V Unit := do
  let W ← getW w
  if !sizeIndicatesOwnership W.size then modW w fun W => { W with self := .null }
  else if W.self = .null then pure ()
  else do
    vtDestroy cfg W.vt W.self
    deallocate cfg w

/-- Which of the calls that may throw do throw. -/
structure Throws where
  alloc : Bool := false
  copy : Bool := false
  ctor : Bool := false
  vtable : Bool := false
  /-- what `provides_…` returns for each optional method, if it is called -/
  provides : Nat → Bool := fun _ => false

/-- type-erasure.hpp:595-596 and 370-371: assign the allocator if it propagates. -/
def propagateAlloc (b : Bool) (w a : Nat) : M V Unit :=
  if b then modW w fun W => { W with alloc := a } else pure ()

/-- type-erasure.hpp:591-612, `do_copy_assign<CopyAllocator>`. -/
def doCopyAssign (cfg : Cfg) (copyAlloc : Bool) (w src : Nat) (t : Throws) : M V Unit := do
  let O ← getW src
  propagateAlloc (copyAlloc && cfg.pocca) w O.alloc                -- 595-596
  if O.self = .null then pure ()                                   -- 597-598
  else if !sizeIndicatesOwnership O.size then do                   -- 599-602
    modW w fun W => { W with size := O.size }
    modW w fun W => { W with self := O.self }
  else do
    allocate cfg w O.size t.alloc                                  -- 604
    onThrow (do
      let W ← getW w
      vtCopy cfg W.vt O.self W.self t.copy)                        -- 609
      (deallocate cfg w)

/-- `vtable = VTable{...}` with a constructor that may throw. -/
def setVtOrThrow (w : Nat) (vt : VTable) (fails : Bool) : M V Unit :=
  if fails then throwE .user else modW w fun W => { W with vt := vt }

/-- type-erasure.hpp:616-642, `construct_inplace<T>` for an object of type `t` and value `v`. -/
def constructInplace (cfg : Cfg) (w t : Nat) (v : V) (th : Throws) : M V Unit := do
  allocate cfg w (cfg.sizeOf t) th.alloc                           -- 627
  onThrow (do
    let W ← getW w
    constructOrThrow cfg W.self ⟨t, v⟩ th.ctor                     -- 629-636
    onThrow (setVtOrThrow w (.make cfg t false th.provides) th.vtable)               -- 638
      (destroyAt cfg W.self t))
    (deallocate cfg w)

/-- type-erasure.hpp:619-625, `construct_inplace<T *>` for a pointer to the object `e` (a pointer to
const if `c`). -/
def constructRef (cfg : Cfg) (w e : Nat) (c : Bool) (th : Throws) : M V Unit := do
  modW w fun W => { W with size := if c then constRefSize else mutRefSize }
  ⟨fun s => (setVtOrThrow w (.make cfg (s.ext e).ty c th.provides) th.vtable).run s⟩
  modW w fun W => { W with self := .ext e }

/-- A constructor: initialise the members, run the body; if it throws, the members are destroyed (but
not the wrapper: its destructor does not run). -/
def ctor (w a : Nat) (vt : VTable) (body : M V Unit) : M V Unit := do
  newW w a vt
  onThrow body (endW w)

/-- type-erasure.hpp:267-272 and 274-282, the copy constructors (`a`: the allocator of the copy). -/
def copyCtor (cfg : Cfg) (w src a : Nat) (t : Throws) : M V Unit := do
  let O ← getW src
  ctor w a O.vt (doCopyAssign cfg false w src t)

/-- type-erasure.hpp:284-293, copy assignment. -/
def copyAssign (cfg : Cfg) (w src : Nat) (t : Throws) : M V Unit :=
  if src = w then pure ()
  else do
    cleanup cfg w
    let O ← getW src
    modW w fun W => { W with vt := O.vt }
    doCopyAssign cfg true w src t

/-- `self = std::exchange(other.self, nullptr)`. -/
def stealSelf (w src : Nat) : M V Unit := do
  let O ← getW src
  modW src fun W => { W with self := .null }
  modW w fun W => { W with self := O.self }

/-- `self = small_buffer.data(); vtable.move(other.self, self); vtable.destroy(other.self);
other.self = nullptr;` -/
def moveSmall (cfg : Cfg) (w src : Nat) : M V Unit := do
  modW w fun W => { W with self := .small w }
  let W ← getW w
  let O ← getW src
  vtMove cfg W.vt O.self W.self
  vtDestroy cfg W.vt O.self
  modW src fun W => { W with self := .null }

/-- type-erasure.hpp:305-315: take over the object in the move constructor. -/
def takeCtor (cfg : Cfg) (w src : Nat) (O : Wrapper V) : M V Unit :=
  if !sizeIndicatesOwnership O.size || cfg.sbs < O.size then stealSelf w src   -- 305-308
  else if O.self = .null then pure ()
  else moveSmall cfg w src                                         -- 310-315

/-- type-erasure.hpp:296-317, move constructor. The moved-from allocator keeps its value (a requirement
on allocators). -/
def moveCtor (cfg : Cfg) (w src : Nat) : M V Unit := do
  let O ← getW src
  newW w O.alloc O.vt
  noexcept do
    modW w fun W => { W with size := O.size }
    takeCtor cfg w src O
    modW src fun W => { W with size := invalidSize }               -- 316

/-- type-erasure.hpp:336-343: the explicit move between unequal allocators, in the constructor. -/
def moveHeap (cfg : Cfg) (w src : Nat) (t : Throws) : M V Unit := do
  let W ← getW w
  let O ← getW src
  let p ← malloc W.alloc W.size t.alloc
  modW w fun W => { W with self := p }
  vtMove cfg W.vt O.self p
  vtDestroy cfg W.vt O.self
  deallocate cfg src

/-- type-erasure.hpp:326-352: take over the object in the move constructor with an allocator. -/
def takeCtorAlloc (cfg : Cfg) (w src a : Nat) (O : Wrapper V) (t : Throws) : M V Unit :=
  if !sizeIndicatesOwnership O.size then stealSelf w src           -- 326-328
  else if cfg.sbs < O.size then
    if a = O.alloc then stealSelf w src                            -- 332-334
    else moveHeap cfg w src t                                      -- 337-343
  else moveSmall cfg w src                                         -- 346-352

/-- type-erasure.hpp:319-358, move constructor with an allocator. -/
def moveCtorAlloc (cfg : Cfg) (w src a : Nat) (t : Throws) : M V Unit := do
  let O ← getW src
  newW w a O.vt
  noexcept do
    if O.self = .null then pure ()                                 -- 322-323
    else do
      modW w fun W => { W with size := O.size }
      takeCtorAlloc cfg w src a O t
      modW src fun W => { W with size := invalidSize }             -- 353

/-- type-erasure.hpp:393-403: the explicit move between unequal allocators, in the assignment (only
reached when the allocator does not propagate). -/
def moveHeapAssign (cfg : Cfg) (w src : Nat) (t : Throws) : M V Unit := do
  let W ← getW w
  let O ← getW src
  let p ← malloc W.alloc W.size t.alloc
  modW w fun W => { W with self := p }
  vtMove cfg W.vt O.self p
  vtDestroy cfg W.vt O.self
  mfree O.alloc O.self W.size
  modW src fun W => { W with self := .null }

/-- type-erasure.hpp:379-411: take over the object in the move assignment. -/
def takeAssign (cfg : Cfg) (w src : Nat) (W O : Wrapper V) (t : Throws) : M V Unit :=
  if !sizeIndicatesOwnership O.size then stealSelf w src           -- 379-381
  else if cfg.sbs < O.size then
    if cfg.pocma || W.alloc == O.alloc then stealSelf w src        -- 388-390
    else moveHeapAssign cfg w src t
  else moveSmall cfg w src                                         -- 406-411

/-- type-erasure.hpp:361-414, move assignment. -/
def moveAssign (cfg : Cfg) (w src : Nat) (t : Throws) : M V Unit :=
  if src = w then pure ()
  else noexcept do
    cleanup cfg w
    let O ← getW src
    propagateAlloc cfg.pocma w O.alloc                             -- 370-371
    if O.self = .null then pure ()                                 -- 373-374
    else do
      modW w fun W => { W with size := O.size }
      modW w fun W => { W with vt := O.vt }
      let W ← getW w
      takeAssign cfg w src W O t
      modW src fun W => { W with size := invalidSize }             -- 412

/-- type-erasure.hpp:417, destructor. -/
def dtor (cfg : Cfg) (w : Nat) : M V Unit := do
  cleanup cfg w
  endW w

/-- type-erasure.hpp:452-467, `make`: the constructor with an allocator, then `construct_inplace`; if
that throws, the wrapper is destroyed. (The wrapper is returned by elision or the move constructor,
which is modelled separately.) -/
def make (cfg : Cfg) (w a t : Nat) (v : V) (th : Throws) : M V Unit := do
  newW w a {}
  onThrow (constructInplace cfg w t v th) (dtor cfg w)

/-- type-erasure.hpp:470, `operator bool`. -/
def hasValue (w : Nat) : M V Bool := do
  let W ← getW w
  pure (W.self != .null)

/-- type-erasure.hpp:496-503 and 513-520: `as<T>()` for non-const `T`: the pointer behind the reference
it returns. A reference to nothing is undefined behaviour. -/
def asMut (w t : Nat) : M V Ptr := do
  let W ← getW w
  if W.vt.ty ≠ some t then throwE .badTypeErasedType
  else if sizeIndicatesConst W.size then throwE .badTypeErasedConstness
  else if W.self = .null then fail .ub
  else pure W.self

/-- type-erasure.hpp:505-511 and 513-520: `as<const T>()`. -/
def asConst (w t : Nat) : M V Ptr := do
  let W ← getW w
  if W.vt.ty ≠ some t then throwE .badTypeErasedType
  else if W.self = .null then fail .ub
  else pure W.self

/-- type-erasure.hpp:526-530, `get_pointer`. -/
def getPointer (w : Nat) : M V Ptr := do
  let W ← getW w
  if sizeIndicatesConst W.size then throwE .badTypeErasedConstness
  else pure W.self

/-- type-erasure.hpp:532, `get_const_pointer`. -/
def getConstPointer (w : Nat) : M V Ptr := do
  let W ← getW w
  pure W.self

/-- type-erasure.hpp:650, 662, 675, 682, 692, 700: `call` of a null function pointer. -/
def nullFunction {α : Type} (cfg : Cfg) : M V α := do
  assertM cfg false
  fail .ub

/-- type-erasure.hpp:647-657, 673-678, 689-695: `call` of a const function of the vtable (made for the type in
the vtable, see `type_erased_wrapped`, 152-194), which reads the object. -/
def callConst (cfg : Cfg) (w : Nat) : M V V := do
  let W ← getW w
  assertM cfg (W.self != .null)
  match W.vt.cmd with
  | none => nullFunction cfg
  | some (t, _) => readAs W.self t

/-- type-erasure.hpp:659-671, 680-687, 697-704: `call` of a non-const function of the vtable, which changes the
object by `f`. For a const type the vtable function itself throws (167-177). -/
def callMut (cfg : Cfg) (w : Nat) (f : V → V) : M V Unit := do
  let W ← getW w
  assertM cfg (W.self != .null)
  if sizeIndicatesConst W.size then throwE .badTypeErasedConstness
  else
    match W.vt.cmd with
    | none => nullFunction cfg
    | some (_, true) => throwE .badTypeErasedConstness
    | some (t, false) => writeAs W.self t f

/-- type-erasure.hpp:673-678, 689-695: `call` of optional method `k` (a const one): the contained object's
own method, which reads the object, or the default. The result says which. -/
def callOptional (cfg : Cfg) (w k : Nat) : M V Bool := do
  let W ← getW w
  assertM cfg (W.self != .null)
  if W.vt.own k then
    match W.vt.cmd with
    | none => nullFunction cfg
    | some (t, _) => do
      let _ ← readAs W.self t
      pure true
  else pure false

/-! ## Histories -/

/-- What a program does with wrappers. `w` is the wrapper operated on. -/
inductive Op (V : Type) where
  | default (w a : Nat)
  | value (w a t : Nat) (v : V) (th : Throws)
  | ref (w a e : Nat) (c : Bool) (th : Throws)
  | make (w a t : Nat) (v : V) (th : Throws)
  | copy (w src : Nat) (th : Throws)
  | copyA (w src a : Nat) (th : Throws)
  | move (w src : Nat)
  | moveA (w src a : Nat) (th : Throws)
  | copyAssign (w src : Nat) (th : Throws)
  | moveAssign (w src : Nat) (th : Throws)
  | destroy (w : Nat)
  /-- `w.as<T>() = f(w.as<T>())` -/
  | modify (w t : Nat) (f : V → V)
  /-- read `w.as<const T>()` -/
  | read (w t : Nat)
  /-- a const method through the vtable -/
  | query (w : Nat)
  /-- a non-const method through the vtable -/
  | update (w : Nat) (f : V → V)
  /-- the optional method `k` through the vtable -/
  | optional (w k : Nat)
  /-- `bool(w)` -/
  | test (w : Nat)
  /-- write through `get_pointer()` (as the right type) -/
  | poke (w : Nat) (t : Nat) (f : V → V)
  /-- the program changes an object outside -/
  | outside (e : Nat) (f : V → V)

/-- What an operation returns. -/
inductive Obs (V : Type) where
  | unit
  | bool (b : Bool)
  | val (v : V)

/-- Run one operation. -/
def step (cfg : Cfg) : Op V → M V (Obs V)
  | .default w a => do newW w a {}; pure .unit                      -- 260-264
  | .value w a t v th => do ctor w a {} (constructInplace cfg w t v th); pure .unit   -- 420-447
  | .ref w a e c th => do ctor w a {} (constructRef cfg w e c th); pure .unit
  | .make w a t v th => do make cfg w a t v th; pure .unit
  | .copy w src th => do
    let O ← getW src
    copyCtor cfg w src (cfg.socc O.alloc) th
    pure .unit
  | .copyA w src a th => do copyCtor cfg w src a th; pure .unit
  | .move w src => do moveCtor cfg w src; pure .unit
  | .moveA w src a th => do moveCtorAlloc cfg w src a th; pure .unit
  | .copyAssign w src th => do copyAssign cfg w src th; pure .unit
  | .moveAssign w src th => do moveAssign cfg w src th; pure .unit
  | .destroy w => do dtor cfg w; pure .unit
  | .modify w t f => do
    let p ← asMut w t
    writeAs p t f
    pure .unit
  | .read w t => do
    let p ← asConst w t
    let v ← readAs p t
    pure (.val v)
  | .query w => do
    let v ← callConst cfg w
    pure (.val v)
  | .update w f => do callMut cfg w f; pure .unit
  | .optional w k => do
    let b ← callOptional cfg w k
    pure (.bool b)
  | .test w => do
    let b ← hasValue w
    pure (.bool b)
  | .poke w t f => do
    let p ← getPointer w
    writeAs p t f
    pure .unit
  | .outside e f =>
    ⟨fun s => .ok .unit { s with ext := upd s.ext e ⟨(s.ext e).ty, f (s.ext e).val⟩ }⟩

end Guanaqo.TypeErased
