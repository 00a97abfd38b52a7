import Verif.Base

/-!
# Model of `src/src/dl.cpp`: loading libraries (C88, C89)

The loader of the operating system is described by the outcome of each call: all outcomes are possible. What
is kept are the pending error message of the thread (`dlerror`) and which libraries have been opened and
closed how many times. Libraries are owned by `std::shared_ptr`: control blocks with use counts, and pointer
variables of the program that refer to them.
-/

namespace Guanaqo.Dl

abbrev Handle := Nat
abbrev Msg := List Char

/-- What a call that succeeds does to the pending error message of the thread. -/
inductive Effect where
  | clears
  | keeps
  /-- e.g. because a constructor in the library looked for a symbol and did not find it -/
  | sets (m : Msg)
  deriving DecidableEq, Repr

/-- The outcome of `dlopen`. -/
inductive OpenResult where
  | fail (m : Msg)
  | ok (h : Handle) (e : Effect)
  deriving DecidableEq, Repr

/-- The outcome of `dlsym`; the address of a symbol can be null (0). -/
inductive SymResult where
  | missing (m : Msg)
  | found (addr : Nat) (e : Effect)
  deriving DecidableEq, Repr

/-- The loader. -/
structure Os where
  pending : Option Msg := none
  opened : List Handle := []
  closed : List Handle := []

def Effect.apply : Effect → Option Msg → Option Msg
  | .clears, _ => none
  | .keeps, p => p
  | .sets m, _ => some m

/-- `dlerror` (POSIX): the message since the last call. -/
def dlerror (o : Os) : Option Msg × Os := (o.pending, { o with pending := none })

/-- `dlopen` (POSIX) -/
def dlopen (r : OpenResult) (o : Os) : Option Handle × Os :=
  match r with
  | .fail m => (none, { o with pending := some m })
  | .ok h e => (some h, { o with pending := e.apply o.pending, opened := h :: o.opened })

/-- `dlclose` (POSIX) -/
def dlclose (h : Handle) (o : Os) : Os := { o with closed := h :: o.closed }

/-- `dlsym` (POSIX) -/
def dlsym (r : SymResult) (o : Os) : Nat × Os :=
  match r with
  | .missing m => (0, { o with pending := some m })
  | .found a e => (a, { o with pending := e.apply o.pending })

/-- What leaves a function. -/
inductive Outcome (α : Type) where
  | ok (x : α)
  /-- `dynamic_load_error` with its message -/
  | loadError (m : Msg)
  | badAlloc
  | assertFail
  | ub
  deriving DecidableEq, Repr

/-- The program: the loader, the control blocks (handle and number of owners) and the pointer variables. -/
structure State where
  os : Os := {}
  blocks : List (Handle × Nat) := []
  vars : List (Option Nat) := []

/-- `std::shared_ptr<void>{h, &::dlclose}` (standard library): if there is no memory for the control block,
the deleter is called. The pointer is a new variable. -/
def makeShared (h : Handle) (alloc : Bool) (s : State) : Outcome Nat × State :=
  if alloc then
    (.ok s.vars.length, { s with blocks := s.blocks ++ [(h, 1)], vars := s.vars ++ [some s.blocks.length] })
  else (.badAlloc, { s with os := dlclose h s.os })

/-- dl.cpp:47-55, `load_lib` (not on Windows, with assertions): `r` is the outcome of `dlopen`; `alloc` whether
there is memory for the control block. It returns the number of the variable that holds the result. -/
def loadLib (file : List Char) (r : OpenResult) (alloc : Bool) (s : State) : Outcome Nat × State :=
  if file = [] then (.assertFail, s)                                 -- 49
  else
    let (_, os) := dlerror s.os                                      -- 50
    let (h, os) := dlopen r os                                       -- 51
    let (err, os) := dlerror os                                      -- 52
    match err with
    | some m => (.loadError m, { s with os := os })                  -- 53
    | none =>
      match h with
      | none => (.ub, { s with os := os })
      | some h => makeShared h alloc { s with os := os }             -- 54

/-- dl.cpp:57-65, `load_func` (not on Windows, with assertions) for a handle that is not null. -/
def loadFunc (handle : Option Handle) (name : List Char) (r : SymResult) (s : State) : Outcome Nat × State :=
  match handle with
  | none => (.assertFail, s)                                         -- 58
  | some _ =>
    let (_, os) := dlerror s.os                                      -- 59
    let (a, os) := dlsym r os                                        -- 60
    let (err, os) := dlerror os                                      -- 61
    match err with
    | some m => (.loadError ("Unable to load function '".toList ++ name ++ "': ".toList ++ m), { s with os := os })
    | none => (.ok a, { s with os := os })                           -- 64

/-- An owner goes away: the last one calls the deleter (standard library). -/
def release (b : Nat) (s : State) : State :=
  match s.blocks[b]? with
  | none => s
  | some (h, n) =>
    if n = 1 then { s with blocks := s.blocks.set b (h, 0), os := dlclose h s.os }
    else { s with blocks := s.blocks.set b (h, n - 1) }

/-- One more owner (standard library). -/
def retain (b : Nat) (s : State) : State :=
  match s.blocks[b]? with
  | none => s
  | some (h, n) => { s with blocks := s.blocks.set b (h, n + 1) }

/-- What a program does. -/
inductive Op where
  | load (file : List Char) (r : OpenResult) (alloc : Bool)
  /-- `load_func` with the handle in the variable `i` -/
  | func (i : Nat) (name : List Char) (r : SymResult)
  /-- a new variable, a copy of the variable `i` -/
  | copy (i : Nat)
  /-- a new variable, moved from the variable `i` -/
  | move (i : Nat)
  /-- reset or destruction of the variable `i` -/
  | drop (i : Nat)
  /-- assignment of the variable `j` to the variable `i` (`std::shared_ptr`: copy, swap, and release) -/
  | assign (i j : Nat)
  /-- other uses of the loader, which leave some pending message -/
  | other (p : Option Msg)
  deriving Repr

/-- The handle in a variable. -/
def State.handle (s : State) (i : Nat) : Option Handle :=
  match s.vars[i]? with
  | some (some b) => (s.blocks[b]?).map (·.1)
  | _ => none

/-- The value of a variable. -/
def State.var (s : State) (i : Nat) : Option Nat := (s.vars[i]?).getD none

def releaseVar (v : Option Nat) (s : State) : State :=
  match v with
  | none => s
  | some b => release b s

def retainVar (v : Option Nat) (s : State) : State :=
  match v with
  | none => s
  | some b => retain b s

def step (s : State) : Op → State
  | .load file r alloc => (loadLib file r alloc s).2
  | .func i name r => (loadFunc (s.handle i) name r s).2
  | .copy i => let s' := retainVar (s.var i) s; { s' with vars := s'.vars ++ [s.var i] }
  | .move i => { s with vars := s.vars.set i none ++ [s.var i] }
  | .drop i => let s' := releaseVar (s.var i) s; { s' with vars := s'.vars.set i none }
  | .assign i j =>
    if i < s.vars.length then
      let s₁ := retainVar (s.var j) s
      let s₂ := { s₁ with vars := s₁.vars.set i (s.var j) }
      releaseVar (s.var i) s₂
    else s
  | .other p => { s with os := { s.os with pending := p } }

def run : State → List Op → State
  | s, [] => s
  | s, op :: ops => run (step s op) ops

/-! ## Windows -/

/-- The outcome of `LoadLibraryW`, or the system's error message. -/
inductive WinOpen where
  | fail (m : Msg)
  | ok (h : Handle)
  deriving DecidableEq, Repr

/-- dl.cpp:28-37, `load_lib` on Windows (`FreeLibrary` is `dlclose` here). `get_last_error_msg` (dl.cpp:14-26)
gives the message of the system, or a fixed text (`none`). -/
def loadLibWin (file : List Char) (r : WinOpen) (sysMsg : Bool) (alloc : Bool) (s : State) : Outcome Nat × State :=
  if file = [] then (.assertFail, s)
  else
    match r with
    | .fail m => (.loadError ("Unable to load \"".toList ++ file ++ "\": ".toList ++
        (if sysMsg then m else "(failed to get error message)".toList)), s)
    | .ok h => makeShared h alloc { s with os := { s.os with opened := h :: s.os.opened } }

/-! ## Flags -/

/-- dl-flags.hpp:8-19, `DynamicLoadFlags` with its defaults. -/
structure Flags where
  global : Bool := false
  lazy : Bool := false
  nodelete : Bool := true
  deepbind : Bool := true
  deriving DecidableEq, Repr

/-- The constants of `<dlfcn.h>`; `deepbind` is not defined on all systems. -/
structure Consts where
  global : BitVec 32
  rtldLocal : BitVec 32
  lazy : BitVec 32
  now : BitVec 32
  nodelete : BitVec 32
  deepbind : Option (BitVec 32)

/-- dl-flags.cpp:9-21, `DynamicLoadFlags::operator int` (not on Windows). -/
def Flags.toInt (k : Consts) (f : Flags) : BitVec 32 :=
  (if f.global then k.global else k.rtldLocal) |||
  (if f.lazy then k.lazy else k.now) |||
  (if f.nodelete then k.nodelete else 0) |||
  (match k.deepbind with
   | some d => if f.deepbind then d else 0
   | none => 0) ||| 0

end Guanaqo.Dl
