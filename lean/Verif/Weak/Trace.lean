import Verif.Weak.Model
import Mathlib.Data.Fintype.Card
import Mathlib.Order.WellFounded
import Mathlib.Data.Fintype.Order

/-!
# `TraceLogger` under the C++ memory model (trace.hpp:99-169, the variant without ITT)

`Verif.Trace` takes the steps of concurrent calls one at a time. Here nothing is assumed about the order in which memory
accesses take effect: a run is any set of calls of `trace`, of destructors of scopes, of `get_logs` (with the caller
reading the records it returns) and of `reset`, ordered only as the program orders them (`ord`: calls of one thread, threads
started and joined, locks of the caller), and any execution of their memory accesses that the memory model allows.
-/

namespace Guanaqo.Weak.Trace

/-- The fields of a record (trace.hpp:100-107). -/
inductive Field where
  | name | inst | start | dur | tid | flop
  deriving DecidableEq, Repr

/-- The memory of a logger: the counter and the fields of the records (trace.hpp:123-124). The vector itself is not changed
after the construction. -/
inductive Loc where
  | count
  | fld (i : Nat) (f : Field)
  deriving DecidableEq, Repr

/-- A call on the logger. Values of fields are numbers. -/
inductive Call (C : Type) where
  /-- `trace(...)`, and what it writes to the fields (all but the duration) -/
  | trace (val : Field → Nat)
  /-- the end of the scope returned by call `t` (of the object it was last moved to) -/
  | close (t : C) (dur : Nat)
  /-- `get_logs()`, and reading the records that it returns -/
  | logs
  | reset

/-- The calls of a run, the capacity, the order given by the program, the values that `trace` and `get_logs` found in the
counter, and the fields that the readers of the records saw. -/
structure Run (C : Type) where
  cap : Nat
  call : C → Call C
  ord : C → C → Prop
  old : C → Nat
  seen : C → Nat → Field → Nat

variable {C : Type}

/-- `size_t` arithmetic. -/
def wrap (n : Nat) : Nat := n % 2 ^ 64

/-- The five fields that `trace` writes, in the order of trace.hpp:155-159. -/
def written : List Field := [.name, .inst, .flop, .start, .tid]

/-- All fields. -/
def fields : List Field := [.name, .inst, .start, .dur, .tid, .flop]

/-- trace.hpp:147-161, `trace`: the memory accesses, if the counter was `n`. -/
def traceActs (cap n : Nat) (val : Field → Nat) : List (Act Loc Nat) :=
  .rmw .relaxed .count n (wrap (n + 1)) ::                              -- 149
    if cap ≤ n then [] else written.map fun f => .write (.fld n f) (val f)   -- 150-159

/-- trace.hpp:139-142, `~ScopedLog`, if the counter was `n` for the call of `trace`. -/
def closeActs (cap n dur : Nat) : List (Act Loc Nat) :=
  if cap ≤ n then [] else [.write (.fld n .dur) dur]

/-- trace.hpp:163-166, `get_logs`, if the counter was `n`, and reading all fields of the records. -/
def logsActs (cap n : Nat) (seen : Nat → Field → Nat) : List (Act Loc Nat) :=
  .load .relaxed .count n ::                                            -- 164
    (List.range (min cap n)).flatMap fun i => fields.map fun f => .read (.fld i f) (seen i f)

/-- The memory accesses of a call. -/
def Run.acts (r : Run C) (c : C) : List (Act Loc Nat) :=
  match r.call c with
  | .trace val => traceActs r.cap (r.old c) val
  | .close t dur => closeActs r.cap (r.old t) dur
  | .logs => logsActs r.cap (r.old c) (r.seen c)
  | .reset => [.store .relaxed .count 0]                                -- trace.hpp:168

def Run.isTrace (r : Run C) (c : C) : Prop := ∃ val, r.call c = .trace val
def Run.closes (r : Run C) (c t : C) : Prop := ∃ d, r.call c = .close t d

/-- What every program gives: the order of the calls is an order; a scope comes from the call of `trace` that returned it
and ends once. -/
structure Run.Valid (r : Run C) : Prop where
  irrefl : ∀ c, ¬ r.ord c c
  trans : ∀ a b c, r.ord a b → r.ord b c → r.ord a c
  close_after : ∀ c t, r.closes c t → r.isTrace t ∧ r.ord t c
  close_once : ∀ c c' t, r.closes c t → r.closes c' t → c = c'

/-- The memory accesses of a run. -/
abbrev Run.Ev (r : Run C) := (c : C) × Fin (r.acts c).length

/-- The initial values: the counter and all fields are zero (the empty name too). -/
def start0 : Loc → Nat := fun _ => 0

/-- An execution of a run: its accesses in the order of the program, with any choice of what is read and of the modification
order that the memory model allows. -/
structure Run.Executes (r : Run C) (x : Exec r.Ev Loc Nat) : Prop where
  act : ∀ e : r.Ev, x.act e = (r.acts e.1)[e.2]
  sb : ∀ a b : r.Ev, x.sb a b ↔ r.ord a.1 b.1 ∨ (a.1 = b.1 ∧ a.2.val < b.2.val)
  consistent : x.Consistent start0

end Guanaqo.Weak.Trace
