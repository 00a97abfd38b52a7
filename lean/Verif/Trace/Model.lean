/-!
# `TraceLogger` (trace.hpp:99-169, the variant without ITT)

Threads record events concurrently. A schedule is any list of atomic steps: the calls of `trace` in flight advance one
step at a time (the atomic increment, the clock reading, the write of each field of the record), scopes are moved and
closed, `reset` is called. The increment is a relaxed atomic read-modify-write, of which the steps see a single order;
the other accesses are plain reads and writes of the records: `no_race` shows that no two events in flight ever access the
same record, so that their steps can be taken one at a time.

Simplifications: clock readings are integers (nanoseconds) without a bound; `name` is the text, not the pointer; the hash of
the thread id is given by the caller.
-/

namespace Guanaqo.Trace

/-- trace.hpp:100-107: a record of the log, with its initial values. -/
structure Log where
  name : String := ""
  inst : Int := 0
  start : Int := 0
  duration : Int := 0
  tid : Nat := 0
  flop : Int := 0
deriving DecidableEq, Repr

/-- The arguments of a call of `trace`, and the thread that makes it. -/
structure Args where
  name : String
  inst : Int
  flop : Int
  tid : Nat
deriving DecidableEq, Repr

/-- Where a call of `trace` is. -/
inductive Pc where
  /-- before line 149 -/
  | called (a : Args)
  /-- `index = i` is in range; before line 154 -/
  | fetched (a : Args) (i : Nat)
  /-- `t1 = t`; the first `k` of the five fields have been written (lines 155-159) -/
  | writing (a : Args) (i : Nat) (t : Int) (k : Nat)
  /-- returned -/
  | done

/-- trace.hpp:126-143: a `ScopedLog`: the record it points to, if any, and the time of its start. -/
structure Scope where
  log : Option Nat
  start : Int

/-- trace.hpp:122-124 (the members), the calls in flight (by event) and the `ScopedLog` objects (by name). -/
structure St where
  t0 : Int
  logs : List Log
  count : Nat
  pc : Nat → Option Pc
  objs : Nat → Option Scope

/-- trace.hpp:145: the constructor. -/
def init (capacity : Nat) (t0 : Int) : St :=
  { t0 := t0, logs := List.replicate capacity {}, count := 0, pc := fun _ => none, objs := fun _ => none }

inductive Act where
  /-- event `e`: a thread calls `trace` -/
  | call (e : Nat) (a : Args)
  /-- lines 149-151 -/
  | fetch (e : Nat)
  /-- line 154: the clock reads `t` -/
  | now (e : Nat) (t : Int)
  /-- one of lines 155-159 -/
  | write (e : Nat)
  /-- line 160: the `ScopedLog` named `e` is returned -/
  | ret (e : Nat)
  /-- lines 135-137: `ScopedLog b{std::move(a)}` -/
  | move (a b : Nat)
  /-- lines 139-142: the destructor; the clock reads `t` -/
  | close (o : Nat) (t : Int)
  /-- line 168 -/
  | reset

inductive Res where
  | ok (s : St)
  /-- the step is not possible in this state -/
  | disabled
  /-- access outside of the vector -/
  | ub

def upd {α : Type} (f : Nat → α) (i : Nat) (v : α) : Nat → α := fun k => if k = i then v else f k

/-- Lines 155-159: the write of field number `k`. -/
def writeField (t0 : Int) (a : Args) (t : Int) (l : Log) : Nat → Log
  | 0 => { l with name := a.name }
  | 1 => { l with inst := a.inst }
  | 2 => { l with flop := a.flop }
  | 3 => { l with start := t - t0 }
  | 4 => { l with tid := a.tid }
  | _ => l

/-- Change record `i`. -/
def setLog (s : St) (i : Nat) (f : Log → Log) : Option St :=
  match s.logs[i]? with
  | some l => some { s with logs := s.logs.set i (f l) }
  | none => none

def step (s : St) : Act → Res
  | .call e a =>
    match s.pc e, s.objs e with
    | none, none => .ok { s with pc := upd s.pc e (some (.called a)) }
    | _, _ => .disabled
  | .fetch e =>
    match s.pc e with
    | some (.called a) =>
      let index := s.count
      let s := { s with count := (s.count + 1) % 2 ^ 64 }
      if index ≥ s.logs.length then .ok { s with pc := upd s.pc e (some .done), objs := upd s.objs e (some ⟨none, 0⟩) }
      else .ok { s with pc := upd s.pc e (some (.fetched a index)) }
    | _ => .disabled
  | .now e t =>
    match s.pc e with
    | some (.fetched a i) => .ok { s with pc := upd s.pc e (some (.writing a i t 0)) }
    | _ => .disabled
  | .write e =>
    match s.pc e with
    | some (.writing a i t k) =>
      if k < 5 then
        match setLog s i fun l => writeField s.t0 a t l k with
        | some s => .ok { s with pc := upd s.pc e (some (.writing a i t (k + 1))) }
        | none => .ub
      else .disabled
    | _ => .disabled
  | .ret e =>
    match s.pc e with
    | some (.writing _ i t 5) => .ok { s with pc := upd s.pc e (some .done), objs := upd s.objs e (some ⟨some i, t⟩) }
    | _ => .disabled
  | .move a b =>
    match s.objs a, s.objs b, s.pc b with
    | some x, none, none => .ok { s with objs := upd (upd s.objs a (some ⟨none, x.start⟩)) b (some x), pc := upd s.pc b (some .done) }
    | _, _, _ => .disabled
  | .close o t =>
    match s.objs o with
    | some ⟨some i, t1⟩ =>
      match setLog s i fun l => { l with duration := t - t1 } with
      | some s => .ok { s with objs := upd s.objs o none }
      | none => .ub
    | some ⟨none, _⟩ => .ok { s with objs := upd s.objs o none }
    | none => .disabled
  | .reset => .ok { s with count := 0 }

def run : St → List Act → Res
  | s, [] => .ok s
  | s, x :: xs => match step s x with
    | .ok s' => run s' xs
    | r => r

/-- trace.hpp:163-166: `get_logs`. -/
def getLogs (s : St) : List Log := s.logs.take (min s.logs.length s.count)

/-! ## Specification: the events of a schedule -/

/-- What happened to an event: when it started (if it was recorded), which `ScopedLog` holds its scope, when that was
closed. -/
structure Ev where
  args : Args
  start : Option Int := none
  holder : Option Nat := none
  close : Option Int := none

/-- The scope goes from the `ScopedLog` `a` to `b`. -/
def Ev.moved (a b : Nat) (x : Ev) : Ev := if x.holder = some a then { x with holder := some b } else x

/-- The `ScopedLog` `o` is destroyed at time `t`. -/
def Ev.closed (o : Nat) (t : Int) (x : Ev) : Ev :=
  if x.holder = some o then { x with holder := none, close := some t } else x

/-- The events, and in which order those since the last `reset` started. -/
structure Hist where
  ev : Nat → Option Ev := fun _ => none
  order : List Nat := []

def Hist.mod (h : Hist) (f : Ev → Ev) (e : Nat) : Hist := { h with ev := upd h.ev e ((h.ev e).map f) }

/-- The meaning of the steps for the events, without any records or indices. -/
def Hist.step (h : Hist) : Act → Hist
  | .call e a => { h with ev := upd h.ev e (some { args := a }) }
  | .fetch e => { h with order := h.order ++ [e] }
  | .now e t => h.mod (fun x => { x with start := some t }) e
  | .write _ => h
  | .ret e => h.mod (fun x => { x with holder := some e }) e
  | .move a b => { h with ev := fun e => (h.ev e).map (Ev.moved a b) }
  | .close o t => { h with ev := fun e => (h.ev e).map (Ev.closed o t) }
  | .reset => { h with order := [] }

def Hist.run (h : Hist) (xs : List Act) : Hist := xs.foldl Hist.step h

/-- The record that belongs to an event that has been closed. -/
def Ev.record (t0 : Int) (x : Ev) : Option Log :=
  match x.start, x.close with
  | some t, some t' => some ⟨x.args.name, x.args.inst, t - t0, t' - t, x.args.tid, x.args.flop⟩
  | _, _ => none

/-- No call of `trace` is between its start and its return, and all scopes of recorded events have been closed. -/
def Quiescent (s : St) : Prop :=
  (∀ e a i, s.pc e ≠ some (.fetched a i)) ∧ (∀ e a i t k, s.pc e ≠ some (.writing a i t k)) ∧
  ∀ o i t, s.objs o ≠ some ⟨some i, t⟩

/-- The conditions on a schedule: `reset` is called only when no event is in progress, and there are less than `2 ^ 64`
events between resets. -/
def Allowed : St → List Act → Prop
  | _, [] => True
  | s, x :: xs =>
    (x = .reset → Quiescent s) ∧ ((∃ e, x = .fetch e) → s.count + 1 < 2 ^ 64) ∧
    ∀ s', step s x = .ok s' → Allowed s' xs

end Guanaqo.Trace
