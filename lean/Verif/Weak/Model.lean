import Verif.Base

/-!
# Executions of the C++ memory model

The fragment of [intro.races] and [atomics.order] that the two lock-free classes of the library use: plain
(non-atomic) reads and writes, atomic loads, stores and read-modify-writes of every memory order, sequenced-before
extended by whatever else orders the program (starting and joining threads, locks of the caller), synchronisation of a
release with an acquire, the modification order and the four coherence rules. An execution is any set of events with
these relations; nothing says that it is an interleaving.

Not modelled: fences (the library has none), `consume`, and the single total order of the `seq_cst` operations: leaving it
out allows more executions, so that what is proved of all of them holds of the ones of the language.
-/

namespace Guanaqo.Weak

/-- `std::memory_order` -/
inductive Order where
  | relaxed | acquire | release | acqRel | seqCst
  deriving DecidableEq, Repr

/-- Does a write of this order release? -/
def Order.releases : Order → Bool
  | .release | .acqRel | .seqCst => true
  | _ => false

/-- Does a read of this order acquire? -/
def Order.acquires : Order → Bool
  | .acquire | .acqRel | .seqCst => true
  | _ => false

/-- What an event does: to which location, with which values. -/
inductive Act (L V : Type) where
  /-- a plain read that gives `v` -/
  | read (l : L) (v : V)
  /-- a plain write -/
  | write (l : L) (v : V)
  | load (o : Order) (l : L) (v : V)
  | store (o : Order) (l : L) (v : V)
  /-- a read-modify-write that finds `old` and leaves `new` -/
  | rmw (o : Order) (l : L) (old new : V)
  deriving DecidableEq, Repr

variable {E L V : Type}

def Act.loc : Act L V → L
  | .read l _ | .write l _ | .load _ l _ | .store _ l _ | .rmw _ l _ _ => l

/-- The value read, if any. -/
def Act.got : Act L V → Option V
  | .read _ v | .load _ _ v | .rmw _ _ v _ => some v
  | _ => none

/-- The value written, if any. -/
def Act.put : Act L V → Option V
  | .write _ v | .store _ _ v | .rmw _ _ _ v => some v
  | _ => none

def Act.reads (a : Act L V) : Prop := a.got ≠ none
def Act.writes (a : Act L V) : Prop := a.put ≠ none

def Act.atomic : Act L V → Prop
  | .read _ _ | .write _ _ => False
  | _ => True

def Act.isRmw : Act L V → Prop
  | .rmw _ _ _ _ => True
  | _ => False

/-- A write that releases. -/
def Act.releases : Act L V → Prop
  | .store o _ _ | .rmw o _ _ _ => o.releases = true
  | _ => False

/-- A read that acquires. -/
def Act.acquires : Act L V → Prop
  | .load o _ _ | .rmw o _ _ _ => o.acquires = true
  | _ => False

/-- A candidate execution: the events, what comes before what in the program (in one thread, or through the start and the
end of threads), which write each read takes its value from (`none`: the initial value), and the modification order. -/
structure Exec (E L V : Type) where
  act : E → Act L V
  sb : E → E → Prop
  rf : E → Option E
  mo : E → E → Prop

/-- The release sequence headed by `a`: `a` and the read-modify-writes that continue it. -/
inductive Exec.RelSeq (x : Exec E L V) (a : E) : E → Prop
  | head : x.RelSeq a a
  | rmw {b c : E} : x.RelSeq a b → x.rf c = some b → (x.act c).isRmw → x.RelSeq a c

/-- `a` synchronises with `b`. -/
def Exec.sw (x : Exec E L V) (a b : E) : Prop :=
  (x.act a).releases ∧ (x.act b).acquires ∧ ∃ c, x.rf b = some c ∧ x.RelSeq a c

/-- `a` happens before `b`. -/
inductive Exec.hb (x : Exec E L V) : E → E → Prop
  | sb {a b : E} : x.sb a b → x.hb a b
  | sw {a b : E} : x.sw a b → x.hb a b
  | trans {a b c : E} : x.hb a b → x.hb b c → x.hb a c

/-- The rules of the memory model, with the initial values `init`, for a happens-before relation `hb`. -/
structure Exec.Coherent (x : Exec E L V) (hb : E → E → Prop) (init : L → V) : Prop where
  hb_irrefl : ∀ a, ¬ hb a a
  /-- the modification order of each atomic object is a total order of the writes to it -/
  mo_writes : ∀ a b, x.mo a b → (x.act a).writes ∧ (x.act b).writes ∧ (x.act a).atomic ∧ (x.act b).atomic ∧
    (x.act a).loc = (x.act b).loc
  mo_irrefl : ∀ a, ¬ x.mo a a
  mo_trans : ∀ a b c, x.mo a b → x.mo b c → x.mo a c
  mo_total : ∀ a b, a ≠ b → (x.act a).writes → (x.act b).writes → (x.act a).atomic → (x.act b).atomic →
    (x.act a).loc = (x.act b).loc → x.mo a b ∨ x.mo b a
  /-- a read gives the value of the write it reads from -/
  rf_some : ∀ a b, x.rf b = some a → (x.act b).reads ∧ (x.act a).loc = (x.act b).loc ∧
    (x.act a).put = (x.act b).got
  rf_none : ∀ b, x.rf b = none → (x.act b).reads → (x.act b).got = some (init (x.act b).loc)
  /-- write-write coherence -/
  co_ww : ∀ a b, hb a b → (x.act a).writes → (x.act b).writes → (x.act a).atomic → (x.act b).atomic →
    (x.act a).loc = (x.act b).loc → x.mo a b
  /-- write-read coherence -/
  co_wr : ∀ w r, hb w r → (x.act w).writes → (x.act r).reads → (x.act w).atomic → (x.act r).atomic →
    (x.act w).loc = (x.act r).loc → ∃ w', x.rf r = some w' ∧ (w' = w ∨ x.mo w w')
  /-- read-write coherence -/
  co_rw : ∀ r w w', hb r w → (x.act r).atomic → (x.act w).atomic → (x.act w).writes →
    (x.act r).loc = (x.act w).loc → x.rf r = some w' → x.mo w' w
  /-- read-read coherence -/
  co_rr : ∀ r s w, hb r s → (x.act r).atomic → (x.act s).atomic → (x.act s).reads →
    (x.act r).loc = (x.act s).loc → x.rf r = some w → ∃ w', x.rf s = some w' ∧ (w' = w ∨ x.mo w w')
  /-- a read-modify-write reads the value before it in the modification order -/
  rmw_some : ∀ w r, (x.act r).isRmw → x.rf r = some w → x.mo w r ∧ ∀ w', x.mo w w' → ¬ x.mo w' r
  rmw_none : ∀ r, (x.act r).isRmw → x.rf r = none → ∀ w, ¬ x.mo w r
  /-- a plain read gives a visible side effect: the last write that happens before it -/
  na_some : ∀ w r, ¬ (x.act r).atomic → x.rf r = some w → hb w r ∧
    ∀ w', (x.act w').writes → (x.act w').loc = (x.act r).loc → hb w w' → ¬ hb w' r
  na_none : ∀ r, ¬ (x.act r).atomic → (x.act r).reads → x.rf r = none →
    ∀ w, (x.act w).writes → (x.act w).loc = (x.act r).loc → ¬ hb w r

/-- The rules of the memory model. -/
abbrev Exec.Consistent (x : Exec E L V) (init : L → V) : Prop := x.Coherent x.hb init

/-- Two accesses conflict: the same location, at least one writes. -/
def Act.conflicts (a b : Act L V) : Prop := a.loc = b.loc ∧ (a.writes ∨ b.writes)

/-- A data race between two events (undefined behaviour): they conflict, are not both atomic, and neither happens before the
other. -/
def Exec.Race (x : Exec E L V) (a b : E) : Prop :=
  a ≠ b ∧ (x.act a).conflicts (x.act b) ∧ ¬ ((x.act a).atomic ∧ (x.act b).atomic) ∧ ¬ x.hb a b ∧ ¬ x.hb b a

def Exec.RaceFree (x : Exec E L V) : Prop := ∀ a b, ¬ x.Race a b

instance (a : Act L V) : Decidable a.reads := by
  unfold Act.reads; cases a <;> simp only [Act.got] <;> infer_instance
instance (a : Act L V) : Decidable a.writes := by
  unfold Act.writes; cases a <;> simp only [Act.put] <;> infer_instance
instance (a : Act L V) : Decidable a.atomic := by
  cases a <;> simp only [Act.atomic] <;> infer_instance
instance (a : Act L V) : Decidable a.isRmw := by
  cases a <;> simp only [Act.isRmw] <;> infer_instance

/-- Without synchronisation, only the program orders events. -/
theorem Exec.hb_eq_sb (x : Exec E L V) (hsw : ∀ a b, ¬ x.sw a b)
    (ht : ∀ a b c, x.sb a b → x.sb b c → x.sb a c) {a b : E} : x.hb a b ↔ x.sb a b := by
  constructor
  · intro h
    induction h with
    | sb h => exact h
    | sw h => exact absurd h (hsw _ _)
    | trans _ _ h₁ h₂ => exact ht _ _ _ h₁ h₂
  · exact .sb

end Guanaqo.Weak
