import Verif.Base

/-!
# `src/include/guanaqo/atomic-stop-signal.hpp`: `AtomicStopSignal` (C63)

First one thread at a time: histories. Then concurrent executions: the flag is one `std::atomic<bool>`
per object; an execution is a set of events with the relations of the C++ memory model that matter for
a single location: happens-before, the modification order, and which write a read takes its value from,
with the coherence rules of the standard ([intro.races]).
-/

namespace Guanaqo.StopSignal

/-- What a program does with signals (numbered). -/
inductive Op where
  | default (w : Nat)
  | copy (w src : Nat)
  | move (w src : Nat)
  | moveAssign (w src : Nat)
  | stop (w : Nat)
  | requested (w : Nat)
  | destroy (w : Nat)
  deriving DecidableEq, Repr

/-- The stop flags (`none`: not alive). -/
abbrev Sig := Nat → Option Bool

def set (s : Sig) (w : Nat) (x : Option Bool) : Sig := fun v => if v = w then x else s v

/-- atomic-stop-signal.hpp:10-19; what `stop_requested` returns, and the new state. `none`: the
program is not valid (a signal is not alive, or alive already). Copy assignment is deleted. -/
def step (s : Sig) : Op → Option (Option Bool × Sig)
  | .default w => if s w = none then some (none, set s w (some false)) else none
  | .copy w src => if s w = none ∧ s src ≠ none then some (none, set s w (some false)) else none   -- 11
  | .move w src => if s w = none ∧ s src ≠ none then some (none, set s w (some false)) else none   -- 13
  | .moveAssign w src => if s w ≠ none ∧ s src ≠ none then some (none, s) else none                -- 14
  | .stop w => if s w = none then none else some (none, set s w (some true))                       -- 16
  | .requested w =>                                                                                -- 17
    match s w with
    | none => none
    | some b => some (some b, s)
  | .destroy w => if s w = none then none else some (none, set s w none)

def run : Sig → List Op → Option (List (Option Bool) × Sig)
  | s, [] => some ([], s)
  | s, op :: ops =>
    match step s op with
    | none => none
    | some (o, s') => (run s' ops).map fun (os, s'') => (o :: os, s'')

/-- `op` constructs the signal `w`. -/
def Op.constructs (w : Nat) : Op → Prop
  | .default v | .copy v _ | .move v _ => v = w
  | _ => False

/-- In the history `h`, `stop` was called on the present object `w`: there is a `stop w` after which no
other object `w` was constructed. -/
def Stopped (w : Nat) (h : List Op) : Prop :=
  ∃ h₁ h₂, h = h₁ ++ .stop w :: h₂ ∧ ∀ op ∈ h₂, ¬ op.constructs w

theorem Stopped.snoc {w : Nat} {h : List Op} {op : Op} :
    Stopped w (h ++ [op]) ↔ op = .stop w ∨ (¬ op.constructs w ∧ Stopped w h) := by
  constructor
  · rintro ⟨h₁, h₂, he, hn⟩
    rcases List.eq_nil_or_concat h₂ with rfl | ⟨l, a, rfl⟩
    · have := List.append_inj_right' he (by simp)
      simp at this
      exact .inl this
    · have he' : h ++ [op] = (h₁ ++ .stop w :: l) ++ [a] := by simp [he]
      have h1 := List.append_inj_left' he' (by simp)
      have h2 := List.append_inj_right' he' (by simp)
      simp at h2
      subst h2
      exact .inr ⟨hn op (by simp), h₁, l, h1, fun o ho => hn o (by simp [ho])⟩
  · rintro (rfl | ⟨hc, h₁, h₂, he, hn⟩)
    · exact ⟨h, [], rfl, by simp⟩
    · refine ⟨h₁, h₂ ++ [op], by simp [he], ?_⟩
      intro o ho
      rcases List.mem_append.1 ho with ho | ho
      · exact hn o ho
      · simp at ho; rw [ho]; exact hc

/-- The state after a history says of every living signal whether it was stopped. -/
def Inv (h : List Op) (s : Sig) : Prop := ∀ w b, s w = some b → (b = true ↔ Stopped w h)

theorem step_inv {h : List Op} {s s' : Sig} {op : Op} {o : Option Bool} (hi : Inv h s)
    (hs : step s op = some (o, s')) : Inv (h ++ [op]) s' := by
  have keep : ∀ w b, s w = some b → op ≠ .stop w → ¬ op.constructs w → (b = true ↔ Stopped w (h ++ [op])) := by
    intro w b hw h1 h2
    rw [Stopped.snoc, hi w b hw]
    exact ⟨fun hh => .inr ⟨h2, hh⟩, fun hh => hh.elim (fun he => absurd he h1) (·.2)⟩
  have fresh : ∀ w, op.constructs w → op ≠ .stop w → ((false = true) ↔ Stopped w (h ++ [op])) := by
    intro w h1 h2
    rw [Stopped.snoc]
    exact ⟨fun hh => (by cases hh), fun hh => hh.elim (fun he => absurd he h2) (fun hh => absurd h1 hh.1)⟩
  have ctor : ∀ w, op.constructs w → (∀ v, op.constructs v → v = w) → (∀ v, op ≠ .stop v) →
      s' = set s w (some false) → Inv (h ++ [op]) s' := by
    intro w h1 h2 h3 he v b hv
    subst he
    by_cases hvw : v = w
    · subst hvw
      simp only [set, if_true, Option.some.injEq] at hv
      subst hv
      exact fresh v h1 (h3 v)
    · simp only [set, if_neg hvw] at hv
      exact keep v b hv (h3 v) fun hh => hvw (h2 v hh)
  cases op with
  | «default» w =>
    simp only [step] at hs
    split at hs <;> cases hs
    exact ctor w rfl (fun v hv => hv.symm) (fun v hh => by cases hh) rfl
  | copy w src =>
    simp only [step] at hs
    split at hs <;> cases hs
    exact ctor w rfl (fun v hv => hv.symm) (fun v hh => by cases hh) rfl
  | move w src =>
    simp only [step] at hs
    split at hs <;> cases hs
    exact ctor w rfl (fun v hv => hv.symm) (fun v hh => by cases hh) rfl
  | moveAssign w src =>
    simp only [step] at hs
    split at hs <;> cases hs
    exact fun v b hv => keep v b hv (fun hh => by cases hh) (fun hh => hh)
  | stop w =>
    simp only [step] at hs
    split at hs <;> cases hs
    intro v b hv
    by_cases hvw : v = w
    · subst hvw
      simp only [set, if_true, Option.some.injEq] at hv
      subst hv
      rw [Stopped.snoc]
      exact ⟨fun _ => .inl rfl, fun _ => rfl⟩
    · simp only [set, if_neg hvw] at hv
      exact keep v b hv (fun hh => hvw (by cases hh; rfl)) (fun hh => hh)
  | requested w =>
    simp only [step] at hs
    split at hs <;> cases hs
    exact fun v b hv => keep v b hv (fun hh => by cases hh) (fun hh => hh)
  | destroy w =>
    simp only [step] at hs
    split at hs <;> cases hs
    intro v b hv
    by_cases hvw : v = w
    · subst hvw; simp [set] at hv
    · simp only [set, if_neg hvw] at hv
      exact keep v b hv (fun hh => by cases hh) (fun hh => hh)

theorem run_inv (ops : List Op) : ∀ {h : List Op} {s : Sig}, Inv h s → ∀ {os : List (Option Bool)} {s' : Sig},
    run s ops = some (os, s') → Inv (h ++ ops) s' := by
  induction ops with
  | nil => intro h s hi os s' hr; cases hr; simpa using hi
  | cons op ops ih =>
    intro h s hi os s' hr
    unfold run at hr
    cases hst : step s op with
    | none => rw [hst] at hr; cases hr
    | some r =>
      obtain ⟨o, s₁⟩ := r
      rw [hst] at hr
      dsimp only at hr
      cases hrr : run s₁ ops with
      | none => rw [hrr] at hr; cases hr
      | some r' =>
        obtain ⟨os', s₂⟩ := r'
        rw [hrr] at hr
        cases hr
        have := ih (step_inv hi hst) hrr
        simpa using this

/-- C63. After any history of constructions, copies, moves, assignments, stops and destructions,
`stop_requested` on a living signal returns true exactly if `stop` was called on that very object:
copying, moving and assigning neither transfer nor clear a request. -/
theorem requested_iff_stopped (h : List Op) {os : List (Option Bool)} {s : Sig}
    (hr : run (fun _ => none) h = some (os, s)) (w : Nat) (b : Bool)
    (hw : step s (.requested w) = some (some b, s)) : b = true ↔ Stopped w h := by
  have hi := run_inv h (h := []) (s := fun _ => none) (fun w b hw => by cases hw) hr
  simp only [step] at hw
  split at hw
  · cases hw
  · rename_i b' hb
    cases hw
    simpa using hi w b hb

/-- What a valid program may do, given the signals that are alive. -/
def Op.Allowed (alive : Nat → Prop) : Op → Prop
  | .default w => ¬ alive w
  | .copy w src | .move w src => ¬ alive w ∧ alive src
  | .moveAssign w src => alive w ∧ alive src
  | .stop w | .requested w | .destroy w => alive w

/-- C63. Every operation that only involves living signals is defined, whatever their flags are, and the living signals are then those that were alive or constructed, except the
one that is destroyed. -/
theorem signals_alive (s : Sig) (op : Op) :
    (op.Allowed (fun w => s w ≠ none) ↔ ∃ o s', step s op = some (o, s')) ∧
    ∀ o s', step s op = some (o, s') → ∀ v, s' v ≠ none ↔ op ≠ .destroy v ∧ (op.constructs v ∨ s v ≠ none) := by
  cases op with
  | «default» w =>
    simp only [Op.Allowed, step, Op.constructs]
    constructor
    · split <;> simp_all
    · intro o s' h v
      split at h <;> simp only [Option.some.injEq, Prod.mk.injEq, reduceCtorEq] at h
      obtain ⟨-, rfl⟩ := h
      by_cases hv : v = w
      · subst hv; simp_all [set]
      · have hv' : w ≠ v := fun h => hv h.symm
        simp_all [set]
  | copy w src =>
    simp only [Op.Allowed, step, Op.constructs]
    constructor
    · split <;> simp_all
    · intro o s' h v
      split at h <;> simp only [Option.some.injEq, Prod.mk.injEq, reduceCtorEq] at h
      obtain ⟨-, rfl⟩ := h
      by_cases hv : v = w
      · subst hv; simp_all [set]
      · have hv' : w ≠ v := fun h => hv h.symm
        simp_all [set]
  | move w src =>
    simp only [Op.Allowed, step, Op.constructs]
    constructor
    · split <;> simp_all
    · intro o s' h v
      split at h <;> simp only [Option.some.injEq, Prod.mk.injEq, reduceCtorEq] at h
      obtain ⟨-, rfl⟩ := h
      by_cases hv : v = w
      · subst hv; simp_all [set]
      · have hv' : w ≠ v := fun h => hv h.symm
        simp_all [set]
  | moveAssign w src =>
    simp only [Op.Allowed, step, Op.constructs]
    constructor
    · split <;> simp_all
    · intro o s' h v
      split at h <;> simp only [Option.some.injEq, Prod.mk.injEq, reduceCtorEq] at h
      obtain ⟨-, rfl⟩ := h
      simp
  | stop w =>
    simp only [Op.Allowed, step, Op.constructs]
    constructor
    · split <;> simp_all
    · intro o s' h v
      split at h <;> simp only [Option.some.injEq, Prod.mk.injEq, reduceCtorEq] at h
      obtain ⟨-, rfl⟩ := h
      by_cases hv : v = w
      · subst hv; simp_all [set]
      · have hv' : w ≠ v := fun h => hv h.symm
        simp_all [set]
  | requested w =>
    simp only [Op.Allowed, step, Op.constructs]
    constructor
    · split <;> simp_all
    · intro o s' h v
      split at h <;> simp only [Option.some.injEq, Prod.mk.injEq, reduceCtorEq] at h
      obtain ⟨-, rfl⟩ := h
      simp
  | destroy w =>
    simp only [Op.Allowed, step, Op.constructs]
    constructor
    · split <;> simp_all
    · intro o s' h v
      split at h <;> simp only [Option.some.injEq, Prod.mk.injEq, reduceCtorEq] at h
      obtain ⟨-, rfl⟩ := h
      by_cases hv : v = w
      · subst hv; simp_all [set]
      · have hv' : w ≠ v := fun h => hv h.symm
        simp_all [set]

example : ∃ s, run (fun _ => none) [.default 0, .stop 0, .copy 1 0, .moveAssign 0 1, .requested 0, .requested 1]
    = some ([none, none, none, none, some true, some false], s) := ⟨_, rfl⟩

/-! ## Concurrent executions -/

/-- What happens to the flag of one signal: it is initialised, `stop` stores true, or `stop_requested`
loads a value. -/
inductive Kind where
  | init
  | stop
  | load (b : Bool)
  deriving DecidableEq, Repr

def Kind.isWrite : Kind → Bool
  | .init | .stop => true
  | .load _ => false

/-- The value written. -/
def Kind.value : Kind → Bool
  | .init => false
  | .stop => true
  | .load b => b

/-- An execution, as far as the flag of one signal is concerned: `mo` is the modification order (position
of a write), `hb` is happens-before, `rf` says where a load takes its value from. -/
structure Execution (E : Type) where
  kind : E → Kind
  hb : E → E → Prop
  mo : E → Nat
  rf : E → E
  /-- the modification order is a total order on the writes -/
  mo_inj : ∀ a b, (kind a).isWrite → (kind b).isWrite → mo a = mo b → a = b
  /-- the flag is initialised once, before everything else -/
  init : E
  init_kind : kind init = .init
  init_unique : ∀ a, kind a = .init → a = init
  init_first : ∀ a, a ≠ init → hb init a
  /-- a load takes the value of a write -/
  rf_write : ∀ a b, kind a = .load b → (kind (rf a)).isWrite ∧ (kind (rf a)).value = b
  /-- a load does not take its value from the future -/
  rf_not_later : ∀ a b, kind a = .load b → ¬ hb a (rf a)
  /-- write-write coherence -/
  ww : ∀ a b, (kind a).isWrite → (kind b).isWrite → hb a b → mo a < mo b
  /-- write-read coherence: a load does not see a write that an earlier one has overwritten -/
  wr : ∀ a b v, kind b = .load v → (kind a).isWrite → hb a b → mo a ≤ mo (rf b)

/-- C63 for all schedules and all memory-model executions. If a `stop` happens before a
`stop_requested`, that returns true; and it returns true only if some `stop` was called that does not
come after it. (The loads are relaxed: what a concurrent load sees is left open.) -/
theorem requested_concurrent {E : Type} (X : Execution E) (l : E) (b : Bool) (hl : X.kind l = .load b) :
    ((∃ a, X.kind a = .stop ∧ X.hb a l) → b = true) ∧
    (b = true → ∃ a, X.kind a = .stop ∧ ¬ X.hb l a) := by
  obtain ⟨h1, h2⟩ := X.rf_write l b hl
  constructor
  · rintro ⟨a, ha, hal⟩
    have h3 := X.wr a l b hl (by rw [ha]; rfl) hal
    cases hk : X.kind (X.rf l) with
    | init =>
      have hne : a ≠ X.init := by rintro rfl; rw [X.init_kind] at ha; cases ha
      have h4 := X.ww X.init a (by rw [X.init_kind]; rfl) (by rw [ha]; rfl) (X.init_first a hne)
      rw [X.init_unique _ hk] at h3
      omega
    | stop => rw [hk] at h2; exact h2.symm
    | load v => rw [hk] at h1; cases h1
  · intro hb
    refine ⟨X.rf l, ?_, X.rf_not_later l b hl⟩
    cases hk : X.kind (X.rf l) with
    | init => rw [hk, hb] at h2; cases h2
    | stop => rfl
    | load v => rw [hk] at h1; cases h1

/-- An execution with a load after a stop and a concurrent load that sees nothing yet: events 0
(init), 1 (stop), 2 (load, after 1), 3 (load, concurrent). -/
def exExec : Execution (Fin 4) where
  kind e := match e with | 0 => .init | 1 => .stop | 2 => .load true | 3 => .load false
  hb a b := (a = 0 ∧ b ≠ 0) ∨ (a = 1 ∧ b = 2)
  mo e := match e with | 0 => 0 | 1 => 1 | 2 => 2 | 3 => 3
  rf e := match e with | 2 => 1 | _ => 0
  mo_inj := by decide
  init := 0
  init_kind := rfl
  init_unique := by decide
  init_first := by decide
  rf_write := by decide
  rf_not_later := by decide
  ww := by decide
  wr := by decide

example : exExec.kind 2 = .load true ∧ exExec.hb 1 2 ∧ exExec.kind 3 = .load false := by
  refine ⟨rfl, ?_, rfl⟩
  exact .inr ⟨rfl, rfl⟩

end Guanaqo.StopSignal
