import Verif.Weak.Model

/-!
# `AtomicStopSignal` and the data around it (atomic-stop-signal.hpp, C125)

`stop()` is a sequentially consistent store, `stop_requested()` a relaxed load. Programs of any number of threads use any
number of signals and plain data.
-/

namespace Guanaqo.Weak.Stop

/-- The flag of a signal, or data of the caller. -/
inductive Loc where
  | flag (s : Nat)
  | data (d : Nat)
  deriving DecidableEq, Repr

/-- atomic-stop-signal.hpp:16, `stop()` -/
def stop (s : Nat) : Act Loc Nat := .store .seqCst (.flag s) 1

/-- atomic-stop-signal.hpp:17-19, `stop_requested()` that returns `b` -/
def requested (s : Nat) (b : Bool) : Act Loc Nat := .load .relaxed (.flag s) b.toNat

/-- A program of signals and plain data: the accesses to flags are those of the class, the others are plain. -/
def Uses {E : Type} (x : Exec E Loc Nat) : Prop := ∀ e,
  (∃ s, x.act e = stop s) ∨ (∃ s b, x.act e = requested s b) ∨ (∃ d v, x.act e = .read (.data d) v) ∨
    ∃ d v, x.act e = .write (.data d) v

/-- atomic-stop-signal.hpp:22: flags are false at first (and data zero). -/
def zero : Loc → Nat := fun _ => 0

variable {E : Type} {x : Exec E Loc Nat}

/-- The order given by the program: sequenced before, and threads started and joined. -/
inductive Program (x : Exec E Loc Nat) : E → E → Prop
  | sb {a b : E} : x.sb a b → Program x a b
  | trans {a b c : E} : Program x a b → Program x b c → Program x a c

/-- **The class orders nothing**: what happens before what is given by the rest of the program alone. -/
theorem stop_orders_nothing (hu : Uses x) (a b : E) : x.hb a b ↔ Program x a b := by
  constructor
  · intro h
    induction h with
    | sb h => exact .sb h
    | sw h =>
      exfalso
      obtain ⟨-, h2, -⟩ := h
      rename_i b
      rcases hu b with ⟨s, h⟩ | ⟨s, v, h⟩ | ⟨d, v, h⟩ | ⟨d, v, h⟩ <;> rw [h] at h2
      · exact h2
      · exact absurd h2 (by simp [requested, Act.acquires, Order.acquires])
      · exact h2
      · exact h2
    | trans _ _ h1 h2 => exact .trans h1 h2
  · intro h
    induction h with
    | sb h => exact .sb h
    | trans _ _ h1 h2 => exact .trans h1 h2

/-- **Exactly when the data around signals is free of races**: two accesses to the same data, one of them a write, must be
ordered by the rest of the program, whatever `stop_requested` has returned. -/
theorem stop_raceFree_iff (hu : Uses x) :
    x.RaceFree ↔ ∀ a b, a ≠ b → ∀ d v, x.act a = .write (.data d) v →
      (x.act b).loc = .data d → Program x a b ∨ Program x b a := by
  have hflag : ∀ e d, (x.act e).loc = .data d → ¬ (x.act e).atomic := by
    intro e d h
    rcases hu e with ⟨s, h'⟩ | ⟨s, v, h'⟩ | ⟨d', v, h'⟩ | ⟨d', v, h'⟩ <;> rw [h'] at h ⊢
    · cases h
    · cases h
    · exact id
    · exact id
  constructor
  · intro hr a b hne d v ha hb
    refine Classical.byContradiction fun hcon => ?_
    refine hr a b ⟨hne, ⟨by rw [ha, hb]; rfl, .inl (by rw [ha]; simp [Act.writes, Act.put])⟩,
      fun h => hflag b d hb h.2, ?_, ?_⟩
    · exact fun h => hcon (.inl ((stop_orders_nothing hu a b).1 h))
    · exact fun h => hcon (.inr ((stop_orders_nothing hu b a).1 h))
  · rintro h a b ⟨hne, ⟨hloc, hw⟩, hat, h1, h2⟩
    rw [stop_orders_nothing hu] at h1 h2
    rcases hw with hw | hw
    · rcases hu a with ⟨s, ha⟩ | ⟨s, v, ha⟩ | ⟨d, v, ha⟩ | ⟨d, v, ha⟩
      · rw [ha] at hloc
        rcases hu b with ⟨s', hb⟩ | ⟨s', v, hb⟩ | ⟨d, v, hb⟩ | ⟨d, v, hb⟩ <;> rw [ha, hb] at hat <;> rw [hb] at hloc
        · exact hat ⟨trivial, trivial⟩
        · exact hat ⟨trivial, trivial⟩
        · cases hloc
        · cases hloc
      · rw [ha] at hw; exact hw rfl
      · rw [ha] at hw; exact hw rfl
      · exact (h a b hne d v ha (by rw [← hloc, ha]; rfl)).elim h1 h2
    · rcases hu b with ⟨s, hb⟩ | ⟨s, v, hb⟩ | ⟨d, v, hb⟩ | ⟨d, v, hb⟩
      · rw [hb] at hloc
        rcases hu a with ⟨s', ha⟩ | ⟨s', v, ha⟩ | ⟨d, v, ha⟩ | ⟨d, v, ha⟩ <;> rw [ha, hb] at hat <;> rw [ha] at hloc
        · exact hat ⟨trivial, trivial⟩
        · exact hat ⟨trivial, trivial⟩
        · cases hloc
        · cases hloc
      · rw [hb] at hw; exact hw rfl
      · rw [hb] at hw; exact hw rfl
      · exact (h b a hne.symm d v hb (by rw [hloc, hb]; rfl)).elim h2 h1

theorem flag_write (hu : Uses x) {w : E} {s : Nat} (h : (x.act w).loc = .flag s) (hw : (x.act w).writes) :
    x.act w = stop s := by
  rcases hu w with ⟨s', h'⟩ | ⟨s', v, h'⟩ | ⟨d, v, h'⟩ | ⟨d, v, h'⟩ <;> rw [h'] at h hw ⊢
  · cases h; rfl
  · exact absurd rfl hw
  · cases h
  · cases h

/-- **The flag itself is passed on**: `stop_requested` returns true only if `stop` was called, by a call that does not come
after; it returns true if a call of `stop`, or a `stop_requested` that returned true, comes before it in the program. What
was written before `stop` is not passed on: `stop_raceFree_iff`, `stop_data_race`. -/
theorem stop_passes_flag_partial (hu : Uses x) (hc : x.Consistent zero) (q : E) (s : Nat) (b : Bool)
    (hq : x.act q = requested s b) :
    (b = true → ∃ w, x.act w = stop s ∧ ¬ Program x q w) ∧
    ((∃ w, Program x w q ∧ (x.act w = stop s ∨ x.act w = requested s true)) → b = true) := by
  have hqa : (x.act q).atomic := by rw [hq]; trivial
  have hqr : (x.act q).reads := by rw [hq]; simp [requested, Act.reads, Act.got]
  have hql : (x.act q).loc = .flag s := by rw [hq]; rfl
  have from_stop : ∀ {w : E} {q' : E} {b' : Bool}, x.act q' = requested s b' → x.rf q' = some w →
      x.act w = stop s ∧ b' = true := by
    intro w q' b' hq' hrf
    obtain ⟨-, h2, h3⟩ := hc.rf_some w q' hrf
    rw [hq'] at h2 h3
    have hw : x.act w = stop s := flag_write hu (h2.trans rfl) (by
      unfold Act.writes; rw [h3]; simp [requested, Act.got])
    rw [hw] at h3
    refine ⟨hw, ?_⟩
    cases b' with
    | true => rfl
    | false => simp [stop, requested, Act.put, Act.got] at h3
  constructor
  · rintro rfl
    cases hrf : x.rf q with
    | none =>
      have := hc.rf_none q hrf hqr
      rw [hq] at this
      simp [requested, Act.got, zero] at this
    | some w =>
      have hw := (from_stop hq hrf).1
      refine ⟨w, hw, fun hp => ?_⟩
      have := hc.co_rw q w w ((stop_orders_nothing hu q w).2 hp) hqa (by rw [hw]; trivial)
        (by rw [hw]; simp [stop, Act.writes, Act.put]) (by rw [hql, hw]; rfl) hrf
      exact hc.mo_irrefl w this
  · rintro ⟨w, hp, hw | hw⟩
    · obtain ⟨w', hrf, -⟩ := hc.co_wr w q ((stop_orders_nothing hu w q).2 hp)
        (by rw [hw]; simp [stop, Act.writes, Act.put]) hqr (by rw [hw]; trivial) hqa (by rw [hql, hw]; rfl)
      exact (from_stop hq hrf).2
    · cases hrf : x.rf w with
      | none =>
        have := hc.rf_none w hrf (by rw [hw]; simp [requested, Act.reads, Act.got])
        rw [hw] at this
        simp [requested, Act.got, zero] at this
      | some v =>
        obtain ⟨w', hrf', -⟩ := hc.co_rr w q v ((stop_orders_nothing hu w q).2 hp) (by rw [hw]; trivial) hqa hqr
          (by rw [hql, hw]; rfl) hrf
        exact (from_stop hq hrf').2

/-- One thread writes data and calls `stop` (events 0 and 1), another one sees `stop_requested` return true and reads the
data (2 and 3). -/
def message (v : Nat) : Exec (Fin 4) Loc Nat where
  act e := match e with
    | 0 => .write (.data 0) 42
    | 1 => stop 0
    | 2 => requested 0 true
    | 3 => .read (.data 0) v
  sb a b := (a = 0 ∧ b = 1) ∨ (a = 2 ∧ b = 3)
  rf e := if e = 2 then some 1 else none
  mo _ _ := False

theorem message_uses (v : Nat) : Uses (message v) := by
  intro e
  match e with
  | 0 => exact .inr (.inr (.inr ⟨0, 42, rfl⟩))
  | 1 => exact .inl ⟨0, rfl⟩
  | 2 => exact .inr (.inl ⟨0, true, rfl⟩)
  | 3 => exact .inr (.inr (.inl ⟨0, v, rfl⟩))

theorem message_program (v : Nat) (a b : Fin 4) : Program (message v) a b ↔ (a = 0 ∧ b = 1) ∨ (a = 2 ∧ b = 3) := by
  constructor
  · intro h
    induction h with
    | sb h => exact h
    | trans _ _ h1 h2 => omega
  · exact fun h => Program.sb (show (message v).sb a b from h)

set_option synthInstance.maxSize 2048 in
set_option synthInstance.maxHeartbeats 200000 in
/-- **What was written before `stop` is not passed on**: `stop_requested` has returned true, and reading the data that was
written before `stop` is a data race (with the old value as a possible result). -/
theorem stop_data_race : ∃ x : Exec (Fin 4) Loc Nat, Uses x ∧ x.Consistent zero ∧
    x.act 0 = .write (.data 0) 42 ∧ x.act 1 = stop 0 ∧ x.sb 0 1 ∧ x.act 2 = requested 0 true ∧ x.sb 2 3 ∧
    x.act 3 = .read (.data 0) 0 ∧ x.Race 0 3 := by
  have hhb : (message 0).hb = fun a b => (a = 0 ∧ b = 1) ∨ (a = 2 ∧ b = 3) := by
    funext a b
    exact propext ((stop_orders_nothing (message_uses 0) a b).trans (message_program 0 a b))
  refine ⟨message 0, message_uses 0, ?_, rfl, rfl, by simp [message], rfl, by simp [message], rfl, ?_⟩
  · show (message 0).Coherent (message 0).hb zero
    rw [hhb]
    refine ⟨by decide, fun _ _ h => h.elim, fun _ h => h, fun _ _ _ h => h.elim, ?_, ?_, ?_, ?_, ?_, ?_, ?_, ?_, ?_, ?_, ?_⟩
      <;> simp only [message] <;> decide +kernel
  · refine ⟨by decide, ⟨rfl, .inl (by simp [message, Act.writes, Act.put])⟩, fun h => h.1, ?_, ?_⟩ <;>
      rw [hhb] <;> decide

/-- With an acquiring load the data would be passed on: the relaxed order of `stop_requested` is the reason. -/
theorem acquire_would_pass {E : Type} (x : Exec E Loc Nat) (a w q r : E) (s : Nat) (v : Nat) (haw : x.sb a w)
    (hw : x.act w = stop s) (hq : x.act q = .load .acquire (.flag s) v) (hrf : x.rf q = some w) (hqr : x.sb q r) :
    x.hb a r :=
  .trans (.sb haw) (.trans (.sw ⟨by rw [hw]; rfl, by rw [hq]; rfl, w, hrf, .head⟩) (.sb hqr))

end Guanaqo.Weak.Stop
