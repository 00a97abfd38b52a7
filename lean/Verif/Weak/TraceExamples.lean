import Verif.Weak.TraceProps
import Mathlib.Data.Fintype.Sigma

/-!
# Executions of `TraceLogger` that the memory model allows (C124)

Runs that meet the hypotheses of the theorems, and runs with data races.
-/

namespace Guanaqo.Weak.Trace

/-- The first access of call `c` with a property. -/
def Run.ev {C : Type} (r : Run C) (c : C) (p : Act Loc Nat → Bool) : Option r.Ev :=
  ((List.finRange (r.acts c).length).find? fun i => p (r.acts c)[i]).map fun i => ⟨c, i⟩

/-- An execution given by the position of the calls in the modification order, the call whose value of the counter is read,
and the calls whose writes of fields are read. -/
def Run.exec {C : Type} [DecidableEq C] (r : Run C) (pos : C → Nat) (from_ : C → Option C) (field : Loc → Option C) :
    Exec r.Ev Loc Nat where
  act e := (r.acts e.1)[e.2]
  sb a b := r.ord a.1 b.1 ∨ (a.1 = b.1 ∧ a.2.val < b.2.val)
  rf e :=
    match (r.acts e.1)[e.2] with
    | .read l _ => (field l).bind fun c => r.ev c fun a => decide (a.writes ∧ a.loc = l)
    | .load _ _ _ | .rmw _ _ _ _ => (from_ e.1).bind fun c => r.ev c fun a => decide (a.writes ∧ a.loc = .count)
    | _ => none
  mo a b := pos a.1 < pos b.1 ∧ ((r.acts a.1)[a.2].writes ∧ (r.acts a.1)[a.2].atomic) ∧
    (r.acts b.1)[b.2].writes ∧ (r.acts b.1)[b.2].atomic

theorem executes_of {C : Type} [DecidableEq C] {r : Run C} {pos : C → Nat} {from_ : C → Option C}
    {field : Loc → Option C} (hv : r.Valid)
    (hc : (r.exec pos from_ field).Coherent (r.exec pos from_ field).sb start0) : r.Executes (r.exec pos from_ field) := by
  have hrel : ∀ a b, ¬ (r.exec pos from_ field).sw a b := by
    intro a b h
    have h := h.1
    have hm : (r.exec pos from_ field).act a ∈ r.acts a.1 := List.getElem_mem _
    generalize (r.exec pos from_ field).act a = A at h hm
    rcases acts_cases hm with ⟨_, _, rfl⟩ | ⟨_, _, _, _, _, rfl⟩ | ⟨_, _, _, _, rfl⟩ | ⟨_, rfl⟩ | ⟨_, _, _, _, _, rfl⟩ |
      ⟨_, rfl⟩ <;> simp [Act.releases, Order.releases] at h
  have htr : ∀ a b c, (r.exec pos from_ field).sb a b → (r.exec pos from_ field).sb b c →
      (r.exec pos from_ field).sb a c := by
    rintro a b c (h1 | ⟨h1, h1'⟩) (h2 | ⟨h2, h2'⟩)
    · exact .inl (hv.trans _ _ _ h1 h2)
    · exact .inl (h2 ▸ h1)
    · exact .inl (h1.symm ▸ h2)
    · exact .inr ⟨h1.trans h2, by omega⟩
  have he : (r.exec pos from_ field).hb = (r.exec pos from_ field).sb := by
    funext a b
    exact propext (Exec.hb_eq_sb _ hrel htr)
  refine ⟨fun _ => rfl, fun _ _ => Iff.rfl, ?_⟩
  show Exec.Coherent _ (r.exec pos from_ field).hb _
  rw [he]
  exact hc

instance {C : Type} [DecidableEq C] (r : Run C) [∀ a b, Decidable (r.ord a b)] (pos : C → Nat) (f : C → Option C)
    (g : Loc → Option C) (a b : r.Ev) : Decidable ((r.exec pos f g).sb a b) := by
  unfold Run.exec; infer_instance

instance {C : Type} [DecidableEq C] (r : Run C) (pos : C → Nat) (f : C → Option C)
    (g : Loc → Option C) (a b : r.Ev) : Decidable ((r.exec pos f g).mo a b) := by
  unfold Run.exec; infer_instance

set_option synthInstance.maxSize 2048
set_option synthInstance.maxHeartbeats 200000

/-! ### An event whose record is read by another thread without synchronisation -/

/-- Thread A records an event, thread B calls `get_logs` and reads what it returns; nothing orders the two. `n` is what B
finds in the counter. -/
def reader (n : Nat) : Run (Fin 2) where
  cap := 1
  call c := if c = 0 then .trace fun _ => 7 else .logs
  ord _ _ := False
  old c := if c = 0 then 0 else n
  seen _ _ _ := 0

instance (n : Nat) : ∀ a b, Decidable ((reader n).ord a b) := fun _ _ => inferInstanceAs (Decidable False)

theorem reader_valid (n : Nat) : (reader n).Valid := by
  refine ⟨fun _ h => h, fun _ _ _ h => h.elim, ?_, ?_⟩
  · rintro c t ⟨d, h⟩
    simp only [reader] at h
    split at h <;> cases h
  · rintro c c' t ⟨d, h⟩
    simp only [reader] at h
    split at h <;> cases h

/-- B finds the event: allowed, and a data race. -/
theorem reader_race : ∃ (r : Run (Fin 2)) (x : Exec r.Ev Loc Nat), r.Valid ∧ r.NoReset ∧ r.Executes x ∧ ¬ x.RaceFree := by
  have hx : (reader 1).Executes ((reader 1).exec (fun c => c) (fun c => if c = 1 then some 0 else none) fun _ => none) :=
    executes_of (reader_valid 1) (by constructor <;> decide +kernel)
  refine ⟨_, _, reader_valid 1, ?_, hx, ?_⟩
  · intro c; simp only [reader]; split <;> simp
  · intro hr
    have := ((raceFree_iff (reader_valid 1) hx).1 hr).2.2.1 1 0 rfl ⟨_, rfl⟩ (by decide)
    exact this.elim id id

/-- B finds nothing, although the event may be over: allowed as well. -/
theorem reader_stale : ∃ (r : Run (Fin 2)) (x : Exec r.Ev Loc Nat), r.Valid ∧ r.NoReset ∧ r.Executes x ∧ x.RaceFree ∧
    r.isTrace 0 ∧ r.call 1 = .logs ∧ r.old 1 = 0 := by
  have hx : (reader 0).Executes ((reader 0).exec (fun c => c) (fun _ => none) fun _ => none) :=
    executes_of (reader_valid 0) (by constructor <;> decide +kernel)
  have h0 : (reader 0).NoReset := by intro c; simp only [reader]; split <;> simp
  refine ⟨_, _, reader_valid 0, h0, hx, ?_, ⟨_, rfl⟩, rfl, rfl⟩
  refine (reading_raceFree_iff (reader_valid 0) hx (by decide) h0).2 ?_
  intro l d hl _ hlt
  have : l = 1 := by
    simp only [reader] at hl
    by_contra hne
    rw [if_pos (by omega)] at hl
    cases hl
  subst this
  exact absurd hlt (by simp [reader])

/-! ### `reset` while events are recorded -/

/-- Two events of different threads and a `reset` of a third one. -/
def busy : Run (Fin 3) where
  cap := 1
  call c := if c = 1 then .reset else .trace fun _ => 7
  ord _ _ := False
  old _ := 0
  seen _ _ _ := 0

instance : ∀ a b, Decidable (busy.ord a b) := fun _ _ => inferInstanceAs (Decidable False)

theorem busy_valid : busy.Valid := by
  refine ⟨fun _ h => h, fun _ _ _ h => h.elim, ?_, ?_⟩
  · rintro c t ⟨d, h⟩
    simp only [busy] at h
    split at h <;> cases h
  · rintro c c' t ⟨d, h⟩
    simp only [busy] at h
    split at h <;> cases h

/-- Both events get the first record, and race for it. -/
theorem reset_race : ∃ (r : Run (Fin 3)) (x : Exec r.Ev Loc Nat), r.Valid ∧ r.Executes x ∧ (∀ c, r.call c ≠ .logs) ∧
    ¬ x.RaceFree := by
  have hx : busy.Executes (busy.exec (fun c => c) (fun c => if c = 2 then some 1 else none) fun _ => none) :=
    executes_of busy_valid (by constructor <;> decide +kernel)
  refine ⟨_, _, busy_valid, hx, ?_, ?_⟩
  · intro c; simp only [busy]; split <;> simp
  · intro hr
    have := ((raceFree_iff busy_valid hx).1 hr).1 0 2 ⟨_, rfl⟩ ⟨_, rfl⟩ (by decide) rfl (by decide)
    exact this.elim id id

/-! ### A run that meets all hypotheses -/

/-- Two threads record an event each (calls 0 and 1, the first ended by call 2), are joined, and then the records are read
(3). The event of the second thread comes first in the modification order. -/
def joined : Run (Fin 4) where
  cap := 2
  call c := match c with
    | 0 => .trace fun _ => 7
    | 1 => .trace fun _ => 8
    | 2 => .close 0 5
    | 3 => .logs
  ord a b := (a = 0 ∧ b = 2) ∨ (a ≠ 3 ∧ b = 3)
  old c := match c with
    | 0 => 1
    | 1 => 0
    | 2 => 0
    | 3 => 2
  seen _ i f := if i = 0 then (if f = .dur then 0 else 8) else (if f = .dur then 5 else 7)

instance : ∀ a b, Decidable (joined.ord a b) := fun a b => by unfold joined; infer_instance

theorem joined_closes {c t : Fin 4} (h : joined.closes c t) : c = 2 ∧ t = 0 := by
  obtain ⟨d, h⟩ := h
  match c, h with
  | 0, h | 1, h | 3, h => cases h
  | 2, h => cases h; exact ⟨rfl, rfl⟩

theorem joined_valid : joined.Valid := by
  refine ⟨by decide, by decide, ?_, ?_⟩
  · rintro c t h
    obtain ⟨rfl, rfl⟩ := joined_closes h
    exact ⟨⟨_, rfl⟩, by decide⟩
  · intro c c' t h h'
    rw [(joined_closes h).1, (joined_closes h').1]

def joinedExec : Exec joined.Ev Loc Nat :=
  joined.exec (fun c => if c = 1 then 0 else 1) (fun c => match c with | 0 => some 1 | 3 => some 0 | _ => none) fun l =>
    match l with
    | .fld 0 .dur => none
    | .fld 0 _ => some 1
    | .fld _ .dur => some 2
    | .fld _ _ => some 0
    | .count => none

theorem joined_executes : joined.Executes joinedExec := executes_of joined_valid (by constructor <;> decide +kernel)

theorem joined_noReset : joined.NoReset := by
  intro c h
  match c, h with
  | 0, h | 1, h | 2, h | 3, h => cases h

example : joinedExec.RaceFree :=
  recording_raceFree joined_valid joined_executes (by decide) (NoReset.quiet joined_noReset) (by
    intro l c hl hc
    have h3 : l = 3 := by
      match l, hl with
      | 0, h | 1, h | 2, h => cases h
      | 3, _ => rfl
    subst h3
    refine .inl (.inr ⟨?_, rfl⟩)
    rintro rfl
    rcases hc with ⟨_, h⟩ | ⟨t, _, h⟩ <;> cases h)

end Guanaqo.Weak.Trace
