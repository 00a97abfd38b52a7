import Verif.Trace.Props

/-!
# C61 for every schedule, with `reset` at any time and any number of events

The steps of the schedule are still taken one at a time: where two events have been given the same record (after a `reset`
while one of them is in progress), their plain writes may race in C++, which is outside of the model.
-/

namespace Guanaqo.Trace

/-! ## Specification: who wrote what last -/

structure Who where
  /-- how many events have started since the last `reset` -/
  started : Nat := 0
  /-- the record that an event was given -/
  slot : Nat → Option Nat := fun _ => none
  /-- how many of the fields name, instance, operations, start and thread an event has written -/
  wrote : Nat → Nat := fun _ => 0
  /-- the event whose scope a `ScopedLog` holds -/
  held : Nat → Option Nat := fun _ => none
  /-- for a record and a field (number 5 is the duration): the event that wrote it last -/
  last : Nat → Nat → Option Nat := fun _ _ => none

/-- Event `e` writes field `f` of the record it was given. -/
def Who.writes (w : Who) (e f : Nat) : Nat → Nat → Option Nat :=
  fun i f' => if w.slot e = some i ∧ f' = f then some e else w.last i f'

/-- An event is given the next record, if there is one (the counter has 64 bits); it writes its fields one after the other,
and the `ScopedLog` that holds it at the end writes the duration. -/
def Who.step (cap : Nat) (w : Who) : Act → Who
  | .call _ _ => w
  | .fetch e =>
    { w with started := w.started + 1,
             slot := upd w.slot e (if w.started % 2 ^ 64 < cap then some (w.started % 2 ^ 64) else none) }
  | .now _ _ => w
  | .write e => { w with last := w.writes e (w.wrote e), wrote := upd w.wrote e (w.wrote e + 1) }
  | .ret e => { w with held := upd w.held e (some e) }
  | .move a b => { w with held := upd (upd w.held a none) b (w.held a) }
  | .close o _ =>
    match w.held o with
    | some e => { w with last := w.writes e 5, held := upd w.held o none }
    | none => w
  | .reset => { w with started := 0 }

def who (cap : Nat) (xs : List Act) : Who := xs.foldl (Who.step cap) {}

/-- What the last event that wrote field `f` of record `i` wrote there, if any did. -/
def lastVal {α : Type} (h : Hist) (w : Who) (i f : Nat) (none' : α) (g : Ev → α) : α :=
  match (w.last i f).bind h.ev with
  | some x => g x
  | none => none'

/-- Record `i`, field by field. -/
def lastRecord (t0 : Int) (h : Hist) (w : Who) (i : Nat) : Log :=
  { name := lastVal h w i 0 "" fun x => x.args.name
    inst := lastVal h w i 1 0 fun x => x.args.inst
    flop := lastVal h w i 2 0 fun x => x.args.flop
    start := lastVal h w i 3 0 fun x => x.start.getD 0 - t0
    tid := lastVal h w i 4 0 fun x => x.args.tid
    duration := lastVal h w i 5 0 fun x => x.close.getD 0 - x.start.getD 0 }

/-! ## Proof -/

/-- Nothing that an event has written changes any more. -/
structure Ev.Le (x y : Ev) : Prop where
  args : y.args = x.args
  start : ∀ t, x.start = some t → y.start = some t
  close : ∀ t, x.close = some t → y.close = some t

theorem Ev.Le.refl (x : Ev) : Ev.Le x x := ⟨rfl, fun _ h => h, fun _ h => h⟩

/-- Event `x` has written field `f` of the record `l`. -/
def Wrote (t0 : Int) (x : Ev) (l : Log) : Nat → Prop
  | 0 => l.name = x.args.name
  | 1 => l.inst = x.args.inst
  | 2 => l.flop = x.args.flop
  | 3 => ∃ t, x.start = some t ∧ l.start = t - t0
  | 4 => l.tid = x.args.tid
  | 5 => ∃ t t', x.start = some t ∧ x.close = some t' ∧ l.duration = t' - t
  | _ => True

/-- Nobody has written field `f`. -/
def Unwritten (l : Log) : Nat → Prop
  | 0 => l.name = ""
  | 1 => l.inst = 0
  | 2 => l.flop = 0
  | 3 => l.start = 0
  | 4 => l.tid = 0
  | 5 => l.duration = 0
  | _ => True

theorem Wrote.mono {t0 : Int} {x y : Ev} {l : Log} (hxy : x.Le y) : ∀ f, Wrote t0 x l f → Wrote t0 y l f
  | 0 => fun h => by rw [Wrote, hxy.args]; exact h
  | 1 => fun h => by rw [Wrote, hxy.args]; exact h
  | 2 => fun h => by rw [Wrote, hxy.args]; exact h
  | 3 => fun ⟨t, h1, h2⟩ => ⟨t, hxy.start t h1, h2⟩
  | 4 => fun h => by rw [Wrote, hxy.args]; exact h
  | 5 => fun ⟨t, t', h1, h2, h3⟩ => ⟨t, t', hxy.start t h1, hxy.close t' h2, h3⟩
  | _ + 6 => fun _ => trivial

/-- Field `f` of record `l` is as the last event that wrote it left it. -/
def FieldOk (t0 : Int) (h : Hist) (l : Log) (f : Nat) : Option Nat → Prop
  | none => Unwritten l f
  | some e => ∃ x, h.ev e = some x ∧ Wrote t0 x l f

structure Inv2 (cap : Nat) (t0 : Int) (s : St) (h : Hist) (w : Who) : Prop where
  len : s.logs.length = cap
  t0eq : s.t0 = t0
  cnt : s.count = w.started % 2 ^ 64
  fresh : ∀ e, s.pc e = none → h.ev e = none ∧ w.slot e = none ∧ w.wrote e = 0
  called : ∀ e a, s.pc e = some (.called a) → h.ev e = some { args := a } ∧ w.slot e = none ∧ w.wrote e = 0
  fetched : ∀ e a i, s.pc e = some (.fetched a i) → h.ev e = some { args := a } ∧ w.slot e = some i ∧ i < cap ∧ w.wrote e = 0
  writing : ∀ e a i t k, s.pc e = some (.writing a i t k) → h.ev e = some { args := a, start := some t } ∧ w.slot e = some i ∧
    i < cap ∧ w.wrote e = k
  obj : ∀ o i t, s.objs o = some ⟨some i, t⟩ → ∃ e x, w.held o = some e ∧ w.slot e = some i ∧ i < cap ∧ h.ev e = some x ∧
    x.start = some t ∧ x.holder = some o
  noobj : ∀ o, (∀ i t, s.objs o ≠ some ⟨some i, t⟩) → w.held o = none
  holder : ∀ e x o, h.ev e = some x → x.holder = some o → w.held o = some e ∧ x.close = none
  held : ∀ o e, w.held o = some e → s.pc e = some .done
  objpc : ∀ o, s.objs o ≠ none → s.pc o = some .done
  rec' : ∀ i l, s.logs[i]? = some l → ∀ f, FieldOk t0 h l f (w.last i f)

theorem init_inv2 (cap : Nat) (t0 : Int) : Inv2 cap t0 (init cap t0) {} {} := by
  constructor <;> first | rfl | (intros; simp_all [init]; done) | skip
  · intro i l hl f
    have : l = {} := by
      simp only [init] at hl
      rw [List.getElem?_replicate] at hl
      split at hl
      · cases hl; rfl
      · cases hl
    subst this
    show Unwritten _ f
    match f with
    | 0 | 1 | 2 | 3 | 4 | 5 => rfl
    | _ + 6 => trivial

/-- The records are not touched, and nothing written changes. -/
theorem fields_mono {t0 : Int} {h h' : Hist} {l : Log} (hh : ∀ e x, h.ev e = some x → ∃ y, h'.ev e = some y ∧ x.Le y)
    {f : Nat} : ∀ {o : Option Nat}, FieldOk t0 h l f o → FieldOk t0 h' l f o
  | none => id
  | some e => fun ⟨x, h1, h2⟩ => let ⟨y, h3, h4⟩ := hh e x h1; ⟨y, h3, h2.mono h4⟩

variable {cap : Nat} {t0 : Int} {s : St} {h : Hist} {w : Who}

theorem inv2_call (hI : Inv2 cap t0 s h w) (e : Nat) (a : Args) :
    ∀ r, step s (.call e a) = r → r = .disabled ∨ ∃ s', r = .ok s' ∧ Inv2 cap t0 s' (h.step (.call e a)) (w.step cap (.call e a)) := by
  rintro r rfl
  simp only [step]
  split
  case h_2 => exact .inl rfl
  rename_i hpc hobj
  obtain ⟨f1, f2, f3⟩ := hI.fresh e hpc
  refine .inr ⟨_, rfl, ?_⟩
  have old : ∀ {e' x}, h.ev e' = some x → upd h.ev e (some { args := a }) e' = some x := by
    intro e' x hx
    rw [upd_ne _ _ (by rintro rfl; rw [f1] at hx; cases hx)]; exact hx
  have pcne : ∀ {e' p}, upd s.pc e (some (.called a)) e' = p → p ≠ some (.called a) → s.pc e' = p := by
    intro e' p hp hne
    by_cases he : e' = e
    · subst he; rw [upd_same] at hp; exact absurd hp.symm hne
    · rwa [upd_ne _ _ he] at hp
  constructor
  · exact hI.len
  · exact hI.t0eq
  · exact hI.cnt
  · intro e' he'
    have k := pcne he' (by simp)
    have : e' ≠ e := by rintro rfl; dsimp only at he'; rw [upd_same] at he'; cases he'
    obtain ⟨k1, k2⟩ := hI.fresh e' k
    exact ⟨by simp only [Hist.step]; rw [upd_ne _ _ this]; exact k1, k2⟩
  · intro e' a' he'
    by_cases he : e' = e
    · subst he; dsimp only at he'; rw [upd_same] at he'; cases he'
      exact ⟨by simp only [Hist.step]; rw [upd_same], f2, f3⟩
    · dsimp only at he'; rw [upd_ne _ _ he] at he'
      obtain ⟨k1, k2⟩ := hI.called e' a' he'
      exact ⟨old k1, k2⟩
  · intro e' a' i he'
    obtain ⟨k1, k2⟩ := hI.fetched e' a' i (pcne he' (by simp))
    exact ⟨old k1, k2⟩
  · intro e' a' i t k he'
    obtain ⟨k1, k2⟩ := hI.writing e' a' i t k (pcne he' (by simp))
    exact ⟨old k1, k2⟩
  · intro o i t ho
    obtain ⟨e', x, k1, k2, k3, k4, k5⟩ := hI.obj o i t ho
    exact ⟨e', x, k1, k2, k3, old k4, k5⟩
  · exact hI.noobj
  · intro e' x o hx hh
    by_cases he : e' = e
    · subst he; simp only [Hist.step] at hx; rw [upd_same] at hx; cases hx; cases hh
    · simp only [Hist.step] at hx; rw [upd_ne _ _ he] at hx; exact hI.holder e' x o hx hh
  · intro o e' ho
    have k := hI.held o e' ho
    dsimp only
    rw [upd_ne _ _ (by rintro rfl; rw [hpc] at k; cases k)]; exact k
  · intro o ho
    have k := hI.objpc o ho
    dsimp only
    rw [upd_ne _ _ (by rintro rfl; rw [hpc] at k; cases k)]; exact k
  · intro i l hl f
    exact fields_mono (fun e' x hx => ⟨x, old hx, Ev.Le.refl x⟩) (hI.rec' i l hl f)

theorem inv2_fetch (hI : Inv2 cap t0 s h w) (e : Nat) :
    ∀ r, step s (.fetch e) = r → r = .disabled ∨ ∃ s', r = .ok s' ∧ Inv2 cap t0 s' (h.step (.fetch e)) (w.step cap (.fetch e)) := by
  rintro r rfl
  simp only [step]
  split
  case h_2 => exact .inl rfl
  rename_i a hpc
  obtain ⟨c1, c2, c3⟩ := hI.called e a hpc
  have hcnt : (s.count + 1) % 2 ^ 64 = (w.started + 1) % 2 ^ 64 := by rw [hI.cnt]; omega
  have slot_other : ∀ {e'} (v : Option Nat), s.pc e' ≠ some (.called a) → upd w.slot e v e' = w.slot e' := by
    intro e' v hne
    rw [upd_ne _ _ (by rintro rfl; exact hne hpc)]
  have heldne : ∀ {o e'}, w.held o = some e' → e' ≠ e := by
    rintro o e' ho rfl
    rw [hI.held o e' ho] at hpc; cases hpc
  have objne : ∀ o, s.objs o ≠ none → o ≠ e := by
    rintro o ho rfl
    rw [hI.objpc o ho] at hpc; cases hpc
  split
  · rename_i hge
    have hge' : ¬ w.started % 2 ^ 64 < cap := by rw [← hI.cnt, ← hI.len]; exact Nat.not_lt.2 hge
    refine .inr ⟨_, rfl, ?_⟩
    simp only [Who.step, Hist.step, if_neg hge']
    have pcne : ∀ {e' p}, upd s.pc e (some Pc.done) e' = p → p ≠ some .done → s.pc e' = p ∧ e' ≠ e := by
      intro e' p hp hne
      by_cases he : e' = e
      · subst he; rw [upd_same] at hp; exact absurd hp.symm hne
      · rw [upd_ne _ _ he] at hp; exact ⟨hp, he⟩
    constructor
    · exact hI.len
    · exact hI.t0eq
    · exact hcnt
    · intro e' he'
      obtain ⟨k, ke⟩ := pcne he' (by simp)
      dsimp only; rw [upd_ne _ _ ke]; exact hI.fresh e' k
    · intro e' a' he'
      obtain ⟨k, ke⟩ := pcne he' (by simp)
      dsimp only; rw [upd_ne _ _ ke]; exact hI.called e' a' k
    · intro e' a' i he'
      obtain ⟨k, ke⟩ := pcne he' (by simp)
      dsimp only; rw [upd_ne _ _ ke]; exact hI.fetched e' a' i k
    · intro e' a' i t k he'
      obtain ⟨k, ke⟩ := pcne he' (by simp)
      dsimp only; rw [upd_ne _ _ ke]; exact hI.writing e' a' i t _ k
    · intro o i t ho
      have hoe : o ≠ e := by rintro rfl; dsimp only at ho; rw [upd_same] at ho; cases ho
      dsimp only at ho ⊢; rw [upd_ne _ _ hoe] at ho
      obtain ⟨e', x, k1, k2, k3⟩ := hI.obj o i t ho
      exact ⟨e', x, k1, by rw [upd_ne _ _ (heldne k1)]; exact k2, k3⟩
    · intro o ho
      refine hI.noobj o fun i t hs => ho i t ?_
      dsimp only; rw [upd_ne _ _ (objne o (by rw [hs]; simp))]; exact hs
    · exact hI.holder
    · intro o e' ho
      have k := hI.held o e' ho
      dsimp only; rw [upd_ne _ _ (heldne ho)]; exact k
    · intro o ho
      by_cases he : o = e
      · subst he; dsimp only; rw [upd_same]
      · dsimp only at ho ⊢; rw [upd_ne _ _ he] at ho ⊢; exact hI.objpc o ho
    · exact hI.rec'
  · rename_i hlt
    have hlt' : w.started % 2 ^ 64 < cap := by rw [← hI.cnt, ← hI.len]; exact Nat.not_le.1 hlt
    refine .inr ⟨_, rfl, ?_⟩
    simp only [Who.step, Hist.step, if_pos hlt']
    have pcne : ∀ {e' p}, upd s.pc e (some (Pc.fetched a s.count)) e' = p → p ≠ some (.fetched a s.count) → s.pc e' = p ∧ e' ≠ e := by
      intro e' p hp hne
      by_cases he : e' = e
      · subst he; rw [upd_same] at hp; exact absurd hp.symm hne
      · rw [upd_ne _ _ he] at hp; exact ⟨hp, he⟩
    constructor
    · exact hI.len
    · exact hI.t0eq
    · exact hcnt
    · intro e' he'
      obtain ⟨k, ke⟩ := pcne he' (by simp)
      dsimp only; rw [upd_ne _ _ ke]; exact hI.fresh e' k
    · intro e' a' he'
      obtain ⟨k, ke⟩ := pcne he' (by simp)
      dsimp only; rw [upd_ne _ _ ke]; exact hI.called e' a' k
    · intro e' a' i he'
      by_cases he : e' = e
      · subst he; dsimp only at he'; rw [upd_same] at he'; cases he'
        dsimp only; rw [upd_same, hI.cnt]
        exact ⟨c1, rfl, hlt', c3⟩
      · dsimp only at he' ⊢; rw [upd_ne _ _ he] at he' ⊢; exact hI.fetched e' a' i he'
    · intro e' a' i t k he'
      obtain ⟨k, ke⟩ := pcne he' (by simp)
      dsimp only; rw [upd_ne _ _ ke]; exact hI.writing e' a' i t _ k
    · intro o i t ho
      obtain ⟨e', x, k1, k2, k3⟩ := hI.obj o i t ho
      exact ⟨e', x, k1, by dsimp only; rw [upd_ne _ _ (heldne k1)]; exact k2, k3⟩
    · exact hI.noobj
    · exact hI.holder
    · intro o e' ho
      have k := hI.held o e' ho
      dsimp only; rw [upd_ne _ _ (heldne ho)]; exact k
    · intro o ho
      have k := hI.objpc o ho
      dsimp only; rw [upd_ne _ _ (objne o ho)]; exact k
    · exact hI.rec'

theorem inv2_now (hI : Inv2 cap t0 s h w) (e : Nat) (t : Int) :
    ∀ r, step s (.now e t) = r → r = .disabled ∨ ∃ s', r = .ok s' ∧ Inv2 cap t0 s' (h.step (.now e t)) (w.step cap (.now e t)) := by
  rintro r rfl
  simp only [step]
  split
  case h_2 => exact .inl rfl
  rename_i a i hpc
  obtain ⟨c1, c2, c3, c4⟩ := hI.fetched e a i hpc
  refine .inr ⟨_, rfl, ?_⟩
  simp only [Who.step, Hist.step, Hist.mod, c1, Option.map_some]
  have pcne : ∀ {e' p}, upd s.pc e (some (Pc.writing a i t 0)) e' = p → p ≠ some (.writing a i t 0) → s.pc e' = p ∧ e' ≠ e := by
    intro e' p hp hne
    by_cases he : e' = e
    · subst he; rw [upd_same] at hp; exact absurd hp.symm hne
    · rw [upd_ne _ _ he] at hp; exact ⟨hp, he⟩
  constructor
  · exact hI.len
  · exact hI.t0eq
  · exact hI.cnt
  · intro e' he'
    obtain ⟨k, ke⟩ := pcne he' (by simp)
    dsimp only; rw [upd_ne _ _ ke]; exact hI.fresh e' k
  · intro e' a' he'
    obtain ⟨k, ke⟩ := pcne he' (by simp)
    dsimp only; rw [upd_ne _ _ ke]; exact hI.called e' a' k
  · intro e' a' i he'
    obtain ⟨k, ke⟩ := pcne he' (by simp)
    dsimp only; rw [upd_ne _ _ ke]; exact hI.fetched e' a' i k
  · intro e' a' i' t' k he'
    by_cases he : e' = e
    · subst he; dsimp only at he'; rw [upd_same] at he'; cases he'
      dsimp only; rw [upd_same]
      exact ⟨rfl, c2, c3, c4⟩
    · dsimp only at he' ⊢; rw [upd_ne _ _ he] at he' ⊢; exact hI.writing e' a' i' t' k he'
  · intro o i' t' ho
    obtain ⟨e', x, k1, k2, k3, k4, k5, k6⟩ := hI.obj o i' t' ho
    refine ⟨e', x, k1, k2, k3, ?_, k5, k6⟩
    dsimp only
    rw [upd_ne _ _ (by rintro rfl; rw [c1] at k4; cases k4; cases k6)]; exact k4
  · exact hI.noobj
  · intro e' x o hx hh
    by_cases he : e' = e
    · subst he; dsimp only at hx; rw [upd_same] at hx; cases hx; cases hh
    · dsimp only at hx; rw [upd_ne _ _ he] at hx; exact hI.holder e' x o hx hh
  · intro o e' ho
    have k := hI.held o e' ho
    dsimp only; rw [upd_ne _ _ (by rintro rfl; rw [hpc] at k; cases k)]; exact k
  · intro o ho
    have k := hI.objpc o ho
    dsimp only; rw [upd_ne _ _ (by rintro rfl; rw [hpc] at k; cases k)]; exact k
  · intro i' l hl f
    refine fields_mono (fun e' x hx => ?_) (hI.rec' i' l hl f)
    by_cases he : e' = e
    · subst he; rw [c1] at hx; cases hx
      exact ⟨{ args := a, start := some t }, by dsimp only; rw [upd_same], rfl, fun t h => (by cases h), fun t h => (by cases h)⟩
    · exact ⟨x, by dsimp only; rw [upd_ne _ _ he]; exact hx, Ev.Le.refl x⟩

/-- A write of one field leaves the others. -/
theorem writeField_wrote (t0 : Int) (a : Args) (t : Int) (l : Log) {k : Nat} (hk : k < 5) :
    Wrote t0 { args := a, start := some t } (writeField t0 a t l k) k ∧
    ∀ f ≠ k, (∀ x, Wrote t0 x l f → Wrote t0 x (writeField t0 a t l k) f) ∧ (Unwritten l f → Unwritten (writeField t0 a t l k) f) := by
  match k, hk with
  | 0, _ | 1, _ | 2, _ | 3, _ | 4, _ =>
    refine ⟨by first | rfl | exact ⟨t, rfl, rfl⟩, fun f hf => ?_⟩
    match f, hf with
    | 0, hf | 1, hf | 2, hf | 3, hf | 4, hf | 5, hf | _ + 6, hf =>
      first
      | exact absurd rfl hf
      | exact ⟨fun _ h => h, fun h => h⟩

theorem inv2_write (hI : Inv2 cap t0 s h w) (e : Nat) :
    ∀ r, step s (.write e) = r → r = .disabled ∨ ∃ s', r = .ok s' ∧ Inv2 cap t0 s' (h.step (.write e)) (w.step cap (.write e)) := by
  rintro r rfl
  simp only [step]
  split
  case h_2 => exact .inl rfl
  rename_i a i t k hpc
  obtain ⟨c1, c2, c3, c4⟩ := hI.writing e a i t k hpc
  split
  case isFalse => exact .inl rfl
  rename_i hk
  obtain ⟨l0, hl0⟩ : ∃ l, s.logs[i]? = some l := ⟨_, List.getElem?_eq_getElem (by rw [hI.len]; exact c3)⟩
  simp only [setLog, hl0]
  refine .inr ⟨_, rfl, ?_⟩
  simp only [Who.step, Hist.step]
  have pcne : ∀ {e' p}, upd s.pc e (some (Pc.writing a i t (k + 1))) e' = p → p ≠ some (.writing a i t (k + 1)) → s.pc e' = p ∧ e' ≠ e := by
    intro e' p hp hne
    by_cases he : e' = e
    · subst he; rw [upd_same] at hp; exact absurd hp.symm hne
    · rw [upd_ne _ _ he] at hp; exact ⟨hp, he⟩
  constructor
  · dsimp only; rw [List.length_set]; exact hI.len
  · exact hI.t0eq
  · exact hI.cnt
  · intro e' he'
    obtain ⟨k, ke⟩ := pcne he' (by simp)
    dsimp only; rw [upd_ne _ _ ke]; exact hI.fresh e' k
  · intro e' a' he'
    obtain ⟨k, ke⟩ := pcne he' (by simp)
    dsimp only; rw [upd_ne _ _ ke]; exact hI.called e' a' k
  · intro e' a' i he'
    obtain ⟨k, ke⟩ := pcne he' (by simp)
    dsimp only; rw [upd_ne _ _ ke]; exact hI.fetched e' a' i k
  · intro e' a' i' t' k' he'
    by_cases he : e' = e
    · subst he; dsimp only at he'; rw [upd_same] at he'; cases he'
      dsimp only; rw [upd_same]
      exact ⟨c1, c2, c3, by rw [c4]⟩
    · dsimp only at he' ⊢; rw [upd_ne _ _ he] at he' ⊢; exact hI.writing e' a' i' t' k' he'
  · exact hI.obj
  · exact hI.noobj
  · exact hI.holder
  · intro o e' ho
    have k := hI.held o e' ho
    dsimp only; rw [upd_ne _ _ (by rintro rfl; rw [hpc] at k; cases k)]; exact k
  · intro o ho
    have k := hI.objpc o ho
    dsimp only; rw [upd_ne _ _ (by rintro rfl; rw [hpc] at k; cases k)]; exact k
  · intro i' l hl f
    have h0 := hI.t0eq
    obtain ⟨w1, w2⟩ := writeField_wrote t0 a t l0 hk
    dsimp only at hl ⊢
    rw [c4]
    by_cases hi : i' = i
    · subst hi
      rw [List.getElem?_set_self (by rw [hI.len]; exact c3)] at hl
      cases hl
      rw [h0]
      by_cases hf : f = k
      · subst hf
        simp only [Who.writes, c2, and_self, if_true]
        exact ⟨_, c1, w1⟩
      · simp only [Who.writes, hf, and_false, if_false]
        have old := hI.rec' i' l0 hl0 f
        cases hlast : w.last i' f with
        | none => rw [hlast] at old; exact (w2 f hf).2 old
        | some e' =>
          rw [hlast] at old
          obtain ⟨x, o1, o2⟩ := old
          exact ⟨x, o1, (w2 f hf).1 x o2⟩
    · rw [List.getElem?_set_ne (Ne.symm hi)] at hl
      have : ¬ (some i = some i' ∧ f = k) := fun hc => hi (Option.some.inj hc.1).symm
      simp only [Who.writes, c2, if_neg this]
      exact hI.rec' i' l hl f

theorem inv2_ret (hI : Inv2 cap t0 s h w) (e : Nat) :
    ∀ r, step s (.ret e) = r → r = .disabled ∨ ∃ s', r = .ok s' ∧ Inv2 cap t0 s' (h.step (.ret e)) (w.step cap (.ret e)) := by
  rintro r rfl
  simp only [step]
  split
  case h_2 => exact .inl rfl
  rename_i a i t hpc
  obtain ⟨c1, c2, c3, c4⟩ := hI.writing e a i t 5 hpc
  have objne : ∀ o, s.objs o ≠ none → o ≠ e := by
    rintro o ho rfl
    rw [hI.objpc o ho] at hpc; cases hpc
  have heldne : ∀ {o e'}, w.held o = some e' → o ≠ e ∧ e' ≠ e := by
    intro o e' ho
    constructor
    · rintro rfl
      have : w.held o = none := by
        refine hI.noobj o fun i t hs => ?_
        exact objne o (by rw [hs]; simp) rfl
      rw [this] at ho; cases ho
    · rintro rfl
      rw [hI.held o e' ho] at hpc; cases hpc
  refine .inr ⟨_, rfl, ?_⟩
  simp only [Who.step, Hist.step, Hist.mod, c1, Option.map_some]
  have pcne : ∀ {e' p}, upd s.pc e (some Pc.done) e' = p → p ≠ some .done → s.pc e' = p ∧ e' ≠ e := by
    intro e' p hp hne
    by_cases he : e' = e
    · subst he; rw [upd_same] at hp; exact absurd hp.symm hne
    · rw [upd_ne _ _ he] at hp; exact ⟨hp, he⟩
  constructor
  · exact hI.len
  · exact hI.t0eq
  · exact hI.cnt
  · intro e' he'
    obtain ⟨k, ke⟩ := pcne he' (by simp)
    dsimp only; rw [upd_ne _ _ ke]; exact hI.fresh e' k
  · intro e' a' he'
    obtain ⟨k, ke⟩ := pcne he' (by simp)
    dsimp only; rw [upd_ne _ _ ke]; exact hI.called e' a' k
  · intro e' a' i he'
    obtain ⟨k, ke⟩ := pcne he' (by simp)
    dsimp only; rw [upd_ne _ _ ke]; exact hI.fetched e' a' i k
  · intro e' a' i' t' k' he'
    obtain ⟨k, ke⟩ := pcne he' (by simp)
    dsimp only; rw [upd_ne _ _ ke]; exact hI.writing e' a' i' t' k' k
  · intro o i' t' ho
    by_cases hoe : o = e
    · subst hoe; dsimp only at ho; rw [upd_same] at ho; cases ho
      refine ⟨o, { args := a, start := some t, holder := some o }, ?_, c2, c3, ?_, rfl, rfl⟩
      · dsimp only; rw [upd_same]
      · dsimp only; rw [upd_same]
    · dsimp only at ho; rw [upd_ne _ _ hoe] at ho
      obtain ⟨e', x, k1, k2, k3, k4, k5⟩ := hI.obj o i' t' ho
      exact ⟨e', x, by dsimp only; rw [upd_ne _ _ hoe]; exact k1, k2, k3,
        by dsimp only; rw [upd_ne _ _ (heldne k1).2]; exact k4, k5⟩
  · intro o ho
    have hoe : o ≠ e := by rintro rfl; exact ho i t (by dsimp only; rw [upd_same])
    dsimp only; rw [upd_ne _ _ hoe]
    refine hI.noobj o fun i t hs => ho i t ?_
    dsimp only; rw [upd_ne _ _ hoe]; exact hs
  · intro e' x o hx hh
    by_cases he : e' = e
    · subst he; dsimp only at hx; rw [upd_same] at hx; cases hx; cases hh
      exact ⟨by dsimp only; rw [upd_same], rfl⟩
    · dsimp only at hx; rw [upd_ne _ _ he] at hx
      obtain ⟨k1, k2⟩ := hI.holder e' x o hx hh
      exact ⟨by dsimp only; rw [upd_ne _ _ (heldne k1).1]; exact k1, k2⟩
  · intro o e' ho
    by_cases hoe : o = e
    · subst hoe; dsimp only at ho; rw [upd_same] at ho; cases ho
      dsimp only; rw [upd_same]
    · dsimp only at ho; rw [upd_ne _ _ hoe] at ho
      dsimp only; rw [upd_ne _ _ (heldne ho).2]; exact hI.held o e' ho
  · intro o ho
    by_cases hoe : o = e
    · subst hoe; dsimp only; rw [upd_same]
    · dsimp only at ho ⊢; rw [upd_ne _ _ hoe] at ho ⊢; exact hI.objpc o ho
  · intro i' l hl f
    refine fields_mono (fun e' x hx => ?_) (hI.rec' i' l hl f)
    by_cases he : e' = e
    · subst he; rw [c1] at hx; cases hx
      exact ⟨{ args := a, start := some t, holder := some e' }, by dsimp only; rw [upd_same], rfl, fun t h => h, fun t h => h⟩
    · exact ⟨x, by dsimp only; rw [upd_ne _ _ he]; exact hx, Ev.Le.refl x⟩

theorem moved_args (a b : Nat) (x : Ev) : (x.moved a b).args = x.args ∧ (x.moved a b).start = x.start ∧ (x.moved a b).close = x.close := by
  unfold Ev.moved; split <;> exact ⟨rfl, rfl, rfl⟩

/-- Events without a holder are not moved. -/
theorem map_moved {h : Hist} {e a b : Nat} {x : Ev} (hx : h.ev e = some x) (hn : x.holder = none) :
    (h.ev e).map (Ev.moved a b) = some x := by
  rw [hx]; simp [Ev.moved, hn]

theorem map_closed {h : Hist} {e o : Nat} {t : Int} {x : Ev} (hx : h.ev e = some x) (hn : x.holder = none) :
    (h.ev e).map (Ev.closed o t) = some x := by
  rw [hx]; simp [Ev.closed, hn]

theorem inv2_move (hI : Inv2 cap t0 s h w) (a b : Nat) :
    ∀ r, step s (.move a b) = r → r = .disabled ∨ ∃ s', r = .ok s' ∧ Inv2 cap t0 s' (h.step (.move a b)) (w.step cap (.move a b)) := by
  rintro r rfl
  simp only [step]
  split
  case h_2 => exact .inl rfl
  rename_i x0 ha hb hpc
  have hab : a ≠ b := by rintro rfl; rw [ha] at hb; cases hb
  have hheldb : w.held b = none := hI.noobj b fun i t => by rw [hb]; simp
  refine .inr ⟨_, rfl, ?_⟩
  simp only [Who.step, Hist.step]
  have pcne : ∀ {e' p}, upd s.pc b (some Pc.done) e' = p → p ≠ some .done → s.pc e' = p := by
    intro e' p hp hne
    by_cases he : e' = b
    · subst he; rw [upd_same] at hp; exact absurd hp.symm hne
    · rwa [upd_ne _ _ he] at hp
  constructor
  · exact hI.len
  · exact hI.t0eq
  · exact hI.cnt
  · intro e' he'
    obtain ⟨k1, k2⟩ := hI.fresh e' (pcne he' (by simp))
    exact ⟨by dsimp only; rw [k1]; rfl, k2⟩
  · intro e' a' he'
    obtain ⟨k1, k2⟩ := hI.called e' a' (pcne he' (by simp))
    exact ⟨map_moved k1 rfl, k2⟩
  · intro e' a' i he'
    obtain ⟨k1, k2⟩ := hI.fetched e' a' i (pcne he' (by simp))
    exact ⟨map_moved k1 rfl, k2⟩
  · intro e' a' i' t' k' he'
    obtain ⟨k1, k2⟩ := hI.writing e' a' i' t' k' (pcne he' (by simp))
    exact ⟨map_moved k1 rfl, k2⟩
  · intro o i t ho
    dsimp only at ho ⊢
    by_cases hob : o = b
    · subst hob; rw [upd_same] at ho; cases ho
      obtain ⟨e', x, k1, k2, k3, k4, k5, k6⟩ := hI.obj a i t ha
      refine ⟨e', x.moved a o, by rw [upd_same]; exact k1, k2, k3, by rw [k4]; rfl, ?_, ?_⟩
      · rw [(moved_args a o x).2.1]; exact k5
      · simp [Ev.moved, k6]
    · rw [upd_ne _ _ hob] at ho ⊢
      have hoa : o ≠ a := by rintro rfl; rw [upd_same] at ho; cases ho
      rw [upd_ne _ _ hoa] at ho ⊢
      obtain ⟨e', x, k1, k2, k3, k4, k5, k6⟩ := hI.obj o i t ho
      refine ⟨e', x, k1, k2, k3, ?_, k5, k6⟩
      rw [k4, Option.map_some, Ev.moved, if_neg (by rw [k6]; intro hc; exact hoa (Option.some.inj hc))]
  · intro o ho
    dsimp only at ho ⊢
    by_cases hob : o = b
    · subst hob; rw [upd_same]
      refine hI.noobj a fun i t hs => ho i t ?_
      rw [upd_same, ← ha, hs]
    · rw [upd_ne _ _ hob]
      by_cases hoa : o = a
      · subst hoa; rw [upd_same]
      · rw [upd_ne _ _ hoa]
        refine hI.noobj o fun i t hs => ho i t ?_
        rw [upd_ne _ _ hob, upd_ne _ _ hoa]; exact hs
  · intro e' x o hx hh
    dsimp only at hx ⊢
    cases hev : h.ev e' with
    | none => rw [hev] at hx; cases hx
    | some y =>
      rw [hev] at hx; cases hx
      rw [(moved_args a b y).2.2]
      unfold Ev.moved at hh
      by_cases hy : y.holder = some a
      · rw [if_pos hy] at hh; cases hh
        rw [upd_same]
        exact hI.holder e' y a hev hy
      · rw [if_neg hy] at hh
        obtain ⟨k1, k2⟩ := hI.holder e' y o hev hh
        have hob : o ≠ b := by rintro rfl; rw [hheldb] at k1; cases k1
        have hoa : o ≠ a := by rintro rfl; exact hy hh
        rw [upd_ne _ _ hob, upd_ne _ _ hoa]
        exact ⟨k1, k2⟩
  · intro o e' ho
    dsimp only at ho ⊢
    have k : s.pc e' = some .done := by
      by_cases hob : o = b
      · subst hob; rw [upd_same] at ho; exact hI.held a e' ho
      · rw [upd_ne _ _ hob] at ho
        by_cases hoa : o = a
        · subst hoa; rw [upd_same] at ho; cases ho
        · rw [upd_ne _ _ hoa] at ho; exact hI.held o e' ho
    by_cases he : e' = b
    · subst he; rw [upd_same]
    · rw [upd_ne _ _ he]; exact k
  · intro o ho
    dsimp only at ho ⊢
    by_cases hob : o = b
    · subst hob; rw [upd_same]
    · rw [upd_ne _ _ hob] at ho ⊢
      by_cases hoa : o = a
      · subst hoa; exact hI.objpc o (by rw [ha]; simp)
      · rw [upd_ne _ _ hoa] at ho; exact hI.objpc o ho
  · intro i' l hl f
    refine fields_mono (fun e' x hx => ⟨x.moved a b, by dsimp only; rw [hx]; rfl, ?_⟩) (hI.rec' i' l hl f)
    obtain ⟨k1, k2, k3⟩ := moved_args a b x
    exact ⟨k1, by rw [k2]; exact fun _ h => h, by rw [k3]; exact fun _ h => h⟩

/-- A write of the duration leaves the other fields. -/
theorem duration_wrote (t0 : Int) (l : Log) (d : Int) (f : Nat) (hf : f ≠ 5) :
    (∀ x, Wrote t0 x l f → Wrote t0 x { l with duration := d } f) ∧ (Unwritten l f → Unwritten { l with duration := d } f) := by
  match f, hf with
  | 0, hf | 1, hf | 2, hf | 3, hf | 4, hf | 5, hf | _ + 6, hf =>
    first
    | exact absurd rfl hf
    | exact ⟨fun _ h => h, fun h => h⟩

theorem inv2_close (hI : Inv2 cap t0 s h w) (o : Nat) (t : Int) :
    ∀ r, step s (.close o t) = r → r = .disabled ∨ ∃ s', r = .ok s' ∧ Inv2 cap t0 s' (h.step (.close o t)) (w.step cap (.close o t)) := by
  rintro r rfl
  -- the events after the step
  have mono : ∀ e x, h.ev e = some x → ∃ y, (h.step (.close o t)).ev e = some y ∧ x.Le y := by
    intro e x hx
    refine ⟨x.closed o t, by simp only [Hist.step]; rw [hx]; rfl, ?_⟩
    unfold Ev.closed
    split
    · rename_i hh
      have := (hI.holder e x o hx hh).2
      exact ⟨rfl, fun _ h => h, fun t' h => by rw [this] at h; cases h⟩
    · exact Ev.Le.refl x
  have evs : ∀ {e x}, h.ev e = some x → x.holder ≠ some o → (h.step (.close o t)).ev e = some x := by
    intro e x hx hn
    simp only [Hist.step]; rw [hx, Option.map_some, Ev.closed, if_neg hn]
  have hold : ∀ e x o', (h.step (.close o t)).ev e = some x → x.holder = some o' →
      (w.held o' = some e ∧ x.close = none) ∧ o' ≠ o := by
    intro e x o' hx hh
    simp only [Hist.step] at hx
    cases hev : h.ev e with
    | none => rw [hev] at hx; cases hx
    | some y =>
      rw [hev] at hx; cases hx
      unfold Ev.closed at hh ⊢
      by_cases hy : y.holder = some o
      · rw [if_pos hy] at hh; cases hh
      · rw [if_neg hy] at hh ⊢
        exact ⟨hI.holder e y o' hev hh, by rintro rfl; exact hy hh⟩
  simp only [step]
  split
  · rename_i i t1 ho
    obtain ⟨e, x, d1, d2, d3, d4, d5, d6⟩ := hI.obj o i t1 ho
    obtain ⟨l0, hl0⟩ : ∃ l, s.logs[i]? = some l := ⟨_, List.getElem?_eq_getElem (by rw [hI.len]; exact d3)⟩
    simp only [setLog, hl0]
    refine .inr ⟨_, rfl, ?_⟩
    simp only [Who.step, d1]
    constructor
    · dsimp only; rw [List.length_set]; exact hI.len
    · exact hI.t0eq
    · exact hI.cnt
    · intro e' he'
      obtain ⟨k1, k2⟩ := hI.fresh e' he'
      exact ⟨by simp only [Hist.step]; rw [k1]; rfl, k2⟩
    · intro e' a' he'
      obtain ⟨k1, k2⟩ := hI.called e' a' he'
      exact ⟨evs k1 (by simp), k2⟩
    · intro e' a' i he'
      obtain ⟨k1, k2⟩ := hI.fetched e' a' i he'
      exact ⟨evs k1 (by simp), k2⟩
    · intro e' a' i' t' k' he'
      obtain ⟨k1, k2⟩ := hI.writing e' a' i' t' k' he'
      exact ⟨evs k1 (by simp), k2⟩
    · intro o' i' t' ho'
      dsimp only at ho' ⊢
      have hoo : o' ≠ o := by rintro rfl; rw [upd_same] at ho'; cases ho'
      rw [upd_ne _ _ hoo] at ho' ⊢
      obtain ⟨e', x', k1, k2, k3, k4, k5, k6⟩ := hI.obj o' i' t' ho'
      exact ⟨e', x', k1, k2, k3, evs k4 (by rw [k6]; intro hc; exact hoo (Option.some.inj hc)), k5, k6⟩
    · intro o' ho'
      dsimp only at ho' ⊢
      by_cases hoo : o' = o
      · subst hoo; rw [upd_same]
      · rw [upd_ne _ _ hoo]
        refine hI.noobj o' fun i t hs => ho' i t ?_
        rw [upd_ne _ _ hoo]; exact hs
    · intro e' x' o' hx hh
      obtain ⟨k1, k2⟩ := hold e' x' o' hx hh
      dsimp only; rw [upd_ne _ _ k2]; exact k1
    · intro o' e' ho'
      dsimp only at ho' ⊢
      have hoo : o' ≠ o := by rintro rfl; rw [upd_same] at ho'; cases ho'
      rw [upd_ne _ _ hoo] at ho'
      exact hI.held o' e' ho'
    · intro o' ho'
      dsimp only at ho' ⊢
      have hoo : o' ≠ o := by rintro rfl; rw [upd_same] at ho'; exact ho' rfl
      rw [upd_ne _ _ hoo] at ho'
      exact hI.objpc o' ho'
    · intro i' l hl f
      dsimp only at hl ⊢
      by_cases hi : i' = i
      · subst hi
        rw [List.getElem?_set_self (by rw [hI.len]; exact d3)] at hl
        cases hl
        by_cases hf : f = 5
        · subst hf
          simp only [Who.writes, d2, and_self, if_true]
          refine ⟨x.closed o t, by simp only [Hist.step]; rw [d4]; rfl, ?_⟩
          simp only [Ev.closed, d6, if_true]
          exact ⟨t1, t, d5, rfl, rfl⟩
        · simp only [Who.writes, hf, and_false, if_false]
          have old := fields_mono mono (hI.rec' i' l0 hl0 f)
          cases hlast : w.last i' f with
          | none => rw [hlast] at old; exact (duration_wrote t0 l0 _ f hf).2 old
          | some e' =>
            rw [hlast] at old
            obtain ⟨x, o1, o2⟩ := old
            exact ⟨x, o1, (duration_wrote t0 l0 _ f hf).1 x o2⟩
      · rw [List.getElem?_set_ne (Ne.symm hi)] at hl
        have : ¬ (some i = some i' ∧ f = 5) := fun hc => hi (Option.some.inj hc.1).symm
        simp only [Who.writes, d2, if_neg this]
        exact fields_mono mono (hI.rec' i' l hl f)
  · rename_i t1 ho
    have hh : w.held o = none := hI.noobj o fun i t => by rw [ho]; simp
    refine .inr ⟨_, rfl, ?_⟩
    simp only [Who.step, hh]
    constructor
    · exact hI.len
    · exact hI.t0eq
    · exact hI.cnt
    · intro e' he'
      obtain ⟨k1, k2⟩ := hI.fresh e' he'
      exact ⟨by simp only [Hist.step]; rw [k1]; rfl, k2⟩
    · intro e' a' he'
      obtain ⟨k1, k2⟩ := hI.called e' a' he'
      exact ⟨evs k1 (by simp), k2⟩
    · intro e' a' i he'
      obtain ⟨k1, k2⟩ := hI.fetched e' a' i he'
      exact ⟨evs k1 (by simp), k2⟩
    · intro e' a' i' t' k' he'
      obtain ⟨k1, k2⟩ := hI.writing e' a' i' t' k' he'
      exact ⟨evs k1 (by simp), k2⟩
    · intro o' i' t' ho'
      dsimp only at ho' ⊢
      have hoo : o' ≠ o := by rintro rfl; rw [upd_same] at ho'; cases ho'
      rw [upd_ne _ _ hoo] at ho'
      obtain ⟨e', x', k1, k2, k3, k4, k5, k6⟩ := hI.obj o' i' t' ho'
      exact ⟨e', x', k1, k2, k3, evs k4 (by rw [k6]; intro hc; exact hoo (Option.some.inj hc)), k5, k6⟩
    · intro o' ho'
      dsimp only at ho' ⊢
      by_cases hoo : o' = o
      · subst hoo; exact hh
      · refine hI.noobj o' fun i t hs => ho' i t ?_
        rw [upd_ne _ _ hoo]; exact hs
    · intro e' x' o' hx hh
      exact (hold e' x' o' hx hh).1
    · exact hI.held
    · intro o' ho'
      dsimp only at ho' ⊢
      have hoo : o' ≠ o := by rintro rfl; rw [upd_same] at ho'; exact ho' rfl
      rw [upd_ne _ _ hoo] at ho'
      exact hI.objpc o' ho'
    · intro i' l hl f
      exact fields_mono mono (hI.rec' i' l hl f)
  · exact .inl rfl

theorem inv2_step (hI : Inv2 cap t0 s h w) (x : Act) :
    step s x = .disabled ∨ ∃ s', step s x = .ok s' ∧ Inv2 cap t0 s' (h.step x) (w.step cap x) := by
  cases x with
  | call e a => exact inv2_call hI e a _ rfl
  | fetch e => exact inv2_fetch hI e _ rfl
  | now e t => exact inv2_now hI e t _ rfl
  | write e => exact inv2_write hI e _ rfl
  | ret e => exact inv2_ret hI e _ rfl
  | move a b => exact inv2_move hI a b _ rfl
  | close o t => exact inv2_close hI o t _ rfl
  | reset =>
    exact .inr ⟨_, rfl, hI.len, hI.t0eq, rfl, hI.fresh, hI.called, hI.fetched, hI.writing, hI.obj, hI.noobj, hI.holder, hI.held,
      hI.objpc, hI.rec'⟩

theorem inv2_run (xs : List Act) : ∀ {s : St} {h : Hist} {w : Who}, Inv2 cap t0 s h w →
    run s xs = .disabled ∨ ∃ s', run s xs = .ok s' ∧ Inv2 cap t0 s' (h.run xs) (xs.foldl (Who.step cap) w) := by
  induction xs with
  | nil => intro s h w hI; exact .inr ⟨s, rfl, hI⟩
  | cons x xs ih =>
    intro s h w hI
    unfold run
    rcases inv2_step hI x with hs | ⟨s', hs, hI'⟩
    · rw [hs]; exact .inl rfl
    · rw [hs]; exact ih hI'

/-- The logger never accesses anything outside of its buffer, whenever `reset` is called and however many events there
are. -/
theorem no_undefined_ever (cap : Nat) (t0 : Int) (xs : List Act) : run (init cap t0) xs ≠ .ub := by
  rcases inv2_run xs (init_inv2 cap t0) with h | ⟨s, h, _⟩ <;> rw [h] <;> simp

theorem lastVal_eq {α : Type} {t0 : Int} {h : Hist} {w : Who} {i f : Nat} {l : Log} {d v : α} {g : Ev → α}
    (hf : FieldOk t0 h l f (w.last i f)) (h0 : Unwritten l f → v = d) (h1 : ∀ x, Wrote t0 x l f → v = g x) :
    v = lastVal h w i f d g := by
  unfold lastVal
  cases hl : w.last i f with
  | none => rw [hl] at hf; exact h0 hf
  | some e =>
    rw [hl] at hf
    obtain ⟨x, hx, hw⟩ := hf
    rw [Option.bind_some, hx]
    exact h1 x hw

/-- **C61**, for every schedule: whenever `reset` is called and however many events there are, each field of each record is
what the last event that was given this record (and got as far) wrote there, and `get_logs` gives the first
`min(capacity, counter)` records, where the counter is the number of events since the last `reset` (modulo `2 ^ 64`). -/
theorem records_exact (cap : Nat) (t0 : Int) (xs : List Act) {s : St} (hr : run (init cap t0) xs = .ok s) :
    s.logs = (List.range cap).map (lastRecord t0 (events xs) (who cap xs)) ∧
    getLogs s = ((List.range cap).map (lastRecord t0 (events xs) (who cap xs))).take ((who cap xs).started % 2 ^ 64) := by
  have hI : Inv2 cap t0 s (events xs) (who cap xs) := by
    rcases inv2_run xs (init_inv2 cap t0) with h | ⟨s', h, hI⟩
    · rw [hr] at h; cases h
    · rw [hr] at h; cases h; exact hI
  have key : s.logs = (List.range cap).map (lastRecord t0 (events xs) (who cap xs)) := by
    apply List.ext_getElem?
    intro i
    by_cases hi : i < cap
    · obtain ⟨l, hl⟩ : ∃ l, s.logs[i]? = some l := ⟨_, List.getElem?_eq_getElem (by rw [hI.len]; exact hi)⟩
      rw [hl, List.getElem?_map, List.getElem?_range hi, Option.map_some]
      have hf := hI.rec' i l hl
      congr 1
      obtain ⟨n, ins, st, du, ti, fl⟩ := l
      unfold lastRecord
      congr 1
      · exact lastVal_eq (hf 0) (fun h => h) (fun x h => h)
      · exact lastVal_eq (hf 1) (fun h => h) (fun x h => h)
      · exact lastVal_eq (hf 3) (fun h => h) (fun x ⟨t, h1, h2⟩ => by rw [h1]; exact h2)
      · exact lastVal_eq (hf 5) (fun h => h) (fun x ⟨t, t', h1, h2, h3⟩ => by rw [h1, h2]; exact h3)
      · exact lastVal_eq (hf 4) (fun h => h) (fun x h => h)
      · exact lastVal_eq (hf 2) (fun h => h) (fun x h => h)
    · rw [List.getElem?_eq_none_iff.2 (by rw [hI.len]; omega), List.getElem?_eq_none_iff.2 (by simp; omega)]
  refine ⟨key, ?_⟩
  rw [getLogs, hI.cnt, ← key]
  by_cases hle : s.logs.length ≤ (who cap xs).started % 2 ^ 64
  · rw [Nat.min_eq_left hle, List.take_of_length_le (Nat.le_refl _), List.take_of_length_le hle]
  · rw [Nat.min_eq_right (by omega)]

/-- **C61**: an event that has been closed and was the last to write each field of the record it was given has its record there,
whenever `reset` is called. -/
theorem record_intact (cap : Nat) (t0 : Int) (xs : List Act) {s : St} (hr : run (init cap t0) xs = .ok s) {e i : Nat} {x : Ev}
    {l : Log} (hi : i < cap) (hx : (events xs).ev e = some x) (hl : x.record t0 = some l)
    (hlast : ∀ f < 6, (who cap xs).last i f = some e) : s.logs[i]? = some l := by
  rw [(records_exact cap t0 xs hr).1, List.getElem?_map, List.getElem?_range hi, Option.map_some]
  congr 1
  unfold Ev.record at hl
  split at hl
  · rename_i t t' h1 h2
    cases hl
    simp only [lastRecord, lastVal, hlast 0 (by omega), hlast 1 (by omega), hlast 2 (by omega), hlast 3 (by omega),
      hlast 4 (by omega), hlast 5 (by omega), Option.bind_some, hx, h1, h2, Option.getD_some]
  · cases hl

/-- With a `reset` while event 0 is open: record 0 has the duration of event 0 and the other fields of event 1. -/
example : (who 4 exReset).last 0 5 = some 0 ∧ (who 4 exReset).last 0 0 = some 1 ∧ (who 4 exReset).started = 1 ∧
    logsOf (run (init 4 0) exReset) = (List.range 4).map (lastRecord 0 (events exReset) (who 4 exReset)) := by
  refine ⟨by decide +kernel, by decide +kernel, by decide +kernel, ?_⟩
  cases hr : run (init 4 0) exReset with
  | ok s => exact (records_exact 4 0 exReset hr).1
  | disabled => exact absurd (show (logsOf (run (init 4 0) exReset)).length = 4 by decide +kernel) (by rw [hr]; decide)
  | ub => exact absurd hr (no_undefined_ever 4 0 exReset)

end Guanaqo.Trace
