import Verif.Trace.Step

/-! # Properties of concurrent tracing (C60, C61, C85) -/

namespace Guanaqo.Trace

/-- The events of a schedule. -/
def events (xs : List Act) : Hist := Hist.run {} xs

/-- Schedules without `reset` and with less than `2 ^ 64` steps are allowed. -/
theorem allowed_of_no_reset (xs : List Act) : ∀ (s : St), (∀ x ∈ xs, x ≠ .reset) → s.count + xs.length < 2 ^ 64 → Allowed s xs := by
  induction xs with
  | nil => intro s _ _; trivial
  | cons x xs ih =>
    intro s h1 h2
    simp only [List.length_cons] at h2
    refine ⟨fun hx => absurd hx (h1 x (by simp)), fun _ => by omega, fun s' hs => ?_⟩
    refine ih s' (fun y hy => h1 y (by simp [hy])) ?_
    have hc : s'.count ≤ s.count + 1 := by
      cases x with
      | fetch e =>
        simp only [step] at hs
        split at hs
        · have := Nat.mod_le (s.count + 1) (2 ^ 64)
          split at hs <;> (cases hs; exact this)
        · cases hs
      | write e =>
        simp only [step] at hs
        split at hs <;> try cases hs
        split at hs <;> try cases hs
        split at hs <;> try cases hs
        rename_i s1 hs1
        obtain ⟨l, -, rfl⟩ := setLog_some hs1
        exact Nat.le_succ _
      | close o t =>
        simp only [step] at hs
        split at hs
        · split at hs
          · rename_i s1 hs1
            obtain ⟨l, -, rfl⟩ := setLog_some hs1
            cases hs; exact Nat.le_succ _
          · cases hs
        · cases hs; exact Nat.le_succ _
        · cases hs
      | reset => exact absurd rfl (h1 _ (by simp))
      | call e a | now e t | ret e | move a b =>
        simp only [step] at hs
        split at hs <;> first | (cases hs; exact Nat.le_succ _) | cases hs
    omega

/-- No schedule makes the logger access anything outside of its buffer. -/
theorem no_undefined (cap : Nat) (t0 : Int) (xs : List Act) (ha : Allowed (init cap t0) xs) : run (init cap t0) xs ≠ .ub := by
  rcases inv_run xs (init_inv cap t0) ha with h | ⟨s, h, _⟩ <;> rw [h] <;> simp

theorem reach {cap : Nat} {t0 : Int} {xs : List Act} (ha : Allowed (init cap t0) xs) {s : St} (hr : run (init cap t0) xs = .ok s) :
    Inv s (events xs) ∧ s.t0 = t0 ∧ s.logs.length = cap := by
  rcases inv_run xs (init_inv cap t0) ha with h | ⟨s', h, hI, h1, h2⟩
  · rw [hr] at h; cases h
  · rw [hr] at h; cases h
    exact ⟨hI, h1, by rw [h2]; simp [init]⟩

/-- C60. After any schedule: every event that has been closed has a record of its own, with all its data: if it was the
`i`-th event to start and there are more than `i` records, it is record `i`. (As this holds after every schedule, no step of
any other event changes it.) Different events have different positions. -/
theorem events_kept (cap : Nat) (t0 : Int) (xs : List Act) (ha : Allowed (init cap t0) xs) {s : St} (hr : run (init cap t0) xs = .ok s) :
    (events xs).order.Nodup ∧
    ∀ e i x t, (events xs).order[i]? = some e → i < cap → (events xs).ev e = some x → x.close = some t →
      ∃ l, s.logs[i]? = some l ∧ x.record t0 = some l := by
  obtain ⟨hI, h0, hc⟩ := reach ha hr
  refine ⟨hI.nodup, fun e i x t ho hi hx ht => ?_⟩
  have hown : Owns s (events xs) e i := ⟨ho, by rw [hc]; exact hi⟩
  have hpc : s.pc e = some .done := by
    cases hp : s.pc e with
    | none => exact absurd hown.mem (hI.fresh e hp).1
    | some p =>
      cases p with
      | called a => have := (hI.called e a hp).2; rw [hx] at this; cases this; cases ht
      | fetched a i => have := (hI.fetched e a i hp).2; rw [hx] at this; cases this; cases ht
      | writing a i t' k => have := (hI.writing e a i t' k hp).2.1; rw [hx] at this; cases this; cases ht
      | done => rfl
  obtain ⟨x', t', l, h1, h2, h3, h4, h5⟩ := hI.done e i hpc hown
  rw [hx] at h1; cases h1
  rcases h5 with ⟨o, h5, h6, h7⟩ | ⟨h5, t'', h6, h7⟩
  · rw [ht] at h7; cases h7
  · refine ⟨l, h3, ?_⟩
    rw [ht] at h6; cases h6
    have e1 := h4.f0 (by omega); have e2 := h4.f1 (by omega); have e3 := h4.f2 (by omega)
    have e4 := h4.f3 (by omega); have e5 := h4.f4 (by omega)
    simp only [Ev.record, h2, ht]
    rw [← h0, ← e1, ← e2, ← e3, ← e4, ← e5, ← h7]

/-- C60. No two events in progress access the same record at any time, so that the plain reads and writes do not race. -/
theorem no_race (cap : Nat) (t0 : Int) (xs : List Act) (ha : Allowed (init cap t0) xs) {s : St} (hr : run (init cap t0) xs = .ok s) :
    (∀ e e' a a' i t t' k k', s.pc e = some (.writing a i t k) → s.pc e' = some (.writing a' i t' k') → e = e') ∧
    (∀ o o' i t t', s.objs o = some ⟨some i, t⟩ → s.objs o' = some ⟨some i, t'⟩ → o = o') ∧
    (∀ e a i t k o t', s.pc e = some (.writing a i t k) → s.objs o ≠ some ⟨some i, t'⟩) := by
  obtain ⟨hI, -, -⟩ := reach ha hr
  refine ⟨?_, ?_, ?_⟩
  · intro e e' a a' i t t' k k' h1 h2
    exact (hI.writing _ _ _ _ _ h1).1.inj (hI.writing _ _ _ _ _ h2).1
  · intro o o' i t t' h1 h2
    obtain ⟨e, a1, a2, x, a3, a4⟩ := hI.obj o i t h1
    obtain ⟨e', b1, b2, x', b3, b4⟩ := hI.obj o' i t' h2
    cases a1.inj b1
    rw [a3] at b3; cases b3
    rw [a4] at b4; cases b4; rfl
  · intro e a i t k o t' h1 h2
    obtain ⟨e', a1, a2, x, a3, a4⟩ := hI.obj o i t' h2
    cases a1.inj (hI.writing _ _ _ _ _ h1).1
    rw [h1] at a2; cases a2

/-- C61. When no event is in progress, `get_logs` gives the records of the events since the last `reset`, in the order in which
they started, as many as there is room for. At any time it gives `min(capacity, number of events)` records. -/
theorem get_logs_exact_partial (cap : Nat) (t0 : Int) (xs : List Act) (ha : Allowed (init cap t0) xs) {s : St}
    (hr : run (init cap t0) xs = .ok s) :
    (getLogs s).length = min cap (events xs).order.length ∧
    (Quiescent s → (getLogs s).map some =
      ((events xs).order.take cap).map fun e => ((events xs).ev e).bind (Ev.record t0)) := by
  obtain ⟨hI, h0, hc⟩ := reach ha hr
  have hlen : (getLogs s).length = min cap (events xs).order.length := by
    unfold getLogs; rw [hI.cnt, hc]; simp; omega
  refine ⟨hlen, fun hq => ?_⟩
  apply List.ext_getElem?
  intro i
  simp only [List.getElem?_map]
  by_cases hi : i < min cap (events xs).order.length
  · have hi1 : i < cap := by omega
    have hi2 : i < (events xs).order.length := by omega
    obtain ⟨e, he⟩ : ∃ e, (events xs).order[i]? = some e := ⟨_, List.getElem?_eq_getElem hi2⟩
    have hown : Owns s (events xs) e i := ⟨he, by rw [hc]; exact hi1⟩
    have hpc : s.pc e = some .done := by
      cases hp : s.pc e with
      | none => exact absurd hown.mem (hI.fresh e hp).1
      | some p =>
        cases p with
        | called a => exact absurd hown.mem (hI.called e a hp).1
        | fetched a i => exact absurd hp (hq.1 e a i)
        | writing a i t' k => exact absurd hp (hq.2.1 e a i t' k)
        | done => rfl
    obtain ⟨x, t, l, h1, h2, h3, h4, h5⟩ := hI.done e i hpc hown
    rcases h5 with ⟨o, h5, h6, h7⟩ | ⟨h5, t', h6, h7⟩
    · exact absurd h6 (hq.2.2 o i t)
    · obtain ⟨l', k1, k2⟩ := (events_kept cap t0 xs ha hr).2 e i x t' he hi1 h1 h6
      have : (getLogs s)[i]? = some l' := by
        unfold getLogs
        rw [List.getElem?_take_of_lt (by rw [hc, hI.cnt]; exact hi)]; exact k1
      rw [this, List.getElem?_take_of_lt hi1, he]
      simp [h1, k2]
  · have e1 : (getLogs s)[i]? = none := by rw [List.getElem?_eq_none_iff, hlen]; omega
    have e2 : ((events xs).order.take cap)[i]? = none := by rw [List.getElem?_eq_none_iff]; simp; omega
    rw [e1, e2]; rfl

/-- C61 without the condition on `reset`: closed events keep their records, whenever `reset` is called. -/
def KeptWheneverReset : Prop := ∀ (cap : Nat) (t0 : Int) (xs : List Act) (s : St), xs.length < 2 ^ 64 →
  run (init cap t0) xs = .ok s → ∀ e i x t, (events xs).order[i]? = some e → i < cap → (events xs).ev e = some x →
    x.close = some t → ∃ l, s.logs[i]? = some l ∧ x.record t0 = some l

/-- A complete recorded event. -/
def whole (e : Nat) (a : Args) (t : Int) : List Act := [.call e a, .fetch e, .now e t, .write e, .write e, .write e, .write e, .write e, .ret e]

/-- Event 0 is open when `reset` is called; event 1 takes the same record; then event 0 is closed. -/
def exReset : List Act :=
  whole 0 ⟨"a", 0, -1, 7⟩ 10 ++ [.reset] ++ whole 1 ⟨"b", 1, -1, 7⟩ 20 ++ [.close 1 25, .close 0 110]

def logsOf : Res → List Log
  | .ok s => s.logs
  | _ => []

/-- False: the scope that is still open writes its duration into the record of another event. -/
theorem not_keptWheneverReset : ¬ KeptWheneverReset := by
  intro h
  have hl : logsOf (run (init 4 0) exReset) = [⟨"b", 1, 20, 100, 7, -1⟩, {}, {}, {}] := by decide +kernel
  cases hr : run (init 4 0) exReset with
  | ok s =>
    rw [hr] at hl
    obtain ⟨l, h1, h2⟩ := h 4 0 exReset s (by decide) hr 1 0
      { args := ⟨"b", 1, -1, 7⟩, start := some 20, close := some 25 } 25 (by decide +kernel) (by decide) rfl rfl
    have hl : s.logs = [⟨"b", 1, 20, 100, 7, -1⟩, {}, {}, {}] := hl
    rw [hl] at h1
    cases h1
    revert h2
    decide +kernel
  | disabled => rw [hr] at hl; cases hl
  | ub => rw [hr] at hl; cases hl

/-- C85, in full: the record of an event for which `trace` has returned and that is still open has no data of other events: the
five fields are its own and the duration is still zero. -/
def NoStaleData : Prop := ∀ (cap : Nat) (t0 : Int) (xs : List Act) (s : St), Allowed (init cap t0) xs →
  run (init cap t0) xs = .ok s → ∀ e i x, (events xs).order[i]? = some e → i < cap → (events xs).ev e = some x → x.holder ≠ none →
    ∃ l t, s.logs[i]? = some l ∧ x.start = some t ∧ l = ⟨x.args.name, x.args.inst, t - t0, 0, x.args.tid, x.args.flop⟩

/-- C85. The five fields are those of the event, as soon as `trace` has returned. Missing: the duration. -/
theorem no_stale_data_partial (cap : Nat) (t0 : Int) (xs : List Act) (ha : Allowed (init cap t0) xs) {s : St}
    (hr : run (init cap t0) xs = .ok s) (e i : Nat) (x : Ev) (ho : (events xs).order[i]? = some e) (hi : i < cap)
    (hx : (events xs).ev e = some x) (hh : x.holder ≠ none) :
    ∃ l t, s.logs[i]? = some l ∧ x.start = some t ∧ l = ⟨x.args.name, x.args.inst, t - t0, l.duration, x.args.tid, x.args.flop⟩ := by
  obtain ⟨hI, h0, hc⟩ := reach ha hr
  have hown : Owns s (events xs) e i := ⟨ho, by rw [hc]; exact hi⟩
  have hpc : s.pc e = some .done := by
    cases hp : s.pc e with
    | none => exact absurd hown.mem (hI.fresh e hp).1
    | some p =>
      cases p with
      | called a => have := (hI.called e a hp).2; rw [hx] at this; cases this; exact absurd rfl hh
      | fetched a i => have := (hI.fetched e a i hp).2; rw [hx] at this; cases this; exact absurd rfl hh
      | writing a i t' k => have := (hI.writing e a i t' k hp).2.1; rw [hx] at this; cases this; exact absurd rfl hh
      | done => rfl
  obtain ⟨x', t, l, h1, h2, h3, h4, -⟩ := hI.done e i hpc hown
  rw [hx] at h1; cases h1
  refine ⟨l, t, h3, h2, ?_⟩
  have e1 := h4.f0 (by omega); have e2 := h4.f1 (by omega); have e3 := h4.f2 (by omega)
  have e4 := h4.f3 (by omega); have e5 := h4.f4 (by omega)
  rw [← h0, ← e1, ← e2, ← e3, ← e4, ← e5]

/-- A complete event, a `reset`, and an open event in the same record. -/
def exStale : List Act := whole 0 ⟨"a", 0, -1, 7⟩ 10 ++ [.close 0 15] ++ [.reset] ++ whole 1 ⟨"b", 1, -1, 7⟩ 20

/-- The states of a schedule, checked step by step. -/
theorem allowed_cons {s s' : St} {x : Act} {xs : List Act} (h1 : x ≠ .reset) (h2 : s.count + 1 < 2 ^ 64) (hs : step s x = .ok s')
    (h : Allowed s' xs) : Allowed s (x :: xs) :=
  ⟨fun e => absurd e h1, fun _ => h2, fun s1 e => by rw [hs] at e; cases e; exact h⟩

theorem allowed_append (xs : List Act) : ∀ {ys : List Act} {s s' : St}, Allowed s xs → run s xs = .ok s' → Allowed s' ys → Allowed s (xs ++ ys) := by
  induction xs with
  | nil => intro ys s s' _ hr h; cases hr; exact h
  | cons x xs ih =>
    rintro ys s s' ⟨h1, h2, h3⟩ hr h
    refine ⟨h1, h2, fun s1 e => ?_⟩
    unfold run at hr
    rw [e] at hr
    exact ih (h3 s1 e) hr h

theorem allowed_reset {s : St} {xs : List Act} (hq : Quiescent s) (h : Allowed { s with count := 0 } xs) : Allowed s (.reset :: xs) :=
  ⟨fun _ => hq, fun ⟨_, e⟩ => by (cases e), fun s1 e => by
    have : s1 = { s with count := 0 } := by
      simp only [step] at e; cases e; rfl
    rw [this]; exact h⟩

def stateOf : Res → St
  | .ok s => s
  | _ => init 0 0

/-- False: the duration of an earlier event is still there. -/
theorem not_noStaleData : ¬ NoStaleData := by
  intro h
  have hA : Allowed (init 4 0) exStale := by
    have h1 : Allowed (init 4 0) (whole 0 ⟨"a", 0, -1, 7⟩ 10 ++ [.close 0 15]) :=
      allowed_of_no_reset _ _ (by simp [whole]) (by decide)
    have hq : Quiescent (stateOf (run (init 4 0) (whole 0 ⟨"a", 0, -1, 7⟩ 10 ++ [.close 0 15]))) := by
      refine ⟨?_, ?_, ?_⟩
      · intro e a i
        by_cases he : e = 0
        · subst he; intro hh; cases hh
        · intro hh
          have : (stateOf (run (init 4 0) (whole 0 ⟨"a", 0, -1, 7⟩ 10 ++ [.close 0 15]))).pc e = none := by
            simp [whole, run, step, init, stateOf, upd, he, setLog]
          rw [this] at hh; cases hh
      · intro e a i t k
        by_cases he : e = 0
        · subst he; intro hh; cases hh
        · intro hh
          have : (stateOf (run (init 4 0) (whole 0 ⟨"a", 0, -1, 7⟩ 10 ++ [.close 0 15]))).pc e = none := by
            simp [whole, run, step, init, stateOf, upd, he, setLog]
          rw [this] at hh; cases hh
      · intro o i t
        have : (stateOf (run (init 4 0) (whole 0 ⟨"a", 0, -1, 7⟩ 10 ++ [.close 0 15]))).objs o = none := by
          simp [whole, run, step, init, stateOf, upd, setLog]
        rw [this]; simp
    have h2 : exStale = (whole 0 ⟨"a", 0, -1, 7⟩ 10 ++ [.close 0 15]) ++ (.reset :: whole 1 ⟨"b", 1, -1, 7⟩ 20) := rfl
    rw [h2]
    exact allowed_append _ h1 rfl (allowed_reset hq (allowed_of_no_reset _ _ (by simp [whole]) (by decide)))
  have hl : logsOf (run (init 4 0) exStale) = [⟨"b", 1, 20, 5, 7, -1⟩, {}, {}, {}] := by decide +kernel
  cases hr : run (init 4 0) exStale with
  | ok s =>
    rw [hr] at hl
    obtain ⟨l, t, h1, h2, h3⟩ := h 4 0 exStale s hA hr 1 0
      { args := ⟨"b", 1, -1, 7⟩, start := some 20, holder := some 1 } (by decide +kernel) (by decide) rfl (by simp)
    have hl : s.logs = [⟨"b", 1, 20, 5, 7, -1⟩, {}, {}, {}] := hl
    rw [hl] at h1
    cases h1
    cases h2
    revert h3
    decide +kernel
  | disabled => rw [hr] at hl; cases hl
  | ub => rw [hr] at hl; cases hl

/-- Three threads, interleaved, a capacity of two records: the third event is dropped. -/
def exSched : List Act :=
  [.call 0 ⟨"a", 0, -1, 7⟩, .call 1 ⟨"b", 1, 5, 8⟩, .fetch 1, .fetch 0, .now 0 10, .now 1 11, .write 0, .write 1, .write 1,
   .call 2 ⟨"c", 2, -1, 9⟩, .fetch 2, .write 0, .write 0, .write 0, .write 0, .ret 0, .close 2 20, .write 1, .write 1, .write 1, .ret 1,
   .move 1 5, .close 0 30, .close 1 31, .close 5 40]

example : Allowed (init 2 3) exSched ∧
    logsOf (run (init 2 3) exSched) = [⟨"b", 1, 8, 29, 8, 5⟩, ⟨"a", 0, 7, 20, 7, -1⟩] ∧ (events exSched).order = [1, 0, 2] :=
  ⟨allowed_of_no_reset _ _ (by simp [exSched]) (by decide), by decide +kernel, by decide +kernel⟩

end Guanaqo.Trace
