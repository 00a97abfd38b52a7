import Verif.Trace.AnyReset

/-!
# C140: `trace` is wait-free

trace.hpp:145-168. A call of `trace` never waits for another thread: whatever the others do, its next step is possible, and
it returns after at most nine of its own steps. The destructor of a `ScopedLog` and `reset` are single steps that are
always possible.
-/

namespace Guanaqo.Trace

/-! ## Specification -/

/-- The kinds of steps of a call of `trace`. -/
inductive Kind where
  | call | fetch | now | write | ret
deriving DecidableEq, Repr

/-- Is this a step of the call `e`? -/
def Act.kind (e : Nat) : Act → Option Kind
  | .call e' _ => if e' = e then some .call else none
  | .fetch e' => if e' = e then some .fetch else none
  | .now e' _ => if e' = e then some .now else none
  | .write e' => if e' = e then some .write else none
  | .ret e' => if e' = e then some .ret else none
  | .move _ _ | .close _ _ | .reset => none

/-- The step of this kind of the call `e` (with the arguments `a`, at the time `t`). -/
def Kind.act (e : Nat) (a : Args) (t : Int) : Kind → Act
  | .call => .call e a
  | .fetch => .fetch e
  | .now => .now e t
  | .write => .write e
  | .ret => .ret e

/-- The steps that the call `e` has done in a schedule. -/
def kinds (e : Nat) (xs : List Act) : List Kind := xs.filterMap (Act.kind e)

/-- The steps of a call that finds a record. -/
def recorded : List Kind := [.call, .fetch, .now, .write, .write, .write, .write, .write, .ret]

/-- The steps of a call that finds all records in use. -/
def dropped : List Kind := [.call, .fetch]

/-- The call `e` has returned (it may also be that the name is that of a scope that was moved to). -/
def Returned (s : St) (e : Nat) : Prop := ∃ p, s.pc e = some p ∧ p = .done

/-! ## Proof -/

/-- The steps done so far, and where the call is. -/
def At (ks : List Kind) : Option Pc → Prop
  | none => ks = []
  | some (.called _) => ks = [.call]
  | some (.fetched _ _) => ks = [.call, .fetch]
  | some (.writing _ _ _ k) => ks = [.call, .fetch, .now] ++ List.replicate k .write ∧ k ≤ 5
  | some .done => ks = [] ∨ ks = dropped ∨ ks = recorded

/-- A step leaves the other calls where they are and moves its own on. -/
theorem at_step {s s' : St} {x : Act} (h : step s x = .ok s') (e : Nat) {ks : List Kind} (ha : At ks (s.pc e)) :
    At (ks ++ (Act.kind e x).toList) (s'.pc e) := by
  have keep : ∀ {k : Nat} {v : Option Pc} (f : Nat → Option Pc), e ≠ k → upd f k v e = f e :=
    fun {k v} f hk => upd_ne f v hk
  cases x with
  | call e' a =>
    simp only [step] at h
    split at h
    · rename_i h1 h2
      cases h
      by_cases he : e' = e
      · subst he
        rw [h1] at ha
        simp only [upd_same, At, Act.kind, if_true] at ha ⊢
        rw [ha]
        rfl
      · simp only [Act.kind, if_neg he, Option.toList_none, List.append_nil]
        rw [keep _ (Ne.symm he)]
        exact ha
    · cases h
  | fetch e' =>
    simp only [step] at h
    split at h
    · rename_i a h1
      by_cases he : e' = e
      · subst he
        rw [h1] at ha
        simp only [At] at ha
        subst ha
        split at h
        · cases h
          simp only [upd_same, At, Act.kind, if_true]
          exact .inr (.inl rfl)
        · cases h
          simp only [upd_same, At, Act.kind, if_true]
          rfl
      · simp only [Act.kind, if_neg he, Option.toList_none, List.append_nil]
        split at h
        · cases h
          dsimp only
          rw [keep _ (Ne.symm he)]
          exact ha
        · cases h
          dsimp only
          rw [keep _ (Ne.symm he)]
          exact ha
    · cases h
  | now e' t =>
    simp only [step] at h
    split at h
    · rename_i a i h1
      cases h
      by_cases he : e' = e
      · subst he
        rw [h1] at ha
        simp only [At] at ha
        subst ha
        simp only [upd_same, At, Act.kind, if_true]
        exact ⟨rfl, by omega⟩
      · simp only [Act.kind, if_neg he, Option.toList_none, List.append_nil]
        rw [keep _ (Ne.symm he)]
        exact ha
    · cases h
  | write e' =>
    simp only [step] at h
    split at h
    · rename_i a i t k h1
      split at h
      · rename_i hk
        split at h
        · rename_i s₁ h2
          obtain ⟨l, _, h3⟩ : ∃ l, s.logs[i]? = some l ∧ s₁ = { s with logs := s.logs.set i (writeField s.t0 a t l k) } := by
            simp only [setLog] at h2
            split at h2
            · rename_i l hl
              exact ⟨l, hl, (Option.some.inj h2).symm⟩
            · cases h2
          cases h
          have hpc : s₁.pc = s.pc := by rw [h3]
          by_cases he : e' = e
          · subst he
            rw [h1] at ha
            simp only [At] at ha
            simp only [upd_same, At, Act.kind, if_true]
            refine ⟨?_, by omega⟩
            rw [ha.1, List.replicate_succ', List.append_assoc]
            rfl
          · simp only [Act.kind, if_neg he, Option.toList_none, List.append_nil]
            rw [keep _ (Ne.symm he), hpc]
            exact ha
        · cases h
      · cases h
    · cases h
  | ret e' =>
    simp only [step] at h
    split at h
    · rename_i a i t h1
      cases h
      by_cases he : e' = e
      · subst he
        rw [h1] at ha
        simp only [At] at ha
        simp only [upd_same, At, Act.kind, if_true]
        refine .inr (.inr ?_)
        rw [ha.1]
        rfl
      · simp only [Act.kind, if_neg he, Option.toList_none, List.append_nil]
        rw [keep _ (Ne.symm he)]
        exact ha
    · cases h
  | move a b =>
    simp only [step] at h
    split at h
    · rename_i x h1 h2 h3
      cases h
      simp only [Act.kind, Option.toList_none, List.append_nil]
      by_cases he : e = b
      · subst he
        rw [h3] at ha
        simp only [At] at ha
        simp only [upd_same, At]
        exact .inl ha
      · rw [keep _ he]
        exact ha
    · cases h
  | close o t =>
    have hpc : s'.pc = s.pc := by
      simp only [step] at h
      split at h
      · split at h
        · rename_i h2
          simp only [setLog] at h2
          split at h2
          · cases h2; cases h; rfl
          · cases h2
        · cases h
      · cases h; rfl
      · cases h
    simp only [Act.kind, Option.toList_none, List.append_nil]
    rw [hpc]
    exact ha
  | reset =>
    cases h
    simpa [Act.kind] using ha

theorem at_run (e : Nat) (xs : List Act) : ∀ {s s' : St} {ks : List Kind}, run s xs = .ok s' → At ks (s.pc e) →
    At (ks ++ kinds e xs) (s'.pc e) := by
  induction xs with
  | nil => intro s s' ks h ha; cases h; simpa [kinds] using ha
  | cons x xs ih =>
    intro s s' ks h ha
    simp only [run] at h
    cases hx : step s x with
    | ok s₁ =>
      rw [hx] at h
      have := ih h (at_step hx e ha)
      rw [List.append_assoc] at this
      have hk : kinds e (x :: xs) = (Act.kind e x).toList ++ kinds e xs := by
        unfold kinds
        rw [List.filterMap_cons]
        cases Act.kind e x <;> rfl
      rw [hk]
      exact this
    | disabled => rw [hx] at h; cases h
    | ub => rw [hx] at h; cases h

theorem run_snoc (xs : List Act) (x : Act) : ∀ {s s' : St}, run s xs = .ok s' → run s (xs ++ [x]) = step s' x := by
  induction xs with
  | nil =>
    intro s s' h
    cases h
    simp only [List.nil_append, run]
    cases step s x <;> rfl
  | cons y ys ih =>
    intro s s' h
    simp only [run, List.cons_append] at h ⊢
    cases hy : step s y with
    | ok s₁ => rw [hy] at h; exact ih h
    | disabled => rw [hy] at h; cases h
    | ub => rw [hy] at h; cases h

/-- No step of a reachable state is undefined. -/
theorem step_defined {cap : Nat} {t0 : Int} {xs : List Act} {s : St} (hr : run (init cap t0) xs = .ok s) (x : Act) :
    step s x ≠ .ub := by
  rw [← run_snoc xs x hr]
  exact no_undefined_ever cap t0 _

/-- C140. Whatever the other threads have done (and wherever in their calls they have stopped), a call of `trace` that has
begun and has not returned can do its next step: it never waits. It is between the first and the last of the nine steps of a
call that is recorded. -/
theorem trace_never_waits (cap : Nat) (t0 : Int) (xs : List Act) {s : St} (hr : run (init cap t0) xs = .ok s) (e : Nat)
    (hb : kinds e xs ≠ []) (hn : ¬ Returned s e) :
    ∃ k rest, recorded = kinds e xs ++ k :: rest ∧ ∀ a t, ∃ s', step s (k.act e a t) = .ok s' := by
  have ha : At (kinds e xs) (s.pc e) := by simpa using at_run e xs (ks := []) hr (by simp [init, At])
  cases hp : s.pc e with
  | none => rw [hp] at ha; exact absurd ha hb
  | some p =>
    rw [hp] at ha
    cases p with
    | called a =>
      simp only [At] at ha
      refine ⟨.fetch, [.now, .write, .write, .write, .write, .write, .ret], by rw [ha]; rfl, fun _ t => ?_⟩
      by_cases hc : s.count ≥ s.logs.length
      · exact ⟨_, by simp only [Kind.act, step, hp]; exact if_pos hc⟩
      · exact ⟨_, by simp only [Kind.act, step, hp]; exact if_neg hc⟩
    | fetched a i =>
      simp only [At] at ha
      refine ⟨.now, [.write, .write, .write, .write, .write, .ret], by rw [ha]; rfl, fun _ t => ⟨_, by simp only [Kind.act, step, hp]; rfl⟩⟩
    | writing a i t₁ k =>
      simp only [At] at ha
      obtain ⟨h1, h2⟩ := ha
      by_cases hk : k < 5
      · refine ⟨.write, List.replicate (4 - k) .write ++ [.ret], ?_, fun _ t => ?_⟩
        · rw [h1]
          have : k = 0 ∨ k = 1 ∨ k = 2 ∨ k = 3 ∨ k = 4 := by omega
          rcases this with rfl | rfl | rfl | rfl | rfl <;> rfl
        · cases hs : step s (.write e) with
          | ok s' => exact ⟨s', hs⟩
          | ub => exact absurd hs (step_defined hr _)
          | disabled =>
            exfalso
            simp only [step, hp, if_pos hk] at hs
            split at hs <;> cases hs
      · have hk5 : k = 5 := by omega
        subst hk5
        exact ⟨.ret, [], by rw [h1]; rfl, fun _ t => ⟨_, by simp only [Kind.act, step, hp]; rfl⟩⟩
    | done => exact absurd ⟨.done, hp, rfl⟩ hn

/-- C140. A call has done two steps (all records were in use) or nine when it has returned, and no more than eight if it has
not. -/
theorem trace_steps_bounded (cap : Nat) (t0 : Int) (xs : List Act) {s : St} (hr : run (init cap t0) xs = .ok s) (e : Nat) :
    (Returned s e → kinds e xs = [] ∨ kinds e xs = dropped ∨ kinds e xs = recorded) ∧
    (¬ Returned s e → (kinds e xs).length ≤ 8) := by
  have ha : At (kinds e xs) (s.pc e) := by simpa using at_run e xs (ks := []) hr (by simp [init, At])
  constructor
  · rintro ⟨p, hp, rfl⟩
    rw [hp] at ha
    exact ha
  · intro hn
    cases hp : s.pc e with
    | none => rw [hp] at ha; rw [show kinds e xs = [] from ha]; decide
    | some p =>
      rw [hp] at ha
      cases p with
      | called a => rw [show kinds e xs = _ from ha]; decide
      | fetched a i => rw [show kinds e xs = _ from ha]; decide
      | writing a i t k =>
        obtain ⟨h1, h2⟩ := ha
        rw [h1]
        simp
        omega
      | done => exact absurd ⟨.done, hp, rfl⟩ hn

/-- C140. A call that returns hands over a `ScopedLog`; until then there is none of that name. -/
theorem trace_returns_scope {s s' : St} {x : Act} {e : Nat} (h : step s x = .ok s') (hk : Act.kind e x ≠ none)
    (hr : Returned s' e) : s'.objs e ≠ none := by
  obtain ⟨p, hp, rfl⟩ := hr
  cases x with
  | call e' a =>
    have he : e' = e := Classical.byContradiction fun hne => hk (if_neg hne)
    subst he
    simp only [step] at h
    split at h
    · cases h; dsimp only at hp; rw [upd_same] at hp; cases hp
    · cases h
  | fetch e' =>
    have he : e' = e := Classical.byContradiction fun hne => hk (if_neg hne)
    subst he
    simp only [step] at h
    split at h
    · split at h
      · cases h; dsimp only; rw [upd_same]; simp
      · cases h; dsimp only at hp; rw [upd_same] at hp; cases hp
    · cases h
  | now e' t =>
    have he : e' = e := Classical.byContradiction fun hne => hk (if_neg hne)
    subst he
    simp only [step] at h
    split at h
    · cases h; dsimp only at hp; rw [upd_same] at hp; cases hp
    · cases h
  | write e' =>
    have he : e' = e := Classical.byContradiction fun hne => hk (if_neg hne)
    subst he
    simp only [step] at h
    split at h
    · split at h
      · split at h
        · cases h; dsimp only at hp; rw [upd_same] at hp; cases hp
        · cases h
      · cases h
    · cases h
  | ret e' =>
    have he : e' = e := Classical.byContradiction fun hne => hk (if_neg hne)
    subst he
    simp only [step] at h
    split at h
    · cases h; dsimp only; rw [upd_same]; simp
    · cases h
  | move a b => exact absurd rfl hk
  | close o t => exact absurd rfl hk
  | reset => exact absurd rfl hk

/-- C140. Scopes that are alive can be destroyed and moved to new variables at any time, `reset` can be called at any time, and a
call can begin at any time. -/
theorem trace_others_possible (cap : Nat) (t0 : Int) (xs : List Act) {s : St} (hr : run (init cap t0) xs = .ok s) :
    (∀ o t, (∃ s', step s (.close o t) = .ok s') ↔ s.objs o ≠ none) ∧
    (∀ a b, (∃ s', step s (.move a b) = .ok s') ↔ s.objs a ≠ none ∧ s.objs b = none ∧ s.pc b = none) ∧
    (∃ s', step s .reset = .ok s') ∧
    (∀ e a, (∃ s', step s (.call e a) = .ok s') ↔ s.objs e = none ∧ s.pc e = none) := by
  refine ⟨fun o t => ⟨?_, ?_⟩, fun a b => ⟨?_, ?_⟩, ⟨_, rfl⟩, fun e a => ⟨?_, ?_⟩⟩
  · rintro ⟨s', h⟩ ho
    simp only [step, ho] at h
    cases h
  · intro ho
    cases hs : step s (.close o t) with
    | ok s' => exact ⟨s', rfl⟩
    | ub => exact absurd hs (step_defined hr _)
    | disabled =>
      exfalso
      simp only [step] at hs
      split at hs
      · split at hs <;> cases hs
      · cases hs
      · rename_i h0; exact ho h0
  · rintro ⟨s', h⟩
    simp only [step] at h
    split at h
    · rename_i x h1 h2 h3
      exact ⟨by rw [h1]; simp, h2, h3⟩
    · cases h
  · rintro ⟨h1, h2, h3⟩
    obtain ⟨x, hx⟩ := Option.ne_none_iff_exists'.1 h1
    exact ⟨_, by simp only [step, hx, h2, h3]; rfl⟩
  · rintro ⟨s', h⟩
    simp only [step] at h
    split at h
    · rename_i h1 h2
      exact ⟨h2, h1⟩
    · cases h
  · rintro ⟨h1, h2⟩
    exact ⟨_, by simp only [step, h1, h2]; rfl⟩

/-- Two calls, one of which has stopped in the middle: the other goes on. -/
example : ∃ s, run (init 2 0) [.call 0 ⟨"a", 0, 0, 1⟩, .fetch 0, .now 0 5, .write 0, .call 1 ⟨"b", 0, 0, 2⟩, .fetch 1] = .ok s ∧
    ¬ Returned s 1 ∧ ¬ Returned s 0 ∧ kinds 1 [.call 0 ⟨"a", 0, 0, 1⟩, .fetch 0, .now 0 5, .write 0, .call 1 ⟨"b", 0, 0, 2⟩, .fetch 1] =
      [.call, .fetch] := by
  refine ⟨_, rfl, ?_, ?_, rfl⟩ <;> rintro ⟨p, h1, rfl⟩ <;> cases h1

end Guanaqo.Trace
