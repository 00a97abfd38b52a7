import Verif.Loops
import Verif.Tactics

/-!
# C39: `scoped_ostream_redirect` (callback-streambuf.hpp:102-123)

Streams, stream buffers and guards are identified by numbers. `std::ostream::rdbuf` (standard
library) replaces the stream's buffer and returns the old one; writing to a stream appends to its
current buffer's sink. Flushing does not change what is written where.
-/

namespace Guanaqo.Redirect

/-- Program state: the current buffer of each stream, the live guards (`os`, `old_buf`), and what
each buffer has received. -/
structure State where
  rd : Nat → Nat
  guards : Nat → Option (Nat × Nat)
  sink : Nat → List UInt8

inductive Op where
  /-- `scoped_ostream_redirect g{os, buf};` -/
  | ctor (g os buf : Nat)
  /-- `scoped_ostream_redirect g'{std::move(g)};` -/
  | move (g' g : Nat)
  /-- destruction of `g` -/
  | dtor (g : Nat)
  /-- `os << byte` -/
  | write (os : Nat) (b : UInt8)

def upd {α : Type} (f : Nat → α) (i : Nat) (v : α) : Nat → α := fun k => if k = i then v else f k

/-- One statement. Using a guard variable that is not alive, or declaring one twice, is not a C++
program (`ub`). -/
def exec (s : State) : Op → Res State
  | .ctor g os buf =>                                      -- 110-111
    if s.guards g = none then
      .ok { s with rd := upd s.rd os buf, guards := upd s.guards g (some (os, s.rd os)) }
    else .error .ub
  | .move g' g =>                                          -- 119: memberwise, the source is unchanged
    match s.guards g with
    | some o =>
      if s.guards g' = none then .ok { s with guards := upd s.guards g' (some o) } else .error .ub
    | none => .error .ub
  | .dtor g =>                                             -- 113-116
    match s.guards g with
    | some (os, old) => .ok { s with rd := upd s.rd os old, guards := upd s.guards g none }
    | none => .error .ub
  | .write os b => .ok { s with sink := upd s.sink (s.rd os) (s.sink (s.rd os) ++ [b]) }

/-! ## Specification -/

/-- Active redirections, innermost first: (owning guard, stream, target). -/
abbrev Stack := List (Nat × Nat × Nat)

/-- Where output to `os` should go: the target of the innermost active redirection of `os`, or the
original buffer. -/
def target (orig : Nat → Nat) : Stack → Nat → Nat
  | [], os => orig os
  | (_, os', t) :: st, os => if os = os' then t else target orig st os

/-- Specification state: active redirections, guards that were moved from (they own nothing), and
what each buffer should have received. -/
structure Spec where
  stack : Stack
  husks : List Nat
  sink : Nat → List UInt8

/-- Properly nested use: a guard that owns a redirection may only be destroyed or moved while it is
the innermost one; destroying a moved-from guard does nothing. -/
def specStep (orig : Nat → Nat) (p : Spec) : Op → Option Spec
  | .ctor g os buf => some { p with stack := (g, os, buf) :: p.stack }
  | .move g' g =>
    match p.stack with
    | (h, os, t) :: st =>
      if h = g then some { p with stack := (g', os, t) :: st, husks := g :: p.husks } else none
    | [] => none
  | .dtor g =>
    if g ∈ p.husks then some { p with husks := p.husks.erase g }
    else match p.stack with
      | (h, _, _) :: st => if h = g then some { p with stack := st } else none
      | [] => none
  | .write os b =>
    let t := target orig p.stack os
    some { p with sink := upd p.sink t (p.sink t ++ [b]) }

def start (orig : Nat → Nat) : State := ⟨orig, fun _ => none, fun _ => []⟩
def specStart : Spec := ⟨[], [], fun _ => []⟩

/-- C39, full statement: after every properly nested history, every stream writes to the target of
the innermost active redirection (its original buffer when there is none), and every byte went where
it should. -/
def RedirectCorrect : Prop :=
  ∀ (orig : Nat → Nat) (ops : List Op) (s : State) (p : Spec),
    ops.foldlM exec (start orig) = .ok s → ops.foldlM (specStep orig) specStart = some p →
    s.rd = target orig p.stack ∧ s.sink = p.sink

/-- It is false: the destructor of a moved-from guard also restores the old buffer, which ends the
redirection while the guard that now owns it is still alive (e.g. a guard returned from a
function). -/
theorem not_redirectCorrect : ¬ RedirectCorrect := by
  intro h
  have := (h (fun _ => 0) [.ctor 0 0 1, .move 1 0, .dtor 0] _ _ rfl rfl).1
  have := congrFun this 0
  revert this
  decide

/-- What the live guards hold. -/
def GuardsOk (orig : Nat → Nat) (guards : Nat → Option (Nat × Nat)) : Stack → Prop
  | [] => True
  | (g, os, _) :: st => guards g = some (os, target orig st os) ∧ (∀ x ∈ st, x.1 ≠ g) ∧
      GuardsOk orig guards st

theorem GuardsOk.congr {orig : Nat → Nat} {f f' : Nat → Option (Nat × Nat)} {st : Stack}
    (h : GuardsOk orig f st) (he : ∀ x ∈ st, f' x.1 = f x.1) : GuardsOk orig f' st := by
  induction st with
  | nil => trivial
  | cons x st ih =>
    obtain ⟨g, os, t⟩ := x
    exact ⟨by rw [he (g, os, t) (by simp)]; exact h.1, h.2.1,
      ih h.2.2 (fun y hy => he y (by simp [hy]))⟩

theorem GuardsOk.alive {orig : Nat → Nat} {f : Nat → Option (Nat × Nat)} {st : Stack}
    (h : GuardsOk orig f st) : ∀ x ∈ st, f x.1 ≠ none := by
  induction st with
  | nil => intro x hx; simp at hx
  | cons y st ih =>
    obtain ⟨g, os, t⟩ := y
    intro x hx
    rcases List.mem_cons.1 hx with rfl | hx
    · rw [h.1]; simp
    · exact ih h.2.2 x hx

structure Inv (orig : Nat → Nat) (s : State) (p : Spec) : Prop where
  rd : s.rd = target orig p.stack
  sink : s.sink = p.sink
  guards : GuardsOk orig s.guards p.stack
  husks : p.husks = []

theorem target_pop (orig : Nat → Nat) (st : Stack) (g os t : Nat) :
    upd (target orig ((g, os, t) :: st)) os (target orig st os) = target orig st := by
  funext k
  simp only [upd, target]
  split
  · rename_i e; rw [e]
  · rfl

theorem inv_step {orig : Nat → Nat} {s s' : State} {p p' : Spec} {op : Op} (h : Inv orig s p)
    (hm : ∀ g' g, op ≠ .move g' g) (he : exec s op = .ok s') (hs : specStep orig p op = some p') :
    Inv orig s' p' := by
  cases op with
  | move g' g => exact absurd rfl (hm g' g)
  | write os b =>
    cases he; cases hs
    refine ⟨h.rd, ?_, h.guards, h.husks⟩
    simp only
    rw [h.rd, h.sink]
  | ctor g os buf =>
    simp only [exec] at he
    split at he
    · rename_i hn
      cases he; cases hs
      refine ⟨?_, h.sink, ⟨?_, ?_, ?_⟩, h.husks⟩
      · funext k
        simp only [upd, target, h.rd]
      · simp only [upd, h.rd, if_true]
      · rintro x hx rfl
        exact h.guards.alive x hx hn
      · refine h.guards.congr (fun x hx => ?_)
        simp only [upd]
        rw [if_neg]
        intro e
        exact h.guards.alive x hx (by rw [e]; exact hn)
    · cases he
  | dtor g =>
    simp only [specStep, h.husks, List.not_mem_nil, if_false] at hs
    split at hs
    · rename_i g' os t st hst
      split at hs
      · rename_i e
        subst e
        cases hs
        have hg := h.guards
        rw [hst] at hg
        simp only [exec, hg.1] at he
        cases he
        refine ⟨?_, h.sink, ?_, rfl⟩
        · simp only
          rw [h.rd, hst, target_pop]
        · refine hg.2.2.congr (fun x hx => ?_)
          simp only [upd]
          rw [if_neg (hg.2.1 x hx)]
      · cases hs
    · cases hs

theorem inv_run {orig : Nat → Nat} (ops : List Op) (hm : ∀ op ∈ ops, ∀ g' g, op ≠ .move g' g)
    {s₀ s : State} {p₀ p : Spec} (h : Inv orig s₀ p₀) (he : ops.foldlM exec s₀ = .ok s)
    (hs : ops.foldlM (specStep orig) p₀ = some p) : Inv orig s p := by
  induction ops generalizing s₀ p₀ with
  | nil => cases he; cases hs; exact h
  | cons op ops ih =>
    rw [List.foldlM_cons] at he hs
    obtain ⟨s₁, h1, h2⟩ := res_bind_ok.1 he
    obtain ⟨p₁, k1, k2⟩ := Option.bind_eq_some_iff.1 hs
    exact ih (fun o ho => hm o (by simp [ho])) (inv_step h (hm op (by simp)) h1 k1) h2 k2

/-- C39, without moved guards: after every properly nested history, every stream writes to the
target of the innermost active redirection, and every byte written went to the buffer it should. -/
theorem redirect_nested_partial (orig : Nat → Nat) (ops : List Op)
    (hm : ∀ op ∈ ops, ∀ g' g, op ≠ .move g' g) (s : State) (p : Spec)
    (he : ops.foldlM exec (start orig) = .ok s)
    (hs : ops.foldlM (specStep orig) specStart = some p) :
    s.rd = target orig p.stack ∧ s.sink = p.sink := by
  have h := inv_run ops hm (s₀ := start orig) (p₀ := specStart) ⟨rfl, rfl, trivial, rfl⟩ he hs
  exact ⟨h.rd, h.sink⟩

/-- C39. In particular, when all guards of a properly nested history are gone, every stream has its
original buffer back. -/
theorem redirect_restores_partial (orig : Nat → Nat) (ops : List Op)
    (hm : ∀ op ∈ ops, ∀ g' g, op ≠ .move g' g) (s : State) (p : Spec)
    (he : ops.foldlM exec (start orig) = .ok s)
    (hs : ops.foldlM (specStep orig) specStart = some p) (hend : p.stack = []) : s.rd = orig := by
  rw [(redirect_nested_partial orig ops hm s p he hs).1, hend]
  rfl

/-- A nested block without moves leaves guards outside the block alone. -/
theorem outer_guard_kept {orig : Nat → Nat} (ops : List Op)
    (hm : ∀ op ∈ ops, ∀ g' g, op ≠ .move g' g) {s₀ s : State} {p₀ p : Spec} (h : Inv orig s₀ p₀)
    {g : Nat} {o : Nat × Nat} (hg : s₀.guards g = some o) (hn : ∀ x ∈ p₀.stack, x.1 ≠ g)
    (he : ops.foldlM exec s₀ = .ok s) (hs : ops.foldlM (specStep orig) p₀ = some p) :
    s.guards g = some o := by
  induction ops generalizing s₀ p₀ with
  | nil => cases he; exact hg
  | cons op ops ih =>
    rw [List.foldlM_cons] at he hs
    obtain ⟨s₁, h1, h2⟩ := res_bind_ok.1 he
    obtain ⟨p₁, k1, k2⟩ := Option.bind_eq_some_iff.1 hs
    have hi := inv_step h (hm op (by simp)) h1 k1
    have hkeep : s₁.guards g = some o ∧ ∀ x ∈ p₁.stack, x.1 ≠ g := by
      cases op with
      | move g' g => exact absurd rfl (hm _ (by simp) g' g)
      | write os b => cases h1; cases k1; exact ⟨hg, hn⟩
      | ctor k os buf =>
        simp only [exec] at h1
        split at h1
        · rename_i hk
          cases h1; cases k1
          have hne : g ≠ k := by rintro rfl; rw [hg] at hk; cases hk
          refine ⟨by simp only [upd]; rw [if_neg hne]; exact hg, ?_⟩
          intro x hx
          rcases List.mem_cons.1 hx with rfl | hx
          · exact fun e => hne e.symm
          · exact hn x hx
        · cases h1
      | dtor k =>
        simp only [specStep, h.husks, List.not_mem_nil, if_false] at k1
        split at k1
        · rename_i k' os t st hst
          split at k1
          · rename_i e
            subst e
            cases k1
            have hgs := h.guards
            rw [hst] at hgs
            simp only [exec, hgs.1] at h1
            cases h1
            have hne : g ≠ k' := fun e => hn (k', os, t) (by rw [hst]; simp) e.symm
            exact ⟨by simp only [upd]; rw [if_neg hne]; exact hg,
              fun x hx => hn x (by rw [hst]; simp [hx])⟩
          · cases k1
        · cases k1
    exact ih (fun o ho => hm o (by simp [ho])) hi hkeep.1 hkeep.2 h2 k2

/-- C39. A guard that is moved to another variable of the same scope (destroyed first) is harmless:
`guard g{os, buf}; guard g'{std::move(g)}; body` at any point reached without moves, where the body
is properly nested, sends the output of the body where it should go and then leaves every stream as
it was. -/
theorem redirect_moved_in_scope (orig : Nat → Nat) (before body : List Op)
    (hb : ∀ op ∈ before ++ body, ∀ g' g, op ≠ .move g' g)
    (g g' os buf : Nat) (s t : State) (p q : Spec)
    (h0 : before.foldlM exec (start orig) = .ok s)
    (hp : before.foldlM (specStep orig) specStart = some p)
    (hq : body.foldlM (specStep orig) { p with stack := (g', os, buf) :: p.stack } = some q)
    (hq' : q.stack = (g', os, buf) :: p.stack)
    (hfinal : (([.ctor g os buf, .move g' g] ++ (body ++ [.dtor g', .dtor g])) : List Op).foldlM exec
      s = .ok t) :
    t.rd = s.rd ∧ t.sink = q.sink := by
  have hs : Inv orig s p := inv_run before (fun o ho => hb o (by simp [ho])) (s₀ := start orig)
    (p₀ := specStart) ⟨rfl, rfl, trivial, rfl⟩ h0 hp
  rw [foldlM_append'] at hfinal
  obtain ⟨s₂, h2, hfinal⟩ := res_bind_ok.1 hfinal
  rw [foldlM_append'] at hfinal
  obtain ⟨s₃, h3, hfinal'⟩ := res_bind_ok.1 hfinal
  rw [List.foldlM_cons] at h2
  obtain ⟨s₁, h1, h2⟩ := res_bind_ok.1 h2
  have hg0 : s.guards g = none := by
    simp only [exec] at h1
    split at h1
    · assumption
    · cases h1
  have hs1 := inv_step hs (op := .ctor g os buf) (by simp) h1 rfl
  have hg1 := hs1.guards.1
  rw [List.foldlM_cons] at h2
  obtain ⟨s₂', h2', h2⟩ := res_bind_ok.1 h2
  cases h2
  simp only [exec] at h2'
  rw [hg1] at h2'
  simp only at h2'
  split at h2'
  · rename_i hg'
    cases h2'
    have hne : g ≠ g' := by rintro rfl; rw [hg1] at hg'; cases hg'
    have hgr : s₁.guards g' = s.guards g' := by
      simp only [exec, hg0, if_true] at h1
      cases h1
      simp only [upd]
      rw [if_neg (Ne.symm hne)]
    have hnotin : ∀ x ∈ p.stack, x.1 ≠ g' := by
      rintro x hx rfl
      exact hs.guards.alive x hx (by rw [← hgr]; exact hg')
    have hs2 : Inv orig { s₁ with guards := upd s₁.guards g' (some (os, target orig p.stack os)) }
        { p with stack := (g', os, buf) :: p.stack } := by
      refine ⟨?_, hs1.sink, ⟨by simp [upd], hnotin, ?_⟩, hs.husks⟩
      · have := hs1.rd
        simp only at this ⊢
        rw [this]
        rfl
      · refine hs1.guards.2.2.congr (fun x hx => ?_)
        simp only [upd]
        rw [if_neg (hnotin x hx)]
    have hbody : ∀ op ∈ body, ∀ g' g, op ≠ .move g' g := fun o ho => hb o (by simp [ho])
    have hs3 := inv_run body hbody hs2 h3 hq
    have hg3 := outer_guard_kept body hbody hs2 (g := g) (o := (os, target orig p.stack os))
      (by simp only [upd]; rw [if_neg hne]; exact hg1)
      (by
        intro x hx
        rcases List.mem_cons.1 hx with rfl | hx
        · exact fun e => hne e.symm
        · rintro rfl; exact hs.guards.alive x hx hg0) h3 hq
    have hg3' := hs3.guards
    rw [hq'] at hg3'
    simp only [List.foldlM_cons] at hfinal'
    obtain ⟨s₄, h4, h5⟩ := res_bind_ok.1 hfinal'
    obtain ⟨s₅, h5', h5⟩ := res_bind_ok.1 h5
    cases h5
    simp only [exec, hg3'.1] at h4
    cases h4
    simp only [exec, upd, if_neg hne, hg3] at h5'
    cases h5'
    refine ⟨?_, hs3.sink⟩
    simp only
    rw [hs3.rd, hq', hs.rd]
    funext k
    simp only [target, upd]
    by_cases e : k = os
    · rw [if_pos e, e]
    · rw [if_neg e, if_neg e, if_neg e]
  · cases h2'

/-- A history with two nested redirections of one stream and one of another. -/
example : ∃ p s, ([.ctor 0 0 10, .write 0 1, .ctor 1 1 11, .ctor 2 0 12, .write 0 2, .write 1 3, .dtor 2,
      .write 0 4, .dtor 1, .dtor 0, .write 0 5] : List Op).foldlM (specStep id) specStart = some p ∧
    ([.ctor 0 0 10, .write 0 1, .ctor 1 1 11, .ctor 2 0 12, .write 0 2, .write 1 3, .dtor 2,
      .write 0 4, .dtor 1, .dtor 0, .write 0 5] : List Op).foldlM exec (start id) = .ok s ∧
    s.sink 10 = [1, 4] ∧ s.sink 12 = [2] ∧ s.sink 11 = [3] ∧ s.sink 0 = [5] ∧ p.stack = [] :=
  ⟨_, _, rfl, rfl, rfl, rfl, rfl, rfl, rfl⟩

end Guanaqo.Redirect
