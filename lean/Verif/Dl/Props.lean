import Verif.Dl.Model

/-!
# C88, C89: libraries are closed exactly once; errors are reported
-/

namespace Guanaqo.Dl

/-! ## Specification -/

/-- The call leaves no message behind when it succeeds (as in glibc). -/
def Effect.Quiet : Effect → Prop
  | .sets _ => False
  | _ => True

def OpenResult.Quiet : OpenResult → Prop
  | .fail _ => True
  | .ok _ e => e.Quiet

def SymResult.Quiet : SymResult → Prop
  | .missing _ => True
  | .found _ e => e.Quiet

/-- All libraries of the history are opened without leaving a message behind. -/
def QuietOps (ops : List Op) : Prop := ∀ file r alloc, Op.load file r alloc ∈ ops → r.Quiet

/-- How many times a library has been opened and not closed. -/
def State.openCount (s : State) (h : Handle) : Int := s.os.opened.count h - s.os.closed.count h

/-! ## The invariant -/

/-- The blocks of a library that have owners. -/
def isLive (h : Handle) (x : Handle × Nat) : Bool := decide (x.1 = h) && decide (x.2 ≠ 0)

structure Inv (s : State) : Prop where
  bound : ∀ b, some b ∈ s.vars → b < s.blocks.length
  counts : ∀ b (hb : b < s.blocks.length), s.blocks[b].2 = s.vars.count (some b)
  balance : ∀ h, s.os.opened.count h = s.os.closed.count h + s.blocks.countP (isLive h)

theorem inv_init : Inv {} := ⟨by simp, by simp, by simp⟩

theorem inv_os {s : State} {os : Os} (hi : Inv s) (h1 : os.opened = s.os.opened) (h2 : os.closed = s.os.closed) :
    Inv { s with os := os } :=
  ⟨hi.bound, hi.counts, by intro h; show os.opened.count h = os.closed.count h + _; rw [h1, h2]; exact hi.balance h⟩

theorem live_set {l : List (Handle × Nat)} {b : Nat} (hb : b < l.length) (h : Handle) (x : Handle × Nat) :
    (l.set b x).countP (isLive h) + (if isLive h l[b] then 1 else 0) =
      l.countP (isLive h) + (if isLive h x then 1 else 0) := by
  rw [List.countP_set hb]
  have : (if isLive h l[b] then 1 else 0) ≤ l.countP (isLive h) := by
    split
    · rename_i hl
      exact List.countP_pos_iff.2 ⟨l[b], List.getElem_mem hb, hl⟩
    · exact Nat.zero_le _
  omega

/-- One more owner, in a new or in an existing variable. -/
theorem retain_blocks {s : State} {b : Nat} (hb : b < s.blocks.length) :
    (retain b s).blocks = s.blocks.set b (s.blocks[b].1, s.blocks[b].2 + 1) ∧ (retain b s).vars = s.vars ∧
      (retain b s).os = s.os := by
  unfold retain
  rw [List.getElem?_eq_getElem hb]
  exact ⟨rfl, rfl, rfl⟩

/-- The invariant, when the variables count `extra` owners more than recorded in the variables. -/
structure InvX (s : State) (vars : List (Option Nat)) : Prop where
  bound : ∀ b, some b ∈ vars → b < s.blocks.length
  counts : ∀ b (hb : b < s.blocks.length), s.blocks[b].2 = vars.count (some b)
  balance : ∀ h, s.os.opened.count h = s.os.closed.count h + s.blocks.countP (isLive h)

theorem retainVar_inv {s : State} {v : Option Nat} {vars : List (Option Nat)} (hi : InvX s vars)
    (hv : ∀ b, v = some b → some b ∈ vars) : InvX (retainVar v s) (v :: vars) ∧ (retainVar v s).vars = s.vars := by
  cases v with
  | none =>
    refine ⟨⟨?_, ?_, hi.balance⟩, rfl⟩
    · intro b hb
      simp only [List.mem_cons, reduceCtorEq, false_or] at hb
      exact hi.bound b hb
    · intro b hb
      rw [List.count_cons_of_ne (by simp)]
      exact hi.counts b hb
  | some b =>
    have hm := hv b rfl
    have hb := hi.bound b hm
    obtain ⟨e1, e2, e3⟩ := retain_blocks hb
    have hpos : 0 < s.blocks[b].2 := by rw [hi.counts b hb]; exact List.count_pos_iff.2 hm
    refine ⟨⟨?_, ?_, ?_⟩, e2⟩
    · intro c hc
      show c < (retain b s).blocks.length
      rw [e1, List.length_set]
      rcases List.mem_cons.1 hc with h | h
      · cases h; exact hb
      · exact hi.bound c h
    · intro c hc
      show (retain b s).blocks[c].2 = _
      have hc' : c < s.blocks.length := by
        have : c < (retain b s).blocks.length := hc
        rw [e1, List.length_set] at this
        exact this
      have e : (retain b s).blocks[c] = (s.blocks.set b (s.blocks[b].1, s.blocks[b].2 + 1))[c]'(by
          rw [List.length_set]; exact hc') := by simp only [e1]
      rw [e, List.getElem_set]
      split
      · rename_i hbc
        subst hbc
        rw [List.count_cons_self]
        simp only
        rw [hi.counts b hb]
      · rename_i hbc
        rw [List.count_cons_of_ne (by simpa using hbc)]
        exact hi.counts c hc'
    · intro h
      show (retain b s).os.opened.count h = (retain b s).os.closed.count h + (retain b s).blocks.countP (isLive h)
      rw [e1, e3]
      have := live_set hb h (s.blocks[b].1, s.blocks[b].2 + 1)
      have hsame : isLive h (s.blocks[b].1, s.blocks[b].2 + 1) = isLive h s.blocks[b] := by
        unfold isLive
        rw [decide_eq_true (show (s.blocks[b].1, s.blocks[b].2 + 1).2 ≠ 0 by simp),
          decide_eq_true (show s.blocks[b].2 ≠ 0 by omega)]
      rw [hsame] at this
      rw [hi.balance h]
      omega

theorem releaseVar_inv {s : State} {v : Option Nat} {vars : List (Option Nat)} (hi : InvX s (v :: vars)) :
    InvX (releaseVar v s) vars ∧ (releaseVar v s).vars = s.vars := by
  cases v with
  | none =>
    refine ⟨⟨fun b hb => hi.bound b (by simp [hb]), ?_, hi.balance⟩, rfl⟩
    intro b hb
    have := hi.counts b hb
    rwa [List.count_cons_of_ne (by simp)] at this
  | some b =>
    have hb := hi.bound b (by simp)
    have hcnt := hi.counts b hb
    rw [List.count_cons_self] at hcnt
    have key : ∀ (blocks : List (Handle × Nat)), blocks = s.blocks.set b (s.blocks[b].1, s.blocks[b].2 - 1) →
        (∀ c, some c ∈ vars → c < blocks.length) ∧
        (∀ c (hc : c < blocks.length), blocks[c].2 = vars.count (some c)) := by
      intro blocks e
      subst e
      refine ⟨fun c hc => ?_, fun c hc => ?_⟩
      · rw [List.length_set]; exact hi.bound c (by simp [hc])
      · rw [List.getElem_set]
        have hc' : c < s.blocks.length := by simpa using hc
        split
        · rename_i hbc
          subst hbc
          simp only
          omega
        · rename_i hbc
          have := hi.counts c hc'
          rwa [List.count_cons_of_ne (by simpa using hbc)] at this
    have hl := live_set hb
    show InvX (release b s) vars ∧ (release b s).vars = s.vars
    unfold release
    rw [List.getElem?_eq_getElem hb]
    simp only
    split
    · rename_i h1
      obtain ⟨k1, k2⟩ := key _ rfl
      refine ⟨⟨?_, ?_, ?_⟩, rfl⟩
      · rw [h1] at k1; exact k1
      · rw [h1] at k2; exact k2
      · intro h
        have h3 := hl h (s.blocks[b].1, 0)
        have h4 := hi.balance h
        show s.os.opened.count h = (s.blocks[b].1 :: s.os.closed).count h + (s.blocks.set b (s.blocks[b].1, 0)).countP (isLive h)
        have hd : isLive h (s.blocks[b].1, 0) = false := by simp [isLive]
        rw [hd] at h3
        by_cases hh : s.blocks[b].1 = h
        · have ha : isLive h s.blocks[b] = true := by simp [isLive, hh, h1]
          rw [ha] at h3
          have hcc : (s.blocks[b].1 :: s.os.closed).count h = s.os.closed.count h + 1 := by
            rw [hh]; exact List.count_cons_self
          rw [hcc]
          simp only [if_true, Bool.false_eq_true, if_false] at h3
          omega
        · have ha : isLive h s.blocks[b] = false := by simp [isLive, hh]
          rw [ha] at h3
          rw [List.count_cons_of_ne hh]
          simp only [Bool.false_eq_true, if_false] at h3
          omega
    · rename_i h1
      obtain ⟨k1, k2⟩ := key _ rfl
      refine ⟨⟨k1, k2, ?_⟩, rfl⟩
      intro h
      have h3 := hl h (s.blocks[b].1, s.blocks[b].2 - 1)
      have h4 := hi.balance h
      show s.os.opened.count h = s.os.closed.count h +
        (s.blocks.set b (s.blocks[b].1, s.blocks[b].2 - 1)).countP (isLive h)
      have hsame : isLive h (s.blocks[b].1, s.blocks[b].2 - 1) = isLive h s.blocks[b] := by
        unfold isLive
        rw [decide_eq_true (show (s.blocks[b].1, s.blocks[b].2 - 1).2 ≠ 0 by simp only; omega),
          decide_eq_true (show s.blocks[b].2 ≠ 0 by omega)]
      rw [hsame] at h3
      omega

theorem inv_iff {s : State} : Inv s ↔ InvX s s.vars :=
  ⟨fun h => ⟨h.bound, h.counts, h.balance⟩, fun h => ⟨h.bound, h.counts, h.balance⟩⟩

/-- The variables in any order. -/
theorem InvX.perm {s : State} {v w : List (Option Nat)} (h : InvX s v) (hp : v.Perm w) : InvX s w :=
  ⟨fun b hb => h.bound b (hp.mem_iff.2 hb), fun b hb => by rw [h.counts b hb]; exact hp.count_eq _, h.balance⟩

theorem invX_vars {s : State} {vars : List (Option Nat)} (h : InvX s vars) : Inv { s with vars := vars } :=
  ⟨h.bound, h.counts, h.balance⟩

theorem var_mem {s : State} {i b : Nat} (h : s.var i = some b) : some b ∈ s.vars := by
  unfold State.var at h
  cases hv : s.vars[i]? with
  | none => rw [hv] at h; cases h
  | some x =>
    rw [hv] at h
    simp only [Option.getD_some] at h
    subst h
    exact List.mem_of_getElem? hv

theorem set_perm {l : List (Option Nat)} {i : Nat} (hi : i < l.length) (x : Option Nat) :
    (l[i] :: l.set i x).Perm (x :: l) := by
  induction l generalizing i with
  | nil => simp at hi
  | cons a l ih =>
    cases i with
    | zero => exact List.Perm.swap _ _ _
    | succ i =>
      simp only [List.length_cons] at hi
      have := ih (by omega : i < l.length)
      simp only [List.getElem_cons_succ, List.set_cons_succ]
      exact (List.Perm.swap _ _ _).trans ((this.cons a).trans (List.Perm.swap _ _ _))

theorem add_none {s : State} {v : List (Option Nat)} : InvX s (none :: v) ↔ InvX s v := by
  constructor
  · intro h
    refine ⟨fun b hb => h.bound b (by simp [hb]), fun b hb => ?_, h.balance⟩
    have := h.counts b hb
    rwa [List.count_cons_of_ne (by simp)] at this
  · intro h
    refine ⟨fun b hb => h.bound b (by simpa using hb), fun b hb => ?_, h.balance⟩
    rw [List.count_cons_of_ne (by simp)]
    exact h.counts b hb

theorem var_lt {s : State} {i : Nat} (hi : i < s.vars.length) : s.var i = s.vars[i] := by
  unfold State.var
  rw [List.getElem?_eq_getElem hi]
  rfl

theorem var_ge {s : State} {i : Nat} (hi : ¬ i < s.vars.length) : s.var i = none := by
  unfold State.var
  rw [List.getElem?_eq_none (by omega)]
  rfl

theorem makeShared_inv {s : State} {h : Handle} {alloc : Bool}
    (hb : ∀ b, some b ∈ s.vars → b < s.blocks.length)
    (hc : ∀ b (hb : b < s.blocks.length), s.blocks[b].2 = s.vars.count (some b))
    (hbal : ∀ g, s.os.opened.count g = s.os.closed.count g + s.blocks.countP (isLive g) + (if g = h then 1 else 0)) :
    Inv (makeShared h alloc s).2 := by
  unfold makeShared
  split
  · refine ⟨?_, ?_, ?_⟩
    · intro b hm
      simp only [List.mem_append, List.mem_singleton, Option.some.injEq] at hm
      simp only [List.length_append, List.length_cons, List.length_nil]
      rcases hm with hm | rfl
      · have := hb b hm; omega
      · omega
    · intro b hb'
      simp only [List.length_append, List.length_cons, List.length_nil] at hb'
      simp only [List.count_append]
      by_cases hlt : b < s.blocks.length
      · rw [List.getElem_append_left hlt, hc b hlt, List.count_singleton]
        rw [if_neg (by simp; omega)]
        omega
      · have : b = s.blocks.length := by omega
        subst this
        rw [List.getElem_append_right (Nat.le_refl _)]
        simp only [Nat.sub_self, List.getElem_cons_zero, List.count_singleton, beq_self_eq_true, if_true]
        have : s.vars.count (some s.blocks.length) = 0 := by
          apply List.count_eq_zero.2
          intro hm
          have := hb _ hm
          omega
        omega
    · intro g
      show s.os.opened.count g = s.os.closed.count g + (s.blocks ++ [(h, 1)]).countP (isLive g)
      rw [List.countP_append, hbal g]
      by_cases hg : g = h
      · subst hg; simp [isLive]; omega
      · rw [if_neg hg]
        simp [isLive, Ne.symm hg]
  · refine ⟨hb, hc, ?_⟩
    intro g
    show s.os.opened.count g = (h :: s.os.closed).count g + s.blocks.countP (isLive g)
    rw [hbal g]
    by_cases hg : g = h
    · subst hg; rw [List.count_cons_self, if_pos rfl]; omega
    · rw [List.count_cons_of_ne (Ne.symm hg), if_neg hg]; omega

theorem quiet_apply {e : Effect} (h : e.Quiet) : e.apply none = none := by
  cases e with
  | clears => rfl
  | keeps => rfl
  | sets m => exact absurd h (by simp [Effect.Quiet])

theorem loadLib_inv {s : State} (hi : Inv s) (file : List Char) (r : OpenResult) (hr : r.Quiet) (alloc : Bool) :
    Inv (loadLib file r alloc s).2 := by
  unfold loadLib
  split
  · exact hi
  · cases r with
    | fail m => exact inv_os hi rfl rfl
    | ok h e =>
      simp only [dlerror, dlopen, quiet_apply hr]
      refine makeShared_inv hi.bound hi.counts ?_
      intro g
      show (h :: s.os.opened).count g = s.os.closed.count g + s.blocks.countP (isLive g) + _
      by_cases hg : g = h
      · subst hg
        rw [List.count_cons_self, if_pos rfl, hi.balance]
      · rw [List.count_cons_of_ne (Ne.symm hg), if_neg hg, hi.balance]
        rfl

theorem loadFunc_state (hd : Option Handle) (name : List Char) (r : SymResult) (s : State) :
    ∃ p, (loadFunc hd name r s).2 = { s with os := { s.os with pending := p } } := by
  unfold loadFunc
  cases hd with
  | none => exact ⟨s.os.pending, rfl⟩
  | some h =>
    cases r with
    | missing m => exact ⟨none, rfl⟩
    | found a e =>
      simp only [dlerror, dlsym]
      split <;> exact ⟨none, rfl⟩

theorem step_inv {s : State} (hi : Inv s) (op : Op) (hq : ∀ file r alloc, op = .load file r alloc → r.Quiet) :
    Inv (step s op) := by
  cases op with
  | load file r alloc => exact loadLib_inv hi file r (hq _ _ _ rfl) alloc
  | func i name r =>
    obtain ⟨p, hp⟩ := loadFunc_state (s.handle i) name r s
    simp only [step, hp]
    exact inv_os hi rfl rfl
  | copy i =>
    obtain ⟨h1, h2⟩ := retainVar_inv (v := s.var i) (inv_iff.1 hi) (fun b hb => var_mem hb)
    simp only [step]
    apply invX_vars
    rw [h2]
    exact h1.perm (List.perm_append_singleton _ _).symm
  | move i =>
    simp only [step]
    apply invX_vars
    by_cases hlt : i < s.vars.length
    · rw [var_lt hlt]
      refine InvX.perm ?_ (List.perm_append_singleton _ _).symm
      exact (add_none.2 (inv_iff.1 hi)).perm (set_perm hlt none).symm
    · rw [var_ge hlt, List.set_eq_of_length_le (by omega)]
      exact (add_none.2 (inv_iff.1 hi)).perm (List.perm_append_singleton _ _).symm
  | drop i =>
    simp only [step]
    by_cases hlt : i < s.vars.length
    · have h0 : InvX s (s.var i :: s.vars.set i none) := by
        rw [var_lt hlt]
        exact (add_none.2 (inv_iff.1 hi)).perm (set_perm hlt none).symm
      obtain ⟨h1, h2⟩ := releaseVar_inv h0
      apply invX_vars
      rw [h2]
      exact h1
    · rw [var_ge hlt]
      apply invX_vars
      show InvX s (s.vars.set i none)
      rw [List.set_eq_of_length_le (by omega)]
      exact inv_iff.1 hi
  | assign i j =>
    simp only [step]
    split
    · rename_i hlt
      obtain ⟨h1, h2⟩ := retainVar_inv (v := s.var j) (inv_iff.1 hi) (fun b hb => var_mem hb)
      have h3 : InvX (retainVar (s.var j) s) (s.var i :: s.vars.set i (s.var j)) := by
        rw [var_lt hlt]
        exact h1.perm (set_perm hlt _).symm
      rw [← h2] at h3
      have h4 : InvX { retainVar (s.var j) s with vars := (retainVar (s.var j) s).vars.set i (s.var j) }
          (s.var i :: (retainVar (s.var j) s).vars.set i (s.var j)) := ⟨h3.bound, h3.counts, h3.balance⟩
      obtain ⟨h5, h6⟩ := releaseVar_inv h4
      apply inv_iff.2
      rw [h6]
      exact h5
    · exact hi
  | other p => exact inv_os hi rfl rfl

theorem run_inv (ops : List Op) (hq : QuietOps ops) {s : State} (hi : Inv s) : Inv (run s ops) := by
  induction ops generalizing s with
  | nil => exact hi
  | cons op ops ih =>
    exact ih (fun f r a h => hq f r a (by simp [h]))
      (step_inv hi op (fun f r a h => hq f r a (by simp [h])))

/-! ## C88 -/

/-- C88, full statement: after every history, a library that a pointer refers to is open, and when no pointer
refers to anything, every library has been closed exactly as many times as it has been opened. -/
def LibrariesClosed (ok : List Op → Prop) : Prop :=
  ∀ ops, ok ops →
    (∀ i h, (run {} ops).handle i = some h → 0 < (run {} ops).openCount h) ∧
    (∀ h, 0 ≤ (run {} ops).openCount h) ∧
    ((∀ i, (run {} ops).var i = none) → ∀ h, (run {} ops).openCount h = 0)

/-- C88 for libraries that are opened without leaving a message behind. -/
theorem libraries_closed_partial : LibrariesClosed QuietOps := by
  intro ops hq
  have hi := run_inv ops hq inv_init
  refine ⟨?_, ?_, ?_⟩
  · intro i h hh
    unfold State.handle at hh
    split at hh
    · rename_i b hv
      cases hb : (run {} ops).blocks[b]? with
      | none => rw [hb] at hh; cases hh
      | some x =>
        rw [hb] at hh
        simp only [Option.map_some, Option.some.injEq] at hh
        obtain ⟨hlt, hx⟩ := List.getElem?_eq_some_iff.1 hb
        have hcnt := hi.counts b hlt
        have hpos : 0 < (run {} ops).vars.count (some b) := List.count_pos_iff.2 (List.mem_of_getElem? hv)
        have hlive : 0 < (run {} ops).blocks.countP (isLive h) := by
          refine List.countP_pos_iff.2 ⟨_, List.getElem_mem hlt, ?_⟩
          simp only [isLive, Bool.and_eq_true, decide_eq_true_eq]
          exact ⟨by rw [hx]; exact hh, by omega⟩
        have := hi.balance h
        unfold State.openCount
        omega
    · cases hh
  · intro h
    have := hi.balance h
    unfold State.openCount
    omega
  · intro hv h
    have hlive : (run {} ops).blocks.countP (isLive h) = 0 := by
      apply List.countP_eq_zero.2
      intro x hx
      obtain ⟨b, hlt, rfl⟩ := List.getElem_of_mem hx
      have hcnt := hi.counts b hlt
      have : (run {} ops).vars.count (some b) = 0 := by
        apply List.count_eq_zero.2
        intro hm
        obtain ⟨i, hi', hget⟩ := List.getElem_of_mem hm
        have := hv i
        rw [var_lt hi', hget] at this
        cases this
      simp [isLive, hcnt, this]
    have := hi.balance h
    unfold State.openCount
    omega


/-- A history in which nothing is assumed about the libraries. -/
def AnyOps (_ : List Op) : Prop := True

/-- The full statement is false: if opening a library succeeds but leaves a message behind (because a constructor
of the library looked for a symbol in vain, say), `load_lib` throws and the library stays open forever. -/
theorem not_libraries_closed : ¬ LibrariesClosed AnyOps := by
  intro h
  have := (h [.load ['l'] (.ok 7 (.sets ['x'])) true] trivial).2.2 (by intro i; rfl) 7
  revert this
  decide

/-- A library that is loaded, copied, and whose owners go away one by one. -/
example : let ops : List Op := [.load ['l'] (.ok 7 .clears) true, .copy 0, .load ['m'] (.fail ['e']) true,
      .func 1 ['f'] (.missing ['n']), .drop 0, .move 1]
    QuietOps ops ∧ (run {} ops).openCount 7 = 1 ∧ (run {} ops).handle 2 = some 7 ∧
      (run {} (ops ++ [.drop 2])).openCount 7 = 0 := by
  refine ⟨?_, by decide, by decide, by decide⟩
  intro f r a h
  simp at h
  rcases h with ⟨_, rfl, _⟩ | ⟨_, rfl, _⟩ <;> trivial

/-! ## C89 -/

/-- What the caller of `load_lib` must see: a failure of the system is reported with the message of this failure
(and not one that was pending); otherwise the result is a new pointer to the library, unless there is no memory,
and then the library is closed again. No library that was open before is closed. -/
def LoadLibSpec (r : OpenResult) (alloc : Bool) (s : State) (out : Outcome Nat) (s' : State) : Prop :=
  match r with
  | .fail m => out = .loadError m ∧ s'.vars = s.vars ∧ ∀ g, s'.openCount g = s.openCount g
  | .ok h _ =>
    if alloc then ∃ i, out = .ok i ∧ i = s.vars.length ∧ s'.handle i = some h ∧
      (∀ g, s'.openCount g = s.openCount g + if g = h then 1 else 0) ∧
      (∀ j, j < s.vars.length → s'.handle j = s.handle j)
    else out = .badAlloc ∧ s'.vars = s.vars ∧ ∀ g, s'.openCount g = s.openCount g

theorem load_lib_spec (file : List Char) (hf : file ≠ []) (r : OpenResult) (hr : r.Quiet) (alloc : Bool)
    (s : State) (hi : Inv s) :
    LoadLibSpec r alloc s (loadLib file r alloc s).1 (loadLib file r alloc s).2 := by
  unfold loadLib
  rw [if_neg hf]
  cases r with
  | fail m => exact ⟨rfl, rfl, fun g => rfl⟩
  | ok h e =>
    simp only [dlerror, dlopen, quiet_apply hr, makeShared, LoadLibSpec]
    cases alloc with
    | true =>
      simp only [if_true]
      refine ⟨_, rfl, rfl, ?_, ?_, ?_⟩
      · simp [State.handle]
      · intro g
        unfold State.openCount
        show ((h :: s.os.opened).count g : Int) - (s.os.closed.count g : Int) = _
        by_cases hg : g = h
        · subst hg; rw [List.count_cons_self, if_pos rfl]; omega
        · rw [List.count_cons_of_ne (Ne.symm hg), if_neg hg]; omega
      · intro j hj
        unfold State.handle
        simp only [List.getElem?_append_left hj]
        cases hv : s.vars[j]? with
        | none => rfl
        | some v =>
          cases v with
          | none => rfl
          | some b =>
            have hb := hi.bound b (List.mem_of_getElem? hv)
            simp only [List.getElem?_append_left hb]
    | false =>
      simp only [Bool.false_eq_true, if_false]
      refine ⟨trivial, trivial, ?_⟩
      intro g
      unfold State.openCount
      show ((h :: s.os.opened).count g : Int) - ((h :: s.os.closed).count g : Int) = _
      by_cases hg : g = h
      · subst hg; rw [List.count_cons_self, List.count_cons_self]; omega
      · rw [List.count_cons_of_ne (Ne.symm hg), List.count_cons_of_ne (Ne.symm hg)]

/-- C89: `load_lib` after every history of the program. -/
theorem load_lib_correct_partial (ops : List Op) (hq : QuietOps ops) (file : List Char) (hf : file ≠ [])
    (r : OpenResult) (hr : r.Quiet) (alloc : Bool) :
    LoadLibSpec r alloc (run {} ops) (loadLib file r alloc (run {} ops)).1
      (loadLib file r alloc (run {} ops)).2 :=
  load_lib_spec file hf r hr alloc _ (run_inv ops hq inv_init)

/-- C89: `load_func` returns the address of the symbol (also when it is null), and throws if and only if the symbol
is missing, with its name and the message of this failure. A message that was pending does not matter, and no
pointer or library changes. -/
def LoadFuncSpec (name : List Char) (r : SymResult) (s : State) (out : Outcome Nat) (s' : State) : Prop :=
  (match r with
  | .missing m => out = .loadError ("Unable to load function '".toList ++ name ++ "': ".toList ++ m)
  | .found a _ => out = .ok a) ∧
  s'.vars = s.vars ∧ s'.blocks = s.blocks ∧ ∀ g, s'.openCount g = s.openCount g

theorem load_func_correct_partial (h : Handle) (name : List Char) (r : SymResult) (hr : r.Quiet) (s : State) :
    LoadFuncSpec name r s (loadFunc (some h) name r s).1 (loadFunc (some h) name r s).2 := by
  cases r with
  | missing m => exact ⟨rfl, rfl, rfl, fun _ => rfl⟩
  | found a e =>
    simp only [loadFunc, dlerror, dlsym, quiet_apply hr]
    exact ⟨rfl, rfl, rfl, fun _ => rfl⟩

/-- A message that was pending before changes nothing. -/
theorem load_pending_irrelevant (file name : List Char) (r : OpenResult) (q : SymResult) (alloc : Bool)
    (hd : Option Handle) (s : State) (p : Option Msg) :
    (loadLib file r alloc { s with os := { s.os with pending := p } }).1 = (loadLib file r alloc s).1 ∧
    (loadFunc hd name q { s with os := { s.os with pending := p } }).1 = (loadFunc hd name q s).1 := by
  constructor
  · unfold loadLib
    split
    · rfl
    · cases r with
      | fail m => rfl
      | ok h e =>
        cases e <;> simp only [dlerror, dlopen, Effect.apply, makeShared] <;> cases alloc <;> rfl
  · cases hd with
    | none => rfl
    | some h =>
      cases q with
      | missing m => rfl
      | found a e => cases e <;> rfl

/-- An empty name of a file is never passed to the system, and neither is a null handle. -/
theorem load_checked (r : OpenResult) (q : SymResult) (alloc : Bool) (name : List Char) (s : State) :
    loadLib [] r alloc s = (.assertFail, s) ∧ loadFunc none name q s = (.assertFail, s) := ⟨rfl, rfl⟩

/-- `load_lib` has no undefined behaviour: it never makes a pointer of a failed `dlopen`. -/
theorem load_lib_no_ub (file : List Char) (r : OpenResult) (alloc : Bool) (s : State) :
    (loadLib file r alloc s).1 ≠ .ub := by
  unfold loadLib
  split
  · simp
  · cases r with
    | fail m => simp [dlerror, dlopen]
    | ok h e =>
      simp only [dlerror, dlopen]
      split
      · simp
      · simp only [makeShared]; split <;> simp

/-- C89 without the assumption about the system is false: a symbol that is found by a resolver function that leaves
a message behind is not returned. -/
theorem not_load_func_correct : ¬ ∀ (h : Handle) (name : List Char) (r : SymResult) (s : State),
    LoadFuncSpec name r s (loadFunc (some h) name r s).1 (loadFunc (some h) name r s).2 := by
  intro h
  have h1 := (h 7 ['f'] (.found 3 (.sets ['x'])) {}).1
  simp only at h1
  revert h1
  decide

/-- A library that is found while a message is pending, and a symbol whose address is null. -/
example : let s : State := { os := { pending := some ['o', 'l', 'd'] } }
    (loadLib ['l'] (.ok 7 .keeps) true s).1 = .ok 0 ∧ (loadLib ['l'] (.fail ['e']) true s).1 = .loadError ['e'] ∧
    (loadFunc (some 7) ['f'] (.found 0 .keeps) s).1 = .ok 0 := by decide

/-! ## Windows -/

/-- C89 on Windows, for every outcome of the system. -/
def LoadLibWinSpec (file : List Char) (r : WinOpen) (sysMsg alloc : Bool) (s : State) (out : Outcome Nat)
    (s' : State) : Prop :=
  match r with
  | .fail m => (∃ t, out = .loadError ("Unable to load \"".toList ++ file ++ "\": ".toList ++ t) ∧
      (sysMsg = true → t = m)) ∧ s'.vars = s.vars ∧ ∀ g, s'.openCount g = s.openCount g
  | .ok h =>
    if alloc then ∃ i, out = .ok i ∧ i = s.vars.length ∧ s'.handle i = some h ∧
      (∀ g, s'.openCount g = s.openCount g + if g = h then 1 else 0) ∧
      (∀ j, j < s.vars.length → s'.handle j = s.handle j)
    else out = .badAlloc ∧ s'.vars = s.vars ∧ ∀ g, s'.openCount g = s.openCount g

theorem load_lib_win_correct (file : List Char) (hf : file ≠ []) (r : WinOpen) (sysMsg alloc : Bool)
    (s : State) (hi : Inv s) :
    LoadLibWinSpec file r sysMsg alloc s (loadLibWin file r sysMsg alloc s).1 (loadLibWin file r sysMsg alloc s).2 := by
  cases r with
  | fail m =>
    unfold loadLibWin
    rw [if_neg hf]
    refine ⟨⟨_, rfl, ?_⟩, rfl, fun _ => rfl⟩
    intro h; rw [if_pos h]
  | ok h =>
    have key := load_lib_spec file hf (.ok h .clears) trivial alloc s hi
    have e1 : (loadLibWin file (.ok h) sysMsg alloc s).1 = (loadLib file (.ok h .clears) alloc s).1 := by
      unfold loadLibWin loadLib
      rw [if_neg hf, if_neg hf]
      cases alloc <;> rfl
    have e2 : ∀ g, (loadLibWin file (.ok h) sysMsg alloc s).2.openCount g =
        (loadLib file (.ok h .clears) alloc s).2.openCount g := by
      intro g
      unfold loadLibWin loadLib
      rw [if_neg hf, if_neg hf]
      cases alloc <;> rfl
    have e3 : (loadLibWin file (.ok h) sysMsg alloc s).2.vars = (loadLib file (.ok h .clears) alloc s).2.vars := by
      unfold loadLibWin loadLib
      rw [if_neg hf, if_neg hf]
      cases alloc <;> rfl
    have e4 : (loadLibWin file (.ok h) sysMsg alloc s).2.blocks =
        (loadLib file (.ok h .clears) alloc s).2.blocks := by
      unfold loadLibWin loadLib
      rw [if_neg hf, if_neg hf]
      cases alloc <;> rfl
    have e5 : ∀ i, (loadLibWin file (.ok h) sysMsg alloc s).2.handle i =
        (loadLib file (.ok h .clears) alloc s).2.handle i := by
      intro i; unfold State.handle; rw [e3, e4]
    unfold LoadLibWinSpec
    unfold LoadLibSpec at key
    simp only [e1, e2, e3, e5]
    exact key

/-! ## Flags -/

/-- The constants of a system have no bits in common. -/
structure Consts.Disjoint (k : Consts) (d : BitVec 32) : Prop where
  gl : k.global &&& k.rtldLocal = 0
  gz : k.global &&& k.lazy = 0
  gn : k.global &&& k.now = 0
  gd : k.global &&& k.nodelete = 0
  gb : k.global &&& d = 0
  lz : k.rtldLocal &&& k.lazy = 0
  ln : k.rtldLocal &&& k.now = 0
  ld : k.rtldLocal &&& k.nodelete = 0
  lb : k.rtldLocal &&& d = 0
  zn : k.lazy &&& k.now = 0
  zd : k.lazy &&& k.nodelete = 0
  zb : k.lazy &&& d = 0
  nd : k.now &&& k.nodelete = 0
  nb : k.now &&& d = 0
  db : k.nodelete &&& d = 0

/-- `<dlfcn.h>` of glibc on Linux and of macOS (which has no `RTLD_DEEPBIND`). -/
def glibc : Consts := ⟨0x100, 0, 1, 2, 0x1000, some 8⟩
def macos : Consts := ⟨8, 4, 1, 2, 0x80, none⟩

/-- A group of bits is set or cleared. -/
def HasBits (x c : BitVec 32) (b : Bool) : Prop := x &&& c = if b then c else 0

/-- C89, the flags that `dlopen` gets: each of them is set exactly when the member says so, and no others are. -/
theorem flags_correct (k : Consts) (f : Flags) (hk : k.Disjoint (k.deepbind.getD 0)) :
    HasBits (f.toInt k) k.global f.global ∧ HasBits (f.toInt k) k.rtldLocal (!f.global) ∧
    HasBits (f.toInt k) k.lazy f.lazy ∧ HasBits (f.toInt k) k.now (!f.lazy) ∧
    HasBits (f.toInt k) k.nodelete f.nodelete ∧
    (∀ d, k.deepbind = some d → HasBits (f.toInt k) d f.deepbind) ∧
    f.toInt k &&& ~~~(k.global ||| k.rtldLocal ||| k.lazy ||| k.now ||| k.nodelete ||| k.deepbind.getD 0) = 0 := by
  obtain ⟨g, z, n, b⟩ := f
  obtain ⟨kg, kl, kz, kn, kd, kb⟩ := k
  have hc : ∀ {x y : BitVec 32}, x &&& y = 0 → y &&& x = 0 := fun h => by rw [BitVec.and_comm]; exact h
  have hnot : ∀ x y : BitVec 32, x &&& ~~~(x ||| y) = 0 := fun x y => by
    apply BitVec.eq_of_getElem_eq; intro i hi; simp; intro h h'; simp [h] at h'
  have hnot' : ∀ x y z : BitVec 32, x &&& ~~~z = 0 → x &&& ~~~(z ||| y) = 0 := fun x y z h => by
    apply BitVec.eq_of_getElem_eq; intro i hi
    have := congrArg (fun t => t[i]) h
    simp at this ⊢
    intro h1 h2; exact absurd h2 (by simp [this h1])
  have hnot'' : ∀ x y : BitVec 32, x &&& ~~~(y ||| x) = 0 := fun x y => by
    rw [BitVec.or_comm]; exact hnot x y
  obtain ⟨h1, h2, h3, h4, h5, h6, h7, h8, h9, h10, h11, h12, h13, h14, h15⟩ := hk
  have c1 := hc h1; have c2 := hc h2; have c3 := hc h3; have c4 := hc h4; have c5 := hc h5
  have c6 := hc h6; have c7 := hc h7; have c8 := hc h8; have c9 := hc h9; have c10 := hc h10
  have c11 := hc h11; have c12 := hc h12; have c13 := hc h13; have c14 := hc h14; have c15 := hc h15
  have n1 := hnot'  _ kd _ (hnot' _ kn _ (hnot' _ kz _ (hnot kg kl)))
  have n2 := hnot'  _ kd _ (hnot' _ kn _ (hnot' _ kz _ (hnot'' kl kg)))
  have n3 := hnot'  _ kd _ (hnot' _ kn _ (hnot'' kz (kg ||| kl)))
  have n4 := hnot'  _ kd _ (hnot'' kn (kg ||| kl ||| kz))
  have n5 := hnot'' kd (kg ||| kl ||| kz ||| kn)
  cases kb with
  | none =>
    simp only [Option.getD_none] at *
    refine ⟨?_, ?_, ?_, ?_, ?_, by simp, ?_⟩
    all_goals
      cases g <;> cases z <;> cases n <;>
        simp only [HasBits, Flags.toInt, if_true, if_false, Bool.false_eq_true, Bool.not_true, Bool.not_false,
          BitVec.and_or_distrib_right, BitVec.and_self, *, BitVec.or_zero, BitVec.zero_or, BitVec.zero_and,
          BitVec.ofNat_eq_ofNat]
  | some d =>
    have n6 := hnot'' d (kg ||| kl ||| kz ||| kn ||| kd)
    replace n1 := hnot' _ d _ n1
    replace n2 := hnot' _ d _ n2
    replace n3 := hnot' _ d _ n3
    replace n4 := hnot' _ d _ n4
    replace n5 := hnot' _ d _ n5
    simp only [Option.getD_some] at *
    refine ⟨?_, ?_, ?_, ?_, ?_, ?_, ?_⟩
    case refine_6 =>
      rintro _ ⟨rfl⟩
      cases g <;> cases z <;> cases n <;> cases b <;>
        simp only [HasBits, Flags.toInt, if_true, if_false, Bool.false_eq_true, Bool.not_true, Bool.not_false,
          BitVec.and_or_distrib_right, BitVec.and_self, *, BitVec.or_zero, BitVec.zero_or, BitVec.zero_and,
          BitVec.ofNat_eq_ofNat]
    all_goals
      cases g <;> cases z <;> cases n <;> cases b <;>
        simp only [HasBits, Flags.toInt, if_true, if_false, Bool.false_eq_true, Bool.not_true, Bool.not_false,
          BitVec.and_or_distrib_right, BitVec.and_self, *, BitVec.or_zero, BitVec.zero_or, BitVec.zero_and,
          BitVec.ofNat_eq_ofNat]

/-- The systems have such constants; the defaults mean `RTLD_LOCAL | RTLD_NOW | RTLD_NODELETE | RTLD_DEEPBIND`. -/
example : glibc.Disjoint (glibc.deepbind.getD 0) ∧ macos.Disjoint (macos.deepbind.getD 0) ∧
    ({} : Flags).toInt glibc = 0x100a ∧ ({ global := true, lazy := true, nodelete := false } : Flags).toInt macos = 9 := by
  refine ⟨?_, ?_, by decide, by decide⟩ <;> constructor <;> decide

end Guanaqo.Dl
