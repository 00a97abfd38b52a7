import Verif.Dl.Props

/-!
# C88, C89, exactly: libraries that leave a message behind when they are opened
-/

namespace Guanaqo.Dl

/-! ## Specification -/

/-- The loads of the library `h` in a history that open it and leave a message behind. -/
def leaks (h : Handle) (ops : List Op) : Nat :=
  ops.countP fun
    | .load file (.ok g (.sets _)) _ => decide (file ≠ []) && decide (g = h)
    | _ => false

/-! ## Proofs -/

/-- The history without the libraries that leave a message behind: they are not opened. -/
def quieted : Op → Op
  | .load file (.ok _ (.sets m)) alloc => if file = [] then .load [] (.fail m) alloc else .other none
  | op => op

theorem quieted_quiet (ops : List Op) : QuietOps (ops.map quieted) := by
  intro file r alloc h
  obtain ⟨op, _, ho⟩ := List.mem_map.1 h
  unfold quieted at ho
  split at ho
  · split at ho
    · cases ho; trivial
    · cases ho
  · subst ho
    rename_i hn
    cases r with
    | fail m => trivial
    | ok g e =>
      cases e with
      | clears => trivial
      | keeps => trivial
      | sets m => exact absurd rfl (hn file g m alloc)

/-- Two states that differ in the libraries that were opened only: `n h` more times in the first one. -/
structure Same (n : Handle → Nat) (s t : State) : Prop where
  pending : s.os.pending = t.os.pending
  closed : s.os.closed = t.os.closed
  blocks : s.blocks = t.blocks
  vars : s.vars = t.vars
  opened : ∀ h, s.os.opened.count h = t.os.opened.count h + n h

variable {n : Handle → Nat} {s t : State}

theorem Same.var (h : Same n s t) (i : Nat) : s.var i = t.var i := by unfold State.var; rw [h.vars]

theorem Same.handle (h : Same n s t) (i : Nat) : s.handle i = t.handle i := by unfold State.handle; rw [h.vars, h.blocks]

theorem Same.setVars (h : Same n s t) {v w : List (Option Nat)} (he : v = w) : Same n { s with vars := v } { t with vars := w } :=
  ⟨h.pending, h.closed, h.blocks, he, h.opened⟩

theorem Same.retainVar (h : Same n s t) (v : Option Nat) : Same n (retainVar v s) (retainVar v t) := by
  cases v with
  | none => exact h
  | some b =>
    unfold Dl.retainVar retain
    dsimp only
    rw [h.blocks]
    cases t.blocks[b]? with
    | none => exact h
    | some x => exact ⟨h.pending, h.closed, by dsimp only; try rw [h.blocks], h.vars, h.opened⟩

theorem Same.releaseVar (h : Same n s t) (v : Option Nat) : Same n (releaseVar v s) (releaseVar v t) := by
  cases v with
  | none => exact h
  | some b =>
    unfold Dl.releaseVar release
    dsimp only
    rw [h.blocks]
    cases t.blocks[b]? with
    | none => exact h
    | some x =>
      dsimp only
      split
      · exact ⟨h.pending, by simp only [dlclose]; rw [h.closed], rfl, h.vars, h.opened⟩
      · exact ⟨h.pending, h.closed, rfl, h.vars, h.opened⟩

theorem Same.makeShared (h : Same n s t) (g : Handle) (alloc : Bool) : Same n (makeShared g alloc s).2 (makeShared g alloc t).2 := by
  unfold Dl.makeShared
  cases alloc with
  | true => exact ⟨h.pending, h.closed, by simp [h.blocks], by simp [h.blocks, h.vars], h.opened⟩
  | false => exact ⟨h.pending, by simp [dlclose, h.closed], h.blocks, h.vars, h.opened⟩

theorem Same.loadLib (h : Same n s t) (file : List Char) (r : OpenResult) (hr : r.Quiet) (alloc : Bool) :
    Same n (loadLib file r alloc s).2 (loadLib file r alloc t).2 := by
  unfold Dl.loadLib
  split
  · exact h
  · cases r with
    | fail m => exact ⟨rfl, h.closed, h.blocks, h.vars, h.opened⟩
    | ok g e =>
      simp only [dlerror, dlopen, quiet_apply hr]
      refine Same.makeShared (s := { s with os := { s.os with pending := none, opened := g :: s.os.opened } })
        (t := { t with os := { t.os with pending := none, opened := g :: t.os.opened } }) ⟨rfl, h.closed, h.blocks, h.vars, ?_⟩ g alloc
      intro g'
      have := h.opened g'
      simp only [List.count_cons]
      omega

theorem Same.loadFunc (h : Same n s t) (hd : Option Handle) (name : List Char) (r : SymResult) :
    Same n (loadFunc hd name r s).2 (loadFunc hd name r t).2 := by
  cases hd with
  | none => exact h
  | some g =>
    cases r with
    | missing m => exact ⟨rfl, h.closed, h.blocks, h.vars, h.opened⟩
    | found a e => cases e <;> exact ⟨rfl, h.closed, h.blocks, h.vars, h.opened⟩

theorem leaks_cons (h : Handle) (op : Op) (ops : List Op) : leaks h (op :: ops) = leaks h [op] + leaks h ops := by
  unfold leaks
  simp only [List.countP_cons, List.countP_nil, Nat.zero_add]
  exact Nat.add_comm _ _

/-- A load that opens a library and leaves a message behind: nothing happens but that the library is open. -/
theorem loadLib_noisy (file : List Char) (hf : file ≠ []) (g : Handle) (m : Msg) (alloc : Bool) (s : State) :
    loadLib file (.ok g (.sets m)) alloc s = (.loadError m, { s with os := { s.os with pending := none, opened := g :: s.os.opened } }) := by
  unfold loadLib
  rw [if_neg hf]
  rfl

theorem Same.step (h : Same n s t) (op : Op) : Same (fun g => n g + leaks g [op]) (step s op) (step t (quieted op)) := by
  have key : quieted op = op → (∀ g, leaks g [op] = 0) → (∀ file r alloc, op = .load file r alloc → r.Quiet) →
      Same (fun g => n g + leaks g [op]) (Dl.step s op) (Dl.step t (quieted op)) := by
    intro hq hl hr
    rw [hq]
    have hn : (fun g => n g + leaks g [op]) = n := by funext g; rw [hl g]; rfl
    rw [hn]
    cases op with
    | load file r alloc => exact h.loadLib file r (hr _ _ _ rfl) alloc
    | func i name r => simp only [Dl.step]; rw [h.handle]; exact h.loadFunc _ name r
    | copy i =>
      simp only [Dl.step]
      rw [h.var]
      have := h.retainVar (t.var i)
      exact this.setVars (by rw [this.vars])
    | move i =>
      simp only [Dl.step]
      exact h.setVars (by rw [h.vars, h.var])
    | drop i =>
      simp only [Dl.step]
      rw [h.var]
      have := h.releaseVar (t.var i)
      exact this.setVars (by rw [this.vars])
    | assign i j =>
      simp only [Dl.step]
      rw [h.vars, h.var, h.var]
      split
      · have := h.retainVar (t.var j)
        exact (this.setVars (by rw [this.vars])).releaseVar (t.var i)
      · exact h
    | other p => exact ⟨rfl, h.closed, h.blocks, h.vars, h.opened⟩
  cases op with
  | load file r alloc =>
    cases r with
    | fail m => exact key rfl (fun _ => rfl) (by rintro _ _ _ ⟨⟩; trivial)
    | ok g e =>
      cases e with
      | clears => exact key rfl (fun _ => rfl) (by rintro _ _ _ ⟨⟩; trivial)
      | keeps => exact key rfl (fun _ => rfl) (by rintro _ _ _ ⟨⟩; trivial)
      | sets m =>
        by_cases hf : file = []
        · subst hf
          have hn : (fun g' => n g' + leaks g' [Op.load [] (.ok g (.sets m)) alloc]) = n := by funext g'; simp [leaks]
          rw [hn]
          exact h
        · simp only [quieted, if_neg hf, Dl.step, loadLib_noisy file hf]
          refine ⟨rfl, h.closed, h.blocks, h.vars, ?_⟩
          intro g'
          have := h.opened g'
          have hl : leaks g' [Op.load file (.ok g (.sets m)) alloc] = if g = g' then 1 else 0 := by
            simp [leaks, hf, List.countP_cons]
          simp only [List.count_cons, hl, beq_iff_eq]
          omega
  | func i name r => exact key rfl (fun _ => rfl) (by rintro _ _ _ ⟨⟩)
  | copy i => exact key rfl (fun _ => rfl) (by rintro _ _ _ ⟨⟩)
  | move i => exact key rfl (fun _ => rfl) (by rintro _ _ _ ⟨⟩)
  | drop i => exact key rfl (fun _ => rfl) (by rintro _ _ _ ⟨⟩)
  | assign i j => exact key rfl (fun _ => rfl) (by rintro _ _ _ ⟨⟩)
  | other p => exact key rfl (fun _ => rfl) (by rintro _ _ _ ⟨⟩)

theorem Same.run (h : Same n s t) (ops : List Op) : Same (fun g => n g + leaks g ops) (run s ops) (run t (ops.map quieted)) := by
  induction ops generalizing n s t with
  | nil => exact h
  | cons op ops ih =>
    have := ih (h.step op)
    simp only [Dl.run, List.map_cons]
    have e : (fun g => n g + leaks g [op] + leaks g ops) = fun g => n g + leaks g (op :: ops) := by
      funext g; rw [leaks_cons g op ops]; omega
    rw [← e]
    exact this

theorem run_quieted (ops : List Op) : Same (fun g => leaks g ops) (run {} ops) (run {} (ops.map quieted)) := by
  have := (Same.run (n := fun _ => 0) (s := {}) (t := {}) ⟨rfl, rfl, rfl, rfl, fun _ => rfl⟩ ops)
  simpa using this

/-- C88, for every history, whatever the libraries do when they are opened: a library that a pointer refers to is open; and when no pointer refers to anything, every library has been
opened exactly as many times more than it has been closed as it was opened with a message left behind. -/
theorem libraries_exact (ops : List Op) :
    (∀ i h, (run {} ops).handle i = some h → 0 < (run {} ops).openCount h) ∧
    (∀ h, leaks h ops ≤ (run {} ops).openCount h) ∧
    ((∀ i, (run {} ops).var i = none) → ∀ h, (run {} ops).openCount h = leaks h ops) := by
  have hs := run_quieted ops
  obtain ⟨h1, h2, h3⟩ := libraries_closed_partial (ops.map quieted) (quieted_quiet ops)
  have hc : ∀ h, (run {} ops).openCount h = (run {} (ops.map quieted)).openCount h + leaks h ops := by
    intro h
    have := hs.opened h
    unfold State.openCount
    rw [hs.closed]
    omega
  refine ⟨fun i h hh => ?_, fun h => ?_, fun hv h => ?_⟩
  · have := h1 i h (by rw [← hs.handle]; exact hh)
    rw [hc]; omega
  · have := h2 h
    rw [hc]; omega
  · have := h3 (fun i => by rw [← hs.var]; exact hv i) h
    rw [hc]; omega

/-- C88: after a history at whose end no pointer is left, all libraries have been closed as many times as they were opened exactly if none of them left a message behind
when it was opened. -/
theorem libraries_closed_iff (ops : List Op) (hv : ∀ i, (run {} ops).var i = none) :
    (∀ h, (run {} ops).openCount h = 0) ↔
      ∀ file h m alloc, Op.load file (.ok h (.sets m)) alloc ∈ ops → file = [] := by
  have hx := (libraries_exact ops).2.2 hv
  constructor
  · intro h0 file h m alloc hm
    have h1 : leaks h ops = 0 := by have := hx h; rw [h0 h] at this; omega
    have := List.countP_eq_zero.1 h1 _ hm
    simpa using this
  · intro h h0
    rw [hx]
    have : leaks h0 ops = 0 := by
      apply List.countP_eq_zero.2
      intro op hop
      cases op with
      | load file r alloc =>
        cases r with
        | fail m => simp
        | ok g e =>
          cases e with
          | clears => simp
          | keeps => simp
          | sets m => simp [h file g m alloc hop]
      | func i name r => simp
      | copy i => simp
      | move i => simp
      | drop i => simp
      | assign i j => simp
      | other p => simp
    omega

/-- The invariant of the pointers holds after every history. -/
theorem run_bound (ops : List Op) (b : Nat) (h : some b ∈ (run {} ops).vars) : b < (run {} ops).blocks.length := by
  have hs := run_quieted ops
  rw [hs.vars] at h
  rw [hs.blocks]
  exact (run_inv _ (quieted_quiet ops) inv_init).bound b h

/-- C89, exactly: after every history, `load_lib` does what it should if and only if the library leaves no message behind (or cannot be opened). -/
theorem load_lib_correct_iff (ops : List Op) (file : List Char) (hf : file ≠ []) (r : OpenResult) (alloc : Bool) :
    LoadLibSpec r alloc (run {} ops) (loadLib file r alloc (run {} ops)).1 (loadLib file r alloc (run {} ops)).2 ↔ r.Quiet := by
  constructor
  · intro h
    cases r with
    | fail m => trivial
    | ok g e =>
      cases e with
      | clears => trivial
      | keeps => trivial
      | sets m =>
        rw [loadLib_noisy file hf] at h
        unfold LoadLibSpec at h
        cases alloc with
        | true => obtain ⟨i, h, _⟩ := h; cases h
        | false => obtain ⟨h, _⟩ := h; cases h
  · intro hr
    have hb := run_bound ops
    generalize run {} ops = s at hb ⊢
    unfold loadLib
    rw [if_neg hf]
    cases r with
    | fail m => exact ⟨rfl, rfl, fun g => rfl⟩
    | ok h e =>
      simp only [dlerror, dlopen, quiet_apply hr, makeShared, LoadLibSpec]
      cases alloc with
      | true =>
        simp only [if_true]
        refine ⟨_, rfl, rfl, ?_, ?_, ?_⟩
        · simp [State.handle]
        · intro g
          unfold State.openCount
          simp only [List.count_cons, beq_iff_eq]
          by_cases hg : h = g
          · rw [if_pos hg, if_pos hg.symm]; omega
          · rw [if_neg hg, if_neg (Ne.symm hg)]; omega
        · intro j hj
          unfold State.handle
          simp only [List.getElem?_append_left hj]
          cases hv : s.vars[j]? with
          | none => rfl
          | some v =>
            cases v with
            | none => rfl
            | some b =>
              have hlt := hb b (List.mem_of_getElem? hv)
              simp only [List.getElem?_append_left hlt]
      | false =>
        simp only [Bool.false_eq_true, if_false]
        refine ⟨trivial, trivial, ?_⟩
        intro g
        unfold State.openCount
        simp only [dlclose, List.count_cons]
        omega

/-- C89, exactly, for `load_func`. -/
theorem load_func_correct_iff (h : Handle) (name : List Char) (r : SymResult) (s : State) :
    LoadFuncSpec name r s (loadFunc (some h) name r s).1 (loadFunc (some h) name r s).2 ↔ r.Quiet := by
  constructor
  · intro hs
    cases r with
    | missing m => trivial
    | found a e =>
      cases e with
      | clears => trivial
      | keeps => trivial
      | sets m => cases hs.1
  · intro hr; exact load_func_correct_partial h name r hr s

/-- Non-vacuity: a library that leaves a message behind is open forever, and another one is closed. -/
example : let ops : List Op := [.load ['l'] (.ok 7 (.sets ['x'])) true, .load ['m'] (.ok 8 .clears) true, .copy 0, .drop 0, .drop 1]
    (∀ i, (run {} ops).var i = none) ∧ leaks 7 ops = 1 ∧ leaks 8 ops = 0 ∧ (run {} ops).openCount 7 = 1 ∧ (run {} ops).openCount 8 = 0 := by
  refine ⟨?_, by decide, by decide, by decide, by decide⟩
  intro i
  rcases i with _ | _ | i <;> rfl

end Guanaqo.Dl
