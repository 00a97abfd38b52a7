import Verif.Loops
import Verif.Tactics

/-!
# C15: copies and moves of converters

A converter that builds index arrays (e.g. COO to CSC, sparsity-conversions.hpp:502-511; dense to
COO, 260-266) owns them as `std::vector` members and its `sparsity` member holds `std::span`s into
those vectors. The class declares no copy or move operations, so the implicit memberwise ones are
used: copying duplicates the vectors into new storage but copies the spans as they are; moving a
vector hands over its storage.

Simplification: the two index vectors of a converter are one storage block holding the pair.
-/

namespace Guanaqo.Sparsity.Ownership

/-- The contents of the index vectors. -/
abbrev Content := List Int × List Int

/-- A converter object: the storage its vectors own (none after it was moved from), and the storage
its spans point to. -/
structure Obj where
  vec : Option Nat
  span : Nat
  deriving DecidableEq, Repr

/-- The heap (freed or unused blocks are `none`) and the live objects. -/
structure State where
  heap : Nat → Option Content
  next : Nat
  objs : Nat → Option Obj

def State.empty : State := ⟨fun _ => none, 0, fun _ => none⟩

/-- What a program does with converters. -/
inductive Op where
  /-- construct object `i` by converting a pattern: its index arrays hold `c` -/
  | construct (i : Nat) (c : Content)
  /-- `SparsityConverter j = i;` -/
  | copy (j i : Nat)
  /-- `SparsityConverter j = std::move(i);` -/
  | move (j i : Nat)
  /-- end of the lifetime of `i` -/
  | destroy (i : Nat)

def upd {α : Type} (f : Nat → α) (i : Nat) (v : α) : Nat → α := fun k => if k = i then v else f k

/-- Construction, sparsity-conversions.hpp:502-511: allocate the vectors, spans into them. -/
def State.construct (s : State) (i : Nat) (c : Content) : State :=
  { heap := upd s.heap s.next (some c), next := s.next + 1,
    objs := upd s.objs i (some ⟨some s.next, s.next⟩) }

/-- Implicit copy constructor: the vectors are copied, the spans still point to the source's. -/
def State.copyFrom (s : State) (j : Nat) (o : Obj) : State :=
  match o.vec with
  | some b => { heap := upd s.heap s.next (s.heap b), next := s.next + 1,
                objs := upd s.objs j (some ⟨some s.next, o.span⟩) }
  | none => { s with objs := upd s.objs j (some ⟨none, o.span⟩) }

/-- Implicit move constructor: the storage is handed over, the source's vectors are empty and its
spans unchanged. -/
def State.moveFrom (s : State) (j i : Nat) (o : Obj) : State :=
  { s with objs := upd (upd s.objs i (some ⟨none, o.span⟩)) j (some o) }

/-- Destructor: frees the vectors' storage. -/
def State.destroy (s : State) (i : Nat) (o : Obj) : State :=
  { heap := match o.vec with
      | some b => upd s.heap b none
      | none => s.heap
    next := s.next, objs := upd s.objs i none }

/-- One operation (undefined for programs that use dead objects or reuse live ones). -/
def exec (s : State) : Op → Res State
  | .construct i c => if s.objs i = none then .ok (s.construct i c) else .error .ub
  | .copy j i =>
    match s.objs i with
    | some o => if s.objs j = none then .ok (s.copyFrom j o) else .error .ub
    | none => .error .ub
  | .move j i =>
    match s.objs i with
    | some o => if s.objs j = none then .ok (s.moveFrom j i o) else .error .ub
    | none => .error .ub
  | .destroy i =>
    match s.objs i with
    | some o => .ok (s.destroy i o)
    | none => .error .ub

/-- `get_sparsity()` of object `i`, and reading the index arrays through its spans. -/
def read (s : State) (i : Nat) : Res Content :=
  match s.objs i with
  | some o =>
    match s.heap o.span with
    | some c => .ok c
    | none => .error .ub
  | none => .error .ub

/-! ## Specification: what each live object should denote -/

/-- Independent values: a copy denotes what its source denoted; a move transfers. `none`: dead or
moved-from. -/
def specStep (m : Nat → Option Content) : Op → (Nat → Option Content)
  | .construct i c => upd m i (some c)
  | .copy j i => upd m j (m i)
  | .move j i => upd (upd m i none) j (m i)
  | .destroy i => upd m i none

/-- C15, full statement: after every history that the program performs without error, every object
that should denote a pattern yields it. -/
def CopiesIndependent : Prop :=
  ∀ (ops : List Op) (s : State), ops.foldlM exec State.empty = .ok s →
    ∀ i c, ops.foldl specStep (fun _ => none) i = some c → read s i = .ok c

/-- It is false: a copy reads the storage of the destroyed original. -/
theorem not_copiesIndependent : ¬ CopiesIndependent := by
  intro h
  have := h [.construct 0 ([1], [0, 1]), .copy 1 0, .destroy 0] _ rfl 1 ([1], [0, 1]) rfl
  cases this

/-- The invariant: live objects that were not moved from own distinct live blocks, their spans point
to their own block, which holds the pattern. -/
structure Inv (s : State) (m : Nat → Option Content) : Prop where
  fresh : ∀ b, s.next ≤ b → s.heap b = none
  own : ∀ i b, (s.objs i).bind (·.vec) = some b → b < s.next
  distinct : ∀ i j b, (s.objs i).bind (·.vec) = some b → (s.objs j).bind (·.vec) = some b → i = j
  denote : ∀ i c, m i = some c →
    ∃ b, s.objs i = some ⟨some b, b⟩ ∧ s.heap b = some c

theorem inv_empty : Inv State.empty (fun _ => none) := by
  refine ⟨fun _ _ => rfl, ?_, ?_, ?_⟩
  · intro i b h; cases h
  · intro i j b h; cases h
  · intro i c h; cases h

theorem inv_step {s s' : State} {m : Nat → Option Content} {op : Op} (h : Inv s m)
    (hnc : ∀ j i, op ≠ .copy j i) (he : exec s op = .ok s') : Inv s' (specStep m op) := by
  cases op with
  | copy j i => exact absurd rfl (hnc j i)
  | construct i c =>
    simp only [exec] at he
    split at he
    · rename_i hn
      cases he
      refine ⟨?_, ?_, ?_, ?_⟩
      · intro b hb
        simp only [State.construct] at hb ⊢
        simp only [upd]
        rw [if_neg (by omega)]
        exact h.fresh b (by omega)
      · intro k b hk
        simp only [State.construct, upd] at hk ⊢
        split at hk
        · simp at hk; omega
        · have := h.own k b hk; omega
      · intro k l b hk hl
        simp only [State.construct, upd] at hk hl
        split at hk <;> split at hl
        · rename_i e1 e2; rw [e1, e2]
        · simp at hk; have := h.own l b hl; omega
        · simp at hl; have := h.own k b hk; omega
        · exact h.distinct k l b hk hl
      · intro k x hk
        simp only [specStep, upd] at hk
        simp only [State.construct, upd]
        split at hk
        · rename_i e
          subst e
          cases hk
          exact ⟨s.next, by simp, by simp⟩
        · rename_i e
          obtain ⟨b, hb1, hb2⟩ := h.denote k x hk
          have hlt := h.own k b (by rw [hb1]; rfl)
          exact ⟨b, by rw [if_neg e]; exact hb1, by rw [if_neg (by omega)]; exact hb2⟩
    · cases he
  | move j i =>
    simp only [exec] at he
    split at he
    · rename_i o ho
      split at he
      · rename_i hj
        cases he
        have hij : i ≠ j := by rintro rfl; rw [ho] at hj; cases hj
        have hvec : ∀ k b, ((s.moveFrom j i o).objs k).bind (·.vec) = some b →
            (k = j ∧ o.vec = some b) ∨ (k ≠ j ∧ k ≠ i ∧ (s.objs k).bind (·.vec) = some b) := by
          intro k b hk
          simp only [State.moveFrom, upd] at hk
          split at hk
          · rename_i e; exact .inl ⟨e, hk⟩
          · rename_i e
            split at hk
            · cases hk
            · rename_i e'; exact .inr ⟨e, e', hk⟩
        have hoi : ∀ b, o.vec = some b → (s.objs i).bind (·.vec) = some b := by
          intro b hb; rw [ho]; exact hb
        refine ⟨h.fresh, ?_, ?_, ?_⟩
        · intro k b hk
          rcases hvec k b hk with ⟨_, hb⟩ | ⟨_, _, hb⟩
          · exact h.own i b (hoi b hb)
          · exact h.own k b hb
        · intro k l b hk hl
          rcases hvec k b hk with ⟨e1, h1⟩ | ⟨e1, e1', h1⟩ <;>
            rcases hvec l b hl with ⟨e2, h2⟩ | ⟨e2, e2', h2⟩
          · rw [e1, e2]
          · exact absurd (h.distinct i l b (hoi b h1) h2).symm e2'
          · exact absurd (h.distinct i k b (hoi b h2) h1).symm e1'
          · exact h.distinct k l b h1 h2
        · intro k c hk
          simp only [specStep, upd] at hk
          simp only [State.moveFrom, upd]
          split at hk
          · rename_i e
            obtain ⟨b, hb1, hb2⟩ := h.denote i c hk
            rw [ho] at hb1
            cases hb1
            exact ⟨b, by rw [if_pos e], hb2⟩
          · rename_i e
            split at hk
            · cases hk
            · rename_i e'
              obtain ⟨b, hb1, hb2⟩ := h.denote k c hk
              exact ⟨b, by rw [if_neg e, if_neg e']; exact hb1, hb2⟩
      · cases he
    · cases he
  | destroy i =>
    simp only [exec] at he
    split at he
    · rename_i o ho
      cases he
      have hobj : ∀ k, (s.destroy i o).objs k = if k = i then none else s.objs k := fun _ => rfl
      have hheap : ∀ b, o.vec ≠ some b → (s.destroy i o).heap b = s.heap b := by
        intro b hb
        simp only [State.destroy]
        cases hv : o.vec with
        | none => rfl
        | some b' =>
          simp only [upd]
          rw [if_neg]
          rintro rfl; exact hb hv
      refine ⟨?_, ?_, ?_, ?_⟩
      · intro b hb
        by_cases e : o.vec = some b
        · simp [State.destroy, e, upd]
        · rw [hheap b e]; exact h.fresh b hb
      · intro k b hk
        rw [hobj] at hk
        split at hk
        · cases hk
        · exact h.own k b hk
      · intro k l b hk hl
        rw [hobj] at hk hl
        split at hk
        · cases hk
        · split at hl
          · cases hl
          · exact h.distinct k l b hk hl
      · intro k c hk
        simp only [specStep, upd] at hk
        split at hk
        · cases hk
        · rename_i e
          obtain ⟨b, hb1, hb2⟩ := h.denote k c hk
          refine ⟨b, by rw [hobj, if_neg e]; exact hb1, ?_⟩
          rw [hheap b]
          · exact hb2
          · intro hv
            exact e (h.distinct k i b (by rw [hb1]; rfl) (by rw [ho]; exact hv))
    · cases he

/-- C15, for histories without copies: constructing, moving and destroying converters in any order
never invalidates a converter that has not been moved from. -/
theorem moves_preserve_partial (ops : List Op) (hnc : ∀ op ∈ ops, ∀ j i, op ≠ .copy j i) (s : State)
    (he : ops.foldlM exec State.empty = .ok s) (i : Nat) (c : Content)
    (hi : ops.foldl specStep (fun _ => none) i = some c) : read s i = .ok c := by
  have key : ∀ (ops : List Op) (s₀ s : State) (m : Nat → Option Content), Inv s₀ m →
      (∀ op ∈ ops, ∀ j i, op ≠ .copy j i) → ops.foldlM exec s₀ = .ok s →
      Inv s (ops.foldl specStep m) := by
    intro ops
    induction ops with
    | nil => intro s₀ s m h _ he; cases he; exact h
    | cons op ops ih =>
      intro s₀ s m h hnc he
      rw [List.foldlM_cons] at he
      obtain ⟨s₁, h1, h2⟩ := res_bind_ok.1 he
      exact ih s₁ s _ (inv_step h (hnc op (by simp)) h1) (fun o ho => hnc o (by simp [ho])) h2
  obtain ⟨b, hb1, hb2⟩ := (key ops _ s _ inv_empty hnc he).denote i c hi
  simp [read, hb1, hb2]

/-- A copy is fine as long as the original lives: the copy and the original read the same. -/
theorem copy_reads_original {s s' : State} {i j : Nat} {c : Content} (hr : read s i = .ok c)
    (hfresh : ∀ b, s.next ≤ b → s.heap b = none) (he : exec s (.copy j i) = .ok s') :
    read s' j = .ok c := by
  simp only [exec] at he
  unfold read at hr
  split at hr
  · rename_i o ho
    rw [ho] at he
    simp only at he
    split at hr
    · rename_i x hx
      cases hr
      have hlt : o.span < s.next := by
        by_contra hge
        rw [hfresh o.span (by omega)] at hx
        cases hx
      split at he
      · cases he
        unfold read State.copyFrom
        cases o.vec with
        | none => simp [upd, hx]
        | some b =>
          have : o.span ≠ s.next := by omega
          simp [upd, hx, this]
      · cases he
    · cases hr
  · cases hr

/-- A history with a move and the destruction of the moved-from converter. -/
example : (([.construct 0 ([1], [0, 1]), .move 1 0, .destroy 0, .construct 2 ([], [0])] :
      List Op).foldlM exec State.empty >>= fun s => read s 1) =
    .ok (([1] : List Int), ([0, 1] : List Int)) := rfl

end Guanaqo.Sparsity.Ownership
