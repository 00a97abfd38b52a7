import Verif.MaxHistory.Props
import Verif.Loops

/-!
# C27: every history of `MaxHistory` objects

Objects that are constructed, copied, moved, assigned, destroyed and added to, in any order
(max-history.hpp:10-45; all special members are implicitly defaulted). The vectors live in heap blocks;
the member iterator is a block and an index. A moved vector takes its block along, a copied one does not.
-/

namespace Guanaqo.MaxHistory

variable {α : Type}

/-- The members of an object, max-history.hpp:41-44. `own` is the block of its vector (none for the empty
vector that a move leaves behind). -/
structure Slot (α : Type) where
  own : Option Nat
  full : Bool
  itBlk : Nat
  it : Nat
  max : α

/-- Objects, heap blocks, and the next fresh block. -/
structure World (α : Type) where
  objs : Nat → Option (Slot α)
  heap : Nat → Option (List α)
  next : Nat

/-- No objects. -/
def World.empty : World α := { objs := fun _ => none, heap := fun _ => none, next := 0 }

/-- Change of a map at one place. -/
def put {β : Type} (f : Nat → β) (k : Nat) (x : β) : Nat → β := fun j => if j = k then x else f j

/-- The elements of the vector of an object. -/
def World.content (w : World α) (s : Slot α) : List α :=
  match s.own with
  | none => []
  | some b => (w.heap b).getD []

/-- Release of the vector's block. -/
def World.release (w : World α) (s : Slot α) : World α :=
  match s.own with
  | none => w
  | some b => { w with heap := put w.heap b none }

/-- What one can do with the objects. -/
inductive Op (α : Type) where
  /-- `MaxHistory k(memory)` -/
  | new (k memory : Nat)
  /-- `MaxHistory k(src)` -/
  | copy (k src : Nat)
  /-- `MaxHistory k(std::move(src))` -/
  | move (k src : Nat)
  /-- `k = src`; `reuse` is the implementation's choice whether the vector keeps its block -/
  | copyAssign (k src : Nat) (reuse : Bool)
  /-- `k = std::move(src)` -/
  | moveAssign (k src : Nat)
  /-- the destructor -/
  | destroy (k : Nat)
  /-- `k.add(x)` -/
  | add (k : Nat) (x : α)

/-- One operation. Operations on objects that do not exist (or constructions where there is one already)
are undefined, and so is `add` if the iterator does not point into the object's own vector
(max-history.hpp:24, 27 and 31 compare it with `buffer.begin()` and `buffer.end()`). Self-move assignment,
which leaves the vector in an unspecified state, is not modelled (undefined here). -/
def step (o : Ops α) (zero : α) (w : World α) : Op α → Res (World α)
  | .new k memory =>
    match w.objs k with
    | some _ => .error .ub
    | none => .ok
      { objs := put w.objs k (some { own := some w.next, full := false, itBlk := w.next, it := 0, max := zero })
        heap := put w.heap w.next (some (List.replicate memory zero))
        next := w.next + 1 }
  | .copy k src =>
    match w.objs k, w.objs src with
    | none, some s => .ok
      { objs := put w.objs k (some { s with own := some w.next })
        heap := put w.heap w.next (some (w.content s))
        next := w.next + 1 }
    | _, _ => .error .ub
  | .move k src =>
    match w.objs k, w.objs src with
    | none, some s => .ok { w with objs := put (put w.objs k (some s)) src (some { s with own := none }) }
    | _, _ => .error .ub
  | .copyAssign k src reuse =>
    match w.objs k, w.objs src with
    | some t, some s =>
      if k = src then .ok w
      else
        match t.own, reuse with
        | some b, true => .ok
          { w with objs := put w.objs k (some { s with own := some b })
                   heap := put w.heap b (some (w.content s)) }
        | _, _ =>
          let w' := w.release t
          .ok { objs := put w.objs k (some { s with own := some w.next })
                heap := put w'.heap w.next (some (w.content s))
                next := w.next + 1 }
    | _, _ => .error .ub
  | .moveAssign k src =>
    match w.objs k, w.objs src with
    | some t, some s =>
      if k = src then .error .ub
      else .ok { w.release t with objs := put (put w.objs k (some s)) src (some { s with own := none }) }
    | _, _ => .error .ub
  | .destroy k =>
    match w.objs k with
    | some s => .ok { w.release s with objs := put w.objs k none }
    | none => .error .ub
  | .add k x =>
    match w.objs k with
    | none => .error .ub
    | some s =>
      match s.own with
      | none => .error .ub
      | some b =>
        if s.itBlk = b then do
          let h ← add o { buffer := w.content s, full := s.full, it := s.it, max := s.max } x
          return { w with objs := put w.objs k (some { s with full := h.full, it := h.it, max := h.max })
                          heap := put w.heap b (some h.buffer) }
        else .error .ub

/-- A history. -/
def run (o : Ops α) (zero : α) : World α → List (Op α) → Res (World α)
  | w, [] => .ok w
  | w, p :: ps => do run o zero (← step o zero w p) ps

/-! ## Specification: what each object stands for -/

/-- No object, an object that was moved from, or a history of values with its memory length. -/
inductive Meaning (α : Type) where
  | absent
  | movedFrom
  | holds (memory : Nat) (xs : List α)

/-- What the operations mean, if copies are independent values. -/
def meaningStep (T : Nat → Meaning α) : Op α → Nat → Meaning α
  | .new k memory => put T k (.holds memory [])
  | .copy k src => put T k (T src)
  | .move k src => put (put T k (T src)) src .movedFrom
  | .copyAssign k src _ => put T k (T src)
  | .moveAssign k src => put (put T k (T src)) src .movedFrom
  | .destroy k => put T k .absent
  | .add k x =>
    match T k with
    | .holds memory xs => put T k (.holds memory (xs ++ [x]))
    | _ => T

/-- The meaning of the objects after a history. -/
def meaning (ops : List (Op α)) : Nat → Meaning α := ops.foldl meaningStep (fun _ => .absent)

/-! ## Refinement -/

variable [LinearOrder α]

/-- The object agrees with its meaning. -/
def Agrees (w : World α) (s : Slot α) : Meaning α → Prop
  | .absent => False
  | .movedFrom => True
  | .holds memory xs => ∃ b buffer, s.own = some b ∧ w.heap b = some buffer ∧ buffer.length = memory ∧
      (0 < memory → Inv memory xs { buffer, full := s.full, it := s.it, max := s.max })

/-- The invariant of all histories. -/
structure Rel (w : World α) (T : Nat → Meaning α) : Prop where
  present : ∀ k s, w.objs k = some s → Agrees w s (T k)
  absent : ∀ k, w.objs k = none → T k = .absent
  block : ∀ k s b, w.objs k = some s → s.own = some b → b < w.next ∧ ∃ buffer, w.heap b = some buffer
  distinct : ∀ k k' s s' b, w.objs k = some s → w.objs k' = some s' → s.own = some b → s'.own = some b → k = k'
  itOld : ∀ k s, w.objs k = some s → s.itBlk < w.next

@[simp] theorem put_same {β : Type} (f : Nat → β) (k : Nat) (x : β) : put f k x k = x := if_pos rfl
theorem put_ne {β : Type} (f : Nat → β) {j k : Nat} (x : β) (h : j ≠ k) : put f k x j = f j := if_neg h

theorem agrees_frame {w w' : World α} {s : Slot α} {m : Meaning α} (h : Agrees w s m)
    (hh : ∀ b, s.own = some b → w'.heap b = w.heap b) : Agrees w' s m := by
  cases m with
  | absent => exact h
  | movedFrom => trivial
  | holds memory xs =>
    obtain ⟨b, buffer, h1, h2, h3, h4⟩ := h
    exact ⟨b, buffer, h1, by rw [hh b h1, h2], h3, h4⟩

omit [LinearOrder α] in
theorem content_eq {w : World α} {s : Slot α} {b : Nat} {buffer : List α} (h1 : s.own = some b)
    (h2 : w.heap b = some buffer) : w.content s = buffer := by
  unfold World.content
  rw [h1]
  simp only [h2, Option.getD_some]

/-- The meaning of a vector's elements in a new block. -/
theorem agrees_copied {w w' : World α} {s : Slot α} {m : Meaning α} {b : Nat} (h : Agrees w s m)
    (hb : w'.heap b = some (w.content s)) : Agrees w' { s with own := some b } m := by
  cases m with
  | absent => exact h
  | movedFrom => trivial
  | holds memory xs =>
    obtain ⟨b', buffer, h1, h2, h3, h4⟩ := h
    exact ⟨b, buffer, rfl, by rw [hb, content_eq h1 h2], h3, h4⟩

omit [LinearOrder α] in
theorem release_heap {w : World α} {s : Slot α} {b : Nat} (h : s.own ≠ some b) :
    (w.release s).heap b = w.heap b := by
  unfold World.release
  split
  · rfl
  · rename_i b' hb'
    exact put_ne _ _ (fun e => h (by rw [hb', e]))

omit [LinearOrder α] in
theorem release_next (w : World α) (s : Slot α) : (w.release s).next = w.next := by
  unfold World.release; split <;> rfl

theorem empty_rel : Rel (World.empty : World α) (fun _ => .absent) := by
  refine ⟨?_, ?_, ?_, ?_, ?_⟩
  · intro _ _ h; cases h
  · intro _ _; rfl
  · intro _ _ _ h; cases h
  · intro _ _ _ _ _ h; cases h
  · intro _ _ h; cases h

/-- Change of one object, with the blocks of the others as they were. -/
theorem rel_put {w w' : World α} {T : Nat → Meaning α} (R : Rel w T) (k : Nat) (os : Option (Slot α))
    (m : Meaning α) (hobjs : w'.objs = put w.objs k os) (hnext : w.next ≤ w'.next)
    (hframe : ∀ j s b, j ≠ k → w.objs j = some s → s.own = some b → w'.heap b = w.heap b)
    (hnew : ∀ s, os = some s → Agrees w' s m ∧ s.itBlk < w'.next ∧ ∀ b, s.own = some b → b < w'.next ∧
      (∃ buffer, w'.heap b = some buffer) ∧ ∀ j s', j ≠ k → w.objs j = some s' → s'.own ≠ some b)
    (hnone : os = none → m = .absent) : Rel w' (put T k m) := by
  refine ⟨?_, ?_, ?_, ?_, ?_⟩
  · intro j s hj
    rw [hobjs] at hj
    by_cases e : j = k
    · subst e
      rw [put_same] at hj ⊢
      exact (hnew s hj).1
    · rw [put_ne _ _ e] at hj ⊢
      exact agrees_frame (R.present j s hj) (fun b hb => hframe j s b e hj hb)
  · intro j hj
    rw [hobjs] at hj
    by_cases e : j = k
    · subst e
      rw [put_same] at hj ⊢
      exact hnone hj
    · rw [put_ne _ _ e] at hj ⊢
      exact R.absent j hj
  · intro j s b hj hb
    rw [hobjs] at hj
    by_cases e : j = k
    · subst e
      rw [put_same] at hj
      have h := (hnew s hj).2.2 b hb
      exact ⟨h.1, h.2.1⟩
    · rw [put_ne _ _ e] at hj
      obtain ⟨h1, buffer, h2⟩ := R.block j s b hj hb
      exact ⟨by omega, buffer, by rw [hframe j s b e hj hb, h2]⟩
  · intro j j' s s' b hj hj' hb hb'
    rw [hobjs] at hj hj'
    by_cases e : j = k
    · by_cases e' : j' = k
      · omega
      · subst e
        rw [put_same] at hj
        rw [put_ne _ _ e'] at hj'
        exact absurd hb' (((hnew s hj).2.2 b hb).2.2 j' s' e' hj')
    · by_cases e' : j' = k
      · subst e'
        rw [put_same] at hj'
        rw [put_ne _ _ e] at hj
        exact absurd hb (((hnew s' hj').2.2 b hb').2.2 j s e hj)
      · rw [put_ne _ _ e] at hj
        rw [put_ne _ _ e'] at hj'
        exact R.distinct j j' s s' b hj hj' hb hb'
  · intro j s hj
    rw [hobjs] at hj
    by_cases e : j = k
    · subst e
      rw [put_same] at hj
      exact (hnew s hj).2.1
    · rw [put_ne _ _ e] at hj
      have := R.itOld j s hj
      omega

theorem put_comm {β : Type} (f : Nat → β) {j k : Nat} (x y : β) (h : j ≠ k) :
    put (put f j x) k y = put (put f k y) j x := by
  funext i
  unfold put
  by_cases h1 : i = k
  · have : i ≠ j := by omega
    simp [h1, Ne.symm h]
  · simp [h1]

theorem put_put {β : Type} (f : Nat → β) (k : Nat) (x y : β) : put (put f k x) k y = put f k y := by
  funext i
  unfold put
  by_cases h1 : i = k <;> simp [h1]

theorem put_self {β : Type} (f : Nat → β) (k : Nat) : put f k (f k) = f := by
  funext i
  unfold put
  by_cases h1 : i = k <;> simp [h1]

theorem Rel.fresh {w : World α} {T : Nat → Meaning α} (R : Rel w T) (j : Nat) (s : Slot α) (b : Nat)
    (hj : w.objs j = some s) (hb : s.own = some b) : b ≠ w.next := by
  have := (R.block j s b hj hb).1; omega

/-- An object that was moved from. -/
theorem rel_movedFrom {w : World α} {T : Nat → Meaning α} (R : Rel w T) {k : Nat} {s : Slot α}
    (hk : w.objs k = some s) :
    Rel { w with objs := put w.objs k (some { s with own := none }) } (put T k .movedFrom) := by
  refine rel_put R k _ .movedFrom rfl (Nat.le_refl _) (fun _ _ _ _ _ _ => rfl) ?_ (fun h => by cases h)
  intro s' h
  cases h
  exact ⟨trivial, R.itOld k s hk, fun b hb => by cases hb⟩

/-- Every operation keeps the invariant. -/
theorem step_rel {zero : α} {w w' : World α} {T : Nat → Meaning α} (R : Rel w T) {p : Op α}
    (h : step ops zero w p = .ok w') : Rel w' (meaningStep T p) := by
  cases p with
  | new k memory =>
    simp only [step] at h
    cases hk : w.objs k with
    | some s => rw [hk] at h; cases h
    | none =>
      rw [hk] at h
      cases h
      refine rel_put R k _ _ rfl (Nat.le_succ _) (fun j s b _ hj hb => put_ne _ _ (R.fresh j s b hj hb)) ?_
        (fun h => by cases h)
      intro s h
      cases h
      refine ⟨⟨_, _, rfl, put_same _ _ _, by simp, fun hm => init_inv zero hm⟩, Nat.lt_succ_self _, ?_⟩
      intro b hb
      cases hb
      exact ⟨Nat.lt_succ_self _, ⟨_, put_same _ _ _⟩, fun j s' _ hj hb => R.fresh j s' _ hj hb rfl⟩
  | copy k src =>
    simp only [step] at h
    cases hk : w.objs k with
    | some s => rw [hk] at h; cases h
    | none =>
      cases hs : w.objs src with
      | none => rw [hk, hs] at h; cases h
      | some s =>
        rw [hk, hs] at h
        cases h
        refine rel_put R k _ _ rfl (Nat.le_succ _) (fun j s b _ hj hb => put_ne _ _ (R.fresh j s b hj hb)) ?_
          (fun h => by cases h)
        intro s' h
        cases h
        refine ⟨agrees_copied (R.present src s hs) (put_same _ _ _), Nat.lt_succ_of_lt (R.itOld src s hs), ?_⟩
        intro b hb
        cases hb
        exact ⟨Nat.lt_succ_self _, ⟨_, put_same _ _ _⟩, fun j s' _ hj hb => R.fresh j s' _ hj hb rfl⟩
  | move k src =>
    simp only [step] at h
    cases hk : w.objs k with
    | some s => rw [hk] at h; cases h
    | none =>
      cases hs : w.objs src with
      | none => rw [hk, hs] at h; cases h
      | some s =>
        rw [hk, hs] at h
        cases h
        have hne : k ≠ src := by rintro rfl; rw [hk] at hs; cases hs
        simp only [meaningStep]
        rw [put_comm _ _ _ hne, put_comm _ _ _ hne]
        refine rel_put (rel_movedFrom R hs) k _ _ rfl (Nat.le_refl _) (fun _ _ _ _ _ _ => rfl) ?_
          (fun h => by cases h)
        intro s' h
        cases h
        refine ⟨agrees_frame (R.present src s hs) (fun _ _ => rfl), R.itOld src s hs, ?_⟩
        intro b hb
        obtain ⟨h1, h2⟩ := R.block src s b hs hb
        refine ⟨h1, h2, ?_⟩
        intro j s' _ hj hb'
        simp only at hj
        by_cases e : j = src
        · subst e; rw [put_same] at hj; cases hj; cases hb'
        · rw [put_ne _ _ e] at hj
          exact e (R.distinct j src s' s b hj hs hb' hb)
  | copyAssign k src reuse =>
    simp only [step] at h
    cases hk : w.objs k with
    | none => rw [hk] at h; cases h
    | some t =>
      cases hs : w.objs src with
      | none => rw [hk, hs] at h; cases h
      | some s =>
        rw [hk, hs] at h
        simp only [meaningStep]
        by_cases e : k = src
        · simp only [e, if_true] at h
          cases h
          rw [e, put_self]
          exact R
        · simp only [e, if_false] at h
          have other : ∀ b, t.own = some b → ∀ j s', j ≠ k → w.objs j = some s' → s'.own ≠ some b :=
            fun b hb j s' hj hj' hb' => hj (R.distinct j k s' t b hj' hk hb' hb)
          cases ht : t.own with
          | none =>
            rw [ht] at h
            cases h
            refine rel_put R k _ _ rfl (Nat.le_succ _) ?_ ?_ (fun h => by cases h)
            · intro j s b _ hj hb
              dsimp only
              rw [put_ne _ _ (R.fresh j s b hj hb), release_heap (by rw [ht]; exact fun h => by cases h)]
            · intro s' h
              cases h
              refine ⟨agrees_copied (R.present src s hs) (put_same _ _ _),
                Nat.lt_succ_of_lt (R.itOld src s hs), ?_⟩
              intro b hb
              cases hb
              exact ⟨Nat.lt_succ_self _, ⟨_, put_same _ _ _⟩, fun j s' _ hj hb => R.fresh j s' _ hj hb rfl⟩
          | some b₀ =>
            rw [ht] at h
            cases reuse with
            | true =>
              cases h
              refine rel_put R k _ _ rfl (Nat.le_refl _) ?_ ?_ (fun h => by cases h)
              · intro j s' b hj hj' hb
                exact put_ne _ _ (fun e => other b₀ ht j s' hj hj' (by rw [hb, e]))
              · intro s' h
                cases h
                refine ⟨agrees_copied (R.present src s hs) (put_same _ _ _), R.itOld src s hs, ?_⟩
                intro b hb
                cases hb
                exact ⟨(R.block k t _ hk ht).1, ⟨_, put_same _ _ _⟩, other _ ht⟩
            | false =>
              cases h
              refine rel_put R k _ _ rfl (Nat.le_succ _) ?_ ?_ (fun h => by cases h)
              · intro j s' b hj hj' hb
                dsimp only
                rw [put_ne _ _ (R.fresh j s' b hj' hb),
                  release_heap (fun h => other b h j s' hj hj' hb)]
              · intro s' h
                cases h
                refine ⟨agrees_copied (R.present src s hs) (put_same _ _ _),
                  Nat.lt_succ_of_lt (R.itOld src s hs), ?_⟩
                intro b hb
                cases hb
                exact ⟨Nat.lt_succ_self _, ⟨_, put_same _ _ _⟩, fun j s' _ hj hb => R.fresh j s' _ hj hb rfl⟩
  | moveAssign k src =>
    simp only [step] at h
    cases hk : w.objs k with
    | none => rw [hk] at h; cases h
    | some t =>
      cases hs : w.objs src with
      | none => rw [hk, hs] at h; cases h
      | some s =>
        rw [hk, hs] at h
        by_cases e : k = src
        · simp only [e, if_true] at h; cases h
        · simp only [e, if_false] at h
          cases h
          simp only [meaningStep]
          have hts : ∀ b, s.own = some b → t.own ≠ some b :=
            fun b hb hb' => e (R.distinct k src t s b hk hs hb' hb)
          rw [put_comm _ _ _ e, put_comm _ _ _ e]
          refine rel_put (rel_movedFrom R hs) k _ _ rfl (Nat.le_of_eq (release_next w t).symm) ?_ ?_
            (fun h => by cases h)
          · intro j s' b hj hj' hb
            refine release_heap (fun hb' => ?_)
            simp only at hj'
            by_cases e' : j = src
            · subst e'; rw [put_same] at hj'; cases hj'; cases hb
            · rw [put_ne _ _ e'] at hj'
              exact hj (R.distinct j k s' t b hj' hk hb hb')
          · intro s' h
            cases h
            refine ⟨agrees_frame (R.present src s hs) (fun b hb => release_heap (hts b hb)),
              Nat.lt_of_lt_of_eq (R.itOld src s hs) (release_next w t).symm, ?_⟩
            intro b hb
            obtain ⟨h1, buffer, h2⟩ := R.block src s b hs hb
            refine ⟨Nat.lt_of_lt_of_eq h1 (release_next w t).symm,
              ⟨buffer, (release_heap (hts b hb)).trans h2⟩, ?_⟩
            intro j s' _ hj hb'
            simp only at hj
            by_cases e' : j = src
            · subst e'; rw [put_same] at hj; cases hj; cases hb'
            · rw [put_ne _ _ e'] at hj
              exact e' (R.distinct j src s' s b hj hs hb' hb)
  | destroy k =>
    simp only [step] at h
    cases hk : w.objs k with
    | none => rw [hk] at h; cases h
    | some t =>
      rw [hk] at h
      cases h
      refine rel_put R k none .absent rfl (Nat.le_of_eq (release_next w t).symm) ?_ (fun _ h => by cases h)
        (fun _ => rfl)
      intro j s' b hj hj' hb
      exact release_heap (fun hb' => hj (R.distinct j k s' t b hj' hk hb hb'))
  | add k x =>
    simp only [step] at h
    cases hk : w.objs k with
    | none => rw [hk] at h; cases h
    | some s =>
      rw [hk] at h
      simp only at h
      cases ho : s.own with
      | none => rw [ho] at h; cases h
      | some b =>
        rw [ho] at h
        simp only at h
        by_cases hb : s.itBlk = b
        · rw [if_pos hb] at h
          obtain ⟨h', ha, h⟩ := (res_bind_ok ..).1 h
          cases h
          simp only [meaningStep]
          have frame : ∀ j s' b', j ≠ k → w.objs j = some s' → s'.own = some b' →
              put w.heap b (some h'.buffer) b' = w.heap b' := by
            intro j s' b' hj hj' hb'
            exact put_ne _ _ (fun e => hj (R.distinct j k s' s b hj' hk (by rw [hb', e]) ho))
          have blocks : ∀ b', s.own = some b' → b' < w.next ∧
              (∃ buffer, put w.heap b (some h'.buffer) b' = some buffer) ∧
              ∀ j s', j ≠ k → w.objs j = some s' → s'.own ≠ some b' := by
            intro b' hb'
            rw [ho] at hb'
            cases hb'
            exact ⟨(R.block k s b hk ho).1, ⟨_, put_same _ _ _⟩,
              fun j s' hj hj' hb' => hj (R.distinct j k s' s b hj' hk hb' ho)⟩
          have hag := R.present k s hk
          cases hT : T k with
          | absent => rw [hT] at hag; exact hag.elim
          | movedFrom =>
            have : T = put T k .movedFrom := by rw [← hT, put_self]
            simp only
            rw [this]
            refine rel_put R k _ _ rfl (Nat.le_refl _) frame ?_ (fun h => by cases h)
            intro s' h
            cases h
            exact ⟨trivial, R.itOld k s hk, fun b' hb' => blocks b' (by rw [ho]; exact hb')⟩
          | holds memory xs =>
            simp only
            refine rel_put R k _ _ rfl (Nat.le_refl _) frame ?_ (fun h => by cases h)
            intro s' h
            cases h
            refine ⟨?_, R.itOld k s hk, fun b' hb' => blocks b' (by rw [ho]; exact hb')⟩
            rw [hT] at hag
            obtain ⟨b', buffer, h1, h2, h3, h4⟩ := hag
            rw [ho] at h1
            cases h1
            rw [content_eq ho h2] at ha
            by_cases hm : 0 < memory
            · obtain ⟨h'', ha', hi⟩ := add_inv (h4 hm) x
              rw [ha] at ha'
              cases ha'
              exact ⟨b, h'.buffer, rfl, put_same _ _ _, hi.len, fun _ => hi⟩
            · have : buffer = [] := by cases buffer with
                | nil => rfl
                | cons _ _ => simp at h3; omega
              subst this
              simp [add] at ha
        · rw [if_neg hb] at h; cases h

theorem run_rel {zero : α} {w w' : World α} {T : Nat → Meaning α} (R : Rel w T) {ps : List (Op α)}
    (h : run ops zero w ps = .ok w') : Rel w' (ps.foldl meaningStep T) := by
  induction ps generalizing w T with
  | nil => cases h; exact R
  | cons p ps ih =>
    obtain ⟨w₁, h1, h2⟩ := (res_bind_ok ..).1 h
    exact ih (step_rel R h1) h2

/-- **C27**, for every history in which no operation is undefined, copies included: an object that stands
for the values `xs` has the maximum of the last `memory` of them as its `max()`. -/
theorem histories_max {zero : α} {ps : List (Op α)} {w : World α} (h : run ops zero World.empty ps = .ok w)
    {k memory : Nat} {xs : List α} (hk : meaning ps k = .holds memory xs) (hm : 0 < memory) (hx : xs ≠ []) :
    ∃ s, w.objs k = some s ∧ IsMax (lastN memory xs) s.max := by
  have R : Rel w (meaning ps) := run_rel empty_rel h
  cases hs : w.objs k with
  | none => rw [R.absent k hs] at hk; cases hk
  | some s =>
    have ha := R.present k s hs
    rw [hk] at ha
    obtain ⟨_, _, _, _, _, h4⟩ := ha
    exact ⟨s, rfl, (h4 hm).isMax hx⟩

/-- When `add` is defined: the memory is not empty and the iterator points into the object's own vector. -/
theorem add_defined_iff {zero : α} {ps : List (Op α)} {w : World α} (h : run ops zero World.empty ps = .ok w)
    {k memory : Nat} {xs : List α} (hk : meaning ps k = .holds memory xs) {s : Slot α}
    (hs : w.objs k = some s) (x : α) :
    (∃ w', step ops zero w (.add k x) = .ok w') ↔ 0 < memory ∧ s.own = some s.itBlk := by
  have R : Rel w (meaning ps) := run_rel empty_rel h
  have ha := R.present k s hs
  rw [hk] at ha
  obtain ⟨b, buffer, h1, h2, h3, h4⟩ := ha
  simp only [step, hs, h1]
  by_cases hb : s.itBlk = b
  · rw [if_pos hb, content_eq h1 h2]
    by_cases hm : 0 < memory
    · obtain ⟨h', ha, -⟩ := add_inv (h4 hm) x
      rw [ha]
      exact ⟨fun _ => ⟨hm, by rw [hb]⟩, fun _ => ⟨_, rfl⟩⟩
    · have : buffer = [] := by
        cases buffer with
        | nil => rfl
        | cons _ _ => simp at h3; omega
      subst this
      refine ⟨fun ⟨w', h⟩ => ?_, fun h => absurd h.1 hm⟩
      have : add ops { buffer := ([] : List α), full := s.full, it := s.it, max := s.max } x = .error .ub := by
        simp [add]
      rw [this] at h
      cases h
  · rw [if_neg hb]
    refine ⟨fun ⟨w', h⟩ => (by cases h), fun h => ?_⟩
    have := h.2
    injection this with this
    exact absurd this.symm hb

/-! ## Which objects can be added to -/

/-- The objects that are not copies, directly or by a move from a copy. -/
def originalStep (F : Nat → Bool) : Op α → Nat → Bool
  | .new k _ => put F k true
  | .copy k _ => put F k false
  | .move k src => put (put F k (F src)) src false
  | .copyAssign k src _ => if k = src then F else put F k false
  | .moveAssign k src => put (put F k (F src)) src false
  | .destroy k => put F k false
  | .add _ _ => F

/-- Whether the object is an original after a history. -/
def original (ps : List (Op α)) : Nat → Bool := ps.foldl originalStep (fun _ => false)

/-- Operations that a program may do, as far as the specification is concerned, except for `add` on a
copy. -/
def Legal (T : Nat → Meaning α) (F : Nat → Bool) : Op α → Prop
  | .new k _ => T k = .absent
  | .copy k src => T k = .absent ∧ T src ≠ .absent
  | .move k src => T k = .absent ∧ T src ≠ .absent
  | .copyAssign k src _ => T k ≠ .absent ∧ T src ≠ .absent
  | .moveAssign k src => T k ≠ .absent ∧ T src ≠ .absent ∧ k ≠ src
  | .destroy k => T k ≠ .absent
  | .add k _ => (∃ memory xs, T k = .holds memory xs ∧ 0 < memory) ∧ F k = true

/-- All operations of the history are legal where they happen. -/
def LegalRun (T : Nat → Meaning α) (F : Nat → Bool) : List (Op α) → Prop
  | [] => True
  | p :: ps => Legal T F p ∧ LegalRun (meaningStep T p) (originalStep F p) ps

/-- The iterators of originals point into their own vectors. -/
def Points (w : World α) (F : Nat → Bool) : Prop :=
  ∀ k s, w.objs k = some s → F k = true → s.own = some s.itBlk

omit [LinearOrder α] in
theorem points_put {w w' : World α} {F : Nat → Bool} (P : Points w F) {k : Nat} {os : Option (Slot α)} {f : Bool}
    (hobjs : w'.objs = put w.objs k os) (hnew : ∀ s, os = some s → f = true → s.own = some s.itBlk) :
    Points w' (put F k f) := by
  intro j s hj hf
  rw [hobjs] at hj
  by_cases e : j = k
  · subst e
    rw [put_same] at hj hf
    exact hnew s hj hf
  · rw [put_ne _ _ e] at hj hf
    exact P j s hj hf

theorem step_points {zero : α} {w w' : World α} {F : Nat → Bool} (P : Points w F) {p : Op α} (h : step ops zero w p = .ok w') : Points w' (originalStep F p) := by
  cases p with
  | new k memory =>
    simp only [step] at h
    cases hk : w.objs k with
    | some s => rw [hk] at h; cases h
    | none =>
      rw [hk] at h
      cases h
      exact points_put P rfl (fun s hs _ => by cases hs; rfl)
  | copy k src =>
    simp only [step] at h
    cases hk : w.objs k with
    | some s => rw [hk] at h; cases h
    | none =>
      cases hs : w.objs src with
      | none => rw [hk, hs] at h; cases h
      | some s =>
        rw [hk, hs] at h
        cases h
        exact points_put P rfl (fun s _ hf => by cases hf)
  | move k src =>
    simp only [step] at h
    cases hk : w.objs k with
    | some s => rw [hk] at h; cases h
    | none =>
      cases hs : w.objs src with
      | none => rw [hk, hs] at h; cases h
      | some s =>
        rw [hk, hs] at h
        cases h
        refine points_put (points_put (w' := { w with objs := put w.objs k (some s) }) P rfl ?_) rfl
          (fun s _ hf => by cases hf)
        intro s' e hf
        cases e
        exact P src s hs hf
  | copyAssign k src reuse =>
    simp only [step] at h
    cases hk : w.objs k with
    | none => rw [hk] at h; cases h
    | some t =>
      cases hs : w.objs src with
      | none => rw [hk, hs] at h; cases h
      | some s =>
        rw [hk, hs] at h
        simp only [originalStep]
        by_cases e : k = src
        · simp only [e, if_true] at h ⊢
          cases h
          exact P
        · simp only [e, if_false] at h ⊢
          split at h <;> cases h <;> exact points_put P rfl (fun s _ hf => by cases hf)
  | moveAssign k src =>
    simp only [step] at h
    cases hk : w.objs k with
    | none => rw [hk] at h; cases h
    | some t =>
      cases hs : w.objs src with
      | none => rw [hk, hs] at h; cases h
      | some s =>
        rw [hk, hs] at h
        by_cases e : k = src
        · simp only [e, if_true] at h; cases h
        · simp only [e, if_false] at h
          cases h
          refine points_put (points_put (w' := { w with objs := put w.objs k (some s) }) P rfl ?_) rfl
            (fun s _ hf => by cases hf)
          intro s' e hf
          cases e
          exact P src s hs hf
  | destroy k =>
    simp only [step] at h
    cases hk : w.objs k with
    | none => rw [hk] at h; cases h
    | some t =>
      rw [hk] at h
      cases h
      exact points_put P rfl (fun s hs _ => by cases hs)
  | add k x =>
    simp only [step] at h
    cases hk : w.objs k with
    | none => rw [hk] at h; cases h
    | some s =>
      rw [hk] at h
      simp only at h
      cases ho : s.own with
      | none => rw [ho] at h; cases h
      | some b =>
        rw [ho] at h
        simp only at h
        by_cases hb : s.itBlk = b
        · rw [if_pos hb] at h
          obtain ⟨h', ha, h⟩ := (res_bind_ok ..).1 h
          cases h
          have := points_put (f := F k) P rfl (w' := { w with objs := put w.objs k (some { own := some b, full := h'.full, itBlk := s.itBlk, it := h'.it, max := h'.max }) })
            (fun s' e _ => by cases e; rw [hb])
          rw [put_self] at this
          exact this
        · rw [if_neg hb] at h; cases h

omit [LinearOrder α] in
theorem rel_present {w : World α} {T : Nat → Meaning α} (h : ∀ k, w.objs k = none → T k = .absent) {k : Nat}
    (hk : T k ≠ .absent) : ∃ s, w.objs k = some s := by
  cases hs : w.objs k with
  | none => exact absurd (h k hs) hk
  | some s => exact ⟨s, rfl⟩

theorem rel_absent {w : World α} {T : Nat → Meaning α} (R : Rel w T) {k : Nat}
    (hk : T k = .absent) : w.objs k = none := by
  cases hs : w.objs k with
  | none => rfl
  | some s => have := R.present k s hs; rw [hk] at this; exact this.elim

/-- Legal operations are defined. -/
theorem step_legal {zero : α} {w : World α} {T : Nat → Meaning α} {F : Nat → Bool} (R : Rel w T)
    (P : Points w F) {p : Op α} (h : Legal T F p) : ∃ w', step ops zero w p = .ok w' := by
  cases p with
  | new k memory => simp only [step, rel_absent R h]; exact ⟨_, rfl⟩
  | copy k src =>
    obtain ⟨s, hs⟩ := rel_present R.absent h.2
    simp only [step, rel_absent R h.1, hs]
    exact ⟨_, rfl⟩
  | move k src =>
    obtain ⟨s, hs⟩ := rel_present R.absent h.2
    simp only [step, rel_absent R h.1, hs]
    exact ⟨_, rfl⟩
  | copyAssign k src reuse =>
    obtain ⟨t, ht⟩ := rel_present R.absent h.1
    obtain ⟨s, hs⟩ := rel_present R.absent h.2
    simp only [step, ht, hs]
    by_cases e : k = src
    · rw [if_pos e]; exact ⟨_, rfl⟩
    · rw [if_neg e]
      split <;> exact ⟨_, rfl⟩
  | moveAssign k src =>
    obtain ⟨t, ht⟩ := rel_present R.absent h.1
    obtain ⟨s, hs⟩ := rel_present R.absent h.2.1
    simp only [step, ht, hs, h.2.2, if_false]
    exact ⟨_, rfl⟩
  | destroy k =>
    obtain ⟨t, ht⟩ := rel_present R.absent h
    simp only [step, ht]
    exact ⟨_, rfl⟩
  | add k x =>
    obtain ⟨⟨memory, xs, hT, hm⟩, hF⟩ := h
    obtain ⟨s, hs⟩ := rel_present R.absent (by rw [hT]; exact fun h => by cases h)
    have ha := R.present k s hs
    rw [hT] at ha
    obtain ⟨b, buffer, h1, h2, h3, h4⟩ := ha
    have hp := P k s hs hF
    rw [h1] at hp
    injection hp with hp
    obtain ⟨h', ha, -⟩ := add_inv (h4 hm) x
    simp only [step, hs, h1, if_pos hp.symm, content_eq h1 h2, ha]
    exact ⟨_, rfl⟩

theorem run_legal {zero : α} {w : World α} {T : Nat → Meaning α} {F : Nat → Bool} (R : Rel w T)
    (P : Points w F) {ps : List (Op α)} (h : LegalRun T F ps) : ∃ w', run ops zero w ps = .ok w' := by
  induction ps generalizing w T F with
  | nil => exact ⟨w, rfl⟩
  | cons p ps ih =>
    obtain ⟨w₁, h1⟩ := step_legal (zero := zero) R P h.1
    obtain ⟨w₂, h2⟩ := ih (step_rel R h1) (step_points P h1) h.2
    exact ⟨w₂, by simp only [run, h1, res_ok_bind]; exact h2⟩

/-- **C27**: a program that adds values to originals only, and otherwise copies, moves, assigns and destroys
objects as it likes, never runs into undefined behaviour, and every object has the right maximum. -/
theorem histories_defined {zero : α} {ps : List (Op α)} (h : LegalRun (fun _ => .absent) (fun _ => false) ps) :
    ∃ w, run ops zero World.empty ps = .ok w ∧
      ∀ k memory xs, meaning ps k = .holds memory xs → 0 < memory → xs ≠ [] →
        ∃ s, w.objs k = some s ∧ IsMax (lastN memory xs) s.max := by
  obtain ⟨w, hw⟩ := run_legal (zero := zero) empty_rel (fun _ _ h => by cases h) h
  exact ⟨w, hw, fun k memory xs hk hm hx => histories_max hw hk hm hx⟩

/-! ## Copies cannot be added to -/

/-- The iterators of copies point into an older vector. -/
def Stale (w : World α) (F : Nat → Bool) : Prop :=
  ∀ k s b, w.objs k = some s → F k = false → s.own = some b → s.itBlk < b

/-- Vectors get new memory when they are assigned to. -/
def NoReuse : Op α → Prop
  | .copyAssign _ _ reuse => reuse = false
  | _ => True

omit [LinearOrder α] in
theorem stale_put {w w' : World α} {F : Nat → Bool} (P : Stale w F) {k : Nat} {os : Option (Slot α)} {f : Bool}
    (hobjs : w'.objs = put w.objs k os) (hnew : ∀ s b, os = some s → f = false → s.own = some b → s.itBlk < b) :
    Stale w' (put F k f) := by
  intro j s b hj hf hb
  rw [hobjs] at hj
  by_cases e : j = k
  · subst e
    rw [put_same] at hj hf
    exact hnew s b hj hf hb
  · rw [put_ne _ _ e] at hj hf
    exact P j s b hj hf hb

theorem step_stale {zero : α} {w w' : World α} {T : Nat → Meaning α} {F : Nat → Bool} (R : Rel w T)
    (P : Stale w F) {p : Op α} (hp : NoReuse p) (h : step ops zero w p = .ok w') :
    Stale w' (originalStep F p) := by
  cases p with
  | new k memory =>
    simp only [step] at h
    cases hk : w.objs k with
    | some s => rw [hk] at h; cases h
    | none =>
      rw [hk] at h
      cases h
      exact stale_put P rfl (fun s _ _ hf _ => by cases hf)
  | copy k src =>
    simp only [step] at h
    cases hk : w.objs k with
    | some s => rw [hk] at h; cases h
    | none =>
      cases hs : w.objs src with
      | none => rw [hk, hs] at h; cases h
      | some s =>
        rw [hk, hs] at h
        cases h
        exact stale_put P rfl (fun s' b e _ hb => by cases e; cases hb; exact R.itOld src s hs)
  | move k src =>
    simp only [step] at h
    cases hk : w.objs k with
    | some s => rw [hk] at h; cases h
    | none =>
      cases hs : w.objs src with
      | none => rw [hk, hs] at h; cases h
      | some s =>
        rw [hk, hs] at h
        cases h
        refine stale_put (stale_put (w' := { w with objs := put w.objs k (some s) }) P rfl ?_) rfl
          (fun s' b e _ hb => by cases e; cases hb)
        intro s' b e hf hb
        cases e
        exact P src s b hs hf hb
  | copyAssign k src reuse =>
    simp only [step] at h
    cases hk : w.objs k with
    | none => rw [hk] at h; cases h
    | some t =>
      cases hs : w.objs src with
      | none => rw [hk, hs] at h; cases h
      | some s =>
        rw [hk, hs] at h
        simp only [originalStep]
        by_cases e : k = src
        · simp only [e, if_true] at h ⊢
          cases h
          exact P
        · simp only [e, if_false] at h ⊢
          have hp : reuse = false := hp
          subst hp
          split at h
          · rename_i h'; cases h'
          · cases h
            exact stale_put P rfl (fun s' b e _ hb => by cases e; cases hb; exact R.itOld src s hs)
  | moveAssign k src =>
    simp only [step] at h
    cases hk : w.objs k with
    | none => rw [hk] at h; cases h
    | some t =>
      cases hs : w.objs src with
      | none => rw [hk, hs] at h; cases h
      | some s =>
        rw [hk, hs] at h
        by_cases e : k = src
        · simp only [e, if_true] at h; cases h
        · simp only [e, if_false] at h
          cases h
          refine stale_put (stale_put (w' := { w with objs := put w.objs k (some s) }) P rfl ?_) rfl
            (fun s' b e _ hb => by cases e; cases hb)
          intro s' b e hf hb
          cases e
          exact P src s b hs hf hb
  | destroy k =>
    simp only [step] at h
    cases hk : w.objs k with
    | none => rw [hk] at h; cases h
    | some t =>
      rw [hk] at h
      cases h
      exact stale_put P rfl (fun s _ hs _ _ => by cases hs)
  | add k x =>
    simp only [step] at h
    cases hk : w.objs k with
    | none => rw [hk] at h; cases h
    | some s =>
      rw [hk] at h
      simp only at h
      cases ho : s.own with
      | none => rw [ho] at h; cases h
      | some b =>
        rw [ho] at h
        simp only at h
        by_cases hb : s.itBlk = b
        · rw [if_pos hb] at h
          obtain ⟨h', ha, h⟩ := (res_bind_ok ..).1 h
          cases h
          have := stale_put (f := F k) P rfl (w' := { w with objs := put w.objs k (some { own := some b, full := h'.full, itBlk := s.itBlk, it := h'.it, max := h'.max }) })
            (fun s' b' e hf hb' => by cases e; cases hb'; exact P k s b hk hf ho)
          rw [put_self] at this
          exact this
        · rw [if_neg hb] at h; cases h

theorem run_invs {zero : α} {w w' : World α} {F : Nat → Bool} (P : Points w F) {ps : List (Op α)} (h : run ops zero w ps = .ok w') :
    Points w' (ps.foldl originalStep F) := by
  induction ps generalizing w F with
  | nil => cases h; exact P
  | cons p ps ih =>
    obtain ⟨w₁, h1, h2⟩ := (res_bind_ok ..).1 h
    exact ih (step_points P h1) h2

theorem run_stale {zero : α} {w w' : World α} {T : Nat → Meaning α} {F : Nat → Bool} (R : Rel w T)
    (P : Stale w F) {ps : List (Op α)} (hp : ∀ p ∈ ps, NoReuse p) (h : run ops zero w ps = .ok w') :
    Stale w' (ps.foldl originalStep F) := by
  induction ps generalizing w T F with
  | nil => cases h; exact P
  | cons p ps ih =>
    obtain ⟨w₁, h1, h2⟩ := (res_bind_ok ..).1 h
    exact ih (step_rel R h1) (step_stale R P (hp p (by simp)) h1) (fun q hq => hp q (by simp [hq])) h2

/-- **C27**, exactly: if vectors that are assigned to get new memory, `add` is defined precisely for
originals with a memory that is not empty. On a copy, or what was moved from a copy, it is undefined. -/
theorem add_defined_iff_original {zero : α} {ps : List (Op α)} (hp : ∀ p ∈ ps, NoReuse p) {w : World α}
    (h : run ops zero World.empty ps = .ok w) {k memory : Nat} {xs : List α}
    (hk : meaning ps k = .holds memory xs) (x : α) :
    (∃ w', step ops zero w (.add k x) = .ok w') ↔ 0 < memory ∧ original ps k = true := by
  have R : Rel w (meaning ps) := run_rel empty_rel h
  have P : Points w (original ps) := run_invs (F := fun _ => false) (fun _ _ h => by cases h) h
  have S : Stale w (original ps) :=
    run_stale (F := fun _ => false) empty_rel (fun _ _ _ h => by cases h) hp h
  obtain ⟨s, hs⟩ := rel_present R.absent (by rw [hk]; exact fun h => by cases h)
  rw [add_defined_iff h hk hs]
  refine and_congr_right fun _ => ⟨fun ho => ?_, fun hf => P k s hs hf⟩
  cases hf : original ps k with
  | true => rfl
  | false => exact absurd (S k s _ hs hf ho) (Nat.lt_irrefl _)

/-- Originals and copies with histories of their own: the copy's maximum stays what it was. -/
example : ∃ w, run (ops (α := Nat)) 0 World.empty
    [.new 0 2, .add 0 7, .copy 1 0, .add 0 5, .add 0 4, .move 2 0, .add 2 1, .destroy 0] = .ok w ∧
    (w.objs 1).map Slot.max = some 7 ∧ (w.objs 2).map Slot.max = some 4 := by
  refine ⟨_, rfl, ?_, ?_⟩ <;> decide

example : LegalRun (α := Nat) (fun _ => .absent) (fun _ => false)
    [.new 0 2, .add 0 7, .copy 1 0, .add 0 5, .move 2 0, .add 2 1, .copyAssign 1 2 true, .destroy 0] := by
  refine ⟨rfl, ⟨⟨2, [], rfl, by decide⟩, rfl⟩, ⟨rfl, fun h => (by cases h)⟩, ⟨⟨2, [7], rfl, by decide⟩, rfl⟩,
    ⟨rfl, fun h => (by cases h)⟩, ⟨⟨2, [7, 5], rfl, by decide⟩, rfl⟩,
    ⟨fun h => (by cases h), fun h => (by cases h)⟩, fun h => (by cases h), trivial⟩

/-- The copy cannot be added to. -/
example : (run (ops (α := Nat)) 0 World.empty [.new 0 2, .add 0 7, .copy 1 0, .add 1 5]) = .error .ub := rfl

/-- Assigned back into memory that is reused, the values can be added to again. -/
example : ∃ w, run (ops (α := Nat)) 0 World.empty
    [.new 0 2, .copy 1 0, .copyAssign 0 1 true, .add 0 5] = .ok w := ⟨_, rfl⟩

end Guanaqo.MaxHistory
