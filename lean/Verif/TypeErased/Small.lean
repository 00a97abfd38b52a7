import Verif.TypeErased.Props

/-!
# The small buffer (C57), and access to empty wrappers (C58)

`St.next` counts the blocks obtained from allocators so far. To show that small values need none,
compare the program with one whose allocators always fail.
-/

namespace Guanaqo.TypeErased

variable {V : Type} {cfg : Cfg}

/-! ## With allocators that always fail, nothing is allocated -/

def NextPres {α : Type} (m : M V α) : Prop := ∀ s,
  (∀ x s', m.run s = .ok x s' → s'.next = s.next) ∧ ∀ e s', m.run s = .thrown e s' → s'.next = s.next

theorem NextPres.pure {α : Type} (x : α) : NextPres (Pure.pure x : M V α) :=
  fun s => ⟨fun _ _ h => by cases h; rfl, fun _ _ h => by cases h⟩

theorem NextPres.fail {α : Type} (f : Fault) : NextPres (TypeErased.fail f : M V α) :=
  fun s => ⟨fun _ _ h => (by cases h), fun _ _ h => by cases h⟩

theorem NextPres.throwE {α : Type} (e : Exn) : NextPres (TypeErased.throwE e : M V α) :=
  fun s => ⟨fun _ _ h => (by cases h), fun _ _ h => by cases h; rfl⟩

theorem NextPres.assertM (b : Bool) : NextPres (TypeErased.assertM cfg b : M V Unit) := by
  unfold TypeErased.assertM
  split
  · exact .pure _
  · exact .fail _

theorem NextPres.bind {α β : Type} {m : M V α} {f : α → M V β} (h : NextPres m)
    (hf : ∀ x, NextPres (f x)) : NextPres (m >>= f) := by
  intro s
  cases hm : m.run s with
  | ok x s' =>
    rw [bind_ok hm]
    have h1 := (h s).1 x s' hm
    exact ⟨fun y s'' hy => ((hf x s').1 y s'' hy).trans h1,
      fun y s'' hy => ((hf x s').2 y s'' hy).trans h1⟩
  | thrown e s' =>
    rw [bind_thrown hm]
    exact ⟨fun _ _ hh => (by cases hh), fun _ _ hh => by cases hh; exact (h s).2 e _ hm⟩
  | fault f =>
    rw [bind_fault hm]
    exact ⟨fun _ _ hh => (by cases hh), fun _ _ hh => by cases hh⟩

theorem NextPres.onThrow {α : Type} {m : M V α} {c : M V Unit} (h : NextPres m) (hc : NextPres c) :
    NextPres (TypeErased.onThrow m c) := by
  intro s
  unfold TypeErased.onThrow
  cases hm : m.run s with
  | ok x s' =>
    exact ⟨fun _ _ hh => by simp only [hm] at hh; cases hh; exact (h s).1 _ _ hm,
      fun _ _ hh => by simp only [hm] at hh; cases hh⟩
  | thrown e s' =>
    have h1 := (h s).2 e s' hm
    cases hcc : c.run s' with
    | ok x s'' =>
      exact ⟨fun _ _ hh => (by simp only [hm, hcc] at hh; cases hh),
        fun _ _ hh => by simp only [hm, hcc] at hh; cases hh; exact ((hc s').1 _ _ hcc).trans h1⟩
    | thrown _ _ =>
      exact ⟨fun _ _ hh => (by simp only [hm, hcc] at hh; cases hh),
        fun _ _ hh => by simp only [hm, hcc] at hh; cases hh⟩
    | fault _ =>
      exact ⟨fun _ _ hh => (by simp only [hm, hcc] at hh; cases hh),
        fun _ _ hh => by simp only [hm, hcc] at hh; cases hh⟩
  | fault f =>
    exact ⟨fun _ _ hh => (by simp only [hm] at hh; cases hh),
      fun _ _ hh => by simp only [hm] at hh; cases hh⟩

theorem NextPres.noexcept {α : Type} {m : M V α} (h : NextPres m) : NextPres (TypeErased.noexcept m) := by
  intro s
  unfold TypeErased.noexcept
  cases hm : m.run s with
  | ok x s' =>
    exact ⟨fun _ _ hh => by simp only [hm] at hh; cases hh; exact (h s).1 _ _ hm,
      fun _ _ hh => by simp only [hm] at hh; cases hh⟩
  | thrown e s' =>
    exact ⟨fun _ _ hh => (by simp only [hm] at hh; cases hh),
      fun _ _ hh => by simp only [hm] at hh; cases hh⟩
  | fault f =>
    exact ⟨fun _ _ hh => (by simp only [hm] at hh; cases hh),
      fun _ _ hh => by simp only [hm] at hh; cases hh⟩

theorem NextPres.ite {α : Type} {c : Prop} [Decidable c] {m m' : M V α} (h : NextPres m)
    (h' : NextPres m') : NextPres (if c then m else m') := by
  split
  · exact h
  · exact h'

theorem NextPres.getW (w : Nat) : NextPres (TypeErased.getW w : M V _) := by
  intro s
  unfold TypeErased.getW
  cases h : s.wr w with
  | none => exact ⟨fun _ _ hh => (by simp only [h] at hh; cases hh),
      fun _ _ hh => by simp only [h] at hh; cases hh⟩
  | some W => exact ⟨fun _ _ hh => by simp only [h] at hh; cases hh; rfl,
      fun _ _ hh => by simp only [h] at hh; cases hh⟩

theorem NextPres.modW (w : Nat) (f : Wrapper V → Wrapper V) : NextPres (TypeErased.modW w f) := by
  intro s
  unfold TypeErased.modW
  cases h : s.wr w with
  | none => exact ⟨fun _ _ hh => (by simp only [h] at hh; cases hh),
      fun _ _ hh => by simp only [h] at hh; cases hh⟩
  | some W => exact ⟨fun _ _ hh => by simp only [h] at hh; cases hh; rfl,
      fun _ _ hh => by simp only [h] at hh; cases hh⟩

theorem NextPres.newW (w a : Nat) (vt : VTable) : NextPres (TypeErased.newW w a vt : M V Unit) := by
  intro s
  unfold TypeErased.newW
  cases h : s.wr w with
  | some _ => exact ⟨fun _ _ hh => (by simp only [h] at hh; cases hh),
      fun _ _ hh => by simp only [h] at hh; cases hh⟩
  | none => exact ⟨fun _ _ hh => by simp only [h] at hh; cases hh; rfl,
      fun _ _ hh => by simp only [h] at hh; cases hh⟩

theorem NextPres.endW (w : Nat) : NextPres (TypeErased.endW w : M V Unit) := by
  intro s
  unfold TypeErased.endW
  cases h : s.wr w with
  | none => exact ⟨fun _ _ hh => (by simp only [h] at hh; cases hh),
      fun _ _ hh => by simp only [h] at hh; cases hh⟩
  | some W =>
    constructor <;> intro x s' hh <;> simp only [h] at hh <;> split at hh <;> cases hh
    rfl

theorem setSlot_next (s : St V) (p : Ptr) (o : Option (Obj V)) : (s.setSlot p o).next = s.next := by
  cases p <;> rfl

theorem NextPres.construct (p : Ptr) (o : Obj V) : NextPres (TypeErased.construct cfg p o) := by
  intro s
  unfold TypeErased.construct
  constructor <;> intro x s' hh <;> dsimp only at hh <;> repeat' split at hh
  all_goals cases hh
  exact setSlot_next _ _ _

theorem NextPres.destroyAt (p : Ptr) (t : Nat) : NextPres (TypeErased.destroyAt cfg p t : M V Unit) := by
  intro s
  unfold TypeErased.destroyAt
  constructor <;> intro x s' hh <;> dsimp only at hh <;> repeat' split at hh
  all_goals cases hh
  exact setSlot_next _ _ _

theorem NextPres.readAs (p : Ptr) (t : Nat) : NextPres (TypeErased.readAs p t : M V V) := by
  intro s
  unfold TypeErased.readAs
  constructor <;> intro x s' hh <;> dsimp only at hh <;> repeat' split at hh
  all_goals cases hh
  rfl

theorem NextPres.writeAs (p : Ptr) (t : Nat) (f : V → V) : NextPres (TypeErased.writeAs p t f) := by
  intro s
  unfold TypeErased.writeAs
  constructor <;> intro x s' hh <;> dsimp only at hh <;> repeat' split at hh
  all_goals cases hh
  · rfl
  · exact setSlot_next _ _ _

theorem NextPres.malloc (a n : Nat) : NextPres (TypeErased.malloc a n true : M V Ptr) := by
  intro s
  unfold TypeErased.malloc
  constructor <;> intro x s' hh <;> cases hh
  rfl

theorem NextPres.mfree (a : Nat) (p : Ptr) (n : Nat) : NextPres (TypeErased.mfree a p n : M V Unit) := by
  intro s
  unfold TypeErased.mfree
  constructor <;> intro x s' hh <;> dsimp only at hh <;> repeat' split at hh
  all_goals cases hh
  rfl

macro "np" : tactic => `(tactic| (repeat' first
  | exact NextPres.pure _ | exact NextPres.fail _ | exact NextPres.throwE _
  | exact NextPres.assertM _ | exact NextPres.getW _ | exact NextPres.modW _ _
  | exact NextPres.newW _ _ _ | exact NextPres.endW _ | exact NextPres.construct _ _
  | exact NextPres.destroyAt _ _ | exact NextPres.readAs _ _ | exact NextPres.writeAs _ _ _
  | exact NextPres.malloc _ _ | exact NextPres.mfree _ _ _
  | assumption
  | apply NextPres.onThrow | apply NextPres.noexcept | apply NextPres.ite
  | (refine NextPres.bind ?_ (fun _ => ?_)) | split))

theorem np_constructOrThrow (p : Ptr) (o : Obj V) (b : Bool) :
    NextPres (constructOrThrow cfg p o b) := by unfold constructOrThrow; np

theorem np_vtCopy (vt : VTable) (p q : Ptr) (b : Bool) : NextPres (vtCopy cfg vt p q b : M V Unit) := by
  unfold vtCopy
  have := fun o => np_constructOrThrow (V := V) (cfg := cfg) q o b
  split
  · np
  · refine .bind (.readAs _ _) fun _ => this _

theorem np_vtMove (vt : VTable) (p q : Ptr) : NextPres (vtMove cfg vt p q : M V Unit) := by
  unfold vtMove; np

theorem np_vtDestroy (vt : VTable) (p : Ptr) : NextPres (vtDestroy cfg vt p : M V Unit) := by
  unfold vtDestroy; np

theorem np_deallocate (w : Nat) : NextPres (deallocate cfg w : M V Unit) := by
  unfold deallocate releaseBlock; np

theorem np_allocate (w n : Nat) : NextPres (allocate cfg w n true : M V Unit) := by
  unfold allocate storageFor; np

theorem np_cleanup (w : Nat) : NextPres (cleanup cfg w : M V Unit) := by
  have h1 := np_deallocate (V := V) (cfg := cfg) w
  unfold cleanup
  refine .bind (.getW _) fun W => ?_
  have h2 := np_vtDestroy (V := V) (cfg := cfg) W.vt W.self
  np

theorem np_doCopyAssign (b : Bool) (w src : Nat) (t : Throws) (ht : t.alloc = true) :
    NextPres (doCopyAssign cfg b w src t : M V Unit) := by
  have h1 := np_deallocate (V := V) (cfg := cfg) w
  unfold doCopyAssign propagateAlloc
  rw [ht]
  refine .bind (.getW _) fun O => .bind (by np) fun _ => .ite (.pure _) (.ite (by np) ?_)
  refine .bind (np_allocate _ _) fun _ => .onThrow ?_ h1
  exact .bind (.getW _) fun W => np_vtCopy _ _ _ _

theorem np_constructInplace (w t : Nat) (v : V) (th : Throws) (ht : th.alloc = true) :
    NextPres (constructInplace cfg w t v th) := by
  have h1 := np_deallocate (V := V) (cfg := cfg) w
  unfold constructInplace
  rw [ht]
  refine .bind (np_allocate _ _) fun _ => .onThrow (.bind (.getW _) fun W =>
    .bind (np_constructOrThrow _ _ _) fun _ => .onThrow ?_ (.destroyAt _ _)) h1
  unfold setVtOrThrow
  np

theorem np_constructRef (w e : Nat) (c : Bool) (th : Throws) :
    NextPres (constructRef cfg w e c th : M V Unit) := by
  unfold constructRef
  refine .bind (.modW _ _) fun _ => .bind ?_ fun _ => .modW _ _
  intro s
  have : NextPres (setVtOrThrow w (.make cfg (s.ext e).ty c th.provides) th.vtable : M V Unit) := by
    unfold setVtOrThrow; np
  exact this s

theorem np_ctor (w a : Nat) (vt : VTable) {body : M V Unit} (h : NextPres body) :
    NextPres (ctor w a vt body) := by
  unfold ctor; np

theorem np_stealSelf (w src : Nat) : NextPres (stealSelf w src : M V Unit) := by
  unfold stealSelf; np

theorem np_moveSmall (w src : Nat) : NextPres (moveSmall cfg w src : M V Unit) := by
  unfold moveSmall
  exact .bind (.modW _ _) fun _ => .bind (.getW _) fun _ => .bind (.getW _) fun _ =>
    .bind (np_vtMove _ _ _) fun _ => .bind (np_vtDestroy _ _) fun _ => .modW _ _

theorem np_dtor (w : Nat) : NextPres (dtor cfg w : M V Unit) :=
  .bind (np_cleanup _) fun _ => .endW _

/-- The operation with allocators that always fail. -/
def Op.failing : Op V → Op V
  | .value w a t v th => .value w a t v { th with alloc := true }
  | .ref w a e c th => .ref w a e c { th with alloc := true }
  | .make w a t v th => .make w a t v { th with alloc := true }
  | .copy w src th => .copy w src { th with alloc := true }
  | .copyA w src a th => .copyA w src a { th with alloc := true }
  | .moveA w src a th => .moveA w src a { th with alloc := true }
  | .copyAssign w src th => .copyAssign w src { th with alloc := true }
  | .moveAssign w src th => .moveAssign w src { th with alloc := true }
  | op => op

theorem np_step (op : Op V) : NextPres (step cfg op.failing) := by
  cases op <;> simp only [Op.failing, step]
  case «default» => np
  case value => exact .bind (np_ctor _ _ _ (np_constructInplace _ _ _ _ rfl)) fun _ => .pure _
  case ref => exact .bind (np_ctor _ _ _ (np_constructRef _ _ _ _)) fun _ => .pure _
  case make =>
    unfold make
    exact .bind (.bind (.newW _ _ _) fun _ =>
      .onThrow (np_constructInplace _ _ _ _ rfl) (np_dtor _)) fun _ => .pure _
  case copy =>
    unfold copyCtor
    exact .bind (.getW _) fun _ => .bind (.bind (.getW _) fun _ =>
      np_ctor _ _ _ (np_doCopyAssign _ _ _ _ rfl)) fun _ => .pure _
  case copyA =>
    unfold copyCtor
    exact .bind (.bind (.getW _) fun _ => np_ctor _ _ _ (np_doCopyAssign _ _ _ _ rfl)) fun _ => .pure _
  case move =>
    unfold moveCtor takeCtor
    exact .bind (.bind (.getW _) fun _ => .bind (.newW _ _ _) fun _ => .noexcept
      (.bind (.modW _ _) fun _ => .bind
        (.ite (np_stealSelf _ _) (.ite (.pure _) (np_moveSmall _ _))) fun _ => .modW _ _))
      fun _ => .pure _
  case moveA =>
    unfold moveCtorAlloc takeCtorAlloc moveHeap
    exact .bind (.bind (.getW _) fun _ => .bind (.newW _ _ _) fun _ => .noexcept
      (.ite (.pure _) (.bind (.modW _ _) fun _ => .bind
        (.ite (np_stealSelf _ _) (.ite (.ite (np_stealSelf _ _)
          (.bind (.getW _) fun _ => .bind (.getW _) fun _ => .bind (.malloc _ _) fun _ =>
            .bind (.modW _ _) fun _ => .bind (np_vtMove _ _ _) fun _ =>
            .bind (np_vtDestroy _ _) fun _ => np_deallocate _)) (np_moveSmall _ _)))
        fun _ => .modW _ _))) fun _ => .pure _
  case copyAssign =>
    unfold copyAssign
    exact .bind (.ite (.pure _) (.bind (np_cleanup _) fun _ => .bind (.getW _) fun _ =>
      .bind (.modW _ _) fun _ => np_doCopyAssign _ _ _ _ rfl)) fun _ => .pure _
  case moveAssign =>
    unfold moveAssign takeAssign moveHeapAssign propagateAlloc
    exact .bind (.ite (.pure _) (.noexcept (.bind (np_cleanup _) fun _ => .bind (.getW _) fun _ =>
      .bind (.ite (.modW _ _) (.pure _)) fun _ => .ite (.pure _)
      (.bind (.modW _ _) fun _ => .bind (.modW _ _) fun _ => .bind (.getW _) fun _ => .bind
        (.ite (np_stealSelf _ _) (.ite (.ite (np_stealSelf _ _)
          (.bind (.getW _) fun _ => .bind (.getW _) fun _ => .bind (.malloc _ _) fun _ =>
            .bind (.modW _ _) fun _ => .bind (np_vtMove _ _ _) fun _ =>
            .bind (np_vtDestroy _ _) fun _ => .bind (.mfree _ _ _) fun _ => .modW _ _))
          (np_moveSmall _ _)))
        fun _ => .modW _ _)))) fun _ => .pure _
  case destroy => exact .bind (np_dtor _) fun _ => .pure _
  case modify => unfold asMut; np
  case read => unfold asConst; np
  case query => unfold callConst; np
  case optional => unfold callOptional; np
  case update => unfold callMut; np
  case test => unfold hasValue; np
  case poke => unfold getPointer; np
  case outside =>
    intro s
    exact ⟨fun _ _ h => by cases h; rfl, fun _ _ h => by cases h⟩

/-! ## Failing allocators make no difference where none is used -/

def Below {α : Type} (m₁ m₂ : M V α) : Prop := ∀ s,
  m₁.run s = m₂.run s ∨ (∃ s', m₁.run s = .thrown .badAlloc s') ∨ ∃ f, m₁.run s = .fault f

theorem Below.refl {α : Type} (m : M V α) : Below m m := fun _ => .inl rfl

theorem Below.bind {α β : Type} {m₁ m₂ : M V α} {f₁ f₂ : α → M V β} (h : Below m₁ m₂)
    (hf : ∀ x, Below (f₁ x) (f₂ x)) : Below (m₁ >>= f₁) (m₂ >>= f₂) := by
  intro s
  rcases h s with h1 | ⟨s', h1⟩ | ⟨f, h1⟩
  · cases hm : m₁.run s with
    | ok x s' => rw [bind_ok hm, bind_ok (h1 ▸ hm)]; exact hf x s'
    | thrown e s' => rw [bind_thrown hm, bind_thrown (h1 ▸ hm)]; exact .inl rfl
    | fault f => rw [bind_fault hm]; exact .inr (.inr ⟨f, rfl⟩)
  · rw [bind_thrown h1]; exact .inr (.inl ⟨_, rfl⟩)
  · rw [bind_fault h1]; exact .inr (.inr ⟨f, rfl⟩)

theorem Below.onThrow {α : Type} {m₁ m₂ : M V α} {c : M V Unit} (h : Below m₁ m₂) :
    Below (TypeErased.onThrow m₁ c) (TypeErased.onThrow m₂ c) := by
  intro s
  unfold TypeErased.onThrow
  dsimp only
  rcases h s with h1 | ⟨s', h1⟩ | ⟨f, h1⟩
  · rw [h1]; exact .inl rfl
  · rw [h1]
    dsimp only
    cases c.run s' with
    | ok x s'' => exact .inr (.inl ⟨_, rfl⟩)
    | thrown _ _ => exact .inr (.inr ⟨_, rfl⟩)
    | fault _ => exact .inr (.inr ⟨_, rfl⟩)
  · rw [h1]; exact .inr (.inr ⟨_, rfl⟩)

theorem Below.noexcept {α : Type} {m₁ m₂ : M V α} (h : Below m₁ m₂) :
    Below (TypeErased.noexcept m₁) (TypeErased.noexcept m₂) := by
  intro s
  unfold TypeErased.noexcept
  dsimp only
  rcases h s with h1 | ⟨s', h1⟩ | ⟨f, h1⟩
  · rw [h1]; exact .inl rfl
  · rw [h1]; exact .inr (.inr ⟨_, rfl⟩)
  · rw [h1]; exact .inr (.inr ⟨_, rfl⟩)

theorem Below.ite {α : Type} {c : Prop} [Decidable c] {m₁ m₂ n₁ n₂ : M V α} (h : Below m₁ m₂)
    (h' : Below n₁ n₂) : Below (if c then m₁ else n₁) (if c then m₂ else n₂) := by
  split
  · exact h
  · exact h'

theorem below_malloc (a n : Nat) (b : Bool) : Below (malloc a n true : M V Ptr) (malloc a n b) :=
  fun s => .inr (.inl ⟨s, rfl⟩)

theorem below_allocate (w n : Nat) (b : Bool) :
    Below (allocate cfg w n true : M V Unit) (allocate cfg w n b) := by
  unfold allocate storageFor
  exact .bind (.refl _) fun _ => .bind (.refl _) fun _ => .bind (.refl _) fun _ =>
    .bind (.refl _) fun _ => .bind (.refl _) fun _ =>
    .bind (.ite (.refl _) (below_malloc _ _ _)) fun _ => .refl _

theorem below_constructInplace (w t : Nat) (v : V) (th : Throws) :
    Below (constructInplace cfg w t v { th with alloc := true }) (constructInplace cfg w t v th) := by
  unfold constructInplace
  exact .bind (below_allocate _ _ _) fun _ => .refl _

theorem below_doCopyAssign (b : Bool) (w src : Nat) (th : Throws) :
    Below (doCopyAssign cfg b w src { th with alloc := true } : M V Unit)
      (doCopyAssign cfg b w src th) := by
  unfold doCopyAssign
  exact .bind (.refl _) fun _ => .bind (.refl _) fun _ => .ite (.refl _) (.ite (.refl _)
    (.bind (below_allocate _ _ _) fun _ => .refl _))

theorem below_ctor (w a : Nat) (vt : VTable) {b₁ b₂ : M V Unit} (h : Below b₁ b₂) :
    Below (ctor w a vt b₁) (ctor w a vt b₂) := by
  unfold ctor
  exact .bind (.refl _) fun _ => .onThrow h

theorem below_step (op : Op V) : Below (step cfg op.failing) (step cfg op) := by
  cases op <;> simp only [Op.failing, step]
  case value => exact .bind (below_ctor _ _ _ (below_constructInplace _ _ _ _)) fun _ => .refl _
  case make =>
    unfold make
    exact .bind (.bind (.refl _) fun _ => .onThrow (below_constructInplace _ _ _ _)) fun _ => .refl _
  case copy =>
    unfold copyCtor
    exact .bind (.refl _) fun _ => .bind (.bind (.refl _) fun _ =>
      below_ctor _ _ _ (below_doCopyAssign _ _ _ _)) fun _ => .refl _
  case copyA =>
    unfold copyCtor
    exact .bind (.bind (.refl _) fun _ => below_ctor _ _ _ (below_doCopyAssign _ _ _ _)) fun _ => .refl _
  case moveA =>
    unfold moveCtorAlloc takeCtorAlloc moveHeap
    exact .bind (.bind (.refl _) fun _ => .bind (.refl _) fun _ => .noexcept
      (.ite (.refl _) (.bind (.refl _) fun _ => .bind
        (.ite (.refl _) (.ite (.ite (.refl _)
          (.bind (.refl _) fun _ => .bind (.refl _) fun _ => .bind (below_malloc _ _ _) fun _ =>
            .refl _)) (.refl _))) fun _ => .refl _))) fun _ => .refl _
  case copyAssign =>
    unfold copyAssign
    exact .bind (.ite (.refl _) (.bind (.refl _) fun _ => .bind (.refl _) fun _ =>
      .bind (.refl _) fun _ => below_doCopyAssign _ _ _ _)) fun _ => .refl _
  case moveAssign =>
    unfold moveAssign takeAssign moveHeapAssign
    exact .bind (.ite (.refl _) (.noexcept (.bind (.refl _) fun _ => .bind (.refl _) fun _ =>
      .bind (.refl _) fun _ => .ite (.refl _)
      (.bind (.refl _) fun _ => .bind (.refl _) fun _ => .bind (.refl _) fun _ => .bind
        (.ite (.refl _) (.ite (.ite (.refl _)
          (.bind (.refl _) fun _ => .bind (.refl _) fun _ => .bind (below_malloc _ _ _) fun _ =>
            .refl _)) (.refl _))) fun _ => .refl _)))) fun _ => .refl _
  all_goals exact .refl _

/-! ## Small values -/

/-- The types of values an operation constructs from scratch. -/
def Op.creates : Op V → List Nat
  | .value _ _ t _ _ => [t]
  | .make _ _ t _ _ => [t]
  | _ => []

/-- All values owned by wrappers fit the small buffer. -/
def World.Small (cfg : Cfg) (a : World V) : Prop :=
  ∀ w al t v, a.Owns w al t v → ¬ cfg.NeedsHeap t

/-- The result does not report a failing allocator, and keeps all values small. -/
def Result.SmallOk (cfg : Cfg) : Result V → Prop
  | .done _ a' => a'.Small cfg
  | .threw e a' => e ≠ .badAlloc ∧ a'.Small cfg
  | .terminated => False

theorem World.Small.set {a : World V} (ha : a.Small cfg) (w : Nat) {x : Option (Slot V)}
    (hx : ∀ al t v own, x = some ⟨al, .owned t v own⟩ → ¬ cfg.NeedsHeap t) : (a.set w x).Small cfg := by
  intro v al t y hv
  by_cases hvw : v = w
  · subst hvw; simp only [World.Owns, World.set, upd_same] at hv; obtain ⟨o, hv⟩ := hv; exact hx al t y o hv
  · simp only [World.Owns, World.set, upd_ne _ _ hvw] at hv; exact ha v al t y hv

theorem storeThrows_small {t : Nat} (ht : ¬ cfg.NeedsHeap t) (al b : Bool) :
    storeThrows cfg t al b = if b then some .user else none := by
  unfold storeThrows; rw [if_neg (fun h => ht h.1)]

theorem copyThrows_small {c : Content V} (hc : ∀ t v own, c = .owned t v own → ¬ cfg.NeedsHeap t)
    (th : Throws) : copyThrows cfg c { th with alloc := true } = copyThrows cfg c th ∧
      copyThrows cfg c th ≠ some .badAlloc := by
  cases c with
  | owned t v =>
    unfold copyThrows
    dsimp only
    rw [storeThrows_small (hc t v _ rfl), storeThrows_small (hc t v _ rfl)]
    refine ⟨rfl, ?_⟩
    split <;> simp
  | empty => exact ⟨rfl, by simp [copyThrows]⟩
  | ref e k => exact ⟨rfl, by simp [copyThrows]⟩

theorem moveDies_small {c : Content V} (hc : ∀ t v own, c = .owned t v own → ¬ cfg.NeedsHeap t)
    (b : Bool) (th : Throws) : moveDies cfg c b th = false := by
  cases c with
  | owned t v => unfold moveDies; simp [hc t v _ rfl]
  | empty => rfl
  | ref e k => rfl

theorem spec_small {a : World V} (ha : a.Small cfg) {op : Op V}
    (hop : ∀ t ∈ op.creates, ¬ cfg.NeedsHeap t) {r : Result V} (h : spec cfg a op = some r) :
    spec cfg a op.failing = some r ∧ r.SmallOk cfg := by
  have hheld : ∀ {w : Nat} {d : Slot V}, a.wr w = some d →
      ∀ t v own, d.held = .owned t v own → ¬ cfg.NeedsHeap t := by
    intro w d hd t v own hh
    obtain ⟨al, held⟩ := d
    dsimp only at hh
    exact ha w al t v ⟨own, by rw [hd, hh]⟩
  have hset : ∀ (w al : Nat) (c : Content V), (∀ t v own, c = .owned t v own → ¬ cfg.NeedsHeap t) →
      (a.set w (some ⟨al, c⟩)).Small cfg := by
    intro w al c hc
    refine ha.set w ?_
    intro al' t v own hh
    cases hh
    exact hc t v _ rfl
  have hmove : ∀ (w src al al' : Nat) (c : Content V), (∀ t v own, c = .owned t v own → ¬ cfg.NeedsHeap t) →
      ((a.set w (some ⟨al, c⟩)).set src (some ⟨al', .empty⟩)).Small cfg := by
    intro w src al al' c hc
    refine (hset w al c hc).set src ?_
    intro _ t v _ hh
    cases hh
  have hmod : ∀ (w : Nat) (d : Slot V) (f : V → V), a.wr w = some d →
      (a.modifyHeld w d f).SmallOk cfg := by
    intro w d f hd
    have hh := hheld hd
    obtain ⟨al, held⟩ := d
    cases held with
    | empty => exact ha
    | owned t v own =>
      refine hset w al (.owned t (f v) own) ?_
      intro t' v' o' he
      cases he
      exact hh t v _ rfl
    | ref e' c =>
      cases c with
      | true => exact ⟨by simp, ha⟩
      | false => exact ha
  cases op with
  | «default» w al =>
    refine ⟨h, ?_⟩
    simp only [spec] at h
    split at h <;> cases h
    exact hset _ _ _ (by simp)
  | value w al t v th =>
    have ht := hop t (by simp [Op.creates])
    simp only [spec, Op.failing, storeThrows_small ht] at h ⊢
    refine ⟨h, ?_⟩
    split at h
    · generalize (th.ctor || th.vtable) = b at h
      cases b <;> cases h
      · exact hset _ _ _ (by rintro t' v' o' ⟨⟩; exact ht)
      · exact ⟨by simp, ha⟩
    · cases h
  | make w al t v th =>
    have ht := hop t (by simp [Op.creates])
    simp only [spec, Op.failing, storeThrows_small ht] at h ⊢
    refine ⟨h, ?_⟩
    split at h
    · generalize (th.ctor || th.vtable) = b at h
      cases b <;> cases h
      · exact hset _ _ _ (by rintro t' v' o' ⟨⟩; exact ht)
      · exact ⟨by simp, ha⟩
    · cases h
  | ref w al e' c th =>
    refine ⟨h, ?_⟩
    simp only [spec] at h
    split at h
    · split at h <;> cases h
      · exact ⟨by simp, ha⟩
      · exact hset _ _ _ (by simp)
    · cases h
  | copy w src th =>
    simp only [spec, Op.failing] at h ⊢
    split at h
    · rename_i s _ hs
      have hc := copyThrows_small (hheld hs) th
      rw [hc.1]
      refine ⟨h, ?_⟩
      split at h <;> cases h
      · rename_i e he
        exact ⟨by rintro rfl; exact hc.2 he, ha⟩
      · exact hset _ _ _ (hheld hs)
    · cases h
  | copyA w src al th =>
    simp only [spec, Op.failing] at h ⊢
    split at h
    · rename_i s _ hs
      have hc := copyThrows_small (hheld hs) th
      rw [hc.1]
      refine ⟨h, ?_⟩
      split at h <;> cases h
      · rename_i e he
        exact ⟨by rintro rfl; exact hc.2 he, ha⟩
      · exact hset _ _ _ (hheld hs)
    · cases h
  | move w src =>
    refine ⟨h, ?_⟩
    simp only [spec] at h
    split at h
    · rename_i s _ hs
      cases h
      exact hmove _ _ _ _ _ (hheld hs)
    · cases h
  | moveA w src al th =>
    simp only [spec, Op.failing] at h ⊢
    split at h
    · rename_i s _ hs
      rw [moveDies_small (hheld hs)] at h
      simp only [moveDies_small (hheld hs)]
      refine ⟨h, ?_⟩
      cases h
      exact hmove _ _ _ _ _ (hheld hs)
    · cases h
  | copyAssign w src th =>
    simp only [spec, Op.failing] at h ⊢
    split at h
    · rename_i d s _ hs
      have hc := copyThrows_small (hheld hs) th
      rw [hc.1]
      refine ⟨h, ?_⟩
      split at h
      · cases h; exact ha
      · generalize (if cfg.pocca = true then s.alloc else d.alloc) = al at h
        split at h <;> cases h
        · rename_i e he
          exact ⟨by rintro rfl; exact hc.2 he, hset _ _ _ (by simp)⟩
        · exact hset _ _ _ (hheld hs)
    · cases h
  | moveAssign w src th =>
    simp only [spec, Op.failing] at h ⊢
    split at h
    · rename_i d s _ hs
      simp only [moveDies_small (hheld hs)] at h ⊢
      refine ⟨h, ?_⟩
      split at h
      · cases h; exact ha
      · cases h
        exact hmove _ _ _ _ _ (hheld hs)
    · cases h
  | destroy w =>
    refine ⟨h, ?_⟩
    simp only [spec] at h
    split at h <;> cases h
    exact ha.set w (by simp)
  | modify w t f =>
    refine ⟨h, ?_⟩
    simp only [spec] at h
    split at h
    · rename_i s hs
      split at h
      · cases h
      · cases h
        split
        · exact hmod _ _ _ hs
        · exact ⟨by simp, ha⟩
    · cases h
  | read w t =>
    refine ⟨h, ?_⟩
    simp only [spec] at h
    split at h
    · split at h
      · cases h
        split
        · exact ha
        · exact ⟨by simp, ha⟩
      · cases h
    · cases h
  | query w =>
    refine ⟨h, ?_⟩
    simp only [spec] at h
    split at h
    · split at h <;> cases h
      exact ha
    · cases h
  | optional w k =>
    refine ⟨h, ?_⟩
    simp only [spec] at h
    split at h
    · split at h <;> cases h
      · exact ha
      · exact ha
    · cases h
  | update w f =>
    refine ⟨h, ?_⟩
    simp only [spec] at h
    split at h
    · rename_i s hs
      split at h <;> cases h
      exact hmod _ _ _ hs
    · cases h
  | test w =>
    refine ⟨h, ?_⟩
    simp only [spec] at h
    split at h <;> cases h
    exact ha
  | poke w t f =>
    refine ⟨h, ?_⟩
    simp only [spec] at h
    split at h
    · rename_i s hs
      split at h <;> cases h
      exact hmod _ _ _ hs
    · cases h
  | outside e' f =>
    refine ⟨h, ?_⟩
    simp only [spec] at h
    cases h
    exact ha

/-- As `NextPres`, from one state. -/
def NextPres' {α : Type} (m : M V α) (s : St V) : Prop :=
  (∀ x s', m.run s = .ok x s' → s'.next = s.next) ∧ ∀ e s', m.run s = .thrown e s' → s'.next = s.next

/-- One operation on small values allocates nothing. -/
theorem step_small (ok : cfg.Ok) {s : St V} {a : World V} (hr : Rep cfg s a) (ha : a.Small cfg)
    {op : Op V} (hop : ∀ t ∈ op.creates, ¬ cfg.NeedsHeap t) {r : Result V}
    (h : spec cfg a op = some r) : NextPres' (step cfg op) s ∧ r.SmallOk cfg := by
  obtain ⟨h1, h2⟩ := spec_small ha hop h
  refine ⟨?_, h2⟩
  have hag := step_sim ok hr _ h1
  rcases below_step (cfg := cfg) op s with heq | ⟨s', hth⟩ | ⟨f, hf⟩
  · unfold NextPres'; rw [← heq]; exact np_step op s
  · rw [hth] at hag
    cases r with
    | done o a' => obtain ⟨_, hh, _⟩ := hag; cases hh
    | threw e a' => obtain ⟨_, hh, _⟩ := hag; cases hh; exact absurd rfl h2.1
    | terminated => exact h2.elim
  · rw [hf] at hag
    cases r with
    | done o a' => obtain ⟨_, hh, _⟩ := hag; cases hh
    | threw e a' => obtain ⟨_, hh, _⟩ := hag; cases hh
    | terminated => exact h2.elim

theorem exec_small (ok : cfg.Ok) {a : World V} {ops : List (Op V)} {os : List (Except Exn (Obs V))}
    {r : Option (World V)} (h : Run cfg a ops os r) (ha : a.Small cfg)
    (hops : ∀ op ∈ ops, ∀ t ∈ op.creates, ¬ cfg.NeedsHeap t) :
    ∀ s, Rep cfg s a → ∃ s', exec cfg ops s = (os, .inr s') ∧ s'.next = s.next := by
  induction h with
  | nil a => intro s hs; exact ⟨s, rfl, rfl⟩
  | done h t ih =>
    intro s hs
    obtain ⟨h1, h2⟩ := step_small ok hs ha (hops _ (by simp)) h
    obtain ⟨s', e1, hr'⟩ := step_sim ok hs _ h
    obtain ⟨s'', e2, hn⟩ := ih h2 (fun op hop => hops op (by simp [hop])) s' hr'
    exact ⟨s'', by unfold exec; rw [e1]; simp [e2], hn.trans (h1.1 _ _ e1)⟩
  | threw h t ih =>
    intro s hs
    obtain ⟨h1, h2⟩ := step_small ok hs ha (hops _ (by simp)) h
    obtain ⟨s', e1, hr'⟩ := step_sim ok hs _ h
    obtain ⟨s'', e2, hn⟩ := ih h2.2 (fun op hop => hops op (by simp [hop])) s' hr'
    exact ⟨s'', by unfold exec; rw [e1]; simp [e2], hn.trans (h1.2 _ _ e1)⟩
  | terminated h =>
    intro s hs
    exact absurd (step_small ok hs ha (hops _ (by simp)) h).2 (by simp [Result.SmallOk])

/-- C57. A program in which all values that are put into wrappers fit the small buffer never obtains a
block from an allocator, whatever is copied, moved and assigned (and so never ends because memory ran
out). That larger values take blocks of exactly their size is in `no_leak`. -/
theorem small_never_allocates (ok : cfg.Ok) (ext : Nat → Obj V) {ops : List (Op V)}
    {os : List (Except Exn (Obs V))} {r : Option (World V)} (h : Run cfg (World.init ext) ops os r)
    (hops : ∀ op ∈ ops, ∀ t ∈ op.creates, ¬ cfg.NeedsHeap t) :
    ∃ s, exec cfg ops (St.init ext) = (os, .inr s) ∧ s.next = 0 :=
  exec_small ok h (fun w al t v ⟨_, hw⟩ => by cases hw) hops _ (init_rep ext)

/-- A program with small values only. -/
example : ∃ os a, Run exCfg (World.init exExt)
    [.value 0 3 0 42 {}, .copy 1 0 {}, .moveA 2 1 5 { alloc := true }, .read 2 0] os (some a) ∧
    a.Owns 2 5 0 42 ∧ ¬ exCfg.NeedsHeap 0 :=
  ⟨_, _, .done rfl (.done rfl (.done rfl (.done rfl (.nil _)))), ⟨_, rfl⟩, by unfold Cfg.NeedsHeap; decide⟩

/-- ... and a large value does take a block. -/
example : (match (exec exCfg [.value 0 3 1 42 {}] (St.init exExt)).2 with
    | .inr s => s.next
    | .inl _ => 0) = 1 := rfl

/-! ## Sizes of small buffers -/

/-- type-erasure.hpp:196-205, `default_te_buffer_size`, where `sizeS` is the size of the allocator,
pointer and vtable together. -/
def defaultBufferSize (sizeS : Nat) : Nat := 128 - min 128 sizeS

/-- type-erasure.hpp:207-211, `required_te_buffer_size_for`: `*std::max_element` of the sizes, which
keeps the first of the largest. `none`: no types (the array would be empty). -/
def requiredBufferSize : List Nat → Option Nat
  | [] => none
  | n :: ns => some (ns.foldl (fun m x => if m < x then x else m) n)

theorem foldl_max_spec (ns : List Nat) : ∀ n,
    n ≤ ns.foldl (fun m x => if m < x then x else m) n ∧
    (∀ x ∈ ns, x ≤ ns.foldl (fun m x => if m < x then x else m) n) ∧
    ns.foldl (fun m x => if m < x then x else m) n ∈ n :: ns := by
  induction ns with
  | nil => intro n; simp
  | cons x xs ih =>
    intro n
    rw [List.foldl_cons]
    obtain ⟨h1, h2, h3⟩ := ih (if n < x then x else n)
    refine ⟨?_, ?_, ?_⟩
    · refine Nat.le_trans ?_ h1; split <;> omega
    · intro y hy
      rcases List.mem_cons.1 hy with rfl | hy
      · refine Nat.le_trans ?_ h1; split <;> omega
      · exact h2 y hy
    · rcases List.mem_cons.1 h3 with h | h
      · rw [h]; split <;> simp
      · simp [h]

/-- C57. `required_te_buffer_size_for` is the smallest buffer in which every listed type fits: with that
buffer, none of them needs memory. -/
theorem required_suffices (cfg : Cfg) (types : List Nat) {n : Nat}
    (h : requiredBufferSize (types.map cfg.sizeOf) = some n) :
    (∀ t ∈ types, ¬ { cfg with sbs := n }.NeedsHeap t) ∧
    ∀ n', (∀ t ∈ types, ¬ { cfg with sbs := n' }.NeedsHeap t) → n ≤ n' := by
  cases types with
  | nil => cases h
  | cons t ts =>
    simp only [List.map_cons, requiredBufferSize, Option.some.injEq] at h
    obtain ⟨h1, h2, h3⟩ := foldl_max_spec (ts.map cfg.sizeOf) (cfg.sizeOf t)
    rw [h] at h1 h2 h3
    constructor
    · intro u hu
      simp only [Cfg.NeedsHeap]
      rcases List.mem_cons.1 hu with rfl | hu
      · omega
      · have := h2 _ (List.mem_map_of_mem hu); omega
    · intro n' hn'
      rw [← List.map_cons] at h3
      obtain ⟨u, hu, hue⟩ := List.mem_map.1 h3
      have := hn' u hu
      simp only [Cfg.NeedsHeap] at this
      omega

/-- C57. The default buffer fills what the other members leave of 128 bytes. -/
theorem default_fills (sizeS : Nat) :
    (sizeS ≤ 128 → sizeS + defaultBufferSize sizeS = 128) ∧ (128 < sizeS → defaultBufferSize sizeS = 0) := by
  unfold defaultBufferSize; omega

example : requiredBufferSize [8, 40, 24] = some 40 := rfl

/-! ## Access to empty wrappers -/

/-- C58, in full: after every allowed program, `as<T>()` on an empty wrapper throws. -/
def EmptyAccessThrows : Prop :=
  ∀ (V : Type) (cfg : Cfg), cfg.Ok → ∀ (ext : Nat → Obj V) (ops : List (Op V))
    (os : List (Except Exn (Obs V))) (a : World V), Run cfg (World.init ext) ops os (some a) →
    ∀ w al, a.wr w = some ⟨al, .empty⟩ → ∀ s, (exec cfg ops (St.init ext)).2 = .inr s →
    ∀ t, (∃ e s', (asMut w t).run s = .thrown e s') ∧ ∃ e s', (asConst w t).run s = .thrown e s'

/-- C58 is false: after moving from a wrapper, `as<T>()` for the old type returns an invalid
reference. -/
theorem not_emptyAccessThrows : ¬ EmptyAccessThrows := by
  intro h
  have h1 := (h Nat exCfg exCfg_ok exExt [.value 0 3 0 42 {}, .move 1 0] _ _
    (.done rfl (.done rfl (.nil _))) 0 3 rfl _ rfl 0).1
  obtain ⟨e, s', h2⟩ := h1
  cases h2

/-- The operation may change the vtable of wrapper `w`. -/
def Op.writesTo (w : Nat) : Op V → Prop
  | .value v .. | .ref v .. | .make v .. | .copy v .. | .copyA v .. | .move v .. | .moveA v ..
  | .copyAssign v .. | .moveAssign v .. | .destroy v => v = w
  | _ => False

end Guanaqo.TypeErased
