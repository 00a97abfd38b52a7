import Verif.TypeErased.Small

/-!
# Access to wrappers that never held anything (C58)
-/

namespace Guanaqo.TypeErased

variable {V : Type} {cfg : Cfg} {w : Nat}

/-- `w` stays alive and its vtable does not change. -/
def SameVt (w : Nat) (s s' : St V) : Prop :=
  ∀ W, s.wr w = some W → ∃ W', s'.wr w = some W' ∧ W'.vt = W.vt

def KeepVt {α : Type} (w : Nat) (m : M V α) : Prop := ∀ s,
  (∀ x s', m.run s = .ok x s' → SameVt w s s') ∧ ∀ e s', m.run s = .thrown e s' → SameVt w s s'

theorem SameVt.refl (s : St V) : SameVt w s s := fun W h => ⟨W, h, rfl⟩

theorem SameVt.trans {s s' s'' : St V} (h : SameVt w s s') (h' : SameVt w s' s'') : SameVt w s s'' := by
  intro W hW
  obtain ⟨W', h1, h2⟩ := h W hW
  obtain ⟨W'', h3, h4⟩ := h' W' h1
  exact ⟨W'', h3, h4.trans h2⟩

theorem KeepVt.pure {α : Type} (x : α) : KeepVt w (Pure.pure x : M V α) :=
  fun s => ⟨fun _ _ h => (by cases h; exact .refl _), fun _ _ h => (by cases h)⟩

theorem KeepVt.fail {α : Type} (f : Fault) : KeepVt w (TypeErased.fail f : M V α) :=
  fun s => ⟨fun _ _ h => (by cases h), fun _ _ h => (by cases h)⟩

theorem KeepVt.throwE {α : Type} (e : Exn) : KeepVt w (TypeErased.throwE e : M V α) :=
  fun s => ⟨fun _ _ h => (by cases h), fun _ _ h => (by cases h; exact .refl _)⟩

theorem KeepVt.assertM (b : Bool) : KeepVt w (TypeErased.assertM cfg b : M V Unit) := by
  unfold TypeErased.assertM
  split
  · exact .pure _
  · exact .fail _

theorem KeepVt.bind {α β : Type} {m : M V α} {f : α → M V β} (h : KeepVt w m)
    (hf : ∀ x, KeepVt w (f x)) : KeepVt w (m >>= f) := by
  intro s
  cases hm : m.run s with
  | ok x s' =>
    rw [bind_ok hm]
    have h1 := (h s).1 x s' hm
    exact ⟨fun y s'' hy => h1.trans ((hf x s').1 y s'' hy),
      fun y s'' hy => h1.trans ((hf x s').2 y s'' hy)⟩
  | thrown e s' =>
    rw [bind_thrown hm]
    exact ⟨fun _ _ hh => (by cases hh), fun _ _ hh => (by cases hh; exact (h s).2 e _ hm)⟩
  | fault f =>
    rw [bind_fault hm]
    exact ⟨fun _ _ hh => (by cases hh), fun _ _ hh => (by cases hh)⟩

theorem KeepVt.onThrow {α : Type} {m : M V α} {c : M V Unit} (h : KeepVt w m) (hc : KeepVt w c) :
    KeepVt w (TypeErased.onThrow m c) := by
  intro s
  unfold TypeErased.onThrow
  cases hm : m.run s with
  | ok x s' =>
    constructor <;> intro _ _ hh <;> simp only [hm] at hh <;> cases hh
    exact (h s).1 _ _ hm
  | thrown e s' =>
    have h1 := (h s).2 e s' hm
    cases hcc : c.run s' with
    | ok x s'' =>
      constructor <;> intro _ _ hh <;> simp only [hm, hcc] at hh <;> cases hh
      exact h1.trans ((hc s').1 _ _ hcc)
    | thrown _ _ => constructor <;> intro _ _ hh <;> simp only [hm, hcc] at hh <;> cases hh
    | fault _ => constructor <;> intro _ _ hh <;> simp only [hm, hcc] at hh <;> cases hh
  | fault f => constructor <;> intro _ _ hh <;> simp only [hm] at hh <;> cases hh

theorem KeepVt.noexcept {α : Type} {m : M V α} (h : KeepVt w m) : KeepVt w (TypeErased.noexcept m) := by
  intro s
  unfold TypeErased.noexcept
  cases hm : m.run s with
  | ok x s' =>
    constructor <;> intro _ _ hh <;> simp only [hm] at hh <;> cases hh
    exact (h s).1 _ _ hm
  | thrown e s' => constructor <;> intro _ _ hh <;> simp only [hm] at hh <;> cases hh
  | fault f => constructor <;> intro _ _ hh <;> simp only [hm] at hh <;> cases hh

theorem KeepVt.ite {α : Type} {c : Prop} [Decidable c] {m m' : M V α} (h : KeepVt w m)
    (h' : KeepVt w m') : KeepVt w (if c then m else m') := by
  split
  · exact h
  · exact h'

theorem KeepVt.getW (v : Nat) : KeepVt w (TypeErased.getW v : M V _) := by
  intro s
  unfold TypeErased.getW
  cases h : s.wr v with
  | none => constructor <;> intro _ _ hh <;> simp only [h] at hh <;> cases hh
  | some W =>
    constructor <;> intro _ _ hh <;> simp only [h] at hh <;> cases hh
    exact .refl _

theorem SameVt.upd {s : St V} {v : Nat} {W' : Wrapper V}
    (h : v = w → ∀ W, s.wr w = some W → W'.vt = W.vt) :
    SameVt w s { s with wr := upd s.wr v (some W') } := by
  intro W hW
  by_cases hv : w = v
  · subst hv; exact ⟨W', by simp, h rfl W hW⟩
  · exact ⟨W, by simp [upd_ne _ _ hv, hW], rfl⟩

theorem KeepVt.modW {v : Nat} {f : Wrapper V → Wrapper V} (h : v = w → ∀ W, (f W).vt = W.vt) :
    KeepVt w (TypeErased.modW v f) := by
  intro s
  unfold TypeErased.modW
  cases hv : s.wr v with
  | none => constructor <;> intro _ _ hh <;> simp only [hv] at hh <;> cases hh
  | some W =>
    constructor <;> intro _ _ hh <;> simp only [hv] at hh <;> cases hh
    refine .upd ?_
    rintro rfl W' hW'
    rw [hv] at hW'; cases hW'
    exact h rfl _

theorem KeepVt.newW (v a : Nat) (vt : VTable) : KeepVt w (TypeErased.newW v a vt : M V Unit) := by
  intro s
  unfold TypeErased.newW
  cases h : s.wr v with
  | some _ => constructor <;> intro _ _ hh <;> simp only [h] at hh <;> cases hh
  | none =>
    constructor <;> intro _ _ hh <;> simp only [h] at hh <;> cases hh
    refine .upd ?_
    rintro rfl W' hW'
    rw [h] at hW'; cases hW'

theorem KeepVt.endW {v : Nat} (hv : v ≠ w) : KeepVt w (TypeErased.endW v : M V Unit) := by
  intro s
  unfold TypeErased.endW
  cases h : s.wr v with
  | none => constructor <;> intro _ _ hh <;> simp only [h] at hh <;> cases hh
  | some W =>
    constructor <;> intro x s' hh <;> simp only [h] at hh <;> split at hh <;> cases hh
    intro W hW
    exact ⟨W, by simp [upd_ne _ _ hv.symm, hW], rfl⟩

theorem SameVt.setSlot (s : St V) (p : Ptr) (o : Option (Obj V)) : SameVt w s (s.setSlot p o) := by
  intro W hW
  cases p with
  | small v =>
    by_cases hv : w = v
    · subst hv; exact ⟨{ W with buf := o }, by simp [St.setSlot, hW], rfl⟩
    · exact ⟨W, by simp [St.setSlot, upd_ne _ _ hv, hW], rfl⟩
  | null => exact ⟨W, hW, rfl⟩
  | heap b => exact ⟨W, hW, rfl⟩
  | ext e => exact ⟨W, hW, rfl⟩

theorem KeepVt.construct (p : Ptr) (o : Obj V) : KeepVt w (TypeErased.construct cfg p o) := by
  intro s
  unfold TypeErased.construct
  constructor <;> intro x s' hh <;> dsimp only at hh <;> repeat' split at hh
  all_goals cases hh
  exact .setSlot _ _ _

theorem KeepVt.destroyAt (p : Ptr) (t : Nat) : KeepVt w (TypeErased.destroyAt cfg p t : M V Unit) := by
  intro s
  unfold TypeErased.destroyAt
  constructor <;> intro x s' hh <;> dsimp only at hh <;> repeat' split at hh
  all_goals cases hh
  exact .setSlot _ _ _

theorem KeepVt.readAs (p : Ptr) (t : Nat) : KeepVt w (TypeErased.readAs p t : M V V) := by
  intro s
  unfold TypeErased.readAs
  constructor <;> intro x s' hh <;> dsimp only at hh <;> repeat' split at hh
  all_goals cases hh
  exact .refl _

theorem KeepVt.writeAs (p : Ptr) (t : Nat) (f : V → V) : KeepVt w (TypeErased.writeAs p t f) := by
  intro s
  unfold TypeErased.writeAs
  constructor <;> intro x s' hh <;> dsimp only at hh <;> repeat' split at hh
  all_goals cases hh
  · exact fun W hW => ⟨W, hW, rfl⟩
  · exact .setSlot _ _ _

theorem KeepVt.malloc (a n : Nat) (b : Bool) : KeepVt w (TypeErased.malloc a n b : M V Ptr) := by
  intro s
  unfold TypeErased.malloc
  constructor <;> intro x s' hh <;> dsimp only at hh <;> split at hh <;> cases hh <;>
    exact fun W hW => ⟨W, hW, rfl⟩

theorem KeepVt.mfree (a : Nat) (p : Ptr) (n : Nat) : KeepVt w (TypeErased.mfree a p n : M V Unit) := by
  intro s
  unfold TypeErased.mfree
  constructor <;> intro x s' hh <;> dsimp only at hh <;> repeat' split at hh
  all_goals cases hh
  exact fun W hW => ⟨W, hW, rfl⟩

macro "kv" : tactic => `(tactic| (repeat' first
  | exact KeepVt.pure _ | exact KeepVt.fail _ | exact KeepVt.throwE _
  | exact KeepVt.assertM _ | exact KeepVt.getW _ | exact KeepVt.modW (fun _ _ => rfl)
  | exact KeepVt.modW (fun h => absurd h (by assumption))
  | exact KeepVt.newW _ _ _ | exact KeepVt.endW (by assumption) | exact KeepVt.construct _ _
  | exact KeepVt.destroyAt _ _ | exact KeepVt.readAs _ _ | exact KeepVt.writeAs _ _ _
  | exact KeepVt.malloc _ _ _ | exact KeepVt.mfree _ _ _
  | assumption
  | apply KeepVt.onThrow | apply KeepVt.noexcept | apply KeepVt.ite
  | (refine KeepVt.bind ?_ (fun _ => ?_)) | split))

theorem kv_vtCopy (vt : VTable) (p q : Ptr) (b : Bool) : KeepVt w (vtCopy cfg vt p q b : M V Unit) := by
  unfold vtCopy constructOrThrow; kv

theorem kv_vtMove (vt : VTable) (p q : Ptr) : KeepVt w (vtMove cfg vt p q : M V Unit) := by
  unfold vtMove; kv

theorem kv_vtDestroy (vt : VTable) (p : Ptr) : KeepVt w (vtDestroy cfg vt p : M V Unit) := by
  unfold vtDestroy; kv

theorem kv_deallocate (v : Nat) : KeepVt w (deallocate cfg v : M V Unit) := by
  unfold deallocate releaseBlock; kv

theorem kv_allocate (v n : Nat) (b : Bool) : KeepVt w (allocate cfg v n b : M V Unit) := by
  unfold allocate storageFor; kv

theorem kv_cleanup (v : Nat) : KeepVt w (cleanup cfg v : M V Unit) := by
  unfold cleanup
  exact .bind (.getW _) fun W => .ite (.modW fun _ _ => rfl) (.ite (.pure _)
    (.bind (kv_vtDestroy _ _) fun _ => kv_deallocate _))

theorem kv_doCopyAssign (b : Bool) (v src : Nat) (t : Throws) :
    KeepVt w (doCopyAssign cfg b v src t : M V Unit) := by
  unfold doCopyAssign propagateAlloc
  exact .bind (.getW _) fun O => .bind (by kv) fun _ => .ite (.pure _) (.ite (by kv)
    (.bind (kv_allocate _ _ _) fun _ => .onThrow (.bind (.getW _) fun W => kv_vtCopy _ _ _ _)
      (kv_deallocate _)))

theorem kv_constructInplace {v : Nat} (hv : v ≠ w) (t : Nat) (x : V) (th : Throws) :
    KeepVt w (constructInplace cfg v t x th) := by
  unfold constructInplace constructOrThrow setVtOrThrow
  exact .bind (kv_allocate _ _ _) fun _ => .onThrow (by kv) (kv_deallocate _)

theorem kv_constructRef {v : Nat} (hv : v ≠ w) (e : Nat) (c : Bool) (th : Throws) :
    KeepVt w (constructRef cfg v e c th : M V Unit) := by
  unfold constructRef
  refine .bind (.modW fun _ _ => rfl) fun _ => .bind ?_ fun _ => .modW fun _ _ => rfl
  intro s
  have : KeepVt w (setVtOrThrow v (.make cfg (s.ext e).ty c th.provides) th.vtable : M V Unit) := by
    unfold setVtOrThrow; kv
  exact this s

theorem kv_ctor {v : Nat} (hv : v ≠ w) (a : Nat) (vt : VTable) {body : M V Unit} (h : KeepVt w body) :
    KeepVt w (ctor v a vt body) := by
  unfold ctor; kv

theorem kv_stealSelf (v src : Nat) : KeepVt w (stealSelf v src : M V Unit) := by
  unfold stealSelf; kv

theorem kv_moveSmall (v src : Nat) : KeepVt w (moveSmall cfg v src : M V Unit) := by
  unfold moveSmall
  exact .bind (.modW fun _ _ => rfl) fun _ => .bind (.getW _) fun _ => .bind (.getW _) fun _ =>
    .bind (kv_vtMove _ _ _) fun _ => .bind (kv_vtDestroy _ _) fun _ => .modW fun _ _ => rfl

theorem kv_dtor {v : Nat} (hv : v ≠ w) : KeepVt w (dtor cfg v : M V Unit) :=
  .bind (kv_cleanup _) fun _ => .endW hv

theorem kv_step {op : Op V} (h : ¬ op.writesTo w) : KeepVt w (step cfg op) := by
  cases op <;> simp only [step]
  case «default» => kv
  case value v _ _ _ _ =>
    exact .bind (kv_ctor h _ _ (kv_constructInplace h _ _ _)) fun _ => .pure _
  case ref => exact .bind (kv_ctor h _ _ (kv_constructRef h _ _ _)) fun _ => .pure _
  case make =>
    unfold make
    exact .bind (.bind (.newW _ _ _) fun _ =>
      .onThrow (kv_constructInplace h _ _ _) (kv_dtor h)) fun _ => .pure _
  case copy =>
    unfold copyCtor
    exact .bind (.getW _) fun _ => .bind (.bind (.getW _) fun _ =>
      kv_ctor h _ _ (kv_doCopyAssign _ _ _ _)) fun _ => .pure _
  case copyA =>
    unfold copyCtor
    exact .bind (.bind (.getW _) fun _ => kv_ctor h _ _ (kv_doCopyAssign _ _ _ _)) fun _ => .pure _
  case move =>
    unfold moveCtor takeCtor
    exact .bind (.bind (.getW _) fun _ => .bind (.newW _ _ _) fun _ => .noexcept
      (.bind (.modW fun _ _ => rfl) fun _ => .bind
        (.ite (kv_stealSelf _ _) (.ite (.pure _) (kv_moveSmall _ _))) fun _ => .modW fun _ _ => rfl))
      fun _ => .pure _
  case moveA =>
    unfold moveCtorAlloc takeCtorAlloc moveHeap
    exact .bind (.bind (.getW _) fun _ => .bind (.newW _ _ _) fun _ => .noexcept
      (.ite (.pure _) (.bind (.modW fun _ _ => rfl) fun _ => .bind
        (.ite (kv_stealSelf _ _) (.ite (.ite (kv_stealSelf _ _)
          (.bind (.getW _) fun _ => .bind (.getW _) fun _ => .bind (.malloc _ _ _) fun _ =>
            .bind (.modW fun _ _ => rfl) fun _ => .bind (kv_vtMove _ _ _) fun _ =>
            .bind (kv_vtDestroy _ _) fun _ => kv_deallocate _)) (kv_moveSmall _ _)))
        fun _ => .modW fun _ _ => rfl))) fun _ => .pure _
  case copyAssign =>
    unfold copyAssign
    exact .bind (.ite (.pure _) (.bind (kv_cleanup _) fun _ => .bind (.getW _) fun _ =>
      .bind (.modW fun hh => absurd hh h) fun _ => kv_doCopyAssign _ _ _ _)) fun _ => .pure _
  case moveAssign =>
    unfold moveAssign takeAssign moveHeapAssign propagateAlloc
    exact .bind (.ite (.pure _) (.noexcept (.bind (kv_cleanup _) fun _ => .bind (.getW _) fun _ =>
      .bind (.ite (.modW fun _ _ => rfl) (.pure _)) fun _ => .ite (.pure _)
      (.bind (.modW fun _ _ => rfl) fun _ => .bind (.modW fun hh => absurd hh h) fun _ =>
        .bind (.getW _) fun _ => .bind
        (.ite (kv_stealSelf _ _) (.ite (.ite (kv_stealSelf _ _)
          (.bind (.getW _) fun _ => .bind (.getW _) fun _ => .bind (.malloc _ _ _) fun _ =>
            .bind (.modW fun _ _ => rfl) fun _ => .bind (kv_vtMove _ _ _) fun _ =>
            .bind (kv_vtDestroy _ _) fun _ => .bind (.mfree _ _ _) fun _ => .modW fun _ _ => rfl))
          (kv_moveSmall _ _)))
        fun _ => .modW fun _ _ => rfl)))) fun _ => .pure _
  case destroy => exact .bind (kv_dtor h) fun _ => .pure _
  case modify => unfold asMut; kv
  case read => unfold asConst; kv
  case query => unfold callConst; kv
  case optional => unfold callOptional; kv
  case update => unfold callMut; kv
  case test => unfold hasValue; kv
  case poke => unfold getPointer; kv
  case outside =>
    intro s
    exact ⟨fun _ _ h => (by cases h; exact fun W hW => ⟨W, hW, rfl⟩), fun _ _ h => (by cases h)⟩

theorem exec_keep (ops : List (Op V)) (h : ∀ op ∈ ops, ¬ op.writesTo w) : ∀ s s',
    (exec cfg ops s).2 = .inr s' → SameVt w s s' := by
  induction ops with
  | nil => intro s s' hs; cases hs; exact .refl _
  | cons op ops ih =>
    intro s s' hs
    have h1 := kv_step (cfg := cfg) (h op (by simp)) s
    have ih := ih fun op' hop => h op' (by simp [hop])
    unfold exec at hs
    cases hst : (step cfg op).run s with
    | ok x s₁ => rw [hst] at hs; exact (h1.1 _ _ hst).trans (ih _ _ hs)
    | thrown e s₁ => rw [hst] at hs; exact (h1.2 _ _ hst).trans (ih _ _ hs)
    | fault f => rw [hst] at hs; cases hs

theorem exec_append (ops ops' : List (Op V)) : ∀ s s', (exec cfg (ops ++ ops') s).2 = .inr s' →
    ∃ s₁, (exec cfg ops s).2 = .inr s₁ ∧ (exec cfg ops' s₁).2 = .inr s' := by
  induction ops with
  | nil => intro s s' h; exact ⟨s, rfl, h⟩
  | cons op ops ih =>
    intro s s' h
    rw [List.cons_append] at h
    unfold exec at h
    cases hst : (step cfg op).run s with
    | ok x s₁ =>
      rw [hst] at h
      obtain ⟨s₂, h1, h2⟩ := ih _ _ h
      exact ⟨s₂, by unfold exec; rw [hst]; exact h1, h2⟩
    | thrown e s₁ =>
      rw [hst] at h
      obtain ⟨s₂, h1, h2⟩ := ih _ _ h
      exact ⟨s₂, by unfold exec; rw [hst]; exact h1, h2⟩
    | fault f => rw [hst] at h; cases h

/-- C58, what holds: on a wrapper that was default-constructed and not assigned to since, every
`as<T>()` throws `bad_type_erased_type`, whatever the program did before and does elsewhere (also if it
copies or moves from that wrapper). Missing: wrappers that are empty because they were moved from, or
because an assignment to them threw. -/
theorem empty_access_throws_partial (ext : Nat → Obj V) (ops ops' : List (Op V)) {w al : Nat}
    (hops : ∀ op ∈ ops', ¬ op.writesTo w) {s : St V}
    (h : (exec cfg (ops ++ .default w al :: ops') (St.init ext)).2 = .inr s) (t : Nat) :
    (asMut w t).run s = .thrown .badTypeErasedType s ∧
    (asConst w t).run s = .thrown .badTypeErasedType s := by
  obtain ⟨s₁, _, h2⟩ := exec_append _ _ _ _ h
  unfold exec at h2
  cases hst : (step cfg (.default w al)).run s₁ with
  | thrown e s₂ =>
    simp only [step] at hst
    cases hw : s₁.wr w with
    | none => rw [bind_ok (newW_eq hw al {})] at hst; cases hst
    | some W => rw [bind_fault (e := .ub) (by simp only [newW, hw])] at hst; cases hst
  | fault f => rw [hst] at h2; cases h2
  | ok x s₂ =>
    rw [hst] at h2
    have hvt : ∃ W, s₂.wr w = some W ∧ W.vt.ty = none := by
      simp only [step] at hst
      cases hw : s₁.wr w with
      | none =>
        rw [bind_ok (newW_eq hw al {})] at hst
        cases hst
        exact ⟨_, upd_same _ _ _, rfl⟩
      | some W => rw [bind_fault (e := .ub) (by simp only [newW, hw])] at hst; cases hst
    obtain ⟨W, hW, hty⟩ := hvt
    obtain ⟨W', hW', hvt'⟩ := exec_keep ops' hops _ _ h2 W hW
    have gW : (getW w).run s = .ok W' s := by simp [getW, hW']
    constructor
    · unfold asMut; rw [bind_ok gW, if_pos (by rw [hvt', hty]; simp)]; rfl
    · unfold asConst; rw [bind_ok gW, if_pos (by rw [hvt', hty]; simp)]; rfl

example : ∃ s, (exec exCfg ([Op.value 0 3 1 42 {}] ++ .default 1 3 :: [.copy 2 1 {}, .move 4 1])
    (St.init exExt)).2 = .inr s := ⟨_, rfl⟩

end Guanaqo.TypeErased
