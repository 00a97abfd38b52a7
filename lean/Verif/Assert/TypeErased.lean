import Verif.TypeErased.Props

/-!
# Debug and release builds (C115): type-erased wrappers

`Cfg.ndebug` removes the assertions of `TypeErased`. All theorems about the model hold for both builds; here the two are compared, for every operation in
every state (also those that no correct program reaches).
-/

namespace Guanaqo.TypeErased

variable {V : Type} {cfg : Cfg} {α β : Type}

/-- The two builds. -/
def Cfg.debug (cfg : Cfg) : Cfg := { cfg with ndebug := false }
def Cfg.release (cfg : Cfg) : Cfg := { cfg with ndebug := true }

/-- C115 for an evaluation: in the debug build an assertion fails, or the release build does the same. No assertion fails in the release build. -/
def OnlyAsserts (d r : M V α) : Prop :=
  ∀ s, (d.run s = .fault .assertFail ∨ r.run s = d.run s) ∧ r.run s ≠ .fault .assertFail

/-- Evaluations without assertions. -/
def Plain (m : M V α) : Prop := ∀ s, m.run s ≠ .fault .assertFail

theorem Plain.only {m : M V α} (h : Plain m) : OnlyAsserts m m := fun s => ⟨.inr rfl, h s⟩

theorem OnlyAsserts.assertM (b : Bool) : OnlyAsserts (assertM cfg.debug b : M V Unit) (TypeErased.assertM cfg.release b) := by
  intro s
  cases b
  · exact ⟨.inl rfl, fun h => by cases h⟩
  · exact ⟨.inr rfl, fun h => by cases h⟩

theorem OnlyAsserts.bind {d r : M V α} {f g : α → M V β} (h : OnlyAsserts d r) (hf : ∀ x, OnlyAsserts (f x) (g x)) :
    OnlyAsserts (d >>= f) (r >>= g) := by
  intro s
  obtain ⟨h1, h2⟩ := h s
  have hr : (r >>= g).run s ≠ .fault .assertFail := by
    cases hr : r.run s with
    | ok x s' => rw [bind_ok hr]; exact (hf x s').2
    | thrown e s' => rw [bind_thrown hr]; simp
    | fault f => rw [bind_fault hr]; rw [hr] at h2; simpa using h2
  refine ⟨?_, hr⟩
  rcases h1 with h1 | h1
  · exact .inl (bind_fault h1)
  · cases hd : d.run s with
    | ok x s' => rw [bind_ok hd, bind_ok (h1.trans hd)]; exact (hf x s').1
    | thrown e s' => rw [bind_thrown hd, bind_thrown (h1.trans hd)]; exact .inr rfl
    | fault f => rw [bind_fault hd, bind_fault (h1.trans hd)]; exact .inr rfl

theorem OnlyAsserts.onThrow {d r : M V α} {c c' : M V Unit} (h : OnlyAsserts d r) (hc : OnlyAsserts c c') :
    OnlyAsserts (onThrow d c) (onThrow r c') := by
  intro s
  obtain ⟨h1, h2⟩ := h s
  unfold TypeErased.onThrow
  dsimp only
  refine ⟨?_, ?_⟩
  · rcases h1 with h1 | h1
    · rw [h1]; exact .inl rfl
    · rw [h1]
      cases hd : d.run s with
      | ok x s' => exact .inr rfl
      | fault f => exact .inr rfl
      | thrown e s' =>
        dsimp only
        rcases (hc s').1 with k | k
        · rw [k]; exact .inl rfl
        · rw [k]; exact .inr rfl
  · cases hr : r.run s with
    | ok x s' => simp
    | fault f => rw [hr] at h2; simpa using h2
    | thrown e s' =>
      dsimp only
      have := (hc s').2
      cases hcr : c'.run s' with
      | ok x s'' => simp
      | thrown e s'' => simp
      | fault f => rw [hcr] at this; simpa using this

theorem OnlyAsserts.noexcept {d r : M V α} (h : OnlyAsserts d r) : OnlyAsserts (noexcept d) (noexcept r) := by
  intro s
  obtain ⟨h1, h2⟩ := h s
  unfold TypeErased.noexcept
  dsimp only
  refine ⟨?_, ?_⟩
  · rcases h1 with h1 | h1
    · rw [h1]; exact .inl rfl
    · rw [h1]; exact .inr rfl
  · cases hr : r.run s with
    | ok x s' => simp
    | fault f => rw [hr] at h2; simpa using h2
    | thrown e s' => simp

theorem OnlyAsserts.ite {c : Prop} [Decidable c] {d r d' r' : M V α} (h : OnlyAsserts d r) (h' : OnlyAsserts d' r') :
    OnlyAsserts (if c then d else d') (if c then r else r') := by
  split
  · exact h
  · exact h'

theorem OnlyAsserts.pure (x : α) : OnlyAsserts (pure x : M V α) (pure x) := Plain.only fun _ h => by cases h
theorem OnlyAsserts.ub : OnlyAsserts (fail .ub : M V α) (fail .ub) := Plain.only fun _ h => by cases h
theorem OnlyAsserts.terminate : OnlyAsserts (fail .terminate : M V α) (fail .terminate) := Plain.only fun _ h => by cases h
theorem OnlyAsserts.throwE (e : Exn) : OnlyAsserts (throwE e : M V α) (throwE e) := Plain.only fun _ h => by cases h

theorem OnlyAsserts.getW (v : Nat) : OnlyAsserts (getW v : M V _) (getW v) := Plain.only fun s h => by
  unfold TypeErased.getW at h
  dsimp only at h
  repeat' split at h
  all_goals cases h

theorem OnlyAsserts.modW (v : Nat) (f : Wrapper V → Wrapper V) : OnlyAsserts (modW v f) (modW v f) := Plain.only fun s h => by
  unfold TypeErased.modW at h
  dsimp only at h
  repeat' split at h
  all_goals cases h

theorem OnlyAsserts.newW (v a : Nat) (vt : VTable) : OnlyAsserts (newW v a vt : M V Unit) (newW v a vt) := Plain.only fun s h => by
  unfold TypeErased.newW at h
  dsimp only at h
  repeat' split at h
  all_goals cases h

theorem OnlyAsserts.endW (v : Nat) : OnlyAsserts (endW v : M V Unit) (endW v) := Plain.only fun s h => by
  unfold TypeErased.endW at h
  dsimp only at h
  repeat' split at h
  all_goals cases h

theorem OnlyAsserts.construct (p : Ptr) (o : Obj V) : OnlyAsserts (construct cfg.debug p o) (construct cfg.release p o) :=
  Plain.only (m := TypeErased.construct cfg.debug p o) fun s h => by
  unfold TypeErased.construct at h
  dsimp only at h
  repeat' split at h
  all_goals cases h

theorem OnlyAsserts.destroyAt (p : Ptr) (t : Nat) : OnlyAsserts (destroyAt cfg.debug p t : M V Unit) (destroyAt cfg.release p t) :=
  Plain.only (m := TypeErased.destroyAt cfg.debug p t) fun s h => by
  unfold TypeErased.destroyAt at h
  dsimp only at h
  repeat' split at h
  all_goals cases h

theorem OnlyAsserts.readAs (p : Ptr) (t : Nat) : OnlyAsserts (readAs p t : M V V) (readAs p t) := Plain.only fun s h => by
  unfold TypeErased.readAs at h
  dsimp only at h
  repeat' split at h
  all_goals cases h

theorem OnlyAsserts.writeAs (p : Ptr) (t : Nat) (f : V → V) : OnlyAsserts (writeAs p t f) (writeAs p t f) := Plain.only fun s h => by
  unfold TypeErased.writeAs at h
  dsimp only at h
  repeat' split at h
  all_goals cases h

theorem OnlyAsserts.malloc (a n : Nat) (b : Bool) : OnlyAsserts (malloc a n b : M V Ptr) (malloc a n b) := Plain.only fun s h => by
  unfold TypeErased.malloc at h
  dsimp only at h
  repeat' split at h
  all_goals cases h

theorem OnlyAsserts.mfree (a : Nat) (p : Ptr) (n : Nat) : OnlyAsserts (mfree a p n : M V Unit) (mfree a p n) := Plain.only fun s h => by
  unfold TypeErased.mfree at h
  dsimp only at h
  repeat' split at h
  all_goals cases h

macro "oa" : tactic => `(tactic| (repeat' first
  | exact OnlyAsserts.pure _ | exact OnlyAsserts.ub | exact OnlyAsserts.terminate | exact OnlyAsserts.throwE _
  | exact OnlyAsserts.assertM _ | exact OnlyAsserts.getW _ | exact OnlyAsserts.modW _ _
  | exact OnlyAsserts.newW _ _ _ | exact OnlyAsserts.endW _ | exact OnlyAsserts.construct _ _
  | exact OnlyAsserts.destroyAt _ _ | exact OnlyAsserts.readAs _ _ | exact OnlyAsserts.writeAs _ _ _
  | exact OnlyAsserts.malloc _ _ _ | exact OnlyAsserts.mfree _ _ _
  | assumption
  | apply OnlyAsserts.onThrow | apply OnlyAsserts.noexcept | apply OnlyAsserts.ite
  | (refine OnlyAsserts.bind ?_ (fun _ => ?_)) | split))

theorem oa_vtCopy (vt : VTable) (p q : Ptr) (b : Bool) : OnlyAsserts (vtCopy cfg.debug vt p q b : M V Unit) (vtCopy cfg.release vt p q b) := by
  unfold vtCopy constructOrThrow
  cases vt.cmd with
  | none => oa
  | some c => dsimp only; oa

theorem oa_vtMove (vt : VTable) (p q : Ptr) : OnlyAsserts (vtMove cfg.debug vt p q : M V Unit) (vtMove cfg.release vt p q) := by
  unfold vtMove
  rcases vt.cmd with _ | ⟨t, _ | _⟩ <;> dsimp only <;> oa

theorem oa_vtDestroy (vt : VTable) (p : Ptr) : OnlyAsserts (vtDestroy cfg.debug vt p : M V Unit) (vtDestroy cfg.release vt p) := by
  unfold vtDestroy
  rcases vt.cmd with _ | ⟨t, _ | _⟩ <;> dsimp only <;> oa

theorem oa_deallocate (v : Nat) : OnlyAsserts (deallocate cfg.debug v : M V Unit) (deallocate cfg.release v) := by
  unfold deallocate releaseBlock
  have e : cfg.release.sbs = cfg.debug.sbs := rfl
  rw [e]
  oa

theorem oa_allocate (v n : Nat) (b : Bool) : OnlyAsserts (allocate cfg.debug v n b : M V Unit) (allocate cfg.release v n b) := by
  unfold allocate storageFor
  have e : cfg.release.sbs = cfg.debug.sbs := rfl
  rw [e]
  oa

theorem oa_cleanup (v : Nat) : OnlyAsserts (cleanup cfg.debug v : M V Unit) (cleanup cfg.release v) := by
  unfold cleanup
  exact .bind (.getW _) fun W => .ite (.modW _ _) (.ite (.pure _)
    (.bind (oa_vtDestroy _ _) fun _ => oa_deallocate _))

theorem oa_propagate (b : Bool) (w a : Nat) : OnlyAsserts (propagateAlloc b w a : M V Unit) (propagateAlloc b w a) := by
  unfold propagateAlloc; oa

theorem oa_doCopyAssign (b : Bool) (v src : Nat) (t : Throws) :
    OnlyAsserts (doCopyAssign cfg.debug b v src t : M V Unit) (doCopyAssign cfg.release b v src t) := by
  unfold doCopyAssign
  exact .bind (.getW _) fun O => .bind (oa_propagate _ _ _) fun _ => .ite (.pure _) (.ite (by oa)
    (.bind (oa_allocate _ _ _) fun _ => .onThrow (.bind (.getW _) fun W => oa_vtCopy _ _ _ _)
      (oa_deallocate _)))

theorem oa_setVt (v : Nat) (vt : VTable) (b : Bool) : OnlyAsserts (setVtOrThrow v vt b : M V Unit) (setVtOrThrow v vt b) := by
  unfold setVtOrThrow; oa

theorem oa_constructOrThrow (p : Ptr) (o : Obj V) (b : Bool) : OnlyAsserts (constructOrThrow cfg.debug p o b) (constructOrThrow cfg.release p o b) := by
  unfold constructOrThrow; oa

theorem oa_constructInplace (v t : Nat) (x : V) (th : Throws) :
    OnlyAsserts (constructInplace cfg.debug v t x th) (constructInplace cfg.release v t x th) := by
  unfold constructInplace
  exact .bind (oa_allocate _ _ _) fun _ => .onThrow (.bind (.getW _) fun W => .bind (oa_constructOrThrow _ _ _) fun _ =>
    .onThrow (oa_setVt _ _ _) (.destroyAt _ _)) (oa_deallocate _)

theorem oa_constructRef (v e : Nat) (c : Bool) (th : Throws) :
    OnlyAsserts (constructRef cfg.debug v e c th : M V Unit) (constructRef cfg.release v e c th) := by
  unfold constructRef
  refine .bind (.modW _ _) fun _ => .bind ?_ fun _ => .modW _ _
  intro s
  exact oa_setVt v (.make cfg.debug (s.ext e).ty c th.provides) th.vtable s

theorem oa_ctor (v a : Nat) (vt : VTable) {body body' : M V Unit} (h : OnlyAsserts body body') :
    OnlyAsserts (ctor v a vt body) (ctor v a vt body') := by
  unfold ctor
  exact .bind (.newW _ _ _) fun _ => .onThrow h (.endW _)

theorem oa_stealSelf (v src : Nat) : OnlyAsserts (stealSelf v src : M V Unit) (stealSelf v src) := by
  unfold stealSelf; oa

theorem oa_moveSmall (v src : Nat) : OnlyAsserts (moveSmall cfg.debug v src : M V Unit) (moveSmall cfg.release v src) := by
  unfold moveSmall
  exact .bind (.modW _ _) fun _ => .bind (.getW _) fun _ => .bind (.getW _) fun _ =>
    .bind (oa_vtMove _ _ _) fun _ => .bind (oa_vtDestroy _ _) fun _ => .modW _ _

theorem oa_dtor (v : Nat) : OnlyAsserts (dtor cfg.debug v : M V Unit) (dtor cfg.release v) :=
  .bind (oa_cleanup _) fun _ => .endW _

theorem oa_nullFunction : OnlyAsserts (nullFunction cfg.debug : M V α) (nullFunction cfg.release) :=
  .bind (.assertM _) fun _ => .ub

/-- **C115**, wrappers, one operation: whatever the state, if no assertion fails in the debug build, the release build does the same. -/
theorem step_only_asserts (cfg : Cfg) (op : Op V) : OnlyAsserts (step cfg.debug op) (step cfg.release op) := by
  cases op <;> simp only [step]
  case «default» => oa
  case value => exact .bind (oa_ctor _ _ _ (oa_constructInplace _ _ _ _)) fun _ => .pure _
  case ref => exact .bind (oa_ctor _ _ _ (oa_constructRef _ _ _ _)) fun _ => .pure _
  case make =>
    unfold make
    exact .bind (.bind (.newW _ _ _) fun _ => .onThrow (oa_constructInplace _ _ _ _) (oa_dtor _)) fun _ => .pure _
  case copy =>
    unfold copyCtor
    exact .bind (.getW _) fun _ => .bind (.bind (.getW _) fun _ => oa_ctor _ _ _ (oa_doCopyAssign _ _ _ _)) fun _ => .pure _
  case copyA =>
    unfold copyCtor
    exact .bind (.bind (.getW _) fun _ => oa_ctor _ _ _ (oa_doCopyAssign _ _ _ _)) fun _ => .pure _
  case move =>
    unfold moveCtor takeCtor
    exact .bind (.bind (.getW _) fun _ => .bind (.newW _ _ _) fun _ => .noexcept
      (.bind (.modW _ _) fun _ => .bind
        (.ite (oa_stealSelf _ _) (.ite (.pure _) (oa_moveSmall _ _))) fun _ => .modW _ _))
      fun _ => .pure _
  case moveA =>
    unfold moveCtorAlloc takeCtorAlloc moveHeap
    exact .bind (.bind (.getW _) fun _ => .bind (.newW _ _ _) fun _ => .noexcept
      (.ite (.pure _) (.bind (.modW _ _) fun _ => .bind
        (.ite (oa_stealSelf _ _) (.ite (.ite (oa_stealSelf _ _)
          (.bind (.getW _) fun _ => .bind (.getW _) fun _ => .bind (.malloc _ _ _) fun _ =>
            .bind (.modW _ _) fun _ => .bind (oa_vtMove _ _ _) fun _ =>
            .bind (oa_vtDestroy _ _) fun _ => oa_deallocate _)) (oa_moveSmall _ _)))
        fun _ => .modW _ _))) fun _ => .pure _
  case copyAssign =>
    unfold copyAssign
    exact .bind (.ite (.pure _) (.bind (oa_cleanup _) fun _ => .bind (.getW _) fun _ =>
      .bind (.modW _ _) fun _ => oa_doCopyAssign _ _ _ _)) fun _ => .pure _
  case moveAssign =>
    unfold moveAssign takeAssign moveHeapAssign
    exact .bind (.ite (.pure _) (.noexcept (.bind (oa_cleanup _) fun _ => .bind (.getW _) fun _ =>
      .bind (oa_propagate _ _ _) fun _ => .ite (.pure _)
      (.bind (.modW _ _) fun _ => .bind (.modW _ _) fun _ =>
        .bind (.getW _) fun _ => .bind
        (.ite (oa_stealSelf _ _) (.ite (.ite (oa_stealSelf _ _)
          (.bind (.getW _) fun _ => .bind (.getW _) fun _ => .bind (.malloc _ _ _) fun _ =>
            .bind (.modW _ _) fun _ => .bind (oa_vtMove _ _ _) fun _ =>
            .bind (oa_vtDestroy _ _) fun _ => .bind (.mfree _ _ _) fun _ => .modW _ _))
          (oa_moveSmall _ _)))
        fun _ => .modW _ _)))) fun _ => .pure _
  case destroy => exact .bind (oa_dtor _) fun _ => .pure _
  case modify => unfold asMut; oa
  case read => unfold asConst; oa
  case query w =>
    unfold callConst
    refine .bind (.bind (.getW _) fun W => .bind (.assertM _) fun _ => ?_) fun _ => .pure _
    rcases W.vt.cmd with _ | ⟨t, c⟩
    · exact oa_nullFunction
    · exact .readAs _ _
  case optional w k =>
    unfold callOptional
    refine .bind (.bind (.getW _) fun W => .bind (.assertM _) fun _ => .ite ?_ (.pure _)) fun _ => .pure _
    rcases W.vt.cmd with _ | ⟨t, c⟩
    · exact oa_nullFunction
    · exact .bind (.readAs _ _) fun _ => .pure _
  case update w f =>
    unfold callMut
    refine .bind (.bind (.getW _) fun W => .bind (.assertM _) fun _ => .ite (.throwE _) ?_) fun _ => .pure _
    rcases W.vt.cmd with _ | ⟨t, _ | _⟩
    · exact oa_nullFunction
    · exact .writeAs _ _ _
    · exact .throwE _
  case test => unfold hasValue; oa
  case poke => unfold getPointer; oa
  case outside => exact Plain.only fun _ h => by cases h

/-- **C115**, wrappers, whole programs: if no assertion fails in the debug build, the release build returns and throws the same and ends in the same
state; in any case it returns and throws the same up to the operation whose assertion fails. -/
theorem wrappers_only_check (cfg : Cfg) (ops : List (Op V)) : ∀ s : St V,
    ((exec cfg.debug ops s).2 ≠ .inl .assertFail → exec cfg.release ops s = exec cfg.debug ops s) ∧
    (exec cfg.debug ops s).1 <+: (exec cfg.release ops s).1 ∧ (exec cfg.release ops s).2 ≠ .inl .assertFail := by
  induction ops with
  | nil => intro s; exact ⟨fun _ => rfl, List.prefix_rfl, fun h => by cases h⟩
  | cons op ops ih =>
    intro s
    obtain ⟨h1, h2⟩ := step_only_asserts cfg op s
    have hr : (exec cfg.release (op :: ops) s).2 ≠ .inl .assertFail := by
      unfold exec
      cases hr : (step cfg.release op).run s with
      | ok o s' => exact (ih s').2.2
      | thrown e s' => exact (ih s').2.2
      | fault f => rw [hr] at h2; simpa using h2
    unfold exec at hr ⊢
    rcases h1 with h1 | h1
    · refine ⟨fun h => absurd ?_ h, ?_, hr⟩
      · rw [h1]
      · rw [h1]; exact List.nil_prefix
    · rw [h1] at hr ⊢
      cases hd : (step cfg.debug op).run s with
      | ok o s' =>
        rw [hd] at hr
        obtain ⟨i1, i2, i3⟩ := ih s'
        refine ⟨fun h => ?_, ?_, hr⟩
        · dsimp only at h ⊢; rw [i1 h]
        · dsimp only; exact (List.prefix_cons_inj _).2 i2
      | thrown e s' =>
        rw [hd] at hr
        obtain ⟨i1, i2, i3⟩ := ih s'
        refine ⟨fun h => ?_, ?_, hr⟩
        · dsimp only at h ⊢; rw [i1 h]
        · dsimp only; exact (List.prefix_cons_inj _).2 i2
      | fault f => rw [hd] at hr; exact ⟨fun _ => rfl, List.prefix_rfl, hr⟩

/-- Correct programs (C55) do the same in both builds. -/
theorem wrappers_same_builds (ok : cfg.Ok) (ext : Nat → Obj V) {ops : List (Op V)} {os : List (Except Exn (Obs V))} {r : Option (World V)}
    (h : Run cfg.debug (World.init ext) ops os r) :
    exec cfg.release ops (St.init ext) = exec cfg.debug ops (St.init ext) ∧ (exec cfg.release ops (St.init ext)).1 = os := by
  have hok : cfg.debug.Ok := ⟨ok.1, ok.2⟩
  have := (wrappers_only_check cfg ops (St.init ext)).1 (fun hf => by
    have := (no_undefined hok ext h _ hf).1
    cases this)
  exact ⟨this, by rw [this]; exact value_semantics hok ext h⟩

/-- The difference: a method of an empty wrapper. -/
example : (exec exCfg.debug [.default 0 3, .query 0] (St.init exExt)).2 = .inl .assertFail ∧
    (exec exCfg.release [.default 0 3, .query 0] (St.init exExt)).2 = .inl .ub := ⟨rfl, rfl⟩

example : ∃ a, Run exCfg.debug (World.init exExt) exOps exOut (some a) := 
  ⟨_, .done rfl (.done rfl (.threw rfl (.threw rfl (.done rfl (.done rfl (.done rfl (.done rfl
    (.done rfl (.done rfl (.threw rfl (.nil _)))))))))))⟩

end Guanaqo.TypeErased
