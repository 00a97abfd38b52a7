import Verif.TypeErased.Props

/-!
# C100: optional methods

An optional method of the vtable is the contained object's own if the type has it and, when the type has
a member `provides_…`, if that returned true when the object was wrapped; otherwise it is the default.
-/

namespace Guanaqo.TypeErased

variable {V : Type} {cfg : Cfg}

/-! ## Statements -/

/-- The choice `own` was made when an object of type `t` was wrapped, by an operation of the history. -/
def WrappedWith (cfg : Cfg) (ext : Nat → Obj V) (ops : List (Op V)) (t : Nat) (own : Nat → Bool) : Prop :=
  ∃ th : Throws, own = cfg.own t th.provides ∧
    ((∃ w al v, Op.value w al t v th ∈ ops) ∨ (∃ w al v, Op.make w al t v th ∈ ops) ∨
     ∃ w al e c, Op.ref w al e c th ∈ ops ∧ (ext e).ty = t)

/-- A user could expect more: that the object's own method is called exactly if the object provides it
at the time of the call. `P k v`: what `provides_…` of method `k` returns for an object of value `v`. -/
def ProvidesNow : Prop :=
  ∀ (V : Type) (cfg : Cfg) (P : Nat → V → Bool), cfg.Ok → ∀ (ext : Nat → Obj V) (ops : List (Op V))
    (os : List (Except Exn (Obs V))) (a : World V),
    (∀ op ∈ ops, ∀ w al t v th, op = .value w al t v th → ∀ k, th.provides k = P k v) →
    Run cfg (World.init ext) ops os (some a) →
    ∀ s, (exec cfg ops (St.init ext)).2 = .inr s →
    ∀ w al t v k, a.Owns w al t v → k < cfg.nOpt → (cfg.decl t k).has = true → (cfg.decl t k).prov = true →
      (callOptional cfg w k).run s = .ok (P k v) s

/-! ## Proofs -/

/-- C100. After every allowed program, a call of an optional method of a wrapper that holds something
goes to the method that the specification says, and has no effect on the wrappers. -/
theorem optional_call (ok : cfg.Ok) (ext : Nat → Obj V) {ops : List (Op V)}
    {os : List (Except Exn (Obs V))} {a : World V} (h : Run cfg (World.init ext) ops os (some a))
    {w al : Nat} {c : Content V} (hw : a.wr w = some ⟨al, c⟩) (hc : c ≠ .empty) (k : Nat) :
    ∃ s, exec cfg ops (St.init ext) = (os, .inr s) ∧ (callOptional cfg w k).run s = .ok (c.own k) s := by
  obtain ⟨s, he, hr⟩ := run_end ok h
  refine ⟨s, he, ?_⟩
  obtain ⟨C, hcs, ha, hx⟩ := hr
  have ht : ∃ t, a.heldType c = some t := by
    cases c with
    | empty => exact absurd rfl hc
    | owned t v own => exact ⟨t, rfl⟩
    | ref e k own => exact ⟨_, rfl⟩
  obtain ⟨t, ht⟩ := ht
  obtain ⟨W, v, gW, hW, hnn, hv, hread, b, hvt, _⟩ := held_access ok hcs ha hx hw ht
  unfold callOptional
  rw [bind_ok gW]
  have has : (assertM cfg (W.self != .null) : M V Unit).run s = .ok () s := by
    simp [assertM, hnn]; rfl
  rw [bind_ok has]
  have ho : W.vt.own k = c.own k := by rw [hvt]; rfl
  rw [ho]
  cases hb : c.own k with
  | false => rfl
  | true =>
    rw [if_pos rfl]
    have hcmd : W.vt.cmd = some (t, b) := by rw [hvt]; rfl
    simp only [hcmd]
    rw [bind_ok hread]; rfl

/-- The world after the operation, if any, satisfies `Q`. -/
def Result.After (Q : World V → Prop) : Result V → Prop
  | .done _ a' => Q a'
  | .threw _ a' => Q a'
  | .terminated => True

/-- What holds of the contents of every wrapper. -/
def AllHeld (P : Nat → (Nat → Bool) → Prop) (a : World V) : Prop :=
  ∀ w al c t, a.wr w = some ⟨al, c⟩ → a.heldType c = some t → P t c.own

theorem heldType_set (a : World V) (w : Nat) (x : Option (Slot V)) (c : Content V) :
    (a.set w x).heldType c = a.heldType c := by cases c <;> rfl

theorem heldType_setExt (a : World V) (e : Nat) (f : V → V) (c : Content V) :
    (a.setExt e f).heldType c = a.heldType c := by
  cases c with
  | empty => rfl
  | owned t v own => rfl
  | ref e' k own =>
    simp only [World.heldType, World.setExt]
    by_cases h : e' = e
    · subst h; simp
    · rw [upd_ne _ _ h]

section
variable {P : Nat → (Nat → Bool) → Prop}

theorem AllHeld.set {a : World V} (h : AllHeld P a) (w : Nat) {x : Option (Slot V)}
    (hx : ∀ al c t, x = some ⟨al, c⟩ → a.heldType c = some t → P t c.own) : AllHeld P (a.set w x) := by
  intro v al c t hv ht
  rw [heldType_set] at ht
  by_cases hvw : v = w
  · subst hvw; simp only [World.set, upd_same] at hv; exact hx al c t hv ht
  · simp only [World.set, upd_ne _ _ hvw] at hv; exact h v al c t hv ht

theorem AllHeld.setExt {a : World V} (h : AllHeld P a) (e : Nat) (f : V → V) : AllHeld P (a.setExt e f) := by
  intro v al c t hv ht
  rw [heldType_setExt] at ht
  exact h v al c t hv ht

theorem AllHeld.one {a : World V} (h : AllHeld P a) (w al : Nat) {c : Content V}
    (hc : ∀ t, a.heldType c = some t → P t c.own) : AllHeld P (a.set w (some ⟨al, c⟩)) :=
  h.set w fun al' c' t hh ht => by cases hh; exact hc t ht

theorem AllHeld.modify {a : World V} (h : AllHeld P a) {w : Nat} {d : Slot V} (hd : a.wr w = some d) (f : V → V) :
    (a.modifyHeld w d f).After (AllHeld P) := by
  obtain ⟨al, c⟩ := d
  cases c with
  | empty => exact h
  | owned t v own => exact h.one w al fun t' ht => h w al (.owned t v own) t' hd ht
  | ref e k own =>
    cases k with
    | true => exact h
    | false => exact h.setExt e f

/-- One operation keeps what holds of all contents, if the new ones have it. -/
theorem AllHeld.spec {a : World V} (h : AllHeld P a) {op : Op V} {r : Result V} (hs : spec cfg a op = some r)
    (hv : ∀ w al t v th, op = .value w al t v th → P t (cfg.own t th.provides))
    (hm : ∀ w al t v th, op = .make w al t v th → P t (cfg.own t th.provides))
    (hr : ∀ w al e c th, op = .ref w al e c th → P (a.ext e).ty (cfg.own (a.ext e).ty th.provides)) :
    r.After (AllHeld P) := by
  have hempty : ∀ (b : World V), AllHeld P b → ∀ w al, AllHeld P (b.set w (some ⟨al, .empty⟩)) :=
    fun b hb w al => hb.one w al fun t ht => by cases ht
  have hcopy : ∀ (w al src : Nat) (s : Slot V), a.wr src = some s → AllHeld P (a.set w (some ⟨al, s.held⟩)) :=
    fun w al src s hs => h.one w al fun t ht => h src s.alloc s.held t hs ht
  cases op with
  | «default» w al =>
    simp only [TypeErased.spec] at hs
    split at hs <;> cases hs
    exact hempty a h w al
  | value w al t v th =>
    simp only [TypeErased.spec] at hs
    split at hs
    · split at hs <;> cases hs
      · exact h
      · exact h.one w al fun t' ht => by cases ht; exact hv _ _ _ _ _ rfl
    · cases hs
  | make w al t v th =>
    simp only [TypeErased.spec] at hs
    split at hs
    · split at hs <;> cases hs
      · exact h
      · exact h.one w al fun t' ht => by cases ht; exact hm _ _ _ _ _ rfl
    · cases hs
  | ref w al e c th =>
    simp only [TypeErased.spec] at hs
    split at hs
    · cases hs
      cases th.vtable
      · exact h.one w al fun t' ht => by cases ht; exact hr _ _ _ _ _ rfl
      · exact h
    · cases hs
  | copy w src th =>
    simp only [TypeErased.spec] at hs
    split at hs
    · rename_i hsrc
      split at hs <;> cases hs
      · exact h
      · exact hcopy _ _ _ _ hsrc
    · cases hs
  | copyA w src al th =>
    simp only [TypeErased.spec] at hs
    split at hs
    · rename_i hsrc
      split at hs <;> cases hs
      · exact h
      · exact hcopy _ _ _ _ hsrc
    · cases hs
  | move w src =>
    simp only [TypeErased.spec] at hs
    split at hs
    · rename_i s _ hsrc
      cases hs
      exact hempty _ (hcopy w s.alloc src s hsrc) _ _
    · cases hs
  | moveA w src al th =>
    simp only [TypeErased.spec] at hs
    split at hs
    · rename_i hsrc
      cases hs
      split
      · trivial
      · exact hempty _ (hcopy _ _ _ _ hsrc) _ _
    · cases hs
  | copyAssign w src th =>
    simp only [TypeErased.spec] at hs
    split at hs
    · rename_i hsrc
      split at hs
      · cases hs; exact h
      · split at hs <;> cases hs
        · exact hempty a h _ _
        · exact hcopy _ _ _ _ hsrc
    · cases hs
  | moveAssign w src th =>
    simp only [TypeErased.spec] at hs
    split at hs
    · rename_i hsrc
      split at hs
      · cases hs; exact h
      · cases hs
        generalize (if cfg.pocma = true then _ else _ : Nat) = al
        split
        · trivial
        · exact hempty _ (hcopy _ _ _ _ hsrc) _ _
    · cases hs
  | destroy w =>
    simp only [TypeErased.spec] at hs
    split at hs <;> cases hs
    exact h.set w fun _ _ _ hh => by cases hh
  | modify w t f =>
    simp only [TypeErased.spec] at hs
    split at hs
    · rename_i d hd
      split at hs
      · cases hs
      · rename_i t' _
        cases hs
        by_cases htt : t' = t
        · rw [if_pos htt]; exact h.modify hd f
        · rw [if_neg htt]; exact h
    · cases hs
  | read w t =>
    simp only [TypeErased.spec] at hs
    split at hs
    · split at hs
      · rename_i t' v _ _
        cases hs
        by_cases htt : t' = t
        · rw [if_pos htt]; exact h
        · rw [if_neg htt]; exact h
      · cases hs
    · cases hs
  | query w =>
    simp only [TypeErased.spec] at hs
    split at hs
    · split at hs <;> cases hs
      exact h
    · cases hs
  | update w f =>
    simp only [TypeErased.spec] at hs
    split at hs
    · rename_i d hd
      split at hs <;> cases hs
      exact h.modify hd f
    · cases hs
  | optional w k =>
    simp only [TypeErased.spec] at hs
    split at hs
    · split at hs <;> cases hs
      · exact h
      · exact h
    · cases hs
  | test w =>
    simp only [TypeErased.spec] at hs
    split at hs <;> cases hs
    exact h
  | poke w t f =>
    simp only [TypeErased.spec] at hs
    split at hs
    · rename_i d hd
      split at hs <;> cases hs
      exact h.modify hd f
    · cases hs
  | outside e f =>
    simp only [TypeErased.spec] at hs
    cases hs
    exact h.setExt e f

end

/-- The types of the objects outside do not change. -/
def SameTypes (ext : Nat → Obj V) (a : World V) : Prop := ∀ e, (a.ext e).ty = (ext e).ty

theorem sameTypes_setExt {ext : Nat → Obj V} {a : World V} (h : SameTypes ext a) (e : Nat) (f : V → V) :
    SameTypes ext (a.setExt e f) := by
  intro i
  by_cases hi : i = e
  · subst hi; simp only [World.setExt, upd_same]; exact h i
  · simp only [World.setExt, upd_ne _ _ hi]; exact h i

theorem sameTypes_modify {ext : Nat → Obj V} {a : World V} (h : SameTypes ext a) (w : Nat) (d : Slot V) (f : V → V) :
    (a.modifyHeld w d f).After (SameTypes ext) := by
  obtain ⟨al, c⟩ := d
  cases c with
  | empty => exact h
  | owned t v own => exact h
  | ref e k own =>
    cases k with
    | true => exact h
    | false => exact sameTypes_setExt h e f

theorem sameTypes_spec {ext : Nat → Obj V} {a : World V} (h : SameTypes ext a) {op : Op V} {r : Result V}
    (hs : spec cfg a op = some r) :
    r.After (SameTypes ext) := by
  cases op with
  | «default» w al => simp only [spec] at hs; split at hs <;> cases hs; exact h
  | value w al t v th =>
    simp only [spec] at hs
    split at hs
    · split at hs <;> cases hs <;> exact h
    · cases hs
  | make w al t v th =>
    simp only [spec] at hs
    split at hs
    · split at hs <;> cases hs <;> exact h
    · cases hs
  | ref w al e c th =>
    simp only [spec] at hs
    split at hs
    · cases hs; cases th.vtable <;> exact h
    · cases hs
  | copy w src th =>
    simp only [spec] at hs
    split at hs
    · split at hs <;> cases hs <;> exact h
    · cases hs
  | copyA w src al th =>
    simp only [spec] at hs
    split at hs
    · split at hs <;> cases hs <;> exact h
    · cases hs
  | move w src => simp only [spec] at hs; split at hs <;> cases hs; exact h
  | moveA w src al th =>
    simp only [spec] at hs
    split at hs
    · cases hs
      split
      · trivial
      · exact h
    · cases hs
  | copyAssign w src th =>
    simp only [spec] at hs
    split at hs
    · split at hs
      · cases hs; exact h
      · split at hs <;> cases hs <;> exact h
    · cases hs
  | moveAssign w src th =>
    simp only [spec] at hs
    split at hs
    · split at hs
      · cases hs; exact h
      · cases hs
        generalize (if cfg.pocma = true then _ else _ : Nat) = al
        split
        · trivial
        · exact h
    · cases hs
  | destroy w => simp only [spec] at hs; split at hs <;> cases hs; exact h
  | modify w t f =>
    simp only [spec] at hs
    split at hs
    · split at hs
      · cases hs
      · rename_i t' _
        cases hs
        by_cases htt : t' = t
        · rw [if_pos htt]; exact sameTypes_modify h _ _ _
        · rw [if_neg htt]; exact h
    · cases hs
  | read w t =>
    simp only [spec] at hs
    split at hs
    · split at hs
      · rename_i t' v _ _
        cases hs
        by_cases htt : t' = t
        · rw [if_pos htt]; exact h
        · rw [if_neg htt]; exact h
      · cases hs
    · cases hs
  | query w =>
    simp only [spec] at hs
    split at hs
    · split at hs <;> cases hs; exact h
    · cases hs
  | update w f =>
    simp only [spec] at hs
    split at hs
    · split at hs <;> cases hs; exact sameTypes_modify h _ _ _
    · cases hs
  | optional w k =>
    simp only [spec] at hs
    split at hs
    · split at hs <;> cases hs <;> exact h
    · cases hs
  | test w => simp only [spec] at hs; split at hs <;> cases hs; exact h
  | poke w t f =>
    simp only [spec] at hs
    split at hs
    · split at hs <;> cases hs; exact sameTypes_modify h _ _ _
    · cases hs
  | outside e f => simp only [spec] at hs; cases hs; exact sameTypes_setExt h e f

theorem run_held {P : Nat → (Nat → Bool) → Prop} {ext : Nat → Obj V} {a : World V} {ops : List (Op V)}
    {os : List (Except Exn (Obs V))} {r : Option (World V)} (h : Run cfg a ops os r) :
    AllHeld P a → SameTypes ext a →
    (∀ op ∈ ops, ∀ w al t v th, op = .value w al t v th ∨ op = .make w al t v th → P t (cfg.own t th.provides)) →
    (∀ op ∈ ops, ∀ w al e c th, op = .ref w al e c th → P (ext e).ty (cfg.own (ext e).ty th.provides)) →
    ∀ a', r = some a' → AllHeld P a' ∧ SameTypes ext a' := by
  induction h with
  | nil a => intro h1 h2 _ _ a' ha; cases ha; exact ⟨h1, h2⟩
  | done hs _ ih =>
    intro h1 h2 hv hr
    refine ih (h1.spec hs (fun w al t v th he => hv _ (by simp) w al t v th (.inl he))
      (fun w al t v th he => hv _ (by simp) w al t v th (.inr he))
      (fun w al e c th he => by rw [h2 e]; exact hr _ (by simp) w al e c th he)) (sameTypes_spec h2 hs)
      (fun op hop => hv op (by simp [hop])) (fun op hop => hr op (by simp [hop]))
  | threw hs _ ih =>
    intro h1 h2 hv hr
    refine ih (h1.spec hs (fun w al t v th he => hv _ (by simp) w al t v th (.inl he))
      (fun w al t v th he => hv _ (by simp) w al t v th (.inr he))
      (fun w al e c th he => by rw [h2 e]; exact hr _ (by simp) w al e c th he)) (sameTypes_spec h2 hs)
      (fun op hop => hv op (by simp [hop])) (fun op hop => hr op (by simp [hop]))
  | terminated _ => intro _ _ _ _ a' ha; cases ha

theorem init_held (P : Nat → (Nat → Bool) → Prop) (ext : Nat → Obj V) : AllHeld P (World.init ext) :=
  fun w al c t hw _ => by cases hw

/-- C100. The choice that a wrapper uses was made when an object of the contained type was wrapped. -/
theorem optional_origin (ext : Nat → Obj V) {ops : List (Op V)} {os : List (Except Exn (Obs V))} {a : World V}
    (h : Run cfg (World.init ext) ops os (some a)) {w al t : Nat} {c : Content V} (hw : a.wr w = some ⟨al, c⟩)
    (ht : a.heldType c = some t) : WrappedWith cfg ext ops t c.own := by
  refine (run_held (P := fun t own => WrappedWith cfg ext ops t own) (ext := ext) h (init_held _ ext) (fun _ => rfl)
    ?_ ?_ a rfl).1 w al c t hw ht
  · rintro op hop w al t v th (rfl | rfl)
    · exact ⟨th, rfl, .inl ⟨w, al, v, hop⟩⟩
    · exact ⟨th, rfl, .inr (.inl ⟨w, al, v, hop⟩)⟩
  · rintro op hop w al e c th rfl
    exact ⟨th, rfl, .inr (.inr ⟨w, al, e, c, hop, rfl⟩)⟩

/-- C100, without reference to the history: if the contained type does not have the method, the default is
called; if it has it and no member `provides_…`, its own is. -/
theorem optional_static (ok : cfg.Ok) (ext : Nat → Obj V) {ops : List (Op V)}
    {os : List (Except Exn (Obs V))} {a : World V} (h : Run cfg (World.init ext) ops os (some a))
    {w al t : Nat} {c : Content V} (hw : a.wr w = some ⟨al, c⟩) (ht : a.heldType c = some t) {k : Nat} (hk : k < cfg.nOpt)
    (hp : (cfg.decl t k).has = true → (cfg.decl t k).prov = false) :
    ∃ s, exec cfg ops (St.init ext) = (os, .inr s) ∧ (callOptional cfg w k).run s = .ok (cfg.decl t k).has s := by
  obtain ⟨s, he, h1⟩ := optional_call ok ext h hw (by rintro rfl; cases ht) k
  refine ⟨s, he, ?_⟩
  rw [h1]
  obtain ⟨th, ho, _⟩ := optional_origin ext h hw ht
  rw [ho]
  unfold Cfg.own
  cases hh : (cfg.decl t k).has with
  | false => simp
  | true => simp [hk, hp hh]

/-- C100: if the type has both members, the object's own method is called exactly if `provides_…` returned
true when the object was wrapped, whatever happened to the wrapper and the object since (here: the wrapper
that wrapped it; copies, moves and assignments hand the choice on with the object, see `spec`). -/
theorem optional_provides (ok : cfg.Ok) (ext : Nat → Obj V) {ops : List (Op V)}
    {os : List (Except Exn (Obs V))} {a : World V} (h : Run cfg (World.init ext) ops os (some a))
    {w al t : Nat} {c : Content V} (hw : a.wr w = some ⟨al, c⟩) (ht : a.heldType c = some t) {k : Nat} (hk : k < cfg.nOpt)
    (hh : (cfg.decl t k).has = true) (hp : (cfg.decl t k).prov = true) {b : Bool}
    (hv : ∀ op ∈ ops, ∀ w al v th, op = .value w al t v th ∨ op = .make w al t v th → th.provides k = b)
    (hr : ∀ op ∈ ops, ∀ w al e c th, op = .ref w al e c th → (ext e).ty = t → th.provides k = b) :
    ∃ s, exec cfg ops (St.init ext) = (os, .inr s) ∧ (callOptional cfg w k).run s = .ok b s := by
  obtain ⟨s, he, h1⟩ := optional_call ok ext h hw (by rintro rfl; cases ht) k
  refine ⟨s, he, ?_⟩
  rw [h1]
  obtain ⟨th, ho, h2⟩ := optional_origin ext h hw ht
  have hb : th.provides k = b := by
    rcases h2 with ⟨w, al, v, h2⟩ | ⟨w, al, v, h2⟩ | ⟨w, al, e, c, h2, h3⟩
    · exact hv _ h2 w al v th (.inl rfl)
    · exact hv _ h2 w al v th (.inr rfl)
    · exact hr _ h2 w al e c th rfl h3
  rw [ho]
  unfold Cfg.own
  simp [hk, hh, hp, hb]

/-- Type 0 has a method that it provides for some values only, type 1 a method without condition, the
other types none. -/
def optCfg : Cfg := { exCfg with nOpt := 1, decl := fun t _ => ⟨decide (t ≤ 1), decide (t = 0)⟩ }

theorem optCfg_ok : optCfg.Ok := ⟨exCfg_ok.1, exCfg_ok.2⟩

/-- Wrapped when it does not provide the method, the object changes and then would: the default is still
called, also through a copy. -/
def staleOps : List (Op Nat) :=
  [.value 0 3 0 42 {}, .modify 0 0 (fun _ => 43), .copy 1 0 {}, .optional 0 0, .value 2 3 0 43 { provides := fun _ => true },
   .copyAssign 1 2 {}, .optional 1 0, .value 3 3 1 7 {}, .optional 3 0, .value 4 3 2 7 {}, .optional 4 0]

def staleOut : List (Except Exn (Obs Nat)) :=
  [.ok .unit, .ok .unit, .ok .unit, .ok (.bool false), .ok .unit, .ok .unit, .ok (.bool true), .ok .unit, .ok (.bool true),
   .ok .unit, .ok (.bool false)]

example : ∃ a, Run optCfg (World.init exExt) staleOps staleOut (some a) ∧ a.Owns 1 3 0 43 ∧ a.Owns 0 3 0 43 :=
  ⟨_, .done rfl (.done rfl (.done rfl (.done rfl (.done rfl (.done rfl (.done rfl (.done rfl (.done rfl (.done rfl (.done rfl (.nil _))))))))))),
    ⟨_, rfl⟩, ⟨_, rfl⟩⟩

theorem not_providesNow : ¬ ProvidesNow := by
  intro h
  have hrun : Run optCfg (World.init exExt) [.value 0 3 0 42 {}, .modify 0 0 (fun _ => 43)] [.ok .unit, .ok .unit] _ :=
    .done rfl (.done rfl (.nil _))
  obtain ⟨s, he, _⟩ := run_end optCfg_ok hrun
  have h1 := h Nat optCfg (fun _ v => decide (v = 43)) optCfg_ok exExt _ _ _ (by
    intro op hop w al t v th hv k
    simp only [List.mem_cons, List.not_mem_nil, or_false] at hop
    rcases hop with rfl | rfl
    · cases hv; rfl
    · cases hv) hrun s (by rw [he]) 0 3 0 43 0 ⟨_, rfl⟩ (by decide) (by decide) (by decide)
  obtain ⟨s', he', h2⟩ := optional_call optCfg_ok exExt hrun (w := 0) rfl (by simp) 0
  rw [he] at he'
  cases he'
  rw [h2] at h1
  have h3 := (Out.ok.inj h1).1
  revert h3
  decide

end Guanaqo.TypeErased
