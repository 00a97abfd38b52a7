import Verif.TypeErased.Empty

/-!
# C58: exactly what access to an empty wrapper does

A wrapper remembers a type while it holds nothing. The history determines which, and `as<T>()` on an empty
wrapper throws unless it asks for that type.
-/

namespace Guanaqo.TypeErased

variable {V : Type} {cfg : Cfg}

/-! ## Specification -/

/-- The wrapper holds nothing. -/
def World.isEmpty (a : World V) (w : Nat) : Bool :=
  match a.wr w with
  | some ⟨_, .empty⟩ => true
  | _ => false

/-- The type that each wrapper remembers, after an operation in the world `a`: that of what was put into it
last, by construction, copy or move, also from an empty wrapper, except that move assignment from an empty
wrapper changes nothing. Nothing is forgotten when something is moved out. -/
def remember (a : World V) (G : Nat → Option Nat) : Op V → Nat → Option Nat
  | .default w _ => upd G w none
  | .value w _ t _ _ => upd G w (some t)
  | .make w _ t _ _ => upd G w (some t)
  | .ref w _ e _ _ => upd G w (some (a.ext e).ty)
  | .copy w src _ => upd G w (G src)
  | .copyA w src _ _ => upd G w (G src)
  | .move w src => upd G w (G src)
  | .moveA w src _ _ => upd G w (G src)
  | .copyAssign w src _ => upd G w (G src)
  | .moveAssign w src _ => if a.isEmpty src then G else upd G w (G src)
  | _ => G

/-- Histories, with the types that the wrappers remember at the end. -/
inductive Remembers (cfg : Cfg) : World V → (Nat → Option Nat) → List (Op V) → World V → (Nat → Option Nat) → Prop
  | nil (a G) : Remembers cfg a G [] a G
  | done {a G op o a' ops a'' G'} (h : spec cfg a op = some (.done o a'))
      (t : Remembers cfg a' (remember a G op) ops a'' G') : Remembers cfg a G (op :: ops) a'' G'
  | threw {a G op e a' ops a'' G'} (h : spec cfg a op = some (.threw e a'))
      (t : Remembers cfg a' (remember a G op) ops a'' G') : Remembers cfg a G (op :: ops) a'' G'

/-- Every history that does not end the program is one of these. -/
theorem remembers_total {a : World V} {ops : List (Op V)} {os : List (Except Exn (Obs V))} {a' : World V}
    (h : Run cfg a ops os (some a')) (G : Nat → Option Nat) : ∃ G', Remembers cfg a G ops a' G' := by
  generalize hr : some a' = r at h
  induction h generalizing G with
  | nil a => cases hr; exact ⟨G, .nil _ G⟩
  | done h t ih => obtain ⟨G', hG⟩ := ih (remember _ G _) hr; exact ⟨G', .done h hG⟩
  | threw h t ih => obtain ⟨G', hG⟩ := ih (remember _ G _) hr; exact ⟨G', .threw h hG⟩
  | terminated h => cases hr

/-! ## Proof -/

theorem bind_inv_ok {α β : Type} {m : M V α} {f : α → M V β} {s s' : St V} {y : β}
    (h : (m >>= f).run s = .ok y s') : ∃ x s₁, m.run s = .ok x s₁ ∧ (f x).run s₁ = .ok y s' := by
  cases hm : m.run s with
  | ok x s₁ => rw [bind_ok hm] at h; exact ⟨x, s₁, rfl, h⟩
  | thrown e s₁ => rw [bind_thrown hm] at h; cases h
  | fault f => rw [bind_fault hm] at h; cases h

theorem getW_inv {w : Nat} {s s' : St V} {W : Wrapper V} (h : (getW w).run s = .ok W s') :
    s.wr w = some W ∧ s' = s := by
  unfold getW at h
  dsimp only at h
  split at h
  · rename_i W' hW; cases h; exact ⟨hW, rfl⟩
  · cases h

theorem newW_inv {w a : Nat} {vt : VTable} {s s' : St V} (h : (newW w a vt).run s = .ok () s') :
    ∃ W, s'.wr w = some W ∧ W.vt = vt := by
  unfold newW at h
  dsimp only at h
  split at h
  · cases h; exact ⟨_, upd_same _ _ _, rfl⟩
  · cases h

theorem modVt_inv {w : Nat} {vt : VTable} {s s' : St V}
    (h : (modW w fun W => { W with vt := vt }).run s = .ok () s') :
    ∃ W, s'.wr w = some W ∧ W.vt = vt := by
  unfold modW at h
  dsimp only at h
  split at h
  · cases h; exact ⟨_, upd_same _ _ _, rfl⟩
  · cases h

theorem onThrow_inv {α : Type} {m : M V α} {c : M V Unit} {s s' : St V} {x : α}
    (h : (onThrow m c).run s = .ok x s') : m.run s = .ok x s' := by
  unfold onThrow at h
  dsimp only at h
  split at h
  · rename_i h'; rw [h']; exact h
  · split at h <;> cases h
  · cases h

theorem noexcept_inv {α : Type} {m : M V α} {s s' : St V} {x : α}
    (h : (noexcept m).run s = .ok x s') : m.run s = .ok x s' := by
  unfold noexcept at h
  dsimp only at h
  split at h
  · rename_i h'; rw [h']; exact h
  · cases h
  · cases h

theorem copyCtor_vt {w src a : Nat} {t : Throws} {s s' : St V}
    (h : (copyCtor cfg w src a t).run s = .ok () s') :
    ∃ O W, s.wr src = some O ∧ s'.wr w = some W ∧ W.vt = O.vt := by
  obtain ⟨O, s₁, h1, h2⟩ := bind_inv_ok h
  obtain ⟨hO, rfl⟩ := getW_inv h1
  obtain ⟨_, s₂, h3, h4⟩ := bind_inv_ok h2
  obtain ⟨W, hW, hvt⟩ := newW_inv h3
  obtain ⟨W', hW', hvt'⟩ := ((kv_doCopyAssign (w := w) _ _ _ _) s₂).1 _ _ (onThrow_inv h4) W hW
  exact ⟨O, W', hO, hW', hvt'.trans hvt⟩

theorem moveCtor_vt {w src : Nat} {s s' : St V} (h : (moveCtor cfg w src).run s = .ok () s') :
    ∃ O W, s.wr src = some O ∧ s'.wr w = some W ∧ W.vt = O.vt := by
  obtain ⟨O, s₁, h1, h2⟩ := bind_inv_ok h
  obtain ⟨hO, rfl⟩ := getW_inv h1
  obtain ⟨_, s₂, h3, h4⟩ := bind_inv_ok h2
  obtain ⟨W, hW, hvt⟩ := newW_inv h3
  have hk : KeepVt w (do
      modW w fun W => { W with size := O.size }
      takeCtor cfg w src O
      modW src fun W => { W with size := invalidSize } : M V Unit) := by
    unfold takeCtor
    exact .bind (.modW fun _ _ => rfl) fun _ => .bind
        (.ite (kv_stealSelf _ _) (.ite (.pure _) (kv_moveSmall _ _))) fun _ => .modW fun _ _ => rfl
  obtain ⟨W', hW', hvt'⟩ := (hk s₂).1 _ _ (noexcept_inv h4) W hW
  exact ⟨O, W', hO, hW', hvt'.trans hvt⟩

theorem moveCtorAlloc_vt {w src a : Nat} {t : Throws} {s s' : St V}
    (h : (moveCtorAlloc cfg w src a t).run s = .ok () s') :
    ∃ O W, s.wr src = some O ∧ s'.wr w = some W ∧ W.vt = O.vt := by
  obtain ⟨O, s₁, h1, h2⟩ := bind_inv_ok h
  obtain ⟨hO, rfl⟩ := getW_inv h1
  obtain ⟨_, s₂, h3, h4⟩ := bind_inv_ok h2
  obtain ⟨W, hW, hvt⟩ := newW_inv h3
  have hk : KeepVt w (if O.self = .null then pure () else do
      modW w fun W => { W with size := O.size }
      takeCtorAlloc cfg w src a O t
      modW src fun W => { W with size := invalidSize } : M V Unit) := by
    unfold takeCtorAlloc moveHeap
    exact .ite (.pure _) (.bind (.modW fun _ _ => rfl) fun _ => .bind
        (.ite (kv_stealSelf _ _) (.ite (.ite (kv_stealSelf _ _)
          (.bind (.getW _) fun _ => .bind (.getW _) fun _ => .bind (.malloc _ _ _) fun _ =>
            .bind (.modW fun _ _ => rfl) fun _ => .bind (kv_vtMove _ _ _) fun _ =>
            .bind (kv_vtDestroy _ _) fun _ => kv_deallocate _)) (kv_moveSmall _ _)))
        fun _ => .modW fun _ _ => rfl)
  obtain ⟨W', hW', hvt'⟩ := (hk s₂).1 _ _ (noexcept_inv h4) W hW
  exact ⟨O, W', hO, hW', hvt'.trans hvt⟩

/-- Copy assignment sets the vtable, whether it throws or not. -/
theorem copyAssign_vt (ok : cfg.Ok) {s : St V} {a : World V} (hr : Rep cfg s a) {w src : Nat}
    {th : Throws} {d sl : Slot V} (hw : a.wr w = some d) (hsrc : a.wr src = some sl) (hne : src ≠ w)
    {s' : St V} (h : (∃ x, (copyAssign cfg w src th).run s = .ok x s') ∨
      ∃ e, (copyAssign cfg w src th).run s = .thrown e s') :
    ∃ O W, s.wr src = some O ∧ s'.wr w = some W ∧ W.vt = O.vt := by
  obtain ⟨C, hc, ha, hx⟩ := hr
  obtain ⟨o, ho, -, -⟩ := ha.live src sl hsrc
  obtain ⟨m, hm, -, hmheld⟩ := ha.live w d hw
  rw [← hx] at hmheld
  obtain ⟨s₁, e1, c1, -⟩ := cleanup_ok ok hc hm hmheld
  obtain ⟨O, gO, hO, hmO⟩ := getW_ok c1 (show upd C w _ src = some o by rw [upd_ne _ _ hne]; exact ho)
  obtain ⟨O', hO', -⟩ := hc.live src o ho
  obtain ⟨O'', h1, h2⟩ := ((kv_cleanup (w := src) w) s).1 _ _ e1 O' hO'
  rw [hO] at h1
  cases h1
  obtain ⟨W, hW, -⟩ := c1.live w _ (upd_same _ _ _)
  have e2 : (modW w fun W => { W with vt := O.vt }).run s₁ =
      .ok () { s₁ with wr := upd s₁.wr w (some { W with vt := O.vt }) } := by simp only [modW, hW]
  have hprog : (copyAssign cfg w src th).run s = (doCopyAssign cfg true w src th).run
      { s₁ with wr := upd s₁.wr w (some { W with vt := O.vt }) } := by
    unfold copyAssign
    rw [if_neg hne, bind_ok e1, bind_ok gO, bind_ok e2]
  rw [hprog] at h
  have hk := (kv_doCopyAssign (cfg := cfg) (w := w) true w src th)
    { s₁ with wr := upd s₁.wr w (some { W with vt := O.vt }) }
  have hs : SameVt w { s₁ with wr := upd s₁.wr w (some { W with vt := O.vt }) } s' := by
    rcases h with ⟨x, h⟩ | ⟨e, h⟩
    · exact hk.1 _ _ h
    · exact hk.2 _ _ h
  obtain ⟨W', h3, h4⟩ := hs _ (upd_same _ _ _)
  exact ⟨O', W', hO', h3, h4.trans h2⟩

/-- Move assignment sets the vtable if there is something to move. -/
theorem moveAssign_vt (ok : cfg.Ok) {s : St V} {a : World V} (hr : Rep cfg s a) {w src : Nat}
    {th : Throws} {d sl : Slot V} (hw : a.wr w = some d) (hsrc : a.wr src = some sl) (hne : src ≠ w)
    {s' : St V} {x : Unit} (h : (moveAssign cfg w src th).run s = .ok x s') :
    ∃ O W₀ W, s.wr src = some O ∧ s.wr w = some W₀ ∧ s'.wr w = some W ∧
      W.vt = match sl.held with | .empty => W₀.vt | _ => O.vt := by
  obtain ⟨C, hc, ha, hx⟩ := hr
  obtain ⟨o, ho, -, hheld⟩ := ha.live src sl hsrc
  obtain ⟨m, hm, -, hmheld⟩ := ha.live w d hw
  rw [← hx] at hmheld
  obtain ⟨s₁, e1, c1, -⟩ := cleanup_ok ok hc hm hmheld
  obtain ⟨O, gO, hO, hmO⟩ := getW_ok c1 (show upd C w _ src = some o by rw [upd_ne _ _ hne]; exact ho)
  obtain ⟨O', hO', -⟩ := hc.live src o ho
  obtain ⟨O'', h1, h2⟩ := ((kv_cleanup (w := src) w) s).1 _ _ e1 O' hO'
  rw [hO] at h1
  cases h1
  obtain ⟨W₀, hW₀, -⟩ := hc.live w m hm
  obtain ⟨W, hW, h3⟩ := ((kv_cleanup (w := w) w) s).1 _ _ e1 W₀ hW₀
  unfold moveAssign at h
  rw [if_neg hne] at h
  have h := noexcept_inv h
  rw [bind_ok e1, bind_ok gO] at h
  obtain ⟨y, s₂, h4, h⟩ := bind_inv_ok h
  have hp : KeepVt w (propagateAlloc cfg.pocma w O.alloc : M V Unit) := by unfold propagateAlloc; kv
  obtain ⟨W₂, hW₂, h5⟩ := (hp s₁).1 _ _ h4 W hW
  have hnull := self_null hmO
  by_cases hn : O.self = .null
  · rw [if_pos hn] at h
    cases h
    refine ⟨O', W₀, W₂, hO', hW₀, hW₂, ?_⟩
    have hcell := hnull.1 hn
    cases hh : sl.held with
    | empty => exact h5.trans h3
    | owned t v own => rw [hh] at hheld; rw [hheld.1] at hcell; cases hcell
    | ref e c own => rw [hh] at hheld; rw [hheld.1] at hcell; cases hcell
  · rw [if_neg hn] at h
    obtain ⟨_, s₃, h6, h⟩ := bind_inv_ok h
    obtain ⟨_, s₄, h7, h⟩ := bind_inv_ok h
    obtain ⟨W₄, hW₄, h8⟩ := modVt_inv h7
    have hk : KeepVt w (do
        let W ← getW w
        takeAssign cfg w src W O th
        modW src fun W => { W with size := invalidSize } : M V Unit) := by
      unfold takeAssign moveHeapAssign
      exact .bind (.getW _) fun _ => .bind
        (.ite (kv_stealSelf _ _) (.ite (.ite (kv_stealSelf _ _)
          (.bind (.getW _) fun _ => .bind (.getW _) fun _ => .bind (.malloc _ _ _) fun _ =>
            .bind (.modW fun _ _ => rfl) fun _ => .bind (kv_vtMove _ _ _) fun _ =>
            .bind (kv_vtDestroy _ _) fun _ => .bind (.mfree _ _ _) fun _ => .modW fun _ _ => rfl))
          (kv_moveSmall _ _)))
        fun _ => .modW fun _ _ => rfl
    obtain ⟨W', hW', h9⟩ := (hk s₄).1 _ _ h W₄ hW₄
    refine ⟨O', W₀, W', hO', hW₀, hW', ?_⟩
    cases hh : sl.held with
    | empty => rw [hh] at hheld; exact absurd (hnull.2 hheld) hn
    | owned t v own => exact (h9.trans h8).trans h2
    | ref e c own => exact (h9.trans h8).trans h2

/-- The vtables have the types that the wrappers remember. -/
def Types (s : St V) (G : Nat → Option Nat) : Prop := ∀ w W, s.wr w = some W → W.vt.ty = G w

theorem rep_dead {s : St V} {a : World V} (hr : Rep cfg s a) {w : Nat} (h : a.wr w = none) : s.wr w = none := by
  obtain ⟨C, hc, ha, -⟩ := hr
  exact hc.dead w (ha.dead w h)

/-- The wrapper is not alive afterwards. -/
def Result.NoneAt (w : Nat) : Result V → Prop
  | .done _ b => b.wr w = none
  | .threw _ b => b.wr w = none
  | .terminated => True

/-- Only the wrapper that is operated on can come into being. -/
theorem spec_alive {a a' : World V} {op : Op V} {w : Nat}
    (h : (∃ o, spec cfg a op = some (.done o a')) ∨ ∃ e, spec cfg a op = some (.threw e a'))
    (hw : ¬ op.writesTo w) (hd : ∀ al, op ≠ .default w al) (hn : a.wr w = none) : a'.wr w = none := by
  have key : ∀ r, spec cfg a op = some r → r.NoneAt w := by
    intro r hr
    have set_ne : ∀ {b : World V} {v : Nat} {x : Option (Slot V)}, b.wr w = none → v ≠ w → (b.set v x).wr w = none := by
      intro b v x hb hv
      simp only [World.set]
      rw [upd_ne _ _ (Ne.symm hv)]
      exact hb
    have alive : ∀ {v : Nat} {x : Slot V}, a.wr v = some x → v ≠ w := by
      rintro v x hv rfl
      rw [hn] at hv; cases hv
    have mod : ∀ {v : Nat} {x : Slot V} {f : V → V}, a.wr v = some x → (a.modifyHeld v x f).NoneAt w := by
      intro v x f hv
      unfold World.modifyHeld
      split <;> try exact hn
      exact set_ne hn (alive hv)
    cases op <;> simp only [spec] at hr
    case «default» v al =>
      split at hr <;> cases hr
      exact set_ne hn (fun e => hd al (by rw [e]))
    case value => repeat' split at hr
                  all_goals cases hr
                  · exact hn
                  · exact set_ne hn hw
    case ref =>
      split at hr <;> cases hr
      split
      · exact hn
      · exact set_ne hn hw
    case make => repeat' split at hr
                 all_goals cases hr
                 · exact hn
                 · exact set_ne hn hw
    case copy => repeat' split at hr
                 all_goals cases hr
                 · exact hn
                 · exact set_ne hn hw
    case copyA => repeat' split at hr
                  all_goals cases hr
                  · exact hn
                  · exact set_ne hn hw
    case move =>
      split at hr <;> cases hr
      rename_i h1 h2
      exact set_ne (set_ne hn hw) (alive h2)
    case moveA =>
      split at hr <;> cases hr
      rename_i h1 h2
      split
      · trivial
      · exact set_ne (set_ne hn hw) (alive h2)
    case copyAssign v src th =>
      split at hr
      · by_cases e : src = v
        · rw [if_pos e] at hr
          cases hr
          exact hn
        · rw [if_neg e] at hr
          split at hr <;> cases hr <;> exact set_ne hn hw
      · cases hr
    case moveAssign v src th =>
      split at hr
      · rename_i h1 h2
        by_cases e : src = v
        · rw [if_pos e] at hr
          cases hr
          exact hn
        · rw [if_neg e] at hr
          cases hr
          repeat' split
          all_goals first | trivial | exact set_ne (set_ne hn hw) (alive h2)
      · cases hr
    case destroy => split at hr <;> cases hr
                    exact set_ne hn hw
    case modify =>
      split at hr
      · rename_i h1
        split at hr <;> cases hr
        split
        · exact mod h1
        · exact hn
      · cases hr
    case read =>
      split at hr
      · split at hr <;> cases hr
        split <;> exact hn
      · cases hr
    case query =>
      split at hr
      · split at hr <;> cases hr
        exact hn
      · cases hr
    case update =>
      split at hr
      · rename_i h1
        split at hr <;> cases hr
        exact mod h1
      · cases hr
    case optional =>
      split at hr
      · split at hr <;> cases hr <;> exact hn
      · cases hr
    case test => split at hr <;> cases hr
                 exact hn
    case poke =>
      split at hr
      · rename_i h1
        split at hr <;> cases hr
        exact mod h1
      · cases hr
    case outside => cases hr; exact hn
  rcases h with ⟨o, h⟩ | ⟨e, h⟩
  · exact key _ h
  · exact key _ h

theorem rep_type {s : St V} {a : World V} (hr : Rep cfg s a) {w : Nat} {sl : Slot V} (h : a.wr w = some sl)
    {t : Nat} (ht : a.heldType sl.held = some t) {W : Wrapper V} (hW : s.wr w = some W) :
    W.vt.ty = some t := by
  obtain ⟨C, hc, ha, -⟩ := hr
  obtain ⟨m, hm, -, hh⟩ := ha.live w sl h
  obtain ⟨W', hW', hk⟩ := hc.live w m hm
  rw [hW] at hW'
  cases hW'
  rw [hk.vt]
  cases hs : sl.held with
  | empty => rw [hs] at ht; cases ht
  | owned t' v own => rw [hs] at ht hh; cases ht; rw [hh.2.2]; rfl
  | ref e c own => rw [hs] at ht hh; cases ht; rw [hh.2.2]; rfl

/-- Every operation changes the vtables as specified. -/
theorem step_types (ok : cfg.Ok) {s s' : St V} {a a' : World V} {op : Op V} {G : Nat → Option Nat}
    (hr : Rep cfg s a) (hT : Types s G) (hr' : Rep cfg s' a')
    (h : (∃ o, spec cfg a op = some (.done o a') ∧ (step cfg op).run s = .ok o s') ∨
      ∃ e, spec cfg a op = some (.threw e a') ∧ (step cfg op).run s = .thrown e s') :
    Types s' (remember a G op) := by
  intro v W hW
  by_cases hw : op.writesTo v ∨ ∃ al, op = .default v al
  · have dead : a'.wr v = none → False := by
      intro hn
      rw [rep_dead hr' hn] at hW
      cases hW
    cases op
    case «default» k al =>
      have hk : k = v := by
        rcases hw with hw | ⟨al', hw⟩
        · exact hw.elim
        · cases hw; rfl
      subst hk
      rcases h with ⟨o, h1, h2⟩ | ⟨e, h1, h2⟩
      · obtain ⟨_, s₁, h3, h4⟩ := bind_inv_ok h2
        cases h4
        obtain ⟨W', hW', hvt⟩ := newW_inv h3
        rw [hW] at hW'
        cases hW'
        simp only [remember, upd_same, hvt]
      · simp only [spec] at h1
        split at h1 <;> cases h1
    case value k al t x th =>
      obtain rfl : v = k := by
        rcases hw with hw | ⟨_, hw⟩
        · exact (show k = v from hw).symm
        · cases hw
      simp only [remember, upd_same]
      rcases h with ⟨o, h1, h2⟩ | ⟨e, h1, h2⟩ <;> simp only [spec] at h1
      · repeat' split at h1
        all_goals cases h1
        exact rep_type hr' (w := v) (upd_same _ _ _) rfl hW
      · repeat' split at h1
        all_goals cases h1
        exact (dead (by assumption)).elim
    case make k al t x th =>
      obtain rfl : v = k := by
        rcases hw with hw | ⟨_, hw⟩
        · exact (show k = v from hw).symm
        · cases hw
      simp only [remember, upd_same]
      rcases h with ⟨o, h1, h2⟩ | ⟨e, h1, h2⟩ <;> simp only [spec] at h1
      · repeat' split at h1
        all_goals cases h1
        exact rep_type hr' (w := v) (upd_same _ _ _) rfl hW
      · repeat' split at h1
        all_goals cases h1
        exact (dead (by assumption)).elim
    case ref k al t x th =>
      obtain rfl : v = k := by
        rcases hw with hw | ⟨_, hw⟩
        · exact (show k = v from hw).symm
        · cases hw
      simp only [remember, upd_same]
      rcases h with ⟨o, h1, h2⟩ | ⟨e, h1, h2⟩ <;> simp only [spec] at h1
      · repeat' split at h1
        all_goals cases h1
        exact rep_type hr' (w := v) (upd_same _ _ _) rfl hW
      · repeat' split at h1
        all_goals cases h1
        exact (dead (by assumption)).elim
    case copy k src th =>
      obtain rfl : v = k := by
        rcases hw with hw | ⟨_, hw⟩
        · exact (show k = v from hw).symm
        · cases hw
      simp only [remember, upd_same]
      rcases h with ⟨o, h1, h2⟩ | ⟨e, h1, h2⟩
      · obtain ⟨O, s₁, h3, h4⟩ := bind_inv_ok h2
        obtain ⟨-, rfl⟩ := getW_inv h3
        obtain ⟨_, s₂, h5, h6⟩ := bind_inv_ok h4
        cases h6
        obtain ⟨O', W', h7, h8, h9⟩ := copyCtor_vt h5
        rw [hW] at h8
        cases h8
        rw [h9]
        exact hT src O' h7
      · simp only [spec] at h1
        repeat' split at h1
        all_goals cases h1
        exact (dead (by assumption)).elim
    case copyA k src al th =>
      obtain rfl : v = k := by
        rcases hw with hw | ⟨_, hw⟩
        · exact (show k = v from hw).symm
        · cases hw
      simp only [remember, upd_same]
      rcases h with ⟨o, h1, h2⟩ | ⟨e, h1, h2⟩
      · obtain ⟨_, s₂, h5, h6⟩ := bind_inv_ok h2
        cases h6
        obtain ⟨O', W', h7, h8, h9⟩ := copyCtor_vt h5
        rw [hW] at h8
        cases h8
        rw [h9]
        exact hT src O' h7
      · simp only [spec] at h1
        repeat' split at h1
        all_goals cases h1
        exact (dead (by assumption)).elim
    case move k src =>
      obtain rfl : v = k := by
        rcases hw with hw | ⟨_, hw⟩
        · exact (show k = v from hw).symm
        · cases hw
      simp only [remember, upd_same]
      rcases h with ⟨o, h1, h2⟩ | ⟨e, h1, h2⟩
      · obtain ⟨_, s₂, h5, h6⟩ := bind_inv_ok h2
        cases h6
        obtain ⟨O', W', h7, h8, h9⟩ := moveCtor_vt h5
        rw [hW] at h8
        cases h8
        rw [h9]
        exact hT src O' h7
      · simp only [spec] at h1
        repeat' split at h1
        all_goals cases h1
    case moveA k src al th =>
      obtain rfl : v = k := by
        rcases hw with hw | ⟨_, hw⟩
        · exact (show k = v from hw).symm
        · cases hw
      simp only [remember, upd_same]
      rcases h with ⟨o, h1, h2⟩ | ⟨e, h1, h2⟩
      · obtain ⟨_, s₂, h5, h6⟩ := bind_inv_ok h2
        cases h6
        obtain ⟨O', W', h7, h8, h9⟩ := moveCtorAlloc_vt h5
        rw [hW] at h8
        cases h8
        rw [h9]
        exact hT src O' h7
      · simp only [spec] at h1
        repeat' split at h1
        all_goals cases h1
    case copyAssign k src th =>
      obtain rfl : v = k := by
        rcases hw with hw | ⟨_, hw⟩
        · exact (show k = v from hw).symm
        · cases hw
      simp only [remember, upd_same]
      have hsp : ∃ d sl, a.wr v = some d ∧ a.wr src = some sl := by
        rcases h with ⟨o, h1, h2⟩ | ⟨e, h1, h2⟩ <;> simp only [spec] at h1 <;> split at h1
        · exact ⟨_, _, by assumption, by assumption⟩
        · cases h1
        · exact ⟨_, _, by assumption, by assumption⟩
        · cases h1
      obtain ⟨d, sl, hd, hsl⟩ := hsp
      have hrun : (∃ x, (copyAssign cfg v src th).run s = .ok x s') ∨
          ∃ e, (copyAssign cfg v src th).run s = .thrown e s' := by
        rcases h with ⟨o, h1, h2⟩ | ⟨e, h1, h2⟩
        · obtain ⟨x, s₂, h5, h6⟩ := bind_inv_ok h2
          cases h6
          exact .inl ⟨x, h5⟩
        · right
          refine ⟨e, ?_⟩
          cases hr : (copyAssign cfg v src th).run s with
          | ok x s₁ => simp only [step] at h2; rw [bind_ok hr] at h2; cases h2
          | thrown e' s₁ => simp only [step] at h2; rw [bind_thrown hr] at h2; cases h2; rfl
          | fault f => simp only [step] at h2; rw [bind_fault hr] at h2; cases h2
      by_cases e : src = v
      · subst e
        unfold copyAssign at hrun
        rw [if_pos rfl] at hrun
        rcases hrun with ⟨x, h⟩ | ⟨e, h⟩
        · cases h; exact hT _ _ hW
        · cases h
      · obtain ⟨O', W', h7, h8, h9⟩ := copyAssign_vt ok hr hd hsl e hrun
        rw [hW] at h8
        cases h8
        rw [h9]
        exact hT src O' h7
    case moveAssign k src th =>
      obtain rfl : v = k := by
        rcases hw with hw | ⟨_, hw⟩
        · exact (show k = v from hw).symm
        · cases hw
      have hsp : ∃ d sl, a.wr v = some d ∧ a.wr src = some sl := by
        rcases h with ⟨o, h1, h2⟩ | ⟨e, h1, h2⟩ <;> simp only [spec] at h1 <;> split at h1
        · exact ⟨_, _, by assumption, by assumption⟩
        · cases h1
        · exact ⟨_, _, by assumption, by assumption⟩
        · cases h1
      obtain ⟨d, sl, hd, hsl⟩ := hsp
      have hrun : ∃ x, (moveAssign cfg v src th).run s = .ok x s' := by
        rcases h with ⟨o, h1, h2⟩ | ⟨e, h1, h2⟩
        · obtain ⟨x, s₂, h5, h6⟩ := bind_inv_ok h2
          cases h6
          exact ⟨x, h5⟩
        · simp only [spec, hd, hsl] at h1
          repeat' split at h1
          all_goals cases h1
      obtain ⟨x, hrun⟩ := hrun
      by_cases e : src = v
      · subst e
        unfold moveAssign at hrun
        rw [if_pos rfl] at hrun
        cases hrun
        have : remember a G (.moveAssign src src th) src = G src := by
          simp only [remember]
          split
          · rfl
          · exact upd_same _ _ _
        rw [this]
        exact hT _ _ hW
      · obtain ⟨O', W₀, W', h7, h7', h8, h9⟩ := moveAssign_vt ok hr hd hsl e hrun
        rw [hW] at h8
        cases h8
        rw [h9]
        simp only [remember, World.isEmpty, hsl]
        obtain ⟨al, held⟩ := sl
        cases held with
        | empty => exact hT v W₀ h7'
        | owned t x own => simp only [Bool.false_eq_true, if_false, upd_same]; exact hT src O' h7
        | ref e c own => simp only [Bool.false_eq_true, if_false, upd_same]; exact hT src O' h7
    case destroy k =>
      obtain rfl : v = k := by
        rcases hw with hw | ⟨_, hw⟩
        · exact (show k = v from hw).symm
        · cases hw
      exfalso
      apply dead
      rcases h with ⟨o, h1, h2⟩ | ⟨e, h1, h2⟩ <;> simp only [spec] at h1 <;> split at h1 <;> cases h1
      exact upd_same _ _ _
    all_goals
      exfalso
      rcases hw with hw | ⟨_, hw⟩
      · exact hw
      · cases hw
  · rw [not_or] at hw
    have hd : ∀ al, op ≠ .default v al := fun al e => hw.2 ⟨al, e⟩
    have hs : SameVt v s s' := by
      rcases h with ⟨o, _, h⟩ | ⟨e, _, h⟩
      · exact (kv_step (cfg := cfg) hw.1 s).1 _ _ h
      · exact (kv_step (cfg := cfg) hw.1 s).2 _ _ h
    have hG : remember a G op v = G v := by
      cases op
      case «default» k al => exact upd_ne _ _ (fun e => hd al (by rw [e]))
      all_goals (simp only [remember])
      all_goals (try split)
      all_goals (first | rfl | exact upd_ne _ _ (fun e => hw.1 e.symm))
    rw [hG]
    cases ho : s.wr v with
    | none =>
      have hn : a.wr v = none := by
        cases hn : a.wr v with
        | none => rfl
        | some x =>
          obtain ⟨C, hc, ha, -⟩ := hr
          obtain ⟨m, hm, -⟩ := ha.live v x hn
          obtain ⟨W', hW', -⟩ := hc.live v m hm
          rw [ho] at hW'; cases hW'
      have := rep_dead hr' (spec_alive (h.imp (fun ⟨o, h, _⟩ => ⟨o, h⟩) (fun ⟨e, h, _⟩ => ⟨e, h⟩)) hw.1 hd hn)
      rw [this] at hW; cases hW
    | some W₀ =>
      obtain ⟨W', h1, h2⟩ := hs W₀ ho
      rw [hW] at h1
      cases h1
      rw [h2]
      exact hT v W₀ ho

theorem exec_types (ok : cfg.Ok) {a a' : World V} {G G' : Nat → Option Nat} {ops : List (Op V)}
    (h : Remembers cfg a G ops a' G') : ∀ s s', Rep cfg s a → Types s G → (exec cfg ops s).2 = .inr s' →
      Rep cfg s' a' ∧ Types s' G' := by
  induction h with
  | nil a G => intro s s' hr hT he; cases he; exact ⟨hr, hT⟩
  | done h t ih =>
    intro s s' hr hT he
    obtain ⟨s₁, h1, h2⟩ := step_sim ok hr _ h
    unfold exec at he
    rw [h1] at he
    exact ih s₁ s' h2 (step_types ok hr hT h2 (.inl ⟨_, h, h1⟩)) he
  | threw h t ih =>
    intro s s' hr hT he
    obtain ⟨s₁, h1, h2⟩ := step_sim ok hr _ h
    unfold exec at he
    rw [h1] at he
    exact ih s₁ s' h2 (step_types ok hr hT h2 (.inr ⟨_, h, h1⟩)) he

/-- **C58**, exactly: after every allowed program, `as<const T>()` on an empty wrapper throws
`bad_type_erased_type` if the wrapper does not remember the type `T`, and gives an invalid reference if it does;
`as<T>()` throws that exception in the same cases, and otherwise also gives an invalid reference or complains
about constness. -/
theorem empty_access_iff (ok : cfg.Ok) (ext : Nat → Obj V) {ops : List (Op V)} {a : World V} {G : Nat → Option Nat}
    (h : Remembers cfg (World.init ext) (fun _ => none) ops a G) {w : Nat} (hw : a.isEmpty w = true) {s : St V}
    (he : (exec cfg ops (St.init ext)).2 = .inr s) (t : Nat) :
    (G w ≠ some t → (asConst w t).run s = .thrown .badTypeErasedType s ∧
      (asMut w t).run s = .thrown .badTypeErasedType s) ∧
    (G w = some t → (asConst w t).run s = .fault .ub ∧
      ((asMut w t).run s = .fault .ub ∨ (asMut w t).run s = .thrown .badTypeErasedConstness s)) := by
  obtain ⟨hr, hT⟩ := exec_types ok h _ s (init_rep ext) (fun _ _ h => by cases h) he
  obtain ⟨C, hc, ha, -⟩ := hr
  unfold World.isEmpty at hw
  split at hw
  · rename_i al hw'
    obtain ⟨m, hm, -, hh⟩ := ha.live w _ hw'
    obtain ⟨W, gW, hW, hk⟩ := getW_ok hc hm
    have hnull : W.self = .null := (self_null hk).2 hh
    have hty := hT w W hW
    constructor
    · intro hne
      rw [← hty] at hne
      constructor
      · unfold asConst; rw [bind_ok gW, if_pos hne]; rfl
      · unfold asMut; rw [bind_ok gW, if_pos hne]; rfl
    · intro heq
      rw [← hty] at heq
      constructor
      · unfold asConst; rw [bind_ok gW, if_neg (by rw [heq]; simp), if_pos hnull]; rfl
      · unfold asMut
        rw [bind_ok gW, if_neg (by rw [heq]; simp)]
        cases hc : sizeIndicatesConst W.size with
        | true => right; rw [if_pos rfl]; rfl
        | false => left; rw [if_neg (by simp), if_pos hnull]; rfl
  · cases hw

/-- A moved-from wrapper remembers the type of what was moved out; one that was default constructed and move
assigned from an empty wrapper remembers nothing. -/
example : ∃ a G, Remembers exCfg (World.init exExt) (fun _ => none)
    [.value 0 3 0 42 {}, .move 1 0, .default 2 3, .moveAssign 2 0 {}] a G ∧
    a.isEmpty 0 = true ∧ a.isEmpty 2 = true ∧ G 0 = some 0 ∧ G 1 = some 0 ∧ G 2 = none :=
  ⟨_, _, .done rfl (.done rfl (.done rfl (.done rfl (.nil _ _)))), rfl, rfl, rfl, rfl, rfl⟩

end Guanaqo.TypeErased
