import Verif.TypeErased.Ops2

/-!
# Every operation does what the specification says
-/

namespace Guanaqo.TypeErased

variable {V : Type} {cfg : Cfg}

structure Abs (cfg : Cfg) (C : Nat → Option (Mid V)) (a : World V) : Prop where
  dead : ∀ w, a.wr w = none → C w = none
  live : ∀ w sl, a.wr w = some sl → ∃ m, C w = some m ∧ m.alloc = sl.alloc ∧
    Held cfg a.ext m sl.held

/-- The concrete state `s` represents the world `a`. -/
def Rep (cfg : Cfg) (s : St V) (a : World V) : Prop :=
  ∃ C, Cells cfg s C ∧ Abs cfg C a ∧ s.ext = a.ext

theorem Abs.set {C : Nat → Option (Mid V)} {a : World V} (h : Abs cfg C a) {w : Nat} {m : Mid V}
    {sl : Slot V} (h1 : m.alloc = sl.alloc) (h2 : Held cfg a.ext m sl.held) :
    Abs cfg (upd C w (some m)) (a.set w (some sl)) where
  dead v hv := by
    by_cases hvw : v = w
    · subst hvw; simp [World.set] at hv
    · simp only [World.set, upd_ne _ _ hvw] at hv ⊢
      exact h.dead v hv
  live v sl' hv := by
    by_cases hvw : v = w
    · subst hvw
      simp only [World.set, upd_same, Option.some.injEq] at hv ⊢
      subst hv
      exact ⟨m, rfl, h1, h2⟩
    · simp only [World.set, upd_ne _ _ hvw] at hv ⊢
      exact h.live v sl' hv

theorem Abs.kill {C : Nat → Option (Mid V)} {a : World V} (h : Abs cfg C a) (w : Nat) :
    Abs cfg (upd C w none) (a.set w none) where
  dead v hv := by
    by_cases hvw : v = w
    · subst hvw; simp
    · simp only [World.set, upd_ne _ _ hvw] at hv ⊢
      exact h.dead v hv
  live v sl' hv := by
    by_cases hvw : v = w
    · subst hvw
      simp [World.set] at hv
    · simp only [World.set, upd_ne _ _ hvw] at hv ⊢
      exact h.live v sl' hv

theorem Abs.ext {C : Nat → Option (Mid V)} {a : World V} (h : Abs cfg C a) (e : Nat) (f : V → V) :
    Abs cfg C (a.setExt e f) where
  dead := h.dead
  live w sl hw := by
    obtain ⟨m, h1, h2, h3⟩ := h.live w sl hw
    refine ⟨m, h1, h2, ?_⟩
    cases hh : sl.held with
    | empty => rw [hh] at h3; exact h3
    | owned t v => rw [hh] at h3; exact h3
    | ref e' c =>
      rw [hh] at h3
      refine ⟨h3.1, h3.2.1, ?_⟩
      rw [h3.2.2]
      by_cases he : e' = e
      · subst he; simp [World.setExt]
      · simp [World.setExt, upd_ne _ _ he]

/-- Agreement of a concrete outcome with a specified result. -/
def Agrees (cfg : Cfg) (out : Out V (Obs V)) : Result V → Prop
  | .done o a => ∃ s', out = .ok o s' ∧ Rep cfg s' a
  | .threw e a => ∃ s', out = .thrown e s' ∧ Rep cfg s' a
  | .terminated => out = .fault .terminate

/-! ## Constructors -/

def ctorResult (a : World V) (w : Nat) (sl : Slot V) : Option Exn → Result V
  | none => .done .unit (a.set w (some sl))
  | some e => .threw e a

theorem ctor_sim {s : St V} {C : Nat → Option (Mid V)} {a : World V} (hc : Cells cfg s C)
    (ha : Abs cfg C a) (hx : s.ext = a.ext) {w al : Nat} {vt : VTable} (hw : a.wr w = none)
    {body : M V Unit} {sl : Slot V} {r : Option Exn}
    (hbody : ∀ s₁, Fr w s s₁ → Cells cfg s₁ (upd C w (some ⟨al, invalidSize, vt, .empty⟩)) →
      match r with
      | none => ∃ s' m', body.run s₁ = .ok () s' ∧ Cells cfg s' (upd C w (some m')) ∧ Fr w s₁ s' ∧
          m'.alloc = sl.alloc ∧ Held cfg s₁.ext m' sl.held
      | some e => ∃ s' m', body.run s₁ = .thrown e s' ∧ Cells cfg s' (upd C w (some m')) ∧
          Fr w s₁ s' ∧ m'.cell = .empty) :
    Agrees cfg ((ctor w al vt body >>= fun _ => pure Obs.unit : M V (Obs V)).run s)
      (ctorResult a w sl r) := by
  obtain ⟨s₁, e1, c1, x1⟩ := newW_ok hc (ha.dead w hw) al vt
  have hb := hbody s₁ x1 c1
  have hprog : (ctor w al vt body).run s = (onThrow body (endW w)).run s₁ := by
    unfold ctor; rw [bind_ok e1]
  cases r with
  | none =>
    obtain ⟨s', m', e2, c2, x2, h1, h2⟩ := hb
    refine ⟨s', ?_, _, c2, ha.set h1 ?_, ?_⟩
    · rw [bind_ok (hprog.trans (onThrow_ok e2))]; rfl
    · rw [x1.ext, hx] at h2; exact h2
    · rw [x2.ext, x1.ext, hx]; rfl
  | some e =>
    obtain ⟨s', m', e2, c2, x2, h1⟩ := hb
    obtain ⟨s₃, e3, c3, x3⟩ := endW_ok c2 (upd_same _ _ _) h1
    rw [upd_upd, upd_self (ha.dead w hw)] at c3
    exact ⟨s₃, bind_thrown (hprog.trans (onThrow_thrown e2 e3)), C, c3, ha, by
      rw [x3.ext, x2.ext, x1.ext, hx]⟩

theorem value_sim (ok : cfg.Ok) {s : St V} {a : World V} (hr : Rep cfg s a) (w al t : Nat) (v : V)
    (th : Throws) (hw : a.wr w = none) :
    Agrees cfg ((step cfg (.value w al t v th)).run s)
      (match storeThrows cfg t th.alloc (th.ctor || th.vtable) with
       | some e => .threw e a
       | none => .done .unit (a.set w (some ⟨al, .owned t v (cfg.own t th.provides)⟩))) := by
  obtain ⟨C, hc, ha, hx⟩ := hr
  have := ctor_sim hc ha hx (w := w) (al := al) (vt := {}) hw (sl := ⟨al, .owned t v (cfg.own t th.provides)⟩)
    (r := storeThrows cfg t th.alloc (th.ctor || th.vtable))
    (body := constructInplace cfg w t v th) (fun s₁ x1 c1 => by
      have := constructInplace_ok ok c1 (upd_same _ _ _) rfl t v th
      cases hst : storeThrows cfg t th.alloc (th.ctor || th.vtable) with
      | none =>
        rw [hst] at this
        obtain ⟨s', m', e2, c2, x2, h1, h2⟩ := this
        rw [upd_upd] at c2
        exact ⟨s', m', e2, c2, x2, h1, h2⟩
      | some e =>
        rw [hst] at this
        obtain ⟨s', m', e2, c2, x2, _, h2⟩ := this
        rw [upd_upd] at c2
        exact ⟨s', m', e2, c2, x2, h2⟩)
  cases hst : storeThrows cfg t th.alloc (th.ctor || th.vtable) <;> (rw [hst] at this; exact this)

theorem dtor_ok (ok : cfg.Ok) {s : St V} {C : Nat → Option (Mid V)} (hc : Cells cfg s C) {w : Nat}
    {m : Mid V} (h : C w = some m) {c : Content V} (hh : Held cfg s.ext m c) :
    ∃ s', (dtor cfg w).run s = .ok () s' ∧ Cells cfg s' (upd C w none) ∧ Fr w s s' := by
  unfold dtor
  obtain ⟨s₁, e1, c1, x1⟩ := cleanup_ok ok hc h hh
  obtain ⟨s₂, e2, c2, x2⟩ := endW_ok c1 (upd_same _ _ _) rfl
  rw [upd_upd] at c2
  exact ⟨s₂, by rw [bind_ok e1]; exact e2, c2, x1.trans x2⟩

theorem make_sim (ok : cfg.Ok) {s : St V} {a : World V} (hr : Rep cfg s a) (w al t : Nat) (v : V)
    (th : Throws) (hw : a.wr w = none) :
    Agrees cfg ((step cfg (.make w al t v th)).run s)
      (match storeThrows cfg t th.alloc (th.ctor || th.vtable) with
       | some e => .threw e a
       | none => .done .unit (a.set w (some ⟨al, .owned t v (cfg.own t th.provides)⟩))) := by
  obtain ⟨C, hc, ha, hx⟩ := hr
  obtain ⟨s₁, e1, c1, x1⟩ := newW_ok hc (ha.dead w hw) al {}
  have hprog : (make cfg w al t v th).run s =
      (onThrow (constructInplace cfg w t v th) (dtor cfg w)).run s₁ := by
    unfold make; rw [bind_ok e1]
  have := constructInplace_ok ok c1 (upd_same _ _ _) rfl t v th
  cases hst : storeThrows cfg t th.alloc (th.ctor || th.vtable) with
  | none =>
    rw [hst] at this
    obtain ⟨s', m', e2, c2, x2, h1, h2⟩ := this
    rw [upd_upd] at c2
    refine ⟨s', ?_, _, c2, ha.set h1 ?_, ?_⟩
    · show (make cfg w al t v th >>= fun _ => pure Obs.unit).run s = _
      rw [bind_ok (hprog.trans (onThrow_ok e2))]; rfl
    · rw [x1.ext, hx] at h2; exact h2
    · rw [x2.ext, x1.ext, hx]; rfl
  | some e =>
    rw [hst] at this
    obtain ⟨s', m', e2, c2, x2, _, h2⟩ := this
    rw [upd_upd] at c2
    obtain ⟨s₃, e3, c3, x3⟩ := dtor_ok ok c2 (upd_same _ _ _) (c := .empty) h2
    rw [upd_upd, upd_self (ha.dead w hw)] at c3
    exact ⟨s₃, bind_thrown (hprog.trans (onThrow_thrown e2 e3)), C, c3, ha, by
      rw [x3.ext, x2.ext, x1.ext, hx]⟩

theorem ref_sim {s : St V} {a : World V} (hr : Rep cfg s a) (w al e : Nat) (c : Bool)
    (th : Throws) (hw : a.wr w = none) :
    Agrees cfg ((step cfg (.ref w al e c th)).run s)
      (if th.vtable then .threw .user a else .done .unit (a.set w (some ⟨al, .ref e c (cfg.own (a.ext e).ty th.provides)⟩))) := by
  obtain ⟨C, hc, ha, hx⟩ := hr
  have := ctor_sim hc ha hx (w := w) (al := al) (vt := {}) hw (sl := ⟨al, .ref e c (cfg.own (a.ext e).ty th.provides)⟩)
    (r := if th.vtable then some .user else none)
    (body := constructRef cfg w e c th) (fun s₁ x1 c1 => by
      have := constructRef_ok c1 (upd_same _ _ _) rfl e c th
      cases hst : th.vtable with
      | false =>
        rw [hst] at this
        obtain ⟨s', m', e2, c2, x2, h1, h2⟩ := this
        rw [upd_upd] at c2
        exact ⟨s', m', e2, c2, x2, h1, by rw [x1.ext, hx] at h2 ⊢; exact h2⟩
      | true =>
        rw [hst] at this
        obtain ⟨s', m', e2, c2, x2, _, h2⟩ := this
        rw [upd_upd] at c2
        exact ⟨s', m', e2, c2, x2, h2⟩)
  cases hst : th.vtable <;> (rw [hst] at this; exact this)

theorem copyCtor_sim (ok : cfg.Ok) {s : St V} {a : World V} {C : Nat → Option (Mid V)}
    (hc : Cells cfg s C) (ha : Abs cfg C a) (hx : s.ext = a.ext) (w src al : Nat)
    (th : Throws) (hw : a.wr w = none) {sl : Slot V} (hsrc : a.wr src = some sl) :
    Agrees cfg ((copyCtor cfg w src al th >>= fun _ => pure Obs.unit : M V (Obs V)).run s)
      (match copyThrows cfg sl.held th with
       | some e => .threw e a
       | none => .done .unit (a.set w (some ⟨al, sl.held⟩))) := by
  obtain ⟨o, ho, hoal, hheld⟩ := ha.live src sl hsrc
  have hne : src ≠ w := by rintro rfl; rw [hw] at hsrc; cases hsrc
  obtain ⟨O, gO, hO, hmO⟩ := getW_ok hc ho
  have hprog : (copyCtor cfg w src al th).run s =
      (ctor w al O.vt (doCopyAssign cfg false w src th)).run s := by
    unfold copyCtor; rw [bind_ok gO]
  have := ctor_sim hc ha hx (w := w) (al := al) (vt := O.vt) hw (sl := ⟨al, sl.held⟩)
    (r := copyThrows cfg sl.held th)
    (body := doCopyAssign cfg false w src th) (fun s₁ x1 c1 => by
      have ho1 : ∀ x, upd C w x src = some o := fun x => by rw [upd_ne _ _ hne]; exact ho
      have hh1 : Held cfg s₁.ext o sl.held := by rw [x1.ext, hx]; exact hheld
      have := doCopy_ok ok c1 hne (upd_same _ _ _) (ho1 _) rfl hmO.vt hh1 th false
      cases hst : copyThrows cfg sl.held th with
      | none =>
        simp only [hst] at this
        obtain ⟨s', m', e2, c2, x2, h1, h2⟩ := this
        rw [upd_upd] at c2
        exact ⟨s', m', e2, c2, x2, h1, h2⟩
      | some e =>
        simp only [hst] at this
        obtain ⟨s', m', e2, c2, x2, _, h2⟩ := this
        rw [upd_upd] at c2
        exact ⟨s', m', e2, c2, x2, h2⟩)
  have hbind : (copyCtor cfg w src al th >>= fun _ => pure Obs.unit : M V (Obs V)).run s =
      (ctor w al O.vt (doCopyAssign cfg false w src th) >>= fun _ => pure Obs.unit :
        M V (Obs V)).run s := by
    show (M.bind _ _).run s = (M.bind _ _).run s
    simp only [M.bind, hprog]
  rw [hbind]
  cases hst : copyThrows cfg sl.held th <;> (rw [hst] at this; exact this)

/-! ## Moves -/

/-- What the members of the source look like after a move. -/
theorem moved_abs {C : Nat → Option (Mid V)} {a : World V} (ha : Abs cfg C a) {w src : Nat}
    {m o : Mid V} {sl : Slot V} {al : Nat} (hm : m.alloc = al)
    (hh : Held cfg a.ext m sl.held) (ho : o.alloc = sl.alloc) (hoc : o.cell = .empty) :
    Abs cfg (upd (upd C w (some m)) src (some o))
      ((a.set w (some ⟨al, sl.held⟩)).set src (some ⟨sl.alloc, .empty⟩)) :=
  (ha.set (sl := ⟨al, sl.held⟩) hm hh).set (sl := ⟨sl.alloc, .empty⟩) ho hoc

/-- The three ways of taking over an object, and `other.size = invalid_size` after that. -/
theorem take_then {s s₁ : St V} {C : Nat → Option (Mid V)} {a : World V} (ha : Abs cfg C a)
    {w src : Nat} {m o : Mid V} {sl : Slot V} {al : Nat}
    (hm : m.alloc = al) (hh : Held cfg a.ext m sl.held) (ho : o.alloc = sl.alloc)
    (hoc : o.cell = .empty) {take : M V Unit} (ht : take.run s = .ok () s₁)
    (hc : Cells cfg s₁ (upd (upd C w (some m)) src (some o))) (hx : s₁.ext = a.ext) :
    ∃ s', (take >>= fun _ => modW src fun W => { W with size := invalidSize }).run s = .ok () s' ∧
      Rep cfg s' ((a.set w (some ⟨al, sl.held⟩)).set src (some ⟨sl.alloc, .empty⟩)) := by
  obtain ⟨s', e1, c1, x1⟩ := modMeta_ok hc (upd_same _ _ _)
    (fun W => { W with size := invalidSize }) { o with size := invalidSize } (fun _ => ⟨rfl, rfl⟩)
    (fun W h1 h2 h3 => ⟨h1, rfl, h3⟩) rfl (.inl rfl)
  rw [upd_upd] at c1
  exact ⟨s', by rw [bind_ok ht]; exact e1, _, c1, moved_abs ha hm hh ho hoc, by
    rw [x1.ext, hx]; rfl⟩

theorem cell_empty_ne_store {m : Mid V} {n : Nat} {o : Option (Obj V)} (h : m.cell = .store n o) :
    m.cell ≠ .empty := by rw [h]; simp

theorem move_sim (ok : cfg.Ok) {s : St V} {a : World V} (hr : Rep cfg s a) (w src : Nat)
    (hw : a.wr w = none) {sl : Slot V} (hsrc : a.wr src = some sl) :
    Agrees cfg ((step cfg (.move w src)).run s)
      (.done .unit ((a.set w (some sl)).set src (some ⟨sl.alloc, .empty⟩))) := by
  obtain ⟨C, hc, ha, hx⟩ := hr
  obtain ⟨o, ho, hoal, hheld⟩ := ha.live src sl hsrc
  have hne : src ≠ w := by rintro rfl; rw [hw] at hsrc; cases hsrc
  have ho1 : ∀ x, upd C w x src = some o := fun x => by rw [upd_ne _ _ hne]; exact ho
  obtain ⟨O, gO, hO, hmO⟩ := getW_ok hc ho
  obtain ⟨s₁, e1, c1, x1⟩ := newW_ok hc (ha.dead w hw) O.alloc O.vt
  obtain ⟨s₂, e2, c2, x2⟩ := modMeta_ok c1 (upd_same _ _ _) (fun W => { W with size := O.size })
    ⟨O.alloc, O.size, O.vt, .empty⟩ (fun _ => ⟨rfl, rfl⟩)
    (fun W h1 h2 h3 => ⟨h1, rfl, h3⟩) rfl (.inl rfl)
  rw [upd_upd] at c2
  have hx2 : s₂.ext = a.ext := by rw [x2.ext, x1.ext, hx]
  have hsl : (⟨sl.alloc, sl.held⟩ : Slot V) = sl := rfl
  -- whatever is taken over
  have key : ∃ s₃, (takeCtor cfg w src O).run s₂ = .ok () s₃ ∧
      Cells cfg s₃ (upd (upd C w (some ⟨O.alloc, O.size, O.vt, o.cell⟩)) src
        (some { o with cell := .empty })) ∧ s₃.ext = s₂.ext := by
    unfold takeCtor
    rw [hmO.size]
    cases hcon : sl.held with
    | empty =>
      rw [hcon] at hheld
      by_cases hb : (!sizeIndicatesOwnership o.size || decide (cfg.sbs < o.size)) = true
      · rw [if_pos hb]
        obtain ⟨s₃, e3, c3, x3⟩ := steal_ok c2 hne (upd_same _ _ _) (ho1 _) rfl (.inl hheld)
        rw [upd_upd] at c3
        rw [hmO.size] at c3
        exact ⟨s₃, e3, c3, x3⟩
      · rw [if_neg hb, if_pos ((self_null hmO).2 hheld)]
        refine ⟨s₂, rfl, ?_, rfl⟩
        have hcell : o.cell = .empty := hheld
        have : upd (upd C w (some ⟨O.alloc, o.size, O.vt, o.cell⟩)) src
            (some { o with cell := Cell.empty }) = upd C w (some ⟨O.alloc, o.size, O.vt, .empty⟩) := by
          rw [hcell]
          apply upd_self
          rw [ho1, ← hcell]
        rw [this, ← hmO.size]
        exact c2
    | ref e k =>
      rw [hcon] at hheld
      have hb : (!sizeIndicatesOwnership o.size || decide (cfg.sbs < o.size)) = true := by
        rw [hheld.2.1, owns_ref]; rfl
      rw [if_pos hb]
      obtain ⟨s₃, e3, c3, x3⟩ := steal_ok c2 hne (upd_same _ _ _) (ho1 _) rfl
        (.inr (.inl ⟨e, hheld.1⟩))
      rw [upd_upd] at c3
      rw [hmO.size] at c3
      exact ⟨s₃, e3, c3, x3⟩
    | owned t v =>
      rw [hcon] at hheld
      obtain ⟨h1, h2, h3⟩ := hheld
      by_cases hs : cfg.sbs < cfg.sizeOf t
      · have hb : (!sizeIndicatesOwnership o.size || decide (cfg.sbs < o.size)) = true := by
          rw [h2]; simp [hs]
        rw [if_pos hb]
        obtain ⟨s₃, e3, c3, x3⟩ := steal_ok c2 hne (upd_same _ _ _) (ho1 _) rfl
          (.inr (.inr ⟨⟨_, _, hs, h1⟩, hmO.alloc⟩))
        rw [upd_upd] at c3
        rw [hmO.size] at c3
        exact ⟨s₃, e3, c3, x3⟩
      · have hb : ¬ (!sizeIndicatesOwnership o.size || decide (cfg.sbs < o.size)) = true := by
          rw [h2, owns_of_lt (ok.size_max t)]; simpa using hs
        rw [if_neg hb, if_neg (fun hn => cell_empty_ne_store h1 ((self_null hmO).1 hn))]
        obtain ⟨s₃, e3, c3, x3⟩ := moveSmall_ok c2 hne (upd_same _ _ _) (ho1 _) rfl
          (hmO.vt.trans h3) h1 (by omega)
        rw [upd_upd] at c3
        rw [hmO.size] at c3
        exact ⟨s₃, e3, c3, x3⟩
  obtain ⟨s₃, e3, c3, x3⟩ := key
  have hheld' : Held cfg a.ext (⟨O.alloc, O.size, O.vt, o.cell⟩ : Mid V) sl.held := by
    cases hcon : sl.held with
    | empty => rw [hcon] at hheld; exact hheld
    | ref e k => rw [hcon] at hheld; exact ⟨hheld.1, hmO.size.trans hheld.2.1, hmO.vt.trans hheld.2.2⟩
    | owned t v =>
      rw [hcon] at hheld; exact ⟨hheld.1, hmO.size.trans hheld.2.1, hmO.vt.trans hheld.2.2⟩
  obtain ⟨s₄, e4, r4⟩ := take_then ha (o := { o with cell := .empty }) (al := sl.alloc)
    (hmO.alloc.trans hoal) hheld' hoal rfl e3 c3
    (x3.trans hx2)
  refine ⟨s₄, ?_, r4⟩
  show (moveCtor cfg w src >>= fun _ => pure Obs.unit).run s = _
  rw [bind_ok (a := ()) (s' := s₄)]
  · rfl
  · unfold moveCtor
    rw [bind_ok gO, bind_ok e1]
    apply noexcept_ok
    rw [bind_ok e2]
    exact e4

theorem held_vt_size {ext : Nat → Obj V} {o m : Mid V} {c : Content V} (h : Held cfg ext o c)
    (hs : m.size = o.size) (hv : m.vt = o.vt) (hc : m.cell = o.cell) : Held cfg ext m c := by
  cases c with
  | empty => exact hc.trans h
  | ref e k => exact ⟨hc.trans h.1, hs.trans h.2.1, hv.trans h.2.2⟩
  | owned t v => exact ⟨hc.trans h.1, hs.trans h.2.1, hv.trans h.2.2⟩

/-- The result of a move that takes over `sl.held`. -/
def moveResult (a : World V) (w src al : Nat) (sl : Slot V) (dies : Bool) : Result V :=
  if dies then .terminated
  else .done .unit ((a.set w (some ⟨al, sl.held⟩)).set src (some ⟨sl.alloc, .empty⟩))

theorem moveA_sim (ok : cfg.Ok) {s : St V} {a : World V} (hr : Rep cfg s a) (w src al : Nat)
    (th : Throws) (hw : a.wr w = none) {sl : Slot V} (hsrc : a.wr src = some sl) :
    Agrees cfg ((step cfg (.moveA w src al th)).run s)
      (moveResult a w src al sl (moveDies cfg sl.held (al == sl.alloc) th)) := by
  obtain ⟨C, hc, ha, hx⟩ := hr
  obtain ⟨o, ho, hoal, hheld⟩ := ha.live src sl hsrc
  have hne : src ≠ w := by rintro rfl; rw [hw] at hsrc; cases hsrc
  have ho1 : ∀ x, upd C w x src = some o := fun x => by rw [upd_ne _ _ hne]; exact ho
  obtain ⟨O, gO, hO, hmO⟩ := getW_ok hc ho
  obtain ⟨s₁, e1, c1, x1⟩ := newW_ok hc (ha.dead w hw) al O.vt
  obtain ⟨s₂, e2, c2, x2⟩ := modMeta_ok c1 (upd_same _ _ _) (fun W => { W with size := O.size })
    ⟨al, o.size, o.vt, .empty⟩ (fun _ => ⟨rfl, rfl⟩)
    (fun W h1 h2 h3 => ⟨h1, hmO.size, h3.trans hmO.vt⟩) rfl (.inl rfl)
  rw [upd_upd] at c2
  have hx2 : s₂.ext = a.ext := by rw [x2.ext, x1.ext, hx]
  have hheld' : Held cfg a.ext (⟨al, o.size, o.vt, o.cell⟩ : Mid V) sl.held :=
    held_vt_size hheld rfl rfl rfl
  have hprog : (moveCtorAlloc cfg w src al th).run s =
      (noexcept (if O.self = .null then pure () else do
        modW w fun W => { W with size := O.size }
        takeCtorAlloc cfg w src al O th
        modW src fun W => { W with size := invalidSize })).run s₁ := by
    unfold moveCtorAlloc
    rw [bind_ok gO, bind_ok e1]
  have fin : ∀ s₃, (takeCtorAlloc cfg w src al O th).run s₂ = .ok () s₃ →
      Cells cfg s₃ (upd (upd C w (some ⟨al, o.size, o.vt, o.cell⟩)) src
        (some { o with cell := .empty })) → s₃.ext = s₂.ext → O.self ≠ .null →
      Agrees cfg ((step cfg (.moveA w src al th)).run s) (moveResult a w src al sl false) := by
    intro s₃ e3 c3 x3 hnn
    obtain ⟨s₄, e4, r4⟩ := take_then ha (o := { o with cell := .empty }) (al := al)
      rfl hheld' hoal rfl e3 c3 (x3.trans hx2)
    refine ⟨s₄, ?_, r4⟩
    show (moveCtorAlloc cfg w src al th >>= fun _ => pure Obs.unit).run s = _
    rw [bind_ok (a := ()) (s' := s₄)]
    · rfl
    · rw [hprog, if_neg hnn]
      apply noexcept_ok
      rw [bind_ok e2]
      exact e4
  cases hcon : sl.held with
  | empty =>
    rw [hcon] at hheld
    have hnull := (self_null hmO).2 hheld
    refine ⟨s₁, ?_, _, c1, ?_, ?_⟩
    · show (moveCtorAlloc cfg w src al th >>= fun _ => pure Obs.unit).run s = _
      rw [bind_ok (a := ()) (s' := s₁)]
      · rfl
      · rw [hprog, if_pos hnull]; rfl
    · have h := moved_abs ha (w := w) (src := src) (m := ⟨al, invalidSize, O.vt, .empty⟩) (o := o)
        (sl := sl) (al := al) rfl (by rw [hcon]; rfl) hoal hheld
      rw [upd_self (ho1 _)] at h
      exact h
    · rw [x1.ext, hx]; rfl
  | ref e k =>
    rw [hcon] at hheld
    have hnn : O.self ≠ .null := fun hn => by
      have := (self_null hmO).1 hn; rw [hheld.1] at this; cases this
    obtain ⟨s₃, e3, c3, x3⟩ := steal_ok c2 hne (upd_same _ _ _) (ho1 _) rfl
      (.inr (.inl ⟨e, hheld.1⟩))
    rw [upd_upd] at c3
    refine fin s₃ ?_ c3 x3 hnn
    unfold takeCtorAlloc
    rw [hmO.size, hheld.2.1, owns_ref, if_pos (by simp)]
    exact e3
  | owned t v own =>
    rw [hcon] at hheld
    obtain ⟨h1, h2, h3⟩ := hheld
    have hnn : O.self ≠ .null := fun hn => cell_empty_ne_store h1 ((self_null hmO).1 hn)
    have hown : (!sizeIndicatesOwnership O.size) = false := by
      rw [hmO.size, h2, owns_of_lt (ok.size_max t)]; rfl
    have hOs : O.size = cfg.sizeOf t := hmO.size.trans h2
    by_cases hs : cfg.sbs < cfg.sizeOf t
    · by_cases hal : al = sl.alloc
      · have hdies : moveDies cfg (.owned t v own) (al == sl.alloc) th = false := by simp [moveDies, hal]
        rw [hdies]
        obtain ⟨s₃, e3, c3, x3⟩ := steal_ok c2 hne (upd_same _ _ _) (ho1 _) rfl
          (.inr (.inr ⟨⟨_, _, hs, h1⟩, hal.trans hoal.symm⟩))
        rw [upd_upd] at c3
        refine fin s₃ ?_ c3 x3 hnn
        unfold takeCtorAlloc
        rw [hown, if_neg (by simp), hOs, if_pos hs, if_pos (by rw [hmO.alloc, hoal, hal])]
        exact e3
      · have hmove := moveHeap_ok ok c2 hne (upd_same _ _ _) (ho1 _) rfl h3 h2 h2 h1 hs th
        have htake : (takeCtorAlloc cfg w src al O th).run s₂ = (moveHeap cfg w src th).run s₂ := by
          unfold takeCtorAlloc
          rw [hown, if_neg (by simp), hOs, if_pos hs, if_neg (by rw [hmO.alloc, hoal]; exact hal)]
        have hbeq : (al == sl.alloc) = false := by simpa using hal
        cases hth : th.alloc with
        | true =>
          have hdies : moveDies cfg (.owned t v own) (al == sl.alloc) th = true := by
            simp [moveDies, hbeq, hth, Cfg.NeedsHeap, hs]
          rw [hdies]
          rw [hth, if_pos rfl] at hmove
          obtain ⟨s', e'⟩ := hmove
          show (moveCtorAlloc cfg w src al th >>= fun _ => pure Obs.unit).run s = _
          apply bind_fault
          rw [hprog, if_neg hnn]
          apply noexcept_thrown (e := .badAlloc) (s' := s')
          rw [bind_ok e2]
          exact bind_thrown (htake.trans e')
        | false =>
          have hdies : moveDies cfg (.owned t v own) (al == sl.alloc) th = false := by
            simp [moveDies, hth]
          rw [hdies]
          rw [hth, if_neg (by simp)] at hmove
          obtain ⟨s₃, e3, c3, x3⟩ := hmove
          rw [upd_upd] at c3
          exact fin s₃ (htake.trans e3) c3 x3 hnn
    · have hdies : moveDies cfg (.owned t v own) (al == sl.alloc) th = false := by
        simp [moveDies, Cfg.NeedsHeap, hs]
      rw [hdies]
      obtain ⟨s₃, e3, c3, x3⟩ := moveSmall_ok c2 hne (upd_same _ _ _) (ho1 _) rfl h3 h1 (by omega)
      rw [upd_upd] at c3
      refine fin s₃ ?_ c3 x3 hnn
      unfold takeCtorAlloc
      rw [hown, if_neg (by simp), hOs, if_neg hs]
      exact e3

end Guanaqo.TypeErased
