import Verif.TypeErased.Refine

/-!
# Every operation does what the specification says: assignment, destruction, access
-/

namespace Guanaqo.TypeErased

variable {V : Type} {cfg : Cfg}

theorem propagateAlloc_ok {s : St V} {C : Nat → Option (Mid V)} (hc : Cells cfg s C) {w : Nat}
    {m : Mid V} (h : C w = some m) (hcell : m.cell = .empty) (b : Bool) (al : Nat) :
    ∃ s', (propagateAlloc b w al).run s = .ok () s' ∧
      Cells cfg s' (upd C w (some { m with alloc := if b then al else m.alloc })) ∧ Fr w s s' := by
  unfold propagateAlloc
  cases b with
  | true =>
    exact modMeta_ok hc h _ _ (fun _ => ⟨rfl, rfl⟩) (fun W h1 h2 h3 => ⟨rfl, h2, h3⟩) rfl
      (.inr (by simp [hcell]))
  | false => exact ⟨s, rfl, by simp only [if_neg (show ¬ false = true by simp)]; rw [upd_self h]; exact hc, .refl _ _⟩

def copyAssignResult (a : World V) (w al : Nat) (sl : Slot V) : Option Exn → Result V
  | some e => .threw e (a.set w (some ⟨al, .empty⟩))
  | none => .done .unit (a.set w (some ⟨al, sl.held⟩))

theorem copyAssign_sim (ok : cfg.Ok) {s : St V} {a : World V} (hr : Rep cfg s a) (w src : Nat)
    (th : Throws) {d sl : Slot V} (hw : a.wr w = some d) (hsrc : a.wr src = some sl)
    (hne : src ≠ w) :
    Agrees cfg ((step cfg (.copyAssign w src th)).run s)
      (copyAssignResult a w (if cfg.pocca then sl.alloc else d.alloc) sl
        (copyThrows cfg sl.held th)) := by
  obtain ⟨C, hc, ha, hx⟩ := hr
  obtain ⟨o, ho, hoal, hheld⟩ := ha.live src sl hsrc
  obtain ⟨m, hm, hmal, hmheld⟩ := ha.live w d hw
  have ho1 : ∀ x, upd C w x src = some o := fun x => by rw [upd_ne _ _ hne]; exact ho
  rw [← hx] at hmheld hheld
  obtain ⟨s₁, e1, c1, x1⟩ := cleanup_ok ok hc hm hmheld
  obtain ⟨O, gO, hO, hmO⟩ := getW_ok c1 (ho1 _)
  obtain ⟨s₂, e2, c2, x2⟩ := modMeta_ok c1 (upd_same _ _ _) (fun W => { W with vt := O.vt })
    ⟨m.alloc, m.size, o.vt, .empty⟩ (fun _ => ⟨rfl, rfl⟩)
    (fun W h1 h2 h3 => ⟨h1, h2, hmO.vt⟩) rfl (.inl rfl)
  rw [upd_upd] at c2
  have x12 := x1.trans x2
  have hprog : (copyAssign cfg w src th).run s = (doCopyAssign cfg true w src th).run s₂ := by
    unfold copyAssign
    rw [if_neg hne, bind_ok e1, bind_ok gO, bind_ok e2]
  have h2 : Held cfg s₂.ext o sl.held := by rw [x12.ext]; exact hheld
  have := doCopy_ok ok c2 hne (upd_same _ _ _) (ho1 _) rfl rfl h2 th true
  have hal : (if (true && cfg.pocca) = true then o.alloc else m.alloc) =
      if cfg.pocca = true then sl.alloc else d.alloc := by
    rw [Bool.true_and, hoal, hmal]
  cases hst : copyThrows cfg sl.held th with
  | none =>
    simp only [hst] at this
    obtain ⟨s', m', e3, c3, x3, h3, h4⟩ := this
    rw [upd_upd] at c3
    refine ⟨s', ?_, _, c3, ha.set (sl := ⟨_, sl.held⟩) (h3.trans hal) ?_, ?_⟩
    · show (copyAssign cfg w src th >>= fun _ => pure Obs.unit).run s = _
      rw [bind_ok (hprog.trans e3)]; rfl
    · rw [x12.ext, hx] at h4; exact h4
    · rw [x3.ext, x12.ext, hx]; rfl
  | some e =>
    simp only [hst] at this
    obtain ⟨s', m', e3, c3, x3, h3, h4⟩ := this
    rw [upd_upd] at c3
    refine ⟨s', ?_, _, c3, ha.set (sl := ⟨_, .empty⟩) (h3.trans hal) h4, ?_⟩
    · exact bind_thrown (hprog.trans e3)
    · rw [x3.ext, x12.ext, hx]; rfl

theorem moveAssign_sim (ok : cfg.Ok) {s : St V} {a : World V} (hr : Rep cfg s a) (w src : Nat)
    (th : Throws) {d sl : Slot V} (hw : a.wr w = some d) (hsrc : a.wr src = some sl)
    (hne : src ≠ w) :
    Agrees cfg ((step cfg (.moveAssign w src th)).run s)
      (moveResult a w src (if cfg.pocma then sl.alloc else d.alloc) sl
        (moveDies cfg sl.held ((if cfg.pocma then sl.alloc else d.alloc) == sl.alloc) th)) := by
  obtain ⟨C, hc, ha, hx⟩ := hr
  obtain ⟨o, ho, hoal, hheld⟩ := ha.live src sl hsrc
  obtain ⟨m, hm, hmal, hmheld⟩ := ha.live w d hw
  have ho1 : ∀ x, upd C w x src = some o := fun x => by rw [upd_ne _ _ hne]; exact ho
  rw [← hx] at hmheld
  obtain ⟨s₁, e1, c1, x1⟩ := cleanup_ok ok hc hm hmheld
  obtain ⟨O, gO, hO, hmO⟩ := getW_ok c1 (ho1 _)
  obtain ⟨s₂, e2, c2, x2⟩ := propagateAlloc_ok c1 (upd_same _ _ _) rfl cfg.pocma O.alloc
  rw [upd_upd] at c2
  generalize hal : (if cfg.pocma then sl.alloc else d.alloc) = al
  have hal' : (if cfg.pocma = true then O.alloc else m.alloc) = al := by
    rw [hmO.alloc, hoal, hmal]; exact hal
  simp only [hal'] at c2
  obtain ⟨s₃, e3, c3, x3⟩ := modMeta_ok c2 (upd_same _ _ _) (fun W => { W with size := O.size })
    ⟨al, o.size, m.vt, .empty⟩ (fun _ => ⟨rfl, rfl⟩)
    (fun W h1 h2 h3 => ⟨h1, hmO.size, h3⟩) rfl (.inl rfl)
  rw [upd_upd] at c3
  obtain ⟨s₄, e4, c4, x4⟩ := modMeta_ok c3 (upd_same _ _ _) (fun W => { W with vt := O.vt })
    ⟨al, o.size, o.vt, .empty⟩ (fun _ => ⟨rfl, rfl⟩)
    (fun W h1 h2 h3 => ⟨h1, h2, hmO.vt⟩) rfl (.inl rfl)
  rw [upd_upd] at c4
  obtain ⟨W, gW, hW, hmW⟩ := getW_ok c4 (upd_same _ _ _)
  have hWal : W.alloc = al := hmW.alloc
  have x12 := x1.trans x2
  have hx4 : s₄.ext = a.ext := by rw [x4.ext, x3.ext, x12.ext, hx]
  have hheld' : Held cfg a.ext (⟨al, o.size, o.vt, o.cell⟩ : Mid V) sl.held :=
    held_vt_size hheld rfl rfl rfl
  have hprog : (moveAssign cfg w src th).run s =
      (noexcept (do
        cleanup cfg w
        let O ← getW src
        propagateAlloc cfg.pocma w O.alloc
        if O.self = .null then pure () else do
          modW w fun W => { W with size := O.size }
          modW w fun W => { W with vt := O.vt }
          let W ← getW w
          takeAssign cfg w src W O th
          modW src fun W => { W with size := invalidSize })).run s := by
    unfold moveAssign
    rw [if_neg hne]
  have fin : ∀ s₅, (takeAssign cfg w src W O th).run s₄ = .ok () s₅ →
      Cells cfg s₅ (upd (upd C w (some ⟨al, o.size, o.vt, o.cell⟩)) src
        (some { o with cell := .empty })) → s₅.ext = s₄.ext → O.self ≠ .null →
      Agrees cfg ((step cfg (.moveAssign w src th)).run s) (moveResult a w src al sl false) := by
    intro s₅ e5 c5 x5 hnn
    obtain ⟨s₆, e6, r6⟩ := take_then ha (o := { o with cell := .empty }) (al := al)
      rfl hheld' hoal rfl e5 c5 (x5.trans hx4)
    refine ⟨s₆, ?_, r6⟩
    show (moveAssign cfg w src th >>= fun _ => pure Obs.unit).run s = _
    rw [bind_ok (a := ()) (s' := s₆)]
    · rfl
    · rw [hprog]
      apply noexcept_ok
      rw [bind_ok e1, bind_ok gO, bind_ok e2, if_neg hnn, bind_ok e3, bind_ok e4, bind_ok gW]
      exact e6
  cases hcon : sl.held with
  | empty =>
    rw [hcon] at hheld
    have hnull := (self_null hmO).2 hheld
    refine ⟨s₂, ?_, _, c2, ?_, ?_⟩
    · show (moveAssign cfg w src th >>= fun _ => pure Obs.unit).run s = _
      rw [bind_ok (a := ()) (s' := s₂)]
      · rfl
      · rw [hprog]
        apply noexcept_ok
        rw [bind_ok e1, bind_ok gO, bind_ok e2, if_pos hnull]
        rfl
    · have h := moved_abs ha (w := w) (src := src) (m := ⟨al, m.size, m.vt, .empty⟩) (o := o)
        (sl := sl) (al := al) rfl (by rw [hcon]; rfl) hoal hheld
      rw [upd_self (ho1 _)] at h
      exact h
    · rw [x12.ext, hx]; rfl
  | ref e k =>
    rw [hcon] at hheld
    have hnn : O.self ≠ .null := fun hn => by
      have := (self_null hmO).1 hn; rw [hheld.1] at this; cases this
    obtain ⟨s₅, e5, c5, x5⟩ := steal_ok c4 hne (upd_same _ _ _) (ho1 _) rfl
      (.inr (.inl ⟨e, hheld.1⟩))
    rw [upd_upd] at c5
    refine fin s₅ ?_ c5 x5 hnn
    unfold takeAssign
    rw [hmO.size, hheld.2.1, owns_ref, if_pos (by simp)]
    exact e5
  | owned t v own =>
    rw [hcon] at hheld
    obtain ⟨h1, h2, h3⟩ := hheld
    have hnn : O.self ≠ .null := fun hn => cell_empty_ne_store h1 ((self_null hmO).1 hn)
    have hown : (!sizeIndicatesOwnership O.size) = false := by
      rw [hmO.size, h2, owns_of_lt (ok.size_max t)]; rfl
    have hOs : O.size = cfg.sizeOf t := hmO.size.trans h2
    by_cases hs : cfg.sbs < cfg.sizeOf t
    · by_cases heq : al = sl.alloc
      · have hdies : moveDies cfg (.owned t v own) (al == sl.alloc) th = false := by simp [moveDies, heq]
        rw [hdies]
        obtain ⟨s₅, e5, c5, x5⟩ := steal_ok c4 hne (upd_same _ _ _) (ho1 _) rfl
          (.inr (.inr ⟨⟨_, _, hs, h1⟩, heq.trans hoal.symm⟩))
        rw [upd_upd] at c5
        refine fin s₅ ?_ c5 x5 hnn
        unfold takeAssign
        rw [hown, if_neg (by simp), hOs, if_pos hs,
          if_pos (by simp [hWal, hmO.alloc, hoal, heq])]
        exact e5
      · have hpoc : cfg.pocma = false := by
          cases hp : cfg.pocma with
          | false => rfl
          | true => rw [hp, if_pos rfl] at hal; exact absurd hal.symm heq
        have hmove := moveHeapAssign_ok c4 hne (upd_same _ _ _) (ho1 _) rfl h3 h2 h1 hs th
        have htake : (takeAssign cfg w src W O th).run s₄ =
            (moveHeapAssign cfg w src th).run s₄ := by
          unfold takeAssign
          rw [hown, if_neg (by simp), hOs, if_pos hs,
            if_neg (by simp [hWal, hmO.alloc, hoal, heq, hpoc])]
        have hbeq : (al == sl.alloc) = false := by simpa using heq
        cases hth : th.alloc with
        | true =>
          have hdies : moveDies cfg (.owned t v own) (al == sl.alloc) th = true := by
            simp [moveDies, hbeq, hth, Cfg.NeedsHeap, hs]
          rw [hdies]
          rw [hth, if_pos rfl] at hmove
          obtain ⟨s', e'⟩ := hmove
          show (moveAssign cfg w src th >>= fun _ => pure Obs.unit).run s = _
          apply bind_fault
          rw [hprog]
          apply noexcept_thrown (e := .badAlloc) (s' := s')
          rw [bind_ok e1, bind_ok gO, bind_ok e2, if_neg hnn, bind_ok e3, bind_ok e4, bind_ok gW]
          exact bind_thrown (htake.trans e')
        | false =>
          have hdies : moveDies cfg (.owned t v own) (al == sl.alloc) th = false := by
            simp [moveDies, hth]
          rw [hdies]
          rw [hth, if_neg (by simp)] at hmove
          obtain ⟨s₅, e5, c5, x5⟩ := hmove
          rw [upd_upd] at c5
          exact fin s₅ (htake.trans e5) c5 x5 hnn
    · have hdies : moveDies cfg (.owned t v own) (al == sl.alloc) th = false := by
        simp [moveDies, Cfg.NeedsHeap, hs]
      rw [hdies]
      obtain ⟨s₅, e5, c5, x5⟩ := moveSmall_ok c4 hne (upd_same _ _ _) (ho1 _) rfl h3 h1 (by omega)
      rw [upd_upd] at c5
      refine fin s₅ ?_ c5 x5 hnn
      unfold takeAssign
      rw [hown, if_neg (by simp), hOs, if_neg hs]
      exact e5

theorem destroy_sim (ok : cfg.Ok) {s : St V} {a : World V} (hr : Rep cfg s a) (w : Nat) {d : Slot V}
    (hw : a.wr w = some d) :
    Agrees cfg ((step cfg (.destroy w)).run s) (.done .unit (a.set w none)) := by
  obtain ⟨C, hc, ha, hx⟩ := hr
  obtain ⟨m, hm, hmal, hmheld⟩ := ha.live w d hw
  rw [← hx] at hmheld
  obtain ⟨s₁, e1, c1, x1⟩ := dtor_ok ok hc hm hmheld
  refine ⟨s₁, ?_, _, c1, ha.kill w, by rw [x1.ext, hx]; rfl⟩
  show (dtor cfg w >>= fun _ => pure Obs.unit).run s = _
  rw [bind_ok e1]; rfl

/-! ## Access -/

/-- Which optional methods are the object's own. -/
def Content.own : Content V → Nat → Bool
  | .empty => fun _ => false
  | .owned _ _ own => own
  | .ref _ _ own => own

/-- What the members of a wrapper that holds something look like. -/
theorem held_access (ok : cfg.Ok) {s : St V} {a : World V} {C : Nat → Option (Mid V)}
    (hc : Cells cfg s C) (ha : Abs cfg C a) (hx : s.ext = a.ext) {w : Nat} {d : Slot V}
    (hw : a.wr w = some d) {t : Nat} (ht : a.heldType d.held = some t) :
    ∃ W v, (getW w).run s = .ok W s ∧ s.wr w = some W ∧ W.self ≠ .null ∧
      a.heldVal d.held = some v ∧ (readAs W.self t).run s = .ok v s ∧
      (∃ k, W.vt = .of t k d.held.own ∧ sizeIndicatesConst W.size = k ∧
        (k = true → ∃ e o, d.held = .ref e true o) ∧
        (k = false → ∀ f, ∃ s', (writeAs W.self t f).run s = .ok () s' ∧
          Agrees cfg (.ok .unit s') (a.modifyHeld w d f))) := by
  obtain ⟨m, hm, hmal, hheld⟩ := ha.live w d hw
  obtain ⟨W, gW, hW, hmW⟩ := getW_ok hc hm
  obtain ⟨al, held⟩ := d
  cases held with
  | empty => cases ht
  | owned t' v own =>
    have htt : t' = t := by simpa [World.heldType] using ht
    subst htt
    obtain ⟨h1, h2, h3⟩ := hheld
    refine ⟨W, v, gW, hW, fun hn => cell_empty_ne_store h1 ((self_null hmW).1 hn), rfl,
      read_ok hc hm h1 hW, false, hmW.vt.trans h3, ?_, by simp, fun _ f => ?_⟩
    · rw [hmW.size, h2]; exact not_const_of_lt (ok.size_max t')
    · obtain ⟨_, hat, c2, x2, _⟩ := setSlot_ok hc hm h1 (some ⟨t', f v⟩) hW
      have hext : ∀ e, W.self ≠ .ext e := by
        intro e he
        have h4 := hmW.cell
        rw [h1] at h4
        rcases h4 with ⟨_, h5, _⟩ | ⟨_, _, b, h5, _⟩ <;> (rw [he] at h5; cases h5)
      refine ⟨s.setSlot W.self (some ⟨t', f v⟩), ?_, s.setSlot W.self (some ⟨t', f v⟩), rfl, ?_⟩
      · simp only [writeAs, hat, if_true]
      · exact ⟨_, c2, ha.set (sl := ⟨al, .owned t' (f v) own⟩) hmal ⟨rfl, h2, h3⟩, x2.trans hx⟩
  | ref e k own =>
    have htt : (a.ext e).ty = t := by simpa [World.heldType] using ht
    obtain ⟨h1, h2, h3⟩ := hheld
    have hself : W.self = .ext e := by have := hmW.cell; rw [h1] at this; exact this.1
    refine ⟨W, (a.ext e).val, gW, hW, by rw [hself]; simp, rfl, ?_, k, ?_, ?_, ?_, ?_⟩
    · simp [readAs, hself, St.objAt, hx, htt]
    · rw [hmW.vt, h3, htt]; rfl
    · rw [hmW.size, h2]; cases k <;> decide
    · intro hk; subst hk; exact ⟨e, _, rfl⟩
    · intro hk f; subst hk
      refine ⟨{ s with ext := upd s.ext e ⟨t, f (s.ext e).val⟩ },
        by simp [writeAs, hself, St.objAt, hx, htt], _, rfl, C, ?_, ha.ext e f, ?_⟩
      · exact ⟨hc.dead, fun v mv hv => by
          obtain ⟨U, hU, hk⟩ := hc.live v mv hv
          exact ⟨U, hU, hk.alloc, hk.size, hk.vt, hk.cell⟩, hc.fresh, hc.owner, hc.unique⟩
      · simp [World.setExt, htt, hx]

/-- C55 (one operation). From any state that represents a world, every allowed operation does exactly
what the specification says. -/
theorem step_sim (ok : cfg.Ok) {s : St V} {a : World V} (hr : Rep cfg s a) (op : Op V) {r : Result V}
    (h : spec cfg a op = some r) : Agrees cfg ((step cfg op).run s) r := by
  cases op with
  | default w al =>
    simp only [spec] at h
    split at h
    · rename_i hw
      cases h
      obtain ⟨C, hc, ha, hx⟩ := hr
      obtain ⟨s₁, e1, c1, x1⟩ := newW_ok hc (ha.dead w hw) al {}
      refine ⟨s₁, ?_, _, c1, ha.set (sl := ⟨al, .empty⟩) rfl rfl, by rw [x1.ext, hx]; rfl⟩
      show (newW w al {} >>= fun _ => pure Obs.unit).run s = _
      rw [bind_ok e1]; rfl
    · cases h
  | value w al t v th =>
    simp only [spec] at h
    split at h
    · rename_i hw
      have := value_sim ok hr w al t v th hw
      split at h <;> (rename_i hst; cases h; rw [hst] at this; exact this)
    · cases h
  | make w al t v th =>
    simp only [spec] at h
    split at h
    · rename_i hw
      have := make_sim ok hr w al t v th hw
      split at h <;> (rename_i hst; cases h; rw [hst] at this; exact this)
    · cases h
  | ref w al e c th =>
    simp only [spec] at h
    split at h
    · rename_i hw
      cases h
      exact ref_sim hr w al e c th hw
    · cases h
  | copy w src th =>
    simp only [spec] at h
    split at h
    · rename_i sl hw hsrc
      obtain ⟨C, hc, ha, hx⟩ := hr
      have := copyCtor_sim ok hc ha hx w src (cfg.socc sl.alloc) th hw hsrc
      obtain ⟨o, ho, hoal, _⟩ := ha.live src sl hsrc
      obtain ⟨O, gO, hO, hmO⟩ := getW_ok hc ho
      have hst : (step cfg (.copy w src th)).run s = (copyCtor cfg w src (cfg.socc sl.alloc) th >>=
          fun _ => pure Obs.unit : M V (Obs V)).run s := by
        show (getW src >>= fun O => copyCtor cfg w src (cfg.socc O.alloc) th >>=
          fun _ => pure Obs.unit : M V (Obs V)).run s = _
        rw [bind_ok gO, hmO.alloc, hoal]
      rw [hst]
      split at h <;> (rename_i hst; cases h; rw [hst] at this; exact this)
    · cases h
  | copyA w src al th =>
    simp only [spec] at h
    split at h
    · rename_i sl hw hsrc
      obtain ⟨C, hc, ha, hx⟩ := hr
      have := copyCtor_sim ok hc ha hx w src al th hw hsrc
      split at h <;> (rename_i hst; cases h; rw [hst] at this; exact this)
    · cases h
  | move w src =>
    simp only [spec] at h
    split at h
    · rename_i sl hw hsrc
      cases h
      exact move_sim ok hr w src hw hsrc
    · cases h
  | moveA w src al th =>
    simp only [spec] at h
    split at h
    · rename_i sl hw hsrc
      cases h
      exact moveA_sim ok hr w src al th hw hsrc
    · cases h
  | copyAssign w src th =>
    simp only [spec] at h
    split at h
    · rename_i d sl hw hsrc
      split at h
      · rename_i heq
        cases h
        refine ⟨s, ?_, hr⟩
        show (copyAssign cfg w src th >>= fun _ => pure Obs.unit).run s = _
        unfold copyAssign
        rw [if_pos heq]
        rfl
      · rename_i hne
        have := copyAssign_sim ok hr w src th hw hsrc hne
        split at h <;> (rename_i hst; cases h; rw [hst] at this; exact this)
    · cases h
  | moveAssign w src th =>
    simp only [spec] at h
    split at h
    · rename_i d sl hw hsrc
      split at h
      · rename_i heq
        cases h
        refine ⟨s, ?_, hr⟩
        show (moveAssign cfg w src th >>= fun _ => pure Obs.unit).run s = _
        unfold moveAssign
        rw [if_pos heq]
        rfl
      · rename_i hne
        cases h
        exact moveAssign_sim ok hr w src th hw hsrc hne
    · cases h
  | destroy w =>
    simp only [spec] at h
    split at h
    · rename_i d hw
      cases h
      exact destroy_sim ok hr w hw
    · cases h
  | modify w t f =>
    simp only [spec] at h
    split at h
    · rename_i d hw
      split at h
      · cases h
      · rename_i t' ht
        cases h
        obtain ⟨C, hc, ha, hx⟩ := hr
        obtain ⟨W, v, gW, hW, hnn, hv, hread, k, hvt, hk, hk1, hk2⟩ := held_access ok hc ha hx hw ht
        show Agrees cfg ((asMut w t >>= fun p => writeAs p t f >>= fun _ => pure Obs.unit).run s) _
        by_cases htt : t' = t
        · subst htt
          rw [if_pos rfl]
          cases k with
          | true =>
            obtain ⟨e, o, he⟩ := hk1 rfl
            have : a.modifyHeld w d f = .threw .badTypeErasedConstness a := by
              simp [World.modifyHeld, he]
            rw [this]
            refine ⟨s, bind_thrown ?_, C, hc, ha, hx⟩
            unfold asMut
            rw [bind_ok gW, if_neg (by simp [hvt, VTable.of]), if_pos hk]
            rfl
          | false =>
            obtain ⟨s', e1, hag⟩ := hk2 rfl f
            have : (asMut w t').run s = .ok W.self s := by
              unfold asMut
              rw [bind_ok gW, if_neg (by simp [hvt, VTable.of]), if_neg (by simp [hk]), if_neg hnn]
              rfl
            rw [bind_ok this, bind_ok e1]
            exact hag
        · rw [if_neg htt]
          refine ⟨s, bind_thrown ?_, C, hc, ha, hx⟩
          unfold asMut
          rw [bind_ok gW, if_pos (by simpa [hvt, VTable.of] using htt)]
          rfl
    · cases h
  | read w t =>
    simp only [spec] at h
    split at h
    · rename_i d hw
      split at h
      · rename_i t' v' ht hv'
        cases h
        obtain ⟨C, hc, ha, hx⟩ := hr
        obtain ⟨W, v, gW, hW, hnn, hv, hread, k, hvt, hk, hk1, hk2⟩ := held_access ok hc ha hx hw ht
        rw [hv] at hv'; cases hv'
        show Agrees cfg ((asConst w t >>= fun p => readAs p t >>= fun v => pure (Obs.val v)).run s) _
        by_cases htt : t' = t
        · subst htt
          rw [if_pos rfl]
          have : (asConst w t').run s = .ok W.self s := by
            unfold asConst
            rw [bind_ok gW, if_neg (by simp [hvt, VTable.of]), if_neg hnn]
            rfl
          rw [bind_ok this, bind_ok hread]
          exact ⟨s, rfl, C, hc, ha, hx⟩
        · rw [if_neg htt]
          refine ⟨s, bind_thrown ?_, C, hc, ha, hx⟩
          unfold asConst
          rw [bind_ok gW, if_pos (by simpa [hvt, VTable.of] using htt)]
          rfl
      · cases h
    · cases h
  | query w =>
    simp only [spec] at h
    split at h
    · rename_i d hw
      split at h
      · rename_i v' hv'
        cases h
        have : ∃ t, a.heldType d.held = some t := by
          cases hd : d.held with
          | empty => rw [hd] at hv'; cases hv'
          | owned t v => exact ⟨t, rfl⟩
          | ref e c => exact ⟨_, rfl⟩
        obtain ⟨t, ht⟩ := this
        obtain ⟨C, hc, ha, hx⟩ := hr
        obtain ⟨W, v, gW, hW, hnn, hv, hread, k, hvt, hk, hk1, hk2⟩ := held_access ok hc ha hx hw ht
        rw [hv] at hv'; cases hv'
        show Agrees cfg ((callConst cfg w >>= fun v => pure (Obs.val v)).run s) _
        have : (callConst cfg w).run s = .ok v' s := by
          unfold callConst
          rw [bind_ok gW, bind_ok (assertM_true (by simpa using hnn) s), hvt]
          exact hread
        rw [bind_ok this]
        exact ⟨s, rfl, C, hc, ha, hx⟩
      · cases h
    · cases h
  | update w f =>
    simp only [spec] at h
    split at h
    · rename_i d hw
      split at h
      · cases h
      · rename_i t ht
        cases h
        obtain ⟨C, hc, ha, hx⟩ := hr
        obtain ⟨W, v, gW, hW, hnn, hv, hread, k, hvt, hk, hk1, hk2⟩ := held_access ok hc ha hx hw ht
        show Agrees cfg ((callMut cfg w f >>= fun _ => pure Obs.unit).run s) _
        cases k with
        | true =>
          obtain ⟨e, o, he⟩ := hk1 rfl
          have : a.modifyHeld w d f = .threw .badTypeErasedConstness a := by
            simp [World.modifyHeld, he]
          rw [this]
          refine ⟨s, bind_thrown ?_, C, hc, ha, hx⟩
          unfold callMut
          rw [bind_ok gW, bind_ok (assertM_true (by simpa using hnn) s), if_pos hk]
          rfl
        | false =>
          obtain ⟨s', e1, hag⟩ := hk2 rfl f
          have : (callMut cfg w f).run s = .ok () s' := by
            unfold callMut
            rw [bind_ok gW, bind_ok (assertM_true (by simpa using hnn) s), if_neg (by simp [hk]), hvt]
            exact e1
          rw [bind_ok this]
          exact hag
    · cases h
  | optional w k =>
    simp only [spec] at h
    split at h
    · rename_i d hw
      have hh : ∃ t, a.heldType d.held = some t ∧ r = .done (.bool (d.held.own k)) a := by
        cases hd : d.held with
        | empty => rw [hd] at h; cases h
        | owned t v own => rw [hd] at h; cases h; exact ⟨t, rfl, rfl⟩
        | ref e c own => rw [hd] at h; cases h; exact ⟨_, rfl, rfl⟩
      obtain ⟨t, ht, rfl⟩ := hh
      obtain ⟨C, hc, ha, hx⟩ := hr
      obtain ⟨W, v, gW, hW, hnn, hv, hread, c, hvt, hk, hk1, hk2⟩ := held_access ok hc ha hx hw ht
      show Agrees cfg ((callOptional cfg w k >>= fun b => pure (Obs.bool b)).run s) _
      have : (callOptional cfg w k).run s = .ok (d.held.own k) s := by
        unfold callOptional
        rw [bind_ok gW]
        have has : (assertM cfg (W.self != .null) : M V Unit).run s = .ok () s := by
          simp [assertM, hnn]; rfl
        rw [bind_ok has]
        have ho : W.vt.own k = d.held.own k := by rw [hvt]; rfl
        rw [ho]
        cases hb : d.held.own k with
        | false => rfl
        | true =>
          rw [if_pos rfl]
          have hcmd : W.vt.cmd = some (t, c) := by rw [hvt]; rfl
          simp only [hcmd]
          rw [bind_ok hread]; rfl
      rw [bind_ok this]
      exact ⟨s, rfl, C, hc, ha, hx⟩
    · cases h
  | test w =>
    simp only [spec] at h
    split at h
    · rename_i d hw
      cases h
      obtain ⟨C, hc, ha, hx⟩ := hr
      obtain ⟨m, hm, hmal, hheld⟩ := ha.live w d hw
      obtain ⟨W, gW, hW, hmW⟩ := getW_ok hc hm
      refine ⟨s, ?_, C, hc, ha, hx⟩
      show (hasValue w >>= fun b => pure (Obs.bool b)).run s = _
      have : (hasValue w).run s = .ok (W.self != .null) s := by
        unfold hasValue; rw [bind_ok gW]; rfl
      rw [bind_ok this]
      have hb : (W.self != .null) = (a.heldType d.held).isSome := by
        cases hd : d.held with
        | empty =>
          rw [hd] at hheld
          simp [(self_null hmW).2 hheld, World.heldType]
        | owned t v =>
          rw [hd] at hheld
          have : W.self ≠ .null := fun hn => cell_empty_ne_store hheld.1 ((self_null hmW).1 hn)
          simpa [World.heldType] using this
        | ref e c =>
          rw [hd] at hheld
          have : W.self ≠ .null := fun hn => by
            have h := (self_null hmW).1 hn
            rw [hheld.1] at h; cases h
          simpa [World.heldType] using this
      rw [hb]; rfl
    · cases h
  | poke w t f =>
    simp only [spec] at h
    split at h
    · rename_i d hw
      split at h
      · rename_i ht
        cases h
        obtain ⟨C, hc, ha, hx⟩ := hr
        obtain ⟨W, v, gW, hW, hnn, hv, hread, k, hvt, hk, hk1, hk2⟩ := held_access ok hc ha hx hw ht
        show Agrees cfg ((getPointer w >>= fun p => writeAs p t f >>= fun _ =>
          pure Obs.unit).run s) _
        cases k with
        | true =>
          obtain ⟨e, o, he⟩ := hk1 rfl
          have : a.modifyHeld w d f = .threw .badTypeErasedConstness a := by
            simp [World.modifyHeld, he]
          rw [this]
          refine ⟨s, bind_thrown ?_, C, hc, ha, hx⟩
          unfold getPointer
          rw [bind_ok gW, if_pos hk]
          rfl
        | false =>
          obtain ⟨s', e1, hag⟩ := hk2 rfl f
          have : (getPointer w).run s = .ok W.self s := by
            unfold getPointer
            rw [bind_ok gW, if_neg (by simp [hk])]
            rfl
          rw [bind_ok this, bind_ok e1]
          exact hag
      · cases h
    · cases h
  | outside e f =>
    simp only [spec] at h
    cases h
    obtain ⟨C, hc, ha, hx⟩ := hr
    refine ⟨_, rfl, C, ?_, ha.ext e f, ?_⟩
    · exact ⟨hc.dead, fun v mv hv => by
          obtain ⟨U, hU, hk⟩ := hc.live v mv hv
          exact ⟨U, hU, hk.alloc, hk.size, hk.vt, hk.cell⟩, hc.fresh, hc.owner, hc.unique⟩
    · simp [World.setExt, hx]

end Guanaqo.TypeErased
