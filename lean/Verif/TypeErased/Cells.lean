import Verif.TypeErased.Spec

/-!
# Who owns which storage

`Cells` describes a concrete state by what every wrapper's pointer designates; each lemma gives the
effect of one primitive step.
-/

namespace Guanaqo.TypeErased

variable {V : Type} {cfg : Cfg}

/-- What a wrapper's pointer designates: nothing, an object outside, or storage of size `n` owned by the
wrapper with possibly an object in it. -/
inductive Cell (V : Type) where
  | empty
  | ref (e : Nat)
  | store (n : Nat) (o : Option (Obj V))

/-- A wrapper's members, with the pointer replaced by what it designates. -/
structure Mid (V : Type) where
  alloc : Nat
  size : Nat
  vt : VTable
  cell : Cell V

def CellOk (cfg : Cfg) (s : St V) (w : Nat) (W : Wrapper V) : Cell V → Prop
  | .empty => W.self = .null ∧ W.buf = none
  | .ref e => W.self = .ext e ∧ W.buf = none
  | .store n o =>
    (n ≤ cfg.sbs ∧ W.self = .small w ∧ W.buf = o) ∨
    (cfg.sbs < n ∧ W.buf = none ∧ ∃ b, W.self = .heap b ∧ s.blk b = some ⟨W.alloc, n, o⟩)

structure MidOk (cfg : Cfg) (s : St V) (w : Nat) (W : Wrapper V) (m : Mid V) : Prop where
  alloc : W.alloc = m.alloc
  size : W.size = m.size
  vt : W.vt = m.vt
  cell : CellOk cfg s w W m.cell

structure Cells (cfg : Cfg) (s : St V) (C : Nat → Option (Mid V)) : Prop where
  dead : ∀ w, C w = none → s.wr w = none
  live : ∀ w m, C w = some m → ∃ W, s.wr w = some W ∧ MidOk cfg s w W m
  fresh : ∀ b B, s.blk b = some B → b < s.next
  owner : ∀ b B, s.blk b = some B → ∃ w W, s.wr w = some W ∧ W.self = .heap b
  unique : ∀ w w' W W' b, s.wr w = some W → s.wr w' = some W' → W.self = .heap b →
    W'.self = .heap b → w = w'

@[simp] theorem upd_same {α : Type} (f : Nat → α) (i : Nat) (v : α) : upd f i v i = v := by
  simp [upd]

theorem upd_ne {α : Type} (f : Nat → α) {i k : Nat} (v : α) (h : k ≠ i) : upd f i v k = f k := by
  simp [upd, h]

theorem bind_ok {α β : Type} {m : M V α} {f : α → M V β} {s s' : St V} {a : α}
    (h : m.run s = .ok a s') : (m >>= f).run s = (f a).run s' := by
  show (M.bind m f).run s = _
  simp [M.bind, h]

theorem bind_thrown {α β : Type} {m : M V α} {f : α → M V β} {s s' : St V} {e : Exn}
    (h : m.run s = .thrown e s') : (m >>= f).run s = .thrown e s' := by
  show (M.bind m f).run s = _
  simp [M.bind, h]

theorem bind_fault {α β : Type} {m : M V α} {f : α → M V β} {s : St V} {e : Fault}
    (h : m.run s = .fault e) : (m >>= f).run s = .fault e := by
  show (M.bind m f).run s = _
  simp [M.bind, h]

theorem modW_eq {s : St V} {w : Nat} {W : Wrapper V} (h : s.wr w = some W)
    (f : Wrapper V → Wrapper V) :
    (modW w f).run s = .ok () { s with wr := upd s.wr w (some (f W)) } := by simp only [modW, h]

theorem newW_eq {s : St V} {w : Nat} (h : s.wr w = none) (a : Nat) (vt : VTable) :
    (newW w a vt).run s = .ok () { s with wr := upd s.wr w (some { alloc := a, vt := vt }) } := by
  simp only [newW, h]

/-- Only wrapper `w` has changed, apart from the heap. -/
structure Fr (w : Nat) (s s' : St V) : Prop where
  ext : s'.ext = s.ext
  wr : ∀ v, v ≠ w → s'.wr v = s.wr v

theorem Fr.trans {w : Nat} {s s' s'' : St V} (h : Fr w s s') (h' : Fr w s' s'') : Fr w s s'' :=
  ⟨h'.ext.trans h.ext, fun v hv => (h'.wr v hv).trans (h.wr v hv)⟩

theorem Fr.refl (w : Nat) (s : St V) : Fr w s s := ⟨rfl, fun _ _ => rfl⟩

theorem Fr.of_upd {w : Nat} {s : St V} {x : Option (Wrapper V)} {b : Nat → Option (Block V)}
    {n : Nat} : Fr w s { s with wr := upd s.wr w x, blk := b, next := n } :=
  ⟨rfl, fun _ hv => upd_ne _ _ hv⟩

/-- A general rule: wrapper `w` and possibly some blocks changed. -/
theorem Cells.update {s s' : St V} {C : Nat → Option (Mid V)} (hc : Cells cfg s C) {w : Nat}
    {W' : Wrapper V} {m' : Mid V}
    (hw : s'.wr = upd s.wr w (some W'))
    (hm : MidOk cfg s' w W' m')
    (hkeep : ∀ v W b, v ≠ w → s.wr v = some W → W.self = .heap b → s'.blk b = s.blk b)
    (hfresh : ∀ b B, s'.blk b = some B → b < s'.next)
    (howner : ∀ b B, s'.blk b = some B → W'.self = .heap b ∨
      ∃ v W, v ≠ w ∧ s.wr v = some W ∧ W.self = .heap b)
    (hnew : ∀ b, W'.self = .heap b → ∀ v W, v ≠ w → s.wr v = some W → W.self ≠ .heap b) :
    Cells cfg s' (upd C w (some m')) where
  dead v h := by
    rw [hw]
    by_cases hv : v = w
    · subst hv; simp at h
    · rw [upd_ne _ _ hv] at h ⊢
      exact hc.dead v h
  live v m h := by
    rw [hw]
    by_cases hv : v = w
    · subst hv
      simp only [upd_same, Option.some.injEq] at h
      subst h
      exact ⟨W', by simp, hm⟩
    · rw [upd_ne _ _ hv] at h ⊢
      obtain ⟨W, h1, h2⟩ := hc.live v m h
      refine ⟨W, h1, h2.alloc, h2.size, h2.vt, ?_⟩
      have h3 := h2.cell
      unfold CellOk at h3 ⊢
      split
      · rename_i he; rw [he] at h3; exact h3
      · rename_i he; rw [he] at h3; exact h3
      · rename_i n o he
        rw [he] at h3
        rcases h3 with h3 | ⟨h3, h4, b, h5, h6⟩
        · exact .inl h3
        · exact .inr ⟨h3, h4, b, h5, by rw [hkeep v W b hv h1 h5]; exact h6⟩
  fresh := hfresh
  owner b B h := by
    rw [hw]
    rcases howner b B h with h1 | ⟨v, W, hv, h1, h2⟩
    · exact ⟨w, W', by simp, h1⟩
    · exact ⟨v, W, by rw [upd_ne _ _ hv]; exact h1, h2⟩
  unique v v' U U' b h1 h2 h3 h4 := by
    rw [hw] at h1 h2
    by_cases hv : v = w <;> by_cases hv' : v' = w
    · rw [hv, hv']
    · subst hv
      rw [upd_ne _ _ hv'] at h2
      simp only [upd_same, Option.some.injEq] at h1
      subst h1
      exact absurd h4 (hnew b h3 v' U' hv' h2)
    · subst hv'
      rw [upd_ne _ _ hv] at h1
      simp only [upd_same, Option.some.injEq] at h2
      subst h2
      exact absurd h3 (hnew b h4 v U hv h1)
    · rw [upd_ne _ _ hv] at h1
      rw [upd_ne _ _ hv'] at h2
      exact hc.unique v v' U U' b h1 h2 h3 h4

/-- Only wrapper `w` changed, and it designates the same blocks or none. -/
theorem Cells.update_wr {s : St V} {C : Nat → Option (Mid V)} (hc : Cells cfg s C) {w : Nat}
    {W W' : Wrapper V} {m' : Mid V} (h : s.wr w = some W)
    (hself : ∀ b, W'.self = .heap b ↔ W.self = .heap b)
    (hm : MidOk cfg { s with wr := upd s.wr w (some W') } w W' m') :
    Cells cfg { s with wr := upd s.wr w (some W') } (upd C w (some m')) := by
  refine hc.update rfl hm (fun _ _ _ _ _ _ => rfl) hc.fresh ?_ ?_
  · intro b B hb
    obtain ⟨v, U, h1, h2⟩ := hc.owner b B hb
    by_cases hv : v = w
    · subst hv
      rw [h] at h1; cases h1
      exact .inl ((hself b).2 h2)
    · exact .inr ⟨v, U, hv, h1, h2⟩
  · intro b hb v U hv h1 h2
    exact hv (hc.unique v w U W b h1 h h2 ((hself b).1 hb))

/-! ## Reading members -/

theorem getW_ok {s : St V} {C : Nat → Option (Mid V)} (hc : Cells cfg s C) {w : Nat} {m : Mid V}
    (h : C w = some m) : ∃ W, (getW w).run s = .ok W s ∧ s.wr w = some W ∧ MidOk cfg s w W m := by
  obtain ⟨W, h1, h2⟩ := hc.live w m h
  exact ⟨W, by simp [getW, h1], h1, h2⟩

theorem self_null {s : St V} {w : Nat} {W : Wrapper V} {m : Mid V} (h : MidOk cfg s w W m) :
    W.self = .null ↔ m.cell = .empty := by
  have h1 := h.cell
  unfold CellOk at h1
  split at h1
  · rename_i he; simp [he, h1.1]
  · rename_i he; simp [he, h1.1]
  · rename_i he
    rcases h1 with ⟨_, h2, _⟩ | ⟨_, _, _, h2, _⟩ <;> simp [he, h2]

/-! ## Assigning members other than the pointer -/

/-- What `modW` may do without touching storage. -/
theorem modMeta_ok {s : St V} {C : Nat → Option (Mid V)} (hc : Cells cfg s C) {w : Nat} {m : Mid V}
    (h : C w = some m) (f : Wrapper V → Wrapper V) (m' : Mid V)
    (hf : ∀ W, (f W).buf = W.buf ∧ (f W).self = W.self)
    (hm : ∀ W, W.alloc = m.alloc → W.size = m.size → W.vt = m.vt →
      (f W).alloc = m'.alloc ∧ (f W).size = m'.size ∧ (f W).vt = m'.vt)
    (hcell : m'.cell = m.cell) (hal : m'.alloc = m.alloc ∨ ∀ n o, m.cell ≠ .store n o) :
    ∃ s', (modW w f).run s = .ok () s' ∧ Cells cfg s' (upd C w (some m')) ∧ Fr w s s' := by
  obtain ⟨W, h1, h2⟩ := hc.live w m h
  refine ⟨_, modW_eq h1 _, ?_, .of_upd⟩
  obtain ⟨ha, hs, hv⟩ := hm W h2.alloc h2.size h2.vt
  refine hc.update_wr h1 (fun b => by rw [(hf W).2]) ⟨ha, hs, hv, ?_⟩
  rw [hcell]
  have h3 := h2.cell
  unfold CellOk at h3 ⊢
  split
  · rename_i he; rw [he] at h3; simpa only [(hf W).1, (hf W).2] using h3
  · rename_i he; rw [he] at h3; simpa only [(hf W).1, (hf W).2] using h3
  · rename_i n o he
    rw [he] at h3
    simp only [(hf W).1, (hf W).2]
    rcases h3 with h3 | ⟨h3, h4, b, h5, h6⟩
    · exact .inl h3
    · refine .inr ⟨h3, h4, b, h5, ?_⟩
      rcases hal with hal | hal
      · rw [ha, hal, ← h2.alloc]; exact h6
      · exact absurd he (hal n o)

/-! ## Assigning the pointer -/

/-- `self = nullptr` when no heap storage is designated. -/
theorem setNull_ok {s : St V} {C : Nat → Option (Mid V)} (hc : Cells cfg s C) {w : Nat} {m : Mid V}
    (h : C w = some m)
    (hcell : m.cell = .empty ∨ (∃ e, m.cell = .ref e) ∨ ∃ n, n ≤ cfg.sbs ∧ m.cell = .store n none) :
    ∃ s', (modW w (fun W => { W with self := .null })).run s = .ok () s' ∧
      Cells cfg s' (upd C w (some { m with cell := .empty })) ∧ Fr w s s' := by
  obtain ⟨W, h1, h2⟩ := hc.live w m h
  refine ⟨_, modW_eq h1 _, ?_, .of_upd⟩
  have h3 := h2.cell
  have hb : W.buf = none ∧ ∀ b, W.self ≠ .heap b := by
    rcases hcell with he | ⟨e, he⟩ | ⟨n, hn, he⟩
    · rw [he] at h3; exact ⟨h3.2, by simp [h3.1]⟩
    · rw [he] at h3; exact ⟨h3.2, by simp [h3.1]⟩
    · rw [he] at h3
      rcases h3 with ⟨_, h4, h5⟩ | ⟨h4, _⟩
      · exact ⟨h5, by simp [h4]⟩
      · omega
  refine hc.update_wr h1 (fun b => ?_) ⟨h2.alloc, h2.size, h2.vt, rfl, hb.1⟩
  simp [hb.2 b]

/-- `self = small_buffer.data()`. -/
theorem setSmall_ok {s : St V} {C : Nat → Option (Mid V)} (hc : Cells cfg s C) {w : Nat} {m : Mid V}
    (h : C w = some m) (hcell : m.cell = .empty) {n : Nat} (hn : n ≤ cfg.sbs) :
    ∃ s', (modW w (fun W => { W with self := .small w })).run s = .ok () s' ∧
      Cells cfg s' (upd C w (some { m with cell := .store n none })) ∧ Fr w s s' := by
  obtain ⟨W, h1, h2⟩ := hc.live w m h
  refine ⟨_, modW_eq h1 _, ?_, .of_upd⟩
  have h3 := h2.cell
  rw [hcell] at h3
  refine hc.update_wr h1 (fun b => ?_) ⟨h2.alloc, h2.size, h2.vt, .inl ⟨hn, rfl, h3.2⟩⟩
  simp [h3.1]

/-- `self = &object`. -/
theorem setRef_ok {s : St V} {C : Nat → Option (Mid V)} (hc : Cells cfg s C) {w : Nat} {m : Mid V}
    (h : C w = some m) (hcell : m.cell = .empty) (e : Nat) :
    ∃ s', (modW w (fun W => { W with self := .ext e })).run s = .ok () s' ∧
      Cells cfg s' (upd C w (some { m with cell := .ref e })) ∧ Fr w s s' := by
  obtain ⟨W, h1, h2⟩ := hc.live w m h
  refine ⟨_, modW_eq h1 _, ?_, .of_upd⟩
  have h3 := h2.cell
  rw [hcell] at h3
  refine hc.update_wr h1 (fun b => ?_) ⟨h2.alloc, h2.size, h2.vt, rfl, h3.2⟩
  simp [h3.1]

/-- `self = allocator.allocate(n)`. -/
theorem malloc_ok {s : St V} {C : Nat → Option (Mid V)} (hc : Cells cfg s C) {w : Nat} {m : Mid V}
    (h : C w = some m) (hcell : m.cell = .empty) {n : Nat} (hn : cfg.sbs < n) :
    ∃ s₁ s', (malloc m.alloc n false).run s = .ok (.heap s.next) s₁ ∧
      (modW w (fun W => { W with self := .heap s.next })).run s₁ = .ok () s' ∧
      Cells cfg s' (upd C w (some { m with cell := .store n none })) ∧ Fr w s s' := by
  obtain ⟨W, h1, h2⟩ := hc.live w m h
  have h3 := h2.cell
  rw [hcell] at h3
  have h1' : ({ s with blk := upd s.blk s.next (some ⟨m.alloc, n, none⟩), next := s.next + 1 } :
      St V).wr w = some W := h1
  refine ⟨_, _, rfl, modW_eq h1' _, ?_, .of_upd⟩
  have hnone : ∀ v U b, s.wr v = some U → U.self = .heap b → C v ≠ none → b < s.next := by
    intro v U b hv hb hC
    obtain ⟨mv, hmv⟩ := Option.ne_none_iff_exists'.1 hC
    obtain ⟨U', hU, hk⟩ := hc.live v mv hmv
    rw [hv] at hU; cases hU
    have := hk.cell
    unfold CellOk at this
    split at this
    · rw [hb] at this; exact absurd this.1 (by simp)
    · rw [hb] at this; exact absurd this.1 (by simp)
    · rcases this with ⟨_, h6, _⟩ | ⟨_, _, b', h6, h7⟩
      · rw [hb] at h6; cases h6
      · rw [hb] at h6; cases h6; exact hc.fresh _ _ h7
  have hlt : ∀ v U b, s.wr v = some U → U.self = .heap b → b < s.next := by
    intro v U b hv hb
    apply hnone v U b hv hb
    intro hC
    rw [hc.dead v hC] at hv; cases hv
  refine hc.update rfl ⟨h2.alloc, h2.size, h2.vt, .inr ⟨hn, h3.2, s.next, rfl, ?_⟩⟩ ?_ ?_ ?_ ?_
  · simp [h2.alloc]
  · intro v U b _ hv hb
    have := hlt v U b hv hb
    simp only
    rw [upd_ne _ _ (by omega)]
  · intro b B hb
    by_cases hbn : b = s.next
    · subst hbn; exact Nat.lt_succ_self _
    · simp only at hb
      rw [upd_ne _ _ hbn] at hb
      exact Nat.lt_succ_of_lt (hc.fresh b B hb)
  · intro b B hb
    by_cases hbn : b = s.next
    · subst hbn; exact .inl rfl
    · simp only at hb
      rw [upd_ne _ _ hbn] at hb
      obtain ⟨v, U, h4, h5⟩ := hc.owner b B hb
      right
      refine ⟨v, U, ?_, h4, h5⟩
      rintro rfl
      rw [h1] at h4; cases h4
      rw [h3.1] at h5; cases h5
  · intro b hb v U _ hv hU
    simp only [Ptr.heap.injEq] at hb
    have := hlt v U b hv hU
    omega

/-- `allocator.deallocate(self, n); self = nullptr`. -/
theorem mfree_ok {s : St V} {C : Nat → Option (Mid V)} (hc : Cells cfg s C) {w : Nat} {m : Mid V}
    (h : C w = some m) {n : Nat} (hn : cfg.sbs < n) (hcell : m.cell = .store n none) :
    ∃ W s₁ s', s.wr w = some W ∧ (mfree m.alloc W.self n).run s = .ok () s₁ ∧
      (modW w (fun W => { W with self := .null })).run s₁ = .ok () s' ∧
      Cells cfg s' (upd C w (some { m with cell := .empty })) ∧ Fr w s s' := by
  obtain ⟨W, h1, h2⟩ := hc.live w m h
  have h3 := h2.cell
  rw [hcell] at h3
  rcases h3 with ⟨h3, _⟩ | ⟨_, h4, b, h5, h6⟩
  · omega
  · have h1' : ({ s with blk := upd s.blk b none } : St V).wr w = some W := h1
    refine ⟨W, { s with blk := upd s.blk b none }, _, h1, ?_, modW_eq h1' _, ?_, .of_upd⟩
    · simp only [mfree, h5, h6, h2.alloc]
      simp
    · refine hc.update rfl ⟨h2.alloc, h2.size, h2.vt, rfl, h4⟩ ?_ ?_ ?_ ?_
      · intro v U b' hv hU hs
        have : b' ≠ b := by
          rintro rfl
          exact hv (hc.unique v w U W b' hU h1 hs h5)
        simp only
        rw [upd_ne _ _ this]
      · intro b' B hb
        by_cases hbb : b' = b
        · subst hbb; simp at hb
        · simp only at hb
          rw [upd_ne _ _ hbb] at hb
          exact hc.fresh b' B hb
      · intro b' B hb
        by_cases hbb : b' = b
        · subst hbb; simp at hb
        · simp only at hb
          rw [upd_ne _ _ hbb] at hb
          obtain ⟨v, U, h7, h8⟩ := hc.owner b' B hb
          right
          refine ⟨v, U, ?_, h7, h8⟩
          rintro rfl
          rw [h1] at h7; cases h7
          rw [h5] at h8; cases h8; exact hbb rfl
      · intro b' hb; cases hb

/-! ## Objects in owned storage -/

/-- Changing what lives in the storage of `w`. -/
theorem setSlot_ok {s : St V} {C : Nat → Option (Mid V)} (hc : Cells cfg s C) {w : Nat} {m : Mid V}
    (h : C w = some m) {n : Nat} {o : Option (Obj V)} (hcell : m.cell = .store n o)
    (o' : Option (Obj V)) {W : Wrapper V} (hW : s.wr w = some W) :
    (∃ cap, n ≤ cap ∧ s.slot cfg W.self = some (cap, o)) ∧ s.objAt W.self = o ∧
    Cells cfg (s.setSlot W.self o') (upd C w (some { m with cell := .store n o' })) ∧
    (s.setSlot W.self o').ext = s.ext ∧
    (∃ W', (s.setSlot W.self o').wr w = some W' ∧ W'.self = W.self) ∧
    (∀ v, v ≠ w → (s.setSlot W.self o').wr v = s.wr v) := by
  obtain ⟨W₂, h1, h2⟩ := hc.live w m h
  rw [hW] at h1; cases h1
  have h3 := h2.cell
  rw [hcell] at h3
  rcases h3 with ⟨h3, h4, h5⟩ | ⟨h3, h4, b, h5, h6⟩
  · rw [h4]
    refine ⟨⟨cfg.sbs, h3, by simp [St.slot, hW, h5]⟩, by simp [St.objAt, hW, h5], ?_, rfl, ?_, ?_⟩
    · have : s.setSlot (.small w) o' = { s with wr := upd s.wr w (some { W with buf := o' }) } := by
        simp [St.setSlot, hW]
      rw [this]
      exact hc.update_wr hW (fun b => Iff.rfl) ⟨h2.alloc, h2.size, h2.vt, .inl ⟨h3, h4, rfl⟩⟩
    · exact ⟨{ W with buf := o' }, by simp [St.setSlot, hW], h4⟩
    · intro v hv; simp [St.setSlot, upd_ne _ _ hv]
  · rw [h5]
    refine ⟨⟨n, Nat.le_refl _, by simp [St.slot, h6]⟩, by simp [St.objAt, h6], ?_, rfl, ?_, ?_⟩
    · have hs : (s.setSlot (.heap b) o') = { s with blk := upd s.blk b (some ⟨W.alloc, n, o'⟩) } := by
        simp [St.setSlot, h6]
      rw [hs]
      have hwr : s.wr = upd s.wr w (some W) := by
        funext v
        by_cases hv : v = w
        · subst hv; simp [hW]
        · rw [upd_ne _ _ hv]
      refine hc.update (W' := W) hwr ⟨h2.alloc, h2.size, h2.vt,
        .inr ⟨h3, h4, b, h5, by simp⟩⟩ ?_ ?_ ?_ ?_
      · intro v U b' hv hU hs'
        have : b' ≠ b := by
          rintro rfl
          exact hv (hc.unique v w U W b' hU hW hs' h5)
        simp only
        rw [upd_ne _ _ this]
      · intro b' B hb
        by_cases hbb : b' = b
        · subst hbb; exact hc.fresh b' _ h6
        · simp only at hb
          rw [upd_ne _ _ hbb] at hb
          exact hc.fresh b' B hb
      · intro b' B hb
        by_cases hbb : b' = b
        · subst hbb; exact .inl h5
        · simp only at hb
          rw [upd_ne _ _ hbb] at hb
          obtain ⟨v, U, h7, h8⟩ := hc.owner b' B hb
          right
          refine ⟨v, U, ?_, h7, h8⟩
          rintro rfl
          rw [hW] at h7; cases h7
          rw [h5] at h8; cases h8; exact hbb rfl
      · intro b' hb v U hv hU hs'
        exact hv (hc.unique v w U W b' hU hW hs' hb)
    · exact ⟨W, by simp [St.setSlot, hW], h5⟩
    · intro v hv; rfl

/-- Construct an object in the raw storage of `w`. -/
theorem construct_ok {s : St V} {C : Nat → Option (Mid V)} (hc : Cells cfg s C) {w : Nat} {m : Mid V}
    (h : C w = some m) {o : Obj V} (hcell : m.cell = .store (cfg.sizeOf o.ty) none) {W : Wrapper V}
    (hW : s.wr w = some W) :
    ∃ s', (construct cfg W.self o).run s = .ok () s' ∧
      Cells cfg s' (upd C w (some { m with cell := .store (cfg.sizeOf o.ty) (some o) })) ∧
      Fr w s s' ∧ ∃ W', s'.wr w = some W' ∧ W'.self = W.self := by
  obtain ⟨⟨cap, h1, h2⟩, _, h3, h4, h5, h6⟩ := setSlot_ok hc h hcell (some o) hW
  exact ⟨_, by simp [construct, h2, h1], h3, ⟨h4, h6⟩, h5⟩

/-- Destroy the object in the storage of `w`. -/
theorem destroy_ok {s : St V} {C : Nat → Option (Mid V)} (hc : Cells cfg s C) {w : Nat} {m : Mid V}
    (h : C w = some m) {n : Nat} {o : Obj V} (hcell : m.cell = .store n (some o)) {W : Wrapper V}
    (hW : s.wr w = some W) :
    ∃ s', (destroyAt cfg W.self o.ty).run s = .ok () s' ∧
      Cells cfg s' (upd C w (some { m with cell := .store n none })) ∧
      Fr w s s' ∧ ∃ W', s'.wr w = some W' ∧ W'.self = W.self := by
  obtain ⟨⟨cap, h1, h2⟩, _, h3, h4, h5, h6⟩ := setSlot_ok hc h hcell none hW
  exact ⟨_, by simp [destroyAt, h2], h3, ⟨h4, h6⟩, h5⟩

/-- Read the object in the storage of `w`. -/
theorem read_ok {s : St V} {C : Nat → Option (Mid V)} (hc : Cells cfg s C) {w : Nat} {m : Mid V}
    (h : C w = some m) {n : Nat} {o : Obj V} (hcell : m.cell = .store n (some o)) {W : Wrapper V}
    (hW : s.wr w = some W) : (readAs W.self o.ty).run s = .ok o.val s := by
  obtain ⟨_, h2, _⟩ := setSlot_ok hc h hcell none hW
  simp [readAs, h2]

/-! ## Moving the pointer to another wrapper -/

theorem upd_upd {α : Type} (f : Nat → α) (i : Nat) (v v' : α) : upd (upd f i v) i v' = upd f i v' := by
  funext k; by_cases h : k = i <;> simp [upd, h]

theorem upd_comm {α : Type} (f : Nat → α) {i j : Nat} (h : i ≠ j) (v v' : α) :
    upd (upd f i v) j v' = upd (upd f j v') i v := by
  funext k
  by_cases h1 : k = i
  · subst h1; simp [upd, h]
  · by_cases h2 : k = j
    · subst h2; simp [upd, h1]
    · simp [upd, h1, h2]

theorem steal_ok {s : St V} {C : Nat → Option (Mid V)} (hc : Cells cfg s C) {w src : Nat}
    {m o : Mid V} (hne : src ≠ w) (hm : C w = some m) (ho : C src = some o) (hcell : m.cell = .empty)
    (hocell : o.cell = .empty ∨ (∃ e, o.cell = .ref e) ∨
      (∃ n x, cfg.sbs < n ∧ o.cell = .store n x) ∧ m.alloc = o.alloc) :
    ∃ s', (stealSelf w src).run s = .ok () s' ∧
      Cells cfg s' (upd (upd C w (some { m with cell := o.cell })) src
        (some { o with cell := .empty })) ∧ s'.ext = s.ext := by
  obtain ⟨W, hW, hmW⟩ := hc.live w m hm
  obtain ⟨O, hO, hoO⟩ := hc.live src o ho
  have hw := hmW.cell
  rw [hcell] at hw
  have ho3 := hoO.cell
  have hbuf : O.buf = none := by
    rcases hocell with he | ⟨e, he⟩ | ⟨⟨n, x, hn, he⟩, _⟩
    · rw [he] at ho3; exact ho3.2
    · rw [he] at ho3; exact ho3.2
    · rw [he] at ho3
      rcases ho3 with ⟨h, _⟩ | ⟨_, h, _⟩
      · omega
      · exact h
  have hwr1 : upd s.wr src (some { O with self := Ptr.null }) w = some W := by
    rw [upd_ne _ _ (Ne.symm hne)]; exact hW
  refine ⟨{ s with wr := (upd (upd s.wr src (some { O with self := .null })) w
    (some { W with self := O.self })) }, ?_, ?_, rfl⟩
  · unfold stealSelf
    rw [bind_ok (show (getW src).run s = .ok O s by simp [getW, hO])]
    rw [bind_ok (modW_eq hO _)]
    exact modW_eq hwr1 _
  · -- the resulting state
    have hnotsmall : ∀ v, O.self ≠ .small v ∨ v = src := by
      intro v
      left
      rcases hocell with he | ⟨e, he⟩ | ⟨⟨n, x, hn, he⟩, _⟩
      · rw [he] at ho3; rw [ho3.1]; simp
      · rw [he] at ho3; rw [ho3.1]; simp
      · rw [he] at ho3
        rcases ho3 with ⟨h, _⟩ | ⟨_, _, b, h, _⟩
        · omega
        · rw [h]; simp
    have look : ∀ v, upd (upd s.wr src (some { O with self := Ptr.null })) w
        (some { W with self := O.self }) v =
        if v = w then some { W with self := O.self }
        else if v = src then some { O with self := Ptr.null } else s.wr v := by
      intro v; simp only [upd]
    have lookC : ∀ v, upd (upd C w (some { m with cell := o.cell })) src
        (some { o with cell := Cell.empty }) v =
        if v = src then some { o with cell := Cell.empty }
        else if v = w then some { m with cell := o.cell } else C v := by
      intro v; simp only [upd]
    refine ⟨?_, ?_, hc.fresh, ?_, ?_⟩
    · intro v hv
      rw [lookC] at hv
      simp only
      rw [look]
      by_cases h1 : v = src
      · rw [if_pos h1] at hv; cases hv
      · by_cases h2 : v = w
        · rw [if_neg h1, if_pos h2] at hv; cases hv
        · rw [if_neg h1, if_neg h2] at hv
          rw [if_neg h2, if_neg h1]
          exact hc.dead v hv
    · intro v mv hv
      rw [lookC] at hv
      simp only
      rw [look]
      by_cases h1 : v = src
      · rw [if_pos h1] at hv; cases hv
        have h2 : v ≠ w := by rw [h1]; exact hne
        rw [if_neg h2, if_pos h1]
        exact ⟨_, rfl, hoO.alloc, hoO.size, hoO.vt, rfl, hbuf⟩
      · by_cases h2 : v = w
        · rw [if_neg h1, if_pos h2] at hv; cases hv
          rw [if_pos h2]
          refine ⟨_, rfl, hmW.alloc, hmW.size, hmW.vt, ?_⟩
          rcases hocell with he | ⟨e, he⟩ | ⟨⟨n, x, hn, he⟩, hal⟩
          · rw [he] at ho3; simp only [he]; exact ⟨ho3.1, hw.2⟩
          · rw [he] at ho3; simp only [he]; exact ⟨ho3.1, hw.2⟩
          · rw [he] at ho3; simp only [he]
            rcases ho3 with ⟨h, _⟩ | ⟨_, _, b, h4, h5⟩
            · omega
            · exact .inr ⟨hn, hw.2, b, h4, by
                rw [hmW.alloc, hal, ← hoO.alloc]; exact h5⟩
        · rw [if_neg h1, if_neg h2] at hv
          rw [if_neg h2, if_neg h1]
          obtain ⟨U, hU, hk⟩ := hc.live v mv hv
          exact ⟨U, hU, hk.alloc, hk.size, hk.vt, hk.cell⟩
    · intro b B hb
      obtain ⟨v, U, hv, hU⟩ := hc.owner b B hb
      simp only [look]
      by_cases h1 : v = src
      · subst h1
        rw [hO] at hv; cases hv
        exact ⟨w, _, if_pos rfl, hU⟩
      · have h2 : v ≠ w := by
          rintro rfl
          rw [hW] at hv; cases hv
          rw [hw.1] at hU; cases hU
        exact ⟨v, U, by rw [if_neg h2, if_neg h1]; exact hv, hU⟩
    · intro v v' U U' b h1 h2 h3 h4
      simp only [look] at h1 h2
      have key : ∀ v U, (if v = w then some { W with self := O.self }
          else if v = src then some { O with self := Ptr.null } else s.wr v) = some U →
          U.self = .heap b → (v = w ∧ O.self = .heap b) ∨ (v ≠ w ∧ v ≠ src ∧ s.wr v = some U) := by
        intro v U h h'
        by_cases h1 : v = w
        · rw [if_pos h1] at h; cases h; exact .inl ⟨h1, h'⟩
        · by_cases h2 : v = src
          · rw [if_neg h1, if_pos h2] at h; cases h; cases h'
          · rw [if_neg h1, if_neg h2] at h; exact .inr ⟨h1, h2, h⟩
      rcases key v U h1 h3 with ⟨e1, k1⟩ | ⟨e1, e2, k1⟩ <;>
        rcases key v' U' h2 h4 with ⟨e3, k3⟩ | ⟨e3, e4, k3⟩
      · rw [e1, e3]
      · exact absurd (hc.unique v' src U' O b k3 hO h4 k1) e4
      · exact absurd (hc.unique v src U O b k1 hO h3 k3) e2
      · exact hc.unique v v' U U' b k1 k3 h3 h4

/-! ## Beginning and end of wrappers -/

theorem newW_ok {s : St V} {C : Nat → Option (Mid V)} (hc : Cells cfg s C) {w : Nat}
    (h : C w = none) (a : Nat) (vt : VTable) :
    ∃ s', (newW w a vt).run s = .ok () s' ∧
      Cells cfg s' (upd C w (some ⟨a, invalidSize, vt, .empty⟩)) ∧ Fr w s s' := by
  have h1 := hc.dead w h
  refine ⟨_, newW_eq h1 a vt, ?_, .of_upd⟩
  refine hc.update rfl ⟨rfl, rfl, rfl, rfl, rfl⟩ (fun _ _ _ _ _ _ => rfl) hc.fresh ?_ ?_
  · intro b B hb
    obtain ⟨v, U, h2, h3⟩ := hc.owner b B hb
    right
    refine ⟨v, U, ?_, h2, h3⟩
    rintro rfl
    rw [h1] at h2; cases h2
  · intro b hb; cases hb

theorem endW_ok {s : St V} {C : Nat → Option (Mid V)} (hc : Cells cfg s C) {w : Nat} {m : Mid V}
    (h : C w = some m) (hcell : m.cell = .empty) :
    ∃ s', (endW w).run s = .ok () s' ∧ Cells cfg s' (upd C w none) ∧ Fr w s s' := by
  obtain ⟨W, h1, h2⟩ := hc.live w m h
  have h3 := h2.cell
  rw [hcell] at h3
  refine ⟨{ s with wr := upd s.wr w none }, by simp [endW, h1, h3.2], ?_, .of_upd⟩
  refine ⟨?_, ?_, hc.fresh, ?_, ?_⟩
  · intro v hv
    by_cases hvw : v = w
    · subst hvw; simp
    · simp only
      rw [upd_ne _ _ hvw] at hv ⊢
      exact hc.dead v hv
  · intro v mv hv
    by_cases hvw : v = w
    · subst hvw; simp at hv
    · simp only
      rw [upd_ne _ _ hvw] at hv ⊢
      obtain ⟨U, hU, hk⟩ := hc.live v mv hv
      exact ⟨U, hU, hk.alloc, hk.size, hk.vt, hk.cell⟩
  · intro b B hb
    obtain ⟨v, U, h4, h5⟩ := hc.owner b B hb
    refine ⟨v, U, ?_, h5⟩
    have : v ≠ w := by
      rintro rfl
      rw [h1] at h4; cases h4
      rw [h3.1] at h5; cases h5
    simp only
    rw [upd_ne _ _ this]
    exact h4
  · intro v v' U U' b k1 k2 k3 k4
    have e1 : v ≠ w := by rintro rfl; simp at k1
    have e2 : v' ≠ w := by rintro rfl; simp at k2
    simp only at k1 k2
    rw [upd_ne _ _ e1] at k1
    rw [upd_ne _ _ e2] at k2
    exact hc.unique v v' U U' b k1 k2 k3 k4

end Guanaqo.TypeErased
