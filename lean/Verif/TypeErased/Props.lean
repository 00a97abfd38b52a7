import Verif.TypeErased.Refine2

/-!
# Properties of histories of wrappers (C51 to C56)
-/

namespace Guanaqo.TypeErased

variable {V : Type} {cfg : Cfg}

/-- No wrapper, no block: only the objects outside. -/
def St.init (ext : Nat → Obj V) : St V := ⟨fun _ => none, fun _ => none, 0, ext⟩

/-- Run a program of operations (exceptions are caught after each): what the operations returned or
threw, and the final state, or the fault that ended the program. -/
def exec (cfg : Cfg) : List (Op V) → St V → List (Except Exn (Obs V)) × (Fault ⊕ St V)
  | [], s => ([], .inr s)
  | op :: ops, s =>
    match (step cfg op).run s with
    | .ok o s' => (.ok o :: (exec cfg ops s').1, (exec cfg ops s').2)
    | .thrown e s' => (.error e :: (exec cfg ops s').1, (exec cfg ops s').2)
    | .fault f => ([], .inl f)

theorem init_rep (ext : Nat → Obj V) : Rep cfg (St.init ext) (World.init ext) := by
  refine ⟨fun _ => none, ⟨fun _ _ => rfl, ?_, ?_, ?_, ?_⟩, ⟨fun _ _ => rfl, ?_⟩, rfl⟩
  · intro w m h; cases h
  · intro b B h; cases h
  · intro b B h; cases h
  · intro w w' W W' b h; cases h
  · intro w sl h; cases h

/-- What the program ends in. -/
def Ends (cfg : Cfg) (r : Option (World V)) (x : Fault ⊕ St V) : Prop :=
  match r, x with
  | some a, .inr s => Rep cfg s a
  | none, .inl f => f = .terminate
  | _, _ => False

theorem exec_run (ok : cfg.Ok) {a : World V} {ops : List (Op V)} {os : List (Except Exn (Obs V))}
    {r : Option (World V)} (h : Run cfg a ops os r) :
    ∀ s, Rep cfg s a → (exec cfg ops s).1 = os ∧ Ends cfg r (exec cfg ops s).2 := by
  induction h with
  | nil a => intro s hs; exact ⟨rfl, hs⟩
  | done h t ih =>
    intro s hs
    obtain ⟨s', h1, h2⟩ := step_sim ok hs _ h
    obtain ⟨h3, h4⟩ := ih s' h2
    unfold exec
    rw [h1]
    exact ⟨by simp [h3], h4⟩
  | threw h t ih =>
    intro s hs
    obtain ⟨s', h1, h2⟩ := step_sim ok hs _ h
    obtain ⟨h3, h4⟩ := ih s' h2
    unfold exec
    rw [h1]
    exact ⟨by simp [h3], h4⟩
  | terminated h =>
    intro s hs
    have h1 : (step cfg _).run s = .fault .terminate := step_sim ok hs _ h
    unfold exec
    rw [h1]
    exact ⟨rfl, rfl⟩

/-- C55. Value semantics: every program of allowed operations returns and throws exactly what the
specification says, where a wrapper is a variable that holds nothing, a value, or a reference: a copy
is an equal value of its own, a move takes the value and leaves the source empty, and copies of a
reference refer to the same object. -/
theorem value_semantics (ok : cfg.Ok) (ext : Nat → Obj V) {ops : List (Op V)}
    {os : List (Except Exn (Obs V))} {r : Option (World V)} (h : Run cfg (World.init ext) ops os r) :
    (exec cfg ops (St.init ext)).1 = os := (exec_run ok h _ (init_rep ext)).1

theorem run_end (ok : cfg.Ok) {ext : Nat → Obj V} {ops : List (Op V)}
    {os : List (Except Exn (Obs V))} {a : World V} (h : Run cfg (World.init ext) ops os (some a)) :
    ∃ s, exec cfg ops (St.init ext) = (os, .inr s) ∧ Rep cfg s a := by
  obtain ⟨h1, h2⟩ := exec_run ok h _ (init_rep ext)
  generalize exec cfg ops (St.init ext) = x at h1 h2
  obtain ⟨x1, x2⟩ := x
  cases x2 with
  | inl f => exact absurd h2 (by simp [Ends])
  | inr s => exact ⟨s, by simp at h1; rw [h1], h2⟩

/-- An allowed program never has undefined behaviour and never fails an assertion; it ends the program
only where the specification says so (a move that needs memory and gets none). -/
theorem no_undefined (ok : cfg.Ok) (ext : Nat → Obj V) {ops : List (Op V)}
    {os : List (Except Exn (Obs V))} {r : Option (World V)} (h : Run cfg (World.init ext) ops os r)
    (f : Fault) (hf : (exec cfg ops (St.init ext)).2 = .inl f) : f = .terminate ∧ r = none := by
  have h2 := (exec_run ok h _ (init_rep ext)).2
  rw [hf] at h2
  cases r with
  | none => exact ⟨h2, rfl⟩
  | some a => exact absurd h2 (by simp [Ends])

/-! ## Storage -/

/-- The wrapper `w` of the world owns a value of type `t`. -/
def World.Owns (a : World V) (w al t : Nat) (v : V) : Prop := ∃ own, a.wr w = some ⟨al, .owned t v own⟩

theorem rep_block {s : St V} {a : World V} (h : Rep cfg s a) {b : Nat} {B : Block V}
    (hb : s.blk b = some B) : ∃ w W t v, s.wr w = some W ∧ W.self = .heap b ∧ a.Owns w B.alloc t v ∧
      B.size = cfg.sizeOf t ∧ cfg.NeedsHeap t ∧ B.obj = some ⟨t, v⟩ := by
  obtain ⟨C, hc, ha, _⟩ := h
  obtain ⟨w, W, hw, hself⟩ := hc.owner b B hb
  cases haw : a.wr w with
  | none => have := hc.dead w (ha.dead w haw); rw [this] at hw; cases hw
  | some sl =>
    obtain ⟨m, hm, hal, hheld⟩ := ha.live w sl haw
    obtain ⟨W', hW', hmW⟩ := hc.live w m hm
    rw [hw] at hW'; cases hW'
    obtain ⟨al, held⟩ := sl
    have hcell := hmW.cell
    cases held with
    | empty => rw [show m.cell = .empty from hheld] at hcell; rw [hcell.1] at hself; cases hself
    | ref e c => rw [hheld.1] at hcell; rw [hcell.1] at hself; cases hself
    | owned t v =>
      rw [hheld.1] at hcell
      rcases hcell with ⟨_, h2, _⟩ | ⟨h1, _, b', h3, h4⟩
      · rw [h2] at hself; cases hself
      · rw [h3] at hself; cases hself
        rw [h4] at hb; cases hb
        refine ⟨w, W, t, v, hw, h3, ?_, rfl, h1, rfl⟩
        exact ⟨_, by rw [haw, hmW.alloc, hal]⟩

theorem rep_owned {s : St V} {a : World V} (h : Rep cfg s a) {w al t : Nat} {v : V}
    (ho : a.Owns w al t v) : ∃ W, s.wr w = some W ∧
      ((¬ cfg.NeedsHeap t ∧ W.self = .small w ∧ W.buf = some ⟨t, v⟩) ∨
       (cfg.NeedsHeap t ∧ W.buf = none ∧ ∃ b, W.self = .heap b ∧
        s.blk b = some ⟨al, cfg.sizeOf t, some ⟨t, v⟩⟩)) := by
  obtain ⟨C, hc, ha, _⟩ := h
  obtain ⟨_, ho⟩ := ho
  obtain ⟨m, hm, hal, hheld⟩ := ha.live w _ ho
  obtain ⟨W, hW, hmW⟩ := hc.live w m hm
  have hcell := hmW.cell
  rw [hheld.1] at hcell
  refine ⟨W, hW, ?_⟩
  rcases hcell with ⟨h1, h2, h3⟩ | ⟨h1, h2, b, h3, h4⟩
  · exact .inl ⟨by simpa [Cfg.NeedsHeap] using h1, h2, h3⟩
  · refine .inr ⟨h1, h2, b, h3, ?_⟩
    rw [h4, hmW.alloc, hal]

/-- C51. Over every allowed program (any allocators, any exceptions), no block is ever returned twice,
with a wrong size or to an unequal allocator (that would be a fault, see `mfree`), and at the end
every block that is still allocated belongs to exactly one wrapper, which owns a value of that size and
has an equal allocator; every value that does not fit the small buffer has such a block. -/
theorem no_leak (ok : cfg.Ok) (ext : Nat → Obj V) {ops : List (Op V)}
    {os : List (Except Exn (Obs V))} {a : World V}
    (h : Run cfg (World.init ext) ops os (some a)) :
    ∃ s, exec cfg ops (St.init ext) = (os, .inr s) ∧
      ∃ owner : Nat → Nat,
        (∀ b B, s.blk b = some B → ∃ t v, a.Owns (owner b) B.alloc t v ∧ cfg.NeedsHeap t ∧
          B.size = cfg.sizeOf t) ∧
        (∀ b b' B B', s.blk b = some B → s.blk b' = some B' → owner b = owner b' → b = b') ∧
        (∀ w al t v, a.Owns w al t v → cfg.NeedsHeap t → ∃ b B, s.blk b = some B ∧ owner b = w ∧
          B.size = cfg.sizeOf t ∧ B.alloc = al) := by
  obtain ⟨s, he, hr⟩ := run_end ok h
  refine ⟨s, he, ?_⟩
  have hch : ∀ b, ∃ w, ∀ B, s.blk b = some B → ∃ W t v, s.wr w = some W ∧ W.self = .heap b ∧
      a.Owns w B.alloc t v ∧ B.size = cfg.sizeOf t ∧ cfg.NeedsHeap t := by
    intro b
    cases hb : s.blk b with
    | none => exact ⟨0, fun B hB => by cases hB⟩
    | some B =>
      obtain ⟨w, W, t, v, h1, h2, h3, h4, h5, _⟩ := rep_block hr hb
      exact ⟨w, fun B' hB => by cases hB; exact ⟨W, t, v, h1, h2, h3, h4, h5⟩⟩
  obtain ⟨owner, howner⟩ := Classical.axiomOfChoice hch
  refine ⟨owner, ?_, ?_, ?_⟩
  · intro b B hb
    obtain ⟨W, t, v, _, _, h3, h4, h5⟩ := howner b B hb
    exact ⟨t, v, h3, h5, h4⟩
  · intro b b' B B' hb hb' hoo
    obtain ⟨W, _, _, h1, h2, _⟩ := howner b B hb
    obtain ⟨W', _, _, h1', h2', _⟩ := howner b' B' hb'
    rw [hoo, h1'] at h1; cases h1
    rw [h2'] at h2; cases h2; rfl
  · intro w al t v ho hn
    obtain ⟨W, hW, hcase⟩ := rep_owned hr ho
    rcases hcase with ⟨h1, _⟩ | ⟨_, _, b, h2, h3⟩
    · exact absurd hn h1
    · refine ⟨b, _, h3, ?_, rfl, rfl⟩
      obtain ⟨W', _, _, h1', h2', _⟩ := howner b _ h3
      obtain ⟨C, hc, _⟩ := hr
      exact hc.unique _ _ _ _ b h1' hW h2' h2

/-- C51, at the end: once all wrappers are gone, all blocks have been returned. -/
theorem all_returned (ok : cfg.Ok) (ext : Nat → Obj V) {ops : List (Op V)}
    {os : List (Except Exn (Obs V))} {a : World V} (h : Run cfg (World.init ext) ops os (some a))
    (hdead : ∀ w, a.wr w = none) :
    ∃ s, exec cfg ops (St.init ext) = (os, .inr s) ∧ (∀ w, s.wr w = none) ∧ ∀ b, s.blk b = none := by
  obtain ⟨s, he, hr⟩ := run_end ok h
  refine ⟨s, he, ?_, ?_⟩
  · intro w
    obtain ⟨C, hc, ha, _⟩ := hr
    exact hc.dead w (ha.dead w (hdead w))
  · intro b
    cases hb : s.blk b with
    | none => rfl
    | some B =>
      obtain ⟨w, W, t, v, _, _, h3, _⟩ := rep_block hr hb
      obtain ⟨_, h3⟩ := h3; rw [hdead w] at h3; cases h3

/-- C52. Over every allowed program, no object is destroyed twice, as another type, or used when it does
not exist, and no object is lost (these would be faults, see `destroyAt`, `construct`, `readAs`,
`mfree`, `endW`); at the end the objects that are alive in small buffers and blocks are exactly the
values owned by the wrappers. -/
theorem objects_destroyed_once (ok : cfg.Ok) (ext : Nat → Obj V) {ops : List (Op V)}
    {os : List (Except Exn (Obs V))} {a : World V} (h : Run cfg (World.init ext) ops os (some a)) :
    ∃ s, exec cfg ops (St.init ext) = (os, .inr s) ∧
      (∀ w W o, s.wr w = some W → W.buf = some o → ∃ al, a.Owns w al o.ty o.val ∧
        W.self = .small w) ∧
      (∀ b B, s.blk b = some B → ∃ o w W, B.obj = some o ∧ s.wr w = some W ∧ W.self = .heap b ∧
        a.Owns w B.alloc o.ty o.val) ∧
      (∀ w al t v, a.Owns w al t v → ∃ W, s.wr w = some W ∧ s.objAt W.self = some ⟨t, v⟩) := by
  obtain ⟨s, he, hr⟩ := run_end ok h
  refine ⟨s, he, ?_, ?_, ?_⟩
  · intro w W o hW hbuf
    obtain ⟨C, hc, ha, _⟩ := hr
    cases haw : a.wr w with
    | none => have := hc.dead w (ha.dead w haw); rw [this] at hW; cases hW
    | some sl =>
      obtain ⟨m, hm, hal, hheld⟩ := ha.live w sl haw
      obtain ⟨W', hW', hmW⟩ := hc.live w m hm
      rw [hW] at hW'; cases hW'
      obtain ⟨al, held⟩ := sl
      have hcell := hmW.cell
      cases held with
      | empty => rw [show m.cell = .empty from hheld] at hcell; rw [hcell.2] at hbuf; cases hbuf
      | ref e c => rw [hheld.1] at hcell; rw [hcell.2] at hbuf; cases hbuf
      | owned t v =>
        rw [hheld.1] at hcell
        rcases hcell with ⟨_, h2, h3⟩ | ⟨_, h2, _⟩
        · rw [h3] at hbuf; cases hbuf
          exact ⟨al, ⟨_, haw⟩, h2⟩
        · rw [h2] at hbuf; cases hbuf
  · intro b B hb
    obtain ⟨w, W, t, v, h1, h2, h3, _, _, h4⟩ := rep_block hr hb
    exact ⟨⟨t, v⟩, w, W, h4, h1, h2, h3⟩
  · intro w al t v ho
    obtain ⟨W, hW, hcase⟩ := rep_owned hr ho
    refine ⟨W, hW, ?_⟩
    rcases hcase with ⟨_, h2, h3⟩ | ⟨_, _, b, h2, h3⟩
    · rw [h2]; simp [St.objAt, hW, h3]
    · rw [h2]; simp [St.objAt, h3]

/-! ## Typed access -/

/-- type-erasure.hpp:489-492, `type()`. -/
def typeOf (w : Nat) : M V (Option Nat) := do
  let W ← getW w
  pure W.vt.ty

/-- type-erasure.hpp:475-477, `owns_referenced_object`. -/
def ownsReferenced (w : Nat) : M V Bool := do
  let W ← getW w
  pure (sizeIndicatesOwnership W.size)

/-- type-erasure.hpp:480-482, `referenced_object_is_const`. -/
def referencedConst (w : Nat) : M V Bool := do
  let W ← getW w
  pure (sizeIndicatesConst W.size)

theorem held_obj (ok : cfg.Ok) {s : St V} {a : World V} (hr : Rep cfg s a) {w : Nat} {d : Slot V}
    (hw : a.wr w = some d) {t : Nat} (ht : a.heldType d.held = some t) :
    ∃ W v k, s.wr w = some W ∧ W.self ≠ .null ∧ a.heldVal d.held = some v ∧
      s.objAt W.self = some ⟨t, v⟩ ∧ W.vt = .of t k d.held.own ∧ sizeIndicatesConst W.size = k ∧
      (k = true ↔ ∃ e o, d.held = .ref e true o) := by
  obtain ⟨C, hc, ha, hx⟩ := hr
  obtain ⟨W, v, gW, hW, hnn, hv, hread, k, hvt, hk, hk1, hk2⟩ := held_access ok hc ha hx hw ht
  refine ⟨W, v, k, hW, hnn, hv, ?_, hvt, hk, hk1, ?_⟩
  · simp only [readAs] at hread
    cases ho : s.objAt W.self with
    | none => rw [ho] at hread; cases hread
    | some o =>
      rw [ho] at hread
      dsimp only at hread
      split at hread
      · rename_i hty
        obtain ⟨ty, val⟩ := o
        simp only [Out.ok.injEq, and_true] at hread
        simp only at hty
        rw [hty, hread]
      · cases hread
  · rintro ⟨e, o, he⟩
    obtain ⟨m, hm, _, hheld⟩ := ha.live w d hw
    obtain ⟨W', hW', hmW⟩ := hc.live w m hm
    rw [hW] at hW'; cases hW'
    rw [he] at hheld
    rw [← hk, hmW.size, hheld.2.1]; decide

/-- C53. After every allowed program, for a wrapper that holds something: `type()` is the type of the
contained object, and `as<T>()` gives a reference to that object if `T` is that type (and, for non-const
`T`, it is not held by const reference), and throws `bad_type_erased_type` for every other `T`. Nothing
else changes. -/
theorem typed_access (ok : cfg.Ok) (ext : Nat → Obj V) {ops : List (Op V)}
    {os : List (Except Exn (Obs V))} {a : World V} (h : Run cfg (World.init ext) ops os (some a))
    {w al : Nat} {c : Content V} (hw : a.wr w = some ⟨al, c⟩) {t' : Nat}
    (ht : a.heldType c = some t') :
    ∃ s, exec cfg ops (St.init ext) = (os, .inr s) ∧
      (typeOf w).run s = .ok (some t') s ∧
      (∀ t, t ≠ t' → (asMut w t).run s = .thrown .badTypeErasedType s ∧
        (asConst w t).run s = .thrown .badTypeErasedType s) ∧
      (∃ p v, a.heldVal c = some v ∧ s.objAt p = some ⟨t', v⟩ ∧
        (asConst w t').run s = .ok p s ∧ (getConstPointer w).run s = .ok p s ∧
        ((∀ e o, c ≠ .ref e true o) → (asMut w t').run s = .ok p s ∧
          (getPointer w).run s = .ok p s) ∧
        (∀ e o, c = .ref e true o → (asMut w t').run s = .thrown .badTypeErasedConstness s ∧
          (getPointer w).run s = .thrown .badTypeErasedConstness s)) := by
  obtain ⟨s, he, hr⟩ := run_end ok h
  obtain ⟨W, v, k, hW, hnn, hv, hobj, hvt, hk, hkc⟩ := held_obj ok hr hw ht
  have gW : (getW w).run s = .ok W s := by simp [getW, hW]
  have hvty : W.vt.ty = some t' := by rw [hvt]; rfl
  refine ⟨s, he, ?_, ?_, W.self, v, hv, hobj, ?_, ?_, ?_, ?_⟩
  · unfold typeOf; rw [bind_ok gW, hvty]; rfl
  · intro t hne
    have h1 : W.vt.ty ≠ some t := by rw [hvty]; simpa using Ne.symm hne
    constructor
    · unfold asMut; rw [bind_ok gW, if_pos h1]; rfl
    · unfold asConst; rw [bind_ok gW, if_pos h1]; rfl
  · unfold asConst; rw [bind_ok gW, if_neg (by simp [hvty]), if_neg hnn]; rfl
  · unfold getConstPointer; rw [bind_ok gW]; rfl
  · intro hne
    have h1 : sizeIndicatesConst W.size = false := by
      rw [hk]
      cases k with
      | false => rfl
      | true => obtain ⟨e, o, he⟩ := hkc.1 rfl; exact absurd he (hne e o)
    constructor
    · unfold asMut
      rw [bind_ok gW, if_neg (by simp [hvty]), if_neg (by simp [h1]), if_neg hnn]; rfl
    · unfold getPointer; rw [bind_ok gW, if_neg (by simp [h1])]; rfl
  · intro e o hce
    have h1 : sizeIndicatesConst W.size = true := by rw [hk]; exact hkc.2 ⟨e, o, hce⟩
    constructor
    · unfold asMut
      rw [bind_ok gW, if_neg (by simp [hvty]), if_pos h1]; rfl
    · unfold getPointer; rw [bind_ok gW, if_pos h1]; rfl

/-! ## Constness -/

/-- The operation does not itself take a mutable reference to the object `e`, nor change it. -/
def Op.RespectsConst (e : Nat) : Op V → Prop
  | .ref _ _ e' c _ => e' = e → c = true
  | .outside e' _ => e' ≠ e
  | _ => True

/-- The result leaves the object `e` unchanged, and no wrapper holds a mutable reference to it. -/
def KeepsConst (a : World V) (e : Nat) : Result V → Prop
  | .done _ a' | .threw _ a' =>
    a'.ext e = a.ext e ∧ ∀ w sl, a'.wr w = some sl → ∀ o, sl.held ≠ .ref e false o
  | .terminated => True

theorem spec_const {a : World V} {e : Nat} (hinv : ∀ w sl, a.wr w = some sl → ∀ o, sl.held ≠ .ref e false o)
    {op : Op V} (hop : op.RespectsConst e) {r : Result V} (h : spec cfg a op = some r) :
    KeepsConst a e r := by
  have hset : ∀ (b : World V) (w : Nat) (x : Option (Slot V)), b.ext e = a.ext e →
      (∀ w sl, b.wr w = some sl → ∀ o, sl.held ≠ .ref e false o) →
      (∀ sl, x = some sl → ∀ o, sl.held ≠ .ref e false o) →
      (b.set w x).ext e = a.ext e ∧
        ∀ v sl, (b.set w x).wr v = some sl → ∀ o, sl.held ≠ .ref e false o := by
    intro b w x he hb hx
    refine ⟨he, fun v sl hv => ?_⟩
    by_cases hvw : v = w
    · subst hvw; simp only [World.set, upd_same] at hv; exact hx sl hv
    · simp only [World.set, upd_ne _ _ hvw] at hv; exact hb v sl hv
  have hset1 : ∀ (w al : Nat) (c : Content V), (∀ o, c ≠ .ref e false o) →
      ∀ o, KeepsConst a e (.done o (a.set w (some ⟨al, c⟩))) ∧
        ∀ x, KeepsConst a e (.threw x (a.set w (some ⟨al, c⟩))) := by
    intro w al c hne o
    have := hset a w (some ⟨al, c⟩) rfl hinv (by rintro sl ⟨⟩; exact hne)
    exact ⟨this, fun _ => this⟩
  have hmove : ∀ (w src al al' : Nat) (c : Content V), (∀ o, c ≠ .ref e false o) →
      ∀ o, KeepsConst a e (.done o ((a.set w (some ⟨al, c⟩)).set src (some ⟨al', .empty⟩))) := by
    intro w src al al' c hne o
    have h1 := hset a w (some ⟨al, c⟩) rfl hinv (by rintro sl ⟨⟩; exact hne)
    exact hset _ src (some ⟨al', .empty⟩) h1.1 h1.2 (by rintro sl ⟨⟩; simp)
  have hmod : ∀ (w : Nat) (d : Slot V) (f : V → V), a.wr w = some d →
      KeepsConst a e (a.modifyHeld w d f) := by
    intro w d f hw
    obtain ⟨al, held⟩ := d
    cases held with
    | empty => exact ⟨rfl, hinv⟩
    | owned t v own => exact (hset1 w al (.owned t (f v) own) (by simp) .unit).1
    | ref e' c =>
      cases c with
      | true => exact ⟨rfl, hinv⟩
      | false =>
        have hne : e ≠ e' := by rintro rfl; exact hinv w _ hw _ rfl
        exact ⟨by simp [World.setExt, upd_ne _ _ hne], hinv⟩
  cases op with
  | «default» w al =>
    simp only [spec] at h
    split at h <;> cases h
    exact (hset1 _ _ _ (by simp) _).1
  | value w al t v th =>
    simp only [spec] at h
    split at h
    · split at h <;> cases h
      · exact ⟨rfl, hinv⟩
      · exact (hset1 _ _ _ (by simp) _).1
    · cases h
  | make w al t v th =>
    simp only [spec] at h
    split at h
    · split at h <;> cases h
      · exact ⟨rfl, hinv⟩
      · exact (hset1 _ _ _ (by simp) _).1
    · cases h
  | ref w al e' c th =>
    simp only [spec] at h
    split at h
    · split at h <;> cases h
      · exact ⟨rfl, hinv⟩
      · refine (hset1 _ _ _ ?_ _).1
        intro o hh; cases hh
        exact absurd (hop rfl) (by simp)
    · cases h
  | copy w src th =>
    simp only [spec] at h
    split at h
    · rename_i s _ hs
      split at h <;> cases h
      · exact ⟨rfl, hinv⟩
      · exact (hset1 _ _ _ (hinv _ _ hs) _).1
    · cases h
  | copyA w src al th =>
    simp only [spec] at h
    split at h
    · rename_i s _ hs
      split at h <;> cases h
      · exact ⟨rfl, hinv⟩
      · exact (hset1 _ _ _ (hinv _ _ hs) _).1
    · cases h
  | move w src =>
    simp only [spec] at h
    split at h
    · rename_i s _ hs
      cases h
      exact hmove _ _ _ _ _ (hinv _ _ hs) _
    · cases h
  | moveA w src al th =>
    simp only [spec] at h
    split at h
    · rename_i s _ hs
      split at h <;> cases h
      · trivial
      · exact hmove _ _ _ _ _ (hinv _ _ hs) _
    · cases h
  | copyAssign w src th =>
    simp only [spec] at h
    split at h
    · rename_i d s _ hs
      split at h
      · cases h; exact ⟨rfl, hinv⟩
      · split at h <;> cases h
        · exact (hset1 _ _ _ (by simp) .unit).2 _
        · exact (hset1 _ _ _ (hinv _ _ hs) _).1
    · cases h
  | moveAssign w src th =>
    simp only [spec] at h
    split at h
    · rename_i d s _ hs
      split at h
      · cases h; exact ⟨rfl, hinv⟩
      · cases h
        generalize (if cfg.pocma = true then s.alloc else d.alloc) = al
        split
        · trivial
        · exact hmove _ _ _ _ _ (hinv _ _ hs) _
    · cases h
  | destroy w =>
    simp only [spec] at h
    split at h <;> cases h
    exact hset a w none rfl hinv (by simp)
  | modify w t f =>
    simp only [spec] at h
    split at h
    · rename_i s hs
      split at h
      · cases h
      · cases h
        split
        · exact hmod _ _ _ hs
        · exact ⟨rfl, hinv⟩
    · cases h
  | read w t =>
    simp only [spec] at h
    split at h
    · split at h
      · cases h
        split <;> exact ⟨rfl, hinv⟩
      · cases h
    · cases h
  | query w =>
    simp only [spec] at h
    split at h
    · split at h <;> cases h
      exact ⟨rfl, hinv⟩
    · cases h
  | optional w k =>
    simp only [spec] at h
    split at h
    · split at h <;> cases h
      · exact ⟨rfl, hinv⟩
      · exact ⟨rfl, hinv⟩
    · cases h
  | update w f =>
    simp only [spec] at h
    split at h
    · rename_i s hs
      split at h <;> cases h
      exact hmod _ _ _ hs
    · cases h
  | test w =>
    simp only [spec] at h
    split at h <;> cases h
    exact ⟨rfl, hinv⟩
  | poke w t f =>
    simp only [spec] at h
    split at h
    · rename_i s hs
      split at h <;> cases h
      exact hmod _ _ _ hs
    · cases h
  | outside e' f =>
    simp only [spec] at h
    cases h
    have hne : e ≠ e' := fun hh => hop hh.symm
    exact ⟨by simp [World.setExt, upd_ne _ _ hne], hinv⟩

theorem run_const {a : World V} {e : Nat} {ops : List (Op V)} {os : List (Except Exn (Obs V))}
    {r : Option (World V)} (h : Run cfg a ops os r)
    (hinv : ∀ w sl, a.wr w = some sl → ∀ o, sl.held ≠ .ref e false o)
    (hops : ∀ op ∈ ops, op.RespectsConst e) : ∀ a', r = some a' → a'.ext e = a.ext e := by
  induction h with
  | nil a => rintro a' ⟨⟩; rfl
  | done h t ih =>
    intro a' hr
    have hk := spec_const hinv (hops _ (by simp)) h
    rw [ih hk.2 (fun op hop => hops op (by simp [hop])) a' hr, hk.1]
  | threw h t ih =>
    intro a' hr
    have hk := spec_const hinv (hops _ (by simp)) h
    rw [ih hk.2 (fun op hop => hops op (by simp [hop])) a' hr, hk.1]
  | terminated h => intro a' hr; cases hr

/-- C54. An object to which wrappers were only given const references keeps its value through every
allowed program, whatever is done with those wrappers and their copies and moves (unless the program
itself changes the object). -/
theorem const_never_changed (ok : cfg.Ok) (ext : Nat → Obj V) {ops : List (Op V)}
    {os : List (Except Exn (Obs V))} {a : World V} (h : Run cfg (World.init ext) ops os (some a))
    {e : Nat} (hops : ∀ op ∈ ops, op.RespectsConst e) :
    ∃ s, exec cfg ops (St.init ext) = (os, .inr s) ∧ s.ext e = ext e := by
  obtain ⟨s, he, C, _, _, hx⟩ := run_end ok h
  refine ⟨s, he, ?_⟩
  rw [hx]
  exact run_const h (fun w sl hw => by cases hw) hops a rfl

/-- C54. Through a wrapper that holds a const reference, every attempt to get at the object as
mutable throws `bad_type_erased_constness` and changes nothing. -/
theorem const_attempts_throw (ok : cfg.Ok) (ext : Nat → Obj V) {ops : List (Op V)}
    {os : List (Except Exn (Obs V))} {a : World V} (h : Run cfg (World.init ext) ops os (some a))
    {w al e : Nat} {own : Nat → Bool} (hw : a.wr w = some ⟨al, .ref e true own⟩) :
    ∃ s, exec cfg ops (St.init ext) = (os, .inr s) ∧
      (referencedConst w).run s = .ok true s ∧
      (∀ t, (asMut w t).run s =
        .thrown (if t = (a.ext e).ty then .badTypeErasedConstness else .badTypeErasedType) s) ∧
      (getPointer w).run s = .thrown .badTypeErasedConstness s ∧
      ∀ f, (callMut cfg w f).run s = .thrown .badTypeErasedConstness s := by
  obtain ⟨s, he, hr⟩ := run_end ok h
  obtain ⟨W, v, k, hW, hnn, hv, hobj, hvt, hk, hkc⟩ := held_obj ok hr hw rfl
  have gW : (getW w).run s = .ok W s := by simp [getW, hW]
  have hvty : W.vt.ty = some (a.ext e).ty := by rw [hvt]; rfl
  have h1 : sizeIndicatesConst W.size = true := by rw [hk]; exact hkc.2 ⟨e, _, rfl⟩
  refine ⟨s, he, ?_, ?_, ?_, ?_⟩
  · unfold referencedConst; rw [bind_ok gW, h1]; rfl
  · intro t
    unfold asMut
    rw [bind_ok gW, hvty]
    by_cases ht : t = (a.ext e).ty
    · rw [if_neg (by simp [ht]), if_pos h1, if_pos ht]; rfl
    · rw [if_pos (by simpa using fun hh => ht hh.symm), if_neg ht]; rfl
  · unfold getPointer; rw [bind_ok gW, if_pos h1]; rfl
  · intro f
    unfold callMut
    rw [bind_ok gW, bind_ok (assertM_true (by simpa using hnn) s), if_pos h1]
    rfl

/-! ## Exceptions -/

/-- The wrapper an operation assigns to, if it is an assignment. -/
def Op.assigns : Op V → Option Nat
  | .copyAssign w _ _ => some w
  | _ => none

theorem spec_threw {a : World V} {op : Op V} {e : Exn} {a' : World V}
    (h : spec cfg a op = some (.threw e a')) :
    a'.ext = a.ext ∧ (∀ v, op.assigns ≠ some v → a'.wr v = a.wr v) ∧
      ∀ w, op.assigns = some w → ∃ al, a'.wr w = some ⟨al, .empty⟩ := by
  have hid : ∀ {e' : Exn}, op.assigns = none → Result.threw e' a = .threw e a' →
      a'.ext = a.ext ∧ (∀ v, op.assigns ≠ some v → a'.wr v = a.wr v) ∧
      ∀ w, op.assigns = some w → ∃ al, a'.wr w = some ⟨al, .empty⟩ := by
    intro e' hn hh
    cases hh
    exact ⟨rfl, fun _ _ => rfl, fun w hw => by rw [hn] at hw; cases hw⟩
  have hmod : ∀ (w : Nat) (d : Slot V) (f : V → V), op.assigns = none →
      a.modifyHeld w d f = .threw e a' →
      a'.ext = a.ext ∧ (∀ v, op.assigns ≠ some v → a'.wr v = a.wr v) ∧
      ∀ w, op.assigns = some w → ∃ al, a'.wr w = some ⟨al, .empty⟩ := by
    intro w d f hn hh
    unfold World.modifyHeld at hh
    split at hh
    · cases hh
    · cases hh
    · exact hid hn hh
    · cases hh
  cases op with
  | «default» w al => simp only [spec] at h; split at h <;> cases h
  | value w al t v th =>
    simp only [spec] at h
    split at h
    · split at h <;> cases h
      exact hid rfl rfl
    · cases h
  | make w al t v th =>
    simp only [spec] at h
    split at h
    · split at h <;> cases h
      exact hid rfl rfl
    · cases h
  | ref w al e' c th =>
    simp only [spec] at h
    split at h
    · split at h <;> cases h
      exact hid rfl rfl
    · cases h
  | copy w src th =>
    simp only [spec] at h
    split at h
    · split at h <;> cases h
      exact hid rfl rfl
    · cases h
  | copyA w src al th =>
    simp only [spec] at h
    split at h
    · split at h <;> cases h
      exact hid rfl rfl
    · cases h
  | move w src => simp only [spec] at h; split at h <;> cases h
  | moveA w src al th =>
    simp only [spec] at h
    split at h
    · split at h <;> cases h
    · cases h
  | copyAssign w src th =>
    simp only [spec] at h
    split at h
    · split at h
      · cases h
      · rename_i d s _ _ _
        generalize (if cfg.pocca = true then s.alloc else d.alloc) = al at h
        split at h <;> cases h
        refine ⟨rfl, fun v hv => ?_, fun v hv => ?_⟩
        · have : v ≠ w := fun hh => hv (by rw [hh]; rfl)
          simp [World.set, upd_ne _ _ this]
        · cases hv
          exact ⟨al, by simp [World.set]⟩
    · cases h
  | moveAssign w src th =>
    simp only [spec] at h
    split at h
    · split at h
      · cases h
      · rename_i d s _ _ _
        generalize (if cfg.pocma = true then s.alloc else d.alloc) = al at h
        split at h <;> cases h
    · cases h
  | destroy w => simp only [spec] at h; split at h <;> cases h
  | modify w t f =>
    simp only [spec] at h
    split at h
    · split at h
      · cases h
      · split at h
        · simp only [Option.some.injEq] at h; exact hmod _ _ _ rfl h
        · cases h; exact hid rfl rfl
    · cases h
  | read w t =>
    simp only [spec] at h
    split at h
    · split at h
      · split at h <;> cases h
        exact hid rfl rfl
      · cases h
    · cases h
  | query w =>
    simp only [spec] at h
    split at h
    · split at h <;> cases h
    · cases h
  | optional w k =>
    simp only [spec] at h
    split at h
    · split at h <;> cases h
    · cases h
  | update w f =>
    simp only [spec] at h
    split at h
    · split at h
      · cases h
      · simp only [Option.some.injEq] at h; exact hmod _ _ _ rfl h
    · cases h
  | test w => simp only [spec] at h; split at h <;> cases h
  | poke w t f =>
    simp only [spec] at h
    split at h
    · split at h
      · simp only [Option.some.injEq] at h; exact hmod _ _ _ rfl h
      · cases h
    · cases h
  | outside e' f => simp only [spec] at h; cases h

theorem run_append {a a' : World V} {ops ops' : List (Op V)} {os os' : List (Except Exn (Obs V))}
    {r : Option (World V)} (h : Run cfg a ops os (some a')) (h' : Run cfg a' ops' os' r) :
    Run cfg a (ops ++ ops') (os ++ os') r := by
  generalize hx : some a' = x at h
  induction h with
  | nil a => cases hx; exact h'
  | done h t ih => exact .done h (ih hx)
  | threw h t ih => exact .threw h (ih hx)
  | terminated h => cases hx

/-- C56. If the last operation of an allowed program throws, for whatever reason, the program goes on:
every wrapper that it does not assign to (and every object outside) is exactly as it was, a wrapper it
was to construct does not exist, a wrapper it was to assign to is alive and empty, and every further
program that is allowed then works as specified (so, by C51 and C52, nothing is leaked). -/
theorem exception_safety (ok : cfg.Ok) (ext : Nat → Obj V) {ops : List (Op V)}
    {os : List (Except Exn (Obs V))} {a : World V} (h : Run cfg (World.init ext) ops os (some a))
    {op : Op V} {e : Exn} {a' : World V} (hop : spec cfg a op = some (.threw e a')) :
    (a'.ext = a.ext ∧ (∀ v, op.assigns ≠ some v → a'.wr v = a.wr v) ∧
      ∀ w, op.assigns = some w → ∃ al, a'.wr w = some ⟨al, .empty⟩) ∧
    (∃ s, exec cfg (ops ++ [op]) (St.init ext) = (os ++ [.error e], .inr s) ∧ Rep cfg s a') ∧
    ∀ ops' os' r, Run cfg a' ops' os' r →
      (exec cfg (ops ++ op :: ops') (St.init ext)).1 = os ++ .error e :: os' := by
  refine ⟨spec_threw hop, ?_, ?_⟩
  · exact run_end ok (run_append h (.threw hop (.nil a')))
  · intro ops' os' r hrun
    exact value_semantics ok ext (run_append h (.threw hop hrun))

/-! ## A concrete program -/

/-- A small type (0) and large ones; values are numbers. -/
def exCfg : Cfg where
  sbs := 16
  sizeOf t := if t = 0 then 8 else 40
  socc a := a
  pocca := false
  pocma := false

theorem exCfg_ok : exCfg.Ok :=
  ⟨fun t => by dsimp only [exCfg]; split <;> omega, fun t => by dsimp only [exCfg]; split <;> omega⟩

def exExt : Nat → Obj Nat := fun e => ⟨0, 100 + e⟩

/-- Wrapper 0 owns a large value, wrapper 1 refers to the object 7 (const); assigning 0 to 1 fails
because the copy throws; then 1 is empty; 0 is copied to 2 and changed; 2 is moved to 1 between
different allocators; 1 still has the old value. -/
def exOps : List (Op Nat) :=
  [.value 0 3 1 42 {}, .ref 1 4 7 true {}, .update 1 (· + 1), .copyAssign 1 0 { copy := true },
   .test 1, .copy 2 0 {}, .modify 0 1 (· + 1), .moveAssign 1 2 {}, .read 1 1, .read 0 1, .read 0 0]

def exOut : List (Except Exn (Obs Nat)) :=
  [.ok .unit, .ok .unit, .error .badTypeErasedConstness, .error .user, .ok (.bool false), .ok .unit,
   .ok .unit, .ok .unit, .ok (.val 42), .ok (.val 43), .error .badTypeErasedType]

example : ∃ a, Run exCfg (World.init exExt) exOps exOut (some a) ∧
    a.Owns 0 3 1 43 ∧ a.Owns 1 4 1 42 ∧ a.wr 2 = some ⟨3, .empty⟩ ∧ exCfg.NeedsHeap 1 :=
  ⟨_, .done rfl (.done rfl (.threw rfl (.threw rfl (.done rfl (.done rfl (.done rfl (.done rfl
    (.done rfl (.done rfl (.threw rfl (.nil _))))))))))), ⟨_, rfl⟩, ⟨_, rfl⟩, rfl, by
      unfold Cfg.NeedsHeap; decide⟩

/-- The same program, destroying everything at the end: the hypotheses of `all_returned`. -/
example : ∃ os a, Run exCfg (World.init exExt) (exOps ++ [.destroy 2, .destroy 0, .destroy 1]) os (some a) ∧
    ∀ w, a.wr w = none :=
  ⟨_, _, .done rfl (.done rfl (.threw rfl (.threw rfl (.done rfl (.done rfl (.done rfl (.done rfl
    (.done rfl (.done rfl (.threw rfl (.done rfl (.done rfl (.done rfl (.nil _)))))))))))))), by
      intro w
      match w with
      | 0 => rfl
      | 1 => rfl
      | 2 => rfl
      | n + 3 => rfl⟩

/-- A const reference that is copied and moved around (hypotheses of `const_never_changed` and
`const_attempts_throw`). -/
example : ∃ os a, Run exCfg (World.init exExt)
    [.ref 1 4 7 true {}, .copy 2 1 {}, .default 3 4, .moveAssign 3 2 {}, .update 3 (· + 1)] os (some a) ∧
    ∃ own, a.wr 3 = some ⟨4, .ref 7 true own⟩ :=
  ⟨_, _, .done rfl (.done rfl (.done rfl (.done rfl (.threw rfl (.nil _))))), _, rfl⟩

end Guanaqo.TypeErased
