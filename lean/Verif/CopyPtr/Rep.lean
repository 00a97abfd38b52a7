import Verif.CopyPtr.Model

/-! The trees represented by pointers into the heap, and how the primitive operations act on them. -/

namespace Guanaqo.CopyPtr

/-- The pointer `p` is the root of a tree of objects with value `t` that occupies exactly the blocks `S`. -/
inductive Rep (h : Nat → Option Cell) : Option Nat → Tree → (Nat → Prop) → Prop
  | null {S : Nat → Prop} (hS : ∀ x, ¬ S x) : Rep h none .null S
  | node {a : Nat} {n : Node} {v : Int} {l r : Tree} {S Sl Sr : Nat → Prop}
      (ha : h a = some (.obj n)) (hv : n.val = v) (hl : Rep h n.l l Sl) (hr : Rep h n.r r Sr)
      (hS : ∀ x, S x ↔ x = a ∨ Sl x ∨ Sr x) (h1 : ¬ Sl a) (h2 : ¬ Sr a) (h3 : ∀ x, Sl x → ¬ Sr x) :
      Rep h (some a) (.node v l r) S

variable {h h' : Nat → Option Cell} {p q : Option Nat} {t u : Tree} {S S' : Nat → Prop}

theorem Rep.frame (hr : Rep h p t S) : (∀ x, S x → h' x = h x) → Rep h' p t S := by
  induction hr with
  | null hS => intro _; exact .null hS
  | node ha hv hl hr hS h1 h2 h3 ihl ihr =>
    intro hh
    refine .node (by rw [hh _ ((hS _).2 (.inl rfl))]; exact ha) hv (ihl fun x hx => hh x ((hS x).2 (.inr (.inl hx))))
      (ihr fun x hx => hh x ((hS x).2 (.inr (.inr hx)))) hS h1 h2 h3

theorem Rep.ext (hr : Rep h p t S) (hS : ∀ x, S' x ↔ S x) : Rep h p t S' := by
  have : S' = S := funext fun x => propext (hS x)
  rw [this]; exact hr

theorem Rep.live (hr : Rep h p t S) : ∀ x, S x → ∃ n, h x = some (.obj n) := by
  induction hr with
  | null hS => intro x hx; exact absurd hx (hS x)
  | node ha hv hl hr hS h1 h2 h3 ihl ihr =>
    intro x hx
    rcases (hS x).1 hx with rfl | hx | hx
    · exact ⟨_, ha⟩
    · exact ihl x hx
    · exact ihr x hx

theorem upd_same {α : Type} (f : Nat → α) (i : Nat) (v : α) : upd f i v i = v := by simp [upd]

theorem upd_ne {α : Type} (f : Nat → α) {i k : Nat} (v : α) (hk : k ≠ i) : upd f i v k = f k := by
  simp [upd, hk]

@[simp] theorem bind_ok {α β : Type} {m : M α} {f : α → M β} {s s' : St} {a : α} (hm : m s = .ok a s') :
    (m >>= f) s = f a s' := by
  show M.bind m f s = _
  rw [M.bind, hm]

theorem bind_exn {α β : Type} {m : M α} {f : α → M β} {s s' : St} (hm : m s = .exn s') :
    (m >>= f) s = .exn s' := by
  show M.bind m f s = _
  rw [M.bind, hm]

theorem onExn_ok {α : Type} {m : M α} {c : M Unit} {s s' : St} {a : α} (hm : m s = .ok a s') :
    onExn m c s = .ok a s' := by
  rw [onExn, hm]

theorem onExn_exn {α : Type} {m : M α} {c : M Unit} {s s' s'' : St} (hm : m s = .exn s')
    (hc : c s' = .ok () s'') : onExn m c s = .exn s'' := by
  rw [onExn, hm]; dsimp only; rw [hc]

/-- Deleting a tree frees its blocks and nothing else. -/
theorem deletePtr_spec {t : Tree} {S : Nat → Prop} {p : Option Nat} : ∀ (fuel : Nat) (s : St), Rep s.heap p t S → t.height ≤ fuel →
    ∃ h', deletePtr fuel p s = .ok () { s with heap := h' } ∧ (∀ x, S x → h' x = none) ∧
      ∀ x, ¬ S x → h' x = s.heap x := by
  induction t generalizing S p with
  | null =>
    intro fuel s hr _
    cases hr with
    | null hS => exact ⟨s.heap, by cases fuel <;> rfl, fun x hx => absurd hx (hS x), fun _ _ => rfl⟩
  | node v l r ihl ihr =>
    intro fuel s hr hf
    cases hr with
    | @node a n _ _ _ _ Sl Sr ha hv hl hr hS h1 h2 h3 =>
      cases fuel with
      | zero => simp [Tree.height] at hf
      | succ fuel =>
        simp only [Tree.height] at hf
        obtain ⟨hA, eA, nA, kA⟩ := ihr fuel s hr (by omega)
        obtain ⟨hB, eB, nB, kB⟩ := ihl fuel { s with heap := hA }
          (hl.frame fun x hx => kA x (h3 x hx)) (by omega)
        have hBa : hB a = some (.obj n) := by rw [kB a h1]; show hA a = _; rw [kA a h2]; exact ha
        refine ⟨upd (upd hB a (some .raw)) a none, ?_, ?_, ?_⟩
        · unfold deletePtr
          rw [bind_ok (a := n) (s' := s) (by simp only [load, ha]), bind_ok eA, bind_ok eB]
          rw [bind_ok (a := ()) (s' := { s with heap := upd hB a (some .raw) })
            (by simp only [endLife, hBa])]
          simp only [dealloc, upd_same]
        · intro x hx
          by_cases hxa : x = a
          · subst hxa; rw [upd_same]
          · rw [upd_ne _ _ hxa, upd_ne _ _ hxa]
            rcases (hS x).1 hx with rfl | hx | hx
            · exact absurd rfl hxa
            · exact nB x hx
            · rw [kB x (fun hl' => h3 x hl' hx)]; exact nA x hx
        · intro x hx
          have hx' : x ≠ a ∧ ¬ Sl x ∧ ¬ Sr x :=
            ⟨fun e => hx ((hS x).2 (.inl e)), fun e => hx ((hS x).2 (.inr (.inl e))),
              fun e => hx ((hS x).2 (.inr (.inr e)))⟩
          rw [upd_ne _ _ hx'.1, upd_ne _ _ hx'.1, kB x hx'.2.1]
          exact kA x hx'.2.2

/-- A point that may throw. -/
theorem mayThrow_spec (s : St) :
    (∃ ts, mayThrow s = .ok () { s with throws := ts } ∧ ∀ b ∈ ts, b ∈ s.throws) ∨
    (∃ ts, mayThrow s = .exn { s with throws := ts } ∧ (∀ b ∈ ts, b ∈ s.throws) ∧ true ∈ s.throws) := by
  unfold mayThrow
  split
  · rename_i hs; exact .inl ⟨s.throws, rfl, fun b hb => hb⟩
  · rename_i ts hs
    exact .inr ⟨ts, rfl, fun b hb => by rw [hs]; simp [hb], by rw [hs]; simp⟩
  · rename_i ts hs
    exact .inl ⟨ts, rfl, fun b hb => by rw [hs]; simp [hb]⟩

theorem alloc_spec (s : St) :
    (∃ ts, alloc s = .ok s.next ⟨upd s.heap s.next (some .raw), s.vars, s.next + 1, ts⟩ ∧ ∀ b ∈ ts, b ∈ s.throws) ∨
    (∃ ts, alloc s = .exn { s with throws := ts } ∧ (∀ b ∈ ts, b ∈ s.throws) ∧ true ∈ s.throws) := by
  unfold alloc
  rcases mayThrow_spec s with ⟨ts, e, hts⟩ | ⟨ts, e, hts, ht⟩
  · exact .inl ⟨ts, by rw [bind_ok e]; rfl, hts⟩
  · exact .inr ⟨ts, bind_exn e, hts, ht⟩

/-- Copying a tree gives an equal tree in new blocks, or throws and leaves the heap as it was. -/
theorem copyPtr_spec {t : Tree} {S : Nat → Prop} {p : Option Nat} : ∀ (fuel : Nat) (s : St), Rep s.heap p t S → t.height ≤ fuel →
    (∀ x, s.next ≤ x → s.heap x = none) →
    (∃ q S' h' nx ts, copyPtr fuel p s = .ok q ⟨h', s.vars, nx, ts⟩ ∧ Rep h' q t S' ∧
      (∀ x, S' x → s.next ≤ x) ∧ (∀ x, ¬ S' x → h' x = s.heap x) ∧ s.next ≤ nx ∧
      (∀ x, nx ≤ x → h' x = none) ∧ ∀ b ∈ ts, b ∈ s.throws) ∨
    (∃ nx ts, copyPtr fuel p s = .exn ⟨s.heap, s.vars, nx, ts⟩ ∧ s.next ≤ nx ∧ (∀ b ∈ ts, b ∈ s.throws) ∧
      true ∈ s.throws) := by
  induction t generalizing S p with
  | null =>
    intro fuel s hr _ hfr
    cases hr with
    | null hS =>
      exact .inl ⟨none, fun _ => False, s.heap, s.next, s.throws, by cases fuel <;> rfl, .null fun _ hx => hx,
        fun _ hx => hx.elim, fun _ _ => rfl, Nat.le_refl _, hfr, fun _ hb => hb⟩
  | node v l r ihl ihr =>
    intro fuel s hr hf hfr
    cases hr with
    | @node o n _ _ _ _ Sl Sr ha hv hl hr hS h1 h2 h3 =>
      cases fuel with
      | zero => simp [Tree.height] at hf
      | succ fuel =>
        simp only [Tree.height] at hf
        unfold copyPtr
        rcases alloc_spec s with ⟨ts0, e0, hts0⟩ | ⟨ts0, e0, hts0, ht0⟩
        rotate_left
        · exact .inr ⟨s.next, ts0, bind_exn e0, Nat.le_refl _, hts0, ht0⟩
        rw [bind_ok e0]
        generalize hA : s.next = a at *
        have hnone : s.heap a = none := hfr a (Nat.le_refl _)
        -- the new block is none of those read
        have hne : ∀ x m, s.heap x = some (.obj m) → x ≠ a := by
          intro x m hx e; rw [e, hnone] at hx; cases hx
        have hback : ∀ (f : Nat → Option Cell), (∀ x, x ≠ a → f x = s.heap x) → upd f a none = s.heap := by
          intro f hf'; funext x
          by_cases hx : x = a
          · subst hx; rw [upd_same, hnone]
          · rw [upd_ne _ _ hx, hf' x hx]
        have hne_o := hne o n ha
        rw [bind_ok (a := n) (s' := ⟨upd s.heap a (some .raw), s.vars, a + 1, ts0⟩)
          (by simp only [load, upd_ne _ _ hne_o, ha])]
        rcases mayThrow_spec ⟨upd s.heap a (some .raw), s.vars, a + 1, ts0⟩ with ⟨ts1, e1, hts1⟩ | ⟨ts1, e1, hts1, ht1⟩
        rotate_left
        · refine .inr ⟨a + 1, ts1, ?_, by omega, fun b hb => hts0 b (hts1 b hb), hts0 _ ht1⟩
          apply bind_exn
          refine onExn_exn e1 ?_
          simp only [dealloc, upd_same]
          rw [hback]
          intro x hx; exact upd_ne _ _ hx
        rw [bind_ok (onExn_ok e1)]
        dsimp only at e1 hts1 ⊢
        have hrl : Rep (upd s.heap a (some .raw)) n.l l Sl := hl.frame fun x hx => by
          obtain ⟨m, hm⟩ := hl.live x hx; exact upd_ne _ _ (hne x m hm)
        have hrr : Rep (upd s.heap a (some .raw)) n.r r Sr := hr.frame fun x hx => by
          obtain ⟨m, hm⟩ := hr.live x hx; exact upd_ne _ _ (hne x m hm)
        rcases ihl fuel ⟨upd s.heap a (some .raw), s.vars, a + 1, ts1⟩ hrl (by omega)
          (by intro x hx; dsimp only at hx ⊢; rw [upd_ne _ _ (by omega)]; exact hfr x (by omega)) with
          ⟨ql, S2, h2', nx2, ts2, e2, r2, lo2, k2, le2, fr2, hts2⟩ | ⟨nx2, ts2, e2, le2, hts2, ht2⟩
        rotate_left
        · refine .inr ⟨nx2, ts2, ?_, by dsimp only at le2; omega, fun b hb => hts0 b (hts1 b (hts2 b hb)),
            hts0 _ (hts1 _ ht2)⟩
          apply bind_exn
          refine onExn_exn e2 ?_
          simp only [dealloc, upd_same]
          rw [hback]
          intro x hx; exact upd_ne _ _ hx
        rw [bind_ok (onExn_ok e2)]
        dsimp only at lo2 k2 le2 fr2 hts2 ⊢
        have hS2old : ∀ x m, s.heap x = some (.obj m) → ¬ S2 x := by
          intro x m hx hx2
          have := lo2 x hx2
          rw [hfr x (by omega)] at hx; cases hx
        have hrr2 : Rep h2' n.r r Sr := hrr.frame fun x hx => by
          obtain ⟨m, hm⟩ := hr.live x hx; exact k2 x (hS2old x m hm)
        have hS2a : ¬ S2 a := fun hx => by have := lo2 a hx; omega
        have h2a : h2' a = some .raw := by rw [k2 a hS2a, upd_same]
        rcases ihr fuel ⟨h2', s.vars, nx2, ts2⟩ hrr2 (by omega) fr2 with
          ⟨qr, S3, h3', nx3, ts3, e3, r3, lo3, k3, le3, fr3, hts3⟩ | ⟨nx3, ts3, e3, le3, hts3, ht3⟩
        rotate_left
        · refine .inr ⟨nx3, ts3, ?_, by dsimp only at le2 le3; omega,
            fun b hb => hts0 b (hts1 b (hts2 b (hts3 b hb))), hts0 _ (hts1 _ (hts2 _ ht3))⟩
          apply bind_exn
          obtain ⟨h4, e4, n4, k4⟩ := deletePtr_spec fuel ⟨h2', s.vars, nx3, ts3⟩ r2 (by omega)
          refine onExn_exn e3 ?_
          dsimp only at e4 k4 ⊢
          rw [bind_ok e4]
          have h4a : h4 a = some .raw := by rw [k4 a hS2a]; exact h2a
          simp only [dealloc, h4a]
          rw [hback]
          intro x hx
          by_cases hx2 : S2 x
          · rw [n4 x hx2]
            have := lo2 x hx2
            rw [hfr x (by omega)]
          · rw [k4 x hx2, k2 x hx2, upd_ne _ _ hx]
        rw [bind_ok (onExn_ok e3)]
        dsimp only at lo3 k3 le3 fr3 hts3 ⊢
        have hS3a : ¬ S3 a := fun hx => by have := lo3 a hx; omega
        have h3a : h3' a = some .raw := by rw [k3 a hS3a]; exact h2a
        have hS23 : ∀ x, S2 x → ¬ S3 x := by
          intro x hx hx3
          have := lo3 x hx3
          obtain ⟨m, hm⟩ := r2.live x hx
          rw [fr2 x (by omega)] at hm; cases hm
        refine .inl ⟨some a, fun x => x = a ∨ S2 x ∨ S3 x, upd h3' a (some (.obj ⟨n.val, ql, qr⟩)), nx3, ts3,
          ?_, ?_, ?_, ?_, by omega, ?_, fun b hb => hts0 b (hts1 b (hts2 b (hts3 b hb)))⟩
        · rw [bind_ok (a := ()) (s' := ⟨upd h3' a (some (.obj ⟨n.val, ql, qr⟩)), s.vars, nx3, ts3⟩)
            (by simp only [construct, h3a])]
          rfl
        · refine .node (n := ⟨n.val, ql, qr⟩) (upd_same _ _ _) hv ((r2.frame fun x hx => ?_)) (r3.frame fun x hx => ?_)
            (fun x => Iff.rfl) hS2a hS3a hS23
          · have hxa : x ≠ a := by rintro rfl; exact hS2a hx
            rw [upd_ne _ _ hxa, k3 x (hS23 x hx)]
          · have hxa : x ≠ a := by rintro rfl; exact hS3a hx
            rw [upd_ne _ _ hxa]
        · intro x hx
          rcases hx with rfl | hx | hx
          · exact Nat.le_refl _
          · have := lo2 x hx; omega
          · have := lo3 x hx; omega
        · intro x hx
          have hx' : x ≠ a ∧ ¬ S2 x ∧ ¬ S3 x := ⟨fun e => hx (.inl e), fun e => hx (.inr (.inl e)), fun e => hx (.inr (.inr e))⟩
          rw [upd_ne _ _ hx'.1, k3 x hx'.2.2, k2 x hx'.2.1, upd_ne _ _ hx'.1]
        · intro x hx
          rw [upd_ne _ _ (by omega)]
          exact fr3 x hx

/-! ## Places -/

theorem Node.get_set (n : Node) (b : Bool) (p : Option Nat) : (n.set b p).get b = p := by cases b <;> rfl
theorem Node.get_set_ne (n : Node) {b c : Bool} (p : Option Nat) (hbc : c ≠ b) : (n.set b p).get c = n.get c := by
  cases b <;> cases c <;> first | rfl | exact absurd rfl hbc
theorem Node.set_get (n : Node) (b : Bool) : n.set b (n.get b) = n := by cases b <;> rfl
theorem Node.set_val (n : Node) (b : Bool) (p : Option Nat) : (n.set b p).val = n.val := by cases b <;> rfl

/-- The heap after `p` has been written to a place. -/
def written (h : Nat → Option Cell) (p : Option Nat) : Slot → (Nat → Option Cell)
  | .var _ => h
  | .fld a b => match h a with
    | some (.obj n) => upd h a (some (.obj (n.set b p)))
    | _ => h

/-- The subtree at a path: where its pointer is stored, and that it can be replaced. -/
theorem follow_spec (s : St) : ∀ (π : List Bool) (cur : Slot) (p : Option Nat) (t u : Tree) (S : Nat → Prop),
    readSlot cur s = .ok p s → Rep s.heap p t S → t.get π = some u →
    ∃ sl q Sq, follow cur π s = .ok sl s ∧ readSlot sl s = .ok q s ∧ Rep s.heap q u Sq ∧ (∀ x, Sq x → S x) ∧
      ((π = [] ∧ sl = cur) ∨ (π ≠ [] ∧ ∃ a b, sl = .fld a b ∧ S a ∧ ¬ Sq a)) ∧
      ∀ (h' : Nat → Option Cell) (q' : Option Nat) (u' : Tree) (Sq' : Nat → Prop), Rep h' q' u' Sq' →
        (∀ x, Sq' x → S x → Sq x) → (∀ x, S x → ¬ Sq x → h' x = written s.heap q' sl x) →
        Rep h' (if π = [] then q' else p) (t.put π u') (fun x => (S x ∧ ¬ Sq x) ∨ Sq' x) := by
  intro π
  induction π with
  | nil =>
    intro cur p t u S hc hr hu
    have : t = u := by simpa [Tree.get] using hu
    subst this
    refine ⟨cur, p, S, rfl, hc, hr, fun _ hx => hx, .inl ⟨rfl, rfl⟩, ?_⟩
    intro h' q' u' Sq' hr' _ _
    simp only [Tree.put, if_true]
    refine hr'.ext fun x => ⟨?_, .inr⟩
    rintro (⟨h1, h2⟩ | h)
    · exact absurd h1 h2
    · exact h
  | cons b π ih =>
    intro cur p t u S hc hr hu
    cases hr with
    | null hS => simp [Tree.get] at hu
    | @node a n v l r _ Sl Sr ha hv hl hr hS h1 h2 h3 =>
      have hload : load a s = .ok n s := by simp only [load, ha]
      have hc' : readSlot (.fld a b) s = .ok (n.get b) s := by
        show (load a >>= fun m => pure (m.get b)) s = _
        rw [bind_ok hload]; rfl
      rw [Tree.get] at hu
      have hSc : ∃ Sb So, Rep s.heap (n.get b) (Tree.child l r b) Sb ∧ Rep s.heap (n.get !b) (Tree.child l r !b) So ∧
          (∀ x, S x ↔ x = a ∨ Sb x ∨ So x) ∧ ¬ Sb a ∧ ¬ So a ∧ (∀ x, Sb x → ¬ So x) := by
        cases b
        · exact ⟨Sl, Sr, hl, hr, hS, h1, h2, h3⟩
        · exact ⟨Sr, Sl, hr, hl, fun x => by rw [hS]; constructor <;> (rintro (e | e | e) <;> simp [e]), h2, h1,
            fun x hx hx' => h3 x hx' hx⟩
      obtain ⟨Sb, So, rb, ro, hSb, k1, k2, k3⟩ := hSc
      obtain ⟨sl, q, Sq, e1, e2, e3, e4, e5, e6⟩ := ih (.fld a b) (n.get b) (Tree.child l r b) u Sb hc' rb hu
      refine ⟨sl, q, Sq, ?_, e2, e3, fun x hx => (hSb x).2 (.inr (.inl (e4 x hx))), .inr ⟨by simp, ?_⟩, ?_⟩
      · unfold follow
        rw [bind_ok hc]
        show (load a >>= _) s = _
        rw [bind_ok hload]; exact e1
      · rcases e5 with ⟨_, rfl⟩ | ⟨_, a', b', rfl, hS', hq'⟩
        · exact ⟨a, b, rfl, (hSb a).2 (.inl rfl), fun hq => k1 (e4 a hq)⟩
        · exact ⟨a', b', rfl, (hSb a').2 (.inr (.inl hS')), hq'⟩
      · intro h' q' u' Sq' hr' hd hh
        have hsub := e6 h' q' u' Sq' hr' (fun x hx hb => hd x hx ((hSb x).2 (.inr (.inl hb))))
          (fun x hx hq => hh x ((hSb x).2 (.inr (.inl hx))) hq)
        have haq' : ¬ Sq' a := fun hx => k1 (e4 a (hd a hx ((hSb a).2 (.inl rfl))))
        have hro : Rep h' (n.get !b) (Tree.child l r !b) So := ro.frame fun x hx => by
          rw [hh x ((hSb x).2 (.inr (.inr hx))) (fun hq => k3 x (e4 x hq) hx)]
          rcases e5 with ⟨_, rfl⟩ | ⟨_, a', b', rfl, hS', hq'⟩
          · simp only [written, ha]
            rw [upd_ne]; rintro rfl; exact k2 hx
          · obtain ⟨m, hm⟩ := rb.live a' hS'
            simp only [written, hm]
            rw [upd_ne]; rintro rfl; exact k3 _ hS' hx
        -- the object at `a` after the replacement
        have hn' : ∃ n', h' a = some (.obj n') ∧ n'.val = v ∧ n'.get b = (if π = [] then q' else n.get b) ∧
            n'.get (!b) = n.get !b := by
          have hha := hh a ((hSb a).2 (.inl rfl)) (fun hq => k1 (e4 a hq))
          rcases e5 with ⟨rfl, rfl⟩ | ⟨hπ, a', b', rfl, hS', hq'⟩
          · refine ⟨n.set b q', ?_, by rw [Node.set_val]; exact hv, by simp [Node.get_set],
              Node.get_set_ne _ _ (by cases b <;> simp)⟩
            rw [hha]; simp only [written, ha, upd_same]
          · refine ⟨n, ?_, hv, by simp [hπ], rfl⟩
            rw [hha]
            obtain ⟨m, hm⟩ := rb.live a' hS'
            simp only [written, hm]
            rw [upd_ne, ha]; rintro rfl; exact k1 hS'
        obtain ⟨n', hn1, hn2, hn3, hn4⟩ := hn'
        rw [← hn3] at hsub
        rw [← hn4] at hro
        have hdis : ∀ x, ((Sb x ∧ ¬ Sq x) ∨ Sq' x) → ¬ So x := by
          rintro x (⟨hx, _⟩ | hx) ho
          · exact k3 x hx ho
          · exact k3 x (e4 x (hd x hx ((hSb x).2 (.inr (.inr ho))))) ho
        have hna : ¬ ((Sb a ∧ ¬ Sq a) ∨ Sq' a) := by
          rintro (⟨hx, _⟩ | hx)
          · exact k1 hx
          · exact haq' hx
        have hset : ∀ x, ((S x ∧ ¬ Sq x) ∨ Sq' x) ↔ x = a ∨ ((Sb x ∧ ¬ Sq x) ∨ Sq' x) ∨ So x := by
          intro x
          rw [hSb]
          constructor
          · rintro (⟨rfl | hx | hx, hq⟩ | hx)
            · exact .inl rfl
            · exact .inr (.inl (.inl ⟨hx, hq⟩))
            · exact .inr (.inr hx)
            · exact .inr (.inl (.inr hx))
          · rintro (rfl | (⟨hx, hq⟩ | hx) | hx)
            · exact .inl ⟨.inl rfl, fun hq => k1 (e4 _ hq)⟩
            · exact .inl ⟨.inr (.inl hx), hq⟩
            · exact .inr hx
            · exact .inl ⟨.inr (.inr hx), fun hq => k3 x (e4 x hq) hx⟩
        rw [if_neg (by simp)]
        cases b
        · exact .node hn1 hn2 hsub hro hset hna k2 hdis
        · exact .node hn1 hn2 hro hsub (fun x => by rw [hset]; constructor <;> (rintro (e | e | e) <;> simp [e])) k2 hna
            (fun x h1 h2 => hdis x h2 h1)

end Guanaqo.CopyPtr
