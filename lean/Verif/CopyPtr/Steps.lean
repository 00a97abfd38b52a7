import Verif.CopyPtr.Refine

/-! The operations, one by one. -/

namespace Guanaqo.CopyPtr

theorem load_ok {s : St} {a : Nat} {n : Node} (h : s.heap a = some (.obj n)) : load a s = .ok n s := by
  simp only [load, h]

theorem readFld {s : St} {a : Nat} {n : Node} (b : Bool) (h : s.heap a = some (.obj n)) :
    readSlot (.fld a b) s = .ok (n.get b) s := by
  simp only [readSlot]
  rw [bind_ok (load_ok h)]; rfl

/-- The two children of a node. -/
theorem Rep.children {h : Nat → Option Cell} {a : Nat} {v : Int} {l r : Tree} {S : Nat → Prop}
    (hr : Rep h (some a) (.node v l r) S) (b : Bool) : ∃ n Sb So, h a = some (.obj n) ∧ n.val = v ∧
      Rep h (n.get b) (Tree.child l r b) Sb ∧ Rep h (n.get !b) (Tree.child l r !b) So ∧
      (∀ x, S x ↔ x = a ∨ Sb x ∨ So x) ∧ ¬ Sb a ∧ ¬ So a ∧ (∀ x, Sb x → ¬ So x) := by
  cases hr with
  | @node _ n _ _ _ _ Sl Sr ha hv hl hr hS h1 h2 h3 =>
    cases b
    · exact ⟨n, Sl, Sr, ha, hv, hl, hr, hS, h1, h2, h3⟩
    · exact ⟨n, Sr, Sl, ha, hv, hr, hl, fun x => by rw [hS]; constructor <;> (rintro (e | e | e) <;> simp [e]), h2, h1,
        fun x hx hx' => h3 x hx' hx⟩

theorem Rep.null_of_none {h : Nat → Option Cell} {t : Tree} {S : Nat → Prop} (hr : Rep h none t S) : t = .null := by
  cases hr; rfl

theorem Rep.exists_addr {h : Nat → Option Cell} {p : Option Nat} {v : Int} {l r : Tree} {S : Nat → Prop}
    (hr : Rep h p (.node v l r) S) : ∃ a, p = some a := by
  cases hr; exact ⟨_, rfl⟩

theorem follow_cons {s : St} {cur : Slot} {a : Nat} {n : Node} (b : Bool) (π : List Bool)
    (hc : readSlot cur s = .ok (some a) s) (ha : s.heap a = some (.obj n)) :
    follow cur (b :: π) s = follow (.fld a b) π s := by
  conv => lhs; unfold follow
  rw [bind_ok hc]
  show (load a >>= _) s = _
  rw [bind_ok (load_ok ha)]

theorem follow_agree {s s' : St} {u : Tree} {sl : Slot} : ∀ (π : List Bool) (cur : Slot) (p : Option Nat) (t : Tree)
    (S : Nat → Prop), readSlot cur s = .ok p s → readSlot cur s' = .ok p s' → Rep s.heap p t S →
    (∀ x, S x → s'.heap x = s.heap x) → t.get π = some u → follow cur π s = .ok sl s → follow cur π s' = .ok sl s' := by
  intro π
  induction π with
  | nil => intro cur p t S _ _ _ _ _ hf; cases hf; rfl
  | cons b π ih =>
    intro cur p t S hc hc' hr hh hu hf
    cases t with
    | null => simp [Tree.get] at hu
    | node v l r =>
      obtain ⟨a, rfl⟩ := hr.exists_addr
      obtain ⟨n, Sb, So, ha, hv, hb, ho, hS, k1, k2, k3⟩ := hr.children b
      have ha' : s'.heap a = some (.obj n) := by rw [hh a ((hS a).2 (.inl rfl))]; exact ha
      rw [follow_cons b π hc ha] at hf
      rw [follow_cons b π hc' ha']
      rw [Tree.get] at hu
      exact ih _ _ _ Sb (readFld b ha) (readFld b ha') hb (fun x hx => hh x ((hS x).2 (.inr (.inl hx)))) hu hf

/-- Writing to one place does not move another, unless that one is below the first. -/
theorem follow_same {s s' : St} {sl d : Slot} {q : Option Nat} {u₁ u₂ : Tree} (hh : s'.heap = written s.heap q sl) :
    ∀ (π₁ π₂ : List Bool) (cur : Slot) (p : Option Nat) (t : Tree) (S : Nat → Prop),
    readSlot cur s = .ok p s → (π₁ ≠ [] → readSlot cur s' = .ok p s') → Rep s.heap p t S →
    t.get π₁ = some u₁ → t.get π₂ = some u₂ → ¬ (π₁ <+: π₂ ∧ π₁ ≠ π₂) →
    follow cur π₁ s = .ok sl s → follow cur π₂ s = .ok d s → follow cur π₂ s' = .ok d s' := by
  intro π₁
  induction π₁ with
  | nil =>
    intro π₂ cur p t S _ _ _ _ _ hn _ hf2
    have : π₂ = [] := Classical.byContradiction fun h2 => hn ⟨List.nil_prefix, Ne.symm h2⟩
    subst this
    cases hf2; rfl
  | cons b π₁ ih =>
    intro π₂ cur p t S hc hc' hr hu1 hu2 hn hf1 hf2
    cases π₂ with
    | nil => cases hf2; rfl
    | cons c π₂ =>
      cases t with
      | null => simp [Tree.get] at hu1
      | node v l r =>
        obtain ⟨a, rfl⟩ := hr.exists_addr
        obtain ⟨n, Sb, So, ha, hv, hb, ho, hS, k1, k2, k3⟩ := hr.children b
        rw [follow_cons b π₁ hc ha] at hf1
        rw [follow_cons c π₂ hc ha] at hf2
        rw [Tree.get] at hu1 hu2
        obtain ⟨sl', q0, Sq, e1, -, -, -, e5, -⟩ := follow_spec s π₁ (.fld a b) (n.get b) _ u₁ Sb (readFld b ha) hb hu1
        rw [hf1] at e1
        cases e1
        have hw : ∃ n', s'.heap a = some (.obj n') ∧ (π₁ ≠ [] → n' = n) ∧ ∀ c, c ≠ b → n'.get c = n.get c := by
          rw [hh]
          rcases e5 with ⟨rfl, rfl⟩ | ⟨h1, a', b', rfl, hSa, _⟩
          · exact ⟨n.set b q, by simp only [written, ha, upd_same], fun h => absurd rfl h, fun c hcb => Node.get_set_ne _ _ hcb⟩
          · refine ⟨n, ?_, fun _ => rfl, fun _ _ => rfl⟩
            rw [written_ne, ha]; rintro rfl; exact k1 hSa
        obtain ⟨n', hn', hn1, hn2⟩ := hw
        rw [follow_cons c π₂ (hc' (by simp)) hn']
        by_cases hbc : c = b
        · subst hbc
          refine ih π₂ (.fld a c) (n.get c) _ Sb (readFld c ha) ?_ hb hu1 hu2 ?_ hf1 hf2
          · intro hne
            rw [readFld c hn', hn1 hne]
          · rintro ⟨h1, h2⟩
            exact hn ⟨List.cons_prefix_cons.2 ⟨rfl, h1⟩, by simpa using h2⟩
        · have hcb : c = !b := by cases b <;> cases c <;> first | rfl | exact absurd rfl hbc
          subst hcb
          refine follow_agree π₂ (.fld a !b) (n.get !b) _ So (readFld _ ha) ?_ ho ?_ hu2 hf2
          · rw [readFld _ hn', hn2 _ hbc]
          · intro x hx
            rw [hh]
            rcases e5 with ⟨rfl, rfl⟩ | ⟨h1, a', b', rfl, hSa, _⟩
            · rw [written_ne]; rintro rfl; exact k2 hx
            · rw [written_ne]; rintro rfl; exact k3 _ hSa hx

theorem get_put : ∀ (π₁ π₂ : List Bool) (t u₁ u₂ w : Tree), t.get π₁ = some u₁ → t.get π₂ = some u₂ →
    ¬ (π₁ <+: π₂ ∧ π₁ ≠ π₂) → ∃ u', (t.put π₁ w).get π₂ = some u' := by
  intro π₁
  induction π₁ with
  | nil =>
    intro π₂ t u₁ u₂ w _ _ hn
    have : π₂ = [] := Classical.byContradiction fun h2 => hn ⟨List.nil_prefix, Ne.symm h2⟩
    subst this
    exact ⟨w, by simp [Tree.put, Tree.get]⟩
  | cons b π₁ ih =>
    intro π₂ t u₁ u₂ w h1 h2 hn
    cases π₂ with
    | nil => exact ⟨_, by rw [Tree.get]⟩
    | cons c π₂ =>
      cases t with
      | null => simp [Tree.get] at h1
      | node v l r =>
        rw [Tree.get] at h1 h2
        by_cases hbc : c = b
        · subst hbc
          have := ih π₂ _ u₁ u₂ w h1 h2 (by
            rintro ⟨h1, h2⟩
            exact hn ⟨List.cons_prefix_cons.2 ⟨rfl, h1⟩, by simpa using h2⟩)
          cases c <;> (simp only [Tree.put]; rw [Tree.get]; exact this)
        · cases b <;> cases c <;> first | exact absurd rfl hbc | (simp only [Tree.put]; rw [Tree.get]; exact ⟨_, h2⟩)

/-- The same for the places of a program. -/
theorem resolve_same {s s1 : St} {a : Vals} {p q : Option Nat} {t : Tree} (hr : RelF s a p t) {src dst : Loc} {u₁ u₂ : Tree}
    (h1 : a.get src = some u₁) (h2 : a.get dst = some u₂)
    (hn : ¬ (dst.var = src.var ∧ src.path <+: dst.path ∧ src.path ≠ dst.path)) {sl d : Slot}
    (e1 : resolve src s = .ok sl s) (e2 : resolve dst s = .ok d s) (hh : s1.heap = written s.heap q sl)
    (hv : s1.vars = writtenVars s.vars q sl) (w : Tree) :
    resolve dst s1 = .ok d s1 ∧ ∃ u', (a.put src w).get dst = some u' := by
  obtain ⟨S, Sp, hr⟩ := hr
  obtain ⟨sl', qs, Sq, p₀, t₀, f1, f2, f3, f4, f5, -, -, f8, f9, -⟩ := resolve_spec hr h1
  obtain ⟨d', qd, Sd, p₁, t₁, g1, g2, g3, g4, g5, -, -, g8, g9, -⟩ := resolve_spec hr h2
  rw [e1] at f5; cases f5
  rw [e2] at g5; cases g5
  have e1' : follow (.var src.var) src.path s = .ok sl s := by
    unfold resolve at e1; rw [bind_ok (readVar f3)] at e1; exact e1
  have e2' : follow (.var dst.var) dst.path s = .ok d s := by
    unfold resolve at e2; rw [bind_ok (readVar g3)] at e2; exact e2
  by_cases hvar : dst.var = src.var
  · have hn' : ¬ (src.path <+: dst.path ∧ src.path ≠ dst.path) := fun h => hn ⟨hvar, h⟩
    rw [hvar] at g1 g3 e2'
    rw [f1] at g1; cases g1
    rw [f3] at g3; cases g3
    have hread : src.path ≠ [] → readSlot (.var src.var) s1 = .ok p₀ s1 := by
      intro hne
      rcases f9 with ⟨h, _⟩ | ⟨_, c, b, rfl, _⟩
      · exact absurd h hne
      · apply readVar; rw [hv]; exact f3
    constructor
    · have hex : ∃ p', readSlot (.var src.var) s1 = .ok p' s1 := by
        rcases f9 with ⟨_, rfl⟩ | ⟨h, _⟩
        · exact ⟨q, readVar (by rw [hv]; exact upd_same _ _ _)⟩
        · exact ⟨_, hread h⟩
      obtain ⟨p', hp'⟩ := hex
      unfold resolve
      rw [hvar, bind_ok hp']
      exact follow_same hh src.path dst.path _ p₀ t₀ (S src.var) (readVar f3) hread f4 f2 g2 hn' e1' e2'
    · obtain ⟨u', hu'⟩ := get_put src.path dst.path t₀ u₁ u₂ w f2 g2 hn'
      refine ⟨u', ?_⟩
      rw [put_eq a f1]
      unfold Vals.get
      rw [hvar, upd_same]; exact hu'
  · have hv' : s1.vars dst.var = some p₁ := by
      rw [hv]
      rcases f9 with ⟨_, rfl⟩ | ⟨h, c, b, rfl, _⟩
      · dsimp only [writtenVars]; rw [upd_ne _ _ hvar]; exact g3
      · exact g3
    constructor
    · unfold resolve
      rw [bind_ok (readVar hv')]
      refine follow_agree dst.path _ p₁ t₁ (S dst.var) (readVar g3) (readVar hv') g4 ?_ g2 e2'
      intro x hx
      rw [hh]
      rcases f9 with ⟨_, rfl⟩ | ⟨h, c, b, rfl, hc, _⟩
      · rfl
      · rw [written_ne]; rintro rfl; exact hr.disj _ _ _ hvar hx hc
    · refine ⟨u₂, ?_⟩
      rw [put_eq a f1]
      unfold Vals.get
      rw [upd_ne _ _ hvar]
      exact h2

/-! ## Temporaries -/

/-- The temporary becomes a variable. -/
theorem declare_spec {s : St} {a a' : Vals} {p : Option Nat} {t : Tree} (hr : RelF s a p t) {v : Nat}
    (ha : a.declare v t = some a') : ∃ s', declare v p s = .ok () s' ∧ Rel s' a' ∧ s'.throws = s.throws := by
  obtain ⟨S, Sp, hr⟩ := hr
  unfold Vals.declare at ha
  split at ha
  case h_2 => cases ha
  rename_i hav
  cases ha
  obtain ⟨hv, hS⟩ := hr.dead hav
  refine ⟨{ s with vars := upd s.vars v (some p) }, by simp only [declare, hv], ⟨upd S v Sp, fun _ => False, ?_, ?_, .null fun _ h => h,
    fun _ _ _ h => h, ?_, hr.fresh⟩, rfl⟩
  · intro w
    by_cases hw : w = v
    · subst hw; dsimp only; rw [upd_same, upd_same, upd_same]; exact hr.temp
    · dsimp only; rw [upd_ne _ _ hw, upd_ne _ _ hw, upd_ne _ _ hw]; exact hr.vars w
  · intro x y z hxy hx hy
    by_cases h1 : x = v
    · subst h1
      rw [upd_same] at hx; rw [upd_ne _ _ (Ne.symm hxy)] at hy
      exact hr.tdisj _ _ hy hx
    · rw [upd_ne _ _ h1] at hx
      by_cases h2 : y = v
      · subst h2; rw [upd_same] at hy; exact hr.tdisj _ _ hx hy
      · rw [upd_ne _ _ h2] at hy; exact hr.disj _ _ _ hxy hx hy
  · intro x hx
    right
    rcases hr.live x hx with h | ⟨w, h⟩
    · exact ⟨v, by rw [upd_same]; exact h⟩
    · by_cases hw : w = v
      · subst hw; exact absurd h (hS x)
      · exact ⟨w, by rw [upd_ne _ _ hw]; exact h⟩

/-- The temporary is destroyed. -/
theorem drop_spec {s : St} {a : Vals} {p : Option Nat} {t : Tree} (hr : RelF s a p t) {fuel : Nat} (hf : t.height ≤ fuel) :
    ∃ s', deletePtr fuel p s = .ok () s' ∧ Rel s' a ∧ s'.throws = s.throws := by
  obtain ⟨S, Sp, hr⟩ := hr
  obtain ⟨h', e, n, k⟩ := deletePtr_spec fuel s hr.temp hf
  refine ⟨_, e, ⟨S, fun _ => False, ?_, hr.disj, .null fun _ h => h, fun _ _ _ h => h, ?_, ?_⟩, rfl⟩
  · intro v
    exact (hr.vars v).frame fun x hx => k x (hr.tdisj v x hx)
  · intro x hx
    dsimp only at hx
    by_cases hp : Sp x
    · exact absurd (n x hp) hx
    · rw [k x hp] at hx
      rcases hr.live x hx with h | h
      · exact absurd h hp
      · exact .inr h
  · intro x hx
    dsimp only
    by_cases hp : Sp x
    · exact n x hp
    · rw [k x hp]; exact hr.fresh x hx

/-- A copy of the object at a place becomes the temporary, or an exception leaves everything as it was. -/
theorem copy_spec {s : St} {a : Vals} (hr : Rel s a) {x : Loc} {t : Tree} (hx : a.get x = some t) {sl : Slot}
    (hsl : resolve x s = .ok sl s) {fuel : Nat} (hf : t.height ≤ fuel) :
    ∃ p, readSlot sl s = .ok p s ∧
      ((∃ q s', copyPtr fuel p s = .ok q s' ∧ RelF s' a q t ∧ s'.vars = s.vars ∧
          (∀ y, s.heap y ≠ none → s'.heap y = s.heap y) ∧ ∀ b ∈ s'.throws, b ∈ s.throws) ∨
        (∃ s', copyPtr fuel p s = .exn s' ∧ Rel s' a ∧ (∀ b ∈ s'.throws, b ∈ s.throws) ∧ true ∈ s.throws)) := by
  obtain ⟨S, Sp, hr⟩ := hr
  obtain ⟨sl', p, Sq, p₀, t₀, h1, h2, h3, h4, h5, h6, h7, h8, h9, -⟩ := resolve_spec hr hx
  rw [hsl] at h5; cases h5
  have hSp : ∀ x, ¬ Sp x := by
    have := hr.temp
    cases this; assumption
  refine ⟨p, h6, ?_⟩
  rcases copyPtr_spec fuel s h7 hf hr.fresh with ⟨q, S', h', nx, ts, e, r, lo, k, le, fr, hts⟩ | ⟨nx, ts, e, le, hts, ht⟩
  · have hold : ∀ y, s.heap y ≠ none → ¬ S' y := fun y hy hS' => hy (hr.fresh y (lo y hS'))
    have hSold : ∀ v y, S v y → ¬ S' y := by
      intro v y hy
      obtain ⟨m, hm⟩ := (hr.vars v).live y hy
      exact hold y (by rw [hm]; simp)
    refine .inl ⟨q, _, e, ⟨S, S', ?_, hr.disj, r, hSold, ?_, fr⟩, rfl, fun y hy => k y (hold y hy), hts⟩
    · intro v
      exact (hr.vars v).frame fun y hy => k y (hSold v y hy)
    · intro y hy
      by_cases hy' : S' y
      · exact .inl hy'
      · dsimp only at hy
        rw [k y hy'] at hy
        rcases hr.live y hy with h | h
        · exact absurd h (hSp y)
        · exact .inr h
  · exact .inr ⟨_, e, ⟨S, Sp, hr.vars, hr.disj, hr.temp, hr.tdisj, hr.live, fun y hy => hr.fresh y (Nat.le_trans le hy)⟩, hts, ht⟩

/-- A new object becomes the temporary. -/
theorem make_spec {s : St} {a : Vals} (hr : Rel s a) (x : Int) :
    (∃ c s' s'', alloc s = .ok c s' ∧ construct c ⟨x, none, none⟩ s' = .ok () s'' ∧
      RelF s'' a (some c) (.node x .null .null) ∧ ∀ b ∈ s''.throws, b ∈ s.throws) ∨
    (∃ s', alloc s = .exn s' ∧ Rel s' a ∧ (∀ b ∈ s'.throws, b ∈ s.throws) ∧ true ∈ s.throws) := by
  obtain ⟨S, Sp, hr⟩ := hr
  have hSp : ∀ x, ¬ Sp x := by
    have := hr.temp
    cases this; assumption
  rcases alloc_spec s with ⟨ts, e, hts⟩ | ⟨ts, e, hts, ht⟩
  · have hnone := hr.fresh s.next (Nat.le_refl _)
    have hne : ∀ v y, S v y → y ≠ s.next := by
      rintro v y hy rfl
      obtain ⟨m, hm⟩ := (hr.vars v).live _ hy
      rw [hnone] at hm; cases hm
    refine .inl ⟨s.next, _, ⟨upd (upd s.heap s.next (some .raw)) s.next (some (.obj ⟨x, none, none⟩)), s.vars, s.next + 1, ts⟩,
      e, by simp only [construct, upd_same], ⟨S, fun y => y = s.next, ?_, hr.disj, ?_, hne, ?_, ?_⟩, hts⟩
    · intro v
      refine (hr.vars v).frame fun y hy => ?_
      dsimp only
      rw [upd_ne _ _ (hne v y hy), upd_ne _ _ (hne v y hy)]
    · exact .node (upd_same _ _ _) rfl (.null (S := fun _ => False) fun _ h => h) (.null (S := fun _ => False) fun _ h => h)
        (fun y => by simp) (fun h => h) (fun h => h) fun _ h => h.elim
    · intro y hy
      by_cases hy' : y = s.next
      · exact .inl hy'
      · dsimp only at hy
        rw [upd_ne _ _ hy', upd_ne _ _ hy'] at hy
        rcases hr.live y hy with h | h
        · exact absurd h (hSp y)
        · exact .inr h
    · intro y hy
      dsimp only at hy ⊢
      rw [upd_ne _ _ (by omega), upd_ne _ _ (by omega)]
      exact hr.fresh y (by omega)
  · exact .inr ⟨_, e, ⟨S, Sp, hr.vars, hr.disj, hr.temp, hr.tdisj, hr.live, hr.fresh⟩, hts, ht⟩

end Guanaqo.CopyPtr
