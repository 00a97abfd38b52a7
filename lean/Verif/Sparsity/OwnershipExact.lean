import Verif.Sparsity.Ownership

/-!
# C15: exactly when a copy of a converter can be read

Over every history of constructions, copies, moves, assignments and destructions: what an object refers to
can be read precisely as long as the original lives, that is, the object that was constructed from the
pattern, or the one it was moved to.
-/

namespace Guanaqo.Sparsity.Ownership

/-! ## Specification -/

/-- What an object stands for: the index arrays, which construction they come from, and whether the object is
the one that was constructed (or moved from it) or a copy. -/
structure Origin where
  content : Content
  root : Nat
  orig : Bool

/-- Objects with their origins. The second component counts the constructions. -/
abbrev Origins := (Nat → Option Origin) × Nat

/-- Constructions give a new root, copies share it. -/
def originStep (m : Origins) : Op → Origins
  | .construct i c => (upd m.1 i (some ⟨c, m.2, true⟩), m.2 + 1)
  | .copy j i => (upd m.1 j ((m.1 i).map fun e => { e with orig := false }), m.2)
  | .move j i => (upd (upd m.1 i none) j (m.1 i), m.2)
  | .destroy i => (upd m.1 i none, m.2)

/-- The origins after a history. -/
def origins (ops : List Op) : Nat → Option Origin := (ops.foldl originStep (fun _ => none, 0)).1

/-- The original of the construction `r` is alive. -/
def Alive (m : Nat → Option Origin) (r : Nat) : Prop := ∃ h e, m h = some e ∧ e.root = r ∧ e.orig = true

/-- The origins agree with the values of the specification of C15. -/
theorem origins_content (ops : List Op) (i : Nat) :
    (origins ops i).map Origin.content = ops.foldl specStep (fun _ => none) i := by
  have key : ∀ (ops : List Op) (m : Origins) (v : Nat → Option Content),
      (∀ i, (m.1 i).map Origin.content = v i) →
      ∀ i, ((ops.foldl originStep m).1 i).map Origin.content = ops.foldl specStep v i := by
    intro ops
    induction ops with
    | nil => intro m v h; exact h
    | cons op ops ih =>
      intro m v h
      refine ih _ _ ?_
      intro k
      cases op with
      | construct i c => simp only [originStep, specStep, upd]; split <;> simp [h]
      | copy j i =>
        simp only [originStep, specStep, upd]
        split
        · rw [← h i, Option.map_map]; rfl
        · exact h k
      | move j i =>
        simp only [originStep, specStep, upd]
        split
        · exact h i
        · split
          · rfl
          · exact h k
      | destroy i => simp only [originStep, specStep, upd]; split <;> simp [h]
  exact key ops _ _ (fun _ => rfl) i

/-! ## Invariant -/

/-- The invariant of all histories. -/
structure InvX (s : State) (m : Origins) : Prop where
  fresh : ∀ b, s.next ≤ b → s.heap b = none
  spans : ∀ i o, s.objs i = some o → o.span < s.next
  owned : ∀ i o b, s.objs i = some o → o.vec = some b → b < s.next ∧ ∃ c, s.heap b = some c
  distinct : ∀ i j o o' b, s.objs i = some o → s.objs j = some o' → o.vec = some b → o'.vec = some b → i = j
  noLeak : ∀ b c, s.heap b = some c → ∃ h o, s.objs h = some o ∧ o.vec = some b
  priv : ∀ h o b i o', s.objs h = some o → o.vec = some b → o.span ≠ b → s.objs i = some o' → o'.span ≠ b
  known : ∀ i o b, s.objs i = some o → o.vec = some b → ∃ e, m.1 i = some e
  obj : ∀ i e, m.1 i = some e → ∃ o, s.objs i = some o ∧ o.vec ≠ none ∧
    (e.orig = true ↔ o.vec = some o.span) ∧ ∀ c, s.heap o.span = some c → c = e.content
  roots : ∀ i e, m.1 i = some e → e.root < m.2
  same : ∀ i j e e' o o', m.1 i = some e → m.1 j = some e' → s.objs i = some o → s.objs j = some o' →
    (e.root = e'.root ↔ o.span = o'.span)

@[simp] theorem upd_self {α : Type} (f : Nat → α) (i : Nat) (v : α) : upd f i v i = v := if_pos rfl
theorem upd_other {α : Type} (f : Nat → α) {i k : Nat} (v : α) (h : k ≠ i) : upd f i v k = f k := if_neg h

theorem invX_empty : InvX State.empty (fun _ => none, 0) := by
  refine ⟨?_, ?_, ?_, ?_, ?_, ?_, ?_, ?_, ?_, ?_⟩
  · intro _ _; rfl
  · intro _ _ h; cases h
  · intro _ _ _ h; cases h
  · intro _ _ _ _ _ h; cases h
  · intro _ _ h; cases h
  · intro _ _ _ _ _ h; cases h
  · intro _ _ _ h; cases h
  · intro _ _ h; cases h
  · intro _ _ h; cases h
  · intro _ _ _ _ _ _ h; cases h

theorem absent_unknown {s : State} {m : Origins} (I : InvX s m) {i : Nat} (h : s.objs i = none) :
    m.1 i = none := by
  cases hm : m.1 i with
  | none => rfl
  | some e => obtain ⟨o, ho, -⟩ := I.obj i e hm; rw [h] at ho; cases ho

/-- A new object in a new place, with a block of its own. -/
theorem invX_new {s : State} {m : Origins} (I : InvX s m) {i : Nat} {c : Content} {sp : Nat} {e : Origin} {n : Nat}
    (hi : s.objs i = none) (hsp : sp = s.next ∨ ∃ j o, s.objs j = some o ∧ o.span = sp) (hn : m.2 ≤ n) (hroot : e.root < n)
    (horig : e.orig = true ↔ sp = s.next)
    (hc : ∀ c', upd s.heap s.next (some c) sp = some c' → c' = e.content)
    (hsame : ∀ j e' o', m.1 j = some e' → s.objs j = some o' → (e.root = e'.root ↔ sp = o'.span)) :
    InvX { heap := upd s.heap s.next (some c), next := s.next + 1, objs := upd s.objs i (some ⟨some s.next, sp⟩) }
      (upd m.1 i (some e), n) := by
  have hsp' : sp ≤ s.next := by
    rcases hsp with h | ⟨j, o, h1, h2⟩
    · omega
    · have := I.spans j o h1; omega
  refine ⟨?_, ?_, ?_, ?_, ?_, ?_, ?_, ?_, ?_, ?_⟩
  · intro b hb
    dsimp only at hb ⊢
    rw [upd_other _ _ (by omega)]
    exact I.fresh b (by omega)
  · intro k o hk
    dsimp only at hk ⊢
    by_cases ek : k = i
    · subst ek; rw [upd_self] at hk; cases hk; dsimp only; omega
    · rw [upd_other _ _ ek] at hk
      have := I.spans k o hk
      omega
  · intro k o b hk hb
    dsimp only at hk ⊢
    by_cases ek : k = i
    · subst ek; rw [upd_self] at hk; cases hk; cases hb
      exact ⟨by omega, c, upd_self _ _ _⟩
    · rw [upd_other _ _ ek] at hk
      obtain ⟨h1, c', h2⟩ := I.owned k o b hk hb
      exact ⟨by omega, c', by rw [upd_other _ _ (by omega)]; exact h2⟩
  · intro k l o o' b hk hl hb hb'
    dsimp only at hk hl
    by_cases ek : k = i
    · by_cases el : l = i
      · rw [ek, el]
      · subst ek; rw [upd_self] at hk; cases hk; cases hb
        rw [upd_other _ _ el] at hl
        exact absurd (I.owned l o' _ hl hb').1 (Nat.lt_irrefl _)
    · rw [upd_other _ _ ek] at hk
      by_cases el : l = i
      · subst el; rw [upd_self] at hl; cases hl; cases hb'
        exact absurd (I.owned k o _ hk hb).1 (Nat.lt_irrefl _)
      · rw [upd_other _ _ el] at hl
        exact I.distinct k l o o' b hk hl hb hb'
  · intro b c' hb
    dsimp only at hb ⊢
    by_cases eb : b = s.next
    · exact ⟨i, _, upd_self _ _ _, by rw [eb]⟩
    · rw [upd_other _ _ eb] at hb
      obtain ⟨h, o, h1, h2⟩ := I.noLeak b c' hb
      refine ⟨h, o, ?_, h2⟩
      rw [upd_other _ _ (by rintro rfl; rw [hi] at h1; cases h1)]
      exact h1
  · intro h o b k o' hh hb hne hk
    dsimp only at hh hk
    by_cases eh : h = i
    · subst eh; rw [upd_self] at hh; cases hh; cases hb
      dsimp only at hne
      by_cases ek : k = h
      · subst ek; rw [upd_self] at hk; cases hk; exact hne
      · rw [upd_other _ _ ek] at hk
        have := I.spans k o' hk
        omega
    · rw [upd_other _ _ eh] at hh
      by_cases ek : k = i
      · subst ek; rw [upd_self] at hk; cases hk
        dsimp only
        intro e'
        subst e'
        have h1 := (I.owned h o _ hh hb).1
        rcases hsp with h2 | ⟨j, o', h2, h3⟩
        · omega
        · exact I.priv h o sp j o' hh hb hne h2 h3
      · rw [upd_other _ _ ek] at hk
        exact I.priv h o b k o' hh hb hne hk
  · intro k o b hk hb
    dsimp only at hk ⊢
    by_cases ek : k = i
    · subst ek; exact ⟨e, upd_self _ _ _⟩
    · rw [upd_other _ _ ek] at hk ⊢
      exact I.known k o b hk hb
  · intro k e' hk
    dsimp only at hk ⊢
    by_cases ek : k = i
    · subst ek; rw [upd_self] at hk; cases hk
      refine ⟨_, upd_self _ _ _, by simp, ?_, hc⟩
      dsimp only
      rw [horig]
      exact ⟨fun h => by rw [h], fun h => by injection h with h; exact h.symm⟩
    · rw [upd_other _ _ ek] at hk
      obtain ⟨o, h1, h2, h3, h4⟩ := I.obj k e' hk
      refine ⟨o, by rw [upd_other _ _ ek]; exact h1, h2, h3, ?_⟩
      have := I.spans k o h1
      rw [upd_other _ _ (by omega)]
      exact h4
  · intro k e' hk
    dsimp only at hk ⊢
    by_cases ek : k = i
    · subst ek; rw [upd_self] at hk; cases hk; exact hroot
    · rw [upd_other _ _ ek] at hk
      have := I.roots k e' hk
      omega
  · intro k l e₁ e₂ o₁ o₂ hk hl ho₁ ho₂
    dsimp only at hk hl ho₁ ho₂
    by_cases ek : k = i
    · subst ek; rw [upd_self] at hk ho₁; cases hk; cases ho₁
      by_cases el : l = k
      · subst el; rw [upd_self] at hl ho₂; cases hl; cases ho₂; simp
      · rw [upd_other _ _ el] at hl ho₂
        exact hsame l e₂ o₂ hl ho₂
    · rw [upd_other _ _ ek] at hk ho₁
      by_cases el : l = i
      · subst el; rw [upd_self] at hl ho₂; cases hl; cases ho₂
        have := hsame k e₁ o₁ hk ho₁
        exact ⟨fun h => (this.1 h.symm).symm, fun h => (this.2 h.symm).symm⟩
      · rw [upd_other _ _ el] at hl ho₂
        exact I.same k l e₁ e₂ o₁ o₂ hk hl ho₁ ho₂

/-- A new object with empty vectors: a copy of one that was moved from. -/
theorem invX_hollow {s : State} {m : Origins} (I : InvX s m) {i : Nat} {sp : Nat}
    (hi : s.objs i = none) (hsp : ∃ j o, s.objs j = some o ∧ o.span = sp) :
    InvX { s with objs := upd s.objs i (some ⟨none, sp⟩) } m := by
  have hmi := absent_unknown I hi
  obtain ⟨j₀, o₀, hj₀, ho₀⟩ := hsp
  refine ⟨I.fresh, ?_, ?_, ?_, ?_, ?_, ?_, ?_, I.roots, ?_⟩
  · intro k o hk
    dsimp only at hk ⊢
    by_cases ek : k = i
    · subst ek; rw [upd_self] at hk; cases hk; dsimp only; rw [← ho₀]; exact I.spans _ _ hj₀
    · rw [upd_other _ _ ek] at hk; exact I.spans k o hk
  · intro k o b hk hb
    dsimp only at hk ⊢
    by_cases ek : k = i
    · subst ek; rw [upd_self] at hk; cases hk; cases hb
    · rw [upd_other _ _ ek] at hk; exact I.owned k o b hk hb
  · intro k l o o' b hk hl hb hb'
    dsimp only at hk hl
    by_cases ek : k = i
    · subst ek; rw [upd_self] at hk; cases hk; cases hb
    · by_cases el : l = i
      · subst el; rw [upd_self] at hl; cases hl; cases hb'
      · rw [upd_other _ _ ek] at hk
        rw [upd_other _ _ el] at hl
        exact I.distinct k l o o' b hk hl hb hb'
  · intro b c' hb
    dsimp only at hb ⊢
    obtain ⟨h, o, h1, h2⟩ := I.noLeak b c' hb
    exact ⟨h, o, by rw [upd_other _ _ (by rintro rfl; rw [hi] at h1; cases h1)]; exact h1, h2⟩
  · intro h o b k o' hh hb hne hk
    dsimp only at hh hk
    by_cases eh : h = i
    · subst eh; rw [upd_self] at hh; cases hh; cases hb
    · rw [upd_other _ _ eh] at hh
      by_cases ek : k = i
      · subst ek; rw [upd_self] at hk; cases hk
        dsimp only
        rw [← ho₀]
        exact I.priv h o b j₀ o₀ hh hb hne hj₀
      · rw [upd_other _ _ ek] at hk
        exact I.priv h o b k o' hh hb hne hk
  · intro k o b hk hb
    dsimp only at hk
    by_cases ek : k = i
    · subst ek; rw [upd_self] at hk; cases hk; cases hb
    · rw [upd_other _ _ ek] at hk; exact I.known k o b hk hb
  · intro k e hk
    have ek : k ≠ i := by rintro rfl; rw [hmi] at hk; cases hk
    dsimp only
    rw [upd_other _ _ ek]
    exact I.obj k e hk
  · intro k l e₁ e₂ o₁ o₂ hk hl ho₁ ho₂
    dsimp only at ho₁ ho₂
    have ek : k ≠ i := by rintro rfl; rw [hmi] at hk; cases hk
    have el : l ≠ i := by rintro rfl; rw [hmi] at hl; cases hl
    rw [upd_other _ _ ek] at ho₁
    rw [upd_other _ _ el] at ho₂
    exact I.same k l e₁ e₂ o₁ o₂ hk hl ho₁ ho₂

/-- Moves. -/
theorem invX_move {s : State} {m : Origins} (I : InvX s m) {i j : Nat} {o : Obj} (hj : s.objs j = none)
    (hi : s.objs i = some o) : InvX (s.moveFrom j i o) (upd (upd m.1 i none) j (m.1 i), m.2) := by
  have hij : i ≠ j := by rintro rfl; rw [hi] at hj; cases hj
  -- every object afterwards was an object before, and owns what it owned, or nothing
  have back : ∀ k x, (s.moveFrom j i o).objs k = some x →
      (k = j ∧ x = o) ∨ (k = i ∧ x = ⟨none, o.span⟩) ∨ (k ≠ i ∧ k ≠ j ∧ s.objs k = some x) := by
    intro k x hk
    simp only [State.moveFrom] at hk
    by_cases ek : k = j
    · subst ek; rw [upd_self] at hk; cases hk; exact .inl ⟨rfl, rfl⟩
    · rw [upd_other _ _ ek] at hk
      by_cases ei : k = i
      · subst ei; rw [upd_self] at hk; cases hk; exact .inr (.inl ⟨rfl, rfl⟩)
      · rw [upd_other _ _ ei] at hk; exact .inr (.inr ⟨ei, ek, hk⟩)
  have span : ∀ k x, (s.moveFrom j i o).objs k = some x → ∃ k' x', s.objs k' = some x' ∧ x'.span = x.span := by
    intro k x hk
    rcases back k x hk with ⟨_, rfl⟩ | ⟨_, rfl⟩ | ⟨_, _, h⟩
    · exact ⟨i, x, hi, rfl⟩
    · exact ⟨i, o, hi, rfl⟩
    · exact ⟨k, x, h, rfl⟩
  have own : ∀ k x b, (s.moveFrom j i o).objs k = some x → x.vec = some b →
      (k = j ∧ s.objs i = some x) ∨ (k ≠ i ∧ k ≠ j ∧ s.objs k = some x) := by
    intro k x b hk hb
    rcases back k x hk with ⟨h, rfl⟩ | ⟨_, rfl⟩ | h
    · exact .inl ⟨h, hi⟩
    · cases hb
    · exact .inr h
  have orig : ∀ k e, upd (upd m.1 i none) j (m.1 i) k = some e →
      (k = j ∧ m.1 i = some e) ∨ (k ≠ i ∧ k ≠ j ∧ m.1 k = some e) := by
    intro k e hk
    by_cases ek : k = j
    · subst ek; rw [upd_self] at hk; exact .inl ⟨rfl, hk⟩
    · rw [upd_other _ _ ek] at hk
      by_cases ei : k = i
      · subst ei; rw [upd_self] at hk; cases hk
      · rw [upd_other _ _ ei] at hk; exact .inr ⟨ei, ek, hk⟩
  have atj : (s.moveFrom j i o).objs j = some o := by simp [State.moveFrom]
  have atk : ∀ k, k ≠ i → k ≠ j → (s.moveFrom j i o).objs k = s.objs k := by
    intro k h1 h2
    simp only [State.moveFrom]
    rw [upd_other _ _ h2, upd_other _ _ h1]
  refine ⟨I.fresh, ?_, ?_, ?_, ?_, ?_, ?_, ?_, ?_, ?_⟩
  · intro k x hk
    obtain ⟨k', x', h1, h2⟩ := span k x hk
    rw [← h2]
    exact I.spans k' x' h1
  · intro k x b hk hb
    rcases own k x b hk hb with ⟨_, h⟩ | ⟨_, _, h⟩
    · exact I.owned i x b h hb
    · exact I.owned k x b h hb
  · intro k l x y b hk hl hb hb'
    rcases own k x b hk hb with ⟨e1, h1⟩ | ⟨e1, e1', h1⟩ <;>
      rcases own l y b hl hb' with ⟨e2, h2⟩ | ⟨e2, e2', h2⟩
    · rw [e1, e2]
    · exact absurd (I.distinct i l x y b h1 h2 hb hb').symm e2
    · exact absurd (I.distinct k i x y b h1 h2 hb hb') e1
    · exact I.distinct k l x y b h1 h2 hb hb'
  · intro b c hb
    obtain ⟨h, x, h1, h2⟩ := I.noLeak b c hb
    by_cases e : h = i
    · subst e; rw [hi] at h1; cases h1; exact ⟨j, o, atj, h2⟩
    · have e' : h ≠ j := by rintro rfl; rw [hj] at h1; cases h1
      exact ⟨h, x, by rw [atk h e e']; exact h1, h2⟩
  · intro h x b k y hh hb hne hk
    obtain ⟨k', y', h1, h2⟩ := span k y hk
    rw [← h2]
    rcases own h x b hh hb with ⟨_, h3⟩ | ⟨_, _, h3⟩
    · exact I.priv i x b k' y' h3 hb hne h1
    · exact I.priv h x b k' y' h3 hb hne h1
  · intro k x b hk hb
    dsimp only
    rcases own k x b hk hb with ⟨e1, h1⟩ | ⟨e1, e1', h1⟩
    · rw [e1, upd_self]; exact I.known i x b h1 hb
    · rw [upd_other _ _ e1', upd_other _ _ e1]; exact I.known k x b h1 hb
  · intro k e hk
    rcases orig k e hk with ⟨e1, h1⟩ | ⟨e1, e1', h1⟩
    · obtain ⟨x, h2, h3⟩ := I.obj i e h1
      rw [hi] at h2
      cases h2
      exact ⟨o, by rw [e1]; exact atj, h3⟩
    · obtain ⟨x, h2, h3⟩ := I.obj k e h1
      exact ⟨x, by rw [atk k e1 e1']; exact h2, h3⟩
  · intro k e hk
    rcases orig k e hk with ⟨e1, h1⟩ | ⟨e1, e1', h1⟩
    · exact I.roots i e h1
    · exact I.roots k e h1
  · intro k l e₁ e₂ o₁ o₂ hk hl ho₁ ho₂
    have src : ∀ k e x, upd (upd m.1 i none) j (m.1 i) k = some e → (s.moveFrom j i o).objs k = some x →
        ∃ k', m.1 k' = some e ∧ s.objs k' = some x := by
      intro k e x hk hx
      rcases orig k e hk with ⟨e1, h1⟩ | ⟨e1, e1', h1⟩
      · rw [e1, atj] at hx; cases hx; exact ⟨i, h1, hi⟩
      · rw [atk k e1 e1'] at hx; exact ⟨k, h1, hx⟩
    obtain ⟨k', h1, h2⟩ := src k e₁ o₁ hk ho₁
    obtain ⟨l', h3, h4⟩ := src l e₂ o₂ hl ho₂
    exact I.same k' l' e₁ e₂ o₁ o₂ h1 h3 h2 h4

/-- Destructions. -/
theorem invX_destroy {s : State} {m : Origins} (I : InvX s m) {i : Nat} {o : Obj} (hi : s.objs i = some o) :
    InvX (s.destroy i o) (upd m.1 i none, m.2) := by
  have back : ∀ k x, (s.destroy i o).objs k = some x → k ≠ i ∧ s.objs k = some x := by
    intro k x hk
    simp only [State.destroy] at hk
    by_cases e : k = i
    · subst e; rw [upd_self] at hk; cases hk
    · rw [upd_other _ _ e] at hk; exact ⟨e, hk⟩
  have orig : ∀ k e, upd m.1 i none k = some e → k ≠ i ∧ m.1 k = some e := by
    intro k x hk
    by_cases e : k = i
    · subst e; rw [upd_self] at hk; cases hk
    · rw [upd_other _ _ e] at hk; exact ⟨e, hk⟩
  have atk : ∀ k, k ≠ i → (s.destroy i o).objs k = s.objs k := fun k h => upd_other _ _ h
  have heap : ∀ b c, (s.destroy i o).heap b = some c → s.heap b = some c ∧ o.vec ≠ some b := by
    intro b c hb
    simp only [State.destroy] at hb
    cases hv : o.vec with
    | none => rw [hv] at hb; exact ⟨hb, fun h => by cases h⟩
    | some b' =>
      rw [hv] at hb
      simp only at hb
      by_cases e : b = b'
      · subst e; rw [upd_self] at hb; cases hb
      · rw [upd_other _ _ e] at hb; exact ⟨hb, fun h => by injection h with h; exact e h.symm⟩
  have heap' : ∀ b, o.vec ≠ some b → (s.destroy i o).heap b = s.heap b := by
    intro b hb
    simp only [State.destroy]
    cases hv : o.vec with
    | none => rfl
    | some b' => exact upd_other _ _ (by rintro rfl; exact hb hv)
  refine ⟨?_, ?_, ?_, ?_, ?_, ?_, ?_, ?_, ?_, ?_⟩
  · intro b hb
    cases h : (s.destroy i o).heap b with
    | none => rfl
    | some c => have := (heap b c h).1; rw [I.fresh b hb] at this; cases this
  · intro k x hk
    exact I.spans k x (back k x hk).2
  · intro k x b hk hb
    obtain ⟨h1, h2⟩ := back k x hk
    obtain ⟨h3, c, h4⟩ := I.owned k x b h2 hb
    exact ⟨h3, c, by rw [heap' b (fun h => h1 (I.distinct k i x o b h2 hi hb h))]; exact h4⟩
  · intro k l x y b hk hl hb hb'
    exact I.distinct k l x y b (back k x hk).2 (back l y hl).2 hb hb'
  · intro b c hb
    obtain ⟨h1, h2⟩ := heap b c hb
    obtain ⟨h, x, h3, h4⟩ := I.noLeak b c h1
    have e : h ≠ i := by rintro rfl; rw [hi] at h3; cases h3; exact h2 h4
    exact ⟨h, x, by rw [atk h e]; exact h3, h4⟩
  · intro h x b k y hh hb hne hk
    exact I.priv h x b k y (back h x hh).2 hb hne (back k y hk).2
  · intro k x b hk hb
    obtain ⟨h1, h2⟩ := back k x hk
    dsimp only
    rw [upd_other _ _ h1]
    exact I.known k x b h2 hb
  · intro k e hk
    obtain ⟨h1, h2⟩ := orig k e hk
    obtain ⟨x, h3, h4, h5, h6⟩ := I.obj k e h2
    exact ⟨x, by rw [atk k h1]; exact h3, h4, h5, fun c hc => h6 c (heap _ c hc).1⟩
  · intro k e hk
    exact I.roots k e (orig k e hk).2
  · intro k l e₁ e₂ o₁ o₂ hk hl ho₁ ho₂
    exact I.same k l e₁ e₂ o₁ o₂ (orig k e₁ hk).2 (orig l e₂ hl).2 (back k o₁ ho₁).2 (back l o₂ ho₂).2

/-- Every operation keeps the invariant. -/
theorem invX_step {s s' : State} {m : Origins} {op : Op} (I : InvX s m) (he : exec s op = .ok s') :
    InvX s' (originStep m op) := by
  cases op with
  | construct i c =>
    simp only [exec] at he
    split at he
    · rename_i hi
      cases he
      refine invX_new I hi (.inl rfl) (Nat.le_succ _) (Nat.lt_succ_self _) (by simp) ?_ ?_
      · intro c' h; rw [upd_self] at h; cases h; rfl
      · intro j e' o' hj ho
        have h1 := I.roots j e' hj
        have h2 := I.spans j o' ho
        dsimp only
        constructor <;> intro h <;> omega
    · cases he
  | copy j i =>
    simp only [exec] at he
    split at he
    · rename_i o ho
      split at he
      · rename_i hj
        cases he
        simp only [originStep]
        cases hv : o.vec with
        | none =>
          have hm : m.1 i = none := by
            cases hm : m.1 i with
            | none => rfl
            | some e => obtain ⟨x, h1, h2, -⟩ := I.obj i e hm; rw [ho] at h1; cases h1; exact absurd hv h2
          have : upd m.1 j (none : Option Origin) = m.1 := by
            funext k
            by_cases e : k = j
            · rw [e, upd_self, absent_unknown I hj]
            · rw [upd_other _ _ e]
          rw [hm]
          simp only [Option.map_none, this, State.copyFrom, hv]
          exact invX_hollow I hj ⟨i, o, ho, rfl⟩
        | some b =>
          obtain ⟨e, he⟩ := I.known i o b ho hv
          obtain ⟨_, c, hc⟩ := I.owned i o b ho hv
          obtain ⟨x, h1, h2, h3, h4⟩ := I.obj i e he
          rw [ho] at h1
          cases h1
          have hsp := I.spans i o ho
          rw [he]
          simp only [Option.map_some, State.copyFrom, hv, hc]
          refine invX_new I hj (.inr ⟨i, o, ho, rfl⟩) (Nat.le_refl _) (I.roots i e he) ?_ ?_ ?_
          · dsimp only
            exact ⟨fun h => (by cases h), fun h => by omega⟩
          · intro c' h
            rw [upd_other _ _ (by omega)] at h
            exact h4 c' h
          · intro k e' o' hk ho'
            exact I.same i k e e' o o' he hk ho ho'
      · cases he
    · cases he
  | move j i =>
    simp only [exec] at he
    split at he
    · rename_i o ho
      split at he
      · rename_i hj
        cases he
        exact invX_move I hj ho
      · cases he
    · cases he
  | destroy i =>
    simp only [exec] at he
    split at he
    · rename_i o ho
      cases he
      exact invX_destroy I ho
    · cases he

theorem invX_run {ops : List Op} {s s' : State} {m : Origins} (I : InvX s m)
    (he : ops.foldlM exec s = .ok s') : InvX s' (ops.foldl originStep m) := by
  induction ops generalizing s m with
  | nil => cases he; exact I
  | cons op ops ih =>
    rw [List.foldlM_cons] at he
    obtain ⟨s₁, h1, h2⟩ := res_bind_ok.1 he
    exact ih (invX_step I h1) h2

/-- **C15**, exactly, for every history: an object that stands for a pattern gives that pattern if the
original of its construction is alive, and reading it is undefined otherwise. It never gives another
pattern. -/
theorem read_iff_alive (ops : List Op) (s : State) (he : ops.foldlM exec State.empty = .ok s) (i : Nat)
    (e : Origin) (hi : origins ops i = some e) :
    (Alive (origins ops) e.root → read s i = .ok e.content) ∧
    (¬ Alive (origins ops) e.root → read s i = .error .ub) := by
  have I := invX_run invX_empty he
  obtain ⟨o, h1, h2, h3, h4⟩ := I.obj i e hi
  have hread : read s i = match s.heap o.span with | some c => .ok c | none => .error .ub := by
    simp only [read, h1]
    cases s.heap o.span <;> rfl
  constructor
  · rintro ⟨h, e', h5, h6, h7⟩
    obtain ⟨o', h8, h9, h10, h11⟩ := I.obj h e' h5
    have hv := h10.1 h7
    have := (I.same h i e' e o' o h5 hi h8 h1).1 h6
    obtain ⟨_, c, hc⟩ := I.owned h o' _ h8 hv
    rw [this] at hc
    rw [hread, hc, h4 c hc]
  · intro hno
    rw [hread]
    cases hh : s.heap o.span with
    | none => rfl
    | some c =>
      exfalso
      obtain ⟨h, o', h5, h6⟩ := I.noLeak _ c hh
      obtain ⟨e', h7⟩ := I.known h o' _ h5 h6
      have h8 : o'.span = o.span := by
        by_contra hne
        exact I.priv h o' _ i o h5 h6 hne h1 rfl
      obtain ⟨o'', h9, h10, h11, h12⟩ := I.obj h e' h7
      rw [h5] at h9
      cases h9
      exact hno ⟨h, e', h7, (I.same h i e' e o' o h7 hi h5 h1).2 h8, h11.2 (by rw [h6, h8])⟩

/-! ## Assignments -/

/-- Programs that also assign converters to each other. -/
inductive Stmt where
  | op (o : Op)
  /-- `j = i;` -/
  | copyAssign (j i : Nat)
  /-- `j = std::move(i);` -/
  | moveAssign (j i : Nat)

/-- Implicit assignment operators: the vectors release their storage and take a copy of the other's, or its
storage; the spans are copied. (Here vectors get new storage when they are assigned to, as they do when the old
one is too small. Self-assignment does nothing; self-move is left out.) -/
def Stmt.ops : Stmt → List Op
  | .op o => [o]
  | .copyAssign j i => if j = i then [] else [.destroy j, .copy j i]
  | .moveAssign j i => if j = i then [] else [.destroy j, .move j i]

/-- C15, exactly, for programs with assignments. -/
theorem read_iff_alive_assign (p : List Stmt) (s : State)
    (he : (p.flatMap Stmt.ops).foldlM exec State.empty = .ok s) (i : Nat) (e : Origin)
    (hi : origins (p.flatMap Stmt.ops) i = some e) :
    (Alive (origins (p.flatMap Stmt.ops)) e.root → read s i = .ok e.content) ∧
    (¬ Alive (origins (p.flatMap Stmt.ops)) e.root → read s i = .error .ub) :=
  read_iff_alive _ s he i e hi

/-- A copy outlives its original: it cannot be read; one of an original that was moved can. -/
example : ∃ s, ([.construct 0 ([1], [0, 1]), .copy 1 0, .move 2 0, .destroy 0] : List Op).foldlM exec State.empty
    = .ok s ∧ read s 1 = .ok ([1], [0, 1]) := ⟨_, rfl, rfl⟩

example : ∃ s, ([.construct 0 ([1], [0, 1]), .copy 1 0, .move 2 0, .destroy 2] : List Op).foldlM exec State.empty
    = .ok s ∧ read s 1 = .error .ub := ⟨_, rfl, rfl⟩

example : Alive (origins [.construct 0 ([1], [0, 1]), .copy 1 0, .move 2 0, .destroy 0]) 0 :=
  ⟨2, ⟨([1], [0, 1]), 0, true⟩, rfl, rfl, rfl⟩

/-- Assigned to from another converter, the original takes its copies down with it. -/
example : ∃ s, (([.op (.construct 0 ([1], [0, 1])), .op (.copy 1 0), .op (.construct 2 ([], [0])),
    .copyAssign 0 2] : List Stmt).flatMap Stmt.ops).foldlM exec State.empty = .ok s ∧
    read s 1 = .error .ub ∧ read s 0 = .ok ([], [0]) := ⟨_, rfl, rfl, rfl⟩

end Guanaqo.Sparsity.Ownership
