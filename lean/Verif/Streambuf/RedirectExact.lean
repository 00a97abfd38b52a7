import Verif.Streambuf.Redirect

/-!
# C39: which histories of redirect guards are right

The destructor of a guard that was moved from restores the buffer that the stream had when the redirection began, although it owns nothing any
more. A properly nested history of guards is right at all times exactly if every such destructor finds the stream with that buffer already.
-/

namespace Guanaqo.Redirect

/-- For every guard variable, the stream and the buffer that it should have had when the redirection began; it goes along when the guard is moved. -/
def heldStep (orig : Nat → Nat) (p : Spec) (held : Nat → Nat × Nat) : Op → Nat → Nat × Nat
  | .ctor g os _ => upd held g (os, target orig p.stack os)
  | .move g' g => upd held g' (held g)
  | .dtor _ => held
  | .write _ _ => held

/-- Whenever a guard that was moved from is destroyed, its stream should have the buffer from before the redirection. -/
def Benign (orig : Nat → Nat) : Spec → (Nat → Nat × Nat) → List Op → Prop
  | _, _, [] => True
  | p, held, op :: ops =>
    (∀ g, op = .dtor g → g ∈ p.husks → target orig p.stack (held g).1 = (held g).2) ∧
    ∀ p', specStep orig p op = some p' → Benign orig p' (heldStep orig p held op) ops

/-- All is as it should be. -/
def Right (orig : Nat → Nat) (s : State) (p : Spec) : Prop := s.rd = target orig p.stack ∧ s.sink = p.sink

/-- The owners of redirections hold what was there before. -/
def HeldOk (orig : Nat → Nat) (held : Nat → Nat × Nat) : Stack → Prop
  | [] => True
  | (g, os, _) :: st => held g = (os, target orig st os) ∧ (∀ x ∈ st, x.1 ≠ g) ∧ HeldOk orig held st

theorem HeldOk.congr {orig : Nat → Nat} {f f' : Nat → Nat × Nat} {st : Stack} (h : HeldOk orig f st) (he : ∀ x ∈ st, f' x.1 = f x.1) :
    HeldOk orig f' st := by
  induction st with
  | nil => trivial
  | cons x st ih =>
    obtain ⟨g, os, t⟩ := x
    exact ⟨by rw [he (g, os, t) (by simp)]; exact h.1, h.2.1, ih h.2.2 (fun y hy => he y (by simp [hy]))⟩

/-- The invariant, apart from `Right`. -/
structure InvH (orig : Nat → Nat) (s : State) (p : Spec) (held : Nat → Nat × Nat) : Prop where
  stack : HeldOk orig held p.stack
  own : ∀ x ∈ p.stack, s.guards x.1 = some (held x.1) ∧ x.1 ∉ p.husks
  husk : ∀ g ∈ p.husks, s.guards g = some (held g)
  nodup : p.husks.Nodup

theorem upd_eq {α : Type} (f : Nat → α) (i : Nat) (v : α) : upd f i v i = v := by simp [upd]

theorem upd_ne {α : Type} (f : Nat → α) {i k : Nat} (v : α) (h : k ≠ i) : upd f i v k = f k := by simp [upd, h]

/-- One statement: the rest of the invariant is kept if all is right before, and all is right afterwards unless a moved-from guard changes a
buffer. -/
theorem right_step {orig : Nat → Nat} {s s' : State} {p p' : Spec} {held : Nat → Nat × Nat} {op : Op} (hr : Right orig s p) (h : InvH orig s p held)
    (he : exec s op = .ok s') (hs : specStep orig p op = some p') :
    InvH orig s' p' (heldStep orig p held op) ∧
    (Right orig s' p' ↔ ∀ g, op = .dtor g → g ∈ p.husks → target orig p.stack (held g).1 = (held g).2) := by
  obtain ⟨h1, h2⟩ := hr
  cases op with
  | write os b =>
    cases he; cases hs
    refine ⟨⟨h.stack, h.own, h.husk, h.nodup⟩, iff_of_true ⟨h1, ?_⟩ (fun g e => nomatch e)⟩
    dsimp only
    rw [h1, h2]
  | ctor g os buf =>
    simp only [exec] at he
    split at he
    · rename_i hn
      cases he; cases hs
      have hg1 : ∀ x ∈ p.stack, x.1 ≠ g := by
        rintro x hx rfl
        rw [(h.own x hx).1] at hn
        cases hn
      have hg2 : g ∉ p.husks := by
        intro hx
        rw [h.husk g hx] at hn
        cases hn
      refine ⟨⟨⟨upd_eq _ _ _, hg1, h.stack.congr fun x hx => upd_ne _ _ (hg1 x hx)⟩, ?_, ?_, h.nodup⟩, iff_of_true ⟨?_, h2⟩ (fun g e => nomatch e)⟩
      · intro x hx
        rcases List.mem_cons.1 hx with rfl | hx
        · refine ⟨?_, hg2⟩
          show upd s.guards g _ g = some (upd held g _ g)
          rw [upd_eq, upd_eq, h1]
        · refine ⟨?_, (h.own x hx).2⟩
          show upd s.guards g _ x.1 = some (upd held g _ x.1)
          rw [upd_ne _ _ (hg1 x hx), upd_ne _ _ (hg1 x hx)]
          exact (h.own x hx).1
      · intro k hk
        have hne : k ≠ g := by rintro rfl; exact hg2 hk
        show upd s.guards g _ k = some (upd held g _ k)
        rw [upd_ne _ _ hne, upd_ne _ _ hne]
        exact h.husk k hk
      · funext k
        simp only [upd, target, h1]
    · cases he
  | move g' g =>
    simp only [specStep] at hs
    split at hs
    · rename_i k os t st hst
      split at hs
      · rename_i e
        subst e
        cases hs
        have hst' := h.stack
        have hown := h.own
        rw [hst] at hst' hown
        simp only [exec] at he
        rw [(hown (k, os, t) (by simp)).1] at he
        dsimp only at he
        split at he
        · rename_i hn
          cases he
          have hne : k ≠ g' := by
            rintro rfl
            rw [(hown (k, os, t) (by simp)).1] at hn
            cases hn
          have hg1 : ∀ x ∈ st, x.1 ≠ g' := by
            rintro x hx rfl
            rw [(hown x (by simp [hx])).1] at hn
            cases hn
          have hg2 : g' ∉ p.husks := by
            intro hx
            rw [h.husk g' hx] at hn
            cases hn
          refine ⟨⟨⟨?_, hg1, hst'.2.2.congr fun x hx => upd_ne _ _ (hg1 x hx)⟩, ?_, ?_, ?_⟩, iff_of_true ⟨?_, h2⟩ (fun g e => nomatch e)⟩
          · show upd held g' (held k) g' = _
            rw [upd_eq]
            exact hst'.1
          · intro x hx
            rcases List.mem_cons.1 hx with rfl | hx
            · refine ⟨?_, ?_⟩
              · show upd s.guards g' _ g' = some (upd held g' _ g')
                rw [upd_eq, upd_eq]
              · show g' ∉ k :: p.husks
                rw [List.mem_cons, not_or]
                exact ⟨Ne.symm hne, hg2⟩
            · refine ⟨?_, ?_⟩
              · show upd s.guards g' _ x.1 = some (upd held g' _ x.1)
                rw [upd_ne _ _ (hg1 x hx), upd_ne _ _ (hg1 x hx)]
                exact (hown x (by simp [hx])).1
              · show x.1 ∉ k :: p.husks
                rw [List.mem_cons, not_or]
                exact ⟨hst'.2.1 x hx, (hown x (by simp [hx])).2⟩
          · intro y hy
            have hy' : y ≠ g' := by
              rintro rfl
              rcases List.mem_cons.1 hy with rfl | hy
              · exact hne rfl
              · exact hg2 hy
            show upd s.guards g' _ y = some (upd held g' _ y)
            rw [upd_ne _ _ hy', upd_ne _ _ hy']
            rcases List.mem_cons.1 hy with rfl | hy
            · exact (hown (y, os, t) (by simp)).1
            · exact h.husk y hy
          · exact List.nodup_cons.2 ⟨(hown (k, os, t) (by simp)).2, h.nodup⟩
          · show s.rd = _
            rw [h1, hst]
            rfl
        · cases he
      · cases hs
    · cases hs
  | dtor g =>
    by_cases hg : g ∈ p.husks
    · simp only [specStep, hg, if_true] at hs
      cases hs
      simp only [exec] at he
      rw [h.husk g hg] at he
      cases he
      refine ⟨⟨h.stack, ?_, ?_, h.nodup.erase g⟩, ?_⟩
      · intro x hx
        have hne : x.1 ≠ g := by
          rintro rfl
          exact (h.own x hx).2 hg
        refine ⟨?_, fun hm => (h.own x hx).2 (List.mem_of_mem_erase hm)⟩
        show upd s.guards g none x.1 = _
        rw [upd_ne _ _ hne]
        exact (h.own x hx).1
      · intro k hk
        have hk' := (List.Nodup.mem_erase_iff h.nodup).1 hk
        show upd s.guards g none k = _
        rw [upd_ne _ _ hk'.1]
        exact h.husk k hk'.2
      · constructor
        · rintro ⟨r1, -⟩ k e -
          cases e
          have := congrFun r1 (held g).1
          dsimp only at this
          rw [upd_eq] at this
          exact this.symm
        · intro hall
          refine ⟨?_, h2⟩
          have := hall g rfl hg
          funext k
          show upd s.rd (held g).1 (held g).2 k = _
          by_cases e : k = (held g).1
          · rw [e, upd_eq, this]
          · rw [upd_ne _ _ e, h1]
    · simp only [specStep, hg, if_false] at hs
      split at hs
      · rename_i k os t st hst
        split at hs
        · rename_i e
          subst e
          cases hs
          have hst' := h.stack
          have hown := h.own
          rw [hst] at hst' hown
          simp only [exec] at he
          rw [(hown (k, os, t) (by simp)).1, hst'.1] at he
          cases he
          refine ⟨⟨hst'.2.2, ?_, ?_, h.nodup⟩, iff_of_true ⟨?_, h2⟩ (fun g e hm => by cases e; exact absurd hm hg)⟩
          · intro x hx
            refine ⟨?_, (hown x (by simp [hx])).2⟩
            show upd s.guards k none x.1 = _
            rw [upd_ne _ _ (hst'.2.1 x hx)]
            exact (hown x (by simp [hx])).1
          · intro y hy
            have hne : y ≠ k := by rintro rfl; exact hg hy
            show upd s.guards k none y = _
            rw [upd_ne _ _ hne]
            exact h.husk y hy
          · show upd s.rd os _ = _
            rw [h1, hst, target_pop]
        · cases hs
      · cases hs

/-- **C39**, exactly. A history of guards, properly nested, is right at all times (every stream has the buffer of the innermost active redirection,
and every byte went where it should) if and only if every moved-from guard is destroyed when its stream should have the buffer from before the
redirection. -/
theorem redirect_right_iff (orig : Nat → Nat) (ops : List Op) (s : State) (p : Spec) (he : ops.foldlM exec (start orig) = .ok s)
    (hs : ops.foldlM (specStep orig) specStart = some p) :
    (∀ (pre suf : List Op) (s' : State) (p' : Spec), ops = pre ++ suf → pre.foldlM exec (start orig) = .ok s' →
      pre.foldlM (specStep orig) specStart = some p' → s'.rd = target orig p'.stack ∧ s'.sink = p'.sink) ↔
    Benign orig specStart (fun _ => (0, 0)) ops := by
  have key : ∀ (ops : List Op) (s₀ : State) (p₀ : Spec) (held : Nat → Nat × Nat), Right orig s₀ p₀ → InvH orig s₀ p₀ held →
      ops.foldlM exec s₀ = .ok s → ops.foldlM (specStep orig) p₀ = some p →
      ((∀ (pre suf : List Op) (s' : State) (p' : Spec), ops = pre ++ suf → pre.foldlM exec s₀ = .ok s' →
        pre.foldlM (specStep orig) p₀ = some p' → Right orig s' p') ↔ Benign orig p₀ held ops) := by
    intro ops
    induction ops with
    | nil =>
      intro s₀ p₀ held hr h _ _
      refine iff_of_true (fun pre suf s' p' e h1 h2 => ?_) trivial
      have : pre = [] := (List.append_eq_nil_iff.1 e.symm).1
      subst this
      cases h1; cases h2
      exact hr
    | cons op ops ih =>
      intro s₀ p₀ held hr h he hs
      rw [List.foldlM_cons] at he hs
      obtain ⟨s₁, h1, h2⟩ := res_bind_ok.1 he
      obtain ⟨p₁, k1, k2⟩ := Option.bind_eq_some_iff.1 hs
      obtain ⟨hI, hiff⟩ := right_step hr h h1 k1
      constructor
      · intro hall
        have hr1 : Right orig s₁ p₁ := hall [op] ops s₁ p₁ rfl
          (by rw [List.foldlM_cons, h1]; rfl) (by rw [List.foldlM_cons, k1]; rfl)
        refine ⟨hiff.1 hr1, fun p' hp' => ?_⟩
        rw [k1] at hp'
        cases hp'
        refine (ih s₁ p₁ _ hr1 hI h2 k2).1 fun pre suf s' p' e e1 e2 => ?_
        refine hall (op :: pre) suf s' p' (by rw [e]; rfl) ?_ ?_
        · rw [List.foldlM_cons, h1]; exact e1
        · rw [List.foldlM_cons, k1]; exact e2
      · rintro ⟨hb, hrest⟩ pre suf s' p' e e1 e2
        have hr1 := hiff.2 hb
        cases pre with
        | nil =>
          cases e1; cases e2
          exact hr
        | cons o pre =>
          have ho := (List.cons.inj e).1
          have ht := (List.cons.inj e).2
          subst ho
          rw [List.foldlM_cons] at e1 e2
          obtain ⟨s₂, e3, e4⟩ := res_bind_ok.1 e1
          obtain ⟨p₂, e5, e6⟩ := Option.bind_eq_some_iff.1 e2
          rw [h1] at e3
          rw [k1] at e5
          cases e3; cases e5
          exact (ih s₁ p₁ _ hr1 hI h2 k2).2 (hrest p₁ k1) pre suf s' p' ht e4 e6
  exact key ops (start orig) specStart _ ⟨rfl, rfl⟩ ⟨trivial, fun x hx => (nomatch hx), fun x hx => (nomatch hx), List.nodup_nil⟩ he hs

/-- A guard that is moved out of a function: its stream has the wrong buffer after the destruction of the local variable. -/
example : ¬ Benign id specStart (fun _ => (0, 0)) [.ctor 0 0 10, .move 1 0, .dtor 0, .write 0 1] := by
  intro h
  exact absurd ((h.2 _ rfl).2 _ rfl |>.1 0 rfl (by simp)) (by decide)

/-- The two guards die in the other order: nothing goes wrong. -/
example : Benign id specStart (fun _ => (0, 0)) [.ctor 0 0 10, .move 1 0, .write 0 1, .dtor 1, .dtor 0, .write 0 5] := by
  refine ⟨fun g e => (nomatch e), fun p hp => ?_⟩
  cases hp
  refine ⟨fun g e => (nomatch e), fun p hp => ?_⟩
  cases hp
  refine ⟨fun g e => (nomatch e), fun p hp => ?_⟩
  cases hp
  refine ⟨fun g e h => ?_, fun p hp => ?_⟩
  · cases e
    exact absurd h (by decide)
  cases hp
  refine ⟨fun g e h => ?_, fun p hp => ?_⟩
  · cases e
    rfl
  cases hp
  exact ⟨fun g e => (nomatch e), fun p hp => by cases hp; trivial⟩

end Guanaqo.Redirect
