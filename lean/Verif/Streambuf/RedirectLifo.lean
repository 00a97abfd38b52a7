import Verif.Streambuf.Redirect

/-!
# C39: guards that are destroyed in the reverse order of their declaration

Moved-from guards restore a buffer too. If all guards, those that were moved from included, are destroyed in
the reverse order of their declaration, and only the youngest one is moved, then that restores what is there
already.
-/

namespace Guanaqo.Redirect

/-- The guard variables that are alive, youngest first. -/
def varStep (vs : List Nat) : Op → Option (List Nat)
  | .ctor g _ _ => some (g :: vs)
  | .move g' g =>
    match vs with
    | v :: vs' => if v = g then some (g' :: v :: vs') else none
    | [] => none
  | .dtor g =>
    match vs with
    | v :: vs' => if v = g then some vs' else none
    | [] => none
  | .write _ _ => some vs

/-- The variables, with the redirections that they own. -/
inductive Chain (orig : Nat → Nat) (guards : Nat → Option (Nat × Nat)) (husks : List Nat) :
    List Nat → Stack → Prop
  | nil : Chain orig guards husks [] []
  | husk {v os vs st} : v ∈ husks → v ∉ vs → guards v = some (os, target orig st os) →
      Chain orig guards husks vs st → Chain orig guards husks (v :: vs) st
  | own {v os t vs st} : v ∉ husks → v ∉ vs → guards v = some (os, target orig st os) →
      Chain orig guards husks vs st → Chain orig guards husks (v :: vs) ((v, os, t) :: st)

theorem Chain.congr {orig : Nat → Nat} {f f' : Nat → Option (Nat × Nat)} {hs hs' vs : List Nat} {st : Stack}
    (h : Chain orig f hs vs st) (hf : ∀ v ∈ vs, f' v = f v) (hh : ∀ v ∈ vs, v ∈ hs' ↔ v ∈ hs) :
    Chain orig f' hs' vs st := by
  induction h with
  | nil => exact .nil
  | @husk v os vs st h1 h2 h3 _ ih =>
    exact .husk ((hh v (by simp)).2 h1) h2 (by rw [hf v (by simp)]; exact h3)
      (ih (fun x hx => hf x (by simp [hx])) (fun x hx => hh x (by simp [hx])))
  | @own v os t vs st h1 h2 h3 _ ih =>
    exact .own (fun h => h1 ((hh v (by simp)).1 h)) h2 (by rw [hf v (by simp)]; exact h3)
      (ih (fun x hx => hf x (by simp [hx])) (fun x hx => hh x (by simp [hx])))

theorem Chain.alive {orig : Nat → Nat} {f : Nat → Option (Nat × Nat)} {hs vs : List Nat} {st : Stack}
    (h : Chain orig f hs vs st) : ∀ v ∈ vs, f v ≠ none := by
  induction h with
  | nil => intro v hv; simp at hv
  | husk _ _ h3 _ ih =>
    intro x hx
    rcases List.mem_cons.1 hx with rfl | hx
    · rw [h3]; simp
    · exact ih x hx
  | own _ _ h3 _ ih =>
    intro x hx
    rcases List.mem_cons.1 hx with rfl | hx
    · rw [h3]; simp
    · exact ih x hx

structure InvL (orig : Nat → Nat) (s : State) (p : Spec) (vs : List Nat) : Prop where
  rd : s.rd = target orig p.stack
  sink : s.sink = p.sink
  chain : Chain orig s.guards p.husks vs p.stack
  nodup : p.husks.Nodup
  husks : ∀ v ∈ p.husks, v ∈ vs

theorem invL_step {orig : Nat → Nat} {s s' : State} {p p' : Spec} {vs vs' : List Nat} {op : Op}
    (h : InvL orig s p vs) (he : exec s op = .ok s') (hs : specStep orig p op = some p')
    (hv : varStep vs op = some vs') : InvL orig s' p' vs' := by
  cases op with
  | write os b =>
    cases he; cases hs; cases hv
    refine ⟨h.rd, ?_, h.chain, h.nodup, h.husks⟩
    simp only
    rw [h.rd, h.sink]
  | ctor g os buf =>
    simp only [exec] at he
    split at he
    · rename_i hn
      cases he; cases hs; cases hv
      have hg : g ∉ vs := fun hx => h.chain.alive g hx hn
      refine ⟨?_, h.sink, .own (fun hx => hg (h.husks g hx)) hg ?_ ?_, h.nodup,
        fun v hv => by simp [h.husks v hv]⟩
      · funext k
        simp only [upd, target, h.rd]
      · simp only [upd, h.rd, if_true]
      · refine h.chain.congr (fun v hv => ?_) (fun _ _ => Iff.rfl)
        simp only [upd]
        rw [if_neg]
        rintro rfl
        exact hg hv
    · cases he
  | move g' g =>
    simp only [varStep] at hv
    split at hv
    · rename_i v ws
      split at hv
      · rename_i e
        subst e
        cases hv
        simp only [specStep] at hs
        split at hs
        · rename_i h' os t st hst
          split at hs
          · rename_i e
            subst e
            cases hs
            have hc := h.chain
            rw [hst] at hc
            cases hc with
            | husk h1 h2 h3 h4 =>
              -- the owner of the innermost redirection is not a husk
              exfalso
              have : ∀ {vs : List Nat} {st : Stack}, Chain orig s.guards p.husks vs st → ∀ x ∈ st, x.1 ∉ p.husks := by
                intro vs st hc
                induction hc with
                | nil => intro x hx; simp at hx
                | husk _ _ _ _ ih => exact ih
                | own h1 _ _ _ ih =>
                  intro x hx
                  rcases List.mem_cons.1 hx with rfl | hx
                  · exact h1
                  · exact ih x hx
              exact this h4 (h', os, t) (by simp) h1
            | own h1 h2 h3 h4 =>
              simp only [exec, h3] at he
              split at he
              · rename_i hn
                cases he
                have hne : h' ≠ g' := by rintro rfl; rw [h3] at hn; cases hn
                have hg' : g' ∉ ws := fun hx => h4.alive g' hx hn
                have hgh : g' ∉ p.husks := by
                  intro hx
                  rcases List.mem_cons.1 (h.husks g' hx) with e | e
                  · exact hne e.symm
                  · exact hg' e
                refine ⟨?_, h.sink, ?_, ?_, ?_⟩
                · have := h.rd
                  simp only at this ⊢
                  rw [this, hst]
                  rfl
                · refine .own ?_ ?_ (by simp [upd]) ?_
                  · simp only [List.mem_cons, not_or]
                    exact ⟨Ne.symm hne, hgh⟩
                  · simp only [List.mem_cons, not_or]
                    exact ⟨Ne.symm hne, hg'⟩
                  · refine .husk (os := os) (by simp) h2 ?_ ?_
                    · simp only [upd]
                      rw [if_neg hne]
                      exact h3
                    · refine h4.congr (fun v hv => ?_) (fun v hv => ?_)
                      · simp only [upd]
                        rw [if_neg]
                        rintro rfl
                        exact hg' hv
                      · simp only [List.mem_cons]
                        refine ⟨fun h => ?_, .inr⟩
                        rcases h with rfl | h
                        · exact absurd hv h2
                        · exact h
                · exact List.nodup_cons.2 ⟨h1, h.nodup⟩
                · intro v hv
                  rcases List.mem_cons.1 hv with rfl | hv
                  · simp
                  · have := h.husks v hv
                    simp only [List.mem_cons] at this ⊢
                    exact .inr this
              · cases he
          · cases hs
        · cases hs
      · cases hv
    · cases hv
  | dtor g =>
    simp only [varStep] at hv
    split at hv
    · rename_i v ws
      split at hv
      · rename_i e
        subst e
        cases hv
        have hc := h.chain
        generalize hst : p.stack = stk at hc
        cases hc with
        | @husk _ os _ _ h1 h2 h3 h4 =>
          simp only [specStep, h1, if_true] at hs
          cases hs
          simp only [exec, h3] at he
          cases he
          refine ⟨?_, h.sink, ?_, h.nodup.erase v, ?_⟩
          · funext k
            simp only [upd]
            split
            · rename_i e; rw [e, hst]
            · rw [h.rd]
          · dsimp only
            rw [hst]
            refine h4.congr (fun x hx => ?_) (fun x hx => ?_)
            · simp only [upd]
              rw [if_neg]
              rintro rfl
              exact h2 hx
            · rw [List.Nodup.mem_erase_iff h.nodup]
              refine ⟨fun h => h.2, fun h => ⟨?_, h⟩⟩
              rintro rfl
              exact h2 hx
          · intro x hx
            rw [List.Nodup.mem_erase_iff h.nodup] at hx
            rcases List.mem_cons.1 (h.husks x hx.2) with e | e
            · exact absurd e hx.1
            · exact e
        | @own _ os t _ st h1 h2 h3 h4 =>
          simp only [specStep, h1, if_false, hst, if_true] at hs
          cases hs
          simp only [exec, h3] at he
          cases he
          refine ⟨?_, h.sink, ?_, h.nodup, ?_⟩
          · simp only
            rw [h.rd, hst, target_pop]
          · refine h4.congr (fun x hx => ?_) (fun _ _ => Iff.rfl)
            simp only [upd]
            rw [if_neg]
            rintro rfl
            exact h2 hx
          · intro x hx
            rcases List.mem_cons.1 (h.husks x hx) with e | e
            · subst e; exact absurd hx h1
            · exact e
      · cases hv
    · cases hv

/-- **C39** for guards, moved ones included, that are destroyed in the reverse order of their declaration, where
only the youngest is moved: every stream writes to the target of the innermost active redirection, every byte
went where it should, and when all redirections have ended every stream has its own buffer back. -/
theorem redirect_lifo_partial (orig : Nat → Nat) (ops : List Op) (s : State) (p : Spec) (vs : List Nat)
    (he : ops.foldlM exec (start orig) = .ok s) (hs : ops.foldlM (specStep orig) specStart = some p)
    (hv : ops.foldlM varStep [] = some vs) :
    s.rd = target orig p.stack ∧ s.sink = p.sink ∧ (p.stack = [] → s.rd = orig) := by
  have key : ∀ (ops : List Op) (s₀ : State) (p₀ : Spec) (vs₀ : List Nat), InvL orig s₀ p₀ vs₀ →
      ops.foldlM exec s₀ = .ok s → ops.foldlM (specStep orig) p₀ = some p →
      ops.foldlM varStep vs₀ = some vs → InvL orig s p vs := by
    intro ops
    induction ops with
    | nil => intro s₀ p₀ vs₀ h he hs hv; cases he; cases hs; cases hv; exact h
    | cons op ops ih =>
      intro s₀ p₀ vs₀ h he hs hv
      rw [List.foldlM_cons] at he hs hv
      obtain ⟨s₁, h1, h2⟩ := res_bind_ok.1 he
      obtain ⟨p₁, k1, k2⟩ := Option.bind_eq_some_iff.1 hs
      obtain ⟨v₁, l1, l2⟩ := Option.bind_eq_some_iff.1 hv
      exact ih _ _ _ (invL_step h h1 k1 l1) h2 k2 l2
  have h := key ops (start orig) specStart []
    ⟨rfl, rfl, .nil, List.nodup_nil, fun v hv => by cases hv⟩ he hs hv
  exact ⟨h.rd, h.sink, fun e => by rw [h.rd, e]; rfl⟩

/-- Guards that are moved twice, around another redirection. -/
example : ∃ p s vs, ([.ctor 0 0 10, .move 1 0, .write 0 1, .ctor 2 0 12, .move 3 2, .write 0 2, .dtor 3,
      .dtor 2, .write 0 3, .dtor 1, .dtor 0, .write 0 5] : List Op).foldlM (specStep id) specStart = some p ∧
    ([.ctor 0 0 10, .move 1 0, .write 0 1, .ctor 2 0 12, .move 3 2, .write 0 2, .dtor 3,
      .dtor 2, .write 0 3, .dtor 1, .dtor 0, .write 0 5] : List Op).foldlM exec (start id) = .ok s ∧
    ([.ctor 0 0 10, .move 1 0, .write 0 1, .ctor 2 0 12, .move 3 2, .write 0 2, .dtor 3,
      .dtor 2, .write 0 3, .dtor 1, .dtor 0, .write 0 5] : List Op).foldlM varStep [] = some vs ∧
    s.sink 10 = [1, 3] ∧ s.sink 12 = [2] ∧ s.sink 0 = [5] ∧ p.stack = [] :=
  ⟨_, _, _, rfl, rfl, rfl, rfl, rfl, rfl, rfl⟩

end Guanaqo.Redirect
