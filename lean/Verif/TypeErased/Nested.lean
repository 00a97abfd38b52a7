import Verif.TypeErased.Props

/-!
# Assigning from a wrapper inside the contained object (C82)

The object contained in a wrapper may have wrappers as members (a tree of wrappers). Destroying it
destroys them. Assignment (type-erasure.hpp:284-293, 361-414) destroys the old object first, also if
what is assigned lives inside it.
-/

namespace Guanaqo.TypeErased

variable {V : Type} {cfg : Cfg}

/-- Destroy the wrappers that are members of an object. -/
def destroyInner (cfg : Cfg) : List Nat → M V Unit
  | [] => pure ()
  | i :: is => do
    dtor cfg i
    destroyInner cfg is

/-- type-erasure.hpp:582-589, `cleanup` of a wrapper whose object has the wrappers `inner` as
members. -/
def cleanupIn (cfg : Cfg) (inner : List Nat) (w : Nat) : M V Unit := do
  destroyInner cfg inner
  cleanup cfg w

/-- type-erasure.hpp:284-293, copy assignment to such a wrapper. -/
def copyAssignIn (cfg : Cfg) (inner : List Nat) (w src : Nat) (t : Throws) : M V Unit :=
  if src = w then pure ()
  else do
    cleanupIn cfg inner w
    let O ← getW src
    modW w fun W => { W with vt := O.vt }
    doCopyAssign cfg true w src t

/-- C82, in full: assigning `src` to `w` gives `w` the value of `src`, wherever `src` is. -/
def NestedAssignWorks : Prop :=
  ∀ (V : Type) (cfg : Cfg), cfg.Ok → ∀ (s : St V) (a : World V), Rep cfg s a →
    ∀ (inner : List Nat) (w src al t al' t' : Nat) (v v' : V), inner.Nodup →
    a.Owns w al t v → a.Owns src al' t' v' → (∀ i ∈ inner, i ≠ w ∧ a.wr i ≠ none) →
    ∃ s' a', (copyAssignIn cfg inner w src {}).run s = .ok () s' ∧ Rep cfg s' a' ∧
      ∃ al'', a'.Owns w al'' t' v'

theorem dtor_sim (ok : cfg.Ok) {s : St V} {a : World V} (hr : Rep cfg s a) {i : Nat}
    (hi : a.wr i ≠ none) : ∃ s', (dtor cfg i).run s = .ok () s' ∧ Rep cfg s' (a.set i none) := by
  cases h : a.wr i with
  | none => exact absurd h hi
  | some d =>
    obtain ⟨s', h1, h2⟩ := step_sim ok hr (.destroy i) (r := .done .unit (a.set i none)) (by simp [spec, h])
    refine ⟨s', ?_, h2⟩
    simp only [step] at h1
    cases hd : (dtor cfg i).run s with
    | ok x s'' => rw [bind_ok hd] at h1; cases h1; rfl
    | thrown e s'' => rw [bind_thrown hd] at h1; cases h1
    | fault f => rw [bind_fault hd] at h1; cases h1

theorem destroyInner_sim (ok : cfg.Ok) (inner : List Nat) : ∀ (s : St V) (a : World V),
    Rep cfg s a → inner.Nodup → (∀ i ∈ inner, a.wr i ≠ none) →
    ∃ s' a', (destroyInner cfg inner).run s = .ok () s' ∧ Rep cfg s' a' ∧ a'.ext = a.ext ∧
      (∀ i ∈ inner, a'.wr i = none) ∧ ∀ j, j ∉ inner → a'.wr j = a.wr j := by
  induction inner with
  | nil => intro s a hr _ _; exact ⟨s, a, rfl, hr, rfl, by simp, fun _ _ => rfl⟩
  | cons i is ih =>
    intro s a hr hnd hal
    obtain ⟨s₁, e1, r1⟩ := dtor_sim ok hr (hal i (by simp))
    rw [List.nodup_cons] at hnd
    obtain ⟨s₂, a₂, e2, r2, hx, h3, h4⟩ := ih s₁ _ r1 hnd.2 (by
      intro j hj
      have hji : j ≠ i := by rintro rfl; exact hnd.1 hj
      simp only [World.set, upd_ne _ _ hji]
      exact hal j (by simp [hj]))
    refine ⟨s₂, a₂, ?_, r2, hx, ?_, ?_⟩
    · unfold destroyInner; rw [bind_ok e1]; exact e2
    · intro j hj
      by_cases hji : j = i
      · subst hji
        rw [h4 j hnd.1]; simp [World.set]
      · exact h3 j (by rcases List.mem_cons.1 hj with h | h; · exact absurd h hji
                       · exact h)
    · intro j hj
      rw [List.mem_cons, not_or] at hj
      rw [h4 j hj.2]; simp [World.set, upd_ne _ _ hj.1]

/-- C82 fails every time: assigning from any wrapper inside the old object uses a destroyed wrapper. -/
theorem nested_assign_undefined (ok : cfg.Ok) {s : St V} {a : World V} (hr : Rep cfg s a)
    {inner : List Nat} {w src : Nat} (t : Throws) (hnd : inner.Nodup)
    (hal : ∀ i ∈ inner, i ≠ w ∧ a.wr i ≠ none) (hw : a.wr w ≠ none) (hsrc : src ∈ inner) :
    (copyAssignIn cfg inner w src t).run s = .fault .ub := by
  obtain ⟨s₁, a₁, e1, r1, _, h1, h2⟩ := destroyInner_sim ok inner s a hr hnd fun i hi => (hal i hi).2
  unfold copyAssignIn
  rw [if_neg (hal src hsrc).1]
  have hw1 : w ∉ inner := fun h => (hal w h).1 rfl
  have hw1' : a₁.wr w ≠ none := by rw [h2 w hw1]; exact hw
  -- after cleanup the source is still gone: `cleanup` is the first half of the destructor
  obtain ⟨s₂, hd, r2⟩ := dtor_sim ok r1 hw1'
  unfold dtor at hd
  cases hcl : (cleanup cfg w).run s₁ with
  | thrown e s₃ => rw [bind_thrown hcl] at hd; cases hd
  | fault f => rw [bind_fault hcl] at hd; cases hd
  | ok x s₃ =>
    rw [bind_ok hcl] at hd
    have hs₃ : s₃.wr src = none := by
      have hsw : src ≠ w := (hal src hsrc).1
      have hs₂ : s₂.wr src = none := by
        obtain ⟨C, hc, ha, _⟩ := r2
        refine hc.dead src (ha.dead src ?_)
        simp only [World.set, upd_ne _ _ hsw]
        exact h1 src hsrc
      simp only [endW] at hd
      cases h3 : s₃.wr w with
      | none => rw [h3] at hd; cases hd
      | some W =>
        rw [h3] at hd
        dsimp only at hd
        split at hd
        · cases hd
          simpa [upd_ne _ _ hsw] using hs₂
        · cases hd
    have hcu : (cleanupIn cfg inner w).run s = .ok x s₃ := by
      unfold cleanupIn; rw [bind_ok e1]; exact hcl
    rw [bind_ok hcu, bind_fault (e := .ub) (by simp only [getW, hs₃])]

/-- C82, what holds: if the source is not inside the old object, the assignment works. Missing: sources
inside the old object, where it never works (`nested_assign_undefined`). -/
theorem nested_assign_partial (ok : cfg.Ok) {s : St V} {a : World V} (hr : Rep cfg s a)
    {inner : List Nat} {w src al t al' t' : Nat} {v v' : V} (hnd : inner.Nodup)
    (hw : a.Owns w al t v) (hs : a.Owns src al' t' v') (hal : ∀ i ∈ inner, i ≠ w ∧ a.wr i ≠ none)
    (hsrc : src ∉ inner) :
    ∃ s' a', (copyAssignIn cfg inner w src {}).run s = .ok () s' ∧ Rep cfg s' a' ∧
      ∃ al'', a'.Owns w al'' t' v' := by
  by_cases hsw : src = w
  · subst hsw
    exact ⟨s, a, by unfold copyAssignIn; rw [if_pos rfl]; rfl, hr, _, hs⟩
  obtain ⟨s₁, a₁, e1, r1, _, h1, h2⟩ := destroyInner_sim ok inner s a hr hnd fun i hi => (hal i hi).2
  have hw1 : w ∉ inner := fun h => (hal w h).1 rfl
  obtain ⟨own, hw⟩ := hw
  obtain ⟨own', hs⟩ := hs
  have hw₁ : a₁.wr w = some ⟨al, .owned t v own⟩ := by rw [h2 w hw1]; exact hw
  have hs₁ : a₁.wr src = some ⟨al', .owned t' v' own'⟩ := by rw [h2 src hsrc]; exact hs
  have hspec : spec cfg a₁ (.copyAssign w src {}) = some (.done .unit
      (a₁.set w (some ⟨if cfg.pocca then al' else al, .owned t' v' own'⟩))) := by
    simp only [spec, hw₁, hs₁, if_neg hsw]
    have : copyThrows cfg (.owned t' v' own') {} = none := by simp [copyThrows, storeThrows]
    rw [this]
  obtain ⟨s', h3, h4⟩ := step_sim ok r1 _ hspec
  refine ⟨s', _, ?_, h4, _, own', by simp only [World.set, upd_same]; rfl⟩
  have h5 : (copyAssign cfg w src {}).run s₁ = .ok () s' := by
    simp only [step] at h3
    cases hd : (copyAssign cfg w src {}).run s₁ with
    | ok x s'' => rw [bind_ok hd] at h3; cases h3; rfl
    | thrown e s'' => rw [bind_thrown hd] at h3; cases h3
    | fault f => rw [bind_fault hd] at h3; cases h3
  unfold copyAssign at h5
  unfold copyAssignIn cleanupIn
  rw [if_neg hsw] at h5 ⊢
  cases hcl : (cleanup cfg w).run s₁ with
  | thrown e s₃ => rw [bind_thrown hcl] at h5; cases h5
  | fault f => rw [bind_fault hcl] at h5; cases h5
  | ok x s₃ =>
    rw [bind_ok hcl] at h5
    rw [bind_ok (by rw [bind_ok e1]; exact hcl)]
    exact h5

theorem not_nestedAssignWorks : ¬ NestedAssignWorks := by
  intro h
  have hrun : Run exCfg (World.init exExt) [.value 0 3 1 42 {}, .value 1 3 0 7 {}] _ _ :=
    .done rfl (.done rfl (.nil _))
  obtain ⟨s, _, hr⟩ := run_end exCfg_ok hrun
  obtain ⟨s', a', h1, _⟩ := h Nat exCfg exCfg_ok s _ hr [1] 0 1 3 1 3 0 42 7 (by simp) ⟨_, rfl⟩ ⟨_, rfl⟩
    (by intro i hi; simp at hi; subst hi; exact ⟨by decide, by decide⟩)
  rw [nested_assign_undefined exCfg_ok hr {} (by simp)
    (by intro i hi; simp at hi; subst hi; exact ⟨by decide, by decide⟩) (by decide) (by simp)] at h1
  cases h1

end Guanaqo.TypeErased
