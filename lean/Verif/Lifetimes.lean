import Verif.Loops

/-!
# Lifetimes

When a program is one: which variables its statements use, declare and destroy. The models of histories of objects are
undefined exactly for programs that use a variable outside of its lifetime; this is stated with the help of what is
here, without reference to the states of those models.
-/

namespace Guanaqo.Lifetimes

/-- What a statement does with variables: those it uses, those it starts the lifetime of, those it ends the lifetime of. -/
structure Effect (K : Type) where
  uses : List K := []
  begins : List K := []
  ends : List K := []

variable {K Op σ : Type}

/-- A statement is possible if what it uses or ends is alive and what it begins is not. -/
def Effect.Possible (e : Effect K) (alive : K → Prop) : Prop :=
  (∀ k ∈ e.uses, alive k) ∧ (∀ k ∈ e.begins, ¬ alive k) ∧ ∀ k ∈ e.ends, alive k

/-- What is alive after a statement. -/
def Effect.after (e : Effect K) (alive : K → Prop) : K → Prop := fun k => (alive k ∧ k ∉ e.ends) ∨ k ∈ e.begins

/-- A program that uses variables only during their lifetimes, where the variables `alive` are alive at its start. -/
def Valid (eff : Op → Effect K) : (K → Prop) → List Op → Prop
  | _, [] => True
  | alive, p :: ps => (eff p).Possible alive ∧ Valid eff ((eff p).after alive) ps

theorem valid_congr (eff : Op → Effect K) {a b : K → Prop} (h : ∀ k, a k ↔ b k) {ps : List Op} (hv : Valid eff a ps) :
    Valid eff b ps := by
  have : a = b := funext fun k => propext (h k)
  rw [← this]
  exact hv

/-- If a model can do a statement exactly if it is possible, with the right effect on what is alive, then it can do
exactly the valid programs. -/
theorem run_iff {step : σ → Op → Res σ} {eff : Op → Effect K} {alive : σ → K → Prop}
    (h1 : ∀ s p, (∃ s', step s p = .ok s') ↔ (eff p).Possible (alive s))
    (h2 : ∀ s p s', step s p = .ok s' → ∀ k, alive s' k ↔ (eff p).after (alive s) k) (ps : List Op) :
    ∀ s, (∃ s', ps.foldlM step s = .ok s') ↔ Valid eff (alive s) ps := by
  induction ps with
  | nil => exact fun s => ⟨fun _ => trivial, fun _ => ⟨s, rfl⟩⟩
  | cons p ps ih =>
    intro s
    rw [List.foldlM_cons]
    constructor
    · rintro ⟨s', h⟩
      obtain ⟨s₁, h3, h4⟩ := res_bind_ok.1 h
      exact ⟨(h1 s p).1 ⟨s₁, h3⟩, valid_congr eff (h2 s p s₁ h3) ((ih s₁).1 ⟨s', h4⟩)⟩
    · rintro ⟨h3, h4⟩
      obtain ⟨s₁, h5⟩ := (h1 s p).2 h3
      obtain ⟨s', h6⟩ := (ih s₁).2 (valid_congr eff (fun k => (h2 s p s₁ h5 k).symm) h4)
      exact ⟨s', res_bind_ok.2 ⟨s₁, h5, h6⟩⟩

end Guanaqo.Lifetimes
