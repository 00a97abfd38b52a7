import Verif.Trace.Itt
import Verif.Lifetimes

/-!
# C102: which programs with loggers and scopes have a meaning

All that use the loggers and the scopes only during their lifetimes (trace.hpp:27-86).
-/

namespace Guanaqo.Trace.Itt

open Lifetimes

/-- A variable: a logger or a `ScopedLog`. -/
inductive Var where
  | logger (l : Nat)
  | scope (o : Nat)
deriving DecidableEq

/-- What the operations do with the variables. A scope does not refer to its logger. -/
def life : Act → Effect Var
  | .new l _ => { begins := [.logger l] }
  | .moveLogger a b => { uses := [.logger a], begins := [.logger b] }
  | .destroy l => { ends := [.logger l] }
  | .trace _ l o _ _ => { uses := [.logger l], begins := [.scope o] }
  | .moveScope a b => { uses := [.scope a], begins := [.scope b] }
  | .close _ o => { ends := [.scope o] }
  | .reset l => { uses := [.logger l] }

/-- The variables that are alive. -/
def St.alive (s : St) : Var → Prop
  | .logger l => s.loggers l ≠ none
  | .scope o => s.scopes o ≠ none

theorem step_possible (s : St) (a : Act) : (∃ s' c, step s a = some (s', c)) ↔ (life a).Possible s.alive := by
  cases a with
  | new l dom =>
    simp only [step, life, Effect.Possible]
    by_cases hl : s.loggers l = none <;> simp [hl, St.alive]
  | moveLogger a b =>
    simp only [step, life, Effect.Possible]
    cases ha : s.loggers a <;> by_cases hb : s.loggers b = none <;> simp [ha, hb, St.alive]
  | destroy l =>
    simp only [step, life, Effect.Possible]
    cases hl : s.loggers l <;> simp [hl, St.alive]
  | trace th l o name inst =>
    simp only [step, life, Effect.Possible]
    cases ha : s.loggers l <;> by_cases hb : s.scopes o = none <;> simp [ha, hb, St.alive]
  | moveScope a b =>
    simp only [step, life, Effect.Possible]
    cases ha : s.scopes a <;> by_cases hb : s.scopes b = none <;> simp [ha, hb, St.alive]
  | close th o =>
    simp only [step, life, Effect.Possible]
    cases hl : s.scopes o <;> simp [hl, St.alive]
  | reset l =>
    simp only [step, life, Effect.Possible]
    cases hl : s.loggers l <;> simp [hl, St.alive]

theorem step_after {s s' : St} {a : Act} {c : List Call} (h : step s a = some (s', c)) (k : Var) :
    s'.alive k ↔ (life a).after s.alive k := by
  cases a with
  | new l dom =>
    simp only [step] at h
    split at h
    · cases h
      cases k with
      | logger k => simp only [life, Effect.after, St.alive, upd]; by_cases hk : k = l <;> simp [hk]
      | scope k => simp [life, Effect.after, St.alive]
    · cases h
  | moveLogger a b =>
    simp only [step] at h
    split at h
    · rename_i d hd
      split at h
      · cases h
        cases k with
        | logger k =>
          simp only [life, Effect.after, St.alive, upd]
          by_cases hk : k = b
          · simp [hk]
          · by_cases ha : k = a
            · subst ha; simp [hk, hd]
            · simp [hk, ha]
        | scope k => simp [life, Effect.after, St.alive]
      · cases h
    · cases h
  | destroy l =>
    simp only [step] at h
    split at h
    · cases h
      cases k with
      | logger k => simp only [life, Effect.after, St.alive, upd]; by_cases hk : k = l <;> simp [hk]
      | scope k => simp [life, Effect.after, St.alive]
    · cases h
  | trace th l o name inst =>
    simp only [step] at h
    split at h
    · split at h
      · cases h
        cases k with
        | logger k => simp [life, Effect.after, St.alive]
        | scope k => simp only [life, Effect.after, St.alive, upd]; by_cases hk : k = o <;> simp [hk]
      · cases h
    · cases h
  | moveScope a b =>
    simp only [step] at h
    split at h
    · rename_i d hd
      split at h
      · cases h
        cases k with
        | scope k =>
          simp only [life, Effect.after, St.alive, upd]
          by_cases hk : k = b
          · simp [hk]
          · by_cases ha : k = a
            · subst ha; simp [hk, hd]
            · simp [hk, ha]
        | logger k => simp [life, Effect.after, St.alive]
      · cases h
    · cases h
  | close th o =>
    simp only [step] at h
    split at h
    · cases h
      cases k with
      | scope k => simp only [life, Effect.after, St.alive, upd]; by_cases hk : k = o <;> simp [hk]
      | logger k => simp [life, Effect.after, St.alive]
    · cases h
  | reset l =>
    simp only [step] at h
    split at h
    · cases h
      simp [life, Effect.after]
    · cases h

theorem run_valid (as : List Act) : ∀ s, (∃ s' cs, run s as = some (s', cs)) ↔ Valid life s.alive as := by
  induction as with
  | nil => exact fun s => ⟨fun _ => trivial, fun _ => ⟨s, [], rfl⟩⟩
  | cons a as ih =>
    intro s
    constructor
    · rintro ⟨s', cs, h⟩
      simp only [run] at h
      cases h1 : step s a with
      | none => rw [h1] at h; cases h
      | some x =>
        obtain ⟨s₁, c⟩ := x
        rw [h1] at h
        cases h2 : run s₁ as with
        | none => simp only [h2] at h; cases h
        | some y =>
          exact ⟨(step_possible s a).1 ⟨s₁, c, h1⟩, valid_congr life (step_after h1) ((ih s₁).1 ⟨y.1, y.2, h2⟩)⟩
    · rintro ⟨h3, h4⟩
      obtain ⟨s₁, c, h5⟩ := (step_possible s a).2 h3
      obtain ⟨s', cs, h6⟩ := (ih s₁).2 (valid_congr life (fun k => (step_after h5 k).symm) h4)
      exact ⟨s', c ++ cs, by simp only [run, h5, h6]⟩

/-- C102. A program has a meaning exactly if it uses loggers and scopes only while they are alive; scopes may outlive their
loggers. -/
theorem itt_defined_iff (as : List Act) : (∃ s cs, run St.init as = some (s, cs)) ↔ Valid life (fun _ => False) as := by
  rw [run_valid]
  have e : St.init.alive = fun _ => False := funext fun k => by cases k <;> simp [St.init, St.alive]
  rw [e]

/-- A scope that outlives its logger. -/
example : ∃ s cs, run St.init [.new 0 true, .trace 7 0 0 "a" 3, .destroy 0, .close 7 0] = some (s, cs) := by
  rw [itt_defined_iff]
  simp [Valid, life, Effect.Possible, Effect.after]

end Guanaqo.Trace.Itt
