import Verif.Streambuf.Redirect
import Verif.Lifetimes

/-!
# C39: which programs with guards have a meaning

All that use the guards only during their lifetimes (callback-streambuf.hpp:102-123).
-/

namespace Guanaqo.Redirect

open Lifetimes

/-- What the statements do with the variables that are guards. -/
def life : Op → Effect Nat
  | .ctor g _ _ => { begins := [g] }
  | .move g' g => { uses := [g], begins := [g'] }
  | .dtor g => { ends := [g] }
  | .write _ _ => {}

/-- C39. A program runs without undefined behaviour exactly if it uses its guards only while they are alive. -/
theorem redirect_defined_iff (orig : Nat → Nat) (ops : List Op) :
    (∃ s, ops.foldlM exec (start orig) = .ok s) ↔ Valid life (fun _ => False) ops := by
  have h := run_iff (step := exec) (eff := life) (alive := fun s g => s.guards g ≠ none) ?_ ?_ ops (start orig)
  · rw [h]
    have e : (fun g => (start orig).guards g ≠ none) = fun _ => False := funext fun g => by simp [start]
    rw [e]
  · intro s p
    cases p with
    | ctor g os buf => simp only [exec, life, Effect.Possible]; by_cases hg : s.guards g = none <;> simp [hg]
    | move g' g =>
      simp only [exec, life, Effect.Possible]
      cases hg : s.guards g <;> by_cases hg' : s.guards g' = none <;> simp [hg, hg']
    | dtor g => simp only [exec, life, Effect.Possible]; cases hg : s.guards g <;> simp [hg]
    | write os b => simp [exec, life, Effect.Possible]
  · intro s p s' h k
    cases p with
    | ctor g os buf =>
      simp only [exec] at h
      split at h
      · cases h
        simp only [life, Effect.after, upd]
        by_cases hk : k = g <;> simp [hk]
      · cases h
    | move g' g =>
      simp only [exec] at h
      split at h
      · split at h
        · cases h
          simp only [life, Effect.after, upd]
          by_cases hk : k = g' <;> simp [hk]
        · cases h
      · cases h
    | dtor g =>
      simp only [exec] at h
      split at h
      · cases h
        simp only [life, Effect.after, upd]
        by_cases hk : k = g <;> simp [hk]
      · cases h
    | write os b => cases h; simp [life, Effect.after]

/-- A guard of an inner scope that is used after its end. -/
example : ¬ ∃ s, ([.ctor 0 0 10, .dtor 0, .move 1 0] : List Op).foldlM exec (start id) = .ok s := by
  rw [redirect_defined_iff]
  simp [Valid, life, Effect.Possible, Effect.after]

example : ∃ s, ([.ctor 0 0 10, .write 0 1, .move 1 0, .dtor 0, .write 0 2, .dtor 1] : List Op).foldlM exec (start id)
    = .ok s := by
  rw [redirect_defined_iff]
  simp [Valid, life, Effect.Possible, Effect.after]

end Guanaqo.Redirect
