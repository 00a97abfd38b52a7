import Verif.Sparsity.OwnershipExact
import Verif.Lifetimes

/-!
# C15: which programs with converters have a meaning

All that use the converters only during their lifetimes (sparsity-conversions.hpp, the implicit special members).
-/

namespace Guanaqo.Sparsity.Ownership

open Lifetimes

/-- What the operations do with the variables that are converters. -/
def life : Op → Effect Nat
  | .construct i _ => { begins := [i] }
  | .copy j i => { uses := [i], begins := [j] }
  | .move j i => { uses := [i], begins := [j] }
  | .destroy i => { ends := [i] }

/-- C15. A program of constructions, copies, moves and destructions (without reads) is defined exactly if it uses converters only while
they are alive. -/
theorem histories_defined_iff (ops : List Op) :
    (∃ s, ops.foldlM exec State.empty = .ok s) ↔ Valid life (fun _ => False) ops := by
  have h := run_iff (step := exec) (eff := life) (alive := fun s i => s.objs i ≠ none) ?_ ?_ ops State.empty
  · rw [h]
    have e : (fun i => State.empty.objs i ≠ none) = fun _ => False := funext fun i => by simp [State.empty]
    rw [e]
  · intro s p
    cases p with
    | construct i c => simp only [exec, life, Effect.Possible]; by_cases hg : s.objs i = none <;> simp [hg]
    | copy j i =>
      simp only [exec, life, Effect.Possible]
      cases hg : s.objs i <;> by_cases hg' : s.objs j = none <;> simp [hg, hg']
    | move j i =>
      simp only [exec, life, Effect.Possible]
      cases hg : s.objs i <;> by_cases hg' : s.objs j = none <;> simp [hg, hg']
    | destroy i => simp only [exec, life, Effect.Possible]; cases hg : s.objs i <;> simp [hg]
  · intro s p s' h k
    cases p with
    | construct i c =>
      simp only [exec] at h
      split at h
      · cases h
        simp only [life, Effect.after, State.construct, upd]
        by_cases hk : k = i <;> simp [hk]
      · cases h
    | copy j i =>
      simp only [exec] at h
      split at h
      · split at h
        · cases h
          simp only [life, Effect.after, State.copyFrom]
          split <;> (simp only [upd]; by_cases hk : k = j <;> simp [hk])
        · cases h
      · cases h
    | move j i =>
      simp only [exec] at h
      split at h
      · rename_i o ho
        split at h
        · cases h
          simp only [life, Effect.after, State.moveFrom, upd]
          by_cases hk : k = j
          · simp [hk]
          · by_cases hi : k = i
            · subst hi; simp [hk, ho]
            · simp [hk, hi]
        · cases h
      · cases h
    | destroy i =>
      simp only [exec] at h
      split at h
      · cases h
        simp only [life, Effect.after, State.destroy, upd]
        by_cases hk : k = i <;> simp [hk]
      · cases h

example : ∃ s, ([.construct 0 ([1], [0, 1]), .copy 1 0, .move 2 0, .destroy 0, .destroy 1] : List Op).foldlM exec State.empty
    = .ok s := by
  rw [histories_defined_iff]
  simp [Valid, life, Effect.Possible, Effect.after]

example : ¬ ∃ s, ([.construct 0 ([1], [0, 1]), .destroy 0, .copy 1 0] : List Op).foldlM exec State.empty = .ok s := by
  rw [histories_defined_iff]
  simp [Valid, life, Effect.Possible, Effect.after]

end Guanaqo.Sparsity.Ownership
