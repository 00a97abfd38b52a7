import Verif.Base
import Mathlib.Algebra.Order.Ring.Int
import Mathlib.Algebra.Order.GroupWithZero.Basic

/-! # Signed integer types of `w` bits -/

namespace Guanaqo

/-- The values of a signed type of `w` bits. -/
def Fits (w : Nat) (x : Int) : Prop := -2 ^ (w - 1) ≤ x ∧ x < 2 ^ (w - 1)

instance (w : Nat) (x : Int) : Decidable (Fits w x) := inferInstanceAs (Decidable (_ ∧ _))

/-- A result that does not fit is undefined behaviour. -/
def chk (w : Nat) (x : Int) : Res Int := if Fits w x then .ok x else .error .ub

theorem chk_ok {w : Nat} {x y : Int} : chk w x = .ok y ↔ Fits w x ∧ y = x := by
  unfold chk
  split
  · rename_i h; constructor
    · intro e; cases e; exact ⟨h, rfl⟩
    · rintro ⟨_, rfl⟩; rfl
  · rename_i h; constructor
    · intro e; cases e
    · rintro ⟨h', _⟩; exact absurd h' h

theorem fits_of_le {w : Nat} {x y : Int} (hx : 0 ≤ x) (hxy : x ≤ y) (hy : Fits w y) : Fits w x := by
  unfold Fits at *; obtain ⟨_, h⟩ := hy
  exact ⟨by omega, by omega⟩

theorem fits_nonneg {w : Nat} {x : Int} (hx : 0 ≤ x) : Fits w x ↔ x < 2 ^ (w - 1) := by
  have : (0 : Int) < 2 ^ (w - 1) := Int.pow_pos (by omega)
  unfold Fits
  omega

theorem pow_ge {w : Nat} (hw : 8 ≤ w) : (128 : Int) ≤ 2 ^ (w - 1) := by
  have : (2 : Int) ^ 7 ≤ 2 ^ (w - 1) := pow_le_pow_right₀ (by decide) (by omega)
  simpa using this

theorem fits_small {w : Nat} (hw : 8 ≤ w) {x : Int} (h1 : -128 ≤ x) (h2 : x < 128) : Fits w x := by
  have := pow_ge hw
  unfold Fits; omega

theorem fits_mono {w w' : Nat} (h : w ≤ w') {x : Int} (hx : Fits w x) : Fits w' x := by
  have : (2 : Int) ^ (w - 1) ≤ 2 ^ (w' - 1) := pow_le_pow_right₀ (by decide) (by omega)
  unfold Fits at *; omega

end Guanaqo
