import Verif.Float.Model
import Mathlib.Tactic.Linarith
import Mathlib.Tactic.Ring
import Mathlib.Tactic.Positivity
import Mathlib.Tactic.FieldSimp
import Mathlib.Tactic.NormNum

/-! # The distance between floating-point numbers -/

namespace Guanaqo.Float

theorem zpow_pos' (e : ℤ) : (0 : ℚ) < 2 ^ e := zpow_pos (by norm_num) e

theorem val_nonneg {f : Fmt} (x : Mag f) : 0 ≤ x.val := by
  unfold Mag.val
  have := zpow_pos' x.e
  positivity

theorem zpow_split {a b : ℤ} (h : a ≤ b) : ∃ k : ℕ, (2 : ℚ) ^ b = 2 ^ k * 2 ^ a ∧ (k : ℤ) = b - a := by
  obtain ⟨k, hk⟩ := Int.eq_ofNat_of_zero_le (show 0 ≤ b - a by omega)
  refine ⟨k, ?_, hk.symm⟩
  rw [show b = (k : ℤ) + a by omega, zpow_add₀ (by norm_num), zpow_natCast]

/-- Another number is at least one unit in the last place of `x` away from `x` if it is greater, or has no smaller exponent. -/
theorem gap_above {f : Fmt} (x y : Mag f) (he : x.e ≤ y.e) (hne : y.val ≠ x.val) : (2 : ℚ) ^ x.e ≤ |x.val - y.val| := by
  obtain ⟨k, hk, _⟩ := zpow_split he
  have h1 : y.val - x.val = ((y.m * 2 ^ k - x.m : ℤ) : ℚ) * 2 ^ x.e := by
    unfold Mag.val; rw [hk]; push_cast; ring
  have h2 : (y.m * 2 ^ k - x.m : ℤ) ≠ 0 := by
    intro h
    rw [h] at h1
    apply hne
    have : y.val - x.val = 0 := by rw [h1]; simp
    linarith
  have h3 : (1 : ℚ) ≤ |((y.m * 2 ^ k - x.m : ℤ) : ℚ)| := by
    have := Int.one_le_abs h2
    rw [← Int.cast_abs]
    exact_mod_cast this
  rw [abs_sub_comm, h1, abs_mul, abs_of_pos (zpow_pos' x.e)]
  nlinarith [zpow_pos' x.e]

/-- Two different numbers: the relative distance is at least `2 ^ -p`. -/
theorem gap {f : Fmt} (hp : 1 ≤ f.p) (x y : Mag f) (hne : y.val ≠ x.val) : x.val ≤ 2 ^ f.p * |x.val - y.val| := by
  have hx : x.val < 2 ^ f.p * 2 ^ x.e := by
    unfold Mag.val
    have : (x.m : ℚ) < 2 ^ f.p := by exact_mod_cast x.lt
    exact mul_lt_mul_of_pos_right this (zpow_pos' _)
  by_cases he : x.e ≤ y.e
  · have := gap_above x y he hne
    have h2 : (0 : ℚ) < 2 ^ f.p := by positivity
    nlinarith
  · have he : y.e < x.e := by omega
    have hn : 2 ^ (f.p - 1) ≤ x.m := by
      rcases x.normal with h | h
      · exact h
      · have := y.lo; omega
    -- y < 2^p 2^(e-1)
    obtain ⟨k, hk, hk'⟩ := zpow_split (show y.e ≤ x.e - 1 by omega)
    have hy : y.val ≤ (2 ^ f.p - 1) * 2 ^ (x.e - 1) := by
      unfold Mag.val
      have h1 : (y.m : ℚ) ≤ 2 ^ f.p - 1 := by
        have := y.lt
        have : (y.m : ℚ) + 1 ≤ 2 ^ f.p := by exact_mod_cast this
        linarith
      have h2 : (2 : ℚ) ^ y.e ≤ 2 ^ (x.e - 1) := zpow_le_zpow_right₀ (by norm_num) (by omega)
      have h3 : (0 : ℚ) ≤ y.m := by positivity
      have h4 := zpow_pos' y.e
      nlinarith
    obtain ⟨q, hq⟩ : ∃ q, f.p = q + 1 := ⟨f.p - 1, by omega⟩
    have hxe : (2 : ℚ) ^ x.e = 2 * 2 ^ (x.e - 1) := by
      rw [zpow_sub_one₀ (by norm_num)]; field_simp
    have hd : 2 ^ (x.e - 1) * (2 * x.m - 2 ^ f.p + 1) ≤ x.val - y.val := by
      unfold Mag.val at hy ⊢
      rw [hxe]
      nlinarith [zpow_pos' (x.e - 1)]
    have hm1 : (2 : ℚ) ^ q ≤ x.m := by
      have : f.p - 1 = q := by omega
      rw [this] at hn
      exact_mod_cast hn
    have hm2 : (x.m : ℚ) ≤ 2 ^ f.p - 1 := by
      have := x.lt
      have : (x.m : ℚ) + 1 ≤ 2 ^ f.p := by exact_mod_cast this
      linarith
    have hP : (2 : ℚ) ^ f.p = 2 * 2 ^ q := by rw [hq, pow_succ]; ring
    have hQ : (1 : ℚ) ≤ 2 ^ q := one_le_pow₀ (by norm_num)
    have habs := le_abs_self (x.val - y.val)
    have hb := zpow_pos' (x.e - 1)
    have key : x.val ≤ 2 ^ f.p * (2 ^ (x.e - 1) * (2 * x.m - 2 ^ f.p + 1)) := by
      have : x.val = 2 ^ (x.e - 1) * (2 * x.m) := by unfold Mag.val; rw [hxe]; ring
      rw [this]
      have h5 : (2 * x.m : ℚ) ≤ 2 ^ f.p * (2 * x.m - 2 ^ f.p + 1) := by
        rw [hP]
        rw [hP] at hm2
        nlinarith
      nlinarith
    have hp0 : (0 : ℚ) < 2 ^ f.p := by positivity
    calc x.val ≤ _ := key
      _ ≤ 2 ^ f.p * (x.val - y.val) := by gcongr
      _ ≤ _ := by gcongr

/-- The representation of a value is unique. -/
theorem mag_unique {f : Fmt} (hp : 1 ≤ f.p) (x y : Mag f) (h : x.val = y.val) : x = y := by
  have key : ∀ x y : Mag f, x.val = y.val → x.e ≤ y.e → x.e = y.e := by
    intro x y h he
    by_contra hc
    have hlt : x.e < y.e := by omega
    have hn : 2 ^ (f.p - 1) ≤ y.m := by
      rcases y.normal with h | h
      · exact h
      · have := x.lo; omega
    obtain ⟨q, hq⟩ : ∃ q, f.p = q + 1 := ⟨f.p - 1, by omega⟩
    have hn' : (2 : ℚ) ^ q ≤ y.m := by
      have : f.p - 1 = q := by omega
      rw [this] at hn
      exact_mod_cast hn
    have hx : (x.m : ℚ) < 2 * 2 ^ q := by
      have := x.lt
      rw [hq, pow_succ] at this
      have : (x.m : ℚ) < 2 ^ q * 2 := by exact_mod_cast this
      linarith
    obtain ⟨k, hk, hk'⟩ := zpow_split (show x.e + 1 ≤ y.e by omega)
    unfold Mag.val at h
    rw [hk, zpow_add_one₀ (by norm_num)] at h
    have h2 := zpow_pos' x.e
    have h3 : (1 : ℚ) ≤ 2 ^ k := one_le_pow₀ (by norm_num)
    have h4 : (x.m : ℚ) = y.m * 2 ^ k * 2 := by
      have : (x.m : ℚ) * 2 ^ x.e = (y.m * 2 ^ k * 2) * 2 ^ x.e := by rw [h]; ring
      exact mul_right_cancel₀ h2.ne' this
    have h5 : (0 : ℚ) < 2 ^ q := by positivity
    nlinarith
  have he : x.e = y.e := by
    rcases le_total x.e y.e with h1 | h1
    · exact key x y h h1
    · exact (key y x h.symm h1).symm
  have hm : (x.m : ℚ) = y.m := by
    unfold Mag.val at h
    rw [he] at h
    exact mul_right_cancel₀ (zpow_pos' y.e).ne' h
  have hm : x.m = y.m := by exact_mod_cast hm
  exact Mag.ext hm he

end Guanaqo.Float
