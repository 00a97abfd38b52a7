import Verif.Float.Gap
import Mathlib.Algebra.Order.Archimedean.Basic
import Mathlib.Algebra.Order.Round

/-! # Decimal numbers close to a floating-point number -/

namespace Guanaqo.Float

theorem ten_pos (e : ℤ) : (0 : ℚ) < 10 ^ e := zpow_pos (by norm_num) e

theorem relative_error {x q : ℚ} {prec : ℕ} {k : ℤ} (hk : (10 : ℚ) ^ k ≤ x) (h : |q - x| ≤ (10 : ℚ) ^ (k - prec) / 2) :
    2 * 10 ^ prec * |q - x| ≤ x := by
  have hpk : (10 : ℚ) ^ k = 10 ^ prec * 10 ^ (k - prec) := by
    rw [← zpow_natCast, ← zpow_add₀ (by norm_num)]; congr 1; ring
  have hT : (0 : ℚ) < 10 ^ prec := by positivity
  have := mul_le_mul_of_nonneg_left h hT.le
  rw [hpk] at hk
  linarith

/-- Every positive number has a decimal with `prec + 1` digits within half a unit of the last digit. -/
theorem exists_decimal (x : ℚ) (hx : 0 < x) (prec : ℕ) : ∃ (d : ℕ) (e k : ℤ), 10 ^ prec ≤ d ∧ d < 10 ^ (prec + 1) ∧
    (10 : ℚ) ^ k ≤ x ∧ x < (10 : ℚ) ^ (k + 1) ∧ |d * (10 : ℚ) ^ (e - prec) - x| ≤ (10 : ℚ) ^ (k - prec) / 2 := by
  obtain ⟨k, hk1, hk2⟩ := exists_mem_Ico_zpow hx (show (1 : ℚ) < 10 by norm_num)
  have hs := ten_pos (k - prec)
  have hpk : (10 : ℚ) ^ k = 10 ^ prec * 10 ^ (k - prec) := by
    rw [← zpow_natCast, ← zpow_add₀ (by norm_num)]; congr 1; ring
  have hpk1 : (10 : ℚ) ^ (k + 1) = 10 ^ (prec + 1) * 10 ^ (k - prec) := by
    rw [zpow_add_one₀ (by norm_num), hpk, pow_succ]; ring
  let y : ℚ := x / 10 ^ (k - prec)
  have hxy : x = y * 10 ^ (k - prec) := by simp only [y]; field_simp
  have hy1 : (10 : ℚ) ^ prec ≤ y := by
    by_contra h
    push Not at h
    rw [hpk] at hk1
    nlinarith
  have hy2 : y < 10 ^ (prec + 1) := by
    by_contra h
    push Not at h
    rw [hpk1] at hk2
    nlinarith
  have hr := abs_sub_round y
  have hr1 : ((10 ^ prec : ℕ) : ℤ) ≤ round y := by
    rw [round_eq]
    apply Int.le_floor.2
    push_cast
    linarith
  have hr2 : round y ≤ ((10 ^ (prec + 1) : ℕ) : ℤ) := by
    rw [round_eq]
    have h1 := Int.floor_le (y + 1 / 2)
    have h2 : (⌊y + 1 / 2⌋ : ℚ) < ((10 ^ (prec + 1) : ℕ) : ℚ) + 1 := by push_cast; linarith
    have h3 : ⌊y + 1 / 2⌋ < ((10 ^ (prec + 1) : ℕ) : ℤ) + 1 := by exact_mod_cast h2
    omega
  obtain ⟨d, hd⟩ := Int.eq_ofNat_of_zero_le (show 0 ≤ round y by omega)
  have herr : |d * (10 : ℚ) ^ (k - prec) - x| ≤ (10 : ℚ) ^ (k - prec) / 2 := by
    have e1 : d * (10 : ℚ) ^ (k - prec) - x = ((round y : ℤ) - y) * 10 ^ (k - prec) := by
      rw [hd]; push_cast; rw [sub_mul, ← hxy]
    rw [e1, abs_mul, abs_of_pos hs, abs_sub_comm]
    nlinarith
  rw [hd] at hr1 hr2
  rcases Nat.lt_or_ge d (10 ^ (prec + 1)) with h | h
  · exact ⟨d, k, k, by exact_mod_cast hr1, h, hk1, hk2, herr⟩
  · refine ⟨10 ^ prec, k + 1, k, le_refl _, Nat.pow_lt_pow_right (by norm_num) (by omega), hk1, hk2, ?_⟩
    have hd2 : d = 10 ^ (prec + 1) := le_antisymm (by exact_mod_cast hr2) h
    have e2 : ((10 ^ prec : ℕ) : ℚ) * (10 : ℚ) ^ (k + 1 - prec) = d * 10 ^ (k - prec) := by
      rw [hd2, show (k + 1 - prec : ℤ) = (k - prec) + 1 by ring, zpow_add_one₀ (by norm_num)]
      push_cast
      ring
    rw [e2]
    exact herr

/-- The decimal number nearest to `x` with enough digits has no other floating-point number as near as `x`. -/
theorem nearest_back {f : Fmt} (hp : 1 ≤ f.p) (prec : ℕ) (hprec : 2 ^ f.p < 10 ^ prec) (x : Mag f) (q : ℚ)
    (hq : 2 * 10 ^ prec * |q - x.val| ≤ x.val) :
    q < ((2 : ℚ) ^ f.p - 1 / 2) * 2 ^ f.emax ∧ ∀ y : Mag f, y.val ≠ x.val → |q - x.val| < |q - y.val| := by
  have hP : (2 : ℚ) ^ f.p < 10 ^ prec := by exact_mod_cast hprec
  have hP0 : (0 : ℚ) < 2 ^ f.p := by positivity
  have hT0 : (0 : ℚ) < 10 ^ prec := by positivity
  constructor
  · have h2 := zpow_pos' f.emax
    have hx : x.val ≤ (2 ^ f.p - 1) * 2 ^ f.emax := by
      unfold Mag.val
      have h1 : (x.m : ℚ) ≤ 2 ^ f.p - 1 := by
        have := x.lt
        have : (x.m : ℚ) + 1 ≤ 2 ^ f.p := by exact_mod_cast this
        linarith
      have h2 : (2 : ℚ) ^ x.e ≤ 2 ^ f.emax := zpow_le_zpow_right₀ (by norm_num) x.hi
      have h3 : (0 : ℚ) ≤ x.m := by positivity
      have h4 := zpow_pos' x.e
      nlinarith
    have h3 := le_abs_self (q - x.val)
    have h4 : 2 * |q - x.val| < 2 ^ f.emax := by
      by_contra h
      push Not at h
      have : 10 ^ prec * 2 ^ f.emax ≤ x.val := by
        have := mul_le_mul_of_nonneg_left h hT0.le
        linarith
      have : (2 : ℚ) ^ f.p * 2 ^ f.emax < 10 ^ prec * 2 ^ f.emax := mul_lt_mul_of_pos_right hP h2
      nlinarith
    nlinarith
  · intro y hy
    have hg := gap hp x y hy
    have hpos : 0 < |x.val - y.val| := abs_pos.2 (fun h => hy (by linarith))
    have h1 : 2 * 10 ^ prec * |q - x.val| < 10 ^ prec * |x.val - y.val| := by
      have := mul_lt_mul_of_pos_right hP hpos
      linarith
    have h2 : 2 * |q - x.val| < |x.val - y.val| := by
      by_contra h
      push Not at h
      have := mul_le_mul_of_nonneg_left h hT0.le
      linarith
    have h3 : |x.val - y.val| ≤ |q - x.val| + |q - y.val| := by
      have := abs_sub_le x.val q y.val
      rw [abs_sub_comm x.val q] at this
      exact this
    linarith

/-- The exponent of a decimal number close to a floating-point number other than zero. -/
theorem exponent_range {f : Fmt} (x : Mag f) (hx : x.val ≠ 0) (prec d : ℕ) (e : ℤ) (hd1 : 10 ^ prec ≤ d) (hd2 : d < 10 ^ (prec + 1))
    (hq : 2 * 10 ^ prec * |d * (10 : ℚ) ^ (e - prec) - x.val| ≤ x.val) : (0 ≤ e ∨ f.emin - 2 < e) ∧ (e < 0 ∨ e ≤ f.p + f.emax) := by
  have hx0 : 0 < x.val := lt_of_le_of_ne (val_nonneg x) (Ne.symm hx)
  have hT : (1 : ℚ) ≤ 10 ^ prec := one_le_pow₀ (by norm_num)
  have hq' : 2 * |d * (10 : ℚ) ^ (e - prec) - x.val| ≤ x.val := by
    have := abs_nonneg (d * (10 : ℚ) ^ (e - prec) - x.val)
    nlinarith
  have hlo : x.val ≤ 2 * (d * (10 : ℚ) ^ (e - prec)) := by
    have := neg_abs_le (d * (10 : ℚ) ^ (e - prec) - x.val); linarith
  have hhi : d * (10 : ℚ) ^ (e - prec) ≤ 2 * x.val := by
    have := le_abs_self (d * (10 : ℚ) ^ (e - prec) - x.val); linarith
  have hs := ten_pos (e - prec)
  have hde1 : (10 : ℚ) ^ e ≤ d * 10 ^ (e - prec) := by
    have h1 : (10 : ℚ) ^ e = 10 ^ prec * 10 ^ (e - prec) := by
      rw [← zpow_natCast, ← zpow_add₀ (by norm_num)]; congr 1; ring
    rw [h1]
    have : ((10 ^ prec : ℕ) : ℚ) ≤ d := by exact_mod_cast hd1
    push_cast at this
    gcongr
  have hde2 : d * 10 ^ (e - prec) < (10 : ℚ) ^ (e + 1) := by
    have h1 : (10 : ℚ) ^ (e + 1) = 10 ^ (prec + 1) * 10 ^ (e - prec) := by
      rw [← zpow_natCast, ← zpow_add₀ (by norm_num)]; congr 1; push_cast; ring
    rw [h1]
    have : (d : ℚ) < ((10 ^ (prec + 1) : ℕ) : ℚ) := by exact_mod_cast hd2
    push_cast at this
    exact mul_lt_mul_of_pos_right this hs
  constructor
  · by_contra h
    push Not at h
    obtain ⟨h0, h⟩ := h
    have hm : 1 ≤ x.m := by
      rcases Nat.eq_zero_or_pos x.m with h | h
      · exact absurd (by unfold Mag.val; rw [h]; simp) hx
      · exact h
    have h1 : (2 : ℚ) ^ f.emin ≤ x.val := by
      unfold Mag.val
      have h1 : (1 : ℚ) ≤ x.m := by exact_mod_cast hm
      have h2 : (2 : ℚ) ^ f.emin ≤ 2 ^ x.e := zpow_le_zpow_right₀ (by norm_num) x.lo
      have h3 := zpow_pos' x.e
      nlinarith
    have h2 : (2 : ℚ) ^ (f.emin - 1) < 10 ^ (e + 1) := by
      have : (2 : ℚ) ^ f.emin = 2 * 2 ^ (f.emin - 1) := by
        rw [zpow_sub_one₀ (by norm_num)]; field_simp
      linarith
    have h3 : (2 : ℚ) ^ (e + 1) ≤ 2 ^ (f.emin - 1) := zpow_le_zpow_right₀ (by norm_num) (by omega)
    have h4 : (10 : ℚ) ^ (e + 1) ≤ 2 ^ (e + 1) := by
      obtain ⟨k, hk⟩ := Int.eq_ofNat_of_zero_le (show 0 ≤ -(e + 1) by omega)
      have : e + 1 = -(k : ℤ) := by omega
      rw [this, zpow_neg, zpow_neg, zpow_natCast, zpow_natCast]
      gcongr
      norm_num
    linarith
  · by_contra h
    push Not at h
    obtain ⟨h0, h1⟩ := h
    have hx2 : x.val < 2 ^ (f.p + f.emax : ℤ) := by
      unfold Mag.val
      rw [zpow_add₀ (by norm_num), zpow_natCast]
      have h1 : (x.m : ℚ) < 2 ^ f.p := by exact_mod_cast x.lt
      have h2 : (2 : ℚ) ^ x.e ≤ 2 ^ f.emax := zpow_le_zpow_right₀ (by norm_num) x.hi
      have h4 := zpow_pos' x.e
      have h5 : (0 : ℚ) < 2 ^ f.p := by positivity
      nlinarith
    have h2 : (10 : ℚ) ^ e < 2 ^ (f.p + f.emax + 1 : ℤ) := by
      rw [zpow_add_one₀ (by norm_num)]; linarith
    have h3 : (2 : ℚ) ^ (f.p + f.emax + 1 : ℤ) ≤ 2 ^ e := zpow_le_zpow_right₀ (by norm_num) (by omega)
    have h4 : (2 : ℚ) ^ e ≤ 10 ^ e := by
      obtain ⟨k, rfl⟩ := Int.eq_ofNat_of_zero_le h0
      show (2 : ℚ) ^ ((k : ℕ) : ℤ) ≤ 10 ^ ((k : ℕ) : ℤ)
      rw [zpow_natCast, zpow_natCast]
      gcongr
      norm_num
    linarith

end Guanaqo.Float
