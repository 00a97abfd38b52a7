import Verif.Duration.Props
import Mathlib.Data.Int.Log
import Mathlib.Algebra.Order.Round
import Mathlib.Algebra.Order.Archimedean.Basic
import Mathlib.Tactic.LinearCombination

/-!
# C48: the conversion to ticks in the arithmetic of `double`

`parse_duration` reads the number as a `double`, and `std::chrono::round` computes with `double`. This module
models that arithmetic, with a rounding of the number in the text and after every operation, and proves how
far the number of ticks is from the exact one.
-/

namespace Guanaqo.Duration

/-! ## The numbers of type `double` -/

/-- The finite values of a `double`, but without the upper limit of the exponent (simplification: a number
beyond it is not finite, and either way it does not fit the integer representation, see `cast`). -/
def IsDouble (x : ℚ) : Prop := ∃ m e : ℤ, |m| ≤ 2 ^ 53 ∧ -1074 ≤ e ∧ x = m * (2 : ℚ) ^ e

/-- What is assumed of the rounding: the result is a `double`, and no other one is closer. (The rule for ties
is not needed.) -/
structure RoundsToDouble (fl : ℚ → ℚ) : Prop where
  double : ∀ q, IsDouble (fl q)
  closest : ∀ q y, IsDouble y → |q - fl q| ≤ |q - y|

/-- Conversion to an integer: towards zero. -/
def trunc (x : ℚ) : ℤ := if 0 ≤ x then ⌊x⌋ else ⌈x⌉

/-- `std::chrono::round` (libstdc++, `bits/chrono.h`: `round`, `floor`, `duration_cast` and the operators `>`
and `-` with their conversions to the common duration type) for a value `y` in the common duration type, of
which `den` make a tick of the result. -/
def doubleRound (fl : ℚ → ℚ) (y den : ℚ) : Rounded :=
  let common := fun (t : ℤ) => fl (fl t * den)              -- a number of ticks, in the common type
  let t := trunc (fl (y / den))                             -- duration_cast
  let t0 := if common t > y then t - 1 else t               -- floor
  let t1 := t0 + 1
  let diff0 := fl (y - common t0)
  let diff1 := fl (common t1 - y)
  if diff0 = diff1 then (t0, decide (t0 % 2 = 1))
  else (t0, decide (¬ diff0 < diff1))

/-- duration-parse.hpp:36 (the value of the number, rounded) and the conversion of it by `std::chrono::round`
(duration-parse.hpp:47): the tick of the common type is `1 / f.num` units of the text and `1 / f.den` ticks
of the result. -/
def doubleConv (fl : ℚ → ℚ) (q f : ℚ) : Rounded := doubleRound fl (fl (fl q * fl f.num)) (fl f.den)

/-! ## Properties of the rounding -/

theorem two_zpow_pos (e : ℤ) : (0 : ℚ) < 2 ^ e := zpow_pos (by norm_num) e

theorem two_zpow_split {a b : ℤ} (h : a ≤ b) : ∃ k : ℤ, (2 : ℚ) ^ b = k * 2 ^ a := by
  obtain ⟨k, hk⟩ := Int.eq_ofNat_of_zero_le (show 0 ≤ b - a by omega)
  refine ⟨2 ^ k, ?_⟩
  rw [show b = (k : ℤ) + a by omega, zpow_add₀ (by norm_num), zpow_natCast]
  push_cast
  rfl

theorem isDouble_int {n : ℤ} (h : |n| ≤ 2 ^ 53) : IsDouble n := ⟨n, 0, h, by omega, by simp⟩

theorem isDouble_half {n : ℤ} (h : |n| ≤ 2 ^ 53) : IsDouble (n / 2) :=
  ⟨n, -1, h, by omega, by rw [zpow_neg_one]; ring⟩

theorem isDouble_neg {x : ℚ} (h : IsDouble x) : IsDouble (-x) := by
  obtain ⟨m, e, h1, h2, rfl⟩ := h
  exact ⟨-m, e, by rwa [abs_neg], h2, by push_cast; ring⟩

section
variable {fl : ℚ → ℚ} (hfl : RoundsToDouble fl)
include hfl

theorem fl_exact {x : ℚ} (h : IsDouble x) : fl x = x := by
  have h1 := hfl.closest x x h
  rw [sub_self, abs_zero] at h1
  have := abs_eq_zero.1 (le_antisymm h1 (abs_nonneg _))
  linarith

theorem fl_mono {a b : ℚ} (h : a ≤ b) : fl a ≤ fl b := by
  rcases h.eq_or_lt with rfl | h
  · exact le_refl _
  by_contra hc
  push Not at hc
  have h1 := hfl.closest a (fl b) (hfl.double b)
  have h2 := hfl.closest b (fl a) (hfl.double a)
  have a1 : a - fl b ≤ |a - fl b| := le_abs_self _
  have a2 : fl a - a ≤ |a - fl a| := by rw [abs_sub_comm]; exact le_abs_self _
  have a3 : b - fl b ≤ |b - fl b| := le_abs_self _
  rcases le_total (fl b) a with c1 | c1
  · rw [abs_of_nonneg (by linarith : 0 ≤ a - fl b)] at h1
    rw [abs_of_nonneg (by linarith : 0 ≤ b - fl b)] at h2
    rcases le_total b (fl a) with c2 | c2
    · rw [abs_of_nonpos (by linarith : b - fl a ≤ 0)] at h2
      linarith
    · rw [abs_of_nonneg (by linarith : 0 ≤ b - fl a)] at h2
      linarith
  · rcases le_total b (fl a) with c2 | c2
    · rw [abs_of_nonpos (by linarith : b - fl a ≤ 0)] at h2
      rw [abs_of_nonpos (by linarith : a - fl b ≤ 0)] at h1
      linarith
    · rw [abs_of_nonneg (by linarith : 0 ≤ b - fl a)] at h2
      rw [abs_of_nonpos (by linarith : a - fl b ≤ 0)] at h1
      linarith

end

/-- Near every number there is a `double`. -/
theorem double_near (q : ℚ) : ∃ x, IsDouble x ∧ |q - x| ≤ |q| / 2 ^ 53 + (2 : ℚ) ^ (-1075 : ℤ) := by
  by_cases hq : q = 0
  · refine ⟨0, by simpa using isDouble_int (n := 0) (by norm_num), ?_⟩
    subst hq
    have := two_zpow_pos (-1075)
    simp only [sub_self, abs_zero, zero_div, zero_add]
    exact this.le
  have hq0 : 0 < |q| := abs_pos.2 hq
  obtain ⟨k, hk1, hk2⟩ := exists_mem_Ico_zpow hq0 (show (1 : ℚ) < 2 by norm_num)
  have hround : ∀ e : ℤ, k - 52 ≤ e → -1074 ≤ e →
      ∃ x, IsDouble x ∧ |q - x| ≤ (2 : ℚ) ^ e / 2 := by
    intro e he1 he2
    have hp := two_zpow_pos e
    have hr := abs_sub_round (q / (2 : ℚ) ^ e)
    refine ⟨round (q / (2 : ℚ) ^ e) * (2 : ℚ) ^ e, ⟨_, e, ?_, he2, rfl⟩, ?_⟩
    · have hq2 : |q / (2 : ℚ) ^ e| < 2 ^ 53 := by
        rw [abs_div, abs_of_pos hp, div_lt_iff₀ hp]
        refine lt_of_lt_of_le hk2 ?_
        have : (2 : ℚ) ^ 53 * 2 ^ e = 2 ^ (53 + e) := by
          rw [zpow_add₀ (by norm_num)]; norm_cast
        rw [this]
        exact zpow_le_zpow_right₀ (by norm_num) (by omega)
      have hq3 := abs_lt.1 hq2
      have hr3 := abs_le.1 hr
      rw [abs_le]
      constructor
      · have : -(2 ^ 53 : ℚ) - 1 < round (q / (2 : ℚ) ^ e) := by linarith [hq3.1, hr3.2]
        have h' : (-(2 ^ 53) - 1 : ℤ) < round (q / (2 : ℚ) ^ e) := by exact_mod_cast this
        omega
      · have : (round (q / (2 : ℚ) ^ e) : ℚ) < 2 ^ 53 + 1 := by linarith [hq3.2, hr3.1]
        have h' : round (q / (2 : ℚ) ^ e) < (2 ^ 53 + 1 : ℤ) := by exact_mod_cast this
        omega
    · have : q - round (q / (2 : ℚ) ^ e) * (2 : ℚ) ^ e =
          (q / (2 : ℚ) ^ e - round (q / (2 : ℚ) ^ e)) * (2 : ℚ) ^ e := by
        field_simp
      rw [this, abs_mul, abs_of_pos hp]
      nlinarith [abs_nonneg (q / (2 : ℚ) ^ e - round (q / (2 : ℚ) ^ e))]
  rcases le_total (-1074) (k - 52) with h | h
  · obtain ⟨x, hx1, hx2⟩ := hround (k - 52) (le_refl _) h
    refine ⟨x, hx1, hx2.trans ?_⟩
    have e1 : (2 : ℚ) ^ (k - 52) / 2 = 2 ^ k / 2 ^ 53 := by
      rw [zpow_sub₀ (by norm_num)]; norm_num; ring
    rw [e1]
    have := two_zpow_pos (-1075)
    have : (2 : ℚ) ^ k / 2 ^ 53 ≤ |q| / 2 ^ 53 := div_le_div_of_nonneg_right hk1 (by norm_num)
    linarith
  · obtain ⟨x, hx1, hx2⟩ := hround (-1074) h (le_refl _)
    refine ⟨x, hx1, hx2.trans ?_⟩
    have e1 : (2 : ℚ) ^ (-1074 : ℤ) / 2 = 2 ^ (-1075 : ℤ) := by
      rw [show (-1074 : ℤ) = -1075 + 1 by norm_num, zpow_add₀ (by norm_num), zpow_one]
      rw [mul_div_assoc]
      norm_num
    rw [e1]
    have : 0 ≤ |q| / 2 ^ 53 := by positivity
    linarith

theorem fl_error {fl : ℚ → ℚ} (hfl : RoundsToDouble fl) (q : ℚ) :
    |fl q - q| ≤ |q| / 2 ^ 53 + (2 : ℚ) ^ (-1075 : ℤ) := by
  obtain ⟨x, hx1, hx2⟩ := double_near q
  rw [abs_sub_comm]
  exact (hfl.closest q x hx1).trans hx2

/-! ## There is such a rounding -/

/-- The exponent of the last bit. -/
def ulpExp (q : ℚ) : ℤ := max (Int.log 2 |q| - 52) (-1074)

/-- Rounding to nearest. -/
def nearestDouble (q : ℚ) : ℚ := round (q / (2 : ℚ) ^ ulpExp q) * (2 : ℚ) ^ ulpExp q

theorem nearest_multiple (q : ℚ) (e : ℤ) (n : ℤ) :
    |q - round (q / (2 : ℚ) ^ e) * (2 : ℚ) ^ e| ≤ |q - n * (2 : ℚ) ^ e| := by
  have hp := two_zpow_pos e
  have h1 : ∀ k : ℤ, |q - k * (2 : ℚ) ^ e| = |q / (2 : ℚ) ^ e - k| * 2 ^ e := by
    intro k
    rw [show q - k * (2 : ℚ) ^ e = (q / (2 : ℚ) ^ e - k) * (2 : ℚ) ^ e by field_simp, abs_mul,
      abs_of_pos hp]
  rw [h1, h1]
  exact mul_le_mul_of_nonneg_right (round_le _ _) hp.le

theorem nearestDouble_rounds : RoundsToDouble nearestDouble := by
  constructor
  · intro q
    unfold nearestDouble
    refine ⟨_, _, ?_, le_max_right _ _, rfl⟩
    have hp := two_zpow_pos (ulpExp q)
    have hr := abs_le.1 (abs_sub_round (q / (2 : ℚ) ^ ulpExp q))
    have hq2 : |q / (2 : ℚ) ^ ulpExp q| < 2 ^ 53 := by
      rw [abs_div, abs_of_pos hp, div_lt_iff₀ hp]
      have hk2 : |q| < 2 ^ (Int.log 2 |q| + 1) := by
        have := Int.lt_zpow_succ_log_self (R := ℚ) (b := 2) (by norm_num) |q|
        exact_mod_cast this
      refine lt_of_lt_of_le hk2 ?_
      have : (2 : ℚ) ^ 53 * 2 ^ ulpExp q = 2 ^ (53 + ulpExp q) := by
        rw [zpow_add₀ (by norm_num)]; norm_cast
      rw [this]
      refine zpow_le_zpow_right₀ (by norm_num) ?_
      have := le_max_left (Int.log 2 |q| - 52) (-1074)
      unfold ulpExp
      omega
    have hq3 := abs_lt.1 hq2
    rw [abs_le]
    constructor
    · have : -(2 ^ 53 : ℚ) - 1 < round (q / (2 : ℚ) ^ ulpExp q) := by linarith [hq3.1, hr.2]
      have h' : (-(2 ^ 53) - 1 : ℤ) < round (q / (2 : ℚ) ^ ulpExp q) := by exact_mod_cast this
      omega
    · have : (round (q / (2 : ℚ) ^ ulpExp q) : ℚ) < 2 ^ 53 + 1 := by linarith [hq3.2, hr.1]
      have h' : round (q / (2 : ℚ) ^ ulpExp q) < (2 ^ 53 + 1 : ℤ) := by exact_mod_cast this
      omega
  · intro q y hy
    obtain ⟨m, e, hm, he, rfl⟩ := hy
    unfold nearestDouble
    rcases le_or_gt (ulpExp q) e with h | h
    · obtain ⟨k, hk⟩ := two_zpow_split h
      have := nearest_multiple q (ulpExp q) (m * k)
      rw [hk]
      push_cast at this
      rwa [← mul_assoc]
    · have he' : ulpExp q = Int.log 2 |q| - 52 := by
        unfold ulpExp at h ⊢
        omega
      by_cases hq : q = 0
      · subst hq
        rw [zero_div, round_zero, Int.cast_zero, zero_mul, sub_zero, abs_zero]
        exact abs_nonneg _
      have hq0 : 0 < |q| := abs_pos.2 hq
      have hk1 : (2 : ℚ) ^ Int.log 2 |q| ≤ |q| := by
        have := Int.zpow_log_le_self (R := ℚ) (b := 2) (by norm_num) hq0
        exact_mod_cast this
      have hy : |(m : ℚ) * 2 ^ e| ≤ 2 ^ Int.log 2 |q| := by
        rw [abs_mul, abs_of_pos (two_zpow_pos e)]
        have h1 : |(m : ℚ)| ≤ 2 ^ 53 := by exact_mod_cast hm
        have h2 : |(m : ℚ)| * 2 ^ e ≤ 2 ^ 53 * 2 ^ e := mul_le_mul_of_nonneg_right h1 (two_zpow_pos e).le
        refine h2.trans ?_
        have : (2 : ℚ) ^ 53 * 2 ^ e = 2 ^ (53 + e) := by
          rw [zpow_add₀ (by norm_num)]; norm_cast
        rw [this]
        exact zpow_le_zpow_right₀ (by norm_num) (by omega)
      have hs : (2 : ℚ) ^ Int.log 2 |q| = 2 ^ 52 * 2 ^ ulpExp q := by
        rw [he', show Int.log 2 |q| = 52 + (Int.log 2 |q| - 52) by ring, zpow_add₀ (by norm_num)]
        norm_num
      rcases lt_or_gt_of_ne hq with hn | hp
      · have := nearest_multiple q (ulpExp q) (-(2 ^ 52))
        refine this.trans ?_
        rw [show ((-(2 ^ 52) : ℤ) : ℚ) = -(2 ^ 52) by norm_cast]
        rw [abs_of_neg hn] at hk1
        rw [abs_of_neg hn] at hy hs
        have hy' := abs_le.1 hy
        rw [neg_mul, ← hs, sub_neg_eq_add, abs_of_nonpos (by linarith), abs_of_nonpos (by linarith [hy'.1])]
        linarith [hy'.1]
      · have := nearest_multiple q (ulpExp q) (2 ^ 52)
        refine this.trans ?_
        rw [show ((2 ^ 52 : ℤ) : ℚ) = 2 ^ 52 by norm_cast]
        rw [abs_of_pos hp] at hk1
        rw [abs_of_pos hp] at hy hs
        have hy' := abs_le.1 hy
        rw [← hs, abs_of_nonneg (by linarith), abs_of_nonneg (by linarith [hy'.2])]
        linarith [hy'.2]

/-! ## The conversion -/

theorem trunc_between {x : ℚ} {n : ℤ} (h1 : (n : ℚ) ≤ x) (h2 : x ≤ n + 1) : trunc x = n ∨ trunc x = n + 1 := by
  have a1 : n ≤ ⌊x⌋ := Int.le_floor.2 h1
  have a2 : ⌈x⌉ ≤ n + 1 := Int.ceil_le.2 (by push_cast; exact h2)
  have a3 : ⌊x⌋ ≤ ⌈x⌉ := Int.floor_le_ceil x
  unfold trunc
  split <;> omega

/-- From the value in the common type on, the conversion is exact if the value is not too large. -/
theorem conv_from_common {fl : ℚ → ℚ} (hfl : RoundsToDouble fl) {y : ℚ} {D : ℤ} (hy : IsDouble y) (hD : 0 < D)
    (hr : |y| + D ≤ 2 ^ 53) :
    doubleRound fl y (fl D) = chronoRound (y / D) := by
  have hDq : (0 : ℚ) < D := by exact_mod_cast hD
  have hD1 : (1 : ℚ) ≤ D := by exact_mod_cast hD
  have hDle : D ≤ 2 ^ 53 := by
    have : (D : ℚ) ≤ 2 ^ 53 := by linarith [abs_nonneg y]
    exact_mod_cast this
  have hfD : fl D = D := fl_exact hfl (isDouble_int (by rw [abs_of_pos hD]; exact hDle))
  have hya := abs_le.1 (le_refl |y|)
  set z : ℚ := y / D with hz
  have hzy : y = z * D := by rw [hz]; field_simp
  set n : ℤ := ⌊z⌋ with hn
  have n1 : (n : ℚ) ≤ z := Int.floor_le z
  have n2 : z < n + 1 := Int.lt_floor_add_one z
  have yD1 : n * D ≤ y := by rw [hzy]; exact mul_le_mul_of_nonneg_right n1 hDq.le
  have yD2 : y < (n + 1) * D := by rw [hzy]; exact mul_lt_mul_of_pos_right n2 hDq
  -- multiples of the denominator near the value are exact
  have hcommon : ∀ t : ℤ, (t = n ∨ t = n + 1) → fl (fl t * fl D) = t * D := by
    intro t ht
    have hb : |(t * D : ℤ)| ≤ 2 ^ 53 := by
      have : |((t * D : ℤ) : ℚ)| ≤ 2 ^ 53 := by
        push_cast
        rw [abs_le]
        rcases ht with rfl | rfl
        · constructor <;> nlinarith [hya.1, hya.2]
        · push_cast
          constructor <;> nlinarith [hya.1, hya.2]
      exact_mod_cast this
    have hb2 : |t| ≤ 2 ^ 53 := by
      refine le_trans ?_ hb
      rw [abs_mul]
      exact le_mul_of_one_le_right (abs_nonneg _) (by rw [abs_of_pos hD]; omega)
    have e1 : fl t = t := fl_exact hfl (isDouble_int hb2)
    rw [e1, hfD]
    have := fl_exact hfl (isDouble_int hb)
    push_cast at this
    exact this
  have hint : ∀ t : ℤ, (t = n ∨ t = n + 1) → fl t = t := by
    intro t ht
    apply fl_exact hfl
    apply isDouble_int
    have hb : |((t * D : ℤ) : ℚ)| ≤ 2 ^ 53 := by
      push_cast
      rw [abs_le]
      rcases ht with rfl | rfl
      · constructor <;> nlinarith [hya.1, hya.2]
      · push_cast
        constructor <;> nlinarith [hya.1, hya.2]
    have hb' : |(t * D : ℤ)| ≤ 2 ^ 53 := by exact_mod_cast hb
    refine le_trans ?_ hb'
    rw [abs_mul]
    exact le_mul_of_one_le_right (abs_nonneg _) (by rw [abs_of_pos hD]; omega)
  -- the floor
  have hx1 : (n : ℚ) ≤ fl z := by rw [← hint n (.inl rfl)]; exact fl_mono hfl n1
  have hx2 : fl z ≤ n + 1 := by
    have := hint (n + 1) (.inr rfl)
    push_cast at this
    rw [← this]
    exact fl_mono hfl n2.le
  have ht0 : (if fl (fl (trunc (fl z)) * fl D) > y then trunc (fl z) - 1 else trunc (fl z)) = n := by
    rcases trunc_between hx1 hx2 with h | h
    · rw [h, hcommon n (.inl rfl), if_neg (by push Not; exact yD1)]
    · rw [h, hcommon _ (.inr rfl), if_pos (by push_cast; exact yD2)]
      omega
  unfold doubleRound
  simp only [hfD] at ht0 hcommon ⊢
  rw [← hz]
  simp only [ht0, hcommon n (.inl rfl), hcommon (n + 1) (.inr rfl)]
  -- the two differences
  set a : ℚ := y - n * D with ha
  have hb : ((n + 1 : ℤ) : ℚ) * D - y = D - a := by push_cast; rw [ha]; ring
  rw [hb]
  have a0 : 0 ≤ a := by rw [ha]; linarith
  have aD : a < D := by rw [ha]; linarith
  have hhalf : fl ((D : ℚ) / 2) = D / 2 :=
    fl_exact hfl (isDouble_half (by rw [abs_of_pos hD]; exact hDle))
  -- the smaller one is exact
  have hsmall : ∀ w : ℚ, (w = a ∨ w = D - a) → 0 ≤ w → w ≤ D → w ≤ |y| → fl w = w := by
    intro w hw w0 wD wy
    apply fl_exact hfl
    obtain ⟨m, e, hm, he, hme⟩ := hy
    rcases le_total 0 e with h0 | h0
    · obtain ⟨k, hk⟩ := two_zpow_split h0
      have hyi : y = ((m * k : ℤ) : ℚ) := by rw [hme, hk]; push_cast; ring
      have : ∃ i : ℤ, w = i := by
        rcases hw with h | h
        · exact ⟨m * k - n * D, by rw [h, ha, hyi]; push_cast; ring⟩
        · exact ⟨D - (m * k - n * D), by rw [h, ha, hyi]; push_cast; ring⟩
      obtain ⟨i, rfl⟩ := this
      apply isDouble_int
      have i0 : 0 ≤ i := by exact_mod_cast w0
      rw [abs_of_nonneg i0]
      have : i ≤ D := by exact_mod_cast wD
      omega
    · obtain ⟨k, hk⟩ := two_zpow_split h0
      rw [zpow_zero] at hk
      have hp := two_zpow_pos e
      have : ∃ i : ℤ, w = i * 2 ^ e := by
        have hDk : (D : ℚ) = D * k * 2 ^ e := by rw [mul_assoc, ← hk, mul_one]
        rcases hw with h | h
        · refine ⟨m - n * (D * k), ?_⟩
          rw [h, ha, hme]
          push_cast
          linear_combination (-(n : ℚ)) * hDk
        · refine ⟨D * k - (m - n * (D * k)), ?_⟩
          rw [h, ha, hme]
          push_cast
          linear_combination (1 + (n : ℚ)) * hDk
      obtain ⟨i, hi⟩ := this
      refine ⟨i, e, ?_, he, hi⟩
      rw [hme, abs_mul, abs_of_pos hp, hi] at wy
      have i1 : (i : ℚ) ≤ |(m : ℚ)| := le_of_mul_le_mul_right wy hp
      have i0 : (0 : ℚ) ≤ i := by
        rw [hi] at w0
        exact nonneg_of_mul_nonneg_left w0 hp
      have i1' : i ≤ |m| := by exact_mod_cast i1
      have i0' : 0 ≤ i := by exact_mod_cast i0
      rw [abs_of_nonneg i0']
      omega
  have hmin : a ≤ |y| ∨ (D : ℚ) - a ≤ |y| := by
    rcases le_or_gt 0 n with h | h
    · left
      have : (0 : ℚ) ≤ n := by exact_mod_cast h
      have : 0 ≤ n * (D : ℚ) := mul_nonneg this hDq.le
      rw [ha]
      linarith [le_abs_self y]
    · right
      have : (n : ℚ) + 1 ≤ 0 := by exact_mod_cast h
      have : ((n : ℚ) + 1) * D ≤ 0 := mul_nonpos_of_nonpos_of_nonneg this hDq.le
      rw [ha]
      linarith [neg_abs_le y]
  have hza : z - n = a / D := by rw [ha, hzy]; field_simp
  have hzb : ((n + 1 : ℤ) : ℚ) - z = (D - a) / D := by
    push_cast
    have : (n : ℚ) + 1 - z = 1 - (z - n) := by ring
    rw [this, hza]
    field_simp
  have hfloor : z.floor = n := by rw [hn]; rfl
  unfold chronoRound
  simp only [hfloor, hza, hzb]
  have eqiff : fl a = fl (D - a) ↔ a / D = (D - a) / D := by
    rw [div_left_inj' hDq.ne']
    constructor
    · intro h
      by_contra hne
      rcases lt_or_gt_of_ne hne with hlt | hgt
      · have ay : a ≤ |y| := by rcases hmin with h | h <;> linarith
        have h1 := hsmall a (.inl rfl) a0 aD.le ay
        have h2 : (D : ℚ) / 2 ≤ fl (D - a) := by rw [← hhalf]; exact fl_mono hfl (by linarith)
        linarith
      · have ay : D - a ≤ |y| := by rcases hmin with h | h <;> linarith
        have h1 := hsmall (D - a) (.inr rfl) (by linarith) (by linarith) ay
        have h2 : (D : ℚ) / 2 ≤ fl a := by rw [← hhalf]; exact fl_mono hfl (by linarith)
        linarith
    · intro h; rw [← h]
  have ltiff : fl a < fl (D - a) ↔ a / D < (D - a) / D := by
    rw [div_lt_div_iff_of_pos_right hDq]
    constructor
    · intro h
      by_contra hge
      push Not at hge
      have := fl_mono hfl hge
      linarith
    · intro hlt
      have ay : a ≤ |y| := by rcases hmin with h | h <;> linarith
      have h1 := hsmall a (.inl rfl) a0 aD.le ay
      have h2 : (D : ℚ) / 2 ≤ fl (D - a) := by rw [← hhalf]; exact fl_mono hfl (by linarith)
      linarith
  by_cases he : fl a = fl (D - a)
  · rw [if_pos he, if_pos (eqiff.1 he)]
  · rw [if_neg he, if_neg (fun h => he (eqiff.2 h))]
    by_cases hl : fl a < fl (D - a)
    · rw [decide_eq_false (not_not.2 hl), decide_eq_false (not_not.2 (ltiff.1 hl))]
    · rw [decide_eq_true hl, decide_eq_true (mt ltiff.2 hl)]

/-- Where the number and its multiple in the common type are representable, the arithmetic of `double` rounds
as exact arithmetic does. -/
theorem doubleConv_exact {fl : ℚ → ℚ} (hfl : RoundsToDouble fl) {q f : ℚ} (hq : IsDouble q)
    (hnum : |f.num| ≤ 2 ^ 53) (hqn : IsDouble (q * f.num)) (hr : |q * f.num| + f.den ≤ 2 ^ 53) :
    doubleConv fl q f = exactConv q f := by
  have h1 : fl q = q := fl_exact hfl hq
  have h2 : fl (f.num : ℚ) = f.num := fl_exact hfl (isDouble_int hnum)
  have h3 : fl (q * f.num) = q * f.num := fl_exact hfl hqn
  have hden : (0 : ℤ) < f.den := by exact_mod_cast f.den_pos
  have := conv_from_common hfl hqn hden (by push_cast; exact hr)
  unfold doubleConv exactConv
  rw [Int.cast_natCast] at this
  rw [h1, h2, h3, this]
  congr 1
  rw [mul_div_assoc, Rat.num_div_den]

/-- In general: the arithmetic of `double` rounds a number close to the exact one. -/
theorem doubleConv_rounds {fl : ℚ → ℚ} (hfl : RoundsToDouble fl) {q f : ℚ} (hr : |q * f.num| + f.den ≤ 2 ^ 52)
    (hnum : |f.num| ≤ 2 ^ 53) :
    ∃ z, |z - q * f| ≤ |q * f| / 2 ^ 51 + 1 / 2 ^ 1000 ∧ doubleConv fl q f = chronoRound z := by
  have h2 : fl (f.num : ℚ) = f.num := fl_exact hfl (isDouble_int hnum)
  have hden : (0 : ℤ) < f.den := by exact_mod_cast f.den_pos
  have hdq : (1 : ℚ) ≤ f.den := by exact_mod_cast f.den_pos
  set τ : ℚ := (2 : ℚ) ^ (-1075 : ℤ) with hτ
  have hτ0 : 0 < τ := two_zpow_pos _
  have hτ1 : τ * 2 ^ 75 = 1 / 2 ^ 1000 := by
    have : τ * 2 ^ (75 : ℤ) = 2 ^ (-1000 : ℤ) := by rw [hτ, ← zpow_add₀ (by norm_num)]; norm_num
    rw [zpow_neg] at this
    rw [one_div]
    exact_mod_cast this
  have hN : |(f.num : ℚ)| ≤ 2 ^ 53 := by exact_mod_cast hnum
  have hN0 := abs_nonneg (f.num : ℚ)
  set v := fl q with hv
  set y := fl (v * f.num) with hy
  have e1 : |v - q| ≤ |q| / 2 ^ 53 + τ := fl_error hfl q
  have e2 : |y - v * f.num| ≤ |v * f.num| / 2 ^ 53 + τ := fl_error hfl _
  have e3 : |v * f.num - q * f.num| ≤ |q * f.num| / 2 ^ 53 + τ * 2 ^ 53 := by
    rw [← sub_mul, abs_mul, abs_mul]
    calc |v - q| * |(f.num : ℚ)| ≤ (|q| / 2 ^ 53 + τ) * |(f.num : ℚ)| := mul_le_mul_of_nonneg_right e1 hN0
      _ = |q| * |(f.num : ℚ)| / 2 ^ 53 + τ * |(f.num : ℚ)| := by ring
      _ ≤ _ := by nlinarith
  have e4 : |v * f.num| ≤ |q * f.num| + (|q * f.num| / 2 ^ 53 + τ * 2 ^ 53) := by
    have := abs_sub_abs_le_abs_sub (v * f.num) (q * f.num)
    linarith
  have e5 : |y - q * f.num| ≤ |q * f.num| / 2 ^ 51 + τ * 2 ^ 75 := by
    have h := abs_sub_le y (v * f.num) (q * f.num)
    have h0 := abs_nonneg (q * f.num : ℚ)
    have : |y - q * f.num| ≤ (|q * f.num| + (|q * f.num| / 2 ^ 53 + τ * 2 ^ 53)) / 2 ^ 53 + τ +
        (|q * f.num| / 2 ^ 53 + τ * 2 ^ 53) := by
      have : |v * f.num| / 2 ^ 53 ≤ (|q * f.num| + (|q * f.num| / 2 ^ 53 + τ * 2 ^ 53)) / 2 ^ 53 :=
        div_le_div_of_nonneg_right e4 (by norm_num)
      linarith
    refine this.trans ?_
    generalize |q * (f.num : ℚ)| = A at h0 ⊢
    norm_num
    linarith
  have hyr : |y| + f.den ≤ 2 ^ 53 := by
    have h := abs_sub_abs_le_abs_sub y (q * f.num)
    have h0 := abs_nonneg (q * f.num : ℚ)
    have hτ2 : τ * 2 ^ 75 ≤ 1 := by
      rw [hτ1]
      rw [div_le_one (by positivity)]
      exact one_le_pow₀ (by norm_num)
    have : |q * f.num| / 2 ^ 51 ≤ 2 := by
      rw [div_le_iff₀ (by norm_num)]
      have : (2 : ℚ) ^ 52 = 2 * 2 ^ 51 := by norm_num
      linarith
    have : (2 : ℚ) ^ 52 + 3 ≤ 2 ^ 53 := by norm_num
    linarith
  refine ⟨y / f.den, ?_, ?_⟩
  · have hf : q * f = q * f.num / f.den := by rw [mul_div_assoc, Rat.num_div_den]
    rw [hf, ← sub_div, abs_div, abs_div, abs_of_pos (by linarith : (0 : ℚ) < f.den), div_right_comm]
    rw [div_le_iff₀ (by linarith)]
    have : (1 : ℚ) / 2 ^ 1000 ≤ 1 / 2 ^ 1000 * f.den := le_mul_of_one_le_right (by positivity) hdq
    rw [add_mul, div_mul_cancel₀ _ (by linarith), ← hτ1] 
    rw [← hτ1] at this
    linarith
  · have := conv_from_common hfl (hfl.double (v * f.num)) hden (by push_cast; exact hyr)
    unfold doubleConv
    rw [Int.cast_natCast] at this
    rw [h2]
    exact this

/-! ## The ticks of a term -/

/-- C48, full statement: each term counts for the nearest number of ticks, ties to even. -/
def NearestTicks (fl : ℚ → ℚ) : Prop :=
  ∀ (d : DurTy) (x : Term) (n : ℤ) (q : ℚ), d.conv = doubleConv fl → x.num.Valid → x.Ticks d n →
    x.Exact d q → IsNearest q n

/-- The unit is a moderate number of ticks, or a moderate fraction of a tick. -/
def ModerateUnit (d : DurTy) (x : Term) : Prop :=
  ∀ u, UnitLen x.unit u → |(u * d.perSec).num| ≤ 2 ^ 53

/-- The term in the common unit of the text's unit and the tick is less than `b`. -/
def Below (d : DurTy) (x : Term) (b : ℚ) : Prop :=
  ∀ u, UnitLen x.unit u → |x.num.value * (u * d.perSec).num| + (u * d.perSec).den ≤ b

theorem unitLen_unique {t : Text} {a b : ℚ} (ha : UnitLen t a) (hb : UnitLen t b) : a = b := by
  have h1 := unitSeconds_of ha
  have h2 := unitSeconds_of hb
  rw [h1] at h2
  exact Option.some.inj h2

/-- C48, for whole numbers in the text: the ticks are the nearest to the exact value. -/
theorem ticks_double_integer_partial {fl : ℚ → ℚ} (hfl : RoundsToDouble fl) {d : DurTy}
    (hd : d.conv = doubleConv fl) {x : Term} {k n : ℤ} {q : ℚ} (hk : x.num.value = k) (hk2 : |k| ≤ 2 ^ 53)
    (hu : ModerateUnit d x) (hr : Below d x (2 ^ 53)) (h : x.Ticks d n) (hq : x.Exact d q) :
    IsNearest q n := by
  obtain ⟨u, hu1, rfl⟩ := h
  obtain ⟨u', hu2, rfl⟩ := hq
  obtain rfl := unitLen_unique hu1 hu2
  have h1 := hr u hu1
  rw [hd, hk] at *
  have hint : IsDouble ((k : ℚ) * (u * d.perSec).num) := by
    have hb : |(k : ℚ) * (u * d.perSec).num| ≤ 2 ^ 53 := by
      have : (0 : ℚ) ≤ (u * d.perSec).den := by positivity
      linarith
    have := isDouble_int (n := k * (u * d.perSec).num) (by
      have hb' : |((k * (u * d.perSec).num : ℤ) : ℚ)| ≤ 2 ^ 53 := by push_cast; exact hb
      exact_mod_cast hb')
    push_cast at this
    exact this
  rw [doubleConv_exact hfl (isDouble_int hk2) (hu u hu1) hint h1]
  exact chronoRound_nearest _

/-- C48, in general: the ticks are at most half a tick from the exact value, up to the accuracy of `double`
(a relative error of `2 ^ -51`, and an absolute one that does not matter). -/
theorem ticks_double_partial {fl : ℚ → ℚ} (hfl : RoundsToDouble fl) {d : DurTy} (hd : d.conv = doubleConv fl)
    {x : Term} {n : ℤ} {q : ℚ} (hu : ModerateUnit d x) (hr : Below d x (2 ^ 52)) (h : x.Ticks d n)
    (hq : x.Exact d q) : |q - n| ≤ 1 / 2 + |q| / 2 ^ 51 + 1 / 2 ^ 1000 := by
  obtain ⟨u, hu1, rfl⟩ := h
  obtain ⟨u', hu2, rfl⟩ := hq
  obtain rfl := unitLen_unique hu1 hu2
  rw [hd]
  obtain ⟨z, hz1, hz2⟩ := doubleConv_rounds hfl (hr u hu1) (hu u hu1)
  rw [hz2]
  have h1 := (chronoRound_nearest z).1
  have h2 := abs_sub_le (x.num.value * (u * d.perSec)) z (chronoRound z).ticks
  rw [abs_sub_comm _ z] at h2
  generalize (1 : ℚ) / 2 ^ 1000 = w at hz1 ⊢
  linarith

/-- Every arithmetic of `double` is exact for small whole numbers of seconds in milliseconds. -/
theorem doubleConv_sane {fl : ℚ → ℚ} (hfl : RoundsToDouble fl) : Sane (doubleConv fl) := by
  intro k hk
  have hn : (1000 : ℚ).num = 1000 := rfl
  have hden : (1000 : ℚ).den = 1 := rfl
  have hk' := abs_le.1 hk
  have e := doubleConv_exact (f := 1000) hfl (isDouble_int (n := k) (by rw [abs_le]; constructor <;> omega))
    (by rw [hn]; norm_num)
    (by
      rw [hn]
      have := isDouble_int (n := k * 1000) (by rw [abs_le]; constructor <;> omega)
      rw [Int.cast_mul] at this
      exact this)
    (by
      rw [hn, hden]
      have hb : |(k : ℚ)| ≤ 1000000 := by exact_mod_cast hk
      rw [abs_mul]
      norm_num
      linarith)
  rw [e]
  exact exactConv_sane k hk

/-- The literal `9007199254740993`, `2 ^ 53 + 1`. -/
def bigLit : Decimal := { ip := "9007199254740993".toList }

theorem bigLit_value : bigLit.value = 2 ^ 53 + 1 := by
  unfold Decimal.value Decimal.abs
  rw [show digitsVal (bigLit.ip ++ bigLit.frac) = 9007199254740993 from rfl]
  norm_num [bigLit, Decimal.frac, expVal]

theorem bigLit_valid : bigLit.Valid where
  ip := by decide
  fp := by decide
  some_digit := by decide
  exp := by intro c sg ds h; cases h
  range := by
    have : bigLit.abs = 2 ^ 53 + 1 := bigLit_value
    rw [this]
    exact small_range (by norm_num) (.inr (by norm_num))

/-- The doubles nearest to `2 ^ 53 + 1`. -/
theorem fl_big {fl : ℚ → ℚ} (hfl : RoundsToDouble fl) :
    fl (2 ^ 53 + 1) = ((2 ^ 53 : ℤ) : ℚ) ∨ fl (2 ^ 53 + 1) = ((2 ^ 53 + 2 : ℤ) : ℚ) := by
  have h1 := hfl.closest (2 ^ 53 + 1) ((2 ^ 53 : ℤ) : ℚ) (isDouble_int (by norm_num))
  obtain ⟨m, e, hm, _, hme⟩ := hfl.double (2 ^ 53 + 1)
  have hb : |(2 : ℚ) ^ 53 + 1 - fl (2 ^ 53 + 1)| ≤ 1 := by
    refine h1.trans ?_
    push_cast
    norm_num
  have hb' := abs_le.1 hb
  rcases le_or_gt 1 e with h | h
  · obtain ⟨k, hk⟩ := two_zpow_split h
    have hi : fl (2 ^ 53 + 1) = ((2 * (m * k) : ℤ) : ℚ) := by rw [hme, hk]; push_cast; ring
    rw [hi] at hb' ⊢
    have c1 : (2 ^ 53 : ℤ) ≤ 2 * (m * k) := by
      have : ((2 ^ 53 : ℤ) : ℚ) ≤ ((2 * (m * k) : ℤ) : ℚ) := by
        rw [show ((2 ^ 53 : ℤ) : ℚ) = 2 ^ 53 by norm_cast]; linarith [hb'.2]
      exact_mod_cast this
    have c2 : 2 * (m * k) ≤ (2 ^ 53 + 2 : ℤ) := by
      have : ((2 * (m * k) : ℤ) : ℚ) ≤ ((2 ^ 53 + 2 : ℤ) : ℚ) := by
        rw [show ((2 ^ 53 + 2 : ℤ) : ℚ) = 2 ^ 53 + 2 by norm_cast]; linarith [hb'.1]
      exact_mod_cast this
    have : 2 * (m * k) = (2 ^ 53 : ℤ) ∨ 2 * (m * k) = (2 ^ 53 + 2 : ℤ) := by omega
    rcases this with h | h
    · left; rw [h]
    · right; rw [h]
  · left
    have hle : (2 : ℚ) ^ e ≤ 1 := by
      rw [← zpow_zero (2 : ℚ)]
      exact zpow_le_zpow_right₀ (by norm_num) (by omega)
    have hm' : (m : ℚ) ≤ 2 ^ 53 := by
      have : m ≤ 2 ^ 53 := le_trans (le_abs_self m) hm
      exact_mod_cast this
    have hp := two_zpow_pos e
    have : fl (2 ^ 53 + 1) ≤ 2 ^ 53 := by
      rw [hme]
      calc (m : ℚ) * 2 ^ e ≤ 2 ^ 53 * 2 ^ e := mul_le_mul_of_nonneg_right hm' hp.le
        _ ≤ 2 ^ 53 * 1 := mul_le_mul_of_nonneg_left hle (by positivity)
        _ = 2 ^ 53 := mul_one _
    rw [show ((2 ^ 53 : ℤ) : ℚ) = 2 ^ 53 by norm_cast]
    linarith [hb'.2]

/-- C48 is false beyond the accuracy of `double`: `9007199254740993s`, read as seconds, is off by one. -/
theorem not_nearestTicks {fl : ℚ → ℚ} (hfl : RoundsToDouble fl) : ¬ NearestTicks fl := by
  intro h
  have := h ⟨64, 1, doubleConv fl⟩ { num := bigLit, unit := "s".toList } _ _ rfl bigLit_valid
    ⟨1, .s, rfl⟩ ⟨1, .s, rfl⟩
  simp only [bigLit_value, mul_one] at this
  -- the result is one of the two doubles
  have key : ∀ K : ℤ, fl (2 ^ 53 + 1) = K → K % 2 = 0 → IsDouble K → (doubleConv fl (2 ^ 53 + 1) 1).ticks = K := by
    intro K hK hev hKd
    have h1 : fl (1 : ℚ) = 1 := by
      have := fl_exact hfl (isDouble_int (n := 1) (by norm_num))
      push_cast at this
      exact this
    have hn : (((1 : ℚ).num : ℤ) : ℚ) = 1 := rfl
    have hdn : (((1 : ℚ).den : ℕ) : ℚ) = 1 := rfl
    have htr : trunc (K : ℚ) = K := by unfold trunc; split <;> simp
    have hKK : fl (K : ℚ) = K := fl_exact hfl hKd
    have h0 : fl (0 : ℚ) = 0 := by
      have := fl_exact hfl (isDouble_int (n := 0) (by norm_num))
      push_cast at this
      exact this
    unfold doubleConv doubleRound
    simp only [hn, hdn, h1, hK, mul_one, div_one, hKK, htr, gt_iff_lt, lt_irrefl, if_false, sub_self, h0]
    have hle : (0 : ℚ) ≤ fl (fl (fl ((K + 1 : ℤ) : ℚ)) - K) := by
      rw [← h0]
      apply fl_mono hfl
      have h2 : fl ((K : ℤ) : ℚ) ≤ fl ((K + 1 : ℤ) : ℚ) := fl_mono hfl (by push_cast; linarith)
      have h3 : fl (fl ((K : ℤ) : ℚ)) ≤ fl (fl ((K + 1 : ℤ) : ℚ)) := fl_mono hfl h2
      rw [hKK, hKK] at h3
      linarith
    split
    · rw [decide_eq_false (by omega)]; rfl
    · rename_i hne
      rw [decide_eq_false (not_not.2 (lt_of_le_of_ne hle hne))]; rfl
  rcases fl_big hfl with e | e
  · rw [key _ e (by decide) (by rw [← e]; exact hfl.double _)] at this
    have h1 := this.1
    rw [show ((2 ^ 53 : ℤ) : ℚ) = 2 ^ 53 by norm_cast] at h1
    norm_num at h1
  · rw [key _ e (by decide) (by rw [← e]; exact hfl.double _)] at this
    have h1 := this.1
    rw [show ((2 ^ 53 + 2 : ℤ) : ℚ) = 2 ^ 53 + 2 by norm_cast] at h1
    norm_num at h1

/-- Nanoseconds in 64 bits. -/
def nanoseconds (conv : Rat → Rat → Rounded) : DurTy := ⟨64, 1000000000, conv⟩

/-- The term `0.1h`. -/
def tenthHour : Term := { num := { ip := ['0'], fp := some ['1'] }, unit := "h".toList }

theorem tenthHour_value : tenthHour.num.value = 1 / 10 := by
  unfold Decimal.value Decimal.abs
  rw [show digitsVal (tenthHour.num.ip ++ tenthHour.num.frac) = 1 from rfl]
  norm_num [tenthHour, Decimal.frac, expVal]

theorem hour_ns : (3600 : ℚ) * 1000000000 = ((3600000000000 : ℤ) : ℚ) := by norm_num

/-- The hypotheses of `ticks_double_partial` for `0.1h` in nanoseconds (`6 * 60 * 10 ^ 9` of them). -/
example : ModerateUnit (nanoseconds (doubleConv nearestDouble)) tenthHour ∧
    Below (nanoseconds (doubleConv nearestDouble)) tenthHour (2 ^ 52) ∧
    tenthHour.Exact (nanoseconds (doubleConv nearestDouble)) 360000000000 := by
  have hp : (nanoseconds (doubleConv nearestDouble)).perSec = 1000000000 := rfl
  refine ⟨?_, ?_, ⟨3600, .hour, ?_⟩⟩
  · intro u h
    obtain rfl := unitLen_unique h .hour
    rw [hp, hour_ns, Rat.num_intCast]
    norm_num
  · intro u h
    obtain rfl := unitLen_unique h .hour
    rw [hp, hour_ns, Rat.num_intCast, Rat.den_intCast, tenthHour_value]
    norm_num
  · rw [hp, tenthHour_value]
    norm_num

/-! ## The range of `double` -/

theorem isDouble_pow {e : ℤ} (h : -1074 ≤ e) (m : ℤ) (hm : |m| ≤ 2 ^ 53) : IsDouble (m * (2 : ℚ) ^ e) :=
  ⟨m, e, hm, h, rfl⟩

/-- The range in the model of `std::from_chars` is that of the numbers that a correct rounding turns into a
finite `double`, and into zero only if they are zero. (At the two midpoints this depends on the rule for
ties: to even, the numbers are out of range there.) -/
theorem doubleRange_iff {fl : ℚ → ℚ} (hfl : RoundsToDouble fl) {q : ℚ} (hq : 0 ≤ q)
    (h1 : q ≠ 2 ^ 1024 - 2 ^ 970) (h2 : q ≠ 1 / 2 ^ 1075) :
    DoubleRange q ↔ fl q < 2 ^ 1024 ∧ (fl q = 0 → q = 0) := by
  obtain ⟨D, hD⟩ : ∃ D : ℚ, (2 : ℚ) ^ 970 = D := ⟨_, rfl⟩
  obtain ⟨H, hH⟩ : ∃ H : ℚ, (2 : ℚ) ^ 1024 = H := ⟨_, rfl⟩
  obtain ⟨E, hE⟩ : ∃ E : ℚ, (1 : ℚ) / 2 ^ 1075 = E := ⟨_, rfl⟩
  have hDH : H = 2 ^ 54 * D := by rw [← hH, ← hD, ← pow_add]
  have hDp : 0 < D := by rw [← hD]; exact pow_pos (by norm_num) _
  have hEp : 0 < E := by rw [← hE]; exact one_div_pos.2 (pow_pos (by norm_num) _)
  have z1 : (2 : ℚ) ^ (971 : ℤ) = 2 * D := by
    rw [← hD, show (971 : ℤ) = ((971 : ℕ) : ℤ) from rfl, zpow_natCast, show 971 = 970 + 1 from rfl, pow_succ,
      mul_comm]
  have z2 : (2 : ℚ) ^ (-1074 : ℤ) = 2 * E := by
    rw [← hE, show (-1074 : ℤ) = 1 + (-1075) by norm_num, zpow_add₀ (by norm_num), zpow_one,
      show (-1075 : ℤ) = -((1075 : ℕ) : ℤ) from rfl, zpow_neg, zpow_natCast, one_div]
  have dM : IsDouble (H - 2 * D) := by
    have := isDouble_pow (e := 971) (by norm_num) (2 ^ 53 - 1) (by norm_num)
    rw [z1] at this
    convert this using 1
    rw [hDH]; push_cast; ring
  have dE : IsDouble (2 * E) := by
    have := isDouble_pow (e := -1074) (by norm_num) 1 (by norm_num)
    rw [z2] at this
    convert this using 1
    push_cast; ring
  have d0 : IsDouble 0 := by
    have := isDouble_int (n := 0) (by norm_num)
    push_cast at this
    exact this
  have dH : IsDouble H := by
    have := isDouble_pow (e := 971) (by norm_num) (2 ^ 53) (by norm_num)
    rw [z1] at this
    convert this using 1
    rw [hDH]; push_cast; ring
  have s1 : ∀ e : ℤ, 971 ≤ e → ∃ k : ℤ, (2 : ℚ) ^ e = k * (2 * D) := fun e he => by
    rw [← z1]; exact two_zpow_split he
  have s2 : ∀ e : ℤ, -1074 ≤ e → ∃ k : ℤ, (2 : ℚ) ^ e = k * (2 * E) := fun e he => by
    rw [← z2]; exact two_zpow_split he
  have s3 : ∀ e : ℤ, e < 971 → (2 : ℚ) ^ e ≤ D := fun e he => by
    rw [← hD, ← zpow_natCast]
    exact zpow_le_zpow_right₀ (by norm_num) (by push_cast; omega)
  unfold DoubleRange
  rw [hH, hD] at h1
  rw [hE] at h2
  rw [hH, hD, hE]
  clear z1 z2 hH hD hE
  constructor
  · rintro ⟨a, b⟩
    constructor
    · rcases le_or_gt q (H - 2 * D) with c | c
      · have := fl_mono hfl c
        rw [fl_exact hfl dM] at this
        linarith
      · by_contra hc
        have k := hfl.closest q _ dM
        rw [abs_of_pos (by linarith : 0 < q - (H - 2 * D)), abs_of_neg (by linarith : q - fl q < 0)] at k
        linarith
    · intro hz
      rcases b with b | b
      · exact b
      · exfalso
        rcases le_or_gt q (2 * E) with c | c
        · have k := hfl.closest q _ dE
          rw [hz, sub_zero, abs_of_nonneg hq, abs_of_nonpos (by linarith : q - 2 * E ≤ 0)] at k
          linarith
        · have := fl_mono hfl c.le
          rw [fl_exact hfl dE, hz] at this
          linarith
  · rintro ⟨a, b⟩
    constructor
    · by_contra hc
      have hlt : H - D < q := lt_of_le_of_ne (not_lt.1 hc) (Ne.symm h1)
      rcases le_or_gt H q with c | c
      · have := fl_mono hfl c
        rw [fl_exact hfl dH] at this
        linarith
      · have k := hfl.closest q _ dH
        have k2 : q - fl q ≤ |q - fl q| := le_abs_self _
        rw [abs_of_neg (by linarith : q - H < 0)] at k
        have lo : H - 2 * D < fl q := by linarith
        obtain ⟨m, e, hm, he, hme⟩ := hfl.double q
        rcases le_or_gt 971 e with g | g
        · obtain ⟨j, hj⟩ := s1 e g
          have e1 : fl q = ((m * j : ℤ) : ℚ) * (2 * D) := by rw [hme, hj]; push_cast; ring
          rw [e1, hDH] at lo a
          have l1 : ((2 ^ 53 - 1 : ℤ) : ℚ) < ((m * j : ℤ) : ℚ) := by
            have : ((2 ^ 53 - 1 : ℤ) : ℚ) * (2 * D) < ((m * j : ℤ) : ℚ) * (2 * D) := by
              refine lt_of_eq_of_lt ?_ lo
              push_cast; ring
            exact lt_of_mul_lt_mul_right this (by linarith)
          have l2 : ((m * j : ℤ) : ℚ) < ((2 ^ 53 : ℤ) : ℚ) := by
            have : ((m * j : ℤ) : ℚ) * (2 * D) < ((2 ^ 53 : ℤ) : ℚ) * (2 * D) := by
              refine lt_of_lt_of_eq a ?_
              push_cast; ring
            exact lt_of_mul_lt_mul_right this (by linarith)
          have l1' : 2 ^ 53 - 1 < m * j := by exact_mod_cast l1
          have l2' : m * j < 2 ^ 53 := by exact_mod_cast l2
          omega
        · have hle := s3 e g
          have hm' : (m : ℚ) ≤ 2 ^ 53 := by
            have : m ≤ 2 ^ 53 := le_trans (le_abs_self m) hm
            exact_mod_cast this
          have hp := two_zpow_pos e
          have : fl q ≤ 2 ^ 53 * D := by
            rw [hme]
            calc (m : ℚ) * 2 ^ e ≤ 2 ^ 53 * 2 ^ e := mul_le_mul_of_nonneg_right hm' hp.le
              _ ≤ 2 ^ 53 * D := mul_le_mul_of_nonneg_left hle (by positivity)
          rw [hDH] at lo
          linarith
    · by_contra hc
      push Not at hc
      obtain ⟨hne, hle⟩ := hc
      have hlt : q < E := lt_of_le_of_ne hle h2
      apply hne
      apply b
      by_contra hz
      have k := hfl.closest q 0 d0
      rw [sub_zero, abs_of_nonneg hq] at k
      obtain ⟨m, e, _, he, hme⟩ := hfl.double q
      obtain ⟨j, hj⟩ := s2 e he
      have e1 : fl q = ((m * j : ℤ) : ℚ) * (2 * E) := by rw [hme, hj]; push_cast; ring
      have hmj : m * j ≠ 0 := by
        intro h0
        rw [h0] at e1
        apply hz
        rw [e1]; push_cast; ring
      have habs : (1 : ℚ) ≤ |((m * j : ℤ) : ℚ)| := by
        have : (1 : ℤ) ≤ |m * j| := Int.one_le_abs hmj
        exact_mod_cast this
      have hfa : 2 * E ≤ |fl q| := by
        rw [e1, abs_mul, abs_of_pos (by linarith : 0 < 2 * E)]
        nlinarith
      have tri : |fl q| ≤ |q - fl q| + |q| := by
        have := abs_sub_abs_le_abs_sub (fl q) q
        rw [abs_sub_comm] at this
        linarith
      rw [abs_of_nonneg hq] at tri
      linarith

end Guanaqo.Duration
