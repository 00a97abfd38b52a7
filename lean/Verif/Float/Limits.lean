import Verif.Float.Near

/-!
# C108: `std::numeric_limits<__float128>` (quadmath.hpp:17-64)

The number of decimal digits that every quad-precision number can hold, and the number that it takes to tell any two of them apart.
-/

namespace Guanaqo.Float

/-! ## Model -/

/-- The members of `std::numeric_limits` that are used for printing. -/
structure Limits where
  digits : ℕ
  digits10 : ℕ
  max_digits10 : ℕ

/-- quadmath.hpp:27-29, with the constants of quadmath.h: `FLT128_MANT_DIG` is 113, `FLT128_DIG` is 33. -/
def quadLimits : Limits where
  digits := 113
  digits10 := 33
  max_digits10 := 2 + 113 * 643 / 2136

/-! ## Specification -/

/-- The positive numbers with `n` significant decimal digits. -/
def IsDec (n : ℕ) (q : ℚ) : Prop := ∃ (d : ℕ) (e : ℤ), 10 ^ (n - 1) ≤ d ∧ d < 10 ^ n ∧ q = d * (10 : ℚ) ^ e

/-- `q` is a number with `n` digits as close to `x` as there is. -/
def NearestDec (n : ℕ) (x q : ℚ) : Prop := IsDec n q ∧ ∀ q', IsDec n q' → |q - x| ≤ |q' - x|

/-- `x` is a floating-point number as close to `q` as there is. -/
def NearestFl {f : Fmt} (q : ℚ) (x : Mag f) : Prop := ∀ y : Mag f, |q - x.val| ≤ |q - y.val|

/-- From the floating-point number to `n` digits and back: it is the only number that can come back. -/
def DigitsSuffice (f : Fmt) (n : ℕ) : Prop :=
  ∀ (x : Mag f) (q : ℚ), 0 < x.val → NearestDec n x.val q → ∀ y : Mag f, NearestFl q y → y.val = x.val

/-- From `n` digits to the floating-point number and back, in the range of the normal numbers: only the same digits can come back. -/
def DigitsSurvive (f : Fmt) (n : ℕ) : Prop :=
  ∀ (q : ℚ) (x : Mag f), IsDec n q → 2 ^ (f.p - 1) * (2 : ℚ) ^ f.emin ≤ q → q ≤ (2 ^ f.p - 1) * (2 : ℚ) ^ f.emax → NearestFl q x →
    ∀ q', NearestDec n x.val q' → q' = q

/-! ## Proofs -/

theorem dec_gap_same {d d' : ℕ} {e e' : ℤ} (he : e ≤ e') (hne : (d : ℚ) * 10 ^ e ≠ d' * 10 ^ e') :
    (10 : ℚ) ^ e ≤ |(d : ℚ) * 10 ^ e - d' * 10 ^ e'| := by
  obtain ⟨k, hk⟩ := Int.eq_ofNat_of_zero_le (show 0 ≤ e' - e by omega)
  have hp := ten_pos e
  have h10 : (10 : ℚ) ^ e' = 10 ^ k * 10 ^ e := by
    rw [show e' = (k : ℤ) + e by omega, zpow_add₀ (by norm_num), zpow_natCast]
  have h1 : (d : ℚ) * 10 ^ e - d' * 10 ^ e' = ((d - d' * 10 ^ k : ℤ) : ℚ) * 10 ^ e := by
    rw [h10]; push_cast; ring
  have h2 : (d - d' * 10 ^ k : ℤ) ≠ 0 := by
    intro h
    rw [h] at h1
    apply hne
    have : (d : ℚ) * 10 ^ e - d' * 10 ^ e' = 0 := by rw [h1]; simp
    linarith
  have h3 : (1 : ℚ) ≤ |((d - d' * 10 ^ k : ℤ) : ℚ)| := by
    have := Int.one_le_abs h2
    rw [← Int.cast_abs]
    exact_mod_cast this
  rw [h1, abs_mul, abs_of_pos hp]
  nlinarith

/-- A decimal number with a smaller exponent. -/
theorem dec_below {n d' : ℕ} {e e' : ℤ} (he : e' < e) (hd' : d' < 10 ^ n) :
    (d' : ℚ) * 10 ^ e' ≤ (10 ^ n - 1) * 10 ^ (e - 1) := by
  have h1 : (d' : ℚ) ≤ 10 ^ n - 1 := by
    have : (d' : ℚ) + 1 ≤ 10 ^ n := by exact_mod_cast hd'
    linarith
  have h2 : (10 : ℚ) ^ e' ≤ 10 ^ (e - 1) := zpow_le_zpow_right₀ (by norm_num) (by omega)
  have h3 := ten_pos e'
  have h4 : (0 : ℚ) ≤ d' := by positivity
  have h5 : (0 : ℚ) ≤ 10 ^ n - 1 := by linarith
  calc (d' : ℚ) * 10 ^ e' ≤ (10 ^ n - 1) * 10 ^ e' := mul_le_mul_of_nonneg_right h1 h3.le
    _ ≤ _ := mul_le_mul_of_nonneg_left h2 h5

theorem ten_pred (e : ℤ) : (10 : ℚ) ^ e = 10 * 10 ^ (e - 1) := by
  conv_lhs => rw [show e = (e - 1) + 1 by ring, zpow_add_one₀ (by norm_num)]
  ring

/-- The relative distance of two decimal numbers is at least `10 ^ -n`. -/
theorem dec_gap {n : ℕ} (hn : 1 ≤ n) {q q' : ℚ} (hq : IsDec n q) (hq' : IsDec n q') (hne : q ≠ q') : q ≤ 10 ^ n * |q - q'| := by
  obtain ⟨d, e, h1, h2, rfl⟩ := hq
  obtain ⟨d', e', _, h2', rfl⟩ := hq'
  have hN : (0 : ℚ) < 10 ^ n := by positivity
  have hd : (d : ℚ) < 10 ^ n := by exact_mod_cast h2
  have hpe := ten_pos e
  by_cases he : e ≤ e'
  · have := dec_gap_same he hne
    calc (d : ℚ) * 10 ^ e ≤ 10 ^ n * 10 ^ e := mul_le_mul_of_nonneg_right hd.le hpe.le
      _ ≤ _ := mul_le_mul_of_nonneg_left this hN.le
  · have hb := dec_below (n := n) (show e' < e by omega) h2'
    have hp := ten_pos (e - 1)
    have hD : (10 : ℚ) ^ n ≤ 10 * d := by
      have : 10 ^ n ≤ 10 * d := by
        calc 10 ^ n = 10 * 10 ^ (n - 1) := by rw [← pow_succ', Nat.sub_add_cancel hn]
          _ ≤ _ := Nat.mul_le_mul_left _ h1
      exact_mod_cast this
    have ht := ten_pred e
    generalize (10 : ℚ) ^ (e - 1) = u at *
    generalize (d' : ℚ) * 10 ^ e' = q' at *
    generalize (10 : ℚ) ^ n = N at *
    rw [ht]
    have h3 : 0 ≤ (10 * d - N) * (N - 1) * u := by
      have h1N : (1 : ℚ) ≤ N ∨ N < 1 := le_or_gt 1 N
      rcases h1N with h | h
      · exact mul_nonneg (mul_nonneg (by linarith) (by linarith)) hp.le
      · have h0 : (d : ℚ) < 1 := by linarith
        have h0' : d = 0 := by
          have : d < 1 := by exact_mod_cast h0
          omega
        subst h0'
        simp at hD
        linarith
    have h4 : (10 * d - N + 1) * u ≤ |(d : ℚ) * (10 * u) - q'| := by
      refine le_trans ?_ (le_abs_self _)
      nlinarith
    calc (d : ℚ) * (10 * u) ≤ N * ((10 * d - N + 1) * u) := by nlinarith
      _ ≤ _ := mul_le_mul_of_nonneg_left h4 hN.le

/-- Except at powers of ten, the distance is a unit of the last digit. -/
theorem dec_gap_abs {n d : ℕ} (hn : 1 ≤ n) {e : ℤ} {q' : ℚ} (h1 : 10 ^ (n - 1) < d) (hq' : IsDec n q') (hne : (d : ℚ) * 10 ^ e ≠ q') :
    (10 : ℚ) ^ e ≤ |(d : ℚ) * 10 ^ e - q'| := by
  obtain ⟨d', e', _, h2', rfl⟩ := hq'
  by_cases he : e ≤ e'
  · exact dec_gap_same he hne
  · have hb := dec_below (n := n) (show e' < e by omega) h2'
    have hp := ten_pos (e - 1)
    have hD : (10 : ℚ) ^ n + 10 ≤ 10 * d := by
      have : 10 ^ n + 10 ≤ 10 * d := by
        have : 10 ^ n = 10 * 10 ^ (n - 1) := by rw [← pow_succ', Nat.sub_add_cancel hn]
        omega
      exact_mod_cast this
    rw [ten_pred e]
    generalize (10 : ℚ) ^ (e - 1) = u at *
    generalize (d' : ℚ) * 10 ^ e' = q' at *
    generalize (10 : ℚ) ^ n = N at *
    refine le_trans ?_ (le_abs_self _)
    nlinarith

theorem nearestDec_of_close {n d : ℕ} (hn : 1 ≤ n) {e : ℤ} {x : ℚ} (h1 : 10 ^ (n - 1) < d) (h2 : d < 10 ^ n)
    (hx : |(d : ℚ) * 10 ^ e - x| ≤ 10 ^ e / 2) : NearestDec n x (d * 10 ^ e) := by
  refine ⟨⟨d, e, h1.le, h2, rfl⟩, fun q' hq' => ?_⟩
  by_cases hne : (d : ℚ) * 10 ^ e = q'
  · rw [hne]
  · have h3 := dec_gap_abs hn h1 hq' hne
    have h4 := abs_sub_le ((d : ℚ) * 10 ^ e) x q'
    rw [abs_sub_comm x q'] at h4
    linarith

/-- Except at powers of two, the distance of floating-point numbers is a unit of the last bit. -/
theorem mag_gap_abs {f : Fmt} (hp : 1 ≤ f.p) (x y : Mag f) (hx : 2 ^ (f.p - 1) < x.m) (hne : y.val ≠ x.val) : (2 : ℚ) ^ x.e ≤ |x.val - y.val| := by
  by_cases he : x.e ≤ y.e
  · exact gap_above x y he hne
  · have h2 : (2 : ℚ) ^ y.e ≤ 2 ^ (x.e - 1) := zpow_le_zpow_right₀ (by norm_num) (by omega)
    have hu := zpow_pos' (x.e - 1)
    have h2' : (2 : ℚ) ^ x.e = 2 * 2 ^ (x.e - 1) := by
      conv_lhs => rw [show x.e = (x.e - 1) + 1 by ring, zpow_add_one₀ (by norm_num)]
      ring
    have h1 : (y.m : ℚ) < 2 ^ f.p := by exact_mod_cast y.lt
    have hD : (2 : ℚ) ^ f.p + 2 ≤ 2 * x.m := by
      have : 2 ^ f.p + 2 ≤ 2 * x.m := by
        have : 2 ^ f.p = 2 * 2 ^ (f.p - 1) := by rw [← pow_succ', Nat.sub_add_cancel hp]
        omega
      exact_mod_cast this
    have hy : y.val ≤ 2 ^ f.p * 2 ^ (x.e - 1) := by
      unfold Mag.val
      have h3 : (0 : ℚ) ≤ 2 ^ f.p := by positivity
      exact mul_le_mul h1.le h2 (zpow_pos' _).le h3
    refine le_trans ?_ (le_abs_self _)
    have hxv : x.val = x.m * (2 * 2 ^ (x.e - 1)) := by unfold Mag.val; rw [h2']
    rw [hxv, h2']
    generalize (2 : ℚ) ^ (x.e - 1) = u at *
    generalize (2 : ℚ) ^ f.p = N at *
    nlinarith

theorem nearestFl_of_close {f : Fmt} (hp : 1 ≤ f.p) (x : Mag f) (q : ℚ) (hx : 2 ^ (f.p - 1) < x.m) (h : |q - x.val| ≤ 2 ^ x.e / 2) : NearestFl q x := by
  intro y
  by_cases hne : y.val = x.val
  · rw [hne]
  · have h3 := mag_gap_abs hp x y hx hne
    have h4 := abs_sub_le x.val q y.val
    rw [abs_sub_comm x.val q] at h4
    linarith

/-- With more than `log₁₀ 2 ^ p` digits after the first, every number is told apart from all others. -/
theorem digits_suffice_of {f : Fmt} (hp : 1 ≤ f.p) (n : ℕ) (hn : 2 ^ f.p < 10 ^ (n - 1)) : DigitsSuffice f n := by
  have hn1 : 1 ≤ n := by
    rcases Nat.eq_zero_or_pos n with rfl | h
    · have := Nat.pow_le_pow_right (show 0 < 2 by decide) hp
      omega
    · exact h
  rintro x q hx ⟨-, hq⟩ y hy
  obtain ⟨d, e, k, h1, h2, hk, hk', h3⟩ := exists_decimal x.val hx (n - 1)
  rw [Nat.sub_add_cancel hn1] at h2
  have h4 := hq _ ⟨d, e - (n - 1 : ℕ), h1, h2, rfl⟩
  have h5 := nearest_back hp (n - 1) hn x q (relative_error hk (h4.trans h3))
  by_contra hne
  exact absurd (hy x) (not_le.2 (h5.2 y hne))

/-- A number in the range of the normal numbers has a floating-point number within half a unit of its last bit. -/
theorem exists_fl_ulp {f : Fmt} (hp : 1 ≤ f.p) (q : ℚ) (hlo : 2 ^ (f.p - 1) * (2 : ℚ) ^ f.emin ≤ q) (hhi : q ≤ (2 ^ f.p - 1) * (2 : ℚ) ^ f.emax) :
    ∃ (x : Mag f) (e : ℤ), 2 ^ (f.p - 1) * (2 : ℚ) ^ e ≤ q ∧ q < 2 ^ f.p * (2 : ℚ) ^ e ∧ |q - x.val| ≤ 2 ^ e / 2 := by
  have hP : (2 : ℚ) ^ f.p = 2 * 2 ^ (f.p - 1) := by rw [← pow_succ', Nat.sub_add_cancel hp]
  have hq0 : 0 < q := lt_of_lt_of_le (mul_pos (by positivity) (zpow_pos' _)) hlo
  obtain ⟨E, hE⟩ : ∃ E : ℤ, E = Int.log 2 q := ⟨_, rfl⟩
  have hl1 : (2 : ℚ) ^ E ≤ q := by rw [hE]; exact_mod_cast Int.zpow_log_le_self (b := 2) (by norm_num) hq0
  have hl2 : q < (2 : ℚ) ^ (E + 1) := by rw [hE]; exact_mod_cast Int.lt_zpow_succ_log_self (b := 2) (by norm_num) q
  obtain ⟨e, he⟩ : ∃ e : ℤ, e = E - (f.p - 1 : ℕ) := ⟨_, rfl⟩
  have hEe : E = (f.p - 1 : ℕ) + e := by omega
  have hpe := zpow_pos' e
  have h1 : 2 ^ (f.p - 1) * (2 : ℚ) ^ e ≤ q := by
    rw [hEe, zpow_add₀ (by norm_num), zpow_natCast] at hl1; exact hl1
  have h2 : q < 2 ^ f.p * (2 : ℚ) ^ e := by
    rw [show E + 1 = (f.p : ℤ) + e by omega, zpow_add₀ (by norm_num), zpow_natCast] at hl2; exact hl2
  have hemin : f.emin ≤ e := by
    by_contra h
    have h3 : (2 : ℚ) ^ (e + 1) ≤ 2 ^ f.emin := zpow_le_zpow_right₀ (by norm_num) (by omega)
    rw [zpow_add_one₀ (by norm_num)] at h3
    have h4 : (0 : ℚ) < 2 ^ (f.p - 1) := by positivity
    rw [hP] at h2
    nlinarith
  have hemax : e ≤ f.emax := by
    by_contra h
    have h3 : (2 : ℚ) ^ (f.emax + 1) ≤ 2 ^ e := zpow_le_zpow_right₀ (by norm_num) (by omega)
    rw [zpow_add_one₀ (by norm_num)] at h3
    have h4 : (0 : ℚ) < 2 ^ (f.p - 1) := by positivity
    have h5 := zpow_pos' f.emax
    rw [hP] at hhi
    nlinarith
  -- round to nearest
  obtain ⟨m, hm⟩ : ∃ m : ℤ, m = round (q / 2 ^ e) := ⟨_, rfl⟩
  have herr : |q / 2 ^ e - m| ≤ 1 / 2 := by rw [hm]; exact abs_sub_round _
  have hdiv : q / 2 ^ e * 2 ^ e = q := div_mul_cancel₀ _ hpe.ne'
  have herr' : |q - m * 2 ^ e| ≤ 2 ^ e / 2 := by
    have : q - m * 2 ^ e = (q / 2 ^ e - m) * 2 ^ e := by rw [sub_mul, hdiv]
    rw [this, abs_mul, abs_of_pos hpe]
    nlinarith
  have hgoal : ∀ x : Mag f, x.val = m * 2 ^ e → 2 ^ (f.p - 1) * (2 : ℚ) ^ e ≤ q ∧ q < 2 ^ f.p * (2 : ℚ) ^ e ∧ |q - x.val| ≤ 2 ^ e / 2 := by
    intro x hx
    exact ⟨h1, h2, by rw [hx]; exact herr'⟩
  have hb := abs_le.1 herr
  have hm1 : (2 : ℤ) ^ (f.p - 1) ≤ m := by
    have h3 : (2 : ℚ) ^ (f.p - 1) ≤ q / 2 ^ e := by rw [le_div_iff₀ hpe]; exact h1
    by_contra h
    have h4 : m + 1 ≤ 2 ^ (f.p - 1) := by omega
    have h5 : (m : ℚ) + 1 ≤ 2 ^ (f.p - 1) := by exact_mod_cast h4
    linarith [hb.2]
  have hm2 : m ≤ 2 ^ f.p := by
    have h3 : q / 2 ^ e < 2 ^ f.p := by rw [div_lt_iff₀ hpe]; exact h2
    by_contra h
    have h4 : (2 : ℤ) ^ f.p + 1 ≤ m := by omega
    have h5 : (2 : ℚ) ^ f.p + 1 ≤ m := by exact_mod_cast h4
    linarith [hb.1]
  have hm0 : 0 ≤ m := le_trans (by positivity) hm1
  obtain ⟨m', rfl⟩ := Int.eq_ofNat_of_zero_le hm0
  by_cases heq : m' = 2 ^ f.p
  · have hlt : e < f.emax := by
      rcases lt_or_eq_of_le hemax with h | h
      · exact h
      · exfalso
        rw [← h] at hhi
        have h3 : q / 2 ^ e ≤ 2 ^ f.p - 1 := by rw [div_le_iff₀ hpe]; exact hhi
        have h5 : ((m' : ℤ) : ℚ) = 2 ^ f.p := by rw [heq]; push_cast; rfl
        rw [h5] at hb
        linarith [hb.1]
    refine ⟨⟨2 ^ (f.p - 1), e + 1, Nat.pow_lt_pow_right (by decide) (by omega), by omega, by omega, .inl le_rfl⟩, e, hgoal _ ?_⟩
    unfold Mag.val
    simp only
    rw [zpow_add_one₀ (by norm_num), heq]
    push_cast
    rw [hP]; ring
  · refine ⟨⟨m', e, ?_, hemin, hemax, .inl (by exact_mod_cast hm1)⟩, e, hgoal _ ?_⟩
    · have : m' ≤ 2 ^ f.p := by exact_mod_cast hm2
      omega
    · unfold Mag.val; push_cast; rfl

theorem exists_fl {f : Fmt} (hp : 1 ≤ f.p) (q : ℚ) (hlo : 2 ^ (f.p - 1) * (2 : ℚ) ^ f.emin ≤ q) (hhi : q ≤ (2 ^ f.p - 1) * (2 : ℚ) ^ f.emax) :
    ∃ x : Mag f, 2 ^ f.p * |q - x.val| ≤ q := by
  obtain ⟨x, e, h1, _, h3⟩ := exists_fl_ulp hp q hlo hhi
  refine ⟨x, ?_⟩
  have hP : (2 : ℚ) ^ f.p = 2 * 2 ^ (f.p - 1) := by rw [← pow_succ', Nat.sub_add_cancel hp]
  have h4 : (0 : ℚ) < 2 ^ (f.p - 1) := by positivity
  rw [hP]
  nlinarith

/-- With fewer than `log₁₀ 2 ^ (p - 1)` digits, every decimal number in the range is told apart from all others with as many digits. -/
theorem digits_survive {f : Fmt} (hp : 1 ≤ f.p) (n : ℕ) (hn1 : 1 ≤ n) (hn : 10 ^ n < 2 ^ (f.p - 1)) : DigitsSurvive f n := by
  intro q x hq hlo hhi hx q' hq'
  obtain ⟨y, hy⟩ := exists_fl hp q hlo hhi
  by_contra hne
  have h1 : 2 ^ f.p * |q - x.val| ≤ q := le_trans (mul_le_mul_of_nonneg_left (hx y) (by positivity)) hy
  have h2 := hq'.2 q hq
  have h3 := dec_gap hn1 hq hq'.1 (Ne.symm hne)
  have h4 := abs_sub_le q x.val q'
  rw [abs_sub_comm x.val q'] at h4
  have hP : (2 : ℚ) ^ f.p = 2 * 2 ^ (f.p - 1) := by rw [← pow_succ', Nat.sub_add_cancel hp]
  have hN : (10 : ℚ) ^ n < 2 ^ (f.p - 1) := by exact_mod_cast hn
  have hpos : 0 < |q - q'| := abs_pos.2 (sub_ne_zero.2 (Ne.symm hne))
  have h5 : |q - q'| ≤ 2 * |q - x.val| := by linarith
  have h6 : 10 ^ n * |q - q'| < 2 ^ (f.p - 1) * |q - q'| := mul_lt_mul_of_pos_right hN hpos
  have h7 : (0 : ℚ) < 2 ^ (f.p - 1) := by positivity
  have h8 := mul_le_mul_of_nonneg_left h5 h7.le
  rw [hP] at h1
  linarith

/-- Close to 1000, quad-precision numbers are closer together than the numbers with 35 digits. -/
theorem digits35_collide : ¬ DigitsSuffice binary128 35 := by
  intro h
  have lem : ∀ k : ℕ, k < 2 ^ 100 → 2 ^ 112 ≤ 1000 * 2 ^ 103 + k ∧ 1000 * 2 ^ 103 + k < 2 ^ 113 := by
    intro k hk
    norm_num at hk ⊢
    omega
  let X : ∀ k : ℕ, k < 2 ^ 100 → Mag binary128 := fun k hk => ⟨1000 * 2 ^ 103 + k, -103, (lem k hk).2, by decide, by decide, .inl (lem k hk).1⟩
  have hv : ∀ k hk, (X k hk).val = 1000 + k / 2 ^ 103 := by
    intro k hk
    show ((1000 * 2 ^ 103 + k : ℕ) : ℚ) * (2 : ℚ) ^ (-103 : ℤ) = _
    rw [zpow_neg]
    push_cast
    norm_num
    ring
  have hdec : ∀ k hk, |((1000 * 10 ^ 31 + 35 : ℕ) : ℚ) * 10 ^ (-31 : ℤ) - (X k hk).val| ≤ 10 ^ (-31 : ℤ) / 2 →
      NearestDec 35 (X k hk).val (((1000 * 10 ^ 31 + 35 : ℕ) : ℚ) * 10 ^ (-31 : ℤ)) := fun k hk hc =>
    nearestDec_of_close (by decide) (by norm_num) (by norm_num) hc
  have h35 : 35 < 2 ^ 100 := by norm_num
  have h36 : 36 < 2 ^ 100 := by norm_num
  have d2 := hdec 36 h36 (by rw [hv 36 h36, abs_le]; norm_num)
  have hne : (X 35 h35).val ≠ (X 36 h36).val := by rw [hv 35 h35, hv 36 h36]; norm_num
  have hpos' : 0 < (X 36 h36).val := by rw [hv 36 h36]; norm_num
  have n1 : NearestFl (((1000 * 10 ^ 31 + 35 : ℕ) : ℚ) * 10 ^ (-31 : ℤ)) (X 35 h35) := by
    refine nearestFl_of_close (by decide) _ _ ?_ ?_
    · show 2 ^ 112 < 1000 * 2 ^ 103 + 35
      norm_num
    · rw [hv 35 h35]
      show _ ≤ (2 : ℚ) ^ (-103 : ℤ) / 2
      rw [abs_le]; norm_num
  exact hne (h _ _ hpos' d2 _ n1)

/-- Close to 8192, the numbers with 34 digits are closer together than quad-precision numbers. -/
theorem digits34_lost : ¬ DigitsSurvive binary128 34 := by
  intro h
  let x : Mag binary128 := ⟨2 ^ 112 + 1, -99, by norm_num [binary128], by decide, by decide, .inl (by norm_num [binary128])⟩
  have hv : x.val = 8192 + 1 / 2 ^ 99 := by
    show ((2 ^ 112 + 1 : ℕ) : ℚ) * (2 : ℚ) ^ (-99 : ℤ) = _
    rw [zpow_neg]
    push_cast
    norm_num
  have hq : IsDec 34 (((8192 * 10 ^ 30 + 1 : ℕ) : ℚ) * 10 ^ (-30 : ℤ)) := ⟨_, _, by norm_num, by norm_num, rfl⟩
  have hn : NearestFl (((8192 * 10 ^ 30 + 1 : ℕ) : ℚ) * 10 ^ (-30 : ℤ)) x := by
    refine nearestFl_of_close (by decide) _ _ ?_ ?_
    · show 2 ^ 112 < 2 ^ 112 + 1
      norm_num
    · rw [hv]
      show _ ≤ (2 : ℚ) ^ (-99 : ℤ) / 2
      rw [abs_le]; norm_num
  have hd : NearestDec 34 x.val (((8192 * 10 ^ 30 + 2 : ℕ) : ℚ) * 10 ^ (-30 : ℤ)) := by
    refine nearestDec_of_close (by decide) (by norm_num) (by norm_num) ?_
    rw [hv, abs_le]; norm_num
  have h1 : (2 : ℚ) ^ (binary128.p - 1) * (2 : ℚ) ^ binary128.emin ≤ ((8192 * 10 ^ 30 + 1 : ℕ) : ℚ) * 10 ^ (-30 : ℤ) := by
    have e1 : (2 : ℚ) ^ (binary128.p - 1) * (2 : ℚ) ^ binary128.emin ≤ 1 := by
      have : (2 : ℚ) ^ binary128.emin ≤ 2 ^ (-(112 : ℤ)) := zpow_le_zpow_right₀ (by norm_num) (by decide)
      rw [zpow_neg] at this
      show (2 : ℚ) ^ 112 * _ ≤ 1
      have h3 : (2 : ℚ) ^ 112 * (2 ^ (112 : ℤ))⁻¹ = 1 := by norm_num
      calc _ ≤ (2 : ℚ) ^ 112 * (2 ^ (112 : ℤ))⁻¹ := mul_le_mul_of_nonneg_left this (by positivity)
        _ = 1 := h3
    refine e1.trans ?_
    norm_num
  have h2 : ((8192 * 10 ^ 30 + 1 : ℕ) : ℚ) * 10 ^ (-30 : ℤ) ≤ (2 ^ binary128.p - 1) * (2 : ℚ) ^ binary128.emax := by
    have e1 : (1 : ℚ) ≤ (2 : ℚ) ^ binary128.emax := one_le_zpow₀ (by norm_num) (by decide)
    have e2 : ((8192 * 10 ^ 30 + 1 : ℕ) : ℚ) * 10 ^ (-30 : ℤ) ≤ 2 ^ binary128.p - 1 := by
      show _ ≤ (2 : ℚ) ^ 113 - 1
      norm_num
    have e3 : (0 : ℚ) ≤ 2 ^ binary128.p - 1 := by
      show (0 : ℚ) ≤ (2 : ℚ) ^ 113 - 1
      norm_num
    nlinarith
  have := h _ x hq h1 h2 hn _ hd
  norm_num at this

/-- C108: `digits10` is the largest number of decimal digits that every normal quad-precision number holds, and `max_digits10` the smallest number of digits
that tells all of them apart. -/
theorem quad_limits_correct :
    DigitsSurvive binary128 quadLimits.digits10 ∧ ¬ DigitsSurvive binary128 (quadLimits.digits10 + 1) ∧
    DigitsSuffice binary128 quadLimits.max_digits10 ∧ ¬ DigitsSuffice binary128 (quadLimits.max_digits10 - 1) ∧
    quadLimits.digits = binary128.p :=
  ⟨digits_survive (by decide) 33 (by decide) (by norm_num [binary128]), digits34_lost,
    digits_suffice_of (by decide) 36 (by norm_num [binary128]), digits35_collide, rfl⟩

/-- Non-vacuity: 0.1 with 33 digits and a number that holds it; the number 1 and its digits. -/
example : IsDec 33 (1 / 10) := ⟨10 ^ 32, -33, le_rfl, by norm_num, by norm_num⟩

example : NearestDec 36 (3 / 2) (3 / 2) := by
  have h : ((15 * 10 ^ 34 : ℕ) : ℚ) * 10 ^ (-35 : ℤ) = 3 / 2 := by norm_num
  have := nearestDec_of_close (n := 36) (d := 15 * 10 ^ 34) (e := -35) (x := 3 / 2) (by decide) (by norm_num) (by norm_num) (by rw [h]; norm_num)
  rw [h] at this
  exact this

end Guanaqo.Float
