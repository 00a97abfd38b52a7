import Verif.Float.Limits
import Verif.Float.RoundTrip
import Mathlib.Order.Bounds.Basic
import Mathlib.Tactic.Positivity

/-!
# C132: the range in `std::numeric_limits<__float128>` (quadmath.hpp:17-64)

`min()`, `max()`, `lowest()`, `epsilon()`, `denorm_min()`, `round_error()` and the exponents. The values are decimal literals of `quadmath.h` that the
compiler rounds to `__float128`; they have 36 digits, none is the exact value.
-/

namespace Guanaqo.Float

/-! ## Model -/

/-- A decimal literal `d * 10 ^ e`. -/
structure Lit where
  d : ℕ
  e : ℤ

def Lit.val (l : Lit) : ℚ := l.d * (10 : ℚ) ^ l.e

/-- The members of `std::numeric_limits` about the range, as written. -/
structure RangeLits where
  min : Lit
  max : Lit
  epsilon : Lit
  denormMin : Lit
  roundError : ℚ
  minExponent : ℤ
  minExponent10 : ℤ
  maxExponent : ℤ
  maxExponent10 : ℤ
  radix : ℕ

/-- quadmath.hpp:23-45, 53 with the constants of quadmath.h (gcc 13, lines 151-160): `FLT128_MIN`, `FLT128_MAX`, `FLT128_EPSILON`,
`FLT128_DENORM_MIN`, `0.5Q`, `FLT128_MIN_EXP`, `FLT128_MIN_10_EXP`, `FLT128_MAX_EXP`, `FLT128_MAX_10_EXP`. -/
def quadRange : RangeLits where
  min := ⟨336210314311209350626267781732175260, -4932 - 35⟩
  max := ⟨118973149535723176508575932662800702, 4932 - 35⟩
  epsilon := ⟨192592994438723585305597794258492732, -34 - 35⟩
  denormMin := ⟨6475175119438025110924438958227646552, -4966 - 36⟩
  roundError := 1 / 2
  minExponent := -16381
  minExponent10 := -4931
  maxExponent := 16384
  maxExponent10 := 4932
  radix := 2

/-! ## Specification -/

/-- The finite positive values and zero, and those with all digits of the significand. -/
def Values (f : Fmt) : Set ℚ := {v | ∃ x : Mag f, v = x.val}

def NormalValues (f : Fmt) : Set ℚ := {v | ∃ x : Mag f, 2 ^ (f.p - 1) ≤ x.m ∧ v = x.val}

/-! ## Formats -/

variable {f : Fmt}

theorem isGreatest_max (hp : 1 ≤ f.p) (hr : f.emin ≤ f.emax) : IsGreatest (Values f) ((2 ^ f.p - 1) * (2 : ℚ) ^ f.emax) := by
  have h1 : 1 ≤ 2 ^ (f.p - 1) := Nat.one_le_two_pow
  have h2 : 2 ^ f.p = 2 * 2 ^ (f.p - 1) := by rw [← pow_succ', Nat.sub_add_cancel hp]
  constructor
  · refine ⟨⟨2 ^ f.p - 1, f.emax, by omega, hr, le_rfl, .inl (by omega)⟩, ?_⟩
    unfold Mag.val
    rw [Nat.cast_sub (by omega)]
    push_cast; rfl
  · rintro v ⟨x, rfl⟩
    unfold Mag.val
    have hm : (x.m : ℚ) ≤ 2 ^ f.p - 1 := by
      have : x.m + 1 ≤ 2 ^ f.p := x.lt
      have : (x.m : ℚ) + 1 ≤ 2 ^ f.p := by exact_mod_cast this
      linarith
    have he : (2 : ℚ) ^ x.e ≤ 2 ^ f.emax := zpow_le_zpow_right₀ (by norm_num) x.hi
    have h0 : (0 : ℚ) ≤ x.m := Nat.cast_nonneg _
    exact mul_le_mul hm he (zpow_pos' _).le (h0.trans hm)

theorem isLeast_min (hp : 1 ≤ f.p) (hr : f.emin ≤ f.emax) : IsLeast (NormalValues f) ((2 : ℚ) ^ (f.p - 1) * 2 ^ f.emin) := by
  have h2 : 2 ^ f.p = 2 * 2 ^ (f.p - 1) := by rw [← pow_succ', Nat.sub_add_cancel hp]
  have h1 : 1 ≤ 2 ^ (f.p - 1) := Nat.one_le_two_pow
  constructor
  · refine ⟨⟨2 ^ (f.p - 1), f.emin, by omega, le_rfl, hr, .inl le_rfl⟩, le_rfl, ?_⟩
    unfold Mag.val; push_cast; rfl
  · rintro v ⟨x, hx, rfl⟩
    unfold Mag.val
    have hm : (2 : ℚ) ^ (f.p - 1) ≤ x.m := by exact_mod_cast hx
    have he : (2 : ℚ) ^ f.emin ≤ 2 ^ x.e := zpow_le_zpow_right₀ (by norm_num) x.lo
    exact mul_le_mul hm he (zpow_pos' _).le (Nat.cast_nonneg _)

theorem isLeast_denorm (hp : 1 ≤ f.p) (hr : f.emin ≤ f.emax) : IsLeast {v | v ∈ Values f ∧ 0 < v} ((2 : ℚ) ^ f.emin) := by
  constructor
  · refine ⟨⟨⟨1, f.emin, Nat.one_lt_two_pow (by omega), le_rfl, hr, .inr rfl⟩, ?_⟩, zpow_pos' _⟩
    unfold Mag.val; simp
  · rintro v ⟨⟨x, rfl⟩, h⟩
    unfold Mag.val at *
    have hm : (1 : ℚ) ≤ x.m := by
      rcases Nat.eq_zero_or_pos x.m with h0 | h0
      · rw [h0] at h; simp at h
      · exact_mod_cast h0
    have he : (2 : ℚ) ^ f.emin ≤ 2 ^ x.e := zpow_le_zpow_right₀ (by norm_num) x.lo
    nlinarith [zpow_pos' x.e]

theorem isLeast_after_one (hp : 1 ≤ f.p) (h2p : 2 ≤ f.p) (hlo : f.emin ≤ 1 - (f.p : ℤ)) (hhi : 1 - (f.p : ℤ) ≤ f.emax) :
    IsLeast {v | v ∈ Values f ∧ 1 < v} (1 + (2 : ℚ) ^ (1 - (f.p : ℤ))) := by
  have h2 : 2 ^ f.p = 2 * 2 ^ (f.p - 1) := by rw [← pow_succ', Nat.sub_add_cancel hp]
  have h1 : 2 ≤ 2 ^ (f.p - 1) := by
    calc 2 = 2 ^ 1 := rfl
      _ ≤ 2 ^ (f.p - 1) := Nat.pow_le_pow_right (by decide) (by omega)
  have hone : (2 : ℚ) ^ (f.p - 1) * 2 ^ (1 - (f.p : ℤ)) = 1 := by
    rw [← zpow_natCast, ← zpow_add₀ (by norm_num)]
    have : ((f.p - 1 : ℕ) : ℤ) + (1 - f.p) = 0 := by omega
    rw [this]; simp
  let one : Mag f := ⟨2 ^ (f.p - 1), 1 - f.p, by omega, hlo, hhi, .inl le_rfl⟩
  have hov : one.val = 1 := by
    show ((2 ^ (f.p - 1) : ℕ) : ℚ) * (2 : ℚ) ^ (1 - (f.p : ℤ)) = 1
    push_cast; exact hone
  constructor
  · refine ⟨⟨⟨2 ^ (f.p - 1) + 1, 1 - f.p, by omega, hlo, hhi, .inl (by omega)⟩, ?_⟩, ?_⟩
    · unfold Mag.val
      push_cast
      rw [add_mul, hone]; ring
    · have := zpow_pos' (1 - (f.p : ℤ))
      linarith
  · rintro v ⟨⟨x, rfl⟩, h⟩
    by_cases he : one.e ≤ x.e
    · have hg := gap_above one x he (by rw [hov]; exact h.ne')
      rw [hov, abs_sub_comm, abs_of_pos (by linarith)] at hg
      change (2 : ℚ) ^ (1 - (f.p : ℤ)) ≤ _ at hg
      linarith
    · exfalso
      have he' : x.e ≤ -(f.p : ℤ) := by
        have : one.e = 1 - f.p := rfl
        omega
      have h3 : (2 : ℚ) ^ x.e ≤ 2 ^ (-(f.p : ℤ)) := zpow_le_zpow_right₀ (by norm_num) he'
      have h4 : (x.m : ℚ) < 2 ^ f.p := by exact_mod_cast x.lt
      have h5 : (2 : ℚ) ^ f.p * 2 ^ (-(f.p : ℤ)) = 1 := by
        rw [← zpow_natCast, ← zpow_add₀ (by norm_num)]; simp
      have h6 : x.val ≤ 2 ^ f.p * 2 ^ (-(f.p : ℤ)) := by
        unfold Mag.val
        exact mul_le_mul h4.le h3 (zpow_pos' _).le (by positivity)
      linarith

/-- The exponents: powers of two. -/
theorem isGreatest_exponent (hp : 1 ≤ f.p) (hr : f.emin ≤ f.emax) : IsGreatest {n : ℤ | (2 : ℚ) ^ (n - 1) ∈ Values f} (f.emax + f.p) := by
  have h2 : 2 ^ f.p = 2 * 2 ^ (f.p - 1) := by rw [← pow_succ', Nat.sub_add_cancel hp]
  have h1 : 1 ≤ 2 ^ (f.p - 1) := Nat.one_le_two_pow
  constructor
  · refine ⟨⟨2 ^ (f.p - 1), f.emax, by omega, hr, le_rfl, .inl le_rfl⟩, ?_⟩
    unfold Mag.val
    push_cast
    rw [← zpow_natCast, ← zpow_add₀ (by norm_num)]
    congr 1; omega
  · rintro n hn
    have h := (isGreatest_max hp hr).2 hn
    by_contra hc
    have h3 : (2 : ℚ) ^ (f.emax + f.p) ≤ 2 ^ (n - 1) := zpow_le_zpow_right₀ (by norm_num) (by omega)
    rw [zpow_add₀ (by norm_num), zpow_natCast] at h3
    have := zpow_pos' f.emax
    linarith

theorem isLeast_exponent (hp : 1 ≤ f.p) (hr : f.emin ≤ f.emax) : IsLeast {n : ℤ | (2 : ℚ) ^ (n - 1) ∈ NormalValues f} (f.emin + f.p) := by
  have h2 : 2 ^ f.p = 2 * 2 ^ (f.p - 1) := by rw [← pow_succ', Nat.sub_add_cancel hp]
  have h1 : 1 ≤ 2 ^ (f.p - 1) := Nat.one_le_two_pow
  constructor
  · refine ⟨⟨2 ^ (f.p - 1), f.emin, by omega, le_rfl, hr, .inl le_rfl⟩, le_rfl, ?_⟩
    unfold Mag.val
    push_cast
    rw [← zpow_natCast, ← zpow_add₀ (by norm_num)]
    congr 1; omega
  · rintro n hn
    have h := (isLeast_min hp hr).2 hn
    by_contra hc
    have h3 : (2 : ℚ) ^ (n - 1) < 2 ^ ((f.p - 1 : ℕ) + f.emin) := zpow_lt_zpow_right₀ (by norm_num) (by omega)
    rw [zpow_add₀ (by norm_num), zpow_natCast] at h3
    linarith

/-! ## The literals -/

/-- A value that is separated from all others by `g` is the result of rounding a number closer than `g / 2`. -/
theorem rounds_close {rnd : ℚ → Option (Mag f)} (hr : Rounds rnd) {q g : ℚ} {x : Mag f} (hq : q < ((2 : ℚ) ^ f.p - 1 / 2) * 2 ^ f.emax)
    (hg : ∀ y : Mag f, y.val ≠ x.val → g ≤ |x.val - y.val|) (h : |q - x.val| < g / 2) : rnd q = some x := by
  refine hr q x hq fun y hy => ?_
  have h1 := hg y hy
  have h2 := abs_sub_le x.val q y.val
  rw [abs_sub_comm x.val q] at h2
  linarith

/-- `|a / b - c / e| < c / e / k`, on natural numbers. -/
theorem close_of_nat {a b c e k : ℕ} (hb : 0 < b) (he : 0 < e) (hk : 0 < k) (h1 : k * (a * e) < k * (c * b) + c * b)
    (h2 : k * (c * b) < k * (a * e) + c * b) : |(a : ℚ) / b - (c : ℚ) / e| < (c : ℚ) / e / k := by
  have hb' : (0 : ℚ) < b := by exact_mod_cast hb
  have he' : (0 : ℚ) < e := by exact_mod_cast he
  have hk' : (0 : ℚ) < k := by exact_mod_cast hk
  have h1' : (k : ℚ) * (a * e) < k * (c * b) + c * b := by exact_mod_cast h1
  have h2' : (k : ℚ) * (c * b) < k * (a * e) + c * b := by exact_mod_cast h2
  have hA : (a : ℚ) / b = (a * e) * (1 / (b * e)) := by field_simp
  have hC : (c : ℚ) / e = (c * b) * (1 / (b * e)) := by field_simp
  have hu : (0 : ℚ) < 1 / (b * e) := by positivity
  rw [hA, hC]
  generalize (a : ℚ) * e = A at *
  generalize (c : ℚ) * b = C at *
  generalize (1 : ℚ) / (b * e) = u at *
  rw [abs_lt]
  have hk0 : (k : ℚ) * (C * u / k) = C * u := by field_simp
  constructor
  · have : (k : ℚ) * (-(C * u / k)) < k * (A * u - C * u) := by
      rw [mul_neg, hk0]
      nlinarith
    exact lt_of_mul_lt_mul_left this hk'.le
  · have : (k : ℚ) * (A * u - C * u) < k * (C * u / k) := by
      rw [hk0]
      nlinarith
    exact lt_of_mul_lt_mul_left this hk'.le

theorem lit_pos (d n : ℕ) (e : ℤ) (he : e = n) : (Lit.val ⟨d, e⟩) = ((d * 10 ^ n : ℕ) : ℚ) / ((1 : ℕ) : ℚ) := by
  subst he
  unfold Lit.val
  push_cast
  rw [zpow_natCast, div_one]

theorem lit_neg (d n : ℕ) (e : ℤ) (he : e = -(n : ℤ)) : (Lit.val ⟨d, e⟩) = ((d : ℕ) : ℚ) / ((10 ^ n : ℕ) : ℚ) := by
  subst he
  unfold Lit.val
  push_cast
  rw [zpow_neg, zpow_natCast, div_eq_mul_inv]

theorem mag_pos (x : Mag f) (n : ℕ) (he : x.e = n) : x.val = ((x.m * 2 ^ n : ℕ) : ℚ) / ((1 : ℕ) : ℚ) := by
  unfold Mag.val
  rw [he]
  push_cast
  rw [zpow_natCast, div_one]

theorem mag_neg (x : Mag f) (n : ℕ) (he : x.e = -(n : ℤ)) : x.val = ((x.m : ℕ) : ℚ) / ((2 ^ n : ℕ) : ℚ) := by
  unfold Mag.val
  rw [he]
  push_cast
  rw [zpow_neg, zpow_natCast, div_eq_mul_inv]

theorem gap_half (hp : 1 ≤ f.p) (x y : Mag f) (h : y.val ≠ x.val) : x.val / 2 ^ f.p ≤ |x.val - y.val| := by
  rw [div_le_iff₀ (by positivity), mul_comm]
  exact gap hp x y h

def quadMax : Mag binary128 := ⟨2 ^ 113 - 1, 16271, by decide +kernel, by decide, by decide, .inl (by decide +kernel)⟩
def quadMin : Mag binary128 := ⟨2 ^ 112, -16494, by decide +kernel, by decide, by decide, .inr rfl⟩
def quadEps : Mag binary128 := ⟨2 ^ 112, -224, by decide +kernel, by decide, by decide, .inl (by decide +kernel)⟩
def quadDenorm : Mag binary128 := ⟨1, -16494, by decide +kernel, by decide, by decide, .inr rfl⟩

theorem below_max {a b : ℕ} (hb : 0 < b) (h : 2 * a < (2 ^ 114 - 1) * 2 ^ 16271 * b) :
    (a : ℚ) / b < ((2 : ℚ) ^ binary128.p - 1 / 2) * 2 ^ binary128.emax := by
  have hb' : (0 : ℚ) < b := by exact_mod_cast hb
  have e1 : (2 : ℚ) ^ binary128.p - 1 / 2 = ((2 ^ 114 - 1 : ℕ) : ℚ) / 2 := by
    rw [Nat.cast_sub Nat.one_le_two_pow]
    show (2 : ℚ) ^ 113 - 1 / 2 = _
    push_cast
    norm_num
  have e2 : (2 : ℚ) ^ binary128.emax = ((2 ^ 16271 : ℕ) : ℚ) := by
    show (2 : ℚ) ^ ((16271 : ℕ) : ℤ) = _
    rw [zpow_natCast]; push_cast; rfl
  rw [e1, e2, div_lt_iff₀ hb']
  generalize (2 ^ 114 - 1 : ℕ) = A at *
  generalize (2 ^ 16271 : ℕ) = B at *
  have h' : (2 : ℚ) * a < (A * B) * b := by exact_mod_cast h
  linarith

theorem max_rounds {rnd : ℚ → Option (Mag binary128)} (hr : Rounds rnd) : rnd quadRange.max.val = some quadMax := by
  have hq : quadRange.max.val = _ := lit_pos 118973149535723176508575932662800702 4897 _ (by decide)
  have hx : quadMax.val = _ := mag_pos quadMax 16271 rfl
  rw [hq]
  refine rounds_close hr (g := quadMax.val / 2 ^ binary128.p) (below_max (by decide) (by decide +kernel)) (fun y hy => gap_half (by decide) _ y hy) ?_
  rw [hx]
  have key := close_of_nat (a := 118973149535723176508575932662800702 * 10 ^ 4897) (b := 1) (c := quadMax.m * 2 ^ 16271) (e := 1) (k := 2 ^ 114)
    (by decide) (by decide) (by decide +kernel) (by decide +kernel) (by decide +kernel)
  refine key.trans_le (le_of_eq ?_)
  generalize (((quadMax.m * 2 ^ 16271 : ℕ) : ℚ) / ((1 : ℕ) : ℚ)) = z
  rw [div_div]
  congr 1
  show ((2 ^ 114 : ℕ) : ℚ) = (2 : ℚ) ^ 113 * 2
  push_cast; norm_num

theorem min_rounds {rnd : ℚ → Option (Mag binary128)} (hr : Rounds rnd) : rnd quadRange.min.val = some quadMin := by
  have hq : quadRange.min.val = _ := lit_neg 336210314311209350626267781732175260 4967 _ (by decide)
  have hx : quadMin.val = _ := mag_neg quadMin 16494 rfl
  rw [hq]
  refine rounds_close hr (g := quadMin.val / 2 ^ binary128.p) (below_max (by decide +kernel) (by decide +kernel))
    (fun y hy => gap_half (by decide) _ y hy) ?_
  rw [hx]
  have key := close_of_nat (a := 336210314311209350626267781732175260) (b := 10 ^ 4967) (c := quadMin.m) (e := 2 ^ 16494) (k := 2 ^ 114)
    (by decide +kernel) (by decide +kernel) (by decide +kernel) (by decide +kernel) (by decide +kernel)
  refine key.trans_le (le_of_eq ?_)
  generalize (((quadMin.m : ℕ) : ℚ) / ((2 ^ 16494 : ℕ) : ℚ)) = z
  rw [div_div]
  congr 1
  show ((2 ^ 114 : ℕ) : ℚ) = (2 : ℚ) ^ 113 * 2
  push_cast; norm_num

theorem eps_rounds {rnd : ℚ → Option (Mag binary128)} (hr : Rounds rnd) : rnd quadRange.epsilon.val = some quadEps := by
  have hq : quadRange.epsilon.val = _ := lit_neg 192592994438723585305597794258492732 69 _ (by decide)
  have hx : quadEps.val = _ := mag_neg quadEps 224 rfl
  rw [hq]
  refine rounds_close hr (g := quadEps.val / 2 ^ binary128.p) (below_max (by decide +kernel) (by decide +kernel))
    (fun y hy => gap_half (by decide) _ y hy) ?_
  rw [hx]
  have key := close_of_nat (a := 192592994438723585305597794258492732) (b := 10 ^ 69) (c := quadEps.m) (e := 2 ^ 224) (k := 2 ^ 114)
    (by decide +kernel) (by decide +kernel) (by decide +kernel) (by decide +kernel) (by decide +kernel)
  refine key.trans_le (le_of_eq ?_)
  generalize (((quadEps.m : ℕ) : ℚ) / ((2 ^ 224 : ℕ) : ℚ)) = z
  rw [div_div]
  congr 1
  show ((2 ^ 114 : ℕ) : ℚ) = (2 : ℚ) ^ 113 * 2
  push_cast; norm_num

theorem denorm_rounds {rnd : ℚ → Option (Mag binary128)} (hr : Rounds rnd) : rnd quadRange.denormMin.val = some quadDenorm := by
  have hq : quadRange.denormMin.val = _ := lit_neg 6475175119438025110924438958227646552 5002 _ (by decide)
  have hx : quadDenorm.val = _ := mag_neg quadDenorm 16494 rfl
  rw [hq]
  refine rounds_close hr (g := quadDenorm.val) (below_max (by decide +kernel) (by decide +kernel)) (fun y hy => ?_) ?_
  · have := gap_above quadDenorm y y.lo hy
    refine le_trans (le_of_eq ?_) this
    unfold Mag.val
    show ((1 : ℕ) : ℚ) * _ = _
    rw [Nat.cast_one, one_mul]
  · rw [hx]
    have key := close_of_nat (a := 6475175119438025110924438958227646552) (b := 10 ^ 5002) (c := quadDenorm.m) (e := 2 ^ 16494) (k := 2)
      (by decide +kernel) (by decide +kernel) (by decide +kernel) (by decide +kernel) (by decide +kernel)
    exact_mod_cast key

/-! ## C132 -/

theorem ten_le_max {n : ℤ} (h : n ≤ 4932) : (10 : ℚ) ^ n ≤ quadMax.val := by
  refine le_trans (zpow_le_zpow_right₀ (by norm_num) h) ?_
  rw [mag_pos quadMax 16271 rfl, Nat.cast_one, div_one]
  have : (10 : ℚ) ^ (4932 : ℤ) = ((10 ^ 4932 : ℕ) : ℚ) := by
    rw [show (4932 : ℤ) = ((4932 : ℕ) : ℤ) from rfl, zpow_natCast]; push_cast; rfl
  rw [this, Nat.cast_le]
  decide +kernel

theorem max_lt_ten {n : ℤ} (h : 4932 < n) : quadMax.val < (10 : ℚ) ^ n := by
  refine lt_of_lt_of_le ?_ (zpow_le_zpow_right₀ (by norm_num) (show (4933 : ℤ) ≤ n by omega))
  rw [mag_pos quadMax 16271 rfl, Nat.cast_one, div_one]
  have : (10 : ℚ) ^ (4933 : ℤ) = ((10 ^ 4933 : ℕ) : ℚ) := by
    rw [show (4933 : ℤ) = ((4933 : ℕ) : ℤ) from rfl, zpow_natCast]; push_cast; rfl
  rw [this, Nat.cast_lt]
  decide +kernel

theorem ten_neg (n : ℕ) : (10 : ℚ) ^ (-(n : ℤ)) = 1 / ((10 ^ n : ℕ) : ℚ) := by
  rw [zpow_neg, zpow_natCast]; push_cast; rw [one_div]

theorem min_le_ten {n : ℤ} (h : -4931 ≤ n) : quadMin.val ≤ (10 : ℚ) ^ n := by
  refine le_trans ?_ (zpow_le_zpow_right₀ (by norm_num) h)
  rw [mag_neg quadMin 16494 rfl, show (-4931 : ℤ) = -((4931 : ℕ) : ℤ) from rfl, ten_neg,
    div_le_div_iff₀ (by exact_mod_cast (by decide +kernel : 0 < 2 ^ 16494)) (by exact_mod_cast (by decide +kernel : 0 < 10 ^ 4931)), one_mul]
  have : quadMin.m * 10 ^ 4931 ≤ 2 ^ 16494 := by decide +kernel
  exact_mod_cast this

theorem ten_lt_min {n : ℤ} (h : n < -4931) : (10 : ℚ) ^ n < quadMin.val := by
  refine lt_of_le_of_lt (zpow_le_zpow_right₀ (by norm_num) (show n ≤ -4932 by omega)) ?_
  rw [mag_neg quadMin 16494 rfl, show (-4932 : ℤ) = -((4932 : ℕ) : ℤ) from rfl, ten_neg,
    div_lt_div_iff₀ (by exact_mod_cast (by decide +kernel : 0 < 10 ^ 4932)) (by exact_mod_cast (by decide +kernel : 0 < 2 ^ 16494)), one_mul]
  have : 2 ^ 16494 < quadMin.m * 10 ^ 4932 := by decide +kernel
  exact_mod_cast this

theorem quadMax_greatest : IsGreatest (Values binary128) quadMax.val := by
  have h := isGreatest_max (f := binary128) (by decide) (by decide)
  have e : quadMax.val = (2 ^ binary128.p - 1) * (2 : ℚ) ^ binary128.emax := by
    unfold Mag.val
    congr 1
    show ((2 ^ 113 - 1 : ℕ) : ℚ) = 2 ^ 113 - 1
    rw [Nat.cast_sub Nat.one_le_two_pow]; push_cast; rfl
  rw [e]; exact h

theorem quadMin_least : IsLeast (NormalValues binary128) quadMin.val := by
  have h := isLeast_min (f := binary128) (by decide) (by decide)
  have e : quadMin.val = (2 : ℚ) ^ (binary128.p - 1) * 2 ^ binary128.emin := by
    unfold Mag.val
    congr 1
  rw [e]; exact h

/-- **C132**: however the compiler rounds ties, the literals become the values that the members of `numeric_limits` must have: `max()` is the largest
finite number (and `lowest()` is `-max()`: the format is symmetric), `min()` the smallest normal one, `denorm_min()` the smallest positive one, and
`1 + epsilon()` the number after 1. -/
theorem quad_range_values (rnd : ℚ → Option (Mag binary128)) (hr : Rounds rnd) :
    (∃ x, rnd quadRange.max.val = some x ∧ IsGreatest (Values binary128) x.val) ∧
    (∃ x, rnd quadRange.min.val = some x ∧ IsLeast (NormalValues binary128) x.val) ∧
    (∃ x, rnd quadRange.denormMin.val = some x ∧ IsLeast {v | v ∈ Values binary128 ∧ 0 < v} x.val) ∧
    (∃ x, rnd quadRange.epsilon.val = some x ∧ IsLeast {v | v ∈ Values binary128 ∧ 1 < v} (1 + x.val)) := by
  refine ⟨⟨_, max_rounds hr, quadMax_greatest⟩, ⟨_, min_rounds hr, quadMin_least⟩, ⟨_, denorm_rounds hr, ?_⟩, ⟨_, eps_rounds hr, ?_⟩⟩
  · have h := isLeast_denorm (f := binary128) (by decide) (by decide)
    have e : quadDenorm.val = (2 : ℚ) ^ binary128.emin := by
      unfold Mag.val
      show ((1 : ℕ) : ℚ) * _ = _
      rw [Nat.cast_one, one_mul]; rfl
    rw [e]; exact h
  · have h := isLeast_after_one (f := binary128) (by decide) (by decide) (by decide) (by decide)
    have e : quadEps.val = (2 : ℚ) ^ (1 - (binary128.p : ℤ)) := by
      unfold Mag.val
      show ((2 ^ 112 : ℕ) : ℚ) * (2 : ℚ) ^ (-224 : ℤ) = (2 : ℚ) ^ (-112 : ℤ)
      rw [Nat.cast_pow, Nat.cast_ofNat, ← zpow_natCast, ← zpow_add₀ (by norm_num)]
      rfl
    rw [e]; exact h

/-- There is such a rounding: to nearest. -/
example : ∃ x, nearest binary128 quadRange.max.val = some x ∧ IsGreatest (Values binary128) x.val :=
  (quad_range_values _ (nearest_rounds (by decide))).1

/-- **C132**: the exponents. `max_exponent` is the largest `n` for which `2 ^ (n - 1)` is a finite number and `min_exponent` the smallest for which it is
a normal one; `max_exponent10` is the largest `n` with `10 ^ n` in the range of the finite numbers, and `min_exponent10` the smallest with `10 ^ n` in
the range of the normal ones. -/
theorem quad_range_exponents :
    IsGreatest {n : ℤ | (quadRange.radix : ℚ) ^ (n - 1) ∈ Values binary128} quadRange.maxExponent ∧
    IsLeast {n : ℤ | (quadRange.radix : ℚ) ^ (n - 1) ∈ NormalValues binary128} quadRange.minExponent ∧
    IsGreatest {n : ℤ | ∃ v ∈ Values binary128, (10 : ℚ) ^ n ≤ v} quadRange.maxExponent10 ∧
    IsLeast {n : ℤ | ∃ v ∈ NormalValues binary128, v ≤ (10 : ℚ) ^ n} quadRange.minExponent10 := by
  refine ⟨?_, ?_, ⟨?_, ?_⟩, ⟨?_, ?_⟩⟩
  · have := isGreatest_exponent (f := binary128) (by decide) (by decide)
    exact_mod_cast this
  · have := isLeast_exponent (f := binary128) (by decide) (by decide)
    exact_mod_cast this
  · exact ⟨_, quadMax_greatest.1, ten_le_max le_rfl⟩
  · rintro n ⟨v, hv, hn⟩
    by_contra hc
    exact absurd (hn.trans (quadMax_greatest.2 hv)) (not_le.2 (max_lt_ten (not_le.1 hc)))
  · exact ⟨_, quadMin_least.1, min_le_ten le_rfl⟩
  · rintro n ⟨v, hv, hn⟩
    by_contra hc
    exact absurd ((quadMin_least.2 hv).trans hn) (not_le.2 (ten_lt_min (not_le.1 hc)))

/-- The unit in the last place at `q`: the exponent of the numbers with all digits around it. -/
def IsUlp (f : Fmt) (q : ℚ) (e : ℤ) : Prop := 2 ^ (f.p - 1) * (2 : ℚ) ^ e ≤ q ∧ q < 2 ^ f.p * (2 : ℚ) ^ e

/-- An error of `r` units in the last place suffices to represent every number in the range of the normal ones. -/
def RoundErrorSuffices (f : Fmt) (r : ℚ) : Prop :=
  ∀ q e, 2 ^ (f.p - 1) * (2 : ℚ) ^ f.emin ≤ q → q ≤ (2 ^ f.p - 1) * (2 : ℚ) ^ f.emax → IsUlp f q e → ∃ v ∈ Values f, |q - v| ≤ r * 2 ^ e

theorem isUlp_unique (hp : 1 ≤ f.p) {q : ℚ} {e e' : ℤ} (h : IsUlp f q e) (h' : IsUlp f q e') : e ≤ e' := by
  by_contra hc
  have hP : (2 : ℚ) ^ f.p = 2 * 2 ^ (f.p - 1) := by rw [← pow_succ', Nat.sub_add_cancel hp]
  have h1 : (2 : ℚ) ^ (e' + 1) ≤ 2 ^ e := zpow_le_zpow_right₀ (by norm_num) (by omega)
  rw [zpow_add_one₀ (by norm_num)] at h1
  have h2 : (0 : ℚ) < 2 ^ (f.p - 1) := by positivity
  have h3 := h.1
  have h4 := h'.2
  rw [hP] at h4
  nlinarith

theorem isLeast_roundError (h2p : 2 ≤ f.p) (hlo : f.emin ≤ 1 - (f.p : ℤ)) (hhi : 1 - (f.p : ℤ) ≤ f.emax) :
    IsLeast {r | RoundErrorSuffices f r} (1 / 2) := by
  have hp : 1 ≤ f.p := by omega
  constructor
  · intro q e h1 h2 h3
    obtain ⟨x, e', h4, h5, h6⟩ := exists_fl_ulp hp q h1 h2
    have : e = e' := le_antisymm (isUlp_unique hp h3 ⟨h4, h5⟩) (isUlp_unique hp ⟨h4, h5⟩ h3)
    subst this
    exact ⟨_, ⟨x, rfl⟩, by rw [div_mul_eq_mul_div, one_mul]; exact h6⟩
  · intro r hr
    have hP : (2 : ℚ) ^ f.p = 2 * 2 ^ (f.p - 1) := by rw [← pow_succ', Nat.sub_add_cancel hp]
    have hone : (2 : ℚ) ^ (f.p - 1) * 2 ^ (1 - (f.p : ℤ)) = 1 := by
      rw [← zpow_natCast, ← zpow_add₀ (by norm_num)]
      have : ((f.p - 1 : ℕ) : ℤ) + (1 - f.p) = 0 := by omega
      rw [this]; simp
    have hu := zpow_pos' (1 - (f.p : ℤ))
    have h2p' : (2 : ℚ) ≤ 2 ^ (f.p - 1) := by
      calc (2 : ℚ) = 2 ^ 1 := by norm_num
        _ ≤ 2 ^ (f.p - 1) := pow_le_pow_right₀ (by norm_num) (by omega)
    have hmin : (2 : ℚ) ^ f.emin ≤ 2 ^ (1 - (f.p : ℤ)) := zpow_le_zpow_right₀ (by norm_num) hlo
    have hmax : (2 : ℚ) ^ (1 - (f.p : ℤ)) ≤ 2 ^ f.emax := zpow_le_zpow_right₀ (by norm_num) hhi
    have hafter := isLeast_after_one hp h2p hlo hhi
    generalize hU : (2 : ℚ) ^ (1 - (f.p : ℤ)) = u at *
    obtain ⟨v, hv, hle⟩ := hr (1 + u / 2) (1 - (f.p : ℤ)) (by nlinarith) (by rw [hP]; nlinarith) ⟨by rw [hU]; linarith, by rw [hU, hP]; nlinarith⟩
    rw [hU] at hle
    by_cases h1 : 1 < v
    · have := hafter.2 ⟨hv, h1⟩
      have h3 := neg_le_abs (1 + u / 2 - v)
      by_contra hc
      nlinarith [not_le.1 hc]
    · have h3 := le_abs_self (1 + u / 2 - v)
      by_contra hc
      nlinarith [not_le.1 hc]

/-- **C132**: `round_error()` is the smallest error, in units in the last place, with which all numbers in the range of the normal ones can be
represented. -/
theorem quad_range_round_error : IsLeast {r | RoundErrorSuffices binary128 r} quadRange.roundError :=
  isLeast_roundError (by decide) (by decide) (by decide)

end Guanaqo.Float
