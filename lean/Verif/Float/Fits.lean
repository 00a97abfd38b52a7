import Verif.Float.QuadStream
import Verif.Float.Elems

/-! # C77: exactly which precisions work

`float_to_str` has a buffer of 64 characters. -/

namespace Guanaqo.Float

open Guanaqo.Duration (Text)
open Guanaqo.Print (floatToStr)

variable {f : Fmt} {sci : Fl f → ℕ → Text}

/-- What `float_to_str` is to return: the sign, unless the number is a NaN, and the number in scientific format. -/
def signed (sci : Fl f → ℕ → Text) (v : Fl f) (prec : ℕ) : Text :=
  (match v with
    | .fin false _ => ['+']
    | .inf false => ['+']
    | _ => []) ++ sci v prec

/-- C77: the text is returned exactly if it has at most 64 characters. -/
theorem float_to_str_iff (max_digits10 prec : ℕ) (v : Fl f) :
    floatToStr (fmt sci max_digits10) v prec = some (signed sci v prec) ↔ (signed sci v prec).length ≤ 64 := by
  unfold floatToStr Print.floatToStrVw signed
  cases v with
  | fin neg x =>
    cases neg <;> simp [fmt, Fl.neg]
  | inf neg =>
    cases neg <;> simp [fmt, Fl.neg]
  | nan neg =>
    cases neg <;> simp [fmt, Fl.neg]

theorem sciText_length_eq {prec d : ℕ} {e : ℤ} (hd : d < 10 ^ (prec + 1)) (he : e.natAbs < 10 ^ 5) :
    (sciText prec d e).length = prec + 3 + (if prec = 0 then 0 else 1) + (if e.natAbs < 100 then 2 else if e.natAbs < 1000 then 3 else if e.natAbs < 10000 then 4 else 5) := by
  have hl : (digits (prec + 1) d).length = prec + 1 := digits_length (by omega) hd
  have h2 := digits2_length_eq he
  unfold sciText expDigits
  by_cases h0 : prec = 0
  · subst h0
    simp only [List.length_append, List.length_take, List.length_cons, hl, h2, if_true, List.length_nil]
    split_ifs <;> omega
  · simp only [h0, if_false, List.length_append, List.length_take, List.length_cons, List.length_drop, hl, h2]
    split_ifs <;> omega

/-- The exponent of a number, as it is written: between those of the numbers one decade below and above. -/
theorem sci_fin (hw : Writes sci) (neg : Bool) (x : Mag f) (prec : ℕ) :
    ∃ d e, sci (.fin neg x) prec = (if neg then ['-'] else []) ++ sciText prec d e ∧ d < 10 ^ (prec + 1) ∧ (x.val = 0 → e = 0) ∧
      (x.val ≠ 0 → ∃ k : ℤ, (10 : ℚ) ^ k ≤ x.val ∧ x.val < (10 : ℚ) ^ (k + 1) ∧ k - 1 ≤ e ∧ e ≤ k + 1) := by
  by_cases h0 : x.val = 0
  · exact ⟨0, 0, hw.zero neg x prec h0, by positivity, fun _ => rfl, fun h => absurd h0 h⟩
  · obtain ⟨d, e, k, h1, h2, h3, hk, hk', h4⟩ := hw.fin neg x prec h0
    exact ⟨d, e, h1, h3, fun h => absurd h h0, fun _ => ⟨k, hk, hk', decimal_exponent_near x h0 h2 h3 hk hk' h4⟩⟩

/-- `E` is the largest number of digits in an exponent of the format: all exponents have at most so many, and one has so many for every precision. -/
theorem float_to_str_all_iff (hw : Writes sci) (E : ℕ) (hE : 2 ≤ E ∧ E ≤ 4)
    (hall : ∀ x : Mag f, x.val ≠ 0 → ∀ k : ℤ, (10 : ℚ) ^ k ≤ x.val → x.val < (10 : ℚ) ^ (k + 1) → k.natAbs + 1 < 10 ^ E)
    (hone : ∃ x : Mag f, x.val ≠ 0 ∧ ∀ k : ℤ, (10 : ℚ) ^ k ≤ x.val → x.val < (10 : ℚ) ^ (k + 1) → 2 < E → 10 ^ (E - 1) < k)
    (max_digits10 : ℕ) {prec : ℕ} (hp : 1 ≤ prec) :
    (∀ v, floatToStr (fmt sci max_digits10) v prec = some (signed sci v prec)) ↔ prec + 5 + E ≤ 64 := by
  have hlen : ∀ neg x d e, sci (.fin neg x) prec = (if neg then ['-'] else []) ++ sciText prec d e → (signed sci (.fin neg x) prec).length = (sciText prec d e).length + 1 := by
    intro neg x d e h
    unfold signed
    rw [h]
    cases neg <;> simp
  have hpow : 10 ^ E ≤ 10 ^ 4 := Nat.pow_le_pow_right (by decide) hE.2
  constructor
  · intro h
    obtain ⟨x, hx, hk⟩ := hone
    have h1 := (float_to_str_iff max_digits10 prec _).1 (h (.fin false x))
    obtain ⟨d, e, hs, hd, -, hk'⟩ := sci_fin hw false x prec
    obtain ⟨k, k1, k2, k3, k4⟩ := hk' hx
    have k5 := hk k k1 k2
    have k6 := hall x hx k k1 k2
    rw [hlen false x d e hs, sciText_length_eq hd (by omega)] at h1
    obtain rfl | rfl | rfl : E = 2 ∨ E = 3 ∨ E = 4 := by omega
    all_goals
      norm_num at k5 k6
      split_ifs at h1 <;> omega
  · intro h v
    rw [float_to_str_iff]
    cases v with
    | inf neg => unfold signed; rw [hw.inf]; cases neg <;> simp
    | nan neg => unfold signed; rw [hw.nan]; cases neg <;> simp
    | fin neg x =>
      obtain ⟨d, e, hs, hd, h0, hk'⟩ := sci_fin hw neg x prec
      have he : e.natAbs < 10 ^ E := by
        by_cases hx : x.val = 0
        · rw [h0 hx]; exact Nat.pow_pos (by decide)
        · obtain ⟨k, k1, k2, k3, k4⟩ := hk' hx
          have := hall x hx k k1 k2
          omega
      rw [hlen neg x d e hs, sciText_length_eq hd (by omega)]
      obtain rfl | rfl | rfl : E = 2 ∨ E = 3 ∨ E = 4 := by omega
      all_goals
        norm_num at he
        split_ifs <;> omega

/-- A power of two as a number of the format. -/
def twoPow (f : Fmt) (n : ℕ) (h : (f.p : ℤ) - 1 + f.emin ≤ n ∧ (n : ℤ) ≤ f.p - 1 + f.emax) (hp : 1 ≤ f.p) : Mag f :=
  ⟨2 ^ (f.p - 1), n - (f.p - 1), Nat.pow_lt_pow_right (by decide) (by omega), by omega, by omega, .inl (Nat.le_refl _)⟩

theorem twoPow_val (f : Fmt) (n : ℕ) (h : (f.p : ℤ) - 1 + f.emin ≤ n ∧ (n : ℤ) ≤ f.p - 1 + f.emax) (hp : 1 ≤ f.p) : (twoPow f n h hp).val = 2 ^ n := by
  show ((2 ^ (f.p - 1) : ℕ) : ℚ) * (2 : ℚ) ^ ((n : ℤ) - ((f.p : ℤ) - 1)) = 2 ^ n
  rw [Nat.cast_pow, Nat.cast_ofNat, ← zpow_natCast, ← zpow_add₀ (by norm_num), ← zpow_natCast]
  congr 1
  omega

/-- The exponent of a large power of two. -/
theorem large_exponent {f : Fmt} {x : Mag f} {n j : ℕ} (hx : x.val = 2 ^ n) (hj : 4 * (j + 2) ≤ n) {k : ℤ} (h2 : x.val < (10 : ℚ) ^ (k + 1)) : (j : ℤ) < k := by
  by_contra hk
  have e1 : (10 : ℚ) ^ (k + 1) ≤ 10 ^ ((j + 2 : ℕ) : ℤ) := zpow_le_zpow_right₀ (by norm_num) (by push_cast; omega)
  rw [zpow_natCast] at e1
  have e2 : (10 : ℚ) ^ (j + 2) ≤ 16 ^ (j + 2) := pow_le_pow_left₀ (by norm_num) (by norm_num) _
  have e3 : (16 : ℚ) ^ (j + 2) = 2 ^ (4 * (j + 2)) := by
    rw [show (16 : ℚ) = 2 ^ 4 by norm_num, ← pow_mul]
  have e4 : (2 : ℚ) ^ (4 * (j + 2)) ≤ 2 ^ n := pow_le_pow_right₀ (by norm_num) hj
  rw [hx] at h2
  exact absurd (h2.trans_le (e1.trans (e2.trans (e3.le.trans e4)))) (lt_irrefl _)

/-- A bound for the exponents of a format. -/
theorem exponents_lt {f : Fmt} {N : ℕ} (hlo : -(3 * (N - 2) : ℤ) < f.emin) (hhi : (f.p : ℤ) + f.emax < 3 * (N - 1)) (hN : 3 ≤ N) (x : Mag f) (hx : x.val ≠ 0) (k : ℤ)
    (h1 : (10 : ℚ) ^ k ≤ x.val) (h2 : x.val < (10 : ℚ) ^ (k + 1)) : k.natAbs + 1 < N := by
  have := exponent_third x hx h1 h2
  omega

/-- C77, exactly, for the formats of C++ and precisions of at least one digit after the point: `float_to_str` works for all numbers up to 57 digits for the 16-bit formats
and `float`, 56 for `double`, and 55 for `long double` (x86) and `std::float128_t`, and for more digits it fails for some number. -/
theorem float_to_str_thresholds {prec : ℕ} (hp : 1 ≤ prec) :
    (∀ (sci : Fl binary16 → ℕ → Text) (m : ℕ), Writes sci → ((∀ v, floatToStr (fmt sci m) v prec = some (signed sci v prec)) ↔ prec ≤ 57)) ∧
    (∀ (sci : Fl bfloat16 → ℕ → Text) (m : ℕ), Writes sci → ((∀ v, floatToStr (fmt sci m) v prec = some (signed sci v prec)) ↔ prec ≤ 57)) ∧
    (∀ (sci : Fl binary32 → ℕ → Text) (m : ℕ), Writes sci → ((∀ v, floatToStr (fmt sci m) v prec = some (signed sci v prec)) ↔ prec ≤ 57)) ∧
    (∀ (sci : Fl binary64 → ℕ → Text) (m : ℕ), Writes sci → ((∀ v, floatToStr (fmt sci m) v prec = some (signed sci v prec)) ↔ prec ≤ 56)) ∧
    (∀ (sci : Fl x87 → ℕ → Text) (m : ℕ), Writes sci → ((∀ v, floatToStr (fmt sci m) v prec = some (signed sci v prec)) ↔ prec ≤ 55)) ∧
    (∀ (sci : Fl binary128 → ℕ → Text) (m : ℕ), Writes sci → ((∀ v, floatToStr (fmt sci m) v prec = some (signed sci v prec)) ↔ prec ≤ 55)) := by
  refine ⟨?_, ?_, ?_, ?_, ?_, ?_⟩ <;> intro sci m hw
  · rw [float_to_str_all_iff hw 2 (by decide) (exponents_lt (by decide) (by decide) (by decide))
      ⟨twoPow _ 0 (by decide) (by decide), by rw [twoPow_val]; norm_num, fun _ _ _ h => absurd h (by decide)⟩ m hp]
    omega
  · rw [float_to_str_all_iff hw 2 (by decide) (exponents_lt (by decide) (by decide) (by decide))
      ⟨twoPow _ 0 (by decide) (by decide), by rw [twoPow_val]; norm_num, fun _ _ _ h => absurd h (by decide)⟩ m hp]
    omega
  · rw [float_to_str_all_iff hw 2 (by decide) (exponents_lt (by decide) (by decide) (by decide))
      ⟨twoPow _ 0 (by decide) (by decide), by rw [twoPow_val]; norm_num, fun _ _ _ h => absurd h (by decide)⟩ m hp]
    omega
  · rw [float_to_str_all_iff hw 3 (by decide) (exponents_lt (by decide) (by decide) (by decide))
      ⟨twoPow _ 1023 (by decide) (by decide), by rw [twoPow_val]; positivity,
        fun k _ h2 _ => large_exponent (j := 100) (twoPow_val _ 1023 (by decide) (by decide)) (by decide) h2⟩ m hp]
    omega
  · rw [float_to_str_all_iff hw 4 (by decide) (exponents_lt (by decide) (by decide) (by decide))
      ⟨twoPow _ 16383 (by decide) (by decide), by rw [twoPow_val]; positivity,
        fun k _ h2 _ => large_exponent (j := 1000) (twoPow_val _ 16383 (by decide) (by decide)) (by decide) h2⟩ m hp]
    omega
  · rw [float_to_str_all_iff hw 4 (by decide) (exponents_lt (by decide) (by decide) (by decide))
      ⟨twoPow _ 16383 (by decide) (by decide), by rw [twoPow_val]; positivity,
        fun k _ h2 _ => large_exponent (j := 1000) (twoPow_val _ 16383 (by decide) (by decide)) (by decide) h2⟩ m hp]
    omega

/-- Conversions that meet the assumptions exist. -/
example : ∀ v : Fl binary64, floatToStr (fmt (sciOf binary64) 17) v 56 = some (signed (sciOf binary64) v 56) :=
  ((float_to_str_thresholds (by decide)).2.2.2.1 _ 17 (sciOf_writes _)).2 (by decide)

end Guanaqo.Float
