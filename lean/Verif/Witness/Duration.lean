import Verif.Duration.Double
import Verif.Duration.Errors
import Verif.Duration.StodProps
import Mathlib.Data.List.Induction

/-! # Concrete cases of the theorems of C47-C50, C79, C80, C112, C113 and C122

Each example applies a theorem to concrete data, so that all its hypotheses are met. -/

namespace Guanaqo.Duration

deriving instance DecidableEq for DurErr

abbrev wMs : DurTy := milliseconds exactConv

/-- Accepted. -/
theorem wAccepted : parseDuration wMs 5 "2s + 30ms".toList = some (2035, .ok ()) := by decide +kernel
/-- The second term has an unknown unit. -/
theorem wUnit : parseX wMs 5 "2s 3x 4s".toList = some (2005, .error (.units "x".toList)) := by decide +kernel
theorem wUnit' : parseDuration wMs 5 "2s 3x 4s".toList = some (2005, .error (.throw .invalidDurationUnits)) := by decide +kernel
theorem wValue : parseX wMs 5 "2s abc".toList = some (2005, .error (.value false "abc".toList)) := by decide +kernel
theorem wUb : parseDuration wMs 5 "2s 9e30s".toList = some (2005, .error .ub) := by decide +kernel

example := invalid_rejected_partial _ _ _ _ wAccepted
example := ticks_exact (d := wMs) rfl (x := ⟨[], ⟨false, ['2'], none, none⟩, "s".toList⟩) ⟨1, .s, rfl⟩
example := undefined_only_out_of_range_partial _ _ _ _ wUb
example := failure_adds_prefix_partial _ _ _ _ _ wUnit'
example := failure_unchanged_iff _ _ _ _ _ wUnit'
example := not_allAccepted exactConv exactConv_sane
example := not_failureLeavesUnchanged exactConv exactConv_sane
example := failure_blames _ _ _ _ _ wUnit
example := quotes_unit _ _ _ _ _ wUnit
example := quotes_offender_partial _ _ _ _ _ wValue

/-! ## The rounding of `double` -/

example := not_nearestTicks nearestDouble_rounds
example := doubleConv_sane nearestDouble_rounds
example := not_allAccepted (doubleConv nearestDouble) (doubleConv_sane nearestDouble_rounds)
example := not_failureLeavesUnchanged (doubleConv nearestDouble) (doubleConv_sane nearestDouble_rounds)
example := doubleRange_iff nearestDouble_rounds (q := 0) le_rfl (by
  intro h
  have : (2 : ℚ) ^ 970 < 2 ^ 1024 := pow_lt_pow_right₀ (by norm_num) (by decide)
  exact absurd h (sub_pos.2 this).ne) (one_div_pos.2 (pow_pos (by norm_num) _)).ne
/-- A quarter of an hour in seconds. -/
example := doubleConv_exact nearestDouble_rounds (q := 1 / 4) (f := 3600) ⟨1, -2, by norm_num, by norm_num, by norm_num⟩ (by norm_num)
  ⟨900, 0, by norm_num, by norm_num, by norm_num⟩ (by norm_num)
example := doubleConv_rounds nearestDouble_rounds (q := 1 / 10) (f := 3600) (by norm_num) (by norm_num)

theorem wTenth : ModerateUnit (nanoseconds (doubleConv nearestDouble)) tenthHour ∧
    Below (nanoseconds (doubleConv nearestDouble)) tenthHour (2 ^ 52) ∧
    tenthHour.Exact (nanoseconds (doubleConv nearestDouble)) 360000000000 := by
  have hp : (nanoseconds (doubleConv nearestDouble)).perSec = 1000000000 := rfl
  refine ⟨?_, ?_, ⟨3600, .hour, ?_⟩⟩
  · intro u h
    obtain rfl := unitLen_unique h .hour
    rw [hp, hour_ns, Rat.num_intCast]
    norm_num
  · intro u h
    obtain rfl := unitLen_unique h .hour
    rw [hp, hour_ns, Rat.num_intCast, Rat.den_intCast, tenthHour_value]
    norm_num
  · rw [hp, tenthHour_value]
    norm_num

example := ticks_double_partial nearestDouble_rounds rfl wTenth.1 wTenth.2.1 ⟨3600, .hour, rfl⟩ wTenth.2.2

/-- `2h` in nanoseconds. -/
def twoHours : Term := { num := { ip := ['2'] }, unit := "h".toList }

theorem twoHours_value : twoHours.num.value = 2 := by
  unfold Decimal.value Decimal.abs
  rw [show digitsVal (twoHours.num.ip ++ twoHours.num.frac) = 2 from rfl]
  norm_num [twoHours, Decimal.frac, expVal]

example : ∃ n : ℤ, twoHours.Ticks (nanoseconds (doubleConv nearestDouble)) n ∧ IsNearest 7200000000000 n := by
  have hp : (nanoseconds (doubleConv nearestDouble)).perSec = 1000000000 := rfl
  refine ⟨_, ⟨3600, .hour, rfl⟩, ticks_double_integer_partial nearestDouble_rounds (d := nanoseconds (doubleConv nearestDouble)) rfl (x := twoHours) (k := 2)
    (by rw [twoHours_value]; norm_num) (by norm_num) ?_ ?_ ⟨3600, .hour, rfl⟩ ⟨3600, .hour, ?_⟩⟩
  · intro u h
    obtain rfl := unitLen_unique h .hour
    rw [hp, hour_ns, Rat.num_intCast]
    norm_num
  · intro u h
    obtain rfl := unitLen_unique h .hour
    rw [hp, hour_ns, Rat.num_intCast, Rat.den_intCast, twoHours_value]
    norm_num
  · rw [hp, twoHours_value]
    norm_num

/-! ## Without `std::from_chars` -/

example := not_sameWithFallback exactConv overflowOnly overflowOnly_ok

theorem digitsVal_lt : ∀ (l : Text), (∀ c ∈ l, isDigit c = true) → digitsVal l < 10 ^ l.length := by
  intro l
  induction l using List.reverseRecOn with
  | nil => intro _; decide
  | append_singleton l c ih =>
    intro h
    have h1 := ih fun d hd => h d (by simp [hd])
    have h2 : c.toNat - 48 < 10 := by
      have := h c (by simp)
      simp only [isDigit, Bool.and_eq_true, decide_eq_true_eq] at this
      have h3 : c.toNat ≤ '9'.toNat := this.2
      have : '9'.toNat = 57 := rfl
      omega
    have e : digitsVal (l ++ [c]) = digitsVal l * 10 + (c.toNat - 48) := by simp [digitsVal]
    rw [e, List.length_append, List.length_singleton, Nat.pow_succ]
    omega

/-- A text of at most 300 characters with neither a fraction nor an exponent (nor an `x`, nor blanks except spaces) is plain. -/
theorem plain_of_integers (s : Text) (hl : s.length ≤ 300)
    (h : ∀ c ∈ s, c ≠ '\t' ∧ c ≠ '\n' ∧ c ≠ '\x0b' ∧ c ≠ '\x0c' ∧ c ≠ '\r' ∧ c ≠ 'x' ∧ c ≠ 'X' ∧ c ≠ '.' ∧ c ≠ 'e' ∧ c ≠ 'E') : PlainText s where
  blank c hc := ⟨(h c hc).1, (h c hc).2.1, (h c hc).2.2.1, (h c hc).2.2.2.1, (h c hc).2.2.2.2.1⟩
  hex c hc := ⟨(h c hc).2.2.2.2.2.1, (h c hc).2.2.2.2.2.2.1⟩
  normal := by
    rintro a ⟨neg, ip, fp, exp⟩ r rfl hf -
    have hin : ∀ c ∈ Decimal.text ⟨neg, ip, fp, exp⟩, c ≠ '.' ∧ c ≠ 'e' ∧ c ≠ 'E' := fun c hc => (h c (by simp [hc])).2.2.2.2.2.2.2
    have e1 : fp = none := by
      cases fp with
      | none => rfl
      | some f => exact absurd rfl (hin '.' (by simp [Decimal.text, fracText])).1
    have e2 : exp = none := by
      cases exp with
      | none => rfl
      | some x =>
        obtain ⟨c, sg, ds⟩ := x
        have hc := hin c (by simp [Decimal.text, expText])
        rcases (hf.exp c sg ds rfl).1 with rfl | rfl
        · exact absurd rfl hc.2.1
        · exact absurd rfl hc.2.2
    subst e1 e2
    have hlen : ip.length ≤ 300 := by
      simp only [List.length_append, Decimal.text] at hl
      omega
    have hd := digitsVal_lt ip hf.ip
    have ea : Decimal.abs ⟨neg, ip, none, none⟩ = (digitsVal ip : Rat) := by simp [Decimal.abs, Decimal.frac, expVal]
    rw [ea]
    rcases Nat.eq_zero_or_pos (digitsVal ip) with h0 | h0
    · left; rw [h0]; rfl
    · right
      have h1 : (1 : Rat) ≤ (digitsVal ip : Rat) := by exact_mod_cast h0
      refine ⟨le_trans ?_ h1, ?_⟩
      · rw [div_le_one (pow_pos (by norm_num) _)]; exact one_le_pow₀ (by norm_num)
      · have h2 : (digitsVal ip : Rat) < 10 ^ ip.length := by exact_mod_cast hd
        refine lt_of_lt_of_le (lt_of_lt_of_le h2 (le_trans (pow_le_pow_right₀ (by norm_num) hlen) ?_)) double_max
        have h3 : (10 : Rat) ^ 300 = (10 ^ 3) ^ 100 := by rw [← pow_mul]
        have h4 : (2 : Rat) ^ 1000 = (2 ^ 10) ^ 100 := by rw [← pow_mul]
        calc (10 : Rat) ^ 300 = (10 ^ 3) ^ 100 := h3
          _ ≤ (2 ^ 10) ^ 100 := pow_le_pow_left₀ (by norm_num) (by norm_num) _
          _ = 2 ^ 1000 := h4.symm
          _ ≤ 2 ^ 1023 := pow_le_pow_right₀ (by norm_num) (by decide)

example := fallback_parse_partial overflowOnly overflowOnly_ok wMs 5 "2s + 30ms".toList (plain_of_integers _ (by decide) (by decide))
/-- It is accepted with the fallback too. -/
example : parseFc (fromCharsStod overflowOnly) wMs 5 "2s 3y 4s".toList = some (2005, .error (.units "y".toList)) :=
  (fallback_parse_partial overflowOnly overflowOnly_ok wMs 5 _ (plain_of_integers _ (by decide) (by decide))).trans (by decide +kernel)
theorem wFc : parseFc (fromCharsStod overflowOnly) wMs 5 "2s ab".toList = some (2005, .error (.value false "ab".toList)) :=
  (fallback_parse_partial overflowOnly overflowOnly_ok wMs 5 _ (plain_of_integers _ (by decide) (by decide))).trans (by decide +kernel)
example := fallback_quotes_offender _ _ _ _ _ _ _ wFc
end Guanaqo.Duration
