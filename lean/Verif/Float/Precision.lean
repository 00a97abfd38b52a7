import Verif.Float.Fits

/-! # C77: all values of the precision, also negative ones

The precision of `float_to_str` is an `int` (print.hpp:33-38). `std::to_chars` behaves as `printf`: a negative precision is taken as if it were omitted, that is
as 6. -/

namespace Guanaqo.Float

open Guanaqo.Duration (Text)
open Guanaqo.Print (floatToStr)

/-- What `std::to_chars(begin, end, value, fmt, precision)` (print.cpp:39) makes of the precision ([charconv.to.chars], as `printf`). -/
def precisionOf (precision : ℤ) : ℕ := if precision < 0 then 6 else precision.toNat

/-- print.tpp:14-18, `float_to_str` with an `int` for the precision. -/
def floatToStrInt {F : Type} (ff : Print.FloatFormat F) (value : F) (precision : ℤ) : Option Text := floatToStr ff value (precisionOf precision)

/-- What is to be returned: with the requested digits, or six if the request is negative. -/
def Works {f : Fmt} (sci : Fl f → ℕ → Text) (m : ℕ) (prec : ℤ) : Prop :=
  ∀ v, ∃ n : ℕ, ((0 ≤ prec ∧ n = prec) ∨ (prec < 0 ∧ n = 6)) ∧ floatToStrInt (fmt sci m) v prec = some (signed sci v n)

theorem works_iff {f : Fmt} {sci : Fl f → ℕ → Text} {m : ℕ} {prec : ℤ} :
    Works sci m prec ↔ ∀ v, floatToStr (fmt sci m) v (precisionOf prec) = some (signed sci v (precisionOf prec)) := by
  unfold Works floatToStrInt
  refine forall_congr' fun v => ⟨?_, fun h => ⟨_, ?_, h⟩⟩
  · rintro ⟨n, hn, h⟩
    have : precisionOf prec = n := by unfold precisionOf; split <;> omega
    rw [this] at h ⊢
    exact h
  · unfold precisionOf; split <;> omega

theorem signed_eq {f : Fmt} (sci : Fl f → ℕ → Text) (m : ℕ) (v : Fl f) (prec : ℕ) :
    signed sci v prec = (if v.neg = false ∧ (fmt sci m).isnan v = false then ['+'] else []) ++ sci v prec := by
  unfold signed
  cases v with
  | fin n x => cases n <;> simp [fmt, Fl.neg]
  | inf n => cases n <;> simp [fmt, Fl.neg]
  | nan n => cases n <;> simp [fmt, Fl.neg]

theorem works_small {f : Fmt} {sci : Fl f → ℕ → Text} {m : ℕ} (hw : Writes sci) (hf : ∃ k, f.Ok k) {prec : ℤ} (h : prec ≤ 53) : Works sci m prec := by
  obtain ⟨k, hf⟩ := hf
  refine works_iff.2 fun v => ?_
  have := float_to_str_formats_partial hw (precisionOf prec) k hf (by unfold precisionOf; split <;> omega) v
  rw [signed_eq sci m]
  exact this

theorem works_threshold {f : Fmt} {sci : Fl f → ℕ → Text} {m N : ℕ} (hw : Writes sci) (hf : ∃ k, f.Ok k) (hN : 53 ≤ N)
    (h : ∀ prec : ℕ, 1 ≤ prec → ((∀ v, floatToStr (fmt sci m) v prec = some (signed sci v prec)) ↔ prec ≤ N)) (prec : ℤ) :
    Works sci m prec ↔ prec ≤ N := by
  by_cases hp : prec ≤ 53
  · exact ⟨fun _ => by omega, fun _ => works_small hw hf hp⟩
  · rw [works_iff]
    have : precisionOf prec = prec.toNat := by unfold precisionOf; rw [if_neg (by omega)]
    rw [this, h _ (by omega)]
    omega

/-- **C77**, exactly, for all the formats of C++ and every `int`: `float_to_str` works for all numbers iff the precision is at most 57 (16-bit formats and `float`), 56 (`double`), or
55 (`long double` of x86, `std::float128_t`). -/
theorem float_to_str_precisions (prec : ℤ) :
    (∀ (sci : Fl binary16 → ℕ → Text) (m : ℕ), Writes sci → (Works sci m prec ↔ prec ≤ 57)) ∧
    (∀ (sci : Fl bfloat16 → ℕ → Text) (m : ℕ), Writes sci → (Works sci m prec ↔ prec ≤ 57)) ∧
    (∀ (sci : Fl binary32 → ℕ → Text) (m : ℕ), Writes sci → (Works sci m prec ↔ prec ≤ 57)) ∧
    (∀ (sci : Fl binary64 → ℕ → Text) (m : ℕ), Writes sci → (Works sci m prec ↔ prec ≤ 56)) ∧
    (∀ (sci : Fl x87 → ℕ → Text) (m : ℕ), Writes sci → (Works sci m prec ↔ prec ≤ 55)) ∧
    (∀ (sci : Fl binary128 → ℕ → Text) (m : ℕ), Writes sci → (Works sci m prec ↔ prec ≤ 55)) := by
  obtain ⟨o1, o2, o3, o4, o5, o6⟩ := formats_ok
  refine ⟨fun sci m hw => ?_, fun sci m hw => ?_, fun sci m hw => ?_, fun sci m hw => ?_, fun sci m hw => ?_, fun sci m hw => ?_⟩
  · exact works_threshold (N := 57) hw ⟨_, o1⟩ (by decide) (fun p hp => (float_to_str_thresholds hp).1 sci m hw) prec
  · exact works_threshold (N := 57) hw ⟨_, o2⟩ (by decide) (fun p hp => (float_to_str_thresholds hp).2.1 sci m hw) prec
  · exact works_threshold (N := 57) hw ⟨_, o3⟩ (by decide) (fun p hp => (float_to_str_thresholds hp).2.2.1 sci m hw) prec
  · exact works_threshold (N := 56) hw ⟨_, o4⟩ (by decide) (fun p hp => (float_to_str_thresholds hp).2.2.2.1 sci m hw) prec
  · exact works_threshold (N := 55) hw ⟨_, o5⟩ (by decide) (fun p hp => (float_to_str_thresholds hp).2.2.2.2.1 sci m hw) prec
  · exact works_threshold (N := 55) hw ⟨_, o6⟩ (by decide) (fun p hp => (float_to_str_thresholds hp).2.2.2.2.2 sci m hw) prec

example : Works (sciOf binary64) 17 (-3) ∧ ¬ Works (sciOf binary64) 17 57 :=
  ⟨((float_to_str_precisions (-3)).2.2.2.1 _ _ (sciOf_writes _)).2 (by decide),
   fun h => absurd (((float_to_str_precisions 57).2.2.2.1 _ _ (sciOf_writes _)).1 h) (by decide)⟩

end Guanaqo.Float
