import Verif.Float.RoundTrip
import Verif.Print.Elems
import Verif.Print.Python

/-! # C46, C77 for floating-point numbers: the texts of the elements -/

namespace Guanaqo.Float

open Guanaqo.Duration (Text isDigit)
open Guanaqo.Print (printElemFloat printElemComplex floatToStr PrintOpts RealText ElemText structural)

variable {f : Fmt} {sci : Fl f → ℕ → Text}

/-- What `std::to_chars` writes is short: at most 10 characters more than the digits after the point. -/
theorem sci_length (hw : Writes sci) (prec : ℕ) (hlo : -(10 ^ 5 : ℤ) + 2 ≤ f.emin) (hhi : f.p + f.emax < (10 ^ 5 : ℤ)) (v : Fl f) :
    (sci v prec).length ≤ prec + 10 := by
  cases v with
  | inf neg => rw [hw.inf]; cases neg <;> simp
  | nan neg => rw [hw.nan]; cases neg <;> simp
  | fin neg x =>
    have key : ∀ d e, d < 10 ^ (prec + 1) → e.natAbs < 10 ^ 5 → sci (.fin neg x) prec = (if neg then ['-'] else []) ++ sciText prec d e →
        (sci (.fin neg x) prec).length ≤ prec + 10 := by
      intro d e hd he h
      rw [h]
      have := sciText_length hd he
      cases neg <;> simp <;> omega
    by_cases h0 : x.val = 0
    · exact key 0 0 (by positivity) (by decide) (hw.zero neg x prec h0)
    · obtain ⟨d, e, k, h1, h2, h3, hk, _, h4⟩ := hw.fin neg x prec h0
      obtain ⟨c1, c2⟩ := exponent_range x h0 prec d e h2 h3 (relative_error hk h4)
      refine key d e h3 ?_ h1
      norm_num at hlo hhi ⊢
      omega

/-- C77: for all the formats of C++ and at most 53 digits after the point, `float_to_str` returns the number in scientific format, with an explicit sign
unless it is a NaN. -/
theorem float_to_str_formats_partial (hw : Writes sci) (prec max_digits10 : ℕ) (hf : f.Ok max_digits10) (hprec : prec ≤ 53) (v : Fl f) :
    floatToStr (fmt sci max_digits10) v prec =
      some ((if v.neg = false ∧ (fmt sci max_digits10).isnan v = false then ['+'] else []) ++ sci v prec) := by
  apply Print.float_to_str_partial
  have := sci_length hw prec hf.lo hf.hi v
  show (sci v prec).length ≤ 63
  omega

theorem sci_chars (hw : Writes sci) (prec : ℕ) (v : Fl f) :
    sci v prec ≠ [] ∧ ∀ c ∈ sci v prec, isDigit c = true ∨ c ∈ ".e+-infa".toList := by
  cases v with
  | inf neg => rw [hw.inf]; cases neg <;> exact ⟨by simp, by decide⟩
  | nan neg => rw [hw.nan]; cases neg <;> exact ⟨by simp, by decide⟩
  | fin neg x =>
    have key : ∀ d e, sci (.fin neg x) prec = (if neg then ['-'] else []) ++ sciText prec d e →
        sci (.fin neg x) prec ≠ [] ∧ ∀ c ∈ sci (.fin neg x) prec, isDigit c = true ∨ c ∈ ".e+-infa".toList := by
      intro d e h
      rw [h]
      constructor
      · obtain ⟨c, t, hc, _⟩ := sciText_head (prec := prec) (d := d) (e := e)
        rw [hc]; simp
      · intro c hc
        rcases List.mem_append.1 hc with h | h
        · right
          cases neg
          · simp at h
          · simp only [if_true, List.mem_singleton] at h; subst h; decide
        · rcases sciText_chars c h with h | rfl | rfl | rfl | rfl
          · exact .inl h
          all_goals (right; decide)
    by_cases h0 : x.val = 0
    · exact key 0 0 (hw.zero neg x prec h0)
    · obtain ⟨d, e, k, h1, _⟩ := hw.fin neg x prec h0
      exact key d e h1

theorem plain_char {c : Char} (h : isDigit c = true ∨ c ∈ ".e+-infa".toList) : structural c = false ∧ c ≠ ' ' := by
  rcases h with h | h
  · constructor
    · cases hs : structural c with
      | false => rfl
      | true =>
        simp only [structural, Bool.or_eq_true, beq_iff_eq] at hs
        rcases hs with ((((rfl | rfl) | rfl) | rfl) | rfl) | rfl <;> exact absurd h (by decide)
    · rintro rfl; exact absurd h (by decide)
  · revert c; decide

/-- C46: the elements `print_python` and `print_matlab` print for floating-point numbers satisfy the hypotheses of `python_denotes_partial` and
`matlab_denotes_partial`. -/
theorem float_realText (hw : Writes sci) (max_digits10 : ℕ) (hf : f.Ok max_digits10) (opts : PrintOpts) (v : Fl f) :
    RealText (printElemFloat (fmt sci max_digits10) opts v) ∧ ElemText (printElemFloat (fmt sci max_digits10) opts v) := by
  have h := float_to_str_formats_partial hw max_digits10 max_digits10 hf hf.max v
  have he : printElemFloat (fmt sci max_digits10) opts v =
      (if v.neg = false ∧ (fmt sci max_digits10).isnan v = false then ['+'] else []) ++ sci v max_digits10 := by
    show (floatToStr (fmt sci max_digits10) v max_digits10).getD [] = _
    rw [h]; rfl
  obtain ⟨hne, hch⟩ := sci_chars hw max_digits10 v
  have hr : RealText (printElemFloat (fmt sci max_digits10) opts v) := by
    rw [he]
    refine ⟨by simp [hne], ?_⟩
    intro c hc
    apply plain_char
    rcases List.mem_append.1 hc with h | h
    · split at h
      · simp only [List.mem_singleton] at h; subst h; right; decide
      · simp at h
    · exact hch c h
  refine ⟨hr, ?_, fun c hc => (hr.2 c hc).1⟩
  obtain ⟨c, t, hct⟩ := List.exists_cons_of_ne_nil hr.1
  exact ⟨c, by rw [hct]; simp, (hr.2 c (by rw [hct]; simp)).2⟩

/-- C46: so do complex numbers for `print_python`. -/
theorem complex_elemText (hw : Writes sci) (max_digits10 : ℕ) (hf : f.Ok max_digits10) (opts : PrintOpts) (v : Fl f × Fl f) :
    ElemText (printElemComplex (fmt sci max_digits10) opts v) := by
  obtain ⟨_, h1, h2⟩ := float_realText hw max_digits10 hf opts v.1
  obtain ⟨_, h3, h4⟩ := float_realText hw max_digits10 hf opts v.2
  have he : printElemComplex (fmt sci max_digits10) opts v =
      printElemFloat (fmt sci max_digits10) opts v.1 ++ " + ".toList ++ printElemFloat (fmt sci max_digits10) opts v.2 ++ ['j'] := rfl
  rw [he]
  constructor
  · obtain ⟨c, hc, hne⟩ := h1
    exact ⟨c, by simp [hc], hne⟩
  · intro c hc
    simp only [List.mem_append] at hc
    rcases hc with ((hc | hc) | hc) | hc
    · exact h2 c hc
    · revert c; decide
    · exact h4 c hc
    · revert c; decide

/-- Non-vacuity. -/
example : floatToStr (fmt (sciOf binary64) 17) (.inf true) 6 = some "-inf".toList ∧
    floatToStr (fmt (sciOf binary64) 17) (.fin false ⟨0, binary64.emin, by decide, by decide, by decide, .inr rfl⟩) 2 = some "+0.00e+00".toList := by
  constructor
  · exact float_to_str_formats_partial (sciOf_writes _) 6 17 formats_ok.2.2.2.1 (by decide) _
  · rw [float_to_str_formats_partial (sciOf_writes _) 2 17 formats_ok.2.2.2.1 (by decide),
      (sciOf_writes binary64).zero _ _ _ (by simp [Mag.val])]
    decide +kernel

end Guanaqo.Float
