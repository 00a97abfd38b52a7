import Verif.Print.Matlab
import Verif.Print.RoundTrip

/-!
# C76–C78: the texts of elements
-/

namespace Guanaqo.Print

/-- `print_elem` does not look at the options. -/
theorem precision_ignored {F : Type} (ff : FloatFormat F) (o₁ o₂ : PrintOpts) (v : F) :
    printElemFloat ff o₁ v = printElemFloat ff o₂ v := rfl

/-- C76, full statement: when a precision is requested, the elements are printed with it. -/
def PrecisionHonoured : Prop :=
  ∀ (F : Type) (ff : FloatFormat F) (rows cols : Nat) (M : Nat → Nat → F) (opts : PrintOpts),
    0 < opts.precision →
    (∀ r < rows, ∀ c < cols, (floatToStr ff (M r c) opts.precision).isSome) →
    printCsvImpl (printElemFloat ff) [] rows cols M opts =
      printCsvImpl (fun _ v => (floatToStr ff v opts.precision).getD []) [] rows cols M opts

/-- C76 is false: `PrintOpts::precision` has no effect on the output. -/
theorem not_precisionHonoured : ¬ PrecisionHonoured := by
  intro h
  have := h Unit ⟨fun _ => false, fun _ => false, fun _ p => List.replicate p '1', 17⟩ 1 1
    (fun _ _ => ()) { precision := 3 } (by decide) (by intro r _ c _; rfl)
  revert this
  decide +kernel

/-- C76, what holds: every requested precision gives the output with `max_digits10` digits. -/
theorem precision_default_partial {F : Type} (ff : FloatFormat F) (rows cols : Nat) (M : Nat → Nat → F)
    (opts : PrintOpts) (p : Nat) :
    printCsvImpl (printElemFloat ff) [] rows cols M { opts with precision := p } =
      printCsvImpl (fun _ v => (floatToStr ff v ff.max_digits10).getD []) [] rows cols M opts := rfl

/-- C77, full statement: `float_to_str` returns the number in scientific format with the requested
number of digits, with an explicit sign unless it is a NaN. -/
def FloatToStrCorrect : Prop :=
  ∀ (F : Type) (ff : FloatFormat F) (v : F) (p : Nat),
    floatToStr ff v p =
      some ((if ff.signbit v = false ∧ ff.isnan v = false then ['+'] else []) ++ ff.sci v p)

/-- C77 for numbers whose text fits the buffer: at most 63 characters without the sign. -/
theorem float_to_str_partial {F : Type} (ff : FloatFormat F) (v : F) (p : Nat)
    (h : (ff.sci v p).length ≤ 63) :
    floatToStr ff v p =
      some ((if ff.signbit v = false ∧ ff.isnan v = false then ['+'] else []) ++ ff.sci v p) := by
  unfold floatToStr floatToStrVw
  simp only [Bool.and_eq_true, Bool.not_eq_true']
  rw [if_pos]
  split <;> simp <;> omega

/-- C77 is false: with 70 digits the text does not fit the 64-character buffer, and what is returned
is unspecified. -/
theorem not_floatToStrCorrect : ¬ FloatToStrCorrect := by
  intro h
  have := h Unit ⟨fun _ => false, fun _ => false, fun _ p => List.replicate p '1', 17⟩ () 70
  revert this
  decide +kernel

/-- print.tpp:25-28 instantiated with `char`, `signed char` or `unsigned char` (print.cpp:126, 127,
132): `os << value` writes the character with that code. -/
def printElemChar (_opts : PrintOpts) (value : Nat) : Text := [Char.ofNat value]

/-- C78 for integers of more than 8 bits: the decimal representation, which determines the value. -/
theorem int_elem_partial (opts : PrintOpts) (v : Int) :
    Csv.fromCharsInt (v.natAbs.log2 + 2) (printElemInt opts v) = some (v, []) := by
  apply fromCharsInt_showInt
  have h : v.natAbs < 2 ^ (v.natAbs.log2 + 1) := Nat.lt_log2_self
  have h' : (v.natAbs : Int) < 2 ^ (v.natAbs.log2 + 2 - 1) := by exact_mod_cast h
  omega

/-- C78, full statement: elements of every supported integer type print as numbers. -/
def IntegersPrintDecimal : Prop :=
  (∀ opts v, printElemInt opts v = showInt v) ∧
    ∀ opts v, v < 128 → printElemChar opts v = showNat v

/-- C78 is false: 8-bit integers print as characters. -/
theorem not_integersPrintDecimal : ¬ IntegersPrintDecimal := by
  intro h
  have := h.2 {} 44 (by decide)
  revert this
  decide +kernel

/-- C78, exactly: no 8-bit integer is printed as its decimal representation (the digits `0` to `9`, which are single characters, are not the
characters with codes 0 to 9). -/
theorem char_never_decimal (opts : PrintOpts) : ∀ v < 128, printElemChar opts v ≠ showNat v := by
  intro v hv h
  unfold printElemChar at h
  revert v
  show ∀ v < 128, [Char.ofNat v] = showNat v → False
  decide +kernel

/-- The elements `print_python` and `print_matlab` print for integers satisfy the hypotheses of
`python_denotes_partial` and `matlab_denotes_partial`. -/
theorem int_realText (opts : PrintOpts) (v : Int) :
    RealText (printElemInt opts v) ∧ ElemText (printElemInt opts v) := by
  have hne : printElemInt opts v ≠ [] := by
    unfold printElemInt
    cases v with
    | ofNat n => exact Nat.toDigits_ne_nil
    | negSucc n => simp [showInt]
  have hch : ∀ c ∈ printElemInt opts v, structural c = false ∧ c ≠ ' ' := by
    intro c hc
    have hd : ∀ d : Char, d.isDigit = true → structural d = false ∧ d ≠ ' ' := by
      intro d hd
      constructor
      · cases hs : structural d with
        | false => rfl
        | true =>
          simp only [structural, Bool.or_eq_true, beq_iff_eq] at hs
          rcases hs with ((((rfl | rfl) | rfl) | rfl) | rfl) | rfl <;> exact absurd hd (by decide)
      · rintro rfl; exact absurd hd (by decide)
    rcases showInt_chars v c hc with h | rfl
    · exact hd c h
    · decide
  refine ⟨⟨hne, hch⟩, ?_, fun c hc => (hch c hc).1⟩
  obtain ⟨c, t, hct⟩ := List.exists_cons_of_ne_nil hne
  exact ⟨c, by rw [hct]; simp, (hch c (by rw [hct]; simp)).2⟩

end Guanaqo.Print
