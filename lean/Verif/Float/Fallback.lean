import Verif.Float.Quad

/-! # Numbers that `std::to_chars` cannot print (C137)

Where the standard library has no `std::to_chars` for a type (`std::float128_t` with an older C library), `float_to_str_vw` converts the value to
`long double` and prints that (print.cpp:36-45). The format of `long double` is a parameter `ld`. -/

namespace Guanaqo.Float

open Guanaqo.Duration (Text)
open Guanaqo.Print (PrintOpts ReadsBack printElemFloat floatToStr floatToStrVw)

/-- print.cpp:42, `static_cast<long double>(value)`: rounded to a number of `long double`; beyond its range (`none`), an infinity. The sign is kept. -/
def castDown {ld : Fmt} (rnd : ℚ → Option (Mag ld)) : Fl binary128 → Fl ld
  | .fin n x => match rnd x.val with
    | some y => .fin n y
    | none => .inf n
  | .inf n => .inf n
  | .nan n => .nan n

/-- print.cpp:36-45: `std::to_chars` for the value, or if there is none (`avail = false`), for the value as `long double`. -/
def sciFallback {ld : Fmt} (avail : Bool) (rnd : ℚ → Option (Mag ld)) (sci : Fl binary128 → ℕ → Text) (sciLd : Fl ld → ℕ → Text)
    (v : Fl binary128) (prec : ℕ) : Text :=
  if avail then sci v prec else sciLd (castDown rnd v) prec

/-- print.cpp:24-46 for `std::float128_t` (`max_digits10 = 36`): the sign is looked up in the value itself. -/
def fmtFallback {ld : Fmt} (avail : Bool) (rnd : ℚ → Option (Mag ld)) (sci : Fl binary128 → ℕ → Text) (sciLd : Fl ld → ℕ → Text) :
    Print.FloatFormat (Fl binary128) := fmt (sciFallback avail rnd sci sciLd) 36

/-- C137, in full: the printed text reads back as the number, with or without support of the standard library. -/
def Float128ReadsBack (ld : Fmt) : Prop :=
  ∀ (avail : Bool) (rnd128 : ℚ → Option (Mag binary128)) (rnd : ℚ → Option (Mag ld)) (sci : Fl binary128 → ℕ → Text) (sciLd : Fl ld → ℕ → Text),
    Rounds rnd128 → Rounds rnd → Writes sci → Writes sciLd → ∀ (opts : PrintOpts) (v : Fl binary128),
    ReadsBack (fromChars rnd128) ',' (printElemFloat (fmtFallback avail rnd sci sciLd) opts v) v

/-! ## The conversion -/

section
variable {ld : Fmt} (hsub : ld.Sub binary128) {rnd : ℚ → Option (Mag ld)}

theorem castDown_fin (n : Bool) (x : Mag binary128) : castDown rnd (.fin n x) = match rnd x.val with
    | some y => .fin n y
    | none => .inf n := rfl

theorem castDown_neg (v : Fl binary128) : (castDown rnd v).neg = v.neg := by
  cases v with
  | fin n x => rw [castDown_fin]; cases rnd x.val <;> rfl
  | inf n => rfl
  | nan n => rfl

/-- A rounding leaves numbers of the format alone. -/
theorem rounds_exact {f : Fmt} {rnd : ℚ → Option (Mag f)} (hr : Rounds rnd) (x : Mag f) : rnd x.val = some x := by
  refine hr _ _ ?_ fun y hy => ?_
  · have h1 : (x.m : ℚ) ≤ 2 ^ f.p - 1 := by
      have := x.lt
      have h2 : x.m + 1 ≤ 2 ^ f.p := this
      have h3 : ((x.m + 1 : ℕ) : ℚ) ≤ ((2 ^ f.p : ℕ) : ℚ) := Nat.cast_le.2 h2
      push_cast at h3
      linarith
    have h2 : (2 : ℚ) ^ x.e ≤ 2 ^ f.emax := zpow_le_zpow_right₀ (by norm_num) x.hi
    have h3 := zpow_pos' x.e
    have h4 := zpow_pos' f.emax
    have h5 : (0 : ℚ) ≤ x.m := Nat.cast_nonneg _
    unfold Mag.val
    have h6 : (x.m : ℚ) * 2 ^ x.e ≤ (2 ^ f.p - 1) * 2 ^ f.emax := by
      calc (x.m : ℚ) * 2 ^ x.e ≤ x.m * 2 ^ f.emax := mul_le_mul_of_nonneg_left h2 h5
        _ ≤ _ := mul_le_mul_of_nonneg_right h1 h4.le
    linarith
  · rw [sub_self, abs_zero]
    exact abs_pos.2 (sub_ne_zero.2 (Ne.symm hy))

/-- The conversion to `long double` and back keeps exactly the numbers of `long double`. -/
theorem castDown_exact_iff (hr : Rounds rnd) (v : Fl binary128) : castUp hsub (castDown rnd v) = v ↔ Representable ld v := by
  constructor
  · intro h; rw [← h]; exact representable_cast hsub _
  · intro h
    obtain ⟨w, rfl⟩ := cast_of_representable hsub v h
    cases w with
    | inf n => rfl
    | nan n => rfl
    | fin n y =>
      show castUp hsub (castDown rnd (.fin n (widen hsub y))) = _
      rw [castDown_fin, widen_val, rounds_exact hr]

theorem castDown_castUp (hr : Rounds rnd) (w : Fl ld) : castDown rnd (castUp hsub w) = w := by
  cases w with
  | inf n => rfl
  | nan n => rfl
  | fin n y =>
    show castDown rnd (.fin n (widen hsub y)) = _
    rw [castDown_fin, widen_val, rounds_exact hr]

/-! ## What is printed -/

variable {sci : Fl binary128 → ℕ → Text} {sciLd : Fl ld → ℕ → Text}

theorem isnan_castDown (m m' : ℕ) (s : Fl binary128 → ℕ → Text) (v : Fl binary128) :
    (fmt sciLd m).isnan (castDown rnd v) = (fmt s m').isnan v := by
  cases v with
  | fin n x => rw [castDown_fin]; cases rnd x.val <;> rfl
  | inf n => rfl
  | nan n => rfl

/-- Without support, the text is, for every precision and buffer, the one of the number converted to `long double`. -/
theorem fallback_text (m size : ℕ) (v : Fl binary128) (prec : ℕ) :
    floatToStrVw (fmtFallback false rnd sci sciLd) size v prec = floatToStrVw (fmt sciLd m) size (castDown rnd v) prec := by
  have h1 := isnan_castDown (rnd := rnd) (sciLd := sciLd) m 36 (sciFallback false rnd sci sciLd) v
  have h2 : (fmt sciLd m).signbit (castDown rnd v) = (fmt (sciFallback false rnd sci sciLd) 36).signbit v := castDown_neg v
  unfold floatToStrVw
  rw [h1, h2]
  rfl

open Classical in
/-- A contract for all numbers, from the one for `long double`. -/
noncomputable def extend (sciLd : Fl ld → ℕ → Text) (v : Fl binary128) (prec : ℕ) : Text :=
  if h : ∃ w : Fl ld, castUp hsub w = v then sciLd h.choose prec else sciOf binary128 v prec

theorem castUp_inj (hr : Rounds rnd) {w w' : Fl ld} (h : castUp hsub w = castUp hsub w') : w = w' := by
  rw [← castDown_castUp hsub hr w, h, castDown_castUp hsub hr]

theorem extend_castUp (hr : Rounds rnd) (w : Fl ld) (prec : ℕ) : extend hsub sciLd (castUp hsub w) prec = sciLd w prec := by
  have h : ∃ w' : Fl ld, castUp hsub w' = castUp hsub w := ⟨w, rfl⟩
  unfold extend
  rw [dif_pos h, castUp_inj hsub hr h.choose_spec]

theorem extend_writes (hr : Rounds rnd) (hw : Writes sciLd) : Writes (extend hsub sciLd) where
  zero neg x prec h := by
    by_cases hx : ∃ w : Fl ld, castUp hsub w = .fin neg x
    · obtain ⟨w, hw'⟩ := hx
      rw [← hw', extend_castUp hsub hr]
      cases w with
      | fin n y => cases hw'; exact hw.zero _ y prec (by rw [← widen_val hsub, h])
      | inf n => cases hw'
      | nan n => cases hw'
    · unfold extend; rw [dif_neg hx]; exact (sciOf_writes _).zero neg x prec h
  fin neg x prec h := by
    by_cases hx : ∃ w : Fl ld, castUp hsub w = .fin neg x
    · obtain ⟨w, hw'⟩ := hx
      rw [← hw', extend_castUp hsub hr]
      cases w with
      | fin n y =>
        cases hw'
        rw [widen_val] at h ⊢
        exact hw.fin _ y prec h
      | inf n => cases hw'
      | nan n => cases hw'
    · unfold extend; rw [dif_neg hx]; exact (sciOf_writes _).fin neg x prec h
  inf neg prec := by
    rw [show (Fl.inf neg : Fl binary128) = castUp hsub (.inf neg) from rfl, extend_castUp hsub hr]; exact hw.inf neg prec
  nan neg prec := by
    rw [show (Fl.nan neg : Fl binary128) = castUp hsub (.nan neg) from rfl, extend_castUp hsub hr]; exact hw.nan neg prec

/-- **C137**: what is printed for any number of quadruple precision reads back as the number rounded to `long double`. -/
theorem fallback_reads {rnd128 : ℚ → Option (Mag binary128)} (hr128 : Rounds rnd128) (hr : Rounds rnd) (hw : Writes sciLd) {sep : Char} (hs : SepOk sep)
    (opts : PrintOpts) (v : Fl binary128) :
    ReadsBack (fromChars rnd128) sep (printElemFloat (fmtFallback false rnd sci sciLd) opts v) (castUp hsub (castDown rnd v)) := by
  have hok := formats_ok.2.2.2.2.2
  have h := float_readsBack hr128 (extend_writes hsub hr hw) hok.p 36 hok.digits hok.max hok.lo hok.hi hs opts (castUp hsub (castDown rnd v))
  have he : printElemFloat (fmtFallback false rnd sci sciLd) opts v =
      printElemFloat (fmt (extend hsub sciLd) 36) opts (castUp hsub (castDown rnd v)) := by
    unfold printElemFloat
    have h1 := fallback_text (rnd := rnd) (sci := sci) (sciLd := sciLd) 36 64 v 36
    have h2 : floatToStrVw (fmt (extend hsub sciLd) 36) 64 (castUp hsub (castDown rnd v)) 36 = floatToStrVw (fmt sciLd 36) 64 (castDown rnd v) 36 := by
      have h3 := fallback_text (rnd := rnd) (sci := sci) (sciLd := sciLd) 36 64 (castUp hsub (castDown rnd v)) 36
      rw [castDown_castUp hsub hr] at h3
      rw [← h3]
      unfold floatToStrVw
      have h4 : (fmt (extend hsub sciLd) 36).sci (castUp hsub (castDown rnd v)) 36 =
          (fmtFallback false rnd sci sciLd).sci (castUp hsub (castDown rnd v)) 36 := by
        show extend hsub sciLd _ _ = sciLd (castDown rnd _) _
        rw [extend_castUp hsub hr, castDown_castUp hsub hr]
      rw [h4]
      rfl
    show (floatToStrVw (fmtFallback false rnd sci sciLd) 64 v 36).getD [] = (floatToStrVw (fmt (extend hsub sciLd) 36) 64 _ 36).getD []
    rw [h1, h2]
  rw [he]; exact h

include hsub in
/-- **C137**, exactly: the text reads back as the number iff it is a number of `long double`. -/
theorem fallback_readsBack_iff {rnd128 : ℚ → Option (Mag binary128)} (hr128 : Rounds rnd128) (hr : Rounds rnd) (hw : Writes sciLd) {sep : Char}
    (hs : SepOk sep) (opts : PrintOpts) (v : Fl binary128) :
    ReadsBack (fromChars rnd128) sep (printElemFloat (fmtFallback false rnd sci sciLd) opts v) v ↔ Representable ld v := by
  have h := fallback_reads hsub (sci := sci) hr128 hr hw hs opts v
  rw [← castDown_exact_iff hsub hr]
  constructor
  · intro h'
    have := h.value
    rw [h'.value] at this
    exact (Option.some.inj this).symm
  · intro e; rw [e] at h; exact h

include hsub in
/-- **C137** for the numbers that come back: with support of the standard library all, otherwise those of `long double`. -/
theorem float128_readsBack_partial (avail : Bool) {rnd128 : ℚ → Option (Mag binary128)} (hr128 : Rounds rnd128) (hr : Rounds rnd) (hw : Writes sci)
    (hwl : Writes sciLd) {sep : Char} (hs : SepOk sep) (opts : PrintOpts) (v : Fl binary128) (h : avail = true ∨ Representable ld v) :
    ReadsBack (fromChars rnd128) sep (printElemFloat (fmtFallback avail rnd sci sciLd) opts v) v := by
  cases avail with
  | true =>
    have hok := formats_ok.2.2.2.2.2
    exact float_readsBack hr128 hw hok.p 36 hok.digits hok.max hok.lo hok.hi hs opts v
  | false =>
    rcases h with h | h
    · cases h
    · exact (fallback_readsBack_iff hsub hr128 hr hwl hs opts v).2 h

include hsub in
/-- **C137**: two numbers have the same text iff they are the same in `long double`. -/
theorem fallback_same_text_iff {rnd128 : ℚ → Option (Mag binary128)} (hr128 : Rounds rnd128) (hr : Rounds rnd) (hw : Writes sciLd) (opts : PrintOpts)
    (v v' : Fl binary128) :
    printElemFloat (fmtFallback false rnd sci sciLd) opts v = printElemFloat (fmtFallback false rnd sci sciLd) opts v' ↔
      castDown rnd v = castDown rnd v' := by
  constructor
  · intro h
    have h1 := (fallback_reads hsub (sci := sci) hr128 hr hw sepOk_examples.1 opts v).value
    have h2 := (fallback_reads hsub (sci := sci) hr128 hr hw sepOk_examples.1 opts v').value
    rw [h, h2] at h1
    exact (castUp_inj hsub hr (Option.some.inj h1)).symm
  · intro h
    unfold printElemFloat
    show (floatToStrVw _ 64 v 36).getD [] = (floatToStrVw _ 64 v' 36).getD []
    rw [fallback_text 36, fallback_text 36, h]

/-- Numbers beyond the range of `long double` are printed as infinities. -/
theorem fallback_overflow (hw : Writes sciLd) (n : Bool) (x : Mag binary128) (h : rnd x.val = none) (opts : PrintOpts) :
    printElemFloat (fmtFallback false rnd sci sciLd) opts (.fin n x) = (if n then '-' else '+') :: "inf".toList := by
  unfold printElemFloat
  show (floatToStrVw _ 64 _ 36).getD [] = _
  rw [fallback_text 36]
  have : castDown rnd (.fin n x) = .inf n := by rw [castDown_fin, h]
  rw [this]
  unfold floatToStrVw
  simp only [fmt, hw.inf, Fl.neg]
  cases n <;> rfl

end

/-- C137 is false with the `long double` of x86: `2 ^ 64 + 1`. -/
theorem not_float128ReadsBack : ¬ Float128ReadsBack x87 := fun h =>
  big_lost ((fallback_readsBack_iff x87_sub (nearest_rounds (f := binary128) (by decide)) (nearest_rounds (f := x87) (by decide)) (sciOf_writes _)
    sepOk_examples.1 ({} : PrintOpts) (.fin false big)).1
    (h false _ _ (sciOf binary128) (sciOf x87) (nearest_rounds (by decide)) (nearest_rounds (by decide)) (sciOf_writes _) (sciOf_writes _) {} (.fin false big)))

/-- Where `long double` is quadruple precision itself, all is well. -/
example (v : Fl binary128) : Representable binary128 v := by cases v <;> first | exact ⟨_, rfl⟩ | trivial

/-- Non-vacuity: all values of `double`, printed without support of the standard library. -/
example (w : Fl binary64) : ReadsBack (fromChars (nearest binary128)) ','
    (printElemFloat (fmtFallback false (nearest x87) (sciOf binary128) (sciOf x87)) {} (castUp binary64_sub w)) (castUp binary64_sub w) :=
  float128_readsBack_partial x87_sub false (nearest_rounds (by decide)) (nearest_rounds (by decide)) (sciOf_writes _) (sciOf_writes _)
    sepOk_examples.1 _ _ (.inr (by
      have h : binary64.Sub x87 := by constructor <;> decide
      cases w with
      | fin n y => exact ⟨widen h y, by rw [widen_val, widen_val]⟩
      | inf n => trivial
      | nan n => trivial))

/-- An overflow: with a 64-bit `long double`, some number is beyond the range. -/
example : ∃ rnd : ℚ → Option (Mag binary64), Rounds rnd ∧ ∃ x : Mag binary128, rnd x.val = none :=
  ⟨fun q => if q < ((2 : ℚ) ^ binary64.p - 1 / 2) * 2 ^ binary64.emax then nearest binary64 q else none,
   fun q x h h' => by dsimp only; rw [if_pos h]; exact nearest_rounds (by decide) q x h h',
   ⟨⟨2 ^ 112, 2000, by decide, by decide, by decide, .inl (by decide)⟩, by
     dsimp only
     rw [if_neg]
     have h1 : (2 : ℚ) ^ binary64.emax ≤ 2 ^ (2000 : ℤ) := zpow_le_zpow_right₀ (by norm_num) (by decide)
     have h2 : ((2 : ℚ) ^ binary64.p - 1 / 2) ≤ ((2 ^ 112 : ℕ) : ℚ) := by unfold binary64; norm_num
     have h3 : (0 : ℚ) ≤ 2 ^ binary64.emax := (zpow_pos' _).le
     unfold Mag.val
     dsimp only
     exact not_lt.2 (mul_le_mul h2 h1 h3 (by positivity))⟩⟩

end Guanaqo.Float
