import Verif.Float.Widen

/-! # Printing with `snprintf` (C101)

Without `std::to_chars` for floating-point numbers, `float_to_str_vw` formats with `snprintf` (print.cpp:47-64). Quadruple precision is always formatted
with `quadmath_snprintf` (print.cpp:66-72). -/

namespace Guanaqo.Float

open Guanaqo.Duration (Text)
open Guanaqo.Print (PrintOpts ReadsBack csvOpts floatToStr printElemFloat)

/-! ## The model -/

/-- What `printf("%+-#.*e", prec, v)` writes (also `%+-#.*Le`, `%+-#.*Qe`), in terms of what `%.*e` would write: with the flag `+` the sign is always
written, with `#` so is the point. (The flag `-` has no effect without a width.) -/
def printfText {f : Fmt} (sci : Fl f → ℕ → Text) (v : Fl f) (prec : ℕ) : Text :=
  let digits := sci v prec
  let digits := match v with
    | .fin neg _ => if prec = 0 then digits.take (neg.toNat + 1) ++ '.' :: digits.drop (neg.toNat + 1) else digits
    | _ => digits
  if v.neg then digits else '+' :: digits

/-- print.cpp:16-22: `float_to_str_vw_snprintf` with a buffer of `size ≥ 1` characters. `snprintf` writes at most `size - 1` of them and a NUL, and returns
the number that it would have written. The view that is returned without assertions extends beyond the buffer if that is larger (undefined). -/
def snprintfVw {f : Fmt} (sci : Fl f → ℕ → Text) (dbg : Bool) (size : ℕ) (v : Fl f) (prec : ℕ) : Res Text :=
  let n := (printfText sci v prec).length
  if n < size then .ok (printfText sci v prec) else if dbg then .error .assertFail
  else if n = size then .ok ((printfText sci v prec).take (size - 1) ++ ['\x00']) else .error .ub

/-- print.tpp:14-18, with print.cpp:49-53 and 59-63: `float_to_str` for `double` and `long double`. -/
def floatToStrSnprintf {f : Fmt} (sci : Fl f → ℕ → Text) (dbg : Bool) (v : Fl f) (prec : ℕ) : Res Text := snprintfVw sci dbg 64 v prec

/-- print.cpp:54-58: `float` is converted to `double`. -/
def floatToStrSnprintf32 (sci : Fl binary64 → ℕ → Text) (dbg : Bool) (v : Fl binary32) (prec : ℕ) : Res Text :=
  floatToStrSnprintf sci dbg (castUp binary32_sub v) prec

/-- print.tpp:20-23: an element of a matrix (buffer of 64 characters, `max_digits10` digits after the point); no text if that is undefined. -/
def printElemSnprintf {f : Fmt} (sci : Fl f → ℕ → Text) (max_digits10 : ℕ) (_ : PrintOpts) (v : Fl f) : Text :=
  match snprintfVw sci true 64 v max_digits10 with
  | .ok t => t
  | .error _ => []

/-! ## Specification -/

/-- C101, in full: whatever text the version with `std::to_chars` returns, the version with `snprintf` returns it as well. -/
def SameText : Prop :=
  ∀ (f : Fmt) (max_digits10 : ℕ), f.Ok max_digits10 → ∀ (sci : Fl f → ℕ → Text), Writes sci → ∀ (dbg : Bool) (v : Fl f) (prec : ℕ) (t : Text),
    floatToStr (fmt sci max_digits10) v prec = some t → floatToStrSnprintf sci dbg v prec = .ok t

/-! ## Proofs -/

section
variable {f : Fmt} {sci : Fl f → ℕ → Text}

theorem printfText_length (v : Fl f) (prec : ℕ) : (printfText sci v prec).length ≤ (sci v prec).length + 2 := by
  unfold printfText
  cases v with
  | fin neg x =>
    dsimp only
    by_cases h0 : prec = 0
    · rw [if_pos h0]
      split <;> simp <;> omega
    · rw [if_neg h0]
      split <;> simp
  | inf neg => dsimp only; split <;> simp
  | nan neg => dsimp only; split <;> simp

/-- With at least one digit after the point, only the sign of positive numbers is added. -/
theorem printfText_pos (v : Fl f) {prec : ℕ} (h : prec ≠ 0) : printfText sci v prec = (if v.neg then [] else ['+']) ++ sci v prec := by
  unfold printfText
  cases v with
  | fin neg x => dsimp only; rw [if_neg h]; split <;> rfl
  | inf neg => dsimp only; split <;> rfl
  | nan neg => dsimp only; split <;> rfl

/-- The whole text comes back exactly if it is shorter than the buffer. -/
theorem snprintfVw_complete_iff (dbg : Bool) {size : ℕ} (v : Fl f) (prec : ℕ) (h0 : ∀ c ∈ printfText sci v prec, c ≠ '\x00') :
    snprintfVw sci dbg size v prec = .ok (printfText sci v prec) ↔ (printfText sci v prec).length < size := by
  unfold snprintfVw
  dsimp only
  by_cases h : (printfText sci v prec).length < size
  · rw [if_pos h]; simp [h]
  · rw [if_neg h]
    refine ⟨fun he => ?_, fun h' => absurd h' h⟩
    cases dbg with
    | true => cases he
    | false =>
      simp only [Bool.false_eq_true, if_false] at he
      split at he
      · injection he with he
        exact absurd rfl (h0 '\x00' (by rw [← he]; simp))
      · cases he

/-- Text that does not fit is an assertion failure, and without assertions cut off (if it is just one character too long) or undefined. -/
theorem snprintfVw_long {size : ℕ} (v : Fl f) (prec : ℕ) (h : size ≤ (printfText sci v prec).length) :
    snprintfVw sci true size v prec = .error .assertFail ∧
    ((printfText sci v prec).length = size →
      snprintfVw sci false size v prec = .ok ((printfText sci v prec).take (size - 1) ++ ['\x00'])) ∧
    (size < (printfText sci v prec).length → snprintfVw sci false size v prec = .error .ub) := by
  unfold snprintfVw
  dsimp only
  have h' : ¬ (printfText sci v prec).length < size := by omega
  refine ⟨by rw [if_neg h', if_pos rfl], fun he => ?_, fun hl => ?_⟩
  · rw [if_neg h', if_neg (by decide), if_pos he]
  · rw [if_neg h', if_neg (by decide), if_neg (by omega)]

theorem snprintf_fits (hw : Writes sci) {max_digits10 : ℕ} (hf : f.Ok max_digits10) (dbg : Bool) (v : Fl f) {prec : ℕ} (hp : prec ≤ 51) :
    floatToStrSnprintf sci dbg v prec = .ok (printfText sci v prec) := by
  unfold floatToStrSnprintf snprintfVw
  dsimp only
  rw [if_pos]
  have h1 := printfText_length (sci := sci) v prec
  have h2 := sci_length hw prec hf.lo hf.hi v
  omega

/-- Finite numbers and infinities with at least one digit after the point: the same text as with `std::to_chars`. -/
theorem snprintf_same_partial (hw : Writes sci) {max_digits10 : ℕ} (hf : f.Ok max_digits10) (dbg : Bool) (v : Fl f) {prec : ℕ}
    (h1 : 1 ≤ prec) (h2 : prec ≤ 52) (hn : ∀ neg, v = .nan neg → neg = true) :
    ∃ t, floatToStr (fmt sci max_digits10) v prec = some t ∧ floatToStrSnprintf sci dbg v prec = .ok t := by
  refine ⟨_, float_to_str_formats_partial hw prec max_digits10 hf (by omega) v, ?_⟩
  have hl := sci_length hw prec hf.lo hf.hi v
  have ht := printfText_pos (sci := sci) v (prec := prec) (by omega)
  have he : ((if v.neg = false ∧ (fmt sci max_digits10).isnan v = false then ['+'] else [] : Text)) = if v.neg then [] else ['+'] := by
    cases v with
    | fin neg x => cases neg <;> rfl
    | inf neg => cases neg <;> rfl
    | nan neg => rw [hn neg rfl]; rfl
  rw [he, ← ht]
  unfold floatToStrSnprintf snprintfVw
  dsimp only
  rw [if_pos]
  rw [ht]
  split <;> simp <;> omega

/-- C101, exactly, for every precision but zero and all values but NaNs without the sign bit: the text is the same unless it has 64 characters, for which only
`std::to_chars` has room. -/
theorem snprintf_same_iff (hw : Writes sci) (max_digits10 : ℕ) (dbg : Bool) (v : Fl f) {prec : ℕ} (h1 : 1 ≤ prec) (hn : ∀ neg, v = .nan neg → neg = true) {t : Text}
    (ht : floatToStr (fmt sci max_digits10) v prec = some t) : floatToStrSnprintf sci dbg v prec = .ok t ↔ t.length ≤ 63 := by
  have hp := printfText_pos (sci := sci) v (prec := prec) (by omega)
  have hpre : ((if !(fmt sci max_digits10).signbit v && !(fmt sci max_digits10).isnan v then ['+'] else [] : Text)) = if v.neg then [] else ['+'] := by
    cases v with
    | fin neg x => cases neg <;> rfl
    | inf neg => cases neg <;> rfl
    | nan neg => rw [hn neg rfl]; rfl
  have hte : t = printfText sci v prec := by
    rw [hp]
    unfold floatToStr Print.floatToStrVw at ht
    dsimp only at ht
    rw [hpre] at ht
    generalize (if v.neg = true then [] else ['+'] : Text) = pre at ht ⊢
    split at ht
    · injection ht with ht
      exact ht.symm
    · cases ht
  rw [hte]
  have h0 : ∀ c ∈ printfText sci v prec, c ≠ '\x00' := by
    rintro c hc rfl
    rw [hp] at hc
    rcases List.mem_append.1 hc with h | h
    · split at h
      · simp at h
      · exact absurd (List.mem_singleton.1 h) (by decide)
    · rcases (sci_chars hw prec v).2 _ h with h | h
      · exact absurd h (by decide)
      · exact absurd h (by decide)
  unfold floatToStrSnprintf
  rw [snprintfVw_complete_iff dbg v prec h0]
  omega

/-- NaNs without the sign bit get a sign. -/
theorem snprintf_nan (hw : Writes sci) (dbg : Bool) (prec : ℕ) :
    floatToStrSnprintf sci dbg (.nan false) prec = .ok "+nan".toList ∧ floatToStrSnprintf sci dbg (.nan true) prec = .ok "-nan".toList := by
  have h : ∀ neg, printfText sci (.nan neg) prec = (if neg then '-' else '+') :: "nan".toList := by
    intro neg
    unfold printfText
    simp only [hw.nan, Fl.neg]
    cases neg <;> rfl
  unfold floatToStrSnprintf snprintfVw
  simp only [h]
  constructor <;> rfl

/-- Without digits after the point, the point is written nevertheless. -/
theorem snprintf_no_digits (hw : Writes sci) {max_digits10 : ℕ} (hf : f.Ok max_digits10) (dbg neg : Bool) (x : Mag f) :
    ∃ (d : Char) (e : Text), sci (.fin neg x) 0 = (if neg then ['-'] else []) ++ d :: 'e' :: e ∧
      floatToStrSnprintf sci dbg (.fin neg x) 0 = .ok ((if neg then '-' else '+') :: d :: '.' :: 'e' :: e) := by
  have key : ∀ (d : ℕ) (e : ℤ), sci (.fin neg x) 0 = (if neg then ['-'] else []) ++ sciText 0 d e →
      ∃ (d : Char) (e : Text), sci (.fin neg x) 0 = (if neg then ['-'] else []) ++ d :: 'e' :: e ∧
      floatToStrSnprintf sci dbg (.fin neg x) 0 = .ok ((if neg then '-' else '+') :: d :: '.' :: 'e' :: e) := by
    intro d e h
    obtain ⟨c, hc⟩ : ∃ c, sciText 0 d e = c :: 'e' :: expDigits e := by
      unfold sciText
      obtain ⟨c, t, hct⟩ := List.exists_cons_of_ne_nil (digits_ne_nil 1 d)
      exact ⟨c, by simp [hct]⟩
    refine ⟨c, expDigits e, by rw [h, hc], ?_⟩
    rw [snprintf_fits hw hf dbg _ (by omega)]
    unfold printfText
    simp only [h, hc]
    cases neg <;> rfl
  by_cases h0 : x.val = 0
  · exact key 0 0 (hw.zero neg x 0 h0)
  · obtain ⟨d, e, k, h1, _⟩ := hw.fin neg x 0 h0
    exact key d e h1

/-- C101 is false: a NaN is written as `+nan` instead of `nan`. -/
theorem not_sameText : ¬ SameText := by
  intro h
  have ht := float_to_str_formats_partial (sciOf_writes binary64) 3 17 formats_ok.2.2.2.1 (by decide) (.nan false)
  have h2 := h binary64 17 formats_ok.2.2.2.1 (sciOf binary64) (sciOf_writes _) true (.nan false) 3 _ ht
  rw [(snprintf_nan (sciOf_writes _) true 3).1, (sciOf_writes binary64).nan] at h2
  revert h2
  decide

/-- What is written with `snprintf` is read back exactly. -/
theorem snprintf_readsBack {rnd : ℚ → Option (Mag f)} (hr : Rounds rnd) (hw : Writes sci) {max_digits10 : ℕ} (hf : f.Ok max_digits10)
    {sep : Char} (hs : SepOk sep) (opts : PrintOpts) (v : Fl f) :
    ReadsBack (fromChars rnd) sep (printElemSnprintf sci max_digits10 opts v) v := by
  have hm : 1 ≤ max_digits10 := by
    rcases Nat.eq_zero_or_pos max_digits10 with h | h
    · have := hf.digits
      rw [h] at this
      have : 0 < 2 ^ f.p := Nat.pow_pos (by decide)
      omega
    · exact h
  by_cases hn : ∃ neg, v = .nan neg
  · obtain ⟨neg, rfl⟩ := hn
    have ht : printElemSnprintf sci max_digits10 opts (.nan neg) = (if neg then '-' else '+') :: "nan".toList := by
      have h := snprintf_nan hw true max_digits10
      unfold floatToStrSnprintf at h
      unfold printElemSnprintf
      cases neg
      · rw [h.1]; rfl
      · rw [h.2]; rfl
    rw [ht]
    have hsp := hs.special
    have hn : sep ≠ 'n' := by rintro rfl; exact hsp.1 (by decide)
    have ha : sep ≠ 'a' := by rintro rfl; exact hsp.2 (by decide)
    have hpl := hs.plus
    have hmi := hs.minus
    refine ⟨?_, ?_, ?_, ?_, ?_⟩
    · cases neg <;> rfl
    · cases neg <;> decide
    · cases neg <;> simp [ha, hn, hpl, hmi]
    · cases neg <;> decide
    · cases neg <;> decide
  · have hb := float_readsBack hr hw hf.p max_digits10 hf.digits hf.max hf.lo hf.hi hs opts v
    have hlen := hb.short
    have hfloat : floatToStr (fmt sci max_digits10) v max_digits10 = some (printfText sci v max_digits10) := by
      rw [float_to_str_formats_partial hw max_digits10 max_digits10 hf hf.max v, printfText_pos v (by omega)]
      cases v with
      | fin neg x => cases neg <;> rfl
      | inf neg => cases neg <;> rfl
      | nan neg => exact absurd ⟨neg, rfl⟩ hn
    have hp : printElemFloat (fmt sci max_digits10) opts v = printfText sci v max_digits10 := by
      show (floatToStr (fmt sci max_digits10) v max_digits10).getD [] = _
      rw [hfloat]; rfl
    rw [hp] at hb hlen
    have : printElemSnprintf sci max_digits10 opts v = printfText sci v max_digits10 := by
      unfold printElemSnprintf snprintfVw
      dsimp only
      rw [if_pos (by omega)]
    rw [this]; exact hb

/-- Matrices printed without `std::to_chars` read back exactly (but for the shapes that C43 excludes). -/
theorem snprintf_round_trip_partial {rnd : ℚ → Option (Mag f)} (hr : Rounds rnd) (hw : Writes sci) {max_digits10 : ℕ} (hf : f.Ok max_digits10)
    {sep : Char} (hs : SepOk sep) (hline : sep ≠ '\n') (eager dbg col1d row1d : Bool) (rows cols : ℕ) (M : ℕ → ℕ → Fl f) (hrows : rows ≠ 0)
    (hshape : cols ≠ 1 ∨ rows ≤ 1 ∨ col1d = false) (more : List Char) :
    Csv.csvRead (fromChars rnd) eager dbg sep rows cols
        { rest := Print.printCsvImpl (printElemSnprintf sci max_digits10) [] rows cols M (csvOpts sep col1d row1d) ++ more } =
      .ok (Print.rowsOf rows cols M, { rest := more }) :=
  Print.csv_round_trip_partial (fromChars rnd) _ sep (fromChars_ok hs rnd) hs.plus hline eager dbg col1d row1d rows cols M
    (fun _ _ _ _ => snprintf_readsBack hr hw hf hs _ _) hrows hshape more

end

/-- A `float`, printed as a `double`: what `snprintf` would write if it had a format for `float`. All the above therefore applies to `float` too. -/
theorem snprintf_float (sci : Fl binary64 → ℕ → Text) (dbg : Bool) (v : Fl binary32) (prec : ℕ) :
    floatToStrSnprintf32 sci dbg v prec = floatToStrSnprintf (fun (v : Fl binary32) prec => sci (castUp binary32_sub v) prec) dbg v prec := by
  have : printfText sci (castUp binary32_sub v) prec = printfText (fun (v : Fl binary32) prec => sci (castUp binary32_sub v) prec) v prec := by
    cases v <;> rfl
  unfold floatToStrSnprintf32 floatToStrSnprintf snprintfVw
  simp only [this]

/-- A matrix of `float` reads back exactly, although it was printed as `double`s. -/
theorem snprintf_float_round_trip_partial {rnd : ℚ → Option (Mag binary32)} (hr : Rounds rnd) {sci : Fl binary64 → ℕ → Text} (hw : Writes sci)
    {sep : Char} (hs : SepOk sep) (hline : sep ≠ '\n') (eager dbg col1d row1d : Bool) (rows cols : ℕ) (M : ℕ → ℕ → Fl binary32) (hrows : rows ≠ 0)
    (hshape : cols ≠ 1 ∨ rows ≤ 1 ∨ col1d = false) (more : List Char) :
    Csv.csvRead (fromChars rnd) eager dbg sep rows cols
        { rest := Print.printCsvImpl (fun opts v => printElemSnprintf sci 9 opts (castUp binary32_sub v)) [] rows cols M (csvOpts sep col1d row1d) ++ more } =
      .ok (Print.rowsOf rows cols M, { rest := more }) := by
  have h : (fun opts (v : Fl binary32) => printElemSnprintf sci 9 opts (castUp binary32_sub v)) =
      printElemSnprintf (fun (v : Fl binary32) prec => sci (castUp binary32_sub v) prec) 9 := by
    funext opts v
    have : printfText sci (castUp binary32_sub v) 9 = printfText (fun (v : Fl binary32) prec => sci (castUp binary32_sub v) prec) v 9 := by
      cases v <;> rfl
    unfold printElemSnprintf snprintfVw
    simp only [this]
  rw [h]
  exact snprintf_round_trip_partial hr (writes_narrow binary32_sub hw) formats_ok.2.2.1 hs hline eager dbg col1d row1d rows cols M hrows hshape more

/-- Non-vacuity. -/
example (dbg : Bool) : floatToStrSnprintf (sciOf binary64) dbg (.inf false) 6 = .ok "+inf".toList ∧
    floatToStrSnprintf (sciOf binary64) dbg (.fin true ⟨0, binary64.emin, by decide, by decide, by decide, .inr rfl⟩) 0 = .ok "-0.e+00".toList := by
  constructor
  · rw [snprintf_fits (sciOf_writes _) formats_ok.2.2.2.1 dbg _ (by decide), printfText_pos _ (by decide), (sciOf_writes binary64).inf]
    rfl
  · rw [snprintf_fits (sciOf_writes _) formats_ok.2.2.2.1 dbg _ (by decide)]
    unfold printfText
    dsimp only
    rw [(sciOf_writes binary64).zero _ _ _ (by simp [Mag.val])]
    decide +kernel

end Guanaqo.Float
