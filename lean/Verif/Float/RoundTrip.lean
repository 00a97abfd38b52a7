import Verif.Float.Near
import Verif.Float.Parse
import Verif.Print.RoundTrip

/-! # C43, C87: floating-point numbers printed with `max_digits10` digits after the point read back exactly -/

namespace Guanaqo.Float

open Guanaqo.Duration (Text isDigit digitsVal Decimal minusSign scanSpecial scanDecimal)
open Guanaqo.Print (showNat printElemFloat ReadsBack csvOpts PrintOpts)

theorem isDigit_iff (c : Char) : isDigit c = true ↔ c.isDigit = true := by
  simp only [isDigit, Char.isDigit, Bool.and_eq_true, decide_eq_true_eq]
  exact Iff.rfl

theorem showNat_isDigit (n : ℕ) : ∀ c ∈ showNat n, isDigit c = true := fun c hc =>
  (isDigit_iff c).2 (Nat.isDigit_of_mem_toDigits (by decide) (by decide) hc)

theorem showNat_ne_nil (n : ℕ) : showNat n ≠ [] := Nat.toDigits_ne_nil

theorem digitsVal_showNat (n : ℕ) : digitsVal (showNat n) = n := by
  have h : ∀ (l : List Char) a, l.foldl (fun acc c => acc * 10 + (c.toNat - '0'.toNat)) a = Nat.ofDigitChars 10 l a := by
    intro l
    induction l with
    | nil => intro a; simp
    | cons c l ih => intro a; rw [List.foldl_cons, ih, Nat.ofDigitChars_cons, Nat.mul_comm a 10]
  rw [digitsVal, h]
  exact Nat.ofDigitChars_ten_toDigits

theorem digitsVal_zeros (k : ℕ) (l : Text) : digitsVal (List.replicate k '0' ++ l) = digitsVal l := by
  induction k with
  | zero => rfl
  | succ k ih => rw [List.replicate_succ, List.cons_append]; exact ih

theorem digitsVal_digits (n d : ℕ) : digitsVal (digits n d) = d := by
  rw [digits, digitsVal_zeros, digitsVal_showNat]

theorem digits_isDigit (n d : ℕ) : ∀ c ∈ digits n d, isDigit c = true := by
  intro c hc
  rcases List.mem_append.1 hc with h | h
  · rw [(List.mem_replicate.1 h).2]; decide
  · exact showNat_isDigit d c h

theorem digits_ne_nil (n d : ℕ) : digits n d ≠ [] := by
  intro h
  exact showNat_ne_nil d (List.append_eq_nil_iff.1 h).2

theorem showNat_length {n d : ℕ} (hn : 1 ≤ n) (h : d < 10 ^ n) : (showNat d).length ≤ n :=
  (Nat.length_toDigits_le_iff (by decide) (by omega)).2 h

theorem digits_length {n d : ℕ} (hn : 1 ≤ n) (h : d < 10 ^ n) : (digits n d).length = n := by
  have := showNat_length hn h
  simp [digits]; omega

/-- The literal that `sciText` writes. -/
def sciDec (neg : Bool) (prec d : ℕ) (e : ℤ) : Decimal where
  neg := neg
  ip := (digits (prec + 1) d).take 1
  fp := if prec = 0 then none else some ((digits (prec + 1) d).drop 1)
  exp := some ('e', some (decide (e < 0)), digits 2 e.natAbs)

theorem sciDec_text (neg : Bool) (prec d : ℕ) (e : ℤ) : (sciDec neg prec d e).text = (if neg then ['-'] else []) ++ sciText prec d e := by
  unfold Decimal.text sciDec sciText expDigits
  simp only
  have h1 : Duration.fracText (if prec = 0 then none else some ((digits (prec + 1) d).drop 1)) =
      if prec = 0 then [] else '.' :: (digits (prec + 1) d).drop 1 := by split <;> rfl
  have h2 : Duration.signText (some (decide (e < 0))) = [if e < 0 then '-' else '+'] := by
    by_cases h : e < 0 <;> simp [h, Duration.signText]
  simp only [h1, Duration.expText, h2]
  simp [List.append_assoc]

variable {prec d : ℕ} {e : ℤ} {neg : Bool}

theorem sciDec_frac (hd : d < 10 ^ (prec + 1)) : (sciDec neg prec d e).frac = (digits (prec + 1) d).drop 1 := by
  unfold Decimal.frac sciDec
  simp only
  split
  · rename_i h
    subst h
    symm
    apply List.eq_nil_of_length_eq_zero
    rw [List.length_drop, digits_length (by omega) hd]
  · rfl

theorem sciDec_form (hd : d < 10 ^ (prec + 1)) : (sciDec neg prec d e).Form where
  ip := fun c hc => digits_isDigit _ _ c (List.mem_of_mem_take hc)
  fp := fun c hc => by
    rw [sciDec_frac hd] at hc
    exact digits_isDigit _ _ c (List.mem_of_mem_drop hc)
  some_digit := by
    rw [sciDec_frac hd]
    show List.take 1 _ ++ List.drop 1 _ ≠ []
    rw [List.take_append_drop]
    exact digits_ne_nil _ _
  exp := by
    intro c sg ds h
    simp only [sciDec, Option.some.injEq, Prod.mk.injEq] at h
    obtain ⟨rfl, _, rfl⟩ := h
    exact ⟨.inl rfl, digits_ne_nil _ _, digits_isDigit _ _⟩

theorem sciDec_abs (hd : d < 10 ^ (prec + 1)) : (sciDec neg prec d e).abs = d * (10 : ℚ) ^ (e - prec) := by
  unfold Decimal.abs
  rw [sciDec_frac hd]
  have h1 : digitsVal ((sciDec neg prec d e).ip ++ (digits (prec + 1) d).drop 1) = d := by
    show digitsVal (List.take 1 _ ++ List.drop 1 _) = d
    rw [List.take_append_drop, digitsVal_digits]
  have h2 : ((digits (prec + 1) d).drop 1).length = prec := by
    rw [List.length_drop, digits_length (by omega) hd]; omega
  have h3 : Duration.expVal (sciDec neg prec d e).exp = e := by
    simp only [sciDec, Duration.expVal, digitsVal_digits]
    by_cases h : e < 0
    · simp [h, abs_of_neg h]
    · simp [h]; omega
  rw [h1, h2, h3, zpow_sub₀ (by norm_num), zpow_natCast]
  field_simp

theorem digits2_length (n : ℕ) (h : n < 10 ^ 5) : (digits 2 n).length ≤ 5 := by
  have := showNat_length (n := 5) (by omega) h
  simp [digits]; omega

theorem sciText_length (hd : d < 10 ^ (prec + 1)) (he : e.natAbs < 10 ^ 5) : (sciText prec d e).length ≤ prec + 9 := by
  have h1 := digits_length (n := prec + 1) (by omega) hd
  have h2 := digits2_length _ he
  unfold sciText expDigits
  split
  · simp only [List.length_append, List.length_take, List.length_cons, List.length_nil]; omega
  · simp only [List.length_append, List.length_take, List.length_cons, List.length_drop]; omega

theorem sciText_chars (c : Char) (hc : c ∈ sciText prec d e) : isDigit c = true ∨ c = '.' ∨ c = 'e' ∨ c = '+' ∨ c = '-' := by
  unfold sciText at hc
  rw [List.append_assoc] at hc
  rcases List.mem_append.1 hc with h | h
  · exact .inl (digits_isDigit _ _ c (List.mem_of_mem_take h))
  · rcases List.mem_append.1 h with h | h
    · split at h
      · simp at h
      · rcases List.mem_cons.1 h with h | h
        · exact .inr (.inl h)
        · exact .inl (digits_isDigit _ _ c (List.mem_of_mem_drop h))
    · rcases List.mem_cons.1 h with h | h
      · exact .inr (.inr (.inl h))
      · unfold expDigits at h
        rcases List.mem_cons.1 h with h | h
        · split at h
          · exact .inr (.inr (.inr (.inr h)))
          · exact .inr (.inr (.inr (.inl h)))
        · exact .inl (digits_isDigit _ _ c h)

/-- The text begins with a digit. -/
theorem sciText_head : ∃ c t, sciText prec d e = c :: t ∧ isDigit c = true := by
  unfold sciText
  cases h : digits (prec + 1) d with
  | nil => exact absurd h (digits_ne_nil _ _)
  | cons c l =>
    have := digits_isDigit (prec + 1) d c (by rw [h]; simp)
    exact ⟨c, _, rfl, this⟩

/-- Reading the text of a literal. -/
theorem fromChars_sci {f : Fmt} (rnd : ℚ → Option (Mag f)) (hd : d < 10 ^ (prec + 1)) (x : Mag f)
    (hx : rnd (d * (10 : ℚ) ^ (e - prec)) = some x) :
    fromChars rnd ((if neg then ['-'] else []) ++ sciText prec d e) = some (.fin neg x, []) := by
  have hform := sciDec_form (neg := neg) (e := e) hd
  have hscan := Duration.scanDecimal_app _ hform (r := []) (by intro c r' h; cases h)
  have hbody : (sciDec neg prec d e).ip ++ Duration.fracText (sciDec neg prec d e).fp ++ Duration.expText (sciDec neg prec d e).exp ++ [] =
      sciText prec d e := by
    have := sciDec_text false prec d e
    simp only [Decimal.text, sciDec] at this
    simpa [sciDec] using this
  have hspec : scanSpecial (sciText prec d e) = none := by
    apply Duration.not_special_of
    intro c r h
    obtain ⟨c', t, h', hc'⟩ := sciText_head (prec := prec) (d := d) (e := e)
    rw [h'] at h; cases h
    exact .inl hc'
  have hminus : minusSign ((if neg then ['-'] else []) ++ sciText prec d e) = (neg, sciText prec d e) := by
    cases neg with
    | true => rfl
    | false =>
      obtain ⟨c', t, h', hc'⟩ := sciText_head (prec := prec) (d := d) (e := e)
      show minusSign (sciText prec d e) = _
      rw [h']
      unfold minusSign
      split
      · rename_i heq; cases heq; exact absurd hc' (by decide)
      · rfl
  rw [hbody, sciDec_abs hd] at hscan
  unfold fromChars
  rw [hminus]
  simp only [hspec, hscan, hx, Option.map_some]

/-- What `std::to_chars` writes for a finite number, given enough digits: some literal that rounds to the number, with a bounded exponent. -/
theorem writes_fin {f : Fmt} {rnd : ℚ → Option (Mag f)} (hr : Rounds rnd) {sci : Fl f → ℕ → Text} (hw : Writes sci)
    (hp : 1 ≤ f.p) (prec : ℕ) (hprec : 2 ^ f.p < 10 ^ prec) (hlo : -(10 ^ 5 : ℤ) + 2 ≤ f.emin) (hhi : f.p + f.emax < (10 ^ 5 : ℤ)) (neg : Bool) (x : Mag f) :
    ∃ (d : ℕ) (e : ℤ), sci (.fin neg x) prec = (if neg then ['-'] else []) ++ sciText prec d e ∧ d < 10 ^ (prec + 1) ∧
      rnd (d * (10 : ℚ) ^ (e - prec)) = some x ∧ e.natAbs < 10 ^ 5 := by
  by_cases h0 : x.val = 0
  · refine ⟨0, 0, hw.zero neg x prec h0, by positivity, ?_, by decide⟩
    apply hr
    · have := zpow_pos' f.emax
      have h2 : (1 : ℚ) ≤ 2 ^ f.p := one_le_pow₀ (by norm_num)
      simp only [Nat.cast_zero, zero_mul]
      nlinarith
    · intro y hy
      rw [h0] at hy ⊢
      simpa using hy
  · obtain ⟨d, e, k, h1, h2, h3, hk, _, h4⟩ := hw.fin neg x prec h0
    have herr := relative_error hk h4
    obtain ⟨b1, b2⟩ := nearest_back hp prec hprec x _ herr
    obtain ⟨c1, c2⟩ := exponent_range x h0 prec d e h2 h3 herr
    refine ⟨d, e, h1, h3, hr _ _ b1 b2, ?_⟩
    norm_num at hlo hhi ⊢
    omega

/-- C43 / C87: the text `print_elem` writes for a floating-point number with `max_digits10` digits is read back by `csv_read` as exactly
that number, including the sign of zero and of NaNs. -/
theorem float_readsBack {f : Fmt} {rnd : ℚ → Option (Mag f)} (hr : Rounds rnd) {sci : Fl f → ℕ → Text} (hw : Writes sci)
    (hp : 1 ≤ f.p) (max_digits10 : ℕ) (hprec : 2 ^ f.p < 10 ^ max_digits10) (hmax : max_digits10 ≤ 53)
    (hlo : -(10 ^ 5 : ℤ) + 2 ≤ f.emin) (hhi : f.p + f.emax < (10 ^ 5 : ℤ)) {sep : Char} (hs : SepOk sep)
    (opts : PrintOpts) (v : Fl f) :
    ReadsBack (fromChars rnd) sep (printElemFloat (fmt sci max_digits10) opts v) v := by
  have hsp := hs.special
  have hi : sep ≠ 'i' := by rintro rfl; exact hsp.1 (by decide)
  have hn : sep ≠ 'n' := by rintro rfl; exact hsp.1 (by decide)
  have hf : sep ≠ 'f' := by rintro rfl; exact hsp.1 (by decide)
  have ha : sep ≠ 'a' := by rintro rfl; exact hsp.2 (by decide)
  have hpl := hs.plus
  have hmi := hs.minus
  cases v with
  | inf neg =>
    have ht : printElemFloat (fmt sci max_digits10) opts (.inf neg : Fl f) = (if neg then '-' else '+') :: "inf".toList := by
      unfold printElemFloat Print.floatToStrVw
      simp only [fmt, hw.inf, Fl.neg]
      cases neg <;> rfl
    rw [ht]
    refine ⟨?_, ?_, ?_, ?_, ?_⟩
    · cases neg <;> rfl
    · cases neg <;> decide
    · cases neg <;> simp [hi, hn, hf, hpl, hmi]
    · cases neg <;> decide
    · cases neg <;> decide
  | nan neg =>
    have ht : printElemFloat (fmt sci max_digits10) opts (.nan neg : Fl f) = (if neg then ['-'] else []) ++ "nan".toList := by
      unfold printElemFloat Print.floatToStrVw
      simp only [fmt, hw.nan, Fl.neg]
      cases neg <;> rfl
    rw [ht]
    refine ⟨?_, ?_, ?_, ?_, ?_⟩
    · cases neg <;> rfl
    · cases neg <;> decide
    · cases neg <;> simp [ha, hn, hmi]
    · cases neg <;> decide
    · cases neg <;> decide
  | fin neg x =>
    obtain ⟨d, e, h1, h2, h3, h4⟩ := writes_fin hr hw hp max_digits10 hprec hlo hhi neg x
    have hlen := sciText_length h2 h4
    have ht : printElemFloat (fmt sci max_digits10) opts (.fin neg x) = (if neg then '-' else '+') :: sciText max_digits10 d e := by
      unfold printElemFloat Print.floatToStrVw
      have hneg : (fmt sci max_digits10).signbit (.fin neg x) = neg := rfl
      have hnan : (fmt sci max_digits10).isnan (.fin neg x) = false := rfl
      have hsci : (fmt sci max_digits10).sci (.fin neg x) (fmt sci max_digits10).max_digits10 = (if neg then ['-'] else []) ++ sciText max_digits10 d e := h1
      simp only [hneg, hnan, hsci]
      cases neg with
      | true =>
        rw [if_pos]
        · rfl
        · simp; omega
      | false =>
        rw [if_pos]
        · rfl
        · simp; omega
    have hread := fromChars_sci (neg := neg) rnd h2 x h3
    rw [ht]
    have hchars : ∀ c ∈ (if neg then '-' else '+') :: sciText max_digits10 d e, isDigit c = true ∨ c = '.' ∨ c = 'e' ∨ c = '+' ∨ c = '-' := by
      intro c hc
      rcases List.mem_cons.1 hc with h | h
      · cases neg
        · exact .inr (.inr (.inr (.inl h)))
        · exact .inr (.inr (.inr (.inr h)))
      · exact sciText_chars c h
    refine ⟨?_, ?_, ?_, ?_, ?_⟩
    · cases neg with
      | true =>
        unfold Csv.numberOf Csv.readSingle
        simp only [if_true] at hread ⊢
        rw [show ('-' :: sciText max_digits10 d e) = ['-'] ++ sciText max_digits10 d e from rfl, hread]
        rfl
      | false =>
        unfold Csv.numberOf Csv.readSingle
        simp only [Bool.false_eq_true, if_false] at hread ⊢
        rw [List.nil_append] at hread
        rw [hread]
    · simp only [List.length_cons]; omega
    · intro hc
      have := hchars sep hc
      rcases this with h | h | h | h | h
      · rw [hs.digit] at h; cases h
      · exact hs.point h
      · exact hs.e h
      · exact hs.plus h
      · exact hs.minus h
    · intro hc
      have := hchars _ hc
      revert this; decide
    · intro hc
      have := hchars _ (List.mem_of_mem_head? hc)
      revert this; decide

/-- What is needed of a format and `max_digits10`: more decimal digits than bits, and exponents of at most five digits. -/
structure Fmt.Ok (f : Fmt) (max_digits10 : ℕ) : Prop where
  p : 1 ≤ f.p
  digits : 2 ^ f.p < 10 ^ max_digits10
  max : max_digits10 ≤ 53
  lo : -(10 ^ 5 : ℤ) + 2 ≤ f.emin
  hi : f.p + f.emax < (10 ^ 5 : ℤ)

/-- The formats of C++ with their `std::numeric_limits<F>::max_digits10`. -/
theorem formats_ok : binary16.Ok 5 ∧ bfloat16.Ok 4 ∧ binary32.Ok 9 ∧ binary64.Ok 17 ∧ x87.Ok 21 ∧ binary128.Ok 36 := by
  refine ⟨?_, ?_, ?_, ?_, ?_, ?_⟩ <;> constructor <;> decide

/-- C43 for floating-point numbers: a matrix of any format, written by `print_csv` and read by `csv_read` is the same matrix, bit for bit (but for
the payloads of NaNs, and except for column vectors of several rows printed as vectors, C43). -/
theorem csv_round_trip_float_partial {f : Fmt} {max_digits10 : ℕ} (hf : f.Ok max_digits10) {rnd : ℚ → Option (Mag f)} (hr : Rounds rnd)
    {sci : Fl f → ℕ → Text} (hw : Writes sci) {sep : Char} (hs : SepOk sep) (hline : sep ≠ '\n') (eager dbg col1d row1d : Bool) (rows cols : ℕ)
    (M : ℕ → ℕ → Fl f) (hrows : rows ≠ 0) (hshape : cols ≠ 1 ∨ rows ≤ 1 ∨ col1d = false)
    (more : List Char) :
    Csv.csvRead (fromChars rnd) eager dbg sep rows cols
        { rest := Print.printCsvImpl (printElemFloat (fmt sci max_digits10)) [] rows cols M (csvOpts sep col1d row1d) ++ more } =
      .ok (Print.rowsOf rows cols M, { rest := more }) :=
  Print.csv_round_trip_partial (fromChars rnd) _ sep (fromChars_ok hs rnd) hs.plus hline eager dbg col1d row1d rows cols M
    (fun _ _ _ _ => float_readsBack hr hw hf.p max_digits10 hf.digits hf.max hf.lo hf.hi hs _ _) hrows hshape more

/-! ## Conversions that meet the assumptions -/

open Classical in
/-- Round to the nearest number, if there is one that is nearest. -/
noncomputable def nearest (f : Fmt) (q : ℚ) : Option (Mag f) :=
  if h : ∃ x : Mag f, ∀ y : Mag f, y.val ≠ x.val → |q - x.val| < |q - y.val| then some h.choose else none

theorem nearest_rounds {f : Fmt} (hp : 1 ≤ f.p) : Rounds (nearest f) := by
  intro q x _ hx
  have h : ∃ x : Mag f, ∀ y : Mag f, y.val ≠ x.val → |q - x.val| < |q - y.val| := ⟨x, hx⟩
  unfold nearest
  rw [dif_pos h]
  congr 1
  apply mag_unique hp
  by_contra hne
  have h1 := hx _ hne
  have h2 := h.choose_spec x (Ne.symm hne)
  linarith

/-- A decimal number close to `x`. -/
noncomputable def decimalOf (x : ℚ) (hx : 0 < x) (prec : ℕ) : ℕ × ℤ :=
  ((exists_decimal x hx prec).choose, (exists_decimal x hx prec).choose_spec.choose)

open Classical in
/-- Scientific notation. -/
noncomputable def sciOf (f : Fmt) : Fl f → ℕ → Text
  | .fin neg x, prec => (if neg then ['-'] else []) ++
    if h : 0 < x.val then sciText prec (decimalOf x.val h prec).1 (decimalOf x.val h prec).2 else sciText prec 0 0
  | .inf neg, _ => (if neg then ['-'] else []) ++ "inf".toList
  | .nan neg, _ => (if neg then ['-'] else []) ++ "nan".toList

theorem sciOf_writes (f : Fmt) : Writes (sciOf f) where
  zero := by
    intro neg x prec h
    simp only [sciOf, h, lt_self_iff_false, dif_neg, not_false_eq_true]
  fin := by
    intro neg x prec h
    have hx : 0 < x.val := lt_of_le_of_ne (val_nonneg x) (Ne.symm h)
    obtain ⟨k, h1, h2, h3, h4, h5⟩ := (exists_decimal x.val hx prec).choose_spec.choose_spec
    refine ⟨(decimalOf x.val hx prec).1, (decimalOf x.val hx prec).2, k, ?_, h1, h2, h3, h4, h5⟩
    simp only [sciOf, hx, dif_pos]
  inf := fun _ _ => rfl
  nan := fun _ _ => rfl

/-- Non-vacuity: `double` matrices, with the conversions above. -/
example (M : ℕ → ℕ → Fl binary64) :
    Csv.csvRead (fromChars (nearest binary64)) true true ',' 3 4
        { rest := Print.printCsvImpl (printElemFloat (fmt (sciOf binary64) 17)) [] 3 4 M (csvOpts ',' true true) ++ [] } =
      .ok (Print.rowsOf 3 4 M, { rest := [] }) :=
  csv_round_trip_float_partial formats_ok.2.2.2.1 (nearest_rounds (by decide)) (sciOf_writes _) sepOk_examples.1 (by decide) true true true true 3 4 M
    (by decide) (by decide) []

/-! ## Any number of digits -/

/-- `float_to_str` with a number of digits of the user's choice reads back exactly whenever `2 ^ p < 10 ^ prec`. -/
theorem digits_suffice {f : Fmt} {rnd : ℚ → Option (Mag f)} (hr : Rounds rnd) {sci : Fl f → ℕ → Text} (hw : Writes sci)
    (hp : 1 ≤ f.p) (prec : ℕ) (hprec : 2 ^ f.p < 10 ^ prec) (hlo : -(10 ^ 5 : ℤ) + 2 ≤ f.emin) (hhi : f.p + f.emax < (10 ^ 5 : ℤ)) (neg : Bool) (x : Mag f) :
    fromChars rnd (sci (.fin neg x) prec) = some (.fin neg x, []) := by
  obtain ⟨d, e, h1, h2, h3, _⟩ := writes_fin hr hw hp prec hprec hlo hhi neg x
  rw [h1]
  exact fromChars_sci rnd h2 x h3

/-- Different numbers have different texts. -/
theorem texts_differ {f : Fmt} {sci : Fl f → ℕ → Text} (hw : Writes sci)
    (hp : 1 ≤ f.p) (prec : ℕ) (hprec : 2 ^ f.p < 10 ^ prec) (hlo : -(10 ^ 5 : ℤ) + 2 ≤ f.emin) (hhi : f.p + f.emax < (10 ^ 5 : ℤ)) (n₁ n₂ : Bool) (x y : Mag f)
    (h : sci (.fin n₁ x) prec = sci (.fin n₂ y) prec) : n₁ = n₂ ∧ x = y := by
  have h1 := digits_suffice (nearest_rounds hp) hw hp prec hprec hlo hhi n₁ x
  have h2 := digits_suffice (nearest_rounds hp) hw hp prec hprec hlo hhi n₂ y
  rw [h, h2] at h1
  simp only [Option.some.injEq, Prod.mk.injEq, Fl.fin.injEq, and_true] at h1
  exact ⟨h1.1.symm, h1.2.symm⟩

end Guanaqo.Float
