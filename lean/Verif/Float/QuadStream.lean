import Verif.Float.Quad

/-! # Quadruple precision in streams (C99)

`operator<<` for `__float128`: quadmath-print.cpp:10-18. `quadmath_snprintf` with `%#.*Qg` is modelled as `printf` in the C standard: the digits and the
exponent of the scientific format decide between the two styles; trailing zeros are kept (`#`). The digits are a parameter with the contract
of a correct rounding (any rule for ties). The width of the stream and failing streams are in `Float/QuadOut`. -/

namespace Guanaqo.Float

open Guanaqo.Duration (Text scanSpecial scanDecimal minusSign Decimal digitsVal isDigit)

/-! ## The model -/

/-- The digits of a number and its decimal exponent, for `prec` digits after the first one. -/
structure WritesDigits {f : Fmt} (dg : Mag f → ℕ → ℕ × ℤ) : Prop where
  zero : ∀ (x : Mag f) prec, x.val = 0 → dg x prec = (0, 0)
  fin : ∀ (x : Mag f) prec, x.val ≠ 0 → 10 ^ prec ≤ (dg x prec).1 ∧ (dg x prec).1 < 10 ^ (prec + 1) ∧
    ∃ k : ℤ, (10 : ℚ) ^ k ≤ x.val ∧ x.val < (10 : ℚ) ^ (k + 1) ∧ |(dg x prec).1 * (10 : ℚ) ^ ((dg x prec).2 - prec) - x.val| ≤ (10 : ℚ) ^ (k - prec) / 2

/-- `%#.{P}g` of a number with the digits `d` and the exponent `X`, for `P ≥ 1`. -/
def gText (P d : ℕ) (X : ℤ) : Text :=
  if -4 ≤ X ∧ X < P then
    if 0 ≤ X then (digits P d).take (X.toNat + 1) ++ '.' :: (digits P d).drop (X.toNat + 1)
    else '0' :: '.' :: (List.replicate (-X - 1).toNat '0' ++ digits P d)
  else (digits P d).take 1 ++ '.' :: (digits P d).drop 1 ++ 'e' :: expDigits X

/-- The precision that `printf` uses: six if it is negative, one if it is zero. -/
def gPrecision (p : ℤ) : ℕ := if p < 0 then 6 else if p = 0 then 1 else p.toNat

/-- `quadmath_snprintf("%#.*Qg", p, v)`: the whole text. -/
def gPrint {f : Fmt} (dg : Mag f → ℕ → ℕ × ℤ) (p : ℤ) : Fl f → Text
  | .fin neg x => (if neg then ['-'] else []) ++ gText (gPrecision p) (dg x (gPrecision p - 1)).1 (dg x (gPrecision p - 1)).2
  | .inf neg => (if neg then ['-'] else []) ++ "inf".toList
  | .nan neg => (if neg then ['-'] else []) ++ "nan".toList

/-- quadmath-print.cpp:10-18: what `os << v` writes to a stream with the precision `osPrecision` (a 64-bit number, cast to `int`). The buffer has 128
characters, of which the last is NUL. -/
def ostreamQuad {f : Fmt} (dg : Mag f → ℕ → ℕ × ℤ) (dbg : Bool) (osPrecision : ℤ) (v : Fl f) : Res Text :=
  let text := gPrint dg (Int.bmod osPrecision (2 ^ 32)) v
  if text.length < 128 then .ok text else if dbg then .error .assertFail else .ok (text.take 127)

/-! ## Specification -/

/-- C99, in full: for every precision of at least one digit the number is written with that many significant digits: the text is a decimal number with
an error of at most half a unit of the last of these digits. -/
def QuadPrecision (f : Fmt) : Prop := ∀ (dg : Mag f → ℕ → ℕ × ℤ), WritesDigits dg → ∀ (dbg : Bool) (P : ℕ), 1 ≤ P → P < 2 ^ 63 → ∀ (neg : Bool) (x : Mag f),
  ∃ text q, ostreamQuad dg dbg P (.fin neg x) = .ok ((if neg then ['-'] else []) ++ text) ∧ scanDecimal text = some (q, []) ∧
    (x.val = 0 → q = 0) ∧ ∀ k : ℤ, (10 : ℚ) ^ k ≤ x.val → x.val < (10 : ℚ) ^ (k + 1) → |q - x.val| ≤ (10 : ℚ) ^ (k - ((P : ℤ) - 1)) / 2

/-! ## The text -/

/-- The literal. -/
def gDec (P d : ℕ) (X : ℤ) : Decimal :=
  if -4 ≤ X ∧ X < P then
    if 0 ≤ X then { ip := (digits P d).take (X.toNat + 1), fp := some ((digits P d).drop (X.toNat + 1)) }
    else { ip := ['0'], fp := some (List.replicate (-X - 1).toNat '0' ++ digits P d) }
  else { ip := (digits P d).take 1, fp := some ((digits P d).drop 1), exp := some ('e', some (decide (X < 0)), digits 2 X.natAbs) }

theorem gDec_text (P d : ℕ) (X : ℤ) : (gDec P d X).ip ++ Duration.fracText (gDec P d X).fp ++ Duration.expText (gDec P d X).exp = gText P d X := by
  unfold gDec gText expDigits
  split
  · split
    · simp [Duration.fracText, Duration.expText]
    · simp [Duration.fracText, Duration.expText]
  · have h2 : Duration.signText (some (decide (X < 0))) = [if X < 0 then '-' else '+'] := by
      by_cases h : X < 0 <;> simp [h, Duration.signText]
    simp [Duration.fracText, Duration.expText, h2]

theorem gDec_form (P d : ℕ) (X : ℤ) : (gDec P d X).Form := by
  have hd := digits_isDigit P d
  have h0 : isDigit '0' = true := by decide
  unfold gDec
  split
  · split
    · refine ⟨fun c hc => hd c (List.mem_of_mem_take hc), fun c hc => hd c (List.mem_of_mem_drop hc), ?_, fun c sg ds h => by cases h⟩
      show List.take _ _ ++ List.drop _ _ ≠ []
      rw [List.take_append_drop]; exact digits_ne_nil _ _
    · refine ⟨fun c hc => ?_, fun c hc => ?_, by simp, fun c sg ds h => by cases h⟩
      · simp only [List.mem_singleton] at hc; subst hc; exact h0
      · simp only [Decimal.frac, Option.getD_some, List.mem_append, List.mem_replicate] at hc
        rcases hc with ⟨-, rfl⟩ | hc
        · exact h0
        · exact hd c hc
  · refine ⟨fun c hc => hd c (List.mem_of_mem_take hc), fun c hc => hd c (List.mem_of_mem_drop hc), ?_, fun c sg ds h => ?_⟩
    · show List.take _ _ ++ List.drop _ _ ≠ []
      rw [List.take_append_drop]; exact digits_ne_nil _ _
    · simp only [Option.some.injEq, Prod.mk.injEq] at h
      obtain ⟨rfl, _, rfl⟩ := h
      exact ⟨.inl rfl, digits_ne_nil _ _, digits_isDigit _ _⟩

theorem gDec_abs {P d : ℕ} {X : ℤ} (hP : 1 ≤ P) (hd : d < 10 ^ P) : (gDec P d X).abs = d * (10 : ℚ) ^ (X - ((P : ℤ) - 1)) := by
  have hl : (digits P d).length = P := digits_length hP hd
  unfold Decimal.abs gDec
  split
  · rename_i hX
    split
    · rename_i h0
      have h1 : digitsVal ((digits P d).take (X.toNat + 1) ++ (digits P d).drop (X.toNat + 1)) = d := by
        rw [List.take_append_drop, digitsVal_digits]
      simp only [Decimal.frac, Option.getD_some, Duration.expVal, h1, List.length_drop, hl]
      rw [← zpow_natCast (10 : ℚ) (P - (X.toNat + 1))]
      have he : ((P - (X.toNat + 1) : ℕ) : ℤ) = -(X - ((P : ℤ) - 1)) := by omega
      rw [he, zpow_neg]
      simp
    · rename_i h0
      have h1 : digitsVal (['0'] ++ (List.replicate (-X - 1).toNat '0' ++ digits P d)) = d := by
        have : ['0'] ++ (List.replicate (-X - 1).toNat '0' ++ digits P d) = List.replicate ((-X - 1).toNat + 1) '0' ++ digits P d := by
          rw [List.replicate_succ]; rfl
        rw [this, digitsVal_zeros, digitsVal_digits]
      simp only [Decimal.frac, Option.getD_some, Duration.expVal, h1, List.length_append, List.length_replicate, hl]
      rw [← zpow_natCast (10 : ℚ) ((-X - 1).toNat + P)]
      have he : (((-X - 1).toNat + P : ℕ) : ℤ) = -(X - ((P : ℤ) - 1)) := by omega
      rw [he, zpow_neg]
      simp
  · have h1 : digitsVal ((digits P d).take 1 ++ (digits P d).drop 1) = d := by
      rw [List.take_append_drop, digitsVal_digits]
    have h3 : Duration.expVal (some ('e', some (decide (X < 0)), digits 2 X.natAbs)) = X := by
      simp only [Duration.expVal, digitsVal_digits]
      by_cases h : X < 0
      · simp [h, abs_of_neg h]
      · simp [h]; omega
    simp only [Decimal.frac, Option.getD_some, h1, h3, List.length_drop, hl]
    rw [← zpow_natCast (10 : ℚ) (P - 1), zpow_sub₀ (by norm_num)]
    have he : ((P - 1 : ℕ) : ℤ) = (P : ℤ) - 1 := by omega
    rw [he]
    field_simp

theorem scan_gText {P d : ℕ} {X : ℤ} (hP : 1 ≤ P) (hd : d < 10 ^ P) :
    scanDecimal (gText P d X) = some (d * (10 : ℚ) ^ (X - ((P : ℤ) - 1)), []) := by
  have h := Duration.scanDecimal_app (gDec P d X) (gDec_form P d X) (r := []) (by intro c r' h; cases h)
  rw [List.append_nil, gDec_text, gDec_abs hP hd] at h
  exact h

theorem gText_head {P d : ℕ} {X : ℤ} : ∃ c t, gText P d X = c :: t ∧ isDigit c = true := by
  have hne := digits_ne_nil P d
  have hd := digits_isDigit P d
  unfold gText
  cases h : digits P d with
  | nil => exact absurd h hne
  | cons c l =>
    have hc := hd c (by rw [h]; simp)
    split
    · split
      · exact ⟨c, _, rfl, hc⟩
      · exact ⟨'0', _, rfl, by decide⟩
    · exact ⟨c, _, rfl, hc⟩

theorem gText_length {P d : ℕ} {X : ℤ} (hP : 1 ≤ P) (hd : d < 10 ^ P) (hX : X.natAbs < 10 ^ 5) : (gText P d X).length ≤ P + 8 ∧ P + 1 ≤ (gText P d X).length := by
  have hl : (digits P d).length = P := digits_length hP hd
  have h2 := digits2_length X.natAbs hX
  unfold gText expDigits
  split
  · split
    · simp only [List.length_append, List.length_take, List.length_cons, List.length_drop, hl]; omega
    · simp only [List.length_append, List.length_cons, List.length_replicate, hl]; omega
  · simp only [List.length_append, List.length_take, List.length_cons, List.length_drop, hl]; omega

/-! ## C99 -/

section
variable {f : Fmt} {dg : Mag f → ℕ → ℕ × ℤ}

/-- The digits and the exponent, for all finite numbers. -/
theorem digits_facts (hw : WritesDigits dg) (hlo : -(10 ^ 5 : ℤ) + 2 ≤ f.emin) (hhi : f.p + f.emax < (10 ^ 5 : ℤ)) (x : Mag f) {P : ℕ} (hP : 1 ≤ P) :
    (dg x (P - 1)).1 < 10 ^ P ∧ (dg x (P - 1)).2.natAbs < 10 ^ 5 ∧
    (x.val = 0 → (dg x (P - 1)).1 = 0) ∧
    (∀ k : ℤ, (10 : ℚ) ^ k ≤ x.val → x.val < (10 : ℚ) ^ (k + 1) →
      |(dg x (P - 1)).1 * (10 : ℚ) ^ ((dg x (P - 1)).2 - ((P : ℤ) - 1)) - x.val| ≤ (10 : ℚ) ^ (k - ((P : ℤ) - 1)) / 2) ∧
    2 * 10 ^ (P - 1) * |(dg x (P - 1)).1 * (10 : ℚ) ^ ((dg x (P - 1)).2 - ((P : ℤ) - 1)) - x.val| ≤ x.val := by
  have hc : ((P - 1 : ℕ) : ℤ) = (P : ℤ) - 1 := by omega
  by_cases h0 : x.val = 0
  · rw [hw.zero x _ h0, h0]
    refine ⟨by positivity, by decide, fun _ => rfl, fun k hk => ?_, by simp⟩
    exact absurd hk (not_le.2 (zpow_pos (by norm_num) k))
  · obtain ⟨h1, h2, k, h3, h4, h5⟩ := hw.fin x (P - 1) h0
    have herr := relative_error h3 h5
    obtain ⟨c1, c2⟩ := exponent_range x h0 (P - 1) _ _ h1 h2 herr
    rw [hc] at h5 herr
    refine ⟨by rwa [show P - 1 + 1 = P by omega] at h2, ?_, fun h => absurd h h0, fun k' hk' hk'' => ?_, herr⟩
    · norm_num at hlo hhi ⊢
      omega
    · have : k' = k := by
        by_contra hne
        rcases (by omega : k + 1 ≤ k' ∨ k' + 1 ≤ k) with h | h
        · have := zpow_le_zpow_right₀ (by norm_num : (1 : ℚ) ≤ 10) h
          linarith
        · have := zpow_le_zpow_right₀ (by norm_num : (1 : ℚ) ≤ 10) h
          linarith
      rw [this]; exact h5

theorem gPrecision_nat {P : ℕ} (hP : 1 ≤ P) (hP' : P < 2 ^ 31) : gPrecision (Int.bmod P (2 ^ 32)) = P := by
  have : Int.bmod (P : ℤ) (2 ^ 32) = P := Int.bmod_eq_of_le (by omega) (by omega)
  rw [this]
  unfold gPrecision
  rw [if_neg (by omega), if_neg (by omega)]
  simp

variable (hw : WritesDigits dg) (hlo : -(10 ^ 5 : ℤ) + 2 ≤ f.emin) (hhi : f.p + f.emax < (10 ^ 5 : ℤ))
include hw hlo hhi

/-- The whole text is written. -/
theorem ostream_complete (dbg : Bool) {P : ℕ} (hP : 1 ≤ P) (hP' : P ≤ 118) (v : Fl f) : ostreamQuad dg dbg P v = .ok (gPrint dg P v) := by
  have hb : Int.bmod (P : ℤ) (2 ^ 32) = P := Int.bmod_eq_of_le (by omega) (by omega)
  have hg := gPrecision_nat hP (by omega)
  rw [hb] at hg
  unfold ostreamQuad
  simp only [hb]
  rw [if_pos]
  cases v with
  | inf neg => cases neg <;> simp [gPrint]
  | nan neg => cases neg <;> simp [gPrint]
  | fin neg x =>
    obtain ⟨h1, h2, -⟩ := digits_facts hw hlo hhi x hP
    have := (gText_length hP h1 h2).1
    simp only [gPrint, hg, List.length_append]
    cases neg <;> simp <;> omega

/-- C99. Whenever the whole text is written (`ostream_complete_iff`), it is the number with that many significant digits. -/
theorem ostream_precision_of_complete (dbg : Bool) {P : ℕ} (hP : 1 ≤ P) (hP' : P < 2 ^ 31) (neg : Bool) (x : Mag f)
    (hc : ostreamQuad dg dbg P (.fin neg x) = .ok (gPrint dg P (.fin neg x))) :
    ∃ text q, ostreamQuad dg dbg P (.fin neg x) = .ok ((if neg then ['-'] else []) ++ text) ∧ scanDecimal text = some (q, []) ∧
      (x.val = 0 → q = 0) ∧ ∀ k : ℤ, (10 : ℚ) ^ k ≤ x.val → x.val < (10 : ℚ) ^ (k + 1) → |q - x.val| ≤ (10 : ℚ) ^ (k - ((P : ℤ) - 1)) / 2 := by
  obtain ⟨h1, h2, h3, h4, h5⟩ := digits_facts hw hlo hhi x hP
  have hb : Int.bmod (P : ℤ) (2 ^ 32) = P := Int.bmod_eq_of_le (by omega) (by omega)
  have hg := gPrecision_nat hP hP'
  rw [hb] at hg
  refine ⟨_, _, ?_, scan_gText (X := (dg x (P - 1)).2) hP h1, fun h0 => ?_, h4⟩
  · rw [hc]
    simp only [gPrint, hg]
  · rw [h3 h0]; simp

/-- C99. For precisions from 1 to 118 the number is written with that many significant digits, in every format. Missing: larger ones, for which the buffer is too
small (see below; `quad_precision_partial` for the exact limit). -/
theorem ostream_precision_partial (dbg : Bool) {P : ℕ} (hP : 1 ≤ P) (hP' : P ≤ 118) (neg : Bool) (x : Mag f) :
    ∃ text q, ostreamQuad dg dbg P (.fin neg x) = .ok ((if neg then ['-'] else []) ++ text) ∧ scanDecimal text = some (q, []) ∧
      (x.val = 0 → q = 0) ∧ ∀ k : ℤ, (10 : ℚ) ^ k ≤ x.val → x.val < (10 : ℚ) ^ (k + 1) → |q - x.val| ≤ (10 : ℚ) ^ (k - ((P : ℤ) - 1)) / 2 :=
  ostream_precision_of_complete hw hlo hhi dbg hP (by omega) neg x (ostream_complete hw hlo hhi dbg hP hP' _)

/-- C99. With at least so many digits that `2 ^ p < 10 ^ (P - 1)` the text is read back, by a correctly rounding conversion, as exactly the same number. -/
theorem ostream_reads_back (hp : 1 ≤ f.p) {rnd : ℚ → Option (Mag f)} (hr : Rounds rnd) (dbg : Bool) {P : ℕ} (hP : 2 ^ f.p < 10 ^ (P - 1)) (hP' : P ≤ 118)
    (v : Fl f) : ∃ text, ostreamQuad dg dbg P v = .ok text ∧ fromChars rnd text = some (v, []) := by
  have hP1 : 1 ≤ P := by
    by_contra h
    have : P = 0 := by omega
    subst this
    have : 1 ≤ 2 ^ f.p := Nat.one_le_two_pow
    simp only [Nat.zero_sub, pow_zero] at hP
    omega
  refine ⟨_, ostream_complete hw hlo hhi dbg hP1 hP' v, ?_⟩
  cases v with
  | inf neg => cases neg <;> rfl
  | nan neg => cases neg <;> rfl
  | fin neg x =>
    obtain ⟨h1, h2, h3, h4, h5⟩ := digits_facts hw hlo hhi x hP1
    have hb : Int.bmod (P : ℤ) (2 ^ 32) = P := Int.bmod_eq_of_le (by omega) (by omega)
    have hg := gPrecision_nat hP1 (by omega)
    rw [hb] at hg
    obtain ⟨b1, b2⟩ := nearest_back hp (P - 1) hP x _ h5
    have hx := hr _ _ b1 b2
    have hscan := scan_gText (X := (dg x (P - 1)).2) hP1 h1
    obtain ⟨c', t, h', hc'⟩ := gText_head (P := P) (d := (dg x (P - 1)).1) (X := (dg x (P - 1)).2)
    simp only [gPrint, hg]
    have hspec : scanSpecial (gText P (dg x (P - 1)).1 (dg x (P - 1)).2) = none := by
      apply Duration.not_special_of
      intro c r h
      rw [h'] at h; cases h
      exact .inl hc'
    have hminus : minusSign ((if neg then ['-'] else []) ++ gText P (dg x (P - 1)).1 (dg x (P - 1)).2) = (neg, gText P (dg x (P - 1)).1 (dg x (P - 1)).2) := by
      cases neg with
      | true => rfl
      | false =>
        show minusSign (gText P (dg x (P - 1)).1 (dg x (P - 1)).2) = _
        rw [h']
        unfold minusSign
        split
        · rename_i heq; cases heq; exact absurd hc' (by decide)
        · rfl
    unfold fromChars
    rw [hminus]
    simp only [hspec, hscan, hx, Option.map_some]

/-- From 127 digits on the text does not fit: the assertion fails, or the text is cut off. -/
theorem ostream_truncates {P : ℕ} (hP : 127 ≤ P) (hP' : P < 2 ^ 31) (neg : Bool) (x : Mag f) :
    ostreamQuad dg true P (.fin neg x) = .error .assertFail ∧
    ∃ text, ostreamQuad dg false P (.fin neg x) = .ok text ∧ text.length = 127 ∧ 127 < (gPrint dg P (.fin neg x)).length := by
  obtain ⟨h1, h2, -⟩ := digits_facts hw hlo hhi x (show 1 ≤ P by omega)
  have hb : Int.bmod (P : ℤ) (2 ^ 32) = P := Int.bmod_eq_of_le (by omega) (by omega)
  have hg := gPrecision_nat (show 1 ≤ P by omega) hP'
  rw [hb] at hg
  have hlen : 127 < (gPrint dg P (.fin neg x)).length := by
    have := (gText_length (show 1 ≤ P by omega) h1 h2).2
    simp only [gPrint, hg, List.length_append]
    omega
  unfold ostreamQuad
  simp only [hb]
  refine ⟨by rw [if_neg (by omega)]; rfl, _, by rw [if_neg (by omega)]; rfl, ?_, hlen⟩
  rw [List.length_take]; omega

omit hw hlo hhi in
/-- Precisions that do not fit `int` are reduced modulo `2 ^ 32`. -/
theorem ostream_wraps (dbg : Bool) (p k : ℤ) (v : Fl f) : ostreamQuad dg dbg (p + 2 ^ 32 * k) v = ostreamQuad dg dbg p v := by
  unfold ostreamQuad
  have : Int.bmod (p + 2 ^ 32 * k) (2 ^ 32) = Int.bmod p (2 ^ 32) := by
    rw [Int.bmod_def, Int.bmod_def]
    have : (p + 2 ^ 32 * k) % ((2 ^ 32 : ℕ) : ℤ) = p % ((2 ^ 32 : ℕ) : ℤ) := by
      have h : ((2 ^ 32 : ℕ) : ℤ) = 2 ^ 32 := by norm_num
      rw [h]; exact Int.add_mul_emod_self_left p (2 ^ 32) k
    rw [this]
  rw [this]

end

/-! ## Exactly which texts fit -/

/-- The characters of `%#.{P}g` beside the sign, the digits and the point: the zeros before the digits, or the exponent with `e` and its sign. -/
def gExtra (P : ℕ) (X : ℤ) : ℕ :=
  if -4 ≤ X ∧ X < P then (-X).toNat
  else if X.natAbs < 100 then 4 else if X.natAbs < 1000 then 5 else if X.natAbs < 10000 then 6 else 7

theorem digits2_length_eq {n : ℕ} (h : n < 10 ^ 5) :
    (digits 2 n).length = if n < 100 then 2 else if n < 1000 then 3 else if n < 10000 then 4 else 5 := by
  have hk : ∀ k, 1 ≤ k → ((Print.showNat n).length ≤ k ↔ n < 10 ^ k) := fun k hk => Nat.length_toDigits_le_iff (by decide) (by omega)
  have h2 := hk 2 (by decide)
  have h3 := hk 3 (by decide)
  have h4 := hk 4 (by decide)
  have h5 := hk 5 (by decide)
  norm_num at h2 h3 h4 h5 h
  simp only [digits, List.length_append, List.length_replicate]
  split_ifs <;> omega

theorem gText_length_eq {P d : ℕ} {X : ℤ} (hP : 1 ≤ P) (hd : d < 10 ^ P) (hX : X.natAbs < 10 ^ 5) : (gText P d X).length = P + 1 + gExtra P X := by
  have hl : (digits P d).length = P := digits_length hP hd
  have h2 := digits2_length_eq hX
  unfold gText gExtra expDigits
  split
  · split
    · simp only [List.length_append, List.length_take, List.length_cons, List.length_drop, hl]; omega
    · simp only [List.length_append, List.length_cons, List.length_replicate, hl]; omega
  · simp only [List.length_append, List.length_take, List.length_cons, List.length_drop, hl, h2]
    split_ifs <;> omega

/-- C99, for all precisions that fit `int`: exactly when the sign, `P` digits, the point and the zeros or the exponent are at most 127 characters, the whole text is
written. -/
theorem ostream_complete_iff {f : Fmt} {dg : Mag f → ℕ → ℕ × ℤ} (hw : WritesDigits dg) (hlo : -(10 ^ 5 : ℤ) + 2 ≤ f.emin) (hhi : f.p + f.emax < (10 ^ 5 : ℤ))
    (dbg : Bool) {P : ℕ} (hP : 1 ≤ P) (hP' : P < 2 ^ 31) (neg : Bool) (x : Mag f) :
    ostreamQuad dg dbg P (.fin neg x) = .ok (gPrint dg P (.fin neg x)) ↔
      (if neg then 1 else 0) + P + 1 + gExtra P (dg x (P - 1)).2 ≤ 127 := by
  obtain ⟨h1, h2, -⟩ := digits_facts hw hlo hhi x hP
  have hb : Int.bmod (P : ℤ) (2 ^ 32) = P := Int.bmod_eq_of_le (by omega) (by omega)
  have hg := gPrecision_nat hP hP'
  rw [hb] at hg
  have hlen : (gPrint dg P (.fin neg x)).length = (if neg then 1 else 0) + P + 1 + gExtra P (dg x (P - 1)).2 := by
    have := gText_length_eq hP h1 h2
    simp only [gPrint, hg, List.length_append, this]
    cases neg <;> simp <;> omega
  rw [← hlen]
  unfold ostreamQuad
  simp only [hb]
  by_cases hl : (gPrint dg P (.fin neg x)).length < 128
  · rw [if_pos hl]
    exact ⟨fun _ => by omega, fun _ => rfl⟩
  · rw [if_neg hl]
    refine ⟨fun h => ?_, fun h => by omega⟩
    cases dbg with
    | true => cases h
    | false =>
      exfalso
      have h' : (gPrint dg P (.fin neg x)).take 127 = gPrint dg P (.fin neg x) := by
        simpa using h
      have := congrArg List.length h'
      rw [List.length_take] at this
      omega

/-- Decimal exponents are about a third of the binary ones, at most. -/
theorem exponent_third {f : Fmt} (x : Mag f) (hx : x.val ≠ 0) {k : ℤ} (h1 : (10 : ℚ) ^ k ≤ x.val) (h2 : x.val < (10 : ℚ) ^ (k + 1)) :
    (0 ≤ k + 1 ∨ f.emin ≤ 3 * (k + 1)) ∧ (k < 0 ∨ 3 * k ≤ f.p + f.emax) := by
  have h8 : ∀ n : ℕ, (2 : ℚ) ^ (3 * n) ≤ 10 ^ n := by
    intro n
    rw [pow_mul]
    exact pow_le_pow_left₀ (by norm_num) (by norm_num) n
  have hm : 1 ≤ x.m := by
    rcases Nat.eq_zero_or_pos x.m with h | h
    · exact absurd (by unfold Mag.val; rw [h]; simp) hx
    · exact h
  constructor
  · by_contra h
    push Not at h
    obtain ⟨ha, hb⟩ := h
    obtain ⟨n, hn⟩ : ∃ n : ℕ, k + 1 = -(n : ℤ) := ⟨(-(k + 1)).toNat, by omega⟩
    have hv : (2 : ℚ) ^ f.emin ≤ x.val := by
      unfold Mag.val
      have e1 : (2 : ℚ) ^ f.emin ≤ 2 ^ x.e := zpow_le_zpow_right₀ (by norm_num) x.lo
      have e2 : (1 : ℚ) ≤ x.m := by exact_mod_cast hm
      have e3 : (0 : ℚ) < 2 ^ x.e := zpow_pos (by norm_num) _
      nlinarith
    have hlt : (2 : ℚ) ^ (-(3 * n : ℕ) : ℤ) ≤ 2 ^ f.emin := zpow_le_zpow_right₀ (by norm_num) (by push_cast; omega)
    rw [hn] at h2
    rw [zpow_neg, zpow_natCast] at h2 hlt
    have := inv_anti₀ (by positivity) (h8 n)
    linarith
  · by_contra h
    push Not at h
    obtain ⟨ha, hb⟩ := h
    obtain ⟨n, rfl⟩ := Int.eq_ofNat_of_zero_le ha
    have hv : x.val < (2 : ℚ) ^ ((f.p : ℤ) + f.emax) := by
      unfold Mag.val
      have e1 : (2 : ℚ) ^ x.e ≤ 2 ^ f.emax := zpow_le_zpow_right₀ (by norm_num) x.hi
      have e2 : (x.m : ℚ) < 2 ^ f.p := by exact_mod_cast x.lt
      have e3 : (0 : ℚ) < 2 ^ x.e := zpow_pos (by norm_num) _
      rw [zpow_add₀ (by norm_num), zpow_natCast]
      have e4 : (0 : ℚ) < 2 ^ f.p := by positivity
      calc (x.m : ℚ) * 2 ^ x.e < 2 ^ f.p * 2 ^ x.e := mul_lt_mul_of_pos_right e2 e3
        _ ≤ _ := by gcongr
    have h3 : (2 : ℚ) ^ ((f.p : ℤ) + f.emax) ≤ 2 ^ ((3 * n : ℕ) : ℤ) := zpow_le_zpow_right₀ (by norm_num) (by push_cast; omega)
    rw [zpow_natCast] at h1 h3
    have := h8 n
    linarith

/-- The decimal exponent of the text is that of the number, or differs by one. -/
theorem decimal_exponent_near {f : Fmt} (x : Mag f) (hx : x.val ≠ 0) {prec d : ℕ} {e k : ℤ} (h1 : 10 ^ prec ≤ d) (h2 : d < 10 ^ (prec + 1))
    (h3 : (10 : ℚ) ^ k ≤ x.val) (h4 : x.val < (10 : ℚ) ^ (k + 1)) (h5 : |d * (10 : ℚ) ^ (e - prec) - x.val| ≤ (10 : ℚ) ^ (k - prec) / 2) :
    k - 1 ≤ e ∧ e ≤ k + 1 := by
  have herr := relative_error h3 h5
  have hT : (1 : ℚ) ≤ 10 ^ prec := one_le_pow₀ (by norm_num)
  have hx0 : 0 < x.val := lt_of_le_of_ne (val_nonneg x) (Ne.symm hx)
  have hq' : 2 * |d * (10 : ℚ) ^ (e - prec) - x.val| ≤ x.val := by
    have := abs_nonneg (d * (10 : ℚ) ^ (e - prec) - x.val)
    nlinarith
  have hlo : x.val ≤ 2 * (d * (10 : ℚ) ^ (e - prec)) := by
    have := neg_abs_le (d * (10 : ℚ) ^ (e - prec) - x.val); linarith
  have hhi : d * (10 : ℚ) ^ (e - prec) ≤ 2 * x.val := by
    have := le_abs_self (d * (10 : ℚ) ^ (e - prec) - x.val); linarith
  have hs : (0 : ℚ) < 10 ^ (e - prec) := zpow_pos (by norm_num) _
  have hde1 : (10 : ℚ) ^ e ≤ d * 10 ^ (e - prec) := by
    have h1' : (10 : ℚ) ^ e = 10 ^ prec * 10 ^ (e - prec) := by
      rw [← zpow_natCast, ← zpow_add₀ (by norm_num)]; congr 1; ring
    rw [h1']
    have : ((10 ^ prec : ℕ) : ℚ) ≤ d := by exact_mod_cast h1
    push_cast at this
    gcongr
  have hde2 : d * 10 ^ (e - prec) < (10 : ℚ) ^ (e + 1) := by
    have h1' : (10 : ℚ) ^ (e + 1) = 10 ^ (prec + 1) * 10 ^ (e - prec) := by
      rw [← zpow_natCast, ← zpow_add₀ (by norm_num)]; congr 1; push_cast; ring
    rw [h1']
    have : (d : ℚ) < ((10 ^ (prec + 1) : ℕ) : ℚ) := by exact_mod_cast h2
    push_cast at this
    exact mul_lt_mul_of_pos_right this hs
  have ten : ∀ j : ℤ, (10 : ℚ) ^ (j + 1) = 10 * 10 ^ j := fun j => by rw [zpow_add₀ (by norm_num), zpow_one, mul_comm]
  have pos : ∀ j : ℤ, (0 : ℚ) < 10 ^ j := fun j => zpow_pos (by norm_num) j
  constructor
  · by_contra h
    have : (10 : ℚ) ^ (e + 1 + 1) ≤ 10 ^ k := zpow_le_zpow_right₀ (by norm_num) (by omega)
    rw [ten] at this
    have := pos (e + 1)
    linarith
  · by_contra h
    have : (10 : ℚ) ^ (k + 1 + 1) ≤ 10 ^ e := zpow_le_zpow_right₀ (by norm_num) (by omega)
    rw [ten] at this
    have := pos (k + 1)
    linarith

/-- The same for the digits of `WritesDigits`. -/
theorem exponent_near {f : Fmt} {dg : Mag f → ℕ → ℕ × ℤ} (hw : WritesDigits dg) (x : Mag f) (hx : x.val ≠ 0) (prec : ℕ) :
    ∃ k : ℤ, (10 : ℚ) ^ k ≤ x.val ∧ x.val < (10 : ℚ) ^ (k + 1) ∧ k - 1 ≤ (dg x prec).2 ∧ (dg x prec).2 ≤ k + 1 := by
  obtain ⟨h1, h2, k, h3, h4, h5⟩ := hw.fin x prec hx
  exact ⟨k, h3, h4, decimal_exponent_near x hx h1 h2 h3 h4 h5⟩

/-- C99: with 119 digits or less, and not with more, every number is written in full. -/
theorem quad_precision_iff {dg : Mag binary128 → ℕ → ℕ × ℤ} (hw : WritesDigits dg) {P : ℕ} (hP : 1 ≤ P) (hP' : P < 2 ^ 31) :
    (∀ dbg neg x, ostreamQuad dg dbg P (.fin neg x) = .ok (gPrint dg P (.fin neg x))) ↔ P ≤ 119 := by
  constructor
  · intro h
    by_contra hgt
    let x : Mag binary128 := ⟨2 ^ 112, 16271, by decide +kernel, by decide, by decide, .inl (by decide +kernel)⟩
    have hxv : x.val = 2 ^ 16383 := by
      show ((2 ^ 112 : ℕ) : ℚ) * (2 : ℚ) ^ (16271 : ℤ) = _
      rw [show (16271 : ℤ) = ((16271 : ℕ) : ℤ) by norm_num, zpow_natCast]
      rw [Nat.cast_pow, Nat.cast_ofNat, ← pow_add]
    have hx : x.val ≠ 0 := by rw [hxv]; positivity
    obtain ⟨k, h1, h2, h3, -⟩ := exponent_near hw x hx (P - 1)
    have hk : 1001 ≤ k := by
      by_contra hk
      have e1 : (10 : ℚ) ^ (k + 1) ≤ 10 ^ ((1001 : ℕ) : ℤ) := zpow_le_zpow_right₀ (by norm_num) (by omega)
      rw [zpow_natCast] at e1
      have e2 : (10 : ℚ) ^ 1001 ≤ 16 ^ 1001 := pow_le_pow_left₀ (by norm_num) (by norm_num) _
      have e3 : (16 : ℚ) ^ 1001 = 2 ^ 4004 := by
        rw [show (16 : ℚ) = 2 ^ 4 by norm_num, ← pow_mul]
      have e4 : (2 : ℚ) ^ 4004 ≤ 2 ^ 16383 := pow_le_pow_right₀ (by norm_num) (by norm_num)
      rw [hxv] at h2
      exact absurd (h2.trans_le (e1.trans (e2.trans (e3.le.trans e4)))) (lt_irrefl _)
    have := (ostream_complete_iff hw (by decide) (by decide) true hP hP' true x).1 (h true true x)
    generalize (dg x (P - 1)).2 = X at *
    simp only [if_true] at this
    unfold gExtra at this
    split_ifs at this <;> omega
  · intro hle dbg neg x
    rw [ostream_complete_iff hw (by decide) (by decide) dbg hP hP' neg x]
    have hX : (dg x (P - 1)).2.natAbs < 10000 := by
      by_cases hx : x.val = 0
      · rw [hw.zero x _ hx]; decide
      · obtain ⟨k, h1, h2, h3, h4⟩ := exponent_near hw x hx (P - 1)
        have := exponent_third x hx h1 h2
        simp only [binary128] at this
        omega
    unfold gExtra
    cases neg <;> simp only [if_true, Bool.false_eq_true, if_false] <;> split_ifs <;> omega

/-- C99, for `__float128` and 1 to 119 digits. Missing: more digits, for which it is false of some numbers (`quad_precision_iff`). -/
theorem quad_precision_partial {dg : Mag binary128 → ℕ → ℕ × ℤ} (hw : WritesDigits dg) (dbg : Bool) {P : ℕ} (hP : 1 ≤ P) (hP' : P ≤ 119) (neg : Bool) (x : Mag binary128) :
    ∃ text q, ostreamQuad dg dbg P (.fin neg x) = .ok ((if neg then ['-'] else []) ++ text) ∧ scanDecimal text = some (q, []) ∧
      (x.val = 0 → q = 0) ∧ ∀ k : ℤ, (10 : ℚ) ^ k ≤ x.val → x.val < (10 : ℚ) ^ (k + 1) → |q - x.val| ≤ (10 : ℚ) ^ (k - ((P : ℤ) - 1)) / 2 :=
  ostream_precision_of_complete hw (by decide) (by decide) dbg hP (by omega) neg x ((quad_precision_iff hw hP (by omega)).2 hP' dbg neg x)

open Classical in
/-- Digits that meet the assumptions. -/
noncomputable def digitsOf (f : Fmt) (x : Mag f) (prec : ℕ) : ℕ × ℤ := if h : 0 < x.val then decimalOf x.val h prec else (0, 0)

theorem digitsOf_writes (f : Fmt) : WritesDigits (digitsOf f) where
  zero := by
    intro x prec h
    unfold digitsOf
    rw [dif_neg (by rw [h]; exact lt_irrefl _)]
  fin := by
    intro x prec h
    have hx : 0 < x.val := lt_of_le_of_ne (val_nonneg x) (Ne.symm h)
    obtain ⟨k, h1, h2, h3, h4, h5⟩ := (exists_decimal x.val hx prec).choose_spec.choose_spec
    have : digitsOf f x prec = decimalOf x.val hx prec := by unfold digitsOf; rw [dif_pos hx]
    rw [this]
    exact ⟨h1, h2, k, h3, h4, h5⟩

/-- False: with a precision of 127 digits the assertion fails for every number. -/
theorem not_quadPrecision : ¬ QuadPrecision binary128 := by
  intro h
  obtain ⟨text, q, h1, -⟩ := h _ (digitsOf_writes _) true 127 (by decide) (by decide) false big
  rw [(ostream_truncates (digitsOf_writes _) (by decide) (by decide) (by decide) (by decide) false big).1] at h1
  cases h1

/-- Non-vacuity: 36 digits suffice for `__float128`. -/
example (v : Fl binary128) : ∃ text, ostreamQuad (digitsOf binary128) true 36 v = .ok text ∧ fromChars (nearest binary128) text = some (v, []) :=
  ostream_reads_back (digitsOf_writes _) (by decide) (by decide) (by decide) (nearest_rounds (by decide)) true (P := 36) (by decide) (by decide) v

/-- The styles: `3.14159`, `0.000123000`, `1.23000e+20`. -/
example : gText 6 314159 0 = "3.14159".toList ∧ gText 6 123000 (-4) = "0.000123000".toList ∧ gText 6 123000 20 = "1.23000e+20".toList ∧
    gText 6 100000 5 = "100000.".toList ∧ gText 1 5 0 = "5.".toList := by decide +kernel

end Guanaqo.Float
