import Verif.Float.Strtod

/-! # Which fields are numbers, and which (C123)

The fields that `csv_read` accepts as floating-point numbers in the two configurations of `csv.tpp`, described as texts. -/

namespace Guanaqo.Float

open Guanaqo.Duration (Text Val isDigit scanSpecial scanDecimal minusSign minusText lower nanTail isPayload Decimal strtod strtodNumber
  scanPrefixed scanHex scanHexFrac scanHexDigits scanBinExp isHexDigit expSign fracText expText expVal signText hexVal scanExpDigits
  EndsNumber)
open Guanaqo.FromChars (isSpace)

/-! ## Specification -/

/-- An unsigned number: a decimal literal whose value can be converted, or one of the names of infinity and NaN; `neg` is the sign that
was before it. -/
inductive Word {f : Fmt} (cv : ℚ → Option (Mag f)) (neg : Bool) : Text → Fl f → Prop
  | dec (n : Decimal) (x : Mag f) : n.Form → n.neg = false → cv n.abs = some x → Word cv neg n.text (.fin neg x)
  | inf (w : Text) : w.map lower = "inf".toList ∨ w.map lower = "infinity".toList → Word cv neg w (.inf neg)
  | nan (w : Text) : w.map lower = "nan".toList → Word cv neg w (.nan neg)
  | nanSeq (w ds : Text) : w.map lower = "nan".toList → (∀ c ∈ ds, isPayload c = true) → Word cv neg (w ++ '(' :: (ds ++ [')'])) (.nan neg)

/-- A hexadecimal literal (without `0x`). -/
structure HexLit where
  ip : Text
  fp : Option Text := none
  /-- the letter `p` or `P`, a sign and decimal digits -/
  exp : Option (Char × Option Bool × Text) := none

/-- The text after `0x`. -/
def HexLit.text (h : HexLit) : Text := h.ip ++ fracText h.fp ++ expText h.exp

/-- Its value. -/
def HexLit.abs (h : HexLit) : ℚ := (hexVal (h.ip ++ h.fp.getD []) : ℚ) / 16 ^ (h.fp.getD []).length * (2 : ℚ) ^ expVal h.exp

/-- Hexadecimal digits, at least one, and decimal digits in the exponent. -/
structure HexLit.Form (h : HexLit) : Prop where
  ip : ∀ c ∈ h.ip, isHexDigit c = true
  fp : ∀ c ∈ h.fp.getD [], isHexDigit c = true
  some_digit : h.ip ++ h.fp.getD [] ≠ []
  exp : ∀ c sg ds, h.exp = some (c, sg, ds) → (c = 'p' ∨ c = 'P') ∧ ds ≠ [] ∧ ∀ d ∈ ds, isDigit d = true

/-- A hexadecimal number. -/
inductive HexWord {f : Fmt} (cv : ℚ → Option (Mag f)) (neg : Bool) : Text → Fl f → Prop
  | mk (z : Char) (h : HexLit) (x : Mag f) : z = 'x' ∨ z = 'X' → h.Form → cv h.abs = some x → HexWord cv neg ('0' :: z :: h.text) (.fin neg x)

/-- The fields that denote a number where `std::from_chars` is used: an optional plus sign, an optional minus sign, a number. -/
def StdField {f : Fmt} (rnd : ℚ → Option (Mag f)) (field : Text) (v : Fl f) : Prop :=
  ∃ plus neg w, (plus = [] ∨ plus = ['+']) ∧ field = plus ++ (minusText neg ++ w) ∧ Word rnd neg w v

/-- The fields that denote a number where `strtod` is used: blanks, an optional sign, a number, which may be hexadecimal. -/
def CField {f : Fmt} (conv : ℚ → Option (Mag f)) (field : Text) (v : Fl f) : Prop :=
  ∃ ws sg w, (∀ c ∈ ws, isSpace c = true) ∧ (sg = [] ∨ sg = ['+'] ∨ sg = ['-']) ∧ field = ws ++ (sg ++ w) ∧
    (Word conv (decide (sg = ['-'])) w v ∨ HexWord conv (decide (sg = ['-'])) w v)

/-! ## Numbers that are a whole text -/

theorem expDigits_whole {s : Text} {e : ℤ} : scanExpDigits s = some (e, []) ↔
    ∃ sg ds, s = signText sg ++ ds ∧ ds ≠ [] ∧ (∀ d ∈ ds, isDigit d = true) ∧ e = expVal (some ('e', sg, ds)) := by
  constructor
  · intro h
    have h1 : Duration.scanExp ('e' :: s) = (e, []) := by
      simp [Duration.scanExp, h]
    obtain ⟨x, a, b, c⟩ := Duration.scanExp_sound ('e' :: s)
    rw [h1] at a b
    cases x with
    | none => simp [expText] at a
    | some p =>
      obtain ⟨l, sg, ds⟩ := p
      simp only [expText, List.append_nil, List.cons.injEq] at a
      obtain ⟨h2, h3, h4⟩ := c l sg ds rfl
      exact ⟨sg, ds, a.2, h3, h4, by rw [show e = expVal (some (l, sg, ds)) from b]; rfl⟩
  · rintro ⟨sg, ds, rfl, h2, h3, rfl⟩
    have h1 := Duration.scanExp_app (x := some ('e', sg, ds)) (by
      intro c sg' ds' h; cases h; exact ⟨.inl rfl, h2, h3⟩) (r := []) (by intro c r' h; cases h)
    rw [List.append_nil] at h1
    simp only [expText, Duration.scanExp, if_true, true_or] at h1
    cases h4 : scanExpDigits (signText sg ++ ds) with
    | none =>
      rw [h4] at h1
      have := congrArg (fun p : ℤ × Text => p.2) h1
      simp at this
    | some p => rw [h4] at h1; simp only [Option.getD_some] at h1; rw [h1]

theorem decimal_whole {s : Text} {q : ℚ} : scanDecimal s = some (q, []) ↔ ∃ n : Decimal, n.Form ∧ n.neg = false ∧ s = n.text ∧ q = n.abs := by
  constructor
  · intro h
    obtain ⟨n, n1, n2, n3, n4, _⟩ := Duration.scanDecimal_long h
    exact ⟨n, n4, n1, by rw [n2]; simp [Decimal.text, n1], n3⟩
  · rintro ⟨n, h1, h2, rfl, rfl⟩
    have := Duration.scanDecimal_app n h1 (r := []) (by intro c r' h; cases h)
    rw [List.append_nil] at this
    rw [← this]
    simp [Decimal.text, h2]

theorem decimal_chars {n : Decimal} (h : n.Form) : ∀ c ∈ n.text, isDigit c = true ∨ c ∈ ".eE+-".toList := by
  intro c hc
  simp only [Decimal.text, List.mem_append] at hc
  rcases hc with ((hc | hc) | hc) | hc
  · split at hc
    · right; rw [List.mem_singleton.1 hc]; decide
    · cases hc
  · exact .inl (h.ip c hc)
  · cases hf : n.fp with
    | none => rw [hf] at hc; cases hc
    | some ds =>
      rw [hf] at hc
      rcases List.mem_cons.1 hc with rfl | hc
      · right; decide
      · exact .inl (h.fp c (by simp [Decimal.frac, hf, hc]))
  · cases hx : n.exp with
    | none => rw [hx] at hc; cases hc
    | some p =>
      obtain ⟨l, sg, ds⟩ := p
      obtain ⟨h1, _, h3⟩ := h.exp l sg ds hx
      rw [hx] at hc
      rcases List.mem_cons.1 hc with rfl | hc
      · right; rcases h1 with rfl | rfl <;> decide
      · rcases List.mem_append.1 hc with hc | hc
        · right
          cases sg with
          | none => cases hc
          | some b => cases b <;> (rw [List.mem_singleton.1 hc]; decide)
        · exact .inl (h3 c hc)

theorem decimal_not_special {n : Decimal} (h : n.Form) (hn : n.neg = false) : scanSpecial n.text = none := by
  apply Duration.not_special_of
  intro c r hc
  refine Duration.abs_text_head n h [] c r ?_
  rw [← hc]
  simp [Decimal.text, hn]

theorem decimal_not_hex {n : Decimal} (h : n.Form) : scanPrefixed n.text = none := by
  cases hp : scanPrefixed n.text with
  | none => rfl
  | some p =>
    obtain ⟨x, d, r, hx, _, he⟩ := Duration.scanPrefixed_some.1 (by rw [hp]; rfl)
    have hm : x ∈ n.text := by rcases he with he | he <;> rw [he] <;> simp
    have := decimal_chars h x hm
    rcases hx with rfl | rfl <;> exact absurd this (by decide)

theorem special_whole_inf {s : Text} : scanSpecial s = some (.inf, []) ↔ s.map lower = "inf".toList ∨ s.map lower = "infinity".toList := by
  constructor
  · intro h
    unfold scanSpecial at h
    split at h
    · rename_i hc
      have hd : s.drop 8 = [] := by cases hx : s.drop 8 with | nil => rfl | cons a l => rw [hx] at h; cases h
      rw [List.take_of_length_le (by simpa using hd)] at hc
      exact .inr hc
    · split at h
      · rename_i hc
        have hd : s.drop 3 = [] := by cases hx : s.drop 3 with | nil => rfl | cons a l => rw [hx] at h; cases h
        rw [List.take_of_length_le (by simpa using hd)] at hc
        exact .inl hc
      · split at h <;> cases h
  · rintro (h | h)
    · have := Duration.scanSpecial_inf (w := s) (r := []) h (by
        intro w' r' hw e
        have := List.append_eq_nil_iff.1 e.symm
        rw [this.1] at hw; cases hw)
      rwa [List.append_nil] at this
    · have := Duration.scanSpecial_infinity (w := s) (r := []) h
      rwa [List.append_nil] at this

theorem special_nan {s r : Text} : scanSpecial s = some (.nan, r) ↔ ∃ w, w.map lower = "nan".toList ∧ s = w ++ r := by
  constructor
  · intro h
    unfold scanSpecial at h
    split at h
    · cases h
    · split at h
      · cases h
      · split at h
        · rename_i hc
          cases h
          exact ⟨s.take 3, hc, (List.take_append_drop 3 s).symm⟩
        · cases h
  · rintro ⟨w, hw, rfl⟩
    exact Duration.scanSpecial_nan hw

theorem special_not_finite {s r : Text} {q : ℚ} : scanSpecial s ≠ some (.finite q, r) := by
  intro h
  unfold scanSpecial at h
  split at h
  · cases h
  · split at h
    · cases h
    · split at h <;> cases h

theorem nanTail_whole {r : Text} : nanTail r = [] ↔ r = [] ∨ ∃ ds, (∀ c ∈ ds, isPayload c = true) ∧ r = '(' :: (ds ++ [')']) := by
  constructor
  · intro h
    unfold nanTail at h
    split at h
    · rename_i r'
      split at h
      · rename_i r'' hd
        right
        subst h
        refine ⟨r'.takeWhile isPayload, fun c hc => Duration.mem_takeWhile hc, ?_⟩
        rw [← hd, List.takeWhile_append_dropWhile]
      · cases h
    · exact .inl h
  · rintro (rfl | ⟨ds, hd, rfl⟩)
    · rfl
    · have := (Duration.takeWhile_append_stop (p := isPayload) (f := ds) (r := [')']) hd (by intro c r' h; cases h; decide)).2
      simp only [nanTail]
      rw [this]
      rfl

theorem hexFrac_whole {s : Text} (hs : ∀ c r, s = c :: r → isHexDigit c = false) :
    ∃ fp : Option Text, s = fracText fp ++ (scanHexFrac s).2 ∧ (scanHexFrac s).1 = fp.getD [] ∧ ∀ c ∈ fp.getD [], isHexDigit c = true := by
  unfold scanHexFrac
  split
  · rename_i s
    exact ⟨some (scanHexDigits s).1, by simp [fracText, scanHexDigits], rfl, fun c hc => Duration.mem_takeWhile hc⟩
  · exact ⟨none, rfl, rfl, by simp⟩

theorem binExp_whole {s : Text} {e : ℤ} : scanBinExp s = (e, []) ↔
    ∃ x, s = expText x ∧ e = expVal x ∧ ∀ c sg ds, x = some (c, sg, ds) → (c = 'p' ∨ c = 'P') ∧ ds ≠ [] ∧ ∀ d ∈ ds, isDigit d = true := by
  constructor
  · intro h
    cases s with
    | nil => cases h; exact ⟨none, rfl, rfl, by simp⟩
    | cons c r =>
      simp only [scanBinExp] at h
      split at h
      · rename_i hc
        cases hx : scanExpDigits r with
        | none => rw [hx] at h; cases h
        | some p =>
          rw [hx] at h
          simp only [Option.getD_some] at h
          rw [h] at hx
          obtain ⟨sg, ds, rfl, h2, h3, rfl⟩ := expDigits_whole.1 hx
          exact ⟨some (c, sg, ds), rfl, rfl, by intro c' sg' ds' he; cases he; exact ⟨hc, h2, h3⟩⟩
      · cases h
  · rintro ⟨x, rfl, rfl, h⟩
    cases x with
    | none => rfl
    | some p =>
      obtain ⟨c, sg, ds⟩ := p
      obtain ⟨h1, h2, h3⟩ := h c sg ds rfl
      have := expDigits_whole.2 ⟨sg, ds, rfl, h2, h3, rfl⟩
      simp only [expText, scanBinExp, if_pos h1, this]
      rfl

theorem hex_whole {s : Text} {q : ℚ} : scanHex s = some (q, []) ↔ ∃ h : HexLit, h.Form ∧ s = h.text ∧ q = h.abs := by
  constructor
  · intro h
    unfold scanHex at h
    dsimp only at h
    split at h
    · cases h
    · rename_i hne
      simp only [Option.some.injEq, Prod.mk.injEq] at h
      obtain ⟨hq, hr⟩ := h
      have h1 : s = (scanHexDigits s).1 ++ (scanHexDigits s).2 := (List.takeWhile_append_dropWhile ..).symm
      obtain ⟨fp, f1, f2, f3⟩ := hexFrac_whole (s := (scanHexDigits s).2) (fun c r h => Duration.dropWhile_head h)
      obtain ⟨x, x1, x2, x3⟩ := binExp_whole.1 (show scanBinExp (scanHexFrac (scanHexDigits s).2).2 = ((scanBinExp (scanHexFrac (scanHexDigits s).2).2).1, []) by
        rw [← hr])
      refine ⟨⟨(scanHexDigits s).1, fp, x⟩, ⟨fun c hc => Duration.mem_takeWhile hc, f3, ?_, x3⟩, ?_, ?_⟩
      · intro e
        apply hne
        rw [f2, e]; rfl
      · unfold HexLit.text
        dsimp only
        rw [← x1, List.append_assoc, ← f1, ← h1]
      · rw [← hq, f2, x2]; rfl
  · rintro ⟨h, hf, rfl, rfl⟩
    have hexp : ∀ c r, expText h.exp = c :: r → isHexDigit c = false ∧ c ≠ '.' := by
      intro c r e
      cases hx : h.exp with
      | none => rw [hx] at e; cases e
      | some p =>
        obtain ⟨l, sg, ds⟩ := p
        rw [hx] at e
        cases e
        rcases (hf.exp _ _ _ hx).1 with rfl | rfl <;> decide
    have h1 : scanHexDigits h.text = (h.ip, fracText h.fp ++ expText h.exp) := by
      unfold HexLit.text scanHexDigits
      rw [List.append_assoc]
      have := Duration.takeWhile_append_stop (p := isHexDigit) (f := h.ip) (r := fracText h.fp ++ expText h.exp) hf.ip (by
        intro c r e
        cases hfp : h.fp with
        | none => rw [hfp] at e; exact (hexp c r e).1
        | some ds => rw [hfp] at e; cases e; decide)
      rw [this.1, this.2]
    have h2 : scanHexFrac (fracText h.fp ++ expText h.exp) = (h.fp.getD [], expText h.exp) := by
      cases hfp : h.fp with
      | none =>
        show scanHexFrac (expText h.exp) = _
        cases he : expText h.exp with
        | nil => rfl
        | cons c r =>
          unfold scanHexFrac
          split
          · rename_i heq; cases heq; exact absurd rfl (hexp _ _ he).2
          · rfl
      | some ds =>
        show scanHexDigits (ds ++ expText h.exp) = _
        unfold scanHexDigits
        have := Duration.takeWhile_append_stop (p := isHexDigit) (f := ds) (r := expText h.exp) (by
          have := hf.fp; rw [hfp] at this; exact this) (fun c r e => (hexp c r e).1)
        rw [this.1, this.2]
        rfl
    have h3 := binExp_whole.2 ⟨h.exp, rfl, rfl, hf.exp⟩
    unfold scanHex
    rw [h1]
    dsimp only
    rw [h2]
    dsimp only
    rw [h3, if_neg (by simpa using hf.some_digit)]
    rfl

theorem hex_not_special {z : Char} {r : Text} : scanSpecial ('0' :: z :: r) = none := by
  apply Duration.not_special_of
  intro c r h; cases h; left; decide

/-! ## Words -/

/-- `std::from_chars` after the minus sign. -/
theorem word_std {f : Fmt} (rnd : ℚ → Option (Mag f)) (neg : Bool) (w : Text) (v : Fl f) :
    (match scanSpecial w with
      | some (.inf, r) => some (.inf neg, r)
      | some (.nan, r) => some (.nan neg, nanTail r)
      | some (.finite _, _) => none
      | none =>
        match scanDecimal w with
        | none => none
        | some (q, rest) => (rnd q).map fun x => (Fl.fin neg x, rest)) = some (v, ([] : Text)) ↔ Word rnd neg w v := by
  constructor
  · intro h
    cases hsp : scanSpecial w with
    | some p =>
      obtain ⟨a, r⟩ := p
      rw [hsp] at h
      cases a with
      | finite q => cases h
      | inf =>
        cases h
        exact .inf w (special_whole_inf.1 hsp)
      | nan =>
        simp only [Option.some.injEq, Prod.mk.injEq] at h
        obtain ⟨rfl, h2⟩ := h
        obtain ⟨u, hu, rfl⟩ := special_nan.1 hsp
        rcases nanTail_whole.1 h2 with rfl | ⟨ds, hd, rfl⟩
        · rw [List.append_nil]; exact .nan u hu
        · exact .nanSeq u ds hu hd
    | none =>
      rw [hsp] at h
      dsimp only at h
      cases hd : scanDecimal w with
      | none => rw [hd] at h; cases h
      | some p =>
        obtain ⟨q, r⟩ := p
        rw [hd] at h
        dsimp only at h
        cases hr : rnd q with
        | none => rw [hr] at h; cases h
        | some x =>
          rw [hr] at h
          cases h
          obtain ⟨n, h1, h2, rfl, rfl⟩ := decimal_whole.1 hd
          exact .dec n x h1 h2 hr
  · intro h
    cases h with
    | dec n x h1 h2 h3 =>
      rw [decimal_not_special h1 h2, decimal_whole.2 ⟨n, h1, h2, rfl, rfl⟩]
      simp [h3]
    | inf _ h1 => rw [special_whole_inf.2 h1]
    | nan _ h1 =>
      rw [special_nan.2 ⟨w, h1, (List.append_nil w).symm⟩]
      rfl
    | nanSeq u ds h1 h2 =>
      rw [special_nan.2 ⟨u, h1, rfl⟩]
      simp only
      rw [nanTail_whole.2 (.inr ⟨ds, h2, rfl⟩)]

/-- `strtod` after the sign. -/
theorem word_c {f : Fmt} (conv : ℚ → Option (Mag f)) (neg : Bool) (w : Text) (v : Fl f) :
    (∃ a, strtodNumber w = some (a, []) ∧ strtodValue conv neg a = some v) ↔ Word conv neg w v ∨ HexWord conv neg w v := by
  constructor
  · rintro ⟨a, h, hv⟩
    unfold strtodNumber at h
    cases hsp : scanSpecial w with
    | some p =>
      obtain ⟨b, r⟩ := p
      rw [hsp] at h
      left
      cases b with
      | finite q => exact absurd hsp special_not_finite
      | inf =>
        cases h
        cases hv
        exact .inf w (special_whole_inf.1 hsp)
      | nan =>
        simp only [Option.some.injEq, Prod.mk.injEq] at h
        obtain ⟨rfl, h2⟩ := h
        cases hv
        obtain ⟨u, hu, rfl⟩ := special_nan.1 hsp
        rcases nanTail_whole.1 h2 with rfl | ⟨ds, hd, rfl⟩
        · rw [List.append_nil]; exact .nan u hu
        · exact .nanSeq u ds hu hd
    | none =>
      rw [hsp] at h
      dsimp only at h
      cases hp : scanPrefixed w with
      | some p =>
        obtain ⟨q, r⟩ := p
        rw [hp] at h
        cases h
        right
        unfold scanPrefixed at hp
        split at hp
        · rename_i z r
          split at hp
          · rename_i hz
            obtain ⟨l, h1, rfl, rfl⟩ := hex_whole.1 hp
            simp only [strtodValue] at hv
            cases hc : conv l.abs with
            | none => rw [hc] at hv; cases hv
            | some x => rw [hc] at hv; cases hv; exact .mk z l x hz h1 hc
          · cases hp
        · cases hp
      | none =>
        rw [hp] at h
        dsimp only at h
        cases hd : scanDecimal w with
        | none => rw [hd] at h; cases h
        | some p =>
          obtain ⟨q, r⟩ := p
          rw [hd] at h
          cases h
          left
          obtain ⟨n, h1, h2, rfl, rfl⟩ := decimal_whole.1 hd
          simp only [strtodValue] at hv
          cases hc : conv n.abs with
          | none => rw [hc] at hv; cases hv
          | some x => rw [hc] at hv; cases hv; exact .dec n x h1 h2 hc
  · rintro (h | h)
    · cases h with
      | dec n x h1 h2 h3 =>
        refine ⟨.finite n.abs, ?_, by simp [strtodValue, h3]⟩
        unfold strtodNumber
        rw [decimal_not_special h1 h2, decimal_not_hex h1, decimal_whole.2 ⟨n, h1, h2, rfl, rfl⟩]
        rfl
      | inf _ h1 =>
        refine ⟨.inf, ?_, rfl⟩
        unfold strtodNumber
        rw [special_whole_inf.2 h1]
      | nan _ h1 =>
        refine ⟨.nan, ?_, rfl⟩
        unfold strtodNumber
        rw [special_nan.2 ⟨w, h1, (List.append_nil w).symm⟩]
        rfl
      | nanSeq u ds h1 h2 =>
        refine ⟨.nan, ?_, rfl⟩
        unfold strtodNumber
        rw [special_nan.2 ⟨u, h1, rfl⟩]
        simp only
        rw [nanTail_whole.2 (.inr ⟨ds, h2, rfl⟩)]
    · cases h with
      | mk z l x hz h1 hc =>
        refine ⟨.finite l.abs, ?_, by simp [strtodValue, hc]⟩
        unfold strtodNumber
        rw [hex_not_special]
        simp only [scanPrefixed, if_pos hz, hex_whole.2 ⟨l, h1, rfl, rfl⟩]

/-! ## Fields -/

theorem word_head {f : Fmt} {cv : ℚ → Option (Mag f)} {neg : Bool} {w : Text} {v : Fl f} (h : Word cv neg w v ∨ HexWord cv neg w v) :
    Duration.StartsNumber w := by
  rcases h with h | h
  · cases h with
    | dec n x h1 h2 h3 => exact .inl ⟨n, [], h1, h2, (List.append_nil _).symm⟩
    | inf _ h1 =>
      rcases h1 with h1 | h1
      · exact .inr (.inl ⟨w, [], h1, (List.append_nil _).symm⟩)
      · refine .inr (.inl ⟨w.take 3, w.drop 3, ?_, (List.take_append_drop 3 w).symm⟩)
        rw [List.map_take, h1]; rfl
    | nan _ h1 => exact .inr (.inr ⟨w, [], h1, (List.append_nil _).symm⟩)
    | nanSeq u ds h1 h2 => exact .inr (.inr ⟨u, _, h1, rfl⟩)
  · cases h with
    | mk z l x hz h1 hc =>
      refine .inl ⟨{ ip := ['0'] }, z :: l.text, ⟨by decide, by simp [Decimal.frac], by simp, by intro c sg ds h; cases h⟩, rfl, rfl⟩

theorem minusSign_word {neg : Bool} {w : Text} (h : Duration.StartsNumber w) : minusSign (minusText neg ++ w) = (neg, w) := by
  cases neg with
  | true => rfl
  | false =>
    apply Duration.minusSign_other
    intro r e
    exact (Duration.starts_head h e).2.2 rfl

/-- C123. The fields that are numbers where `std::from_chars` is used. -/
theorem std_field_iff {f : Fmt} (rnd : ℚ → Option (Mag f)) (field : Text) (v : Fl f) :
    Csv.numberOf (fromChars rnd) field = some v ↔ StdField rnd field v := by
  have key : ∀ s : Text, fromChars rnd s = some (v, []) ↔ ∃ neg w, s = minusText neg ++ w ∧ Word rnd neg w v := by
    intro s
    have hsp := Duration.minusSign_split s
    constructor
    · intro h
      exact ⟨_, _, hsp, (word_std rnd _ _ v).1 h⟩
    · rintro ⟨neg, w, rfl, h⟩
      have := minusSign_word (neg := neg) (word_head (.inl h))
      unfold fromChars
      rw [this]
      exact (word_std rnd neg w v).2 h
  have hnum : Csv.numberOf (fromChars rnd) field = some v ↔ Csv.readSingle (fromChars rnd) field = some (v, []) := by
    unfold Csv.numberOf
    cases Csv.readSingle (fromChars rnd) field with
    | none => simp
    | some p =>
      obtain ⟨a, r⟩ := p
      cases r <;> simp
  rw [hnum]
  unfold StdField
  cases field with
  | nil =>
    show fromChars rnd [] = _ ↔ _
    rw [key]
    constructor
    · rintro ⟨neg, w, h1, h2⟩; exact ⟨[], neg, w, .inl rfl, h1, h2⟩
    · rintro ⟨plus, neg, w, rfl | rfl, h1, h2⟩
      · exact ⟨neg, w, h1, h2⟩
      · cases h1
  | cons c r =>
    by_cases hc : c = '+'
    · subst hc
      show fromChars rnd r = _ ↔ _
      rw [key]
      constructor
      · rintro ⟨neg, w, h1, h2⟩; exact ⟨['+'], neg, w, .inr rfl, by rw [h1]; rfl, h2⟩
      · rintro ⟨plus, neg, w, rfl | rfl, h1, h2⟩
        · exfalso
          cases neg with
          | true => cases h1
          | false => exact (Duration.starts_head (word_head (.inl h2)) (show w = '+' :: r from h1.symm)).2.1 rfl
        · exact ⟨neg, w, by simpa using h1, h2⟩
    · have hs : Csv.readSingle (fromChars rnd) (c :: r) = fromChars rnd (c :: r) := by
        unfold Csv.readSingle
        split
        · rename_i heq; cases heq; exact absurd rfl hc
        · rfl
      rw [hs, key]
      constructor
      · rintro ⟨neg, w, h1, h2⟩; exact ⟨[], neg, w, .inl rfl, h1, h2⟩
      · rintro ⟨plus, neg, w, rfl | rfl, h1, h2⟩
        · exact ⟨neg, w, h1, h2⟩
        · cases h1; exact absurd rfl hc

/-- C123. The fields that are numbers where `strtod` is used. -/
theorem c_field_iff {f : Fmt} (conv : ℚ → Option (Mag f)) (field : Text) (v : Fl f) :
    Csv.numberOfBy (strtodSingle conv) field = some v ↔ CField conv field v := by
  have hnum : Csv.numberOfBy (strtodSingle conv) field = some v ↔
      ∃ neg a, strtod field = some (neg, a, []) ∧ strtodValue conv neg a = some v := by
    unfold Csv.numberOfBy
    rw [strtodSingle_eq]
    cases strtod field with
    | none => simp
    | some p =>
      obtain ⟨neg, a, r⟩ := p
      simp only [Option.bind_some]
      cases hv : strtodValue conv neg a with
      | none =>
        simp only [Option.map_none, reduceCtorEq, false_iff]
        rintro ⟨neg', a', h1, h2⟩
        cases h1
        rw [hv] at h2; cases h2
      | some x =>
        cases r with
        | nil =>
          simp only [Option.map_some, Option.some.injEq]
          constructor
          · rintro rfl; exact ⟨neg, a, rfl, hv⟩
          · rintro ⟨neg', a', h1, h2⟩
            cases h1
            rw [hv] at h2
            exact Option.some.inj h2
        | cons c r => simp
  rw [hnum]
  constructor
  · rintro ⟨neg, a, h1, h2⟩
    unfold strtod at h1
    dsimp only at h1
    obtain ⟨sg, h3, h4⟩ := Duration.expSign_split (field.dropWhile isSpace)
    cases hn : strtodNumber (expSign (field.dropWhile isSpace)).2 with
    | none => rw [hn] at h1; cases h1
    | some p =>
      rw [hn] at h1
      simp only [Option.map_some, Option.some.injEq, Prod.mk.injEq] at h1
      obtain ⟨rfl, rfl⟩ := h1
      have hneg : decide (sg = ['-']) = (expSign (field.dropWhile isSpace)).1 := by
        rcases h4 with ⟨rfl, h⟩ | ⟨rfl, h⟩ | ⟨rfl, h⟩ <;> rw [h] <;> rfl
      refine ⟨field.takeWhile isSpace, sg, (expSign (field.dropWhile isSpace)).2, fun c hc => Duration.mem_takeWhile hc, ?_, ?_, ?_⟩
      · rcases h4 with ⟨rfl, _⟩ | ⟨rfl, _⟩ | ⟨rfl, _⟩ <;> simp
      · conv_lhs => rw [← List.takeWhile_append_dropWhile (p := isSpace) (l := field), h3]
      · rw [hneg]
        exact (word_c conv _ _ v).1 ⟨_, hn, h2⟩
  · rintro ⟨ws, sg, w, h1, h2, rfl, h3⟩
    have h4 := Duration.strtod_app h1 h2 (word_head h3)
    obtain ⟨a, h5, h6⟩ := (word_c conv _ _ v).2 h3
    rw [h5] at h4
    refine ⟨decide (sg = ['-']), a, ?_, h6⟩
    rw [← List.append_assoc, h4]
    rfl

end Guanaqo.Float
