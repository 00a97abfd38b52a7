import Verif.Duration.Stod

/-!
# `parse_duration` with the fallback `from_chars` (C122)

Where the fallback is used in `parse_duration`, and when the result is the one of `std::from_chars`.
-/

namespace Guanaqo.Duration

open FromChars (isSpace Errc)

/-! ## Specification -/

/-- The parser expects a number at the beginning of `b` while it reads the text `s`: after the plus signs,
zeros and blanks at the beginning of `s`, or in the text after the first number and its unit. -/
inductive Heads : Text → Text → Prop
  | here (lead b : Text) : Blank lead → b ≠ [] → (∀ c r, b = c :: r → c ∉ skipped) → Heads (lead ++ b) b
  | next (s : Text) (v : Val) (unit rest b : Text) : Piece s v unit rest → Heads rest b → Heads s b

/-- The text has no blanks except spaces, no letter `x`, and its decimal literals are zero or become normal
numbers of type `double`. -/
structure PlainText (s : Text) : Prop where
  blank : ∀ c ∈ s, c ≠ '\t' ∧ c ≠ '\n' ∧ c ≠ '\x0b' ∧ c ≠ '\x0c' ∧ c ≠ '\r'
  hex : ∀ c ∈ s, c ≠ 'x' ∧ c ≠ 'X'
  normal : ∀ (a : Text) (n : Decimal) (r : Text), s = a ++ n.text ++ r → n.Form → Munch n r → Normal n.abs

/-! ## Normal numbers -/

theorem normal_range {q : Rat} (h : Normal q) : DoubleRange q := by
  rcases h with rfl | ⟨h1, h2⟩
  · exact small_range (by norm_num) (.inl rfl)
  · refine ⟨h2, .inr (lt_of_lt_of_le ?_ h1)⟩
    exact one_div_lt_one_div_of_lt (pow_pos (by norm_num) _) (pow_lt_pow_right₀ (by norm_num) (by decide))

theorem normal_erange {L : StrtodLib} (hL : L.Ok) {q : Rat} (h : Normal q) : L.erange q = false := by
  rcases h with rfl | ⟨h1, h2⟩
  · exact hL.zero
  · exact hL.normal q h1 h2

/-! ## The parser depends on `from_chars` at the heads only -/

theorem parseSingleFc_congr {fc fc' : Text → FcRes} (d : DurTy) (t : Int) {s : Text}
    (h : s.dropWhile isTrim ≠ [] → fc (s.dropWhile isTrim) = fc' (s.dropWhile isTrim)) :
    parseSingleFc fc d t s = parseSingleFc fc' d t s := by
  unfold parseSingleFc
  cases hb : s.dropWhile isTrim with
  | nil => rfl
  | cons c body =>
    rw [hb] at h
    dsimp only
    rw [h (by simp)]

theorem singleX_ok {d : DurTy} {t t' : Int} {s rest : Text} (h : parseSingleX d t s = .ok (t', rest)) :
    rest = [] ∨ ∃ v unit, Piece s v unit rest := by
  have hs := parseSingleX_erase d t s
  rw [h] at hs
  change Except.ok (t', rest) = _ at hs
  rcases single_cases d t s with ⟨_, k2⟩ | ⟨v, unit, rest', u, n, k1, k2, k3, k4, k5⟩ | ⟨e', k1, _⟩
  · rw [k2] at hs; cases hs; exact .inl rfl
  · rw [k5] at hs; cases hs; exact .inr ⟨v, unit, k1⟩
  · rw [k1] at hs; cases hs

/-- C122. If the fallback agrees with `std::from_chars` wherever the parser expects a number, the duration
is parsed the same, up to the text quoted by an exception. -/
theorem fallback_parse (L : StrtodLib) (d : DurTy) (t : Int) (s : Text) (h : ∀ b, Heads s b → Portable L b) :
    parseFc (fromCharsStod L) d t s = parseX d t s := by
  have key : ∀ (fuel : Nat) (t : Int) (s : Text), (∀ b, Heads s b → Portable L b) →
      parseLoopFc (fromCharsStod L) d fuel t s = parseLoopX d fuel t s := by
    intro fuel
    induction fuel with
    | zero => intro t s _; cases s <;> rfl
    | succ fuel ih =>
      intro t s hs
      cases s with
      | nil => rfl
      | cons c s =>
        have h1 : parseSingleFc (fromCharsStod L) d t (c :: s) = parseSingleX d t (c :: s) := by
          rw [← parseSingleFc_std]
          refine parseSingleFc_congr d t fun hne => (fallback_agrees_iff L _).2 (hs _ ?_)
          obtain ⟨lead, e1, e2, e3⟩ := trim_exists (c :: s)
          have := Heads.here lead _ e2 hne e3
          rw [← e1] at this
          exact this
        rw [parseLoopFc, parseLoopX, h1]
        cases hp : parseSingleX d t (c :: s) with
        | error e => rfl
        | ok p =>
          obtain ⟨t', rest⟩ := p
          dsimp only
          refine ih t' rest fun b hb => ?_
          rcases singleX_ok hp with rfl | ⟨v, unit, hpc⟩
          · exfalso
            generalize hn : ([] : Text) = x at hb
            cases hb with
            | here lead _ _ hne _ =>
              exact hne (List.append_eq_nil_iff.1 hn.symm).2
            | next _ v unit rest _ hpc _ => exact piece_ne_nil hpc hn.symm
          · exact hs b (.next _ v unit rest b hpc hb)
  exact key s.length t s h

theorem reads_suffix {s : Text} {v : Val} {r : Text} (h : Reads s v r) : ∃ a, s = a ++ r := by
  cases h with
  | literal n _ _ _ => exact ⟨n.text, rfl⟩
  | infinity neg w' _ _ => exact ⟨_, rfl⟩
  | inf neg w' _ _ _ => exact ⟨_, rfl⟩
  | nan neg w' _ _ _ => exact ⟨_, rfl⟩
  | nanPayload neg w' p _ _ _ => exact ⟨minusText neg ++ w' ++ '(' :: (p ++ [')']), by simp⟩

theorem heads_suffix {s b : Text} (h : Heads s b) : (∃ a, s = a ++ b) ∧ b ≠ [] ∧ ∀ c r, b = c :: r → c ∉ skipped := by
  induction h with
  | here lead b _ h1 h2 => exact ⟨⟨lead, rfl⟩, h1, h2⟩
  | next s v unit rest b hp _ ih =>
    obtain ⟨⟨a, ha⟩, h2⟩ := ih
    obtain ⟨⟨lead, body, rfl, _, _, hr⟩, _, _⟩ := hp
    obtain ⟨a', ha'⟩ := reads_suffix hr
    exact ⟨⟨lead ++ (a' ++ (unit ++ a)), by rw [ha', ha]; simp⟩, h2⟩

/-- C122, what holds for every library: texts without blanks other than spaces, without the letter `x`, and
with numbers that are zero or normal, are parsed as with `std::from_chars`. -/
theorem fallback_parse_partial (L : StrtodLib) (hL : L.Ok) (d : DurTy) (t : Int) (s : Text) (hs : PlainText s) :
    parseFc (fromCharsStod L) d t s = parseX d t s := by
  refine fallback_parse L d t s fun b hb => ?_
  obtain ⟨⟨a, rfl⟩, hne, hsk⟩ := heads_suffix hb
  refine ⟨?_, ?_, ?_⟩
  · rintro ws sg body rfl hws hsg hor
    exfalso
    cases ws with
    | cons c l =>
      have h1 := hws c (by simp)
      obtain ⟨b1, b2, b3, b4, b5⟩ := hs.blank c (by simp)
      rw [isSpace_iff] at h1
      simp only [List.mem_cons, List.not_mem_nil, or_false] at h1
      rcases h1 with rfl | h1 | h1 | h1 | h1 | h1
      · exact hsk ' ' _ (by simp; rfl) (by decide)
      · exact b1 h1
      · exact b2 h1
      · exact b3 h1
      · exact b4 h1
      · exact b5 h1
    | nil =>
      rcases hor with h | h
      · exact h rfl
      · subst h
        exact hsk '+' body rfl (by decide)
  · rintro neg body rfl ⟨x, dg, r, hx, _, rfl | rfl⟩
    · have := hs.hex x (by simp)
      rcases hx with rfl | rfl
      · exact this.1 rfl
      · exact this.2 rfl
    · have := hs.hex x (by simp)
      rcases hx with rfl | rfl
      · exact this.1 rfl
      · exact this.2 rfl
  · rintro n r hn rfl hm
    have := hs.normal a n r (by simp) hn hm
    exact ⟨normal_range this, normal_erange hL this⟩

/-! ## Sequences of terms -/

/-- A literal that is not followed by an `x` is read the same. -/
theorem portable_literal {L : StrtodLib} {n : Decimal} (hn : n.Form) {r : Text} (hm : Munch n r)
    (hx : ∀ c r', r = c :: r' → c ≠ 'x' ∧ c ≠ 'X') (hd : DoubleRange n.abs) (he : L.erange n.abs = false) :
    Portable L (n.text ++ r) := by
  have hms := minusSign_text hn r
  have hhead : ∀ c r', n.text ++ r = c :: r' → isDigit c = true ∨ c = '.' ∨ c = '-' := by
    intro c r' e
    have hsp := minusSign_split (n.text ++ r)
    rw [hms] at hsp
    rw [e] at hsp
    cases hneg : n.neg with
    | true => rw [hneg] at hsp; cases hsp; exact .inr (.inr rfl)
    | false =>
      rw [hneg] at hsp
      rcases abs_text_head n hn r c r' hsp.symm with h | h
      · exact .inl h
      · exact .inr (.inl h)
  refine ⟨?_, ?_, ?_⟩
  · intro ws sg body e hws hsg hor
    exfalso
    cases ws with
    | cons c l =>
      have h1 := hws c (by simp)
      have h2 := hhead c _ e
      rw [isSpace_iff] at h1
      simp only [List.mem_cons, List.not_mem_nil, or_false] at h1
      rcases h1 with rfl | rfl | rfl | rfl | rfl | rfl <;> exact absurd h2 (by decide)
    | nil =>
      rcases hor with h | h
      · exact h rfl
      · subst h
        exact absurd (hhead '+' body e) (by decide)
  · intro neg body e hxs
    have hbody : ∃ x r', (x = 'x' ∨ x = 'X') ∧ body = '0' :: x :: r' := by
      obtain ⟨x, d, r, h1, _, rfl | rfl⟩ := hxs
      · exact ⟨x, _, h1, rfl⟩
      · exact ⟨x, _, h1, rfl⟩
    obtain ⟨x, r', hx1, rfl⟩ := hbody
    have hm2 : minusSign (minusText neg ++ '0' :: x :: r') = (neg, '0' :: x :: r') := by cases neg <;> rfl
    rw [e, hm2] at hms
    have hb : n.ip ++ fracText n.fp ++ expText n.exp ++ r = '0' :: x :: r' := (congrArg Prod.snd hms).symm
    have hxd : isDigit x = false := by rcases hx1 with rfl | rfl <;> decide
    cases hip : n.ip with
    | nil =>
      cases hfp : n.fp with
      | none => exact hn.some_digit (by simp [hip, Decimal.frac, hfp])
      | some ds =>
        rw [hip, hfp] at hb
        simp only [fracText, List.nil_append, List.cons_append, List.cons.injEq] at hb
        exact absurd hb.1 (by decide)
    | cons a ip =>
      rw [hip] at hb
      simp only [List.cons_append, List.cons.injEq] at hb
      cases ip with
      | cons b ip =>
        simp only [List.cons_append, List.cons.injEq] at hb
        have := hn.ip b (by simp [hip])
        rw [hb.2.1, hxd] at this
        cases this
      | nil =>
        cases hfp : n.fp with
        | some ds =>
          rw [hfp] at hb
          simp only [fracText, List.nil_append, List.cons_append, List.cons.injEq] at hb
          rcases hx1 with rfl | rfl <;> exact absurd hb.2.1 (by decide)
        | none =>
          rw [hfp] at hb
          cases hex : n.exp with
          | none =>
            rw [hex] at hb
            have := hx x r' hb.2
            rcases hx1 with rfl | rfl
            · exact this.1 rfl
            · exact this.2 rfl
          | some p =>
            obtain ⟨c, sg, ds⟩ := p
            rw [hex] at hb
            simp only [fracText, expText, List.nil_append, List.cons_append, List.cons.injEq] at hb
            have := (hn.exp c sg ds hex).1
            rw [hb.2.1] at this
            rcases hx1 with rfl | rfl <;> exact absurd this (by decide)
  · intro n₂ r₂ hn₂ e hm₂
    have h1 := scanDecimal_munch n hn hm
    have h2 := scanDecimal_munch n₂ hn₂ hm₂
    have h3 := minusSign_text hn₂ r₂
    rw [← e, hms] at h3
    have h4 : n.ip ++ fracText n.fp ++ expText n.exp ++ r = n₂.ip ++ fracText n₂.fp ++ expText n₂.exp ++ r₂ :=
      congrArg Prod.snd h3
    rw [← h4, h1] at h2
    have : n.abs = n₂.abs := by
      simp only [Option.some.injEq, Prod.mk.injEq] at h2
      exact h2.1
    rw [← this]
    exact ⟨hd, he⟩

theorem ends_munch {n : Decimal} {r : Text} (h : EndsNumber r) : Munch n r := by
  refine ⟨fun c r' e => (h c r' e).1, fun _ _ r' e => (h _ _ e).2.1 rfl, ?_⟩
  rintro _ c sg d r' hc _ e
  obtain ⟨_, _, h3, h4⟩ := h c _ e
  rcases hc with rfl | rfl
  · exact h3 rfl
  · exact h4 rfl

theorem unit_not_x {u : Text} {q : Rat} (h : UnitLen u q) : ∀ c ∈ u, c ≠ 'x' ∧ c ≠ 'X' := by
  cases h <;> decide

/-- Where the parser expects numbers in a sequence of terms: at the numbers of the terms (without leading
zeros). -/
theorem heads_terms {xs : List Term} {trail : Text} (hxs : ∀ x ∈ xs, x.Ok) (hnv : ∀ x ∈ xs, x.num.NonVoid)
    (hsep : Separated xs trail) (htrail : IsTrail trail) {b : Text} (h : Heads (termsText xs trail) b) :
    ∃ x ∈ xs, ∃ (n : Decimal) (r : Text), b = n.text ++ r ∧ n.Form ∧ n.abs = x.num.abs ∧ EndsNumber r ∧
      ∀ c r', r = c :: r' → c ≠ 'x' ∧ c ≠ 'X' := by
  induction xs with
  | nil =>
    exfalso
    simp only [termsText, List.flatMap_nil, List.nil_append] at h
    have hb : Blank trail := fun c hc => isTrim_iff.1 (htrail c hc)
    cases h with
    | here lead _ _ hne hsk =>
      obtain ⟨c, r, rfl⟩ := List.exists_cons_of_ne_nil hne
      exact hsk c r rfl (hb c (by simp))
    | next _ v unit rest _ hp _ =>
      obtain ⟨rem, h1, _⟩ := piece_iff.1 hp
      rw [blank_iff.1 hb] at h1
      cases h1
  | cons x xs ih =>
    have htext : termsText (x :: xs) trail = x.lead ++ x.num.text ++ (x.unit ++ termsText xs trail) := by
      simp [termsText, Term.text]
    rw [htext] at h
    have hx := hxs x (by simp)
    obtain ⟨u, hu⟩ := hx.unit
    obtain ⟨n', hv', hval, htrim⟩ := trim_number hx.num (hnv x (by simp)) (r := x.unit ++ termsText xs trail) hx.lead
    have hfollow : Follows x (termsText xs trail) := by
      intro c r h
      refine ⟨?_, fun hu => hsep.1 hu c r h⟩
      cases xs with
      | nil =>
        simp only [termsText, List.flatMap_nil, List.nil_append] at h
        exact trim_stop (htrail c (by rw [h]; simp))
      | cons y ys =>
        have : termsText (y :: ys) trail = y.text ++ termsText ys trail := by simp [termsText]
        rw [this] at h
        exact text_head (hxs y (by simp)) h
    have hends : EndsNumber (x.unit ++ termsText xs trail) := by
      intro c r' h
      cases hxu : x.unit with
      | nil =>
        rw [hxu, List.nil_append] at h
        obtain ⟨h1, h2⟩ := hfollow c r' h
        obtain ⟨h3, h4⟩ := h2 hxu
        exact ⟨h3, h4, stop_not_e h1⟩
      | cons a l =>
        rw [hxu] at h
        simp only [List.cons_append, List.cons.injEq] at h
        obtain ⟨_, h2, h3, h4, h5⟩ := unit_chars hu a (by simp [hxu])
        rw [← h.1]
        exact ⟨h2, h3, h4, h5⟩
    have hnx : ∀ c r', x.unit ++ termsText xs trail = c :: r' → c ≠ 'x' ∧ c ≠ 'X' := by
      intro c r' h
      cases hxu : x.unit with
      | nil =>
        rw [hxu, List.nil_append] at h
        have := (hfollow c r' h).1
        constructor <;> rintro rfl <;> exact absurd this (by decide)
      | cons a l =>
        rw [hxu] at h
        simp only [List.cons_append, List.cons.injEq] at h
        rw [← h.1]
        exact unit_not_x hu a (by simp [hxu])
    have habs : n'.abs = x.num.abs := by
      have h0 : ∀ m : Decimal, m.Form → |m.value| = m.abs := by
        intro m _
        have : 0 ≤ m.abs := by
          unfold Decimal.abs
          have : (0 : Rat) < (10 : Rat) ^ expVal m.exp := zpow_pos (by norm_num) _
          positivity
        unfold Decimal.value
        split
        · rw [abs_neg, abs_of_nonneg this]
        · rw [abs_of_nonneg this]
      rw [← h0 _ hv'.toForm, ← h0 _ hx.num.toForm, hval]
    generalize hs : x.lead ++ x.num.text ++ (x.unit ++ termsText xs trail) = s at h htrim
    cases h with
    | here lead _ hl hne hsk =>
      rw [trim_split hl hsk] at htrim
      exact ⟨x, by simp, n', _, htrim, hv'.toForm, habs, hends, hnx⟩
    | next _ v unit rest _ hp hh =>
      obtain ⟨rem, h1, h2, h3⟩ := piece_iff.1 hp
      rw [htrim, fromCharsDouble_app n' hv' hends] at h1
      simp only [Option.some.injEq, Prod.mk.injEq] at h1
      obtain ⟨htw, hdw⟩ := takeWhile_append_stop (p := fun c => !isStop c) (f := x.unit) (r := termsText xs trail)
        (fun c hc => by simp [(unit_chars hu c hc).1]) (fun c r' h => by simp [(hfollow c r' h).1])
      rw [← h1.2, hdw] at h3
      rw [← h3] at hh
      obtain ⟨y, hy, rest⟩ := ih (fun y hy => hxs y (by simp [hy])) (fun y hy => hnv y (by simp [hy])) hsep.2 hh
      exact ⟨y, by simp [hy], rest⟩

/-- C122 for the documented texts: sequences of number–unit pairs with numbers that are zero or normal are
accepted with the fallback too, and the duration grows by the sum. -/
theorem fallback_sum_of_terms (L : StrtodLib) (hL : L.Ok) (d : DurTy) (t : Int) (xs : List Term) (trail : Text)
    (hxs : ∀ x ∈ xs, x.Ok) (hnv : ∀ x ∈ xs, x.num.NonVoid) (hnorm : ∀ x ∈ xs, Normal x.num.abs)
    (hsep : Separated xs trail) (htrail : IsTrail trail) (ticks : List Int)
    (hticks : List.Forall₂ (Term.Ticks d) xs ticks) (hrange : InRange d t ticks) :
    parseFc (fromCharsStod L) d t (termsText xs trail) = some (t + ticks.sum, .ok ()) := by
  rw [fallback_parse L d t _ fun b hb => ?_]
  · have h1 := sum_of_terms d t xs trail hxs hnv hsep htrail ticks hticks hrange
    rw [← parseX_erase] at h1
    cases hp : parseX d t (termsText xs trail) with
    | none => rw [hp] at h1; cases h1
    | some p =>
      obtain ⟨t', r⟩ := p
      rw [hp] at h1
      simp only [Option.map_some, Option.some.injEq, Prod.mk.injEq] at h1
      cases r with
      | error e => cases h1.2
      | ok u => rw [h1.1]
  · obtain ⟨x, hx, n, r, rfl, hn, habs, hr, hnx⟩ := heads_terms hxs hnv hsep htrail hb
    have hno := hnorm x hx
    rw [← habs] at hno
    exact portable_literal hn (ends_munch hr) hnx (normal_range hno) (normal_erange hL hno)

/-! ## The fallback consumes what it reads -/

theorem nanTail_suffix (r : Text) : nanTail r <:+ r := by
  rcases nanTail_cases r with ⟨h, _⟩ | ⟨p, _, h⟩
  · rw [h]; exact List.suffix_refl _
  · refine ⟨'(' :: (p ++ [')']), Eq.trans ?_ h.symm⟩
    simp

theorem expSign_suffix (s : Text) : (expSign s).2 <:+ s := by
  obtain ⟨sg, h, _⟩ := expSign_split s
  exact ⟨sg, h.symm⟩

theorem expDigits_suffix {s : Text} {p : Int × Text} (h : scanExpDigits s = some p) : p.2 <:+ s := by
  unfold scanExpDigits at h
  dsimp only at h
  by_cases hd : List.isEmpty (scanDigits (expSign s).2).1 = true
  · rw [if_pos hd] at h; cases h
  · rw [if_neg hd] at h
    cases h
    exact (List.dropWhile_suffix _).trans (expSign_suffix s)

theorem binExp_suffix (s : Text) : (scanBinExp s).2 <:+ s := by
  unfold scanBinExp
  split
  · exact List.suffix_refl _
  · rename_i c r
    split
    · cases h : scanExpDigits r with
      | none => exact List.suffix_refl _
      | some p => exact (expDigits_suffix h).trans (List.suffix_cons _ _)
    · exact List.suffix_refl _

theorem hexFrac_suffix (s : Text) : (scanHexFrac s).2 <:+ s := by
  unfold scanHexFrac
  split
  · exact (List.dropWhile_suffix _).trans (List.suffix_cons _ _)
  · exact List.suffix_refl _

theorem scanHex_suffix {s : Text} {q : Rat} {r : Text} (h : scanHex s = some (q, r)) : r <:+ s := by
  unfold scanHex at h
  simp only at h
  split at h
  · cases h
  · simp only [Option.some.injEq, Prod.mk.injEq] at h
    rw [← h.2]
    exact (binExp_suffix _).trans ((hexFrac_suffix _).trans (List.dropWhile_suffix _))

/-- A number takes at least one character. -/
theorem strtodNumber_suffix {s : Text} {v : Val} {r : Text} (h : strtodNumber s = some (v, r)) :
    r <:+ s ∧ r.length < s.length := by
  have three : ∀ (w : Text) (k : Nat), (s.take k).map lower = w → 0 < w.length →
      s.drop k <:+ s ∧ (s.drop k).length < s.length := by
    intro w k hw hl
    refine ⟨List.drop_suffix _ _, ?_⟩
    have := congrArg List.length hw
    rw [List.length_map, List.length_take] at this
    rw [List.length_drop]
    omega
  have spec : ∀ p, scanSpecial s = some p → p.2 <:+ s ∧ p.2.length < s.length := by
    intro p hp
    unfold scanSpecial at hp
    split at hp
    · rename_i h8; cases hp; exact three _ 8 h8 (by decide)
    · split at hp
      · rename_i h8; cases hp; exact three _ 3 h8 (by decide)
      · split at hp
        · rename_i h8; cases hp; exact three _ 3 h8 (by decide)
        · cases hp
  unfold strtodNumber at h
  split at h
  · rename_i r' hp
    cases h
    have h1 := spec _ hp
    have h2 := nanTail_suffix r'
    exact ⟨h2.trans h1.1, Nat.lt_of_le_of_lt h2.length_le h1.2⟩
  · rename_i p _ hp
    cases h
    exact spec _ hp
  · split at h
    · rename_i q r' hp
      cases h
      unfold scanPrefixed at hp
      split at hp
      · rename_i x r₀
        split at hp
        · have := scanHex_suffix hp
          refine ⟨this.trans ((List.suffix_cons _ _).trans (List.suffix_cons _ _)), ?_⟩
          have := this.length_le
          simp only [List.length_cons]
          omega
        · cases hp
      · cases hp
    · cases hd : scanDecimal s with
      | none => rw [hd] at h; cases h
      | some p =>
        rw [hd] at h
        cases h
        obtain ⟨n, n1, n2, n3, n4, n5⟩ := scanDecimal_long (q := p.1) (r := p.2) hd
        refine ⟨⟨n.ip ++ fracText n.fp ++ expText n.exp, n2.symm⟩, ?_⟩
        have h1 := text_length_pos n4
        have h2 : n.text = n.ip ++ fracText n.fp ++ expText n.exp := by simp [Decimal.text, n1]
        rw [h2] at h1
        have := congrArg List.length n2
        rw [List.length_append] at this
        omega

/-- Where `from_chars` with `std::stod` leaves the pointer: after the number, at least one character on, or
at the beginning if it fails. -/
theorem stod_rest (L : StrtodLib) (s : Text) : (fromCharsStod L s).rest <:+ s ∧
    ((fromCharsStod L s).ec = .ok → (fromCharsStod L s).rest.length < s.length) ∧
    ((fromCharsStod L s).ec ≠ .ok → (fromCharsStod L s).rest = s) := by
  unfold fromCharsStod stod
  cases hs : strtod s with
  | none => exact ⟨List.suffix_refl _, by simp, by simp⟩
  | some p =>
    obtain ⟨neg, v, r⟩ := p
    have hr : r <:+ s ∧ r.length < s.length := by
      unfold strtod at hs
      dsimp only at hs
      cases hn : strtodNumber (expSign (s.dropWhile isSpace)).2 with
      | none => rw [hn] at hs; cases hs
      | some p =>
        rw [hn] at hs
        cases hs
        have h1 := strtodNumber_suffix hn
        have h2 := (expSign_suffix (s.dropWhile isSpace)).trans (List.dropWhile_suffix _)
        exact ⟨h1.1.trans h2, Nat.lt_of_lt_of_le h1.2 h2.length_le⟩
    cases v with
    | finite q =>
      dsimp only
      by_cases he : L.erange q = true
      · simp only [he, if_true]
        exact ⟨List.suffix_refl _, by simp, by simp⟩
      · simp only [he]
        exact ⟨hr.1, fun _ => hr.2, by simp⟩
    | inf => exact ⟨hr.1, fun _ => hr.2, by simp⟩
    | nan => exact ⟨hr.1, fun _ => hr.2, by simp⟩

theorem stod_value (L : StrtodLib) (s : Text) : (fromCharsStod L s).ec = .ok ↔ (fromCharsStod L s).value ≠ none := by
  unfold fromCharsStod
  cases stod L s <;> simp

theorem singleFc_ok {L : StrtodLib} {d : DurTy} {t t' : Int} {c : Char} {s rest : Text}
    (h : parseSingleFc (fromCharsStod L) d t (c :: s) = .ok (t', rest)) :
    rest <:+ c :: s ∧ rest.length < (c :: s).length := by
  have hdl : ((c :: s).dropWhile isTrim) <:+ (c :: s) := List.dropWhile_suffix _
  unfold parseSingleFc at h
  split at h
  · cases h; exact ⟨List.nil_suffix, by simp⟩
  · generalize (c :: s).dropWhile isTrim = b at h hdl
    obtain ⟨r1, r2, _⟩ := stod_rest L b
    generalize fromCharsStod L b = res at h r1 r2
    split at h
    · cases h
    · cases h
    · cases h
    · rename_i value hec _
      have hlt := r2 hec
      dsimp only at h
      split at h
      · cases h
      · split at h
        · cases h
          have hd := List.dropWhile_suffix (fun c => !isStop c) (l := res.rest)
          refine ⟨hd.trans (r1.trans hdl), ?_⟩
          have := hd.length_le
          have := hdl.length_le
          omega
        · cases h

/-- C122: the parser terminates with the fallback too. -/
theorem fallback_terminates (L : StrtodLib) (d : DurTy) (t : Int) (s : Text) :
    ∃ t' r, parseFc (fromCharsStod L) d t s = some (t', r) := by
  have key : ∀ (fuel : Nat) (t : Int) (s : Text), s.length ≤ fuel →
      ∃ t' r, parseLoopFc (fromCharsStod L) d fuel t s = some (t', r) := by
    intro fuel
    induction fuel with
    | zero =>
      intro t s hs
      cases s with
      | nil => exact ⟨_, _, rfl⟩
      | cons c s => simp at hs
    | succ fuel ih =>
      intro t s hs
      cases s with
      | nil => exact ⟨_, _, rfl⟩
      | cons c s =>
        rw [parseLoopFc]
        cases hp : parseSingleFc (fromCharsStod L) d t (c :: s) with
        | error e => exact ⟨_, _, rfl⟩
        | ok p =>
          obtain ⟨t', rest⟩ := p
          have := (singleFc_ok hp).2
          exact ih t' rest (by omega)
  exact key s.length t s (Nat.le_refl _)

theorem singleFc_value {L : StrtodLib} {d : DurTy} {t : Int} {s : Text} {b : Bool} {quoted : Text}
    (h : parseSingleFc (fromCharsStod L) d t s = .error (.value b quoted)) :
    quoted = s.dropWhile isTrim ∧ quoted ≠ [] ∧
      (fromCharsStod L quoted).ec = (if b then .outOfRange else .invalidArgument) := by
  unfold parseSingleFc at h
  split at h
  · cases h
  · rename_i hne
    generalize hb : s.dropWhile isTrim = body at h
    obtain ⟨_, _, r3⟩ := stod_rest L body
    have hbn : body ≠ [] := fun e => hne (hb.trans e)
    split at h
    · rename_i hec
      cases h
      have hr := r3 (by rw [hec]; simp)
      rw [hr]
      exact ⟨rfl, hbn, by rw [hec]; rfl⟩
    · rename_i hec
      cases h
      have hr := r3 (by rw [hec]; simp)
      rw [hr]
      exact ⟨rfl, hbn, by rw [hec]; rfl⟩
    · cases h
    · dsimp only at h
      split at h
      · cases h
      · split at h <;> cases h

theorem dropWhile_again (s : Text) : (s.dropWhile isTrim).dropWhile isTrim = s.dropWhile isTrim := by
  cases h : s.dropWhile isTrim with
  | nil => rfl
  | cons c r =>
    have := dropWhile_head h
    simp [this]

/-- C122. With the fallback, `invalid_duration_value` always quotes the rest of the input from the place
where no number can be read (unlike with `std::from_chars`, C113): the text quoted is rejected in the same
way. -/
theorem fallback_quotes_offender (L : StrtodLib) (d : DurTy) (t : Int) (s : Text) (t' : Int) (b : Bool) (quoted : Text)
    (h : parseFc (fromCharsStod L) d t s = some (t', .error (.value b quoted))) :
    (∃ front, s = front ++ quoted) ∧
      ∀ t₀, parseFc (fromCharsStod L) d t₀ quoted = some (t₀, .error (.value b quoted)) := by
  have key : ∀ (fuel : Nat) (t : Int) (s : Text),
      parseLoopFc (fromCharsStod L) d fuel t s = some (t', .error (.value b quoted)) →
      quoted <:+ s ∧ quoted.dropWhile isTrim = quoted ∧ quoted ≠ [] ∧
        (fromCharsStod L quoted).ec = (if b then .outOfRange else .invalidArgument) := by
    intro fuel
    induction fuel with
    | zero => intro t s h; cases s <;> cases h
    | succ fuel ih =>
      intro t s h
      cases s with
      | nil => cases h
      | cons c s =>
        rw [parseLoopFc] at h
        cases hp : parseSingleFc (fromCharsStod L) d t (c :: s) with
        | error e =>
          rw [hp] at h
          cases h
          obtain ⟨h1, h2, h3⟩ := singleFc_value hp
          refine ⟨?_, ?_, h2, h3⟩
          · rw [h1]; exact List.dropWhile_suffix _
          · rw [h1]; exact dropWhile_again _
        | ok p =>
          obtain ⟨t₁, s₁⟩ := p
          rw [hp] at h
          obtain ⟨h1, h2⟩ := ih _ _ h
          exact ⟨h1.trans (singleFc_ok hp).1, h2⟩
  obtain ⟨⟨front, hf⟩, htrim, hne, hec⟩ := key _ _ _ h
  refine ⟨⟨front, hf.symm⟩, fun t₀ => ?_⟩
  obtain ⟨_, _, r3⟩ := stod_rest L quoted
  have hrest := r3 (by rw [hec]; cases b <;> simp)
  have hsingle : parseSingleFc (fromCharsStod L) d t₀ quoted = .error (.value b quoted) := by
    unfold parseSingleFc
    rw [htrim]
    split
    · exact absurd rfl hne
    · rw [hec, hrest]
      cases b <;> rfl
  obtain ⟨c, r, rfl⟩ := List.exists_cons_of_ne_nil hne
  show parseLoopFc (fromCharsStod L) d (r.length + 1) t₀ (c :: r) = _
  rw [parseLoopFc, hsingle]

/-! ## C122 is false in full -/

theorem stod_tab (L : StrtodLib) (hL : L.Ok) (r : Text) (hr : EndsNumber r) :
    fromCharsStod L ('\t' :: '1' :: r) = ⟨some (.finite 1), r, .ok⟩ := by
  have hst : StartsNumber ('1' :: r) := .inl ⟨oneLit, r, oneLit_valid.toForm, rfl, rfl⟩
  have h1 := strtod_app (ws := ['\t']) (sg := []) (body := '1' :: r) (by decide) (.inl rfl) hst
  have hone : oneLit.abs = 1 := by
    simp [Decimal.abs, Decimal.frac, oneLit, digitsVal, expVal]
  have h2 := scanDecimal_munch oneLit oneLit_valid.toForm (r := r) (ends_munch hr)
  rw [hone] at h2
  have h3 : strtodNumber ('1' :: r) = some (.finite 1, r) := by
    unfold strtodNumber
    have hsp : scanSpecial ('1' :: r) = none := not_special_of (fun c r' h => by cases h; left; decide)
    have hpx : scanPrefixed ('1' :: r) = none := by
      unfold scanPrefixed
      split
      · rename_i h; cases h
      · rfl
    simp only [hsp, hpx]
    rw [show scanDecimal ('1' :: r) = some (1, r) from h2]
    rfl
  rw [h3] at h1
  unfold fromCharsStod stod
  rw [show ('\t' :: '1' :: r : Text) = ['\t'] ++ [] ++ '1' :: r from rfl, h1]
  simp only [Option.map_some]
  rw [normal_erange hL (q := 1) (.inr ⟨by rw [div_le_one (by positivity)]; exact one_le_pow₀ (by norm_num), ?_⟩)]
  · rfl
  · exact lt_of_lt_of_le (one_lt_pow₀ (by norm_num) (by decide)) double_max

/-- A number after a tab is read with the fallback only: with it, the unit is wrong, and without it, the
value. -/
theorem tab_differs (L : StrtodLib) (hL : L.Ok) (d : DurTy) (t : Int) :
    parseFc (fromCharsStod L) d t "\t1parsec".toList = some (t, .error (.units "parsec".toList)) ∧
    parseX d t "\t1parsec".toList = some (t, .error (.value false "\t1parsec".toList)) := by
  constructor
  · have hf := stod_tab L hL "parsec".toList (by intro c r h; cases h; decide)
    have hs : parseSingleFc (fromCharsStod L) d t ('\t' :: '1' :: "parsec".toList) = .error (.units "parsec".toList) := by
      unfold parseSingleFc
      rw [show ('\t' :: '1' :: "parsec".toList : Text).dropWhile isTrim = '\t' :: '1' :: "parsec".toList from rfl]
      dsimp only
      rw [hf]
      rfl
    show parseLoopFc _ d (7 + 1) t ('\t' :: '1' :: "parsec".toList) = _
    rw [parseLoopFc, hs]
  · rfl

/-- C122 is false: the fallback skips blanks that `std::from_chars` rejects. -/
theorem not_sameWithFallback (conv : Rat → Rat → Rounded) (L : StrtodLib) (hL : L.Ok) : ¬ SameWithFallback conv := by
  intro h
  have := h L hL 64 1000 0 "\t1parsec".toList
  obtain ⟨h1, h2⟩ := tab_differs L hL ⟨64, 1000, conv⟩ 0
  rw [h1, h2] at this
  cases this

/-- A library as the C standard asks for (without `ERANGE` for underflows). -/
def overflowOnly : StrtodLib := ⟨fun q => decide (2 ^ 1024 - 2 ^ 970 ≤ q)⟩

theorem overflowOnly_ok : overflowOnly.Ok where
  big := fun q h => by simp only [overflowOnly, decide_eq_true_eq]; exact h
  zero := by
    simp only [overflowOnly, decide_eq_false_iff_not, not_le]
    exact lt_of_lt_of_le (by positivity) double_max
  normal := fun q _ h => by simp only [overflowOnly, decide_eq_false_iff_not, not_le]; exact h

/-- With the fallback, the message for a number that is too large quotes the number (cf. `huge_quoted`). -/
theorem fallback_huge_quoted (L : StrtodLib) (hL : L.Ok) (d : DurTy) (t : Int) :
    parseFc (fromCharsStod L) d t "1e999".toList = some (t, .error (.value true "1e999".toList)) := by
  have hm : Munch hugeLit [] := ⟨by simp, by simp, by simp⟩
  have hf := stod_literal L hugeLit_form (r := []) hm (by
    intro neg body h hx
    have : body = "1e999".toList := by
      cases neg with
      | true => cases h
      | false => exact h.symm
    obtain ⟨x, dg, r, _, _, h | h⟩ := hx <;> rw [this] at h <;> cases h)
  rw [if_pos (hL.big _ (le_trans (sub_le_self _ (by positivity)) hugeLit_abs))] at hf
  have hf' : fromCharsStod L "1e999".toList = ⟨none, "1e999".toList, .outOfRange⟩ := hf
  have hs : parseSingleFc (fromCharsStod L) d t "1e999".toList = .error (.value true "1e999".toList) := by
    unfold parseSingleFc
    rw [show ("1e999".toList).dropWhile isTrim = "1e999".toList from rfl]
    split
    · rename_i h; exact absurd h (by decide)
    · rw [hf']
  show parseLoopFc _ d (4 + 1) t ('1' :: "e999".toList) = _
  rw [parseLoopFc, show ('1' :: "e999".toList : Text) = "1e999".toList from rfl, hs]

/-- A hexadecimal number: sixteen, with its sign, for the fallback. -/
theorem strtod_hex : (strtod "-0x10s".toList).map (fun p => (p.1, p.2.2)) = some (true, "s".toList) ∧
    scanPrefixed "0x10s".toList = some (16, "s".toList) := by
  have h : scanPrefixed "0x10s".toList = some (16, "s".toList) := by
    show scanHex "10s".toList = _
    show some (((16 : Nat) : Rat) / 16 ^ 0 * (2 : Rat) ^ (0 : Int), "s".toList) = _
    norm_num
  refine ⟨?_, h⟩
  show Option.map _ (Option.map _ (strtodNumber "0x10s".toList)) = _
  unfold strtodNumber
  simp only [show scanSpecial "0x10s".toList = none from rfl, h]
  rfl

/-- Not vacuous: the two terms of `1min 30s` are summed with the fallback too. -/
example (t : Int) (h : InRange (milliseconds exactConv) t [60000, 30000]) :
    parseFc (fromCharsStod overflowOnly) (milliseconds exactConv) t "1min 30s".toList = some (t + 90000, .ok ()) := by
  have h30 : (⟨false, ['3', '0'], none, none⟩ : Decimal).abs = 30 := by
    unfold Decimal.abs
    rw [show digitsVal (_ ++ Decimal.frac ⟨false, ['3', '0'], none, none⟩) = 30 from rfl]
    norm_num [Decimal.frac, expVal]
  have h1 : oneLit.abs = 1 := by simp [Decimal.abs, Decimal.frac, oneLit, digitsVal, expVal]
  have hv : (⟨false, ['3', '0'], none, none⟩ : Decimal).Valid := ⟨⟨by decide, by decide, by decide,
    by intro c sg ds h; cases h⟩, by rw [h30]; exact small_range (by norm_num) (.inr (by norm_num))⟩
  have hno : ∀ q : Rat, 1 ≤ q → q ≤ 2 ^ 10 → Normal q := fun q h1 h2 =>
    .inr ⟨le_trans (by rw [div_le_one (by positivity)]; exact one_le_pow₀ (by norm_num)) h1,
      lt_of_le_of_lt h2 (lt_of_lt_of_le (pow_lt_pow_right₀ (by norm_num) (by decide)) double_max)⟩
  have := fallback_sum_of_terms overflowOnly overflowOnly_ok (milliseconds exactConv) t
    [⟨[], oneLit, "min".toList⟩, ⟨" ".toList, ⟨false, ['3', '0'], none, none⟩, "s".toList⟩] []
    (by
      intro x hx
      simp only [List.mem_cons, List.not_mem_nil, or_false] at hx
      rcases hx with rfl | rfl
      · exact ⟨(by intro c hc; cases hc), oneLit_valid, 60, .min⟩
      · exact ⟨(by intro c hc; right; simpa using hc), hv, 1, .s⟩)
    (by
      intro x hx
      simp only [List.mem_cons, List.not_mem_nil, or_false] at hx
      rcases hx with rfl | rfl
      · right; decide
      · right; decide)
    (by
      intro x hx
      simp only [List.mem_cons, List.not_mem_nil, or_false] at hx
      rcases hx with rfl | rfl
      · exact hno _ (by rw [h1]) (by rw [h1]; norm_num)
      · exact hno _ (by rw [h30]; norm_num) (by rw [h30]; norm_num))
    ⟨(by intro h; cases h), (by intro h; cases h), trivial⟩ (by intro c hc; cases hc) [60000, 30000]
    (.cons ⟨60, .min, by
      show _ = (chronoRound (oneLit.value * (60 * 1000))).ticks
      rw [show oneLit.value = 1 from h1]; decide +kernel⟩ (.cons ⟨1, .s, by
      show _ = (chronoRound (Decimal.value ⟨false, ['3', '0'], none, none⟩ * (1 * 1000))).ticks
      rw [show Decimal.value ⟨false, ['3', '0'], none, none⟩ = 30 from h30]; decide +kernel⟩ .nil)) h
  exact this

end Guanaqo.Duration
