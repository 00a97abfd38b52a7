import Verif.Duration.Scan

/-!
# C47–C50, C79, C80: parsing durations
-/

namespace Guanaqo.Duration

/-! ## Rounding and units -/

theorem chronoRound_nearest (q : Rat) : IsNearest q (chronoRound q).ticks := by
  have h1 : (q.floor : Rat) ≤ q := Rat.floor_le q
  have h2 : q < (q.floor : Rat) + 1 := by
    have := (Rat.floor_lt_iff (a := q) (x := q.floor + 1)).1 (by omega)
    push_cast at this
    exact this
  unfold IsNearest chronoRound Rounded.ticks
  simp only
  generalize q.floor = f at h1 h2
  split
  · rename_i heq
    push_cast at heq
    have hq : q - f = 1 / 2 := by linarith
    dsimp only
    by_cases hodd : f % 2 = 1
    · rw [decide_eq_true hodd, if_pos rfl]
      push_cast
      constructor
      · rw [abs_le]; constructor <;> linarith
      · intro _; omega
    · rw [decide_eq_false hodd, if_neg (by simp)]
      constructor
      · rw [abs_le]; constructor <;> linarith
      · intro _; omega
  · rename_i hne
    dsimp only
    push_cast at hne ⊢
    by_cases hlt : q - f < (f : Rat) + 1 - q
    · rw [decide_eq_false (not_not.2 hlt), if_neg (by simp)]
      have : q - f < 1 / 2 := by linarith
      constructor
      · rw [abs_le]; constructor <;> linarith
      · intro habs
        rw [abs_of_nonneg (by linarith)] at habs
        linarith
    · rw [decide_eq_true hlt, if_pos rfl]
      have h5 : 1 / 2 < q - f := by
        rcases lt_trichotomy (q - f) ((f : Rat) + 1 - q) with h | h | h
        · exact absurd h hlt
        · exact absurd h hne
        · linarith
      constructor
      · rw [abs_le]; constructor <;> linarith
      · intro habs
        rw [abs_of_nonpos (by linarith)] at habs
        linarith

/-- There is exactly one nearest number of ticks. -/
theorem nearest_unique {q : Rat} {n m : Int} (hn : IsNearest q n) (hm : IsNearest q m) : n = m := by
  have hn1 := abs_le.1 hn.1
  have hm1 := abs_le.1 hm.1
  have d1 : (n : Rat) - m ≤ 1 := by linarith [hn1.1, hm1.2]
  have d2 : (m : Rat) - n ≤ 1 := by linarith [hn1.2, hm1.1]
  have e1 : n - m ≤ 1 := by exact_mod_cast d1
  have e2 : m - n ≤ 1 := by exact_mod_cast d2
  by_contra hne
  have : n = m + 1 ∨ m = n + 1 := by omega
  rcases this with h | h
  · have hr : (n : Rat) = m + 1 := by exact_mod_cast h
    have a1 : q - m = 1 / 2 := by linarith [hn1.1, hm1.2]
    have a2 : q - n = -(1 / 2) := by linarith
    have p1 := hm.2 (by rw [a1]; norm_num [abs_of_nonneg])
    have p2 := hn.2 (by rw [a2, abs_neg]; norm_num [abs_of_nonneg])
    omega
  · have hr : (m : Rat) = n + 1 := by exact_mod_cast h
    have a1 : q - n = 1 / 2 := by linarith [hm1.1, hn1.2]
    have a2 : q - m = -(1 / 2) := by linarith
    have p1 := hn.2 (by rw [a1]; norm_num [abs_of_nonneg])
    have p2 := hm.2 (by rw [a2, abs_neg]; norm_num [abs_of_nonneg])
    omega

theorem unitSeconds_of {u : Text} {q : Rat} (h : UnitLen u q) : unitSeconds u = some q := by
  cases h <;> rfl

theorem unitLen_of {u : Text} {q : Rat} (h : unitSeconds u = some q) : UnitLen u q := by
  unfold unitSeconds at h
  split at h
  · rename_i hu; cases h; rcases hu with rfl | rfl
    · exact .s
    · exact .none
  split at h
  · rename_i hu; cases h; subst hu; exact .ms
  split at h
  · rename_i hu; cases h; rcases hu with rfl | rfl
    · exact .us
    · exact .mus
  split at h
  · rename_i hu; cases h; subst hu; exact .ns
  split at h
  · rename_i hu; cases h; subst hu; exact .min
  split at h
  · rename_i hu; cases h; subst hu; exact .hour
  · cases h

/-- Units contain no character that ends a unit or continues a number. -/
theorem unit_chars {u : Text} {q : Rat} (h : UnitLen u q) :
    ∀ c ∈ u, isStop c = false ∧ isDigit c = false ∧ c ≠ '.' ∧ c ≠ 'e' ∧ c ≠ 'E' := by
  cases h <;> decide

theorem cast_finite {d : DurTy} {q u : Rat} {n : Int} (h : n = (d.conv q (u * d.perSec)).ticks)
    (hf : d.fits (n - 1)) (hf' : d.fits (n + 1)) : cast d (.finite q) u = .ok n := by
  have hcase : (d.conv q (u * d.perSec)).1 = n ∨ (d.conv q (u * d.perSec)).1 = n - 1 := by
    unfold Rounded.ticks at h
    split at h
    · right; omega
    · left; omega
  simp only [cast, ← h]
  rw [if_pos]
  unfold DurTy.fits at *
  rcases hcase with e | e <;> rw [e] <;> omega

theorem double_max : (2 : Rat) ^ 1023 ≤ 2 ^ 1024 - 2 ^ 970 := by
  have h1 : (2 : Rat) ^ 1024 = 2 ^ 1023 * 2 := pow_succ _ _
  have h2 : (2 : Rat) ^ 970 ≤ 2 ^ 1023 := pow_le_pow_right₀ (by norm_num) (by omega)
  generalize (2 : Rat) ^ 1023 = a at *
  generalize (2 : Rat) ^ 970 = b at *
  generalize (2 : Rat) ^ 1024 = c at *
  linarith

theorem double_min : (1 : Rat) / 2 ^ 1075 ≤ 1 / 2 ^ 10 :=
  one_div_le_one_div_of_le (by norm_num) (pow_le_pow_right₀ (by norm_num) (by omega))

theorem small_range {q : Rat} (h : q < 2 ^ 60) (h' : q = 0 ∨ 1 / 1024 < q) : DoubleRange q := by
  refine ⟨h.trans_le (le_trans (pow_le_pow_right₀ (by norm_num) (by omega)) double_max), h'.imp id fun h' => ?_⟩
  exact double_min.trans_lt (by norm_num at h' ⊢; exact h')

/-! ## One term -/

/-- Plus signs and blanks. -/
def IsLead (l : Text) : Prop := ∀ c ∈ l, c = '+' ∨ c = ' '

/-- The number does not vanish when its leading zeros are removed. -/
def Decimal.NonVoid (n : Decimal) : Prop :=
  n.neg = true ∨ n.ip.dropWhile (· == '0') ++ n.frac ≠ []

/-- The literal without the leading zeros. -/
def Decimal.strip (n : Decimal) : Decimal := { n with ip := n.ip.dropWhile (· == '0') }

theorem digitsVal_strip (l r : Text) : digitsVal (l.dropWhile (· == '0') ++ r) = digitsVal (l ++ r) := by
  induction l with
  | nil => rfl
  | cons a l ih =>
    rw [List.dropWhile_cons]
    split
    · rename_i h
      have : a = '0' := by simpa using h
      rw [ih, this]
      rfl
    · rfl

theorem strip_abs (n : Decimal) : n.strip.abs = n.abs := by
  unfold Decimal.abs
  have h1 : n.strip.frac = n.frac := rfl
  have h2 : digitsVal (n.strip.ip ++ n.frac) = digitsVal (n.ip ++ n.frac) := digitsVal_strip _ _
  rw [h1, h2]
  rfl

theorem strip_valid {n : Decimal} (hv : n.Valid) (h : n.ip.dropWhile (· == '0') ++ n.frac ≠ []) :
    n.strip.Valid :=
  ⟨⟨fun c hc => hv.ip c ((List.dropWhile_sublist _).subset hc), hv.fp, h, hv.exp⟩,
    by rw [strip_abs]; exact hv.range⟩

theorem dropWhile_lead {l r : Text} (hl : ∀ c ∈ l, isTrim c = true) :
    (l ++ r).dropWhile isTrim = r.dropWhile isTrim := by
  induction l with
  | nil => rfl
  | cons a l ih =>
    rw [List.cons_append, List.dropWhile_cons, hl a (by simp), if_pos rfl,
      ih (fun c hc => hl c (by simp [hc]))]

theorem lead_trim {l : Text} (h : IsLead l) : ∀ c ∈ l, isTrim c = true := by
  intro c hc
  rcases h c hc with rfl | rfl <;> decide

theorem digit_trim {c : Char} (h : isDigit c = true) : isTrim c = (c == '0') := by
  have h1 : c ≠ '+' := by rintro rfl; revert h; decide
  have h2 : c ≠ ' ' := by rintro rfl; revert h; decide
  have h1' : (c == '+') = false := by simpa using h1
  have h2' : (c == ' ') = false := by simpa using h2
  rw [isTrim, h1', h2']
  simp

theorem dropWhile_digits {l r : Text} (hl : ∀ c ∈ l, isDigit c = true)
    (hr : l.dropWhile (· == '0') = [] → ∀ c r', r = c :: r' → isTrim c = false) :
    (l ++ r).dropWhile isTrim = l.dropWhile (· == '0') ++ r := by
  induction l with
  | nil =>
    cases r with
    | nil => rfl
    | cons c r =>
      have := hr rfl c r rfl
      simp [this]
  | cons a l ih =>
    have ha := digit_trim (hl a (by simp))
    rw [List.cons_append, List.dropWhile_cons, List.dropWhile_cons, ha]
    split
    · rename_i h0
      apply ih (fun c hc => hl c (by simp [hc]))
      intro hz
      apply hr
      rw [List.dropWhile_cons, if_pos h0, hz]
    · rfl

/-- The number the parser sees after skipping signs, blanks and zeros. -/
theorem trim_number {n : Decimal} (hv : n.Valid) (hn : n.NonVoid) {lead r : Text}
    (hl : IsLead lead) :
    ∃ n' : Decimal, n'.Valid ∧ n'.value = n.value ∧
      (lead ++ n.text ++ r).dropWhile isTrim = n'.text ++ r := by
  rw [List.append_assoc, dropWhile_lead (lead_trim hl)]
  cases hneg : n.neg with
  | true =>
    refine ⟨n, hv, rfl, ?_⟩
    simp only [Decimal.text, hneg, if_true, List.cons_append, List.nil_append, List.dropWhile_cons]
    rfl
  | false =>
    have hnv : n.ip.dropWhile (· == '0') ++ n.frac ≠ [] := by
      rcases hn with h | h
      · rw [hneg] at h; cases h
      · exact h
    refine ⟨n.strip, strip_valid hv hnv, ?_, ?_⟩
    · unfold Decimal.value
      rw [strip_abs]
      rfl
    · have e1 : n.text ++ r = n.ip ++ (fracText n.fp ++ expText n.exp ++ r) := by
        simp [Decimal.text, hneg]
      have e2 : n.strip.text ++ r =
          n.ip.dropWhile (· == '0') ++ (fracText n.fp ++ expText n.exp ++ r) := by
        simp [Decimal.text, Decimal.strip, hneg]
      rw [e1, e2]
      apply dropWhile_digits hv.ip
      intro hz c r' h
      rw [hz, List.nil_append] at hnv
      cases hf : n.fp with
      | none => simp [Decimal.frac, hf] at hnv
      | some ds =>
        rw [hf] at h
        simp only [fracText, List.cons_append, List.cons.injEq] at h
        rw [← h.1]
        decide

/-- A term the parser supports. -/
structure Term.Ok (x : Term) : Prop where
  lead : IsLead x.lead
  num : x.num.Valid
  unit : ∃ u, UnitLen x.unit u

/-- What may follow a term: the end of the text or a character that ends a unit; after a number
without unit, nothing that would continue the number. -/
def Follows (x : Term) (rest : Text) : Prop :=
  ∀ c r, rest = c :: r → isStop c = true ∧ (x.unit = [] → isDigit c = false ∧ c ≠ '.')

theorem stop_not_e {c : Char} (h : isStop c = true) : c ≠ 'e' ∧ c ≠ 'E' := by
  constructor <;> rintro rfl <;> exact absurd h (by decide)

theorem parseSingle_term {d : DurTy} {t : Int} {x : Term} (hx : x.Ok) (hn : x.num.NonVoid)
    {rest : Text} (hr : Follows x rest) {n : Int} (hticks : x.Ticks d n) (hf : d.fits (n - 1))
    (hf' : d.fits (n + 1)) (hsum : d.fits (t + n)) :
    parseSingle d t (x.text ++ rest) = .ok (t + n, rest) := by
  obtain ⟨u, hu, hnear⟩ := hticks
  obtain ⟨n', hv', hval, htrim⟩ := trim_number hx.num hn (r := x.unit ++ rest) hx.lead
  have htext : x.text ++ rest = x.lead ++ x.num.text ++ (x.unit ++ rest) := by simp [Term.text]
  have hends : EndsNumber (x.unit ++ rest) := by
    intro c r' h
    cases hxu : x.unit with
    | nil =>
      rw [hxu, List.nil_append] at h
      obtain ⟨h1, h2⟩ := hr c r' h
      obtain ⟨h3, h4⟩ := h2 hxu
      exact ⟨h3, h4, stop_not_e h1⟩
    | cons a l =>
      rw [hxu] at h
      simp only [List.cons_append, List.cons.injEq] at h
      obtain ⟨_, h2, h3, h4, h5⟩ := unit_chars hu a (by simp [hxu])
      rw [← h.1]
      exact ⟨h2, h3, h4, h5⟩
  have hfc := fromCharsDouble_app n' hv' hends
  rw [hval] at hfc
  obtain ⟨htw, hdw⟩ := takeWhile_append_stop (p := fun c => !isStop c) (f := x.unit) (r := rest)
    (fun c hc => by simp [(unit_chars hu c hc).1]) (fun c r' h => by simp [(hr c r' h).1])
  unfold parseSingle
  rw [htext, htrim]
  split
  · rename_i he
    have hne : n'.text ++ (x.unit ++ rest) ≠ [] := by
      intro e
      rw [List.append_eq_nil_iff] at e
      have := hv'.some_digit
      have e1 := e.1
      simp only [Decimal.text, List.append_eq_nil_iff] at e1
      obtain ⟨⟨⟨_, e2⟩, e3⟩, _⟩ := e1
      have : n'.frac = [] := by
        unfold Decimal.frac
        cases hfp : n'.fp with
        | none => rfl
        | some ds => rw [hfp] at e3; simp [fracText] at e3
      exact hv'.some_digit (by rw [e2, this]; rfl)
    exact absurd he hne
  · rw [hfc]
    simp only [htw, hdw, unitSeconds_of hu]
    rw [cast_finite hnear hf hf']
    show (addTicks d t n >>= fun t => Except.ok (t, rest)) = _
    rw [addTicks, if_pos hsum]
    rfl

/-! ## Sequences of terms -/

/-- The terms can be told apart in the text. -/
def Separated : List Term → Text → Prop
  | [], _ => True
  | x :: xs, trail => (x.unit = [] → ∀ c r, termsText xs trail = c :: r → isDigit c = false ∧ c ≠ '.') ∧
      Separated xs trail

theorem text_ne_nil {x : Term} (hv : x.num.Valid) : x.text ≠ [] := by
  intro e
  simp only [Term.text, Decimal.text, List.append_eq_nil_iff] at e
  obtain ⟨⟨_, ⟨⟨_, e2⟩, e3⟩, _⟩, _⟩ := e
  have : x.num.frac = [] := by
    unfold Decimal.frac
    cases hfp : x.num.fp with
    | none => rfl
    | some ds => rw [hfp] at e3; simp [fracText] at e3
  exact hv.some_digit (by rw [e2, this]; rfl)

theorem trim_stop {c : Char} (h : isTrim c = true) : isStop c = true := by
  simp only [isTrim, Bool.or_eq_true, beq_iff_eq] at h
  rcases h with (rfl | rfl) | rfl <;> decide

theorem text_head {x : Term} (hx : x.Ok) {s : Text} {c : Char} {r : Text}
    (h : x.text ++ s = c :: r) : isStop c = true := by
  cases hl : x.lead with
  | cons a l =>
    simp only [Term.text, hl, List.cons_append, List.cons.injEq] at h
    rw [← h.1]
    exact trim_stop (lead_trim hx.lead a (by simp [hl]))
  | nil =>
    cases hn : x.num.neg with
    | true =>
      simp only [Term.text, Decimal.text, hl, hn, if_true, List.nil_append, List.cons_append,
        List.cons.injEq] at h
      rw [← h.1]; decide
    | false =>
      have h' : x.num.ip ++ fracText x.num.fp ++ expText x.num.exp ++ (x.unit ++ s) = c :: r := by
        simpa [Term.text, Decimal.text, hl, hn] using h
      rcases abs_text_head x.num hx.num.toForm _ c r h' with h1 | rfl
      · simp [isStop, h1]
      · decide

/-- Trailing plus signs, blanks and zeros. -/
def IsTrail (l : Text) : Prop := ∀ c ∈ l, isTrim c = true

theorem parseLoop_trail (d : DurTy) (t : Int) {trail : Text} (h : IsTrail trail) (fuel : Nat)
    (hfuel : trail.length ≤ fuel) : parseLoop d fuel t trail = some (t, .ok ()) := by
  cases trail with
  | nil => cases fuel <;> rfl
  | cons c l =>
    cases fuel with
    | zero => simp at hfuel
    | succ fuel =>
      have hd : (c :: l).dropWhile isTrim = [] := by
        have := dropWhile_lead (r := []) h
        simpa using this
      have : parseSingle d t (c :: l) = .ok (t, []) := by
        unfold parseSingle
        rw [hd]
      rw [parseLoop, this]
      cases fuel <;> rfl

theorem parseLoop_terms (d : DurTy) (xs : List Term) (trail : Text) (hxs : ∀ x ∈ xs, x.Ok)
    (hnv : ∀ x ∈ xs, x.num.NonVoid) (hsep : Separated xs trail) (htrail : IsTrail trail)
    (ticks : List Int) (hticks : List.Forall₂ (Term.Ticks d) xs ticks) (t : Int)
    (hrange : InRange d t ticks) (fuel : Nat) (hfuel : (termsText xs trail).length ≤ fuel) :
    parseLoop d fuel t (termsText xs trail) = some (t + ticks.sum, .ok ()) := by
  induction xs generalizing t ticks fuel with
  | nil =>
    cases hticks
    simp only [termsText, List.flatMap_nil, List.nil_append, List.sum_nil, Int.add_zero] at *
    exact parseLoop_trail d t htrail fuel hfuel
  | cons x xs ih =>
    cases hticks with
    | cons hx hrest =>
      rename_i n ns
      have htext : termsText (x :: xs) trail = x.text ++ termsText xs trail := by
        simp [termsText]
      rw [htext] at hfuel ⊢
      have hfollow : Follows x (termsText xs trail) := by
        intro c r h
        refine ⟨?_, fun hu => hsep.1 hu c r h⟩
        cases xs with
        | nil =>
          simp only [termsText, List.flatMap_nil, List.nil_append] at h
          exact trim_stop (htrail c (by rw [h]; simp))
        | cons y ys =>
          have : termsText (y :: ys) trail = y.text ++ termsText ys trail := by simp [termsText]
          rw [this] at h
          exact text_head (hxs y (by simp)) h
      have hstep := parseSingle_term (t := t) (hxs x (by simp)) (hnv x (by simp)) hfollow hx
        (hrange.1 n (by simp)).1 (hrange.1 n (by simp)).2 (by simpa using hrange.2 1)
      obtain ⟨c, r, hcr⟩ := List.exists_cons_of_ne_nil (text_ne_nil (hxs x (by simp)).num)
      rw [hcr, List.cons_append] at hfuel hstep ⊢
      cases fuel with
      | zero => simp at hfuel
      | succ fuel =>
        rw [parseLoop, hstep]
        simp only
        rw [ih (fun y hy => hxs y (by simp [hy])) (fun y hy => hnv y (by simp [hy])) hsep.2 ns hrest
          (t + n) ⟨fun m hm => hrange.1 m (by simp [hm]), fun k => by
            have := hrange.2 (k + 1)
            rw [List.take_succ_cons, List.sum_cons] at this
            rwa [← Int.add_assoc] at this⟩ fuel
          (by simp only [List.length_cons, List.length_append] at hfuel; omega)]
        rw [List.sum_cons, Int.add_assoc]

/-- C48. A sequence of number–unit pairs (with plus signs and blanks before each, in which no number
consists of zeros only) is accepted, and the duration grows by the sum of the numbers in their units,
each converted to ticks. (How the conversion rounds: `ticks_exact` in exact arithmetic, and
`ticks_double_partial`, `ticks_double_integer` in the arithmetic of `double`.) -/
theorem sum_of_terms (d : DurTy) (t : Int) (xs : List Term) (trail : Text) (hxs : ∀ x ∈ xs, x.Ok)
    (hnv : ∀ x ∈ xs, x.num.NonVoid) (hsep : Separated xs trail) (htrail : IsTrail trail)
    (ticks : List Int) (hticks : List.Forall₂ (Term.Ticks d) xs ticks) (hrange : InRange d t ticks) :
    parseDuration d t (termsText xs trail) = some (t + ticks.sum, .ok ()) :=
  parseLoop_terms d xs trail hxs hnv hsep htrail ticks hticks t hrange _ (Nat.le_refl _)

/-- C48 in exact arithmetic: the number of ticks of a term is the nearest one (ties to even). -/
theorem ticks_exact {d : DurTy} (hd : d.conv = exactConv) {x : Term} {n : Int} (h : x.Ticks d n) :
    ∃ q, x.Exact d q ∧ IsNearest q n := by
  obtain ⟨u, hu, rfl⟩ := h
  refine ⟨_, ⟨u, hu, rfl⟩, ?_⟩
  rw [hd]
  exact chronoRound_nearest _

/-- An arithmetic in which small whole numbers of seconds are exact in milliseconds. -/
def Sane (conv : Rat → Rat → Rounded) : Prop :=
  ∀ k : Int, |k| ≤ 1000000 → (conv k 1000).ticks = k * 1000

theorem exactConv_sane : Sane exactConv := by
  intro k _
  apply nearest_unique (chronoRound_nearest _)
  constructor
  · push_cast; simp
  · intro h; push_cast at h; simp at h

/-- C49, full statement: every sequence of number–unit pairs is accepted. -/
def AllAccepted (conv : Rat → Rat → Rounded) : Prop :=
  ∀ (d : DurTy) (t : Int) (xs : List Term) (trail : Text), d.conv = conv → (∀ x ∈ xs, x.Ok) →
    Separated xs trail → IsTrail trail → ∀ ticks, List.Forall₂ (Term.Ticks d) xs ticks → InRange d t ticks →
    parseDuration d t (termsText xs trail) = some (t + ticks.sum, .ok ())

/-- C49, for numbers that do not consist of zeros only. -/
theorem nonzero_accepted_partial (d : DurTy) (t : Int) (xs : List Term) (trail : Text)
    (hxs : ∀ x ∈ xs, x.Ok) (hnv : ∀ x ∈ xs, x.num.value ≠ 0) (hsep : Separated xs trail)
    (htrail : IsTrail trail) (ticks : List Int) (hticks : List.Forall₂ (Term.Ticks d) xs ticks)
    (hrange : InRange d t ticks) :
    parseDuration d t (termsText xs trail) = some (t + ticks.sum, .ok ()) := by
  refine sum_of_terms d t xs trail hxs (fun x hx => ?_) hsep htrail ticks hticks hrange
  right
  intro e
  apply hnv x hx
  have h0 : digitsVal (x.num.ip ++ x.num.frac) = 0 := by
    rw [← digitsVal_strip, e]; rfl
  have : x.num.abs = 0 := by
    unfold Decimal.abs
    rw [h0]
    simp
  unfold Decimal.value
  rw [this]
  simp

/-- Milliseconds in 64 bits. -/
def milliseconds (conv : Rat → Rat → Rounded) : DurTy := ⟨64, 1000, conv⟩

theorem fits64 {conv : Rat → Rat → Rounded} {n : Int} (h : -1000000 ≤ n ∧ n ≤ 1000000) :
    (milliseconds conv).fits n := by
  have h2 : -(2 ^ (64 - 1) : Int) ≤ n ∧ n < (2 ^ (64 - 1) : Int) := by
    constructor
    · exact le_trans (by decide) h.1
    · exact lt_of_le_of_lt h.2 (by decide)
  exact h2

/-- The literal `0`. -/
def zeroLit : Decimal := { ip := ['0'] }

theorem zeroLit_valid : zeroLit.Valid where
  ip := by decide
  fp := by decide
  some_digit := by decide
  exp := by intro c sg ds h; cases h
  range := by
    have : zeroLit.abs = 0 := by unfold Decimal.abs; simp [zeroLit, Decimal.frac, digitsVal]
    rw [this]; exact small_range (by norm_num) (.inl rfl)

/-- C49 is false, in any arithmetic: `0s` is rejected. -/
theorem not_allAccepted (conv : Rat → Rat → Rounded) (hc : Sane conv) : ¬ AllAccepted conv := by
  intro h
  have hv : zeroLit.value = 0 := by
    unfold Decimal.value Decimal.abs
    simp [zeroLit, Decimal.frac, digitsVal]
  have := h (milliseconds conv) 0 [{ num := zeroLit, unit := "s".toList }] [] rfl
    (by
      intro x hx
      simp only [List.mem_singleton] at hx
      subst hx
      exact ⟨(by intro c hc; cases hc), zeroLit_valid, ⟨1, .s⟩⟩)
    ⟨(by intro h; cases h), trivial⟩ (by intro c hc; cases hc) [0]
    (.cons ⟨1, .s, by
      show 0 = (conv zeroLit.value (1 * 1000)).ticks
      rw [hv, one_mul]
      exact (hc 0 (by norm_num)).symm⟩ .nil)
    ⟨(by intro n hn; simp only [List.mem_singleton] at hn; subst hn; exact ⟨fits64 (by decide), fits64 (by decide)⟩), by
      intro k
      cases k with
      | zero => exact fits64 (by decide)
      | succ k => exact fits64 (by simp)⟩
  have hrun : parseDuration (milliseconds conv) 0 "0s".toList =
      some (0, .error (.throw .invalidDurationValue)) := rfl
  have htext : termsText [{ num := zeroLit, unit := "s".toList }] [] = "0s".toList := rfl
  rw [htext, hrun] at this
  cases this

/-! ## Termination -/

theorem parseSingle_shrinks {d : DurTy} {t t' : Int} {c : Char} {s rest : Text}
    (h : parseSingle d t (c :: s) = .ok (t', rest)) : rest.length < (c :: s).length := by
  have hdl : ((c :: s).dropWhile isTrim).length ≤ (c :: s).length :=
    (List.dropWhile_sublist _).length_le
  unfold parseSingle at h
  split at h
  · cases h; simp
  · rename_i s' hne
    split at h
    · cases h
    · rename_i v rem hfc
      have := fromCharsDouble_consumes hfc
      dsimp only at h
      split at h
      · cases h
      · simp only [bind, Except.bind] at h
        split at h
        · cases h
        · split at h
          · cases h
          · cases h
            have := (List.dropWhile_sublist (l := rem) (fun c => !isStop c)).length_le
            omega

/-- The outcomes of the parser. -/
def Documented : Res Unit → Prop
  | .ok _ => True
  | .error (.throw e) => e = .invalidDurationValue ∨ e = .invalidDurationUnits
  | .error .ub => True
  | .error .assertFail => False

theorem parseSingle_error {d : DurTy} {t : Int} {s : Text} {e : Fault}
    (h : parseSingle d t s = .error e) :
    e = .throw .invalidDurationValue ∨ e = .throw .invalidDurationUnits ∨ e = .ub := by
  unfold parseSingle at h
  split at h
  · cases h
  · split at h
    · cases h; exact .inl rfl
    · dsimp only at h
      split at h
      · cases h; exact .inr (.inl rfl)
      · rename_i u hu
        simp only [bind, Except.bind] at h
        split at h
        · rename_i e' he
          cases h
          unfold cast at he
          split at he
          · dsimp only at he
            split at he
            · cases he
            · cases he; exact .inr (.inr rfl)
          · cases he; exact .inr (.inr rfl)
        · split at h
          · rename_i e' he
            cases h
            unfold addTicks at he
            split at he
            · cases he
            · cases he; exact .inr (.inr rfl)
          · cases h

/-- C47. `parse_duration` terminates on every text: it returns, or throws one of its two exceptions
(or has undefined behaviour because a value does not fit the duration type, see C79). -/
theorem parse_terminates (d : DurTy) (t : Int) (s : Text) :
    ∃ t' r, parseDuration d t s = some (t', r) ∧ Documented r := by
  have key : ∀ (fuel : Nat) (t : Int) (s : Text), s.length ≤ fuel →
      ∃ t' r, parseLoop d fuel t s = some (t', r) ∧ Documented r := by
    intro fuel
    induction fuel with
    | zero =>
      intro t s h
      have : s = [] := List.length_eq_zero_iff.1 (by omega)
      subst this
      exact ⟨t, .ok (), rfl, trivial⟩
    | succ fuel ih =>
      intro t s h
      cases s with
      | nil => exact ⟨t, .ok (), rfl, trivial⟩
      | cons c s =>
        rw [parseLoop]
        cases hp : parseSingle d t (c :: s) with
        | error e =>
          refine ⟨t, .error e, rfl, ?_⟩
          rcases parseSingle_error hp with rfl | rfl | rfl
          · exact .inl rfl
          · exact .inr rfl
          · trivial
        | ok p =>
          obtain ⟨t', rest⟩ := p
          have := parseSingle_shrinks hp
          exact ih t' rest (by omega)
  exact key s.length t s (Nat.le_refl _)

/-! ## What is accepted -/

/-- A term the parser has read: a number with a known unit, with only plus signs, blanks and zeros
before it. -/
structure Term.Read (x : Term) : Prop where
  lead : IsTrail x.lead
  num : x.num.Valid
  unit : ∃ u, UnitLen x.unit u

theorem takeWhile_lead (s : Text) : s = s.takeWhile isTrim ++ s.dropWhile isTrim ∧
    IsTrail (s.takeWhile isTrim) :=
  ⟨List.takeWhile_append_dropWhile.symm, fun _ hc => mem_takeWhile hc⟩

theorem parseSingle_sound {d : DurTy} {t t' : Int} {s rest : Text}
    (h : parseSingle d t s = .ok (t', rest)) :
    (IsTrail s ∧ rest = [] ∧ t' = t) ∨
      ∃ (x : Term) (n : Int), x.Read ∧ s = x.text ++ rest ∧ x.Ticks d n ∧ t' = t + n := by
  obtain ⟨hs, hl⟩ := takeWhile_lead s
  unfold parseSingle at h
  split at h
  · rename_i hd
    cases h
    left
    rw [hd, List.append_nil] at hs
    exact ⟨hs ▸ hl, rfl, rfl⟩
  · rename_i s' hne
    right
    split at h
    · cases h
    · rename_i v rem hfc
      dsimp only at h
      split at h
      · cases h
      · rename_i u hu
        simp only [bind, Except.bind] at h
        split at h
        · cases h
        · rename_i n hn
          split at h
          · cases h
          · rename_i t₂ ht
            cases h
            unfold cast at hn
            split at hn
            · rename_i q
              simp only at hn
              split at hn
              · cases hn
                unfold addTicks at ht
                split at ht
                · cases ht
                  obtain ⟨num, v1, v2, v3⟩ := fromCharsDouble_sound hfc
                  refine ⟨⟨s.takeWhile isTrim, num, rem.takeWhile (fun c => !isStop c)⟩, _,
                    ⟨hl, v1, ⟨u, unitLen_of hu⟩⟩, ?_, ⟨u, unitLen_of hu, ?_⟩, rfl⟩
                  · simp only [Term.text, List.append_assoc, List.takeWhile_append_dropWhile]
                    rw [← v2]
                    exact hs
                  · rw [← v3]
                · cases ht
              · cases hn
            · cases hn

/-- What has been added to the duration when the parser stops, for whatever reason: the ticks of the
terms at the beginning of the text; the rest of the text is empty or the part it stopped at. -/
theorem parse_prefix (d : DurTy) (t t' : Int) (s : Text) (r : Res Unit)
    (h : parseDuration d t s = some (t', r)) :
    ∃ xs rest ticks, s = xs.flatMap Term.text ++ rest ∧ (∀ x ∈ xs, x.Read) ∧
      List.Forall₂ (Term.Ticks d) xs ticks ∧ t' = t + ticks.sum ∧
      match r with
      | .ok _ => IsTrail rest
      | .error e => parseSingle d t' rest = .error e := by
  have key : ∀ (fuel : Nat) (t : Int) (s : Text), parseLoop d fuel t s = some (t', r) →
      ∃ xs rest ticks, s = xs.flatMap Term.text ++ rest ∧ (∀ x ∈ xs, x.Read) ∧
      List.Forall₂ (Term.Ticks d) xs ticks ∧ t' = t + ticks.sum ∧
      match r with
      | .ok _ => IsTrail rest
      | .error e => parseSingle d t' rest = .error e := by
    intro fuel
    induction fuel with
    | zero =>
      intro t s h
      cases s with
      | nil => cases h; exact ⟨[], [], [], rfl, by simp, .nil, by simp, by intro c hc; cases hc⟩
      | cons c s => cases h
    | succ fuel ih =>
      intro t s h
      cases s with
      | nil => cases h; exact ⟨[], [], [], rfl, by simp, .nil, by simp, by intro c hc; cases hc⟩
      | cons c s =>
        rw [parseLoop] at h
        cases hp : parseSingle d t (c :: s) with
        | error e =>
          rw [hp] at h
          cases h
          exact ⟨[], c :: s, [], rfl, by simp, .nil, by simp, hp⟩
        | ok p =>
          obtain ⟨t₁, rest₁⟩ := p
          rw [hp] at h
          simp only at h
          rcases parseSingle_sound hp with ⟨h1, rfl, rfl⟩ | ⟨x, n, h1, h2, h3, rfl⟩
          · have hend : parseLoop d fuel t₁ [] = some (t₁, .ok ()) := by cases fuel <;> rfl
            rw [hend] at h
            cases h
            exact ⟨[], c :: s, [], rfl, by simp, .nil, by simp, h1⟩
          · obtain ⟨xs, rest, ticks, k1, k2, k3, k4, k5⟩ := ih _ _ h
            refine ⟨x :: xs, rest, n :: ticks, ?_, ?_, .cons h3 k3, ?_, k5⟩
            · rw [h2, k1]; simp
            · intro y hy
              rcases List.mem_cons.1 hy with rfl | hy
              · exact h1
              · exact k2 y hy
            · rw [k4, List.sum_cons, Int.add_assoc]
  exact key s.length t s h

/-- C50, full statement: text that is accepted is a (nonempty) sequence of number–unit pairs, and the
duration grows by their sum. -/
def InvalidRejected (conv : Rat → Rat → Rounded) : Prop :=
  ∀ (d : DurTy) (t t' : Int) (s : Text), d.conv = conv → s ≠ [] → parseDuration d t s = some (t', .ok ()) →
    ∃ xs trail ticks, xs ≠ [] ∧ s = termsText xs trail ∧ (∀ x ∈ xs, x.Read) ∧ IsTrail trail ∧
      List.Forall₂ (Term.Ticks d) xs ticks ∧ t' = t + ticks.sum

/-- C50, except that a text of plus signs, blanks and zeros alone is accepted as nothing: text that is
accepted is a sequence of numbers with known units, and the duration grows by exactly their sum. -/
theorem invalid_rejected_partial (d : DurTy) (t t' : Int) (s : Text)
    (h : parseDuration d t s = some (t', .ok ())) :
    ∃ xs trail ticks, s = termsText xs trail ∧ (∀ x ∈ xs, x.Read) ∧ IsTrail trail ∧
      List.Forall₂ (Term.Ticks d) xs ticks ∧ t' = t + ticks.sum := by
  obtain ⟨xs, rest, ticks, h1, h2, h3, h4, h5⟩ := parse_prefix d t t' s _ h
  exact ⟨xs, rest, ticks, h1, h2, h5, h3, h4⟩

theorem text_has_digit {x : Term} (hv : x.num.Valid) : ∃ c ∈ x.text, isDigit c = true := by
  obtain ⟨c, l, hcl⟩ := List.exists_cons_of_ne_nil hv.some_digit
  have hc : c ∈ x.num.ip ++ x.num.frac := by rw [hcl]; simp
  rcases List.mem_append.1 hc with h | h
  · exact ⟨c, by simp [Term.text, Decimal.text, h], hv.ip c h⟩
  · refine ⟨c, ?_, hv.fp c h⟩
    have : c ∈ fracText x.num.fp := by
      unfold Decimal.frac at h
      cases hf : x.num.fp with
      | none => rw [hf] at h; cases h
      | some ds => rw [hf] at h; simp [fracText]; exact .inr h
    simp [Term.text, Decimal.text, this]

/-- C50 is false: a text without any number, such as a plus sign, is accepted. -/
theorem not_invalidRejected (conv : Rat → Rat → Rounded) : ¬ InvalidRejected conv := by
  intro h
  obtain ⟨xs, trail, ticks, hne, h1, h2, _⟩ := h (milliseconds conv) 0 0 ['+'] rfl (by simp) rfl
  obtain ⟨x, l, rfl⟩ := List.exists_cons_of_ne_nil hne
  obtain ⟨c, hc, hd⟩ := text_has_digit (h2 x (by simp)).num
  have : c ∈ ['+'] := by rw [h1]; simp [termsText, hc]
  simp only [List.mem_singleton] at this
  subst this
  revert hd
  decide

/-! ## Undefined behaviour and exceptions -/

/-- C79, full statement: no text makes the parser's behaviour undefined. -/
def NoUndefined (conv : Rat → Rat → Rounded) : Prop :=
  ∀ (d : DurTy) (t t' : Int) (s : Text), d.conv = conv → parseDuration d t s ≠ some (t', .error .ub)

/-- C79 is false: `inf` is converted to an integer number of ticks. -/
theorem not_noUndefined (conv : Rat → Rat → Rounded) : ¬ NoUndefined conv := by
  intro h
  exact h (milliseconds conv) 0 0 "inf".toList rfl rfl

/-- C79, what holds: the behaviour is undefined only if a number in the text is infinite or not a
number, or its ticks or the sum so far do not fit the duration type. -/
theorem undefined_only_out_of_range_partial (d : DurTy) (t t' : Int) (s : Text)
    (h : parseDuration d t s = some (t', .error .ub)) :
    ∃ rest v u rem, (∃ xs : List Term, s = xs.flatMap Term.text ++ rest) ∧
      fromCharsDouble (rest.dropWhile isTrim) = some (v, rem) ∧
      UnitLen (rem.takeWhile (fun c => !isStop c)) u ∧
      ∀ q, v = .finite q → ∀ n, n = (d.conv q (u * d.perSec)).ticks →
        ¬ (d.fits (n - 1) ∧ d.fits (n + 1) ∧ d.fits (t' + n)) := by
  obtain ⟨xs, rest, ticks, h1, h2, h3, h4, h5⟩ := parse_prefix d t t' s _ h
  simp only at h5
  unfold parseSingle at h5
  split at h5
  · cases h5
  · split at h5
    · cases h5
    · rename_i v rem hfc
      dsimp only at h5
      split at h5
      · cases h5
      · rename_i u hu
        refine ⟨rest, v, u, rem, ⟨xs, h1⟩, hfc, unitLen_of hu, ?_⟩
        rintro q rfl n hn ⟨hf, hf', hs⟩
        rw [cast_finite hn hf hf'] at h5
        change (addTicks d t' n >>= fun t => Except.ok (t, _)) = _ at h5
        rw [addTicks, if_pos hs] at h5
        cases h5

/-- C80, full statement: a parse that throws leaves the duration unchanged. -/
def FailureLeavesUnchanged (conv : Rat → Rat → Rounded) : Prop :=
  ∀ (d : DurTy) (t t' : Int) (s : Text) (e : Fault), d.conv = conv →
    parseDuration d t s = some (t', .error e) → t' = t

/-- The literal `1`. -/
def oneLit : Decimal := { ip := ['1'] }

theorem oneLit_valid : oneLit.Valid where
  ip := by decide
  fp := by decide
  some_digit := by decide
  exp := by intro c sg ds h; cases h
  range := by
    have : oneLit.abs = 1 := by
      unfold Decimal.abs
      rw [show digitsVal (oneLit.ip ++ oneLit.frac) = 1 from rfl]
      norm_num [oneLit, Decimal.frac, expVal]
    rw [this]
    exact small_range (by norm_num) (.inr (by norm_num))

/-- C80 is false: `1 min` adds a second and then throws. -/
theorem not_failureLeavesUnchanged (conv : Rat → Rat → Rounded) (hc : Sane conv) :
    ¬ FailureLeavesUnchanged conv := by
  intro h
  have v1 : oneLit.value = 1 := by
    unfold Decimal.value Decimal.abs
    rw [show digitsVal (oneLit.ip ++ oneLit.frac) = 1 from rfl]
    norm_num [oneLit, Decimal.frac, expVal]
  have h1 : parseSingle (milliseconds conv) 0 "1 min".toList = .ok (1000, " min".toList) := by
    refine parseSingle_term (d := milliseconds conv) (t := 0) (n := 1000)
      (x := { num := oneLit, unit := [] }) (rest := " min".toList)
      ⟨(by intro c hc; cases hc), oneLit_valid, ⟨1, .none⟩⟩ (.inr (by decide)) ?_ ⟨1, .none, ?_⟩
      (fits64 (by decide)) (fits64 (by decide)) (fits64 (by decide))
    · intro c r hc
      cases hc
      decide
    · show 1000 = (conv oneLit.value (1 * 1000)).ticks
      rw [v1, one_mul]
      exact (hc 1 (by norm_num)).symm
  have hrun : parseDuration (milliseconds conv) 0 "1 min".toList =
      some (1000, .error (.throw .invalidDurationValue)) := by
    show parseLoop (milliseconds conv) (4 + 1) 0 ('1' :: " min".toList) = _
    rw [parseLoop, show ('1' :: " min".toList : Text) = "1 min".toList from rfl, h1]
    rfl
  have := h (milliseconds conv) 0 1000 _ _ rfl hrun
  omega

/-- C80, what holds: after a failure the duration has grown by the sum of the terms before the
failure. -/
theorem failure_adds_prefix_partial (d : DurTy) (t t' : Int) (s : Text) (e : Fault)
    (h : parseDuration d t s = some (t', .error e)) :
    ∃ xs rest ticks, s = xs.flatMap Term.text ++ rest ∧ (∀ x ∈ xs, x.Read) ∧
      List.Forall₂ (Term.Ticks d) xs ticks ∧ t' = t + ticks.sum ∧
      parseSingle d t' rest = .error e :=
  parse_prefix d t t' s _ h

/-- C80, exactly: a failure leaves the duration unchanged if and only if the terms before it add up to nothing. -/
theorem failure_unchanged_iff (d : DurTy) (t t' : Int) (s : Text) (e : Fault)
    (h : parseDuration d t s = some (t', .error e)) :
    ∃ xs rest ticks, s = xs.flatMap Term.text ++ rest ∧ (∀ x ∈ xs, x.Read) ∧
      List.Forall₂ (Term.Ticks d) xs ticks ∧ parseSingle d t' rest = .error e ∧ (t' = t ↔ ticks.sum = 0) := by
  obtain ⟨xs, rest, ticks, h1, h2, h3, h4, h5⟩ := failure_adds_prefix_partial d t t' s e h
  exact ⟨xs, rest, ticks, h1, h2, h3, h5, by omega⟩

/-! ## A concrete text -/

/-- `1.5min -500ms`: the hypotheses of `sum_of_terms` hold. -/
example : parseDuration (milliseconds exactConv) 0 "1.5min -500ms".toList = some (89500, .ok ()) := by
  have v1 : (⟨false, ['1'], some ['5'], none⟩ : Decimal).abs = 3 / 2 := by
    unfold Decimal.abs
    rw [show digitsVal (_ ++ Decimal.frac ⟨false, ['1'], some ['5'], none⟩) = 15 from rfl]
    norm_num [Decimal.frac, expVal]
  have v2 : (⟨true, ['5', '0', '0'], none, none⟩ : Decimal).abs = 500 := by
    unfold Decimal.abs
    rw [show digitsVal (_ ++ Decimal.frac ⟨true, ['5', '0', '0'], none, none⟩) = 500 from rfl]
    norm_num [Decimal.frac, expVal]
  have := sum_of_terms (milliseconds exactConv) 0
    [⟨[], ⟨false, ['1'], some ['5'], none⟩, "min".toList⟩,
      ⟨[' '], ⟨true, ['5', '0', '0'], none, none⟩, "ms".toList⟩] []
    (by
      intro x hx
      simp only [List.mem_cons, List.not_mem_nil, or_false] at hx
      rcases hx with rfl | rfl
      · exact ⟨(by intro c hc; cases hc), ⟨⟨by decide, by decide, by decide, (by intro c sg ds h; cases h)⟩,
          by apply small_range <;> rw [v1] <;> norm_num⟩, ⟨_, .min⟩⟩
      · exact ⟨(by intro c hc; simp at hc; exact .inr hc), ⟨⟨by decide, by decide, by decide,
          (by intro c sg ds h; cases h)⟩, by apply small_range <;> rw [v2] <;> norm_num⟩, ⟨_, .ms⟩⟩)
    (by
      intro x hx
      simp only [List.mem_cons, List.not_mem_nil, or_false] at hx
      rcases hx with rfl | rfl
      · right; decide
      · left; rfl)
    ⟨(by intro h; cases h), (by intro h; cases h), trivial⟩ (by intro c hc; cases hc) [90000, -500]
    (.cons ⟨_, .min, by
      show 90000 = (chronoRound (Decimal.value ⟨false, ['1'], some ['5'], none⟩ * (60 * 1000))).ticks
      refine nearest_unique ?_ (chronoRound_nearest _)
      unfold Decimal.value
      rw [v1]
      constructor <;> norm_num⟩
     (.cons ⟨_, .ms, by
      show -500 =
        (chronoRound (Decimal.value ⟨true, ['5', '0', '0'], none, none⟩ * (1 / 1000 * 1000))).ticks
      refine nearest_unique ?_ (chronoRound_nearest _)
      unfold Decimal.value
      rw [v2]
      constructor <;> norm_num⟩ .nil))
    ⟨(by
      intro n hn
      simp only [List.mem_cons, List.not_mem_nil, or_false] at hn
      rcases hn with rfl | rfl <;> exact ⟨fits64 (by decide), fits64 (by decide)⟩), by
      intro k
      match k with
      | 0 => exact fits64 (by decide)
      | 1 => exact fits64 (by decide)
      | k + 2 => simp only [List.take_succ_cons, List.take_nil]; exact fits64 (by decide)⟩
  exact this

end Guanaqo.Duration
