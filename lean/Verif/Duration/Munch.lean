import Verif.Duration.Scan

/-!
# Exactly what `std::from_chars` reads as a number

The scanner takes the longest literal at the beginning of the text (`fromCharsDouble_exact`).
-/

namespace Guanaqo.Duration

/-- The text `r` after the literal `n` does not continue it: no further digit, no decimal point if there
is neither a point nor an exponent yet, and no exponent if there is none yet. -/
structure Munch (n : Decimal) (r : Text) : Prop where
  digit : ∀ c r', r = c :: r' → isDigit c = false
  point : n.fp = none → n.exp = none → ∀ r', r ≠ '.' :: r'
  exp : n.exp = none → ∀ (c : Char) (sg : Option Bool) (d : Char) (r' : Text), (c = 'e' ∨ c = 'E') →
    isDigit d = true → r ≠ c :: (signText sg ++ d :: r')

/-! ## A literal at the beginning of a text is read as such -/

theorem scanExpDigits_some (sg : Option Bool) {d : Char} (hd : isDigit d = true) (r : Text) :
    scanExpDigits (signText sg ++ d :: r) ≠ none := by
  have h1 : d ≠ '-' := by rintro rfl; revert hd; decide
  have h2 : d ≠ '+' := by rintro rfl; revert hd; decide
  have hb : (expSign (signText sg ++ d :: r)).2 = d :: r := by
    cases sg with
    | none =>
      simp only [signText, List.nil_append]
      unfold expSign
      split
      · rename_i heq; cases heq; exact absurd rfl h1
      · rename_i heq; cases heq; exact absurd rfl h2
      · rfl
    | some b => cases b <;> rfl
  unfold scanExpDigits
  split
  rename_i neg body heq
  rw [heq] at hb
  dsimp only at hb
  subst hb
  simp only [scanDigits, List.takeWhile_cons, hd, if_true, List.isEmpty_cons]
  intro h
  cases h

theorem scanExpDigits_none {r : Text} (h : ∀ (sg : Option Bool) (d : Char) (r' : Text),
    isDigit d = true → r ≠ signText sg ++ d :: r') : scanExpDigits r = none := by
  have key : ∀ (sg : Option Bool) (body : Text), r = signText sg ++ body →
      (scanDigits body).1.isEmpty = true := by
    intro sg body hb
    cases body with
    | nil => rfl
    | cons d r' =>
      cases hd : isDigit d with
      | true => exact absurd hb (h sg d r' hd)
      | false => simp [scanDigits, hd]
  unfold scanExpDigits
  split
  rename_i neg body heq
  have : (scanDigits body).1.isEmpty = true := by
    unfold expSign at heq
    split at heq
    · cases heq; exact key (some true) _ rfl
    · cases heq; exact key (some false) _ rfl
    · cases heq; exact key none _ rfl
  simp only [this, if_true]

theorem expText_munch {n : Decimal} (hv : n.Form) {r : Text} (hm : Munch n r) :
    scanExp (expText n.exp ++ r) = (expVal n.exp, r) := by
  cases hx : n.exp with
  | none =>
    simp only [expText, List.nil_append, expVal]
    cases r with
    | nil => rfl
    | cons c r =>
      by_cases hc : c = 'e' ∨ c = 'E'
      · have : scanExpDigits r = none :=
          scanExpDigits_none fun sg d r' hd h => hm.exp hx c sg d r' hc hd (by rw [h])
        simp [scanExp, hc, this]
      · simp [scanExp, hc]
  | some p =>
    -- a digit cannot follow, and everything else is as after the end of the text
    have hE : scanExp (expText (some p) ++ r) = (expVal (some p), r) := by
      obtain ⟨c, sg, ds⟩ := p
      obtain ⟨hc, hne, hd⟩ := hv.exp c sg ds hx
      have hnd : NoDigit r := hm.digit
      have hs := scanDigits_app hd hnd
      obtain ⟨d, ds', rfl⟩ := List.exists_cons_of_ne_nil hne
      have hd0 := hd d (by simp)
      have h1 : d ≠ '-' := by rintro rfl; revert hd0; decide
      have h2 : d ≠ '+' := by rintro rfl; revert hd0; decide
      have hm' : expSign (signText sg ++ (d :: ds') ++ r) =
          (decide (sg = some true), (d :: ds') ++ r) := by
        cases sg with
        | none =>
          simp only [signText, List.nil_append, List.cons_append]
          unfold expSign
          split
          · rename_i heq; cases heq; exact absurd rfl h1
          · rename_i heq; cases heq; exact absurd rfl h2
          · rfl
        | some b => cases b <;> rfl
      have hE : scanExpDigits (signText sg ++ (d :: ds') ++ r) =
          some (if sg = some true then -(digitsVal (d :: ds') : Int) else digitsVal (d :: ds'), r) := by
        unfold scanExpDigits
        rw [hm']
        simp only [hs, List.isEmpty_cons, decide_eq_true_eq]
        rfl
      show scanExp (c :: (signText sg ++ d :: ds') ++ r) = _
      rw [List.cons_append]
      unfold scanExp
      simp only [hc, if_true, hE, Option.getD_some, expVal]
    exact hE

theorem scanDecimal_munch (n : Decimal) (hv : n.Form) {r : Text} (hm : Munch n r) :
    scanDecimal (n.ip ++ fracText n.fp ++ expText n.exp ++ r) = some (n.abs, r) := by
  have hexp : ∀ c r', expText n.exp ++ r = c :: r' → isDigit c = false := by
    intro c r' h
    cases hx : n.exp with
    | none => rw [hx] at h; exact hm.digit c r' h
    | some p =>
      obtain ⟨a, sg, ds⟩ := p
      rw [hx] at h
      simp only [expText, List.cons_append, List.cons.injEq] at h
      rw [← h.1]
      rcases (hv.exp a sg ds hx).1 with rfl | rfl <;> decide
  have h1 : scanDigits (n.ip ++ (fracText n.fp ++ (expText n.exp ++ r))) =
      (n.ip, fracText n.fp ++ (expText n.exp ++ r)) := by
    apply scanDigits_app hv.ip
    intro c r' h
    cases hf : n.fp with
    | none =>
      rw [hf] at h
      exact hexp c r' h
    | some ds =>
      rw [hf] at h
      simp only [fracText, List.cons_append, List.cons.injEq] at h
      rw [← h.1]; decide
  have h2 : scanFrac (fracText n.fp ++ (expText n.exp ++ r)) = (n.fp.getD [], expText n.exp ++ r) := by
    cases hf : n.fp with
    | some ds =>
      have := hv.fp
      rw [Decimal.frac, hf] at this
      simp only [fracText, List.cons_append, Option.getD_some]
      exact scanDigits_app this hexp
    | none =>
      simp only [fracText, List.nil_append, Option.getD_none]
      unfold scanFrac
      split
      · rename_i s heq
        exfalso
        cases hx : n.exp with
        | none => rw [hx] at heq; exact hm.point hf hx s heq
        | some p =>
          obtain ⟨a, sg, ds⟩ := p
          rw [hx] at heq
          simp only [expText, List.cons_append, List.cons.injEq] at heq
          rcases (hv.exp a sg ds hx).1 with rfl | rfl
          · exact absurd heq.1 (by decide)
          · exact absurd heq.1 (by decide)
      · rfl
  have h3 := expText_munch hv hm
  have hne : (n.ip ++ n.fp.getD []).isEmpty = false := by
    cases h : n.ip ++ n.fp.getD [] with
    | nil => exact absurd h hv.some_digit
    | cons a l => rfl
  unfold scanDecimal
  rw [List.append_assoc, List.append_assoc, h1]
  simp only [h2, h3, hne]
  rfl

/-! ## What is read is the longest literal -/

theorem scanExp_long {s : Text} (hs : NoDigit s) : ∃ x, s = expText x ++ (scanExp s).2 ∧
    (scanExp s).1 = expVal x ∧
    (∀ c sg ds, x = some (c, sg, ds) → (c = 'e' ∨ c = 'E') ∧ ds ≠ [] ∧ ∀ d ∈ ds, isDigit d = true) ∧
    NoDigit (scanExp s).2 ∧ (x = none → (scanExp s).2 = s ∧ ∀ (c : Char) (sg : Option Bool) (d : Char)
      (r' : Text), (c = 'e' ∨ c = 'E') → isDigit d = true → s ≠ c :: (signText sg ++ d :: r')) := by
  cases s with
  | nil => exact ⟨none, rfl, rfl, by simp, hs, fun _ => ⟨rfl, fun _ _ _ _ _ _ h => by cases h⟩⟩
  | cons c r =>
    have triv : scanExp (c :: r) = (0, c :: r) → (∀ (c' : Char) (sg : Option Bool) (d : Char) (r' : Text),
          (c' = 'e' ∨ c' = 'E') → isDigit d = true → c :: r ≠ c' :: (signText sg ++ d :: r')) →
        ∃ x, c :: r = expText x ++ (scanExp (c :: r)).2 ∧ (scanExp (c :: r)).1 = expVal x ∧
          (∀ c sg ds, x = some (c, sg, ds) → (c = 'e' ∨ c = 'E') ∧ ds ≠ [] ∧ ∀ d ∈ ds, isDigit d = true) ∧
          NoDigit (scanExp (c :: r)).2 ∧ (x = none → (scanExp (c :: r)).2 = c :: r ∧
            ∀ (c' : Char) (sg : Option Bool) (d : Char) (r' : Text), (c' = 'e' ∨ c' = 'E') →
              isDigit d = true → c :: r ≠ c' :: (signText sg ++ d :: r')) := by
      intro h h'
      rw [h]
      exact ⟨none, rfl, rfl, by simp, hs, fun _ => ⟨rfl, h'⟩⟩
    by_cases hc : c = 'e' ∨ c = 'E'
    · cases hE : scanExpDigits r with
      | none =>
        apply triv
        · simp [scanExp, hc, hE]
        · intro c' sg d r' _ hd h
          simp only [List.cons.injEq] at h
          rw [h.2] at hE
          exact scanExpDigits_some sg hd r' hE
      | some p =>
        obtain ⟨e, rest⟩ := p
        have hs' : scanExp (c :: r) = (e, rest) := by simp [scanExp, hc, hE]
        rw [hs']
        have key : ∀ (neg : Bool) (sg : Option Bool) (body : Text), r = signText sg ++ body →
            (neg = true ↔ sg = some true) →
            (if (scanDigits body).1.isEmpty then none else
              some (if neg then -(digitsVal (scanDigits body).1 : Int) else digitsVal (scanDigits body).1,
                (scanDigits body).2)) = some (e, rest) →
            ∃ x, c :: r = expText (some x) ++ rest ∧ e = expVal (some x) ∧ (∀ c sg ds, x = (c, sg, ds) →
              (c = 'e' ∨ c = 'E') ∧ ds ≠ [] ∧ ∀ d ∈ ds, isDigit d = true) ∧ NoDigit rest := by
          intro neg sg body hb hneg h
          split at h
          · cases h
          · rename_i hne
            simp only [Option.some.injEq, Prod.mk.injEq] at h
            obtain ⟨k1, k2, k3⟩ := scanDigits_sound body
            refine ⟨(c, sg, (scanDigits body).1), ?_, ?_, ?_, ?_⟩
            · rw [hb, ← h.2]
              simp only [expText, List.cons_append, List.append_assoc, ← k1]
            · rw [← h.1]
              simp only [expVal]
              cases neg with
              | true => rw [if_pos rfl, if_pos (hneg.1 rfl)]
              | false => rw [if_neg (by simp), if_neg (fun h => by simpa using hneg.2 h)]
            · intro c' sg' ds' h'
              cases h'
              exact ⟨hc, fun e => by rw [e] at hne; exact hne rfl, k2⟩
            · rw [← h.2]; exact k3
        have fin : (∃ x, c :: r = expText (some x) ++ rest ∧ e = expVal (some x) ∧
            (∀ c sg ds, x = (c, sg, ds) → (c = 'e' ∨ c = 'E') ∧ ds ≠ [] ∧ ∀ d ∈ ds, isDigit d = true) ∧
            NoDigit rest) →
            ∃ x, c :: r = expText x ++ rest ∧ e = expVal x ∧
              (∀ c sg ds, x = some (c, sg, ds) →
                (c = 'e' ∨ c = 'E') ∧ ds ≠ [] ∧ ∀ d ∈ ds, isDigit d = true) ∧
              NoDigit rest ∧ (x = none → rest = c :: r ∧ ∀ (c' : Char) (sg : Option Bool) (d : Char)
                (r' : Text), (c' = 'e' ∨ c' = 'E') → isDigit d = true →
                  c :: r ≠ c' :: (signText sg ++ d :: r')) := by
          rintro ⟨x, k1, k2, k3, k4⟩
          exact ⟨some x, k1, k2, fun c sg ds h => k3 c sg ds (by cases h; rfl), k4, fun h => by cases h⟩
        unfold scanExpDigits at hE
        split at hE
        rename_i neg body heq
        unfold expSign at heq
        split at heq
        · cases heq
          exact fin (key true (some true) _ rfl (by simp) hE)
        · cases heq
          exact fin (key false (some false) _ rfl (by simp) hE)
        · cases heq
          exact fin (key false none _ rfl (by simp) hE)
    · apply triv
      · simp [scanExp, hc]
      · intro c' sg d r' hc' _ h
        simp only [List.cons.injEq] at h
        exact hc (h.1 ▸ hc')

theorem scanFrac_long {s : Text} (hs : NoDigit s) : ∃ fp : Option Text, s = fracText fp ++ (scanFrac s).2 ∧
    (scanFrac s).1 = fp.getD [] ∧ (∀ c ∈ fp.getD [], isDigit c = true) ∧ NoDigit (scanFrac s).2 ∧
    (fp = none → ∀ r', (scanFrac s).2 ≠ '.' :: r') := by
  unfold scanFrac
  split
  · rename_i s
    obtain ⟨k1, k2, k3⟩ := scanDigits_sound s
    exact ⟨some (scanDigits s).1, by simp only [fracText, List.cons_append, ← k1], rfl, k2, k3,
      fun h => by cases h⟩
  · rename_i hne
    exact ⟨none, rfl, rfl, by simp, hs, fun _ r' h => hne r' h⟩

theorem scanDecimal_long {s : Text} {q : Rat} {r : Text} (h : scanDecimal s = some (q, r)) :
    ∃ n : Decimal, n.neg = false ∧ s = n.ip ++ fracText n.fp ++ expText n.exp ++ r ∧ q = n.abs ∧
      n.Form ∧ Munch n r := by
  obtain ⟨a1, a2, a3⟩ := scanDigits_sound s
  obtain ⟨fp, b1, b2, b3, b4, b5⟩ := scanFrac_long a3
  obtain ⟨x, c1, c2, c3, c4, c5⟩ := scanExp_long b4
  unfold scanDecimal at h
  simp only at h
  split at h
  · cases h
  · rename_i hne
    simp only [Option.some.injEq, Prod.mk.injEq] at h
    obtain ⟨h1, h2⟩ := h
    rw [h2] at c1 c4 c5
    refine ⟨⟨false, (scanDigits s).1, fp, x⟩, rfl, ?_, ?_, ⟨a2, b3, ?_, c3⟩, ⟨c4, ?_, ?_⟩⟩
    · conv_lhs => rw [a1, b1, c1]
      simp
    · rw [← h1, b2, c2]
      rfl
    · intro e
      simp only [Decimal.frac] at e
      rw [b2] at hne
      rw [e] at hne
      exact hne rfl
    · rintro hf hx r' rfl
      exact b5 hf r' (c5 hx).1.symm
    · rintro hx c sg d r' hc hd rfl
      exact (c5 hx).2 c sg d r' hc hd (c5 hx).1.symm

theorem scanDecimal_none {s : Text} : scanDecimal s = none ↔
    ¬ ∃ n : Decimal, ∃ r, n.Form ∧ s = n.ip ++ fracText n.fp ++ expText n.exp ++ r := by
  constructor
  · rintro h ⟨n, r, hf, rfl⟩
    unfold scanDecimal at h
    simp only at h
    split at h
    · rename_i he
      rw [List.isEmpty_iff, List.append_eq_nil_iff] at he
      obtain ⟨e1, e2⟩ := he
      cases hi : n.ip with
      | cons c l =>
        have := hf.ip c (by simp [hi])
        simp [scanDigits, hi, this] at e1
      | nil =>
        cases hp : n.fp with
        | none => exact hf.some_digit (by simp [hi, Decimal.frac, hp])
        | some ds =>
          have hd : scanDigits (n.ip ++ fracText n.fp ++ expText n.exp ++ r) =
              ([], '.' :: (ds ++ expText n.exp ++ r)) := by
            rw [hi, hp]
            simp [scanDigits, fracText,
              show isDigit '.' = false by decide]
          rw [hd] at e2
          cases ds with
          | nil => exact hf.some_digit (by simp [hi, Decimal.frac, hp])
          | cons d ds =>
            have := hf.fp d (by simp [Decimal.frac, hp])
            simp [scanFrac, scanDigits, this] at e2
    · cases h
  · intro h
    cases hs : scanDecimal s with
    | none => rfl
    | some p =>
      obtain ⟨q, r⟩ := p
      obtain ⟨n, _, h1, _, h2, _⟩ := scanDecimal_long hs
      exact absurd ⟨n, r, h2, h1⟩ h

/-! ## `std::from_chars` -/

/-- The text of a minus sign, if there is one. -/
def minusText (neg : Bool) : Text := if neg then ['-'] else []

/-- The text `s` begins with a number of value `v`, and continues with `r`: the longest decimal literal
(within the range of `double`), or one of the names `infinity`, `inf` and `nan` in any case (the longest
one, with letters, digits and underscores in parentheses after `nan`), after an optional minus sign. -/
inductive Reads : Text → Val → Text → Prop
  | literal (n : Decimal) (r : Text) : n.Valid → Munch n r → Reads (n.text ++ r) (.finite n.value) r
  | infinity (neg : Bool) (w r : Text) : w.map lower = "infinity".toList →
      Reads (minusText neg ++ w ++ r) .inf r
  | inf (neg : Bool) (w r : Text) : w.map lower = "inf".toList →
      (∀ w' r', w'.map lower = "inity".toList → r ≠ w' ++ r') → Reads (minusText neg ++ w ++ r) .inf r
  | nan (neg : Bool) (w r : Text) : w.map lower = "nan".toList →
      (∀ p r', (∀ c ∈ p, isPayload c = true) → r ≠ '(' :: (p ++ ')' :: r')) →
      Reads (minusText neg ++ w ++ r) .nan r
  | nanPayload (neg : Bool) (w p r : Text) : w.map lower = "nan".toList → (∀ c ∈ p, isPayload c = true) →
      Reads (minusText neg ++ w ++ '(' :: (p ++ ')' :: r)) .nan r

theorem take_name {w r name : Text} {k : Nat} (hw : w.map lower = name) (hk : name.length = k) :
    (w ++ r).take k = w ∧ (w ++ r).drop k = r := by
  have : w.length = k := by rw [← hk, ← hw, List.length_map]
  subst this
  exact ⟨by simp, by simp⟩

theorem minusSign_name {w r : Text} {c : Char} {name : Text} (hw : w.map lower = c :: name)
    (hc : c ≠ '-') : ∀ neg, minusSign (minusText neg ++ w ++ r) = (neg, w ++ r) := by
  intro neg
  cases neg with
  | true => rfl
  | false =>
    cases w with
    | nil => cases hw
    | cons a w =>
      simp only [List.map_cons, List.cons.injEq] at hw
      have ha : a ≠ '-' := by
        rintro rfl
        exact hc (hw.1.symm.trans (by decide))
      show minusSign (a :: (w ++ r)) = _
      unfold minusSign
      split
      · rename_i heq; cases heq; exact absurd rfl ha
      · rfl

theorem scanSpecial_infinity {w r : Text} (hw : w.map lower = "infinity".toList) :
    scanSpecial (w ++ r) = some (.inf, r) := by
  obtain ⟨h1, h2⟩ := take_name (r := r) hw (k := 8) rfl
  unfold scanSpecial
  rw [h1, if_pos hw, h2]

theorem scanSpecial_inf {w r : Text} (hw : w.map lower = "inf".toList)
    (hr : ∀ w' r', w'.map lower = "inity".toList → r ≠ w' ++ r') :
    scanSpecial (w ++ r) = some (.inf, r) := by
  obtain ⟨h1, h2⟩ := take_name (r := r) hw (k := 3) rfl
  have h8 : ((w ++ r).take 8).map lower ≠ "infinity".toList := by
    intro h
    have hl : w.length = 3 := by
      have := congrArg List.length hw
      rwa [List.length_map] at this
    have e : (w ++ r).take 8 = w ++ r.take 5 := by
      rw [List.take_append, List.take_of_length_le (by omega), hl]
    rw [e, List.map_append, hw] at h
    have h5 : (r.take 5).map lower = "inity".toList := by
      have : "inf".toList ++ (r.take 5).map lower = "inf".toList ++ "inity".toList := h
      exact List.append_cancel_left this
    exact hr (r.take 5) (r.drop 5) h5 (List.take_append_drop 5 r).symm
  unfold scanSpecial
  rw [if_neg h8, h1, if_pos hw, h2]

theorem scanSpecial_nan {w r : Text} (hw : w.map lower = "nan".toList) :
    scanSpecial (w ++ r) = some (.nan, r) := by
  obtain ⟨h1, h2⟩ := take_name (r := r) hw (k := 3) rfl
  have h8 : ((w ++ r).take 8).map lower ≠ "infinity".toList := by
    intro h
    have : (((w ++ r).take 8).map lower).take 3 = "inf".toList := by rw [h]; rfl
    rw [← List.map_take, List.take_take, show min 3 8 = 3 by rfl, h1, hw] at this
    exact absurd this (by decide)
  unfold scanSpecial
  rw [if_neg h8, h1, hw, if_neg (by decide), if_pos rfl, h2]

theorem nanTail_payload {p r : Text} (hp : ∀ c ∈ p, isPayload c = true) :
    nanTail ('(' :: (p ++ ')' :: r)) = r := by
  have := (takeWhile_append_stop (p := isPayload) (f := p) (r := ')' :: r) hp
    (by intro c r' h; cases h; decide)).2
  simp only [nanTail, this]

theorem nanTail_id {r : Text}
    (hr : ∀ p r', (∀ c ∈ p, isPayload c = true) → r ≠ '(' :: (p ++ ')' :: r')) : nanTail r = r := by
  unfold nanTail
  split
  · rename_i r'
    split
    · rename_i r'' h
      exfalso
      refine hr (r'.takeWhile isPayload) r'' (fun c hc => mem_takeWhile hc) ?_
      rw [← h, List.takeWhile_append_dropWhile]
    · rfl
  · rfl

theorem nanTail_cases (r : Text) :
    (nanTail r = r ∧ ∀ p r', (∀ c ∈ p, isPayload c = true) → r ≠ '(' :: (p ++ ')' :: r')) ∨
    ∃ p, (∀ c ∈ p, isPayload c = true) ∧ r = '(' :: (p ++ ')' :: nanTail r) := by
  by_cases h : ∃ p r', (∀ c ∈ p, isPayload c = true) ∧ r = '(' :: (p ++ ')' :: r')
  · right
    obtain ⟨p, r', hp, rfl⟩ := h
    exact ⟨p, hp, by rw [nanTail_payload hp]⟩
  · left
    have h' : ∀ p r', (∀ c ∈ p, isPayload c = true) → r ≠ '(' :: (p ++ ')' :: r') :=
      fun p r' hp e => h ⟨p, r', hp, e⟩
    exact ⟨nanTail_id h', h'⟩

theorem nan_reads (neg : Bool) {body r : Text} (hp : scanSpecial body = some (.nan, r)) :
    Reads (minusText neg ++ body) .nan (nanTail r) := by
  have hw : (body.take 3).map lower = "nan".toList ∧ body.drop 3 = r := by
    unfold scanSpecial at hp
    split at hp
    · cases hp
    · split at hp
      · cases hp
      · split at hp
        · rename_i h; cases hp; exact ⟨h, rfl⟩
        · cases hp
  obtain ⟨hw, rfl⟩ := hw
  rcases nanTail_cases (body.drop 3) with ⟨h1, h2⟩ | ⟨p, h1, h2⟩
  · have := Reads.nan neg (body.take 3) (body.drop 3) hw h2
    rw [h1]
    rwa [List.append_assoc, List.take_append_drop] at this
  · have := Reads.nanPayload neg (body.take 3) p (nanTail (body.drop 3)) hw h1
    rw [← h2] at this
    rwa [List.append_assoc, List.take_append_drop] at this

/-- `std::from_chars` reads exactly the longest number at the beginning of the text. -/
theorem fromCharsDouble_exact {s : Text} {v : Val} {r : Text} :
    fromCharsDouble s = some (v, r) ↔ Reads s v r := by
  constructor
  · have key : ∀ (neg : Bool) (body : Text),
        fromCharsBody neg body =
          some (v, r) → Reads (minusText neg ++ body) v r := by
      intro neg body h
      unfold fromCharsBody at h
      split at h
      · rename_i r' hp
        cases h
        exact nan_reads neg hp
      · rename_i p hnn hp
        cases h
        unfold scanSpecial at hp
        split at hp
        · rename_i hw
          cases hp
          have := Reads.infinity neg (body.take 8) (body.drop 8) hw
          rwa [List.append_assoc, List.take_append_drop] at this
        · rename_i h8
          split at hp
          · rename_i hw
            cases hp
            have := Reads.inf neg (body.take 3) (body.drop 3) hw (by
              intro w' r' hw' hr
              apply h8
              have hl : w'.length = 5 := by
                have := congrArg List.length hw'
                rwa [List.length_map] at this
              have h3 : (body.take 3).length = 3 := by
                have := congrArg List.length hw
                rwa [List.length_map] at this
              have : body.take 8 = body.take 3 ++ w' := by
                conv_lhs => rw [← List.take_append_drop 3 body, hr]
                rw [List.take_append, List.take_of_length_le (h3.trans_le (by omega)), h3, List.take_append,
                  List.take_of_length_le hl.le, hl]
                simp
              rw [this, List.map_append, hw, hw']
              rfl)
            rwa [List.append_assoc, List.take_append_drop] at this
          · split at hp
            · cases hp
              exact absurd rfl (hnn _)
            · cases hp
      · split at h
        · cases h
        · rename_i q rest hq
          split at h
          · rename_i hlt
            obtain ⟨n, n1, n2, n3, n4, n5⟩ := scanDecimal_long hq
            cases h
            have := Reads.literal { n with neg := neg } r ⟨⟨n4.ip, n4.fp, n4.some_digit, n4.exp⟩, by
              rw [n3] at hlt; exact hlt⟩ ⟨n5.digit, n5.point, n5.exp⟩
            have e1 : ({ n with neg := neg } : Decimal).text ++ r = minusText neg ++ body := by
              rw [n2]
              simp [Decimal.text, minusText]
            have e2 : ({ n with neg := neg } : Decimal).value = if neg then -q else q := by
              rw [n3]; rfl
            rwa [e1, e2] at this
          · cases h
    intro h
    have hs : s = minusText (minusSign s).1 ++ (minusSign s).2 := by
      unfold minusSign
      split <;> rfl
    rw [hs]
    exact key _ _ h
  · intro h
    cases h with
    | literal n _ hv hm =>
      have h1 := scanDecimal_munch n hv.toForm hm
      have h2 : scanSpecial (n.ip ++ fracText n.fp ++ expText n.exp ++ r) = none :=
        not_special_of (fun c r' h => abs_text_head n hv.toForm r c r' h)
      have h3 : minusSign (n.text ++ r) = (n.neg, n.ip ++ fracText n.fp ++ expText n.exp ++ r) := by
        unfold Decimal.text
        cases hn : n.neg with
        | true => simp [minusSign]
        | false =>
          have : ∀ s : Text, (∀ c r', s = c :: r' → isDigit c = true ∨ c = '.') →
              minusSign s = (false, s) := by
            intro s hs
            unfold minusSign
            split
            · exact absurd (hs _ _ rfl) (by decide)
            · rfl
          simpa using this _ (fun c r' h => abs_text_head n hv.toForm r c r' h)
      unfold fromCharsDouble fromCharsBody
      rw [h3]
      simp only [h2, h1]
      rw [if_pos hv.range]
      rfl
    | infinity neg w _ hw =>
      unfold fromCharsDouble fromCharsBody
      rw [minusSign_name hw (by decide) neg]
      simp only [scanSpecial_infinity hw]
    | inf neg w _ hw hr =>
      unfold fromCharsDouble fromCharsBody
      rw [minusSign_name hw (by decide) neg]
      simp only [scanSpecial_inf hw hr]
    | nan neg w _ hw hr =>
      unfold fromCharsDouble fromCharsBody
      rw [minusSign_name hw (by decide) neg]
      simp only [scanSpecial_nan hw, nanTail_id hr]
    | nanPayload neg w p _ hw hp =>
      unfold fromCharsDouble fromCharsBody
      rw [minusSign_name hw (by decide) neg]
      simp only [scanSpecial_nan hw, nanTail_payload hp]

/-- It fails exactly where no number begins. -/
theorem fromCharsDouble_none {s : Text} : fromCharsDouble s = none ↔ ∀ v r, ¬ Reads s v r := by
  constructor
  · intro h v r hr
    rw [fromCharsDouble_exact.2 hr] at h
    cases h
  · intro h
    cases hs : fromCharsDouble s with
    | none => rfl
    | some p => exact absurd (fromCharsDouble_exact.1 hs) (h p.1 p.2)

end Guanaqo.Duration
