import Verif.Duration.Spec
import Mathlib.Tactic.Linarith
import Mathlib.Tactic.Ring
import Mathlib.Tactic.NormNum
import Mathlib.Algebra.Order.Ring.Rat

/-!
# Scanning decimal numbers
-/

namespace Guanaqo.Duration

/-- A text that does not begin with a digit. -/
def NoDigit (r : Text) : Prop := ∀ c r', r = c :: r' → isDigit c = false

theorem takeWhile_append_stop {p : Char → Bool} {f r : Text} (hf : ∀ c ∈ f, p c = true)
    (hr : ∀ c r', r = c :: r' → p c = false) : (f ++ r).takeWhile p = f ∧ (f ++ r).dropWhile p = r := by
  induction f with
  | nil =>
    cases r with
    | nil => exact ⟨rfl, rfl⟩
    | cons c r =>
      have := hr c r rfl
      simp [this]
  | cons a f ih =>
    have ha := hf a (by simp)
    obtain ⟨h1, h2⟩ := ih (fun c hc => hf c (by simp [hc]))
    simp only [List.cons_append, List.takeWhile_cons, List.dropWhile_cons, ha, if_true, h1, h2, and_self]

theorem mem_takeWhile {p : Char → Bool} {s : Text} {c : Char} (h : c ∈ s.takeWhile p) : p c = true := by
  induction s with
  | nil => simp at h
  | cons a s ih =>
    rw [List.takeWhile_cons] at h
    split at h
    · rcases List.mem_cons.1 h with rfl | h
      · assumption
      · exact ih h
    · simp at h

theorem dropWhile_head {p : Char → Bool} {s : Text} {c : Char} {r : Text}
    (h : s.dropWhile p = c :: r) : p c = false := by
  induction s with
  | nil => simp at h
  | cons a s ih =>
    rw [List.dropWhile_cons] at h
    split at h
    · exact ih h
    · rename_i hp
      cases h
      simpa using hp

theorem scanDigits_app {f r : Text} (hf : ∀ c ∈ f, isDigit c = true) (hr : NoDigit r) :
    scanDigits (f ++ r) = (f, r) := by
  obtain ⟨h1, h2⟩ := takeWhile_append_stop hf hr
  simp only [scanDigits, h1, h2]

theorem scanDigits_sound (s : Text) :
    s = (scanDigits s).1 ++ (scanDigits s).2 ∧ (∀ c ∈ (scanDigits s).1, isDigit c = true) ∧
      NoDigit (scanDigits s).2 :=
  ⟨(List.takeWhile_append_dropWhile).symm, fun _ hc => mem_takeWhile hc,
    fun _ _ hc => dropWhile_head hc⟩

theorem not_digit_of {c : Char} (h : c = 'e' ∨ c = 'E' ∨ c = '.' ∨ c = '-' ∨ c = '+') :
    isDigit c = false := by
  rcases h with rfl | rfl | rfl | rfl | rfl <;> decide

/-- What may follow a literal without changing its meaning: nothing that continues it. -/
def EndsNumber (r : Text) : Prop :=
  ∀ c r', r = c :: r' → isDigit c = false ∧ c ≠ '.' ∧ c ≠ 'e' ∧ c ≠ 'E'

theorem scanExp_app {x : Option (Char × Option Bool × Text)}
    (hx : ∀ c sg ds, x = some (c, sg, ds) →
      (c = 'e' ∨ c = 'E') ∧ ds ≠ [] ∧ ∀ d ∈ ds, isDigit d = true)
    {r : Text} (hr : EndsNumber r) : scanExp (expText x ++ r) = (expVal x, r) := by
  cases x with
  | none =>
    simp only [expText, List.nil_append, expVal]
    cases r with
    | nil => rfl
    | cons c r =>
      obtain ⟨_, _, h1, h2⟩ := hr c r rfl
      simp [scanExp, h1, h2]
  | some p =>
    obtain ⟨c, sg, ds⟩ := p
    obtain ⟨hc, hne, hd⟩ := hx c sg ds rfl
    have hnd : NoDigit r := fun c r' e => (hr c r' e).1
    have hE : scanExpDigits (signText sg ++ ds ++ r) =
        some (if sg = some true then -(digitsVal ds : Int) else digitsVal ds, r) := by
      have hs := scanDigits_app hd hnd
      have hemp : ds.isEmpty = false := by cases ds <;> simp_all
      obtain ⟨d, ds', rfl⟩ := List.exists_cons_of_ne_nil hne
      have hd0 := hd d (by simp)
      unfold scanExpDigits
      cases sg with
      | none =>
        have h1 : d ≠ '-' := by rintro rfl; revert hd0; decide
        have h2 : d ≠ '+' := by rintro rfl; revert hd0; decide
        have hm : expSign (signText none ++ (d :: ds') ++ r) = (false, (d :: ds') ++ r) := by
          simp only [signText, List.nil_append, List.cons_append]
          unfold expSign
          split
          · rename_i heq; cases heq; exact absurd rfl h1
          · rename_i heq; cases heq; exact absurd rfl h2
          · rfl
        rw [hm]
        simp only [hs]
        rfl
      | some b =>
        cases b with
        | true =>
          simp only [signText, List.cons_append, List.nil_append, expSign]
          rw [← List.cons_append, hs]
          rfl
        | false =>
          simp only [signText, List.cons_append, List.nil_append, expSign]
          rw [← List.cons_append, hs]
          rfl
    show scanExp (c :: (signText sg ++ ds) ++ r) = _
    rw [List.cons_append]
    unfold scanExp
    simp only [hc, if_true, hE, Option.getD_some, expVal]

theorem scanFrac_app {fp : Option Text} (hf : ∀ c ∈ fp.getD [], isDigit c = true) {r : Text}
    (hr : ∀ c r', r = c :: r' → isDigit c = false ∧ c ≠ '.') :
    scanFrac (fracText fp ++ r) = (fp.getD [], r) := by
  cases fp with
  | none =>
    simp only [fracText, List.nil_append, Option.getD_none]
    cases r with
    | nil => rfl
    | cons c r =>
      have := (hr c r rfl).2
      unfold scanFrac
      split
      · rename_i heq; cases heq; exact absurd rfl this
      · rfl
  | some ds =>
    simp only [fracText, List.cons_append, Option.getD_some]
    exact scanDigits_app hf (fun c r' e => (hr c r' e).1)

theorem expText_ends {x : Option (Char × Option Bool × Text)}
    (hx : ∀ c sg ds, x = some (c, sg, ds) →
      (c = 'e' ∨ c = 'E') ∧ ds ≠ [] ∧ ∀ d ∈ ds, isDigit d = true)
    {r : Text} (hr : EndsNumber r) :
    ∀ c r', expText x ++ r = c :: r' → isDigit c = false ∧ c ≠ '.' := by
  intro c r' h
  cases x with
  | none =>
    obtain ⟨h1, h2, _⟩ := hr c r' h
    exact ⟨h1, h2⟩
  | some p =>
    obtain ⟨a, sg, ds⟩ := p
    obtain ⟨hc, _⟩ := hx a sg ds rfl
    simp only [expText, List.cons_append, List.cons.injEq] at h
    rw [← h.1]
    rcases hc with rfl | rfl <;> decide

theorem scanDecimal_app (n : Decimal) (hv : n.Form) {r : Text} (hr : EndsNumber r) :
    scanDecimal (n.ip ++ fracText n.fp ++ expText n.exp ++ r) = some (n.abs, r) := by
  have h1 : scanDigits (n.ip ++ (fracText n.fp ++ (expText n.exp ++ r))) =
      (n.ip, fracText n.fp ++ (expText n.exp ++ r)) := by
    apply scanDigits_app hv.ip
    intro c r' h
    cases hf : n.fp with
    | none =>
      rw [hf] at h
      exact (expText_ends hv.exp hr c r' h).1
    | some ds =>
      rw [hf] at h
      simp only [fracText, List.cons_append, List.cons.injEq] at h
      rw [← h.1]; decide
  have h2 := scanFrac_app hv.fp (expText_ends hv.exp hr)
  have h3 := scanExp_app hv.exp hr
  have hne : (n.ip ++ n.fp.getD []).isEmpty = false := by
    cases h : n.ip ++ n.fp.getD [] with
    | nil => exact absurd h hv.some_digit
    | cons a l => rfl
  unfold scanDecimal
  rw [List.append_assoc, List.append_assoc, h1]
  simp only [h2, h3, hne]
  rfl

theorem not_special_of {s : Text} (h : ∀ c r, s = c :: r → isDigit c = true ∨ c = '.') :
    scanSpecial s = none := by
  cases s with
  | nil => rfl
  | cons c r =>
    have hl : lower c ≠ 'i' ∧ lower c ≠ 'n' := by
      rcases h c r rfl with h | rfl
      · have h' : c.isDigit = true := by
          simp only [isDigit, Bool.and_eq_true, decide_eq_true_eq] at h
          simp only [Char.isDigit, Bool.and_eq_true, decide_eq_true_eq]
          exact h
        have hu : lower c = c := by
          unfold lower Char.toLower
          have h2 : c.val ≤ 57 := by
            simp only [Char.isDigit, Bool.and_eq_true, decide_eq_true_eq] at h'
            exact h'.2
          split
          · rename_i hx
            have := hx.1
            exact absurd (UInt32.le_trans this h2) (by decide)
          · rfl
        rw [hu]
        constructor <;> rintro rfl <;> exact absurd h' (by decide)
      · decide
    unfold scanSpecial
    simp only [List.take_succ_cons, List.map_cons]
    have e1 : "infinity".toList = 'i' :: "nfinity".toList := rfl
    have e2 : "inf".toList = 'i' :: "nf".toList := rfl
    have e3 : "nan".toList = 'n' :: "an".toList := rfl
    rw [e1, e2, e3]
    simp [hl.1, hl.2]

/-- The text of a literal's magnitude begins with a digit or a decimal point. -/
theorem abs_text_head (n : Decimal) (hv : n.Form) (r : Text) (c : Char) (r' : Text)
    (h : n.ip ++ fracText n.fp ++ expText n.exp ++ r = c :: r') : isDigit c = true ∨ c = '.' := by
  cases hi : n.ip with
  | cons a l =>
    rw [hi] at h
    simp only [List.cons_append, List.cons.injEq] at h
    rw [← h.1]
    exact .inl (hv.ip a (by simp [hi]))
  | nil =>
    cases hf : n.fp with
    | none =>
      exact absurd (by simp [hi, Decimal.frac, hf]) hv.some_digit
    | some ds =>
      rw [hi, hf] at h
      simp only [fracText, List.nil_append, List.cons_append, List.cons.injEq] at h
      exact .inr h.1.symm

/-- `std::from_chars` on a literal. -/
theorem fromCharsDouble_app (n : Decimal) (hv : n.Valid) {r : Text} (hr : EndsNumber r) :
    fromCharsDouble (n.text ++ r) = some (.finite n.value, r) := by
  have h1 := scanDecimal_app n hv.toForm hr
  have h2 : scanSpecial (n.ip ++ fracText n.fp ++ expText n.exp ++ r) = none :=
    not_special_of (fun c r' h => abs_text_head n hv.toForm r c r' h)
  unfold Decimal.text Decimal.value
  cases hn : n.neg with
  | true =>
    have : fromCharsDouble ('-' :: (n.ip ++ fracText n.fp ++ expText n.exp ++ r)) =
        some (.finite (-n.abs), r) := by
      unfold fromCharsDouble fromCharsBody
      simp only [minusSign, h2, h1]
      rw [if_pos hv.range]
      rfl
    simpa using this
  | false =>
    have hm : ∀ s : Text, (∀ c r', s = c :: r' → isDigit c = true ∨ c = '.') →
        minusSign s = (false, s) := by
      intro s hs
      unfold minusSign
      split
      · exact absurd (hs _ _ rfl) (by decide)
      · rfl
    have : fromCharsDouble (n.ip ++ fracText n.fp ++ expText n.exp ++ r) =
        some (.finite n.abs, r) := by
      unfold fromCharsDouble fromCharsBody
      rw [hm _ (fun c r' h => abs_text_head n hv.toForm r c r' h)]
      simp only [h2, h1]
      rw [if_pos hv.range]
      rfl
    simpa using this

/-! ## Soundness of the scanner -/

theorem scanExp_sound (s : Text) : ∃ x, s = expText x ++ (scanExp s).2 ∧ (scanExp s).1 = expVal x ∧
    (∀ c sg ds, x = some (c, sg, ds) → (c = 'e' ∨ c = 'E') ∧ ds ≠ [] ∧ ∀ d ∈ ds, isDigit d = true) := by
  have triv : ∀ s, scanExp s = (0, s) → ∃ x, s = expText x ++ (scanExp s).2 ∧ (scanExp s).1 = expVal x ∧
      (∀ c sg ds, x = some (c, sg, ds) →
        (c = 'e' ∨ c = 'E') ∧ ds ≠ [] ∧ ∀ d ∈ ds, isDigit d = true) := by
    intro s h
    exact ⟨none, by rw [h]; rfl, by rw [h]; rfl, by simp⟩
  cases s with
  | nil => exact triv _ rfl
  | cons c r =>
    by_cases hc : c = 'e' ∨ c = 'E'
    · cases hE : scanExpDigits r with
      | none =>
        apply triv
        simp [scanExp, hc, hE]
      | some p =>
        obtain ⟨e, rest⟩ := p
        have hs : scanExp (c :: r) = (e, rest) := by simp [scanExp, hc, hE]
        rw [hs]
        have key : ∀ (neg : Bool) (sg : Option Bool) (body : Text), r = signText sg ++ body →
            (neg = true ↔ sg = some true) →
            (if (scanDigits body).1.isEmpty then none else
              some (if neg then -(digitsVal (scanDigits body).1 : Int) else digitsVal (scanDigits body).1,
                (scanDigits body).2)) = some (e, rest) →
            ∃ x, c :: r = expText x ++ rest ∧ e = expVal x ∧ (∀ c sg ds, x = some (c, sg, ds) →
              (c = 'e' ∨ c = 'E') ∧ ds ≠ [] ∧ ∀ d ∈ ds, isDigit d = true) := by
          intro neg sg body hb hneg h
          split at h
          · cases h
          · rename_i hne
            simp only [Option.some.injEq, Prod.mk.injEq] at h
            obtain ⟨k1, k2, k3⟩ := scanDigits_sound body
            refine ⟨some (c, sg, (scanDigits body).1), ?_, ?_, ?_⟩
            · rw [hb, ← h.2]
              simp only [expText, List.cons_append, List.append_assoc, ← k1]
            · rw [← h.1]
              simp only [expVal]
              cases neg with
              | true => rw [if_pos rfl, if_pos (hneg.1 rfl)]
              | false => rw [if_neg (by simp), if_neg (fun h => by simpa using hneg.2 h)]
            · intro c' sg' ds' h'
              cases h'
              exact ⟨hc, fun e => by rw [e] at hne; exact hne rfl, k2⟩
        unfold scanExpDigits at hE
        split at hE
        rename_i neg body heq
        unfold expSign at heq
        split at heq
        · cases heq
          exact key true (some true) _ rfl (by simp) hE
        · cases heq
          exact key false (some false) _ rfl (by simp) hE
        · cases heq
          exact key false none _ rfl (by simp) hE
    · apply triv
      simp [scanExp, hc]

theorem scanFrac_sound (s : Text) : ∃ fp : Option Text, s = fracText fp ++ (scanFrac s).2 ∧
    (scanFrac s).1 = fp.getD [] ∧ ∀ c ∈ fp.getD [], isDigit c = true := by
  unfold scanFrac
  split
  · rename_i s
    obtain ⟨k1, k2, _⟩ := scanDigits_sound s
    exact ⟨some (scanDigits s).1, by simp only [fracText, List.cons_append, ← k1], rfl, k2⟩
  · exact ⟨none, rfl, rfl, by simp⟩

/-- What `std::from_chars` accepts as a finite number is a literal with that value. -/
theorem scanDecimal_sound {s : Text} {q : Rat} {r : Text} (h : scanDecimal s = some (q, r)) :
    ∃ n : Decimal, n.neg = false ∧ s = n.ip ++ fracText n.fp ++ expText n.exp ++ r ∧ q = n.abs ∧
      (DoubleRange q → n.Valid) := by
  obtain ⟨a1, a2, _⟩ := scanDigits_sound s
  obtain ⟨fp, b1, b2, b3⟩ := scanFrac_sound (scanDigits s).2
  obtain ⟨x, c1, c2, c3⟩ := scanExp_sound (scanFrac (scanDigits s).2).2
  unfold scanDecimal at h
  simp only at h
  split at h
  · cases h
  · rename_i hne
    simp only [Option.some.injEq, Prod.mk.injEq] at h
    obtain ⟨h1, h2⟩ := h
    rw [h2] at c1
    refine ⟨⟨false, (scanDigits s).1, fp, x⟩, rfl, ?_, ?_, ?_⟩
    · conv_lhs => rw [a1, b1, c1]
      simp
    · rw [← h1, b2, c2]
      rfl
    · intro hq
      refine ⟨⟨a2, b3, ?_, c3⟩, ?_⟩
      · intro e
        simp only [Decimal.frac] at e
        rw [b2] at hne
        rw [e] at hne
        exact hne rfl
      · rw [← h1, b2, c2] at hq
        exact hq

theorem fromCharsDouble_sound {s : Text} {q : Rat} {r : Text}
    (h : fromCharsDouble s = some (.finite q, r)) :
    ∃ n : Decimal, n.Valid ∧ s = n.text ++ r ∧ q = n.value := by
  have key : ∀ (neg : Bool) (body : Text),
      fromCharsBody neg body =
        some (.finite q, r) → ∃ n : Decimal, n.Valid ∧ (if neg then ['-'] else []) ++ body = n.text ++ r ∧
          q = n.value := by
    intro neg body h
    unfold fromCharsBody at h
    split at h
    · cases h
    · rename_i p _ hp
      cases h
      unfold scanSpecial at hp
      split at hp
      · cases hp
      · split at hp
        · cases hp
        · split at hp <;> cases hp
    · split at h
      · cases h
      · rename_i q' rest hq
        split at h
        · rename_i hlt
          obtain ⟨n, n1, n2, n3, n4⟩ := scanDecimal_sound hq
          have hv := n4 hlt
          simp only [Option.some.injEq, Prod.mk.injEq, Val.finite.injEq] at h
          refine ⟨{ n with neg := neg }, ⟨⟨hv.ip, hv.fp, hv.some_digit, hv.exp⟩, hv.range⟩, ?_, ?_⟩
          · rw [n2, ← h.2]
            simp [Decimal.text]
          · rw [← h.1, n3]
            rfl
        · cases h
  unfold fromCharsDouble at h
  have hs : s = (if (minusSign s).1 then ['-'] else []) ++ (minusSign s).2 := by
    unfold minusSign
    split <;> rfl
  obtain ⟨n, h1, h2, h3⟩ := key _ _ h
  exact ⟨n, h1, hs.trans h2, h3⟩

theorem nanTail_length (r : Text) : (nanTail r).length ≤ r.length := by
  unfold nanTail
  split
  · rename_i r'
    split
    · rename_i r'' h
      have := (List.dropWhile_sublist (l := r') isPayload).length_le
      rw [h] at this
      simp only [List.length_cons] at this ⊢
      omega
    · exact Nat.le_refl _
  · exact Nat.le_refl _

/-- `std::from_chars` consumes at least one character. -/
theorem fromCharsDouble_consumes {s : Text} {v : Val} {r : Text}
    (h : fromCharsDouble s = some (v, r)) : r.length < s.length := by
  have hsp : ∀ (body : Text) (v : Val) (r : Text), scanSpecial body = some (v, r) →
      r.length < body.length := by
    intro body v r hp
    unfold scanSpecial at hp
    have h8 : ∀ (w : Text) (k : Nat), 0 < w.length → (body.take k).map lower = w → 0 < k →
        (body.drop k).length < body.length := by
      intro w k hw h hk
      have := congrArg List.length h
      rw [List.length_map, List.length_take] at this
      rw [List.length_drop]
      omega
    split at hp
    · rename_i hx; cases hp; exact h8 _ 8 (by decide) hx (by decide)
    · split at hp
      · rename_i hx; cases hp; exact h8 _ 3 (by decide) hx (by decide)
      · split at hp
        · rename_i hx; cases hp; exact h8 _ 3 (by decide) hx (by decide)
        · cases hp
  have key : ∀ (neg : Bool) (body : Text),
      fromCharsBody neg body =
        some (v, r) → r.length < body.length := by
    intro neg body h
    unfold fromCharsBody at h
    split at h
    · rename_i r' hp
      cases h
      have h1 := hsp body .nan r' hp
      have h2 := nanTail_length r'
      omega
    · rename_i p _ hp
      cases h
      exact hsp body v r hp
    · split at h
      · cases h
      · rename_i q' rest hq
        split at h
        · rename_i hlt
          obtain ⟨n, n1, n2, n3, n4⟩ := scanDecimal_sound hq
          have hv := n4 hlt
          cases h
          have hpos : 0 < (n.ip ++ fracText n.fp).length := by
            have := hv.some_digit
            cases hi : n.ip with
            | cons a l => simp
            | nil =>
              cases hf : n.fp with
              | none => simp [hi, Decimal.frac, hf] at this
              | some ds => simp [fracText]
          rw [n2, List.length_append, List.length_append]
          omega
        · cases h
  unfold fromCharsDouble at h
  have hs : (minusSign s).2.length ≤ s.length := by
    unfold minusSign
    split <;> simp
  have := key _ _ h
  omega

end Guanaqo.Duration
