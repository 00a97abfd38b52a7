import Verif.Csv.ByExact
import Mathlib.Data.List.Forall2

/-! # Which fields are integers, and which (C97)

The fields that `csv_read` accepts as integers in the two configurations of `csv.tpp`, described as texts, and the rows and files they
make up. Nothing is excluded but fields of more than 63 characters (C44). -/

namespace Guanaqo.Csv

open FromChars (Ty isSpace scan signedVal)

/-! ## Specification -/

/-- A nonempty sequence of decimal digits. -/
def IsDigits (ds : List Char) : Prop := ds ≠ [] ∧ ∀ c ∈ ds, (digitVal c).isSome = true

/-- A sign, or none. -/
def IsSign (sg : List Char) : Prop := sg = [] ∨ sg = ['+'] ∨ sg = ['-']

/-- The number that a sign and digits denote. -/
def signedDigits (sg ds : List Char) : Int := if sg = ['-'] then -(digitsVal ds : Int) else digitsVal ds

/-- The fields that denote a number where `std::from_chars` is used: an optional plus sign, an optional minus sign and digits, whose value
fits the type. -/
def StdIntField (bits : Nat) (field : List Char) (v : Int) : Prop :=
  ∃ plus minus ds, (plus = [] ∨ plus = ['+']) ∧ (minus = [] ∨ minus = ['-']) ∧ IsDigits ds ∧ field = plus ++ (minus ++ ds) ∧
    v = signedDigits minus ds ∧ -(2 ^ (bits - 1) : Int) ≤ v ∧ v < (2 ^ (bits - 1) : Int)

/-- The fields that denote a number where `strtol` is used: blanks, an optional sign and digits, whose value fits `long`; it is cast to the
type. -/
def CIntField (t : Ty) (field : List Char) (v : Int) : Prop :=
  ∃ ws sg ds, (∀ c ∈ ws, isSpace c = true) ∧ IsSign sg ∧ IsDigits ds ∧ field = ws ++ (sg ++ ds) ∧
    -2 ^ 63 ≤ signedDigits sg ds ∧ signedDigits sg ds < 2 ^ 63 ∧ v = t.cast (signedDigits sg ds)

/-- A character that is no part of an integer, and not skipped before one. -/
structure CIntSep (sep : Char) : Prop where
  digit : digitVal sep = none
  plus : sep ≠ '+'
  minus : sep ≠ '-'
  blank : isSpace sep = false

/-- The fields on which the two configurations agree. -/
structure PortableInt (t : Ty) (field : List Char) : Prop where
  /-- blanks before a number are accepted by `strtol` only -/
  blank : ∀ c r, field = c :: r → isSpace c = true → ¬ ∃ v, CIntField t field v
  /-- `+-` before a number is accepted with `std::from_chars` only -/
  plusMinus : ∀ r, field = '+' :: '-' :: r → ¬ ∃ v, StdIntField t.bits field v
  /-- numbers that do not fit the type do not fit `long` either -/
  value : ∀ sg ds, IsSign sg → IsDigits ds → field = sg ++ ds → -2 ^ 63 ≤ signedDigits sg ds → signedDigits sg ds < 2 ^ 63 →
    t.Fits (signedDigits sg ds)

/-! ## The scan of `strtol` -/

/-- The sign and what follows. -/
def cSign : List Char → Bool × List Char
  | '+' :: r => (false, r)
  | '-' :: r => (true, r)
  | r => (false, r)

/-- What `strtol` converts, in terms of texts. -/
def strtolBody (t : Ty) (s : List Char) : Option (Int × List Char) :=
  (fromDigits 64 (cSign (s.dropWhile isSpace)).1 (cSign (s.dropWhile isSpace)).2).map fun p => (t.cast p.1, p.2)

theorem cSign_other {r : List Char} (h1 : r.head? ≠ some '+') (h2 : r.head? ≠ some '-') : cSign r = (false, r) := by
  unfold cSign
  split
  · exact absurd rfl h1
  · exact absurd rfl h2
  · rfl

theorem cSign_len (r : List Char) : cSign r = (r.head? == some '-', r.drop (FromChars.signLen r)) := by
  unfold cSign
  split
  · rfl
  · rfl
  · rename_i h1 h2
    cases r with
    | nil => rfl
    | cons c r =>
      have hp : c ≠ '+' := by rintro rfl; exact h1 r rfl
      have hm : c ≠ '-' := by rintro rfl; exact h2 r rfl
      rw [FromChars.signLen.eq_def]
      split
      · rename_i heq; cases heq; exact absurd rfl hp
      · rename_i heq; cases heq; exact absurd rfl hm
      · simp [hm]

theorem cSign_stops {sep : Char} (hs : CIntSep sep) (f r : List Char) : cSign (f ++ sep :: r) = ((cSign f).1, (cSign f).2 ++ sep :: r) := by
  cases f with
  | nil => exact cSign_other (by simpa using hs.plus) (by simpa using hs.minus)
  | cons c f =>
    by_cases hp : c = '+'
    · subst hp; rfl
    · by_cases hm : c = '-'
      · subst hm; rfl
      · rw [List.cons_append, cSign_other (by simpa using hp) (by simpa using hm), cSign_other (by simpa using hp) (by simpa using hm)]
        rfl

theorem strtolBody_stops {sep : Char} (hs : CIntSep sep) (t : Ty) (f r : List Char) :
    strtolBody t (f ++ sep :: r) = (strtolBody t f).map fun p => (p.1, p.2 ++ sep :: r) := by
  unfold strtolBody
  rw [dropWhile_append_stop _ _ _ _ hs.blank, cSign_stops hs]
  dsimp only
  rw [fromDigits_stops hs.digit]
  cases fromDigits 64 (cSign (f.dropWhile isSpace)).1 (cSign (f.dropWhile isSpace)).2 <;> rfl

theorem scan_body (s : List Char) :
    (((cSign (s.dropWhile isSpace)).2.takeWhile (fun c => (digitVal c).isSome)) = [] → scan 10 s = none) ∧
    (((cSign (s.dropWhile isSpace)).2.takeWhile (fun c => (digitVal c).isSome)) ≠ [] →
      ∃ k, scan 10 s = some ((cSign (s.dropWhile isSpace)).1, digitsVal ((cSign (s.dropWhile isSpace)).2.takeWhile (fun c => (digitVal c).isSome)), k) ∧
        k ≤ s.length ∧ s.drop k = (cSign (s.dropWhile isSpace)).2.dropWhile (fun c => (digitVal c).isSome)) := by
  have hpl : ∀ l, FromChars.prefixLen 10 l = 0 := by
    intro l
    rw [FromChars.prefixLen.eq_def]
    split <;> simp
  have hf : FromChars.isDig 10 = fun c => (digitVal c).isSome := by funext c; exact isDig_iff c
  have hsign : FromChars.signLen (s.dropWhile isSpace) ≤ (s.dropWhile isSpace).length := by
    rcases FromChars.signLen_cases (s.dropWhile isSpace) with ⟨_, h, _⟩ | ⟨_, h, h'⟩ | ⟨_, h, h'⟩
    · omega
    all_goals
      rw [h]
      cases hl : s.dropWhile isSpace with
      | nil => rw [hl] at h'; cases h'
      | cons c r => simp
  unfold scan
  simp only [hpl, hf, Nat.add_zero, List.drop_zero, drop_takeWhile, cSign_len]
  generalize hr : s.dropWhile isSpace = r1 at hsign ⊢
  generalize hd : (r1.drop (FromChars.signLen r1)).takeWhile (fun c => (digitVal c).isSome) = ds
  refine ⟨fun h => by simp [h], fun h => ?_⟩
  have hv : FromChars.valueOf 10 ds = digitsVal ds := by
    apply value_eq
    rw [← hd]
    intro c hc
    simpa using mem_takeWhile hc
  refine ⟨_, by rw [if_neg h, hv], ?_, ?_⟩
  · have h1 : s.length = (s.takeWhile isSpace).length + r1.length := by
      rw [← hr, ← List.length_append, List.takeWhile_append_dropWhile]
    have h2 : ds.length ≤ (r1.drop (FromChars.signLen r1)).length := by rw [← hd]; exact (List.takeWhile_sublist _).length_le
    rw [List.length_drop] at h2
    omega
  · rw [← drop_takeWhile (fun c => (digitVal c).isSome), hd]
    have h1 : s.drop (s.takeWhile isSpace).length = r1 := by rw [drop_takeWhile, hr]
    rw [← List.drop_drop, ← List.drop_drop, h1]

theorem nul_sep : CIntSep '\x00' := ⟨by decide, by decide, by decide, by decide⟩

/-- Commas, semicolons and bars are no part of an integer, and not skipped. -/
theorem cIntSep_examples : CIntSep ',' ∧ CIntSep ';' ∧ CIntSep '|' := by
  refine ⟨⟨?_, ?_, ?_, ?_⟩, ⟨?_, ?_, ?_, ?_⟩, ⟨?_, ?_, ?_, ?_⟩⟩ <;> decide

/-- `read_single` with `strtol`, in terms of texts; the NUL character after the buffer needs no special treatment. -/
theorem strtolSingle_body (t : Ty) (buf : List Char) : strtolSingle t buf = strtolBody t buf := by
  have key : ∀ str tl : List Char, buf = str ++ tl → buf.takeWhile (· != '\x00') = str →
      strtolSingle t buf = (strtolBody t str).map fun p => (p.1, p.2 ++ tl) := by
    intro str tl hb h0
    unfold strtolSingle
    rw [h0]
    obtain ⟨h1, h2⟩ := scan_body str
    unfold strtolBody fromDigits
    dsimp only
    generalize hn : (cSign (str.dropWhile isSpace)).1 = neg at h1 h2 ⊢
    generalize hd : (cSign (str.dropWhile isSpace)).2.takeWhile (fun c => (digitVal c).isSome) = ds at h1 h2 ⊢
    by_cases he : ds = []
    · rw [h1 he]; simp [he]
    · obtain ⟨k, hk, hle, hdr⟩ := h2 he
      rw [hk, ← hdr]
      have hemp : ds.isEmpty = false := by simpa using he
      simp only [hemp, Bool.false_eq_true, if_false]
      have hsv : signedVal neg (digitsVal ds) = (if neg = true then -(digitsVal ds : Int) else digitsVal ds) := rfl
      rw [hsv]
      have e63 : (2 : Int) ^ (64 - 1) = 2 ^ 63 := by norm_num
      rw [e63]
      generalize (if neg = true then -(digitsVal ds : Int) else digitsVal ds) = x
      by_cases hx : -2 ^ 63 ≤ x ∧ x < 2 ^ 63
      · rw [if_pos hx, if_pos hx, hb, List.drop_append_of_le_length hle]; rfl
      · rw [if_neg hx, if_neg hx]; rfl
  have hsplit := List.takeWhile_append_dropWhile (p := fun c : Char => c != '\x00') (l := buf)
  cases ht : buf.dropWhile (fun c : Char => c != '\x00') with
  | nil =>
    rw [ht, List.append_nil] at hsplit
    rw [key buf [] (by simp) hsplit]
    cases strtolBody t buf <;> simp
  | cons c r =>
    have hc0 : c = '\x00' := by
      have hne : buf.dropWhile (fun c : Char => c != '\x00') ≠ [] := by rw [ht]; simp
      have := List.head_dropWhile_not (fun c : Char => c != '\x00') hne
      simp only [ht, List.head_cons] at this
      simpa using this
    subst hc0
    rw [ht] at hsplit
    rw [key _ _ hsplit.symm rfl, ← strtolBody_stops nul_sep, hsplit]

/-- `read_single` with `strtol` consumes what it converts and stops at separators. -/
theorem strtolSingle_ok (t : Ty) {sep : Char} (hs : CIntSep sep) : SingleOk (strtolSingle t) sep where
  consumes := by
    intro s v r h
    rw [strtolSingle_body] at h
    unfold strtolBody at h
    cases hd : fromDigits 64 (cSign (s.dropWhile isSpace)).1 (cSign (s.dropWhile isSpace)).2 with
    | none => rw [hd] at h; cases h
    | some p =>
      obtain ⟨x, r'⟩ := p
      rw [hd] at h
      cases h
      obtain ⟨d, h1, h2⟩ := fromDigits_consumes hd
      rw [cSign_len] at h2
      dsimp only at h2
      refine ⟨s.takeWhile isSpace ++ ((s.dropWhile isSpace).take (FromChars.signLen (s.dropWhile isSpace)) ++ d), by simp [h1], ?_⟩
      rw [List.append_assoc, List.append_assoc, ← h2, List.take_append_drop, List.takeWhile_append_dropWhile]
  stops := by
    intro f r _
    rw [strtolSingle_body, strtolSingle_body]
    exact strtolBody_stops hs t f r

/-! ## Fields -/

theorem fromDigits_whole {bits : Nat} {neg : Bool} {s : List Char} {v : Int} : fromDigits bits neg s = some (v, []) ↔
    IsDigits s ∧ v = (if neg then -(digitsVal s : Int) else digitsVal s) ∧ -(2 ^ (bits - 1) : Int) ≤ v ∧ v < (2 ^ (bits - 1) : Int) := by
  constructor
  · intro h
    unfold fromDigits at h
    dsimp only at h
    by_cases he : (s.takeWhile (fun c => (digitVal c).isSome)).isEmpty = true
    · rw [if_pos he] at h; cases h
    · rw [if_neg he] at h
      generalize hw : (if neg = true then -(digitsVal (s.takeWhile (fun c => (digitVal c).isSome)) : Int)
        else digitsVal (s.takeWhile (fun c => (digitVal c).isSome))) = w at h
      by_cases hx : -(2 ^ (bits - 1) : Int) ≤ w ∧ w < (2 ^ (bits - 1) : Int)
      · rw [if_pos hx] at h
        injection h with h
        injection h with h3 h4
        have hs : s.takeWhile (fun c => (digitVal c).isSome) = s := by
          have := List.takeWhile_append_dropWhile (p := fun c => (digitVal c).isSome) (l := s)
          rwa [h4, List.append_nil] at this
        rw [hs] at hw he
        rw [h3] at hx hw
        refine ⟨⟨by simpa using he, ?_⟩, hw.symm, hx⟩
        intro c hc
        rw [← hs] at hc
        exact mem_takeWhile hc
      · rw [if_neg hx] at h; cases h
  · rintro ⟨⟨h1, h2⟩, rfl, h3⟩
    have e1 : s.takeWhile (fun c => (digitVal c).isSome) = s := takeWhile_id h2
    have e2 : s.dropWhile (fun c => (digitVal c).isSome) = [] := by
      have := List.takeWhile_append_dropWhile (p := fun c => (digitVal c).isSome) (l := s)
      rw [e1] at this
      have := congrArg List.length this
      rw [List.length_append] at this
      exact List.eq_nil_of_length_eq_zero (by omega)
    unfold fromDigits
    dsimp only
    rw [e1, e2, if_neg (by simpa using h1), if_pos h3]

theorem digits_head {ds : List Char} (h : IsDigits ds) {c : Char} {r : List Char} (e : ds = c :: r) : isSpace c = false ∧ c ≠ '+' ∧ c ≠ '-' := by
  have hc := h.2 c (by rw [e]; simp)
  refine ⟨FromChars.space_not_dig (base := 10) (by decide) (by rw [isDig_iff]; exact hc), ?_, ?_⟩
  · rintro rfl; exact absurd hc (by decide)
  · rintro rfl; exact absurd hc (by decide)

theorem cSign_digits {sg ds : List Char} (h1 : IsSign sg) (h2 : IsDigits ds) : cSign (sg ++ ds) = (decide (sg = ['-']), ds) := by
  rcases h1 with rfl | rfl | rfl
  · apply cSign_other
    · cases hd : ds with
      | nil => simp
      | cons c r => simpa using (digits_head h2 hd).2.1
    · cases hd : ds with
      | nil => simp
      | cons c r => simpa using (digits_head h2 hd).2.2
  · rfl
  · rfl

theorem signed_eq (sg ds : List Char) : signedDigits sg ds = if decide (sg = ['-']) = true then -(digitsVal ds : Int) else digitsVal ds := by
  unfold signedDigits
  by_cases h : sg = ['-'] <;> simp [h]

/-- C97. The fields that are numbers where `strtol` is used. -/
theorem c_int_field_iff (t : Ty) (field : List Char) (v : Int) : numberOfBy (strtolSingle t) field = some v ↔ CIntField t field v := by
  have hnum : numberOfBy (strtolSingle t) field = some v ↔
      ∃ x, fromDigits 64 (cSign (field.dropWhile isSpace)).1 (cSign (field.dropWhile isSpace)).2 = some (x, []) ∧ v = t.cast x := by
    unfold numberOfBy
    rw [strtolSingle_body]
    unfold strtolBody
    cases fromDigits 64 (cSign (field.dropWhile isSpace)).1 (cSign (field.dropWhile isSpace)).2 with
    | none => simp
    | some p =>
      obtain ⟨x, r⟩ := p
      cases r with
      | nil =>
        simp only [Option.map_some, Option.some.injEq, Prod.mk.injEq, and_true]
        constructor
        · rintro rfl; exact ⟨x, rfl, rfl⟩
        · rintro ⟨_, rfl, rfl⟩; rfl
      | cons c r => simp
  rw [hnum]
  have e63 : (2 : Int) ^ (64 - 1) = 2 ^ 63 := by norm_num
  constructor
  · rintro ⟨x, h, rfl⟩
    obtain ⟨h1, h2, h3, h4⟩ := fromDigits_whole.1 h
    rw [e63] at h3 h4
    have hl := cSign_len (field.dropWhile isSpace)
    obtain ⟨sg, hsg, hsp, hneg⟩ : ∃ sg, IsSign sg ∧ field.dropWhile isSpace = sg ++ (cSign (field.dropWhile isSpace)).2 ∧
        decide (sg = ['-']) = (cSign (field.dropWhile isSpace)).1 := by
      generalize field.dropWhile isSpace = r1
      unfold cSign
      split
      · exact ⟨['+'], .inr (.inl rfl), rfl, rfl⟩
      · exact ⟨['-'], .inr (.inr rfl), rfl, rfl⟩
      · exact ⟨[], .inl rfl, rfl, rfl⟩
    have hx : x = signedDigits sg (cSign (field.dropWhile isSpace)).2 := by rw [h2, signed_eq, hneg]
    refine ⟨field.takeWhile isSpace, sg, (cSign (field.dropWhile isSpace)).2, fun c hc => mem_takeWhile hc, hsg, h1, ?_, ?_, ?_, ?_⟩
    · conv_lhs => rw [← List.takeWhile_append_dropWhile (p := isSpace) (l := field), hsp]
    · rw [← hx]; exact h3
    · rw [← hx]; exact h4
    · rw [hx]
  · rintro ⟨ws, sg, ds, h1, h2, h3, rfl, h4, h5, rfl⟩
    have hdw : (ws ++ (sg ++ ds)).dropWhile isSpace = sg ++ ds := by
      obtain ⟨c, r, hc⟩ : ∃ c r, sg ++ ds = c :: r := by
        cases he : sg ++ ds with
        | nil => exact absurd (List.append_eq_nil_iff.1 he).2 h3.1
        | cons c r => exact ⟨c, r, rfl⟩
      have hsp : isSpace c = false := by
        rcases h2 with rfl | rfl | rfl
        · exact (digits_head h3 hc).1
        · rw [← (List.cons.inj hc).1]; decide
        · rw [← (List.cons.inj hc).1]; decide
      rw [hc, dropWhile_append_stop _ _ _ _ hsp]
      have : ws.dropWhile isSpace = [] := by
        have hw := takeWhile_id h1
        have := List.takeWhile_append_dropWhile (p := isSpace) (l := ws)
        rw [hw] at this
        have := congrArg List.length this
        rw [List.length_append] at this
        exact List.eq_nil_of_length_eq_zero (by omega)
      rw [this]; rfl
    refine ⟨signedDigits sg ds, ?_, rfl⟩
    rw [hdw, cSign_digits h2 h3]
    exact fromDigits_whole.2 ⟨h3, signed_eq sg ds, by rw [e63]; exact h4, by rw [e63]; exact h5⟩

/-- C97. The fields that are numbers where `std::from_chars` is used. -/
theorem std_int_field_iff (bits : Nat) (field : List Char) (v : Int) : numberOf (fromCharsInt bits) field = some v ↔ StdIntField bits field v := by
  have key : ∀ s : List Char, fromCharsInt bits s = some (v, []) ↔ ∃ minus ds, (minus = [] ∨ minus = ['-']) ∧ IsDigits ds ∧ s = minus ++ ds ∧
      v = signedDigits minus ds ∧ -(2 ^ (bits - 1) : Int) ≤ v ∧ v < (2 ^ (bits - 1) : Int) := by
    intro s
    by_cases hm : s.head? = some '-'
    · cases s with
      | nil => cases hm
      | cons c s =>
        simp only [List.head?_cons, Option.some.injEq] at hm
        subst hm
        rw [fromCharsInt_minus, fromDigits_whole]
        constructor
        · rintro ⟨h1, h2, h3⟩; exact ⟨['-'], s, .inr rfl, h1, rfl, h2, h3⟩
        · rintro ⟨minus, ds, rfl | rfl, h1, h2, h3, h4⟩
          · exact absurd rfl (digits_head h1 h2.symm).2.2
          · have : s = ds := (List.cons.inj h2).2
            subst this
            exact ⟨h1, h3, h4⟩
    · rw [fromCharsInt_plain _ hm, fromDigits_whole]
      constructor
      · rintro ⟨h1, h2, h3⟩; exact ⟨[], s, .inl rfl, h1, rfl, h2, h3⟩
      · rintro ⟨minus, ds, rfl | rfl, h1, h2, h3, h4⟩
        · have : s = ds := h2
          subst this
          exact ⟨h1, h3, h4⟩
        · rw [h2] at hm; exact absurd rfl hm
  have hnum : numberOf (fromCharsInt bits) field = some v ↔ readSingle (fromCharsInt bits) field = some (v, []) := by
    unfold numberOf
    cases readSingle (fromCharsInt bits) field with
    | none => simp
    | some p =>
      obtain ⟨a, r⟩ := p
      cases r <;> simp
  rw [hnum]
  by_cases hp : field.head? = some '+'
  · cases field with
    | nil => cases hp
    | cons c r =>
      simp only [List.head?_cons, Option.some.injEq] at hp
      subst hp
      show fromCharsInt bits r = _ ↔ _
      rw [key]
      constructor
      · rintro ⟨minus, ds, h1, h2, h3, h4⟩
        exact ⟨['+'], minus, ds, .inr rfl, h1, h2, by rw [h3]; rfl, h4⟩
      · rintro ⟨plus, minus, ds, rfl | rfl, h1, h2, h3, h4⟩
        · exfalso
          rcases h1 with rfl | rfl
          · exact (digits_head h2 h3.symm).2.1 rfl
          · cases h3
        · exact ⟨minus, ds, h1, h2, (List.cons.inj h3).2, h4⟩
  · have hs : readSingle (fromCharsInt bits) field = fromCharsInt bits field := by
      unfold readSingle
      split
      · exact absurd rfl hp
      · rfl
    rw [hs, key]
    constructor
    · rintro ⟨minus, ds, h1, h2, h3, h4⟩
      exact ⟨[], minus, ds, .inl rfl, h1, h2, h3, h4⟩
    · rintro ⟨plus, minus, ds, rfl | rfl, h1, h2, h3, h4⟩
      · exact ⟨minus, ds, h1, h2, h3, h4⟩
      · rw [h3] at hp; exact absurd rfl hp

theorem int_sign_unique {sg sg' ds ds' : List Char} (h : IsSign sg) (h' : IsSign sg') (hd : IsDigits ds) (hd' : IsDigits ds')
    (e : sg ++ ds = sg' ++ ds') : sg = sg' ∧ ds = ds' := by
  have e1 := cSign_digits h hd
  have e2 := cSign_digits h' hd'
  rw [e, e2] at e1
  have h3 : ds' = ds := congrArg Prod.snd e1
  subst h3
  exact ⟨List.append_cancel_right e, rfl⟩

/-- C97, exactly: the two configurations give the same number for a field, or both refuse it, iff it is portable. -/
theorem same_int_field_iff (t : Ty) (ht : t ∈ [Ty.short, .int, .long, .llong]) (field : List Char) :
    numberOfBy (strtolSingle t) field = numberOf (fromCharsInt t.bits) field ↔ PortableInt t field := by
  have hb : t.signed = true ∧ t.bits ≤ 64 := by
    simp only [List.mem_cons, List.not_mem_nil, or_false] at ht
    rcases ht with rfl | rfl | rfl | rfl <;> decide
  have hfit : ∀ x, t.Fits x ↔ (-(2 ^ (t.bits - 1) : Int) ≤ x ∧ x < (2 ^ (t.bits - 1) : Int)) := by
    intro x
    unfold FromChars.Ty.Fits
    rw [if_pos hb.1]
  have hpow : (2 ^ (t.bits - 1) : Int) ≤ 2 ^ 63 := pow_le_pow_right₀ (by norm_num) (by omega)
  have hext : numberOfBy (strtolSingle t) field = numberOf (fromCharsInt t.bits) field ↔ ∀ v, CIntField t field v ↔ StdIntField t.bits field v := by
    constructor
    · intro h v
      rw [← c_int_field_iff, ← std_int_field_iff, h]
    · intro h
      apply Option.ext
      intro v
      rw [c_int_field_iff, std_int_field_iff]
      exact h v
  rw [hext]
  constructor
  · intro h
    refine ⟨?_, ?_, ?_⟩
    · rintro c r rfl hc ⟨v, hv⟩
      obtain ⟨plus, minus, ds, hp, hm, hd, e, _⟩ := (h v).1 hv
      rcases hp with rfl | rfl
      · rcases hm with rfl | rfl
        · have := (digits_head hd e.symm).1
          rw [hc] at this; cases this
        · rw [(List.cons.inj e).1] at hc; revert hc; decide
      · rw [(List.cons.inj e).1] at hc; revert hc; decide
    · rintro r rfl ⟨v, hv⟩
      obtain ⟨ws, sg, ds, h1, h2, h3, e, _⟩ := (h v).2 hv
      cases ws with
      | cons c ws =>
        have hc := h1 c (by simp)
        rw [← (List.cons.inj e).1] at hc
        revert hc; decide
      | nil =>
        rcases h2 with rfl | rfl | rfl
        · exact (digits_head h3 e.symm).2.1 rfl
        · exact (digits_head h3 (List.cons.inj e).2.symm).2.2 rfl
        · have := (List.cons.inj e).1
          revert this; decide
    · rintro sg ds h1 h2 rfl h3 h4
      obtain ⟨plus, minus, ds', hp, hm, hd, e, hv, hlo, hhi⟩ := (h (t.cast (signedDigits sg ds))).1 ⟨[], sg, ds, by simp, h1, h2, rfl, h3, h4, rfl⟩
      -- the same decomposition, or `+-`, which is not a sign
      have hfin : sg = plus ++ minus ∧ ds = ds' := by
        rcases hp with rfl | rfl
        · exact int_sign_unique h1 (by rcases hm with rfl | rfl; exacts [.inl rfl, .inr (.inr rfl)]) h2 hd e
        · rcases hm with rfl | rfl
          · exact int_sign_unique h1 (.inr (.inl rfl)) h2 hd e
          · exfalso
            rcases h1 with rfl | rfl | rfl
            · exact (digits_head h2 e).2.1 rfl
            · exact (digits_head h2 (List.cons.inj e).2).2.2 rfl
            · have := (List.cons.inj e).1
              revert this; decide
      obtain ⟨rfl, rfl⟩ := hfin
      have hsd : signedDigits (plus ++ minus) ds = signedDigits minus ds := by
        rcases hp with rfl | rfl
        · rfl
        · rcases hm with rfl | rfl
          · rfl
          · exfalso
            rcases h1 with h1 | h1 | h1 <;> revert h1 <;> decide
      rw [hsd, ← hv]
      exact (hfit _).2 ⟨hlo, hhi⟩
  · intro h v
    constructor
    · rintro ⟨ws, sg, ds, h1, h2, h3, e, h4, h5, rfl⟩
      cases ws with
      | cons c ws => exact absurd ⟨_, ⟨_, sg, ds, h1, h2, h3, e, h4, h5, rfl⟩⟩ (h.blank c _ e (h1 c (by simp)))
      | nil =>
        have hf := h.value sg ds h2 h3 e h4 h5
        have hc := cast_of_fits t ht hf
        rw [hc]
        have hf' := (hfit _).1 hf
        rcases h2 with rfl | rfl | rfl
        · exact ⟨[], [], ds, .inl rfl, .inl rfl, h3, e, rfl, hf'⟩
        · exact ⟨['+'], [], ds, .inr rfl, .inl rfl, h3, e, rfl, hf'⟩
        · exact ⟨[], ['-'], ds, .inl rfl, .inr rfl, h3, e, rfl, hf'⟩
    · rintro hstd
      obtain ⟨plus, minus, ds, hp, hm, hd, e, hv, hlo, hhi⟩ := hstd
      have hc : t.cast v = v := cast_of_fits t ht ((hfit v).2 ⟨hlo, hhi⟩)
      have build : ∀ sg, IsSign sg → field = sg ++ ds → signedDigits sg ds = v → CIntField t field v := by
        intro sg hsg e' hsd
        exact ⟨[], sg, ds, by simp, hsg, hd, e', by rw [hsd]; omega, by rw [hsd]; omega, by rw [hsd, hc]⟩
      rcases hp with rfl | rfl <;> rcases hm with rfl | rfl
      · exact build [] (.inl rfl) e hv.symm
      · exact build ['-'] (.inr (.inr rfl)) e hv.symm
      · exact build ['+'] (.inr (.inl rfl)) e hv.symm
      · exact absurd ⟨v, ⟨['+'], ['-'], ds, .inr rfl, .inr rfl, hd, e, hv, hlo, hhi⟩⟩ (h.plusMinus ds e)

/-! ## Rows and files -/

theorem mapM_option_iff {α β : Type} (g : α → Option β) : ∀ (l : List α) (r : List β), l.mapM g = some r ↔ List.Forall₂ (fun a b => g a = some b) l r
  | [], r => by
    rw [List.mapM_nil]
    constructor
    · intro h; cases h; exact .nil
    · intro h; cases h; rfl
  | a :: l, r => by
    rw [List.mapM_cons]
    constructor
    · intro h
      cases ha : g a with
      | none => rw [ha] at h; cases h
      | some b =>
        rw [ha] at h
        cases hl : l.mapM g with
        | none => rw [hl] at h; cases h
        | some bs => rw [hl] at h; cases h; exact .cons ha ((mapM_option_iff g l bs).1 hl)
    · intro h
      cases h with
      | cons ha hl => rw [ha, (mapM_option_iff g l _).2 hl]; rfl

theorem rowSpecBy_iff {F : Type} {single : List Char → Option (F × List Char)} {Field : List Char → F → Prop}
    (hf : ∀ g v, numberOfBy single g = some v ↔ Field g v) (sep : Char) (n : Nat) (line : List Char) (vs : List F) :
    rowSpecBy single sep n line = some vs ↔ vs.length = n ∧ List.Forall₂ Field (rowFields sep line) vs := by
  have h1 : List.Forall₂ Field (rowFields sep line) vs ↔ (rowFields sep line).mapM (numberOfBy single) = some vs := by
    rw [mapM_option_iff]
    have : Field = fun a b => numberOfBy single a = some b := by
      funext a b; exact propext (hf a b).symm
    rw [this]
  unfold rowSpecBy
  constructor
  · intro e
    split at e
    · rename_i hl
      have := h1.2 e
      exact ⟨by rw [← this.length_eq, hl], this⟩
    · cases e
  · rintro ⟨h2, h3⟩
    rw [if_pos (by rw [h3.length_eq, h2])]
    exact h1.1 h3

/-- C97. `csv_read` where `strtol` is used, for all files of fields with at most 63 characters: the matrix of the numbers in the file, or
`csv_read_error`. -/
theorem c_int_read_iff (t : Ty) {sep : Char} (hs : CIntSep sep) (eager dbg : Bool) (cols : Nat) (rows : List RowText)
    (hrows : ∀ r ∈ rows, r.Ok sep) (more : List Char) :
    (∀ M : List (List Int), List.Forall₂ (fun r vs => vs.length = cols ∧ List.Forall₂ (CIntField t) (rowFields sep r.line) vs) rows M →
      csvReadBy (strtolSingle t) eager dbg sep rows.length cols { rest := fileText rows ++ more } = .ok (M, { rest := more })) ∧
    ((¬ ∃ M : List (List Int), List.Forall₂ (fun r vs => vs.length = cols ∧ List.Forall₂ (CIntField t) (rowFields sep r.line) vs) rows M) →
      csvReadBy (strtolSingle t) eager dbg sep rows.length cols { rest := fileText rows ++ more } = .error (.throw .csvReadError)) := by
  have h := csvReadBy_exact (strtolSingle t) sep (strtolSingle_ok t hs) eager dbg cols rows hrows more
  have hM : ∀ M, rows.mapM (fun r => rowSpecBy (strtolSingle t) sep cols r.line) = some M ↔
      List.Forall₂ (fun (r : RowText) vs => vs.length = cols ∧ List.Forall₂ (CIntField t) (rowFields sep r.line) vs) rows M := by
    intro M
    rw [mapM_option_iff]
    have : (fun (r : RowText) (vs : List Int) => vs.length = cols ∧ List.Forall₂ (CIntField t) (rowFields sep r.line) vs) =
        fun r vs => rowSpecBy (strtolSingle t) sep cols r.line = some vs := by
      funext r vs; exact propext (rowSpecBy_iff (c_int_field_iff t) sep cols r.line vs).symm
    rw [this]
  constructor
  · intro M hm
    rw [(hM M).2 hm] at h
    exact h
  · intro hno
    cases e : rows.mapM (fun r => rowSpecBy (strtolSingle t) sep cols r.line) with
    | none => rw [e] at h; exact h
    | some M => exact absurd ⟨M, (hM M).1 e⟩ hno

/-- C97, for files of portable fields: both configurations give the same. Missing: the other fields, for which this is false. -/
theorem same_ints_partial (t : Ty) (ht : t ∈ [Ty.short, .int, .long, .llong]) {sep : Char} (hs : CIntSep sep) (eager dbg : Bool) (cols : Nat)
    (rows : List RowText) (hrows : ∀ r ∈ rows, r.Ok sep) (hp : ∀ r ∈ rows, ∀ g ∈ rowFields sep r.line, PortableInt t g) (more : List Char) :
    csvReadBy (strtolSingle t) eager dbg sep rows.length cols { rest := fileText rows ++ more } =
      csvRead (fromCharsInt t.bits) eager dbg sep rows.length cols { rest := fileText rows ++ more } := by
  have h1 := csvReadBy_exact (strtolSingle t) sep (strtolSingle_ok t hs) eager dbg cols rows hrows more
  have h2 := csv_read_exact (fromCharsInt t.bits) sep (fromCharsInt_ok t.bits sep hs.digit hs.minus) hs.plus eager dbg cols rows hrows more
  have hcongr : ∀ {α β : Type} (l : List α) (g g' : α → Option β), (∀ a ∈ l, g a = g' a) → l.mapM g = l.mapM g' := by
    intro α β l g g' h
    induction l with
    | nil => rfl
    | cons a l ih =>
      rw [List.mapM_cons, List.mapM_cons, h a (by simp), ih (fun b hb => h b (by simp [hb]))]
  have he : rows.mapM (fun r => rowSpecBy (strtolSingle t) sep cols r.line) = rows.mapM (fun r => rowSpec (fromCharsInt t.bits) sep cols r.line) := by
    apply hcongr
    intro r hr
    unfold rowSpecBy rowSpec
    split
    · exact hcongr _ _ _ fun g hg => (same_int_field_iff t ht g).2 (hp r hr g hg)
    · rfl
  rw [he] at h1
  cases e : rows.mapM (fun r => rowSpec (fromCharsInt t.bits) sep cols r.line) with
  | none => rw [e] at h1 h2; rw [h1, h2]
  | some M => rw [e] at h1 h2; rw [h1, h2]

/-! ## Concrete cases -/

/-- Non-vacuity: fields that are portable, and fields that are not. -/
example : PortableInt .short "-32768".toList ∧ PortableInt .short "abc".toList ∧ ¬ PortableInt .short "70000".toList ∧
    ¬ PortableInt .int " 7".toList ∧ ¬ PortableInt .int "+-7".toList := by
  refine ⟨?_, ?_, ?_, ?_, ?_⟩ <;> rw [← same_int_field_iff _ (by decide)] <;> decide +kernel

end Guanaqo.Csv
