import Verif.Duration.Props
import Verif.Duration.Munch
import Mathlib.Data.List.TakeWhile

/-!
# Exactly what `parse_duration` does with a text

A relation between a text and the outcome, stated without the parser, and the proof that the parser
computes it (`parse_exact`): which texts are accepted and with what result, which ones raise which
exception, and for which ones the behaviour is undefined.
-/

namespace Guanaqo.Duration

/-! ## Specification -/

/-- The characters skipped before a number. -/
def skipped : Text := ['+', '0', ' ']

/-- The characters at which a unit ends. -/
def enders : Text := ['+', '-', '0', '1', '2', '3', '4', '5', '6', '7', '8', '9', '.', ' ']

/-- Nothing but plus signs, zeros and blanks. -/
def Blank (s : Text) : Prop := ∀ c ∈ s, c ∈ skipped

/-- `s` consists of plus signs, zeros and blanks, then a number of value `v`, then the text `unit` up to
the next character that ends a unit, and then `rest`. -/
structure Piece (s : Text) (v : Val) (unit rest : Text) : Prop where
  split : ∃ lead body, s = lead ++ body ∧ Blank lead ∧ (∀ c r, body = c :: r → c ∉ skipped) ∧
    Reads body v (unit ++ rest)
  unit : ∀ c ∈ unit, c ∉ enders
  rest : ∀ c r, rest = c :: r → c ∈ enders

/-- `v`, in units of `u` seconds, is the number `n` of ticks (and both candidates for the rounding fit the
representation). -/
def Converts (d : DurTy) (v : Val) (u : Rat) (n : Int) : Prop :=
  ∃ q, v = .finite q ∧ d.fits (d.conv q (u * d.perSec)).1 ∧ d.fits ((d.conv q (u * d.perSec)).1 + 1) ∧
    n = (d.conv q (u * d.perSec)).ticks

/-- What parsing the text `s` does to a duration of `t` ticks: the ticks at the end, and whether it
returns, which exception it throws, or whether its behaviour is undefined. -/
inductive Outcome (d : DurTy) : Int → Text → Int → Res Unit → Prop
  | done (t : Int) (s : Text) : Blank s → Outcome d t s t (.ok ())
  | term (t : Int) (s : Text) (v : Val) (unit rest : Text) (u : Rat) (n t' : Int) (r : Res Unit) :
      Piece s v unit rest → UnitLen unit u → Converts d v u n → d.fits (t + n) →
      Outcome d (t + n) rest t' r → Outcome d t s t' r
  | badValue (t : Int) (lead body : Text) : Blank lead → body ≠ [] →
      (∀ c r, body = c :: r → c ∉ skipped) → (∀ v r, ¬ Reads body v r) →
      Outcome d t (lead ++ body) t (.error (.throw .invalidDurationValue))
  | badUnit (t : Int) (s : Text) (v : Val) (unit rest : Text) : Piece s v unit rest →
      (∀ u, ¬ UnitLen unit u) → Outcome d t s t (.error (.throw .invalidDurationUnits))
  | undefined (t : Int) (s : Text) (v : Val) (unit rest : Text) (u : Rat) : Piece s v unit rest →
      UnitLen unit u → (∀ n, Converts d v u n → ¬ d.fits (t + n)) →
      Outcome d t s t (.error .ub)

/-! ## The parser computes it -/

theorem isTrim_iff {c : Char} : isTrim c = true ↔ c ∈ skipped := by
  simp [isTrim, skipped, or_assoc]

theorem isDigit_iff {c : Char} :
    isDigit c = true ↔ c ∈ (['0', '1', '2', '3', '4', '5', '6', '7', '8', '9'] : Text) := by
  constructor
  · intro h
    simp only [isDigit, Bool.and_eq_true, decide_eq_true_eq] at h
    have h1 : 48 ≤ c.toNat := h.1
    have h2 : c.toNat ≤ 57 := h.2
    have hc : c = Char.ofNat c.toNat := by simp
    generalize c.toNat = k at h1 h2 hc
    subst hc
    have : k = 48 ∨ k = 49 ∨ k = 50 ∨ k = 51 ∨ k = 52 ∨ k = 53 ∨ k = 54 ∨ k = 55 ∨ k = 56 ∨ k = 57 := by
      omega
    rcases this with rfl | rfl | rfl | rfl | rfl | rfl | rfl | rfl | rfl | rfl <;> decide
  · intro h
    simp only [List.mem_cons, List.not_mem_nil, or_false] at h
    rcases h with rfl | rfl | rfl | rfl | rfl | rfl | rfl | rfl | rfl | rfl <;> decide

theorem isStop_iff {c : Char} : isStop c = true ↔ c ∈ enders := by
  simp only [isStop, Bool.or_eq_true, beq_iff_eq, isDigit_iff, enders, List.mem_cons,
    List.not_mem_nil, or_false]
  tauto

theorem blank_iff {s : Text} : Blank s ↔ s.dropWhile isTrim = [] := by
  rw [List.dropWhile_eq_nil_iff]
  exact forall₂_congr fun c _ => isTrim_iff.symm

theorem trim_split {lead body : Text} (hl : Blank lead) (hb : ∀ c r, body = c :: r → c ∉ skipped) :
    (lead ++ body).dropWhile isTrim = body := by
  rw [dropWhile_lead (fun c hc => isTrim_iff.2 (hl c hc))]
  cases body with
  | nil => rfl
  | cons c r =>
    rw [List.dropWhile_cons, if_neg]
    intro h
    exact hb c r rfl (isTrim_iff.1 h)

theorem trim_exists (s : Text) : ∃ lead, s = lead ++ s.dropWhile isTrim ∧ Blank lead ∧
    ∀ c r, s.dropWhile isTrim = c :: r → c ∉ skipped := by
  refine ⟨s.takeWhile isTrim, List.takeWhile_append_dropWhile.symm,
    fun c hc => isTrim_iff.1 (mem_takeWhile hc), fun c r h hc => ?_⟩
  have := dropWhile_head h
  rw [isTrim_iff.2 hc] at this
  cases this

theorem unit_split {unit rest : Text} (hu : ∀ c ∈ unit, c ∉ enders)
    (hr : ∀ c r, rest = c :: r → c ∈ enders) :
    (unit ++ rest).takeWhile (fun c => !isStop c) = unit ∧
      (unit ++ rest).dropWhile (fun c => !isStop c) = rest :=
  takeWhile_append_stop (p := fun c => !isStop c)
    (fun c hc => by
      have := hu c hc
      rw [← isStop_iff] at this
      simpa using this)
    (fun c r h => by simpa using isStop_iff.2 (hr c r h))

/-- The parts the parser sees. -/
theorem piece_iff {s : Text} {v : Val} {unit rest : Text} : Piece s v unit rest ↔
    ∃ rem, fromCharsDouble (s.dropWhile isTrim) = some (v, rem) ∧
      rem.takeWhile (fun c => !isStop c) = unit ∧ rem.dropWhile (fun c => !isStop c) = rest := by
  constructor
  · rintro ⟨⟨lead, body, rfl, hl, hb, hr⟩, hu, hrest⟩
    obtain ⟨h1, h2⟩ := unit_split hu hrest
    exact ⟨unit ++ rest, by rw [trim_split hl hb]; exact fromCharsDouble_exact.2 hr, h1, h2⟩
  · rintro ⟨rem, hf, rfl, rfl⟩
    obtain ⟨lead, h1, h2, h3⟩ := trim_exists s
    refine ⟨⟨lead, _, h1, h2, h3, ?_⟩, ?_, ?_⟩
    · rw [List.takeWhile_append_dropWhile]
      exact fromCharsDouble_exact.1 hf
    · intro c hc he
      have := mem_takeWhile hc
      rw [isStop_iff.2 he] at this
      cases this
    · intro c r h
      have := dropWhile_head h
      rw [← isStop_iff]
      simpa using this

theorem fromChars_nil : fromCharsDouble [] = none := rfl

theorem converts_iff {d : DurTy} {v : Val} {u : Rat} {n : Int} :
    cast d v u = .ok n ↔ Converts d v u n := by
  constructor
  · intro h
    unfold cast at h
    split at h
    · rename_i q
      simp only at h
      split at h
      · rename_i hf
        cases h
        exact ⟨q, rfl, hf.1, hf.2, rfl⟩
      · cases h
    · cases h
  · rintro ⟨q, rfl, h1, h2, rfl⟩
    simp only [cast]
    rw [if_pos ⟨h1, h2⟩]

theorem cast_error {d : DurTy} {v : Val} {u : Rat} {e : Fault} (h : cast d v u = .error e) : e = .ub := by
  unfold cast at h
  split at h
  · simp only at h
    split at h
    · cases h
    · cases h; rfl
  · cases h; rfl

theorem unitSeconds_iff {u : Text} {q : Rat} : unitSeconds u = some q ↔ UnitLen u q :=
  ⟨unitLen_of, unitSeconds_of⟩

theorem parseSingle_piece {d : DurTy} {t : Int} {s : Text} {v : Val} {unit rest : Text}
    (hp : Piece s v unit rest) : parseSingle d t s =
      match unitSeconds unit with
      | none => .error (.throw .invalidDurationUnits)
      | some u => cast d v u >>= fun n => addTicks d t n >>= fun t => .ok (t, rest) := by
  obtain ⟨rem, h1, rfl, rfl⟩ := piece_iff.1 hp
  unfold parseSingle
  split
  · rename_i he
    rw [he, fromChars_nil] at h1
    cases h1
  · rename_i s' hne
    rw [h1]
    rfl

theorem parseSingle_value {d : DurTy} {t : Int} {lead body : Text} (hl : Blank lead) (hne : body ≠ [])
    (hb : ∀ c r, body = c :: r → c ∉ skipped) (hr : ∀ v r, ¬ Reads body v r) :
    parseSingle d t (lead ++ body) = .error (.throw .invalidDurationValue) := by
  unfold parseSingle
  rw [trim_split hl hb]
  split
  · exact absurd rfl hne
  · rw [fromCharsDouble_none.2 hr]

theorem parseSingle_blank {d : DurTy} {t : Int} {s : Text} (h : Blank s) :
    parseSingle d t s = .ok (t, []) := by
  unfold parseSingle
  rw [blank_iff.1 h]

/-- Every text is blank, has no number where one is needed, or begins with a number. -/
theorem three_ways (s : Text) : Blank s ∨
    (∃ lead body, s = lead ++ body ∧ Blank lead ∧ body ≠ [] ∧ (∀ c r, body = c :: r → c ∉ skipped) ∧
      ∀ v r, ¬ Reads body v r) ∨ ∃ v unit rest, Piece s v unit rest := by
  by_cases hb : Blank s
  · exact .inl hb
  · right
    cases hf : fromCharsDouble (s.dropWhile isTrim) with
    | none =>
      left
      obtain ⟨lead, h1, h2, h3⟩ := trim_exists s
      exact ⟨lead, _, h1, h2, fun h => hb (blank_iff.2 h), h3, fromCharsDouble_none.1 hf⟩
    | some p =>
      right
      exact ⟨p.1, _, _, piece_iff.2 ⟨p.2, hf, rfl, rfl⟩⟩

theorem piece_ne_nil {s : Text} {v : Val} {unit rest : Text} (h : Piece s v unit rest) : s ≠ [] := by
  rintro rfl
  obtain ⟨rem, h1, _⟩ := piece_iff.1 h
  cases h1

/-- One run of `parse_single_duration`, case by case. -/
theorem single_cases (d : DurTy) (t : Int) (s : Text) :
    (Blank s ∧ parseSingle d t s = .ok (t, [])) ∨
    (∃ v unit rest u n, Piece s v unit rest ∧ UnitLen unit u ∧ Converts d v u n ∧ d.fits (t + n) ∧
      parseSingle d t s = .ok (t + n, rest)) ∨
    (∃ e, parseSingle d t s = .error e ∧ Outcome d t s t (.error e)) := by
  rcases three_ways s with h | ⟨lead, body, rfl, h1, h2, h3, h4⟩ | ⟨v, unit, rest, hp⟩
  · exact .inl ⟨h, parseSingle_blank h⟩
  · exact .inr (.inr ⟨_, parseSingle_value h1 h2 h3 h4, .badValue t lead body h1 h2 h3 h4⟩)
  · right
    rw [parseSingle_piece hp]
    cases hu : unitSeconds unit with
    | none =>
      right
      refine ⟨_, rfl, .badUnit t s v unit rest hp fun u h => ?_⟩
      rw [unitSeconds_of h] at hu
      cases hu
    | some u =>
      have hul := unitLen_of hu
      cases hc : cast d v u with
      | error e =>
        right
        cases cast_error hc
        refine ⟨.ub, ?_, .undefined t s v unit rest u hp hul fun n hn => ?_⟩
        · simp only [hc]; rfl
        · rw [converts_iff.2 hn] at hc; cases hc
      | ok n =>
        have hn := converts_iff.1 hc
        by_cases hf : d.fits (t + n)
        · left
          refine ⟨v, unit, rest, u, n, hp, hul, hn, hf, ?_⟩
          simp only [hc]
          show (addTicks d t n >>= fun t => Except.ok (t, rest)) = _
          rw [addTicks, if_pos hf]
          rfl
        · right
          refine ⟨.ub, ?_, .undefined t s v unit rest u hp hul fun m hm => ?_⟩
          · simp only [hc]
            show (addTicks d t n >>= fun t => Except.ok (t, rest)) = _
            rw [addTicks, if_neg hf]
            rfl
          · rw [converts_iff.2 hm] at hc
            cases hc
            exact hf

theorem parse_outcome (d : DurTy) : ∀ (fuel : Nat) (t : Int) (s : Text) (t' : Int) (r : Res Unit),
    parseLoop d fuel t s = some (t', r) → Outcome d t s t' r := by
  intro fuel
  induction fuel with
  | zero =>
    intro t s t' r h
    cases s with
    | nil => cases h; exact .done _ _ (by intro c hc; cases hc)
    | cons c s => cases h
  | succ fuel ih =>
    intro t s t' r h
    cases s with
    | nil => cases h; exact .done _ _ (by intro c hc; cases hc)
    | cons c s =>
      rw [parseLoop] at h
      rcases single_cases d t (c :: s) with ⟨h1, h2⟩ | ⟨v, unit, rest, u, n, h1, h2, h3, h4, h5⟩ |
        ⟨e, h1, h2⟩
      · rw [h2] at h
        simp only at h
        have hend : parseLoop d fuel t [] = some (t, .ok ()) := by cases fuel <;> rfl
        rw [hend] at h
        cases h
        exact .done _ _ h1
      · rw [h5] at h
        exact .term t _ v unit rest u n t' r h1 h2 h3 h4 (ih _ _ _ _ h)
      · rw [h1] at h
        cases h
        exact h2

/-- The specification is deterministic. -/
theorem outcome_unique {d : DurTy} {t : Int} {s : Text} {a b : Int × Res Unit}
    (ha : Outcome d t s a.1 a.2) (hb : parseDuration d t s = some b) : a = b := by
  have key : ∀ {t : Int} {s : Text} {t' : Int} {r : Res Unit}, Outcome d t s t' r →
      ∀ fuel, s.length ≤ fuel → parseLoop d fuel t s = some (t', r) := by
    intro t s t' r h
    have stop : ∀ {t : Int} {s : Text} {e : Fault} (fuel : Nat), s ≠ [] → s.length ≤ fuel →
        parseSingle d t s = .error e → parseLoop d fuel t s = some (t, .error e) := by
      intro t s e fuel hne hl hp
      cases s with
      | nil => exact absurd rfl hne
      | cons c s =>
        cases fuel with
        | zero => simp at hl
        | succ fuel => rw [parseLoop, hp]
    induction h with
    | done t s h =>
      intro fuel hf
      exact parseLoop_trail d t (fun c hc => isTrim_iff.2 (h c hc)) fuel hf
    | term t s v unit rest u n t' r hp hu hc hf _ ih =>
      intro fuel hl
      have hs : parseSingle d t s = .ok (t + n, rest) := by
        rw [parseSingle_piece hp, unitSeconds_of hu]
        simp only [converts_iff.2 hc]
        show (addTicks d t n >>= fun t => Except.ok (t, rest)) = _
        rw [addTicks, if_pos hf]
        rfl
      cases s with
      | nil => exact absurd rfl (piece_ne_nil hp)
      | cons c s =>
        cases fuel with
        | zero => simp at hl
        | succ fuel =>
          have := parseSingle_shrinks hs
          rw [parseLoop, hs]
          exact ih fuel (by simp only [List.length_cons] at hl this; omega)
    | badValue t lead body h1 h2 h3 h4 =>
      intro fuel hl
      exact stop fuel (by simp [h2]) hl (parseSingle_value h1 h2 h3 h4)
    | badUnit t s v unit rest hp hu =>
      intro fuel hl
      refine stop fuel (piece_ne_nil hp) hl ?_
      rw [parseSingle_piece hp]
      cases hu' : unitSeconds unit with
      | none => rfl
      | some u => exact absurd (unitLen_of hu') (hu u)
    | undefined t s v unit rest u hp hu hn =>
      intro fuel hl
      refine stop fuel (piece_ne_nil hp) hl ?_
      rw [parseSingle_piece hp, unitSeconds_of hu]
      cases hc : cast d v u with
      | error e =>
        cases cast_error hc
        simp only [hc]
        rfl
      | ok n =>
        simp only [hc]
        show (addTicks d t n >>= fun t => Except.ok (t, rest)) = _
        rw [addTicks, if_neg (hn n (converts_iff.1 hc))]
        rfl
  have := key ha s.length (Nat.le_refl _)
  rw [parseDuration, this] at hb
  cases hb
  rfl

/-- C112. `parse_duration` on any text does exactly what the specification says. -/
theorem parse_exact (d : DurTy) (t : Int) (s : Text) (t' : Int) (r : Res Unit) :
    parseDuration d t s = some (t', r) ↔ Outcome d t s t' r := by
  refine ⟨parse_outcome d _ t s t' r, fun h => ?_⟩
  obtain ⟨a, b, hab, _⟩ := parse_terminates d t s
  have := outcome_unique (a := (t', r)) h hab
  rw [hab, this]

/-- C112. Every text has exactly one outcome. -/
theorem outcome_total (d : DurTy) (t : Int) (s : Text) :
    ∃! p : Int × Res Unit, Outcome d t s p.1 p.2 := by
  obtain ⟨a, b, hab, _⟩ := parse_terminates d t s
  refine ⟨(a, b), (parse_exact d t s a b).1 hab, fun p hp => ?_⟩
  exact outcome_unique hp hab

/-! ## Zero quantities -/

theorem no_number_unit {unit : Text} {u : Rat} (h : UnitLen unit u) (hne : unit ≠ []) (rest : Text) :
    fromCharsDouble (unit ++ rest) = none := by
  cases h with
  | none => exact absurd rfl hne
  | s => rfl
  | ms => rfl
  | us => rfl
  | mus => rfl
  | ns => rfl
  | min => rfl
  | hour => rfl

/-- C49, exactly where it fails: a zero without decimal point or exponent, followed by a unit, is always
rejected, whatever the unit and whatever follows (all its digits are skipped with the blanks, and no
number remains). -/
theorem zero_rejected (d : DurTy) (t : Int) (lead unit rest : Text) (u : Rat) (hl : Blank lead)
    (hu : UnitLen unit u) (hne : unit ≠ []) :
    parseDuration d t (lead ++ unit ++ rest) = some (t, .error (.throw .invalidDurationValue)) := by
  rw [parse_exact, List.append_assoc]
  refine .badValue t lead (unit ++ rest) hl (by simp [hne]) ?_
    (fromCharsDouble_none.1 (no_number_unit hu hne rest))
  intro c r h hc
  cases hu' : unit with
  | nil => exact hne hu'
  | cons a l =>
    rw [hu'] at h
    simp only [List.cons_append, List.cons.injEq] at h
    have := (unit_chars hu a (by simp [hu'])).1
    rw [h.1, trim_stop (isTrim_iff.2 hc)] at this
    cases this

example (d : DurTy) : parseDuration d 5 "00ms + 3s".toList =
    some (5, .error (.throw .invalidDurationValue)) :=
  zero_rejected d 5 "00".toList "ms".toList " + 3s".toList _ (by unfold Blank; decide) .ms (by decide)

/-- Not vacuous, and stranger than it looks: `1.5.25s` is accepted, as one and a half seconds and a
quarter of a second. -/
example : parseDuration (milliseconds exactConv) 0 "1.5.25s".toList = some (1750, .ok ()) := by
  have hd : ∀ (n : Decimal) (k : Nat) (q : Rat), digitsVal (n.ip ++ n.frac) = k →
      (k : Rat) / 10 ^ n.frac.length * (10 : Rat) ^ expVal n.exp = q → n.abs = q := by
    rintro n k q rfl h
    exact h
  have v1 : (⟨false, ['1'], some ['5'], none⟩ : Decimal).abs = 3 / 2 :=
    hd _ 15 _ rfl (by norm_num [Decimal.frac, expVal])
  have v2 : (⟨false, [], some ['2', '5'], none⟩ : Decimal).abs = 1 / 4 :=
    hd _ 25 _ rfl (by norm_num [Decimal.frac, expVal])
  have hx : ∀ (c : Char) (sg : Option Bool) (ds : Text),
      (none : Option (Char × Option Bool × Text)) = some (c, sg, ds) →
      (c = 'e' ∨ c = 'E') ∧ ds ≠ [] ∧ ∀ d ∈ ds, isDigit d = true := by
    intro c sg ds h; cases h
  have g1 : (⟨false, ['1'], some ['5'], none⟩ : Decimal).Valid :=
    ⟨⟨by decide, by decide, by decide, hx⟩, by apply small_range <;> rw [v1] <;> norm_num⟩
  have g2 : (⟨false, [], some ['2', '5'], none⟩ : Decimal).Valid :=
    ⟨⟨by decide, by decide, by decide, hx⟩, by apply small_range <;> rw [v2] <;> norm_num⟩
  have c1 : chronoRound (3 / 2 * (1 * 1000)) = (1500, false) := by
    norm_num [chronoRound, Rat.floor_intCast, show Rat.floor 1500 = 1500 from rfl]
  have c2 : chronoRound (1 / 4 * (1 * 1000)) = (250, false) := by
    norm_num [chronoRound, Rat.floor_intCast, show Rat.floor 250 = 250 from rfl]
  have k1 : Converts (milliseconds exactConv) (.finite (3 / 2)) 1 1500 := by
    refine ⟨_, rfl, ?_, ?_, ?_⟩ <;>
    · show _
      simp only [milliseconds, exactConv, c1]
      first | rfl | exact fits64 (conv := exactConv) (by decide)
  have k2 : Converts (milliseconds exactConv) (.finite (1 / 4)) 1 250 := by
    refine ⟨_, rfl, ?_, ?_, ?_⟩ <;>
    · show _
      simp only [milliseconds, exactConv, c2]
      first | rfl | exact fits64 (conv := exactConv) (by decide)
  rw [parse_exact]
  have r1 := Reads.literal _ ".25s".toList g1
    ⟨(by intro c r h; cases h; decide), (by intro h; cases h), (by
      rintro - c sg d r (rfl | rfl) _ h <;> simp at h)⟩
  have r2 := Reads.literal _ "s".toList g2
    ⟨(by intro c r h; cases h; decide), (by intro h; cases h), (by
      rintro - c sg d r (rfl | rfl) _ h <;> simp at h)⟩
  refine .term 0 _ (.finite (3 / 2)) [] ".25s".toList 1 1500 _ _ ⟨⟨[], _, rfl, (by intro c hc; cases hc),
    (by intro c r h; cases h; decide), ?_⟩, (by intro c hc; cases hc), (by intro c r h; cases h; decide)⟩
    .none k1 (fits64 (by decide)) ?_
  · simp only [Decimal.value, v1] at r1
    exact r1
  refine .term _ _ (.finite (1 / 4)) "s".toList [] 1 250 _ _ ⟨⟨[], _, rfl, (by intro c hc; cases hc),
    (by intro c r h; cases h; decide), ?_⟩, (by decide), (by intro c r h; cases h)⟩
    .s k2 (fits64 (by decide)) ?_
  · simp only [Decimal.value, v2] at r2
    exact r2
  exact .done _ _ (by intro c hc; cases hc)

end Guanaqo.Duration
