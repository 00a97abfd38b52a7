import Verif.Duration.Exact

/-!
# What the exceptions of `parse_duration` point at

`invalid_duration_units` carries the rejected unit as a view of the input, and `invalid_duration_value` the
result of `std::from_chars`; both quote a part of the input in their message. The parser with these
details (`parseSingleX`, `parseX`) is the parser of `Model.lean` when they are forgotten (`parseX_erase`).
-/

namespace Guanaqo.Duration

/-- An unsuccessful parse: the part of the input quoted in the message of the exception (and, for a
value, whether `std::from_chars` reported `result_out_of_range` instead of `invalid_argument`), or
undefined behaviour. -/
inductive DurErr where
  | value (outOfRange : Bool) (quoted : Text)
  | units (quoted : Text)
  | undefined

/-- The kind of failure alone. -/
def DurErr.fault : DurErr → Fault
  | .value _ _ => .throw .invalidDurationValue
  | .units _ => .throw .invalidDurationUnits
  | .undefined => .ub

/-- `std::from_chars` when it fails (standard library): whether the number is out of range, and the text
from `res.ptr` to the end: after the number if it is out of range, everything if there is no number. -/
def fromCharsFail (s : Text) : Bool × Text :=
  match scanDecimal (minusSign s).2 with
  | some (_, rest) => (true, rest)
  | none => (false, s)

/-- duration-parse.hpp:25-66, `parse_single_duration`, with what its exceptions refer to: 38-41 (the text
from `res.ptr` on is quoted), 60-62 (`units`). -/
def parseSingleX (d : DurTy) (t : Int) (s : Text) : Except DurErr (Int × Text) :=
  match s.dropWhile isTrim with                                     -- 30-33
  | [] => .ok (t, [])
  | s =>
    match fromCharsDouble s with                                    -- 36
    | none => .error (.value (fromCharsFail s).1 (fromCharsFail s).2)
    | some (value, remainder) =>
      let units := remainder.takeWhile (fun c => !isStop c)         -- 44-45
      let rest := remainder.dropWhile (fun c => !isStop c)
      match unitSeconds units with
      | none => .error (.units units)
      | some u =>
        match cast d value u >>= addTicks d t with
        | .ok t => .ok (t, rest)                                    -- 63-65
        | .error _ => .error .undefined

/-- duration-parse.hpp:68-73, `parse_duration`, with what its exceptions refer to. -/
def parseLoopX (d : DurTy) : Nat → Int → Text → Option (Int × Except DurErr Unit)
  | _, t, [] => some (t, .ok ())
  | 0, _, _ :: _ => none
  | fuel + 1, t, c :: s =>
    match parseSingleX d t (c :: s) with
    | .error e => some (t, .error e)
    | .ok (t, s) => parseLoopX d fuel t s

/-- `parse_duration` as a whole. -/
def parseX (d : DurTy) (t : Int) (s : Text) : Option (Int × Except DurErr Unit) :=
  parseLoopX d s.length t s

/-! ## It is the same parser -/

/-- Forget what the exception refers to. -/
def erase {α : Type} : Except DurErr α → Res α
  | .ok a => .ok a
  | .error e => .error e.fault

theorem parseSingleX_erase (d : DurTy) (t : Int) (s : Text) :
    erase (parseSingleX d t s) = parseSingle d t s := by
  unfold parseSingleX parseSingle
  cases hb : s.dropWhile isTrim with
  | nil => rfl
  | cons c body =>
    dsimp only
    cases hf : fromCharsDouble (c :: body) with
    | none => rfl
    | some p =>
      obtain ⟨v, rem⟩ := p
      dsimp only
      cases hu : unitSeconds (rem.takeWhile (fun c => !isStop c)) with
      | none => rfl
      | some u =>
        dsimp only
        cases hc : cast d v u with
        | error e => cases cast_error hc; rfl
        | ok n =>
          show erase (match addTicks d t n with
            | .ok t => Except.ok (t, rem.dropWhile (fun c => !isStop c))
            | .error _ => .error .undefined) =
              (addTicks d t n >>= fun t => Except.ok (t, rem.dropWhile (fun c => !isStop c)))
          unfold addTicks
          by_cases hf : d.fits (t + n)
          · rw [if_pos hf]; rfl
          · rw [if_neg hf]; rfl

/-- Forgetting what the exceptions refer to gives the parser of the other theorems. -/
theorem parseX_erase (d : DurTy) (t : Int) (s : Text) :
    (parseX d t s).map (fun p => (p.1, erase p.2)) = parseDuration d t s := by
  have key : ∀ (fuel : Nat) (t : Int) (s : Text),
      (parseLoopX d fuel t s).map (fun p => (p.1, erase p.2)) = parseLoop d fuel t s := by
    intro fuel
    induction fuel with
    | zero => intro t s; cases s <;> rfl
    | succ fuel ih =>
      intro t s
      cases s with
      | nil => rfl
      | cons c s =>
        rw [parseLoopX, parseLoop, ← parseSingleX_erase]
        cases parseSingleX d t (c :: s) with
        | error e => rfl
        | ok p => exact ih p.1 p.2
  exact key s.length t s

/-! ## What is blamed -/

/-- What a failure says about the part `tail` of the text, at which the parser stopped. -/
def Blames (d : DurTy) (t : Int) (tail : Text) : DurErr → Prop
  | .units quoted => ∃ v rest, Piece tail v quoted rest ∧ ∀ u, ¬ UnitLen quoted u
  | .value false quoted => ∃ lead, tail = lead ++ quoted ∧ Blank lead ∧ quoted ≠ [] ∧
      (∀ c r, quoted = c :: r → c ∉ skipped) ∧ (∀ v r, ¬ Reads quoted v r) ∧
      ¬ ∃ n : Decimal, ∃ r, n.Form ∧ quoted = n.text ++ r
  | .value true quoted => ∃ (lead : Text) (n : Decimal), tail = lead ++ n.text ++ quoted ∧ Blank lead ∧
      n.Form ∧ ¬ DoubleRange n.abs ∧ Munch n quoted
  | .undefined => ∃ v unit rest u, Piece tail v unit rest ∧ UnitLen unit u ∧
      ∀ n, Converts d v u n → ¬ d.fits (t + n)

theorem fail_blames {s : Text} (h : fromCharsDouble s = none) :
    match fromCharsFail s with
    | (true, r) => ∃ n : Decimal, s = n.text ++ r ∧ n.Form ∧ ¬ DoubleRange n.abs ∧ Munch n r
    | (false, r) => r = s ∧ ¬ ∃ n : Decimal, ∃ r, n.Form ∧ s = n.text ++ r := by
  have hs : s = minusText (minusSign s).1 ++ (minusSign s).2 := by
    unfold minusSign
    split <;> rfl
  have hf := h
  unfold fromCharsDouble fromCharsBody at hf
  generalize hm : minusSign s = p at hs hf
  obtain ⟨neg, body⟩ := p
  simp only at hs hf
  unfold fromCharsFail
  rw [hm]
  simp only
  split at hf
  · cases hf
  · cases hf
  · cases hd : scanDecimal body with
    | some p =>
      obtain ⟨q, rest⟩ := p
      rw [hd] at hf
      simp only at hf
      split at hf
      · cases hf
      · rename_i hge
        obtain ⟨n, n1, n2, n3, n4, n5⟩ := scanDecimal_long hd
        refine ⟨{ n with neg := neg }, ?_, ⟨n4.ip, n4.fp, n4.some_digit, n4.exp⟩, ?_,
          ⟨n5.digit, n5.point, n5.exp⟩⟩
        · rw [hs, n2]
          simp [Decimal.text, minusText]
        · rw [n3] at hge
          exact hge
    | none =>
      refine ⟨rfl, ?_⟩
      rintro ⟨n, r, hn, hr⟩
      apply scanDecimal_none.1 hd
      have hh : ∀ c r', n.ip ++ fracText n.fp ++ expText n.exp ++ r = c :: r' → c ≠ '-' := by
        intro c r' e
        rcases abs_text_head n hn r c r' e with h1 | rfl
        · rintro rfl; exact absurd h1 (by decide)
        · decide
      cases hneg : n.neg with
      | true =>
        refine ⟨n, r, hn, ?_⟩
        have : s = '-' :: (n.ip ++ fracText n.fp ++ expText n.exp ++ r) := by
          rw [hr]; simp [Decimal.text, hneg]
        rw [this] at hm
        simp only [minusSign, Prod.mk.injEq] at hm
        exact hm.2.symm
      | false =>
        refine ⟨n, r, hn, ?_⟩
        have : s = n.ip ++ fracText n.fp ++ expText n.exp ++ r := by
          rw [hr]; simp [Decimal.text, hneg]
        rw [this] at hm
        unfold minusSign at hm
        split at hm
        · rename_i heq
          exact absurd rfl (hh _ _ heq)
        · simp only [Prod.mk.injEq] at hm
          exact hm.2.symm

theorem single_blames {d : DurTy} {t : Int} {s : Text} {e : DurErr}
    (h : parseSingleX d t s = .error e) : Blames d t s e := by
  obtain ⟨lead, h1, h2, h3⟩ := trim_exists s
  unfold parseSingleX at h
  split at h
  · cases h
  · rename_i s' hne
    generalize hb : s.dropWhile isTrim = body at h h1 h3
    split at h
    · rename_i hf
      have hfb := fail_blames hf
      cases hp : fromCharsFail body with
      | mk b r =>
        rw [hp] at h hfb
        cases h
        cases b with
        | true =>
          obtain ⟨n, n1, n2, n3, n4⟩ := hfb
          exact ⟨lead, n, by rw [h1, n1, List.append_assoc], h2, n2, n3, n4⟩
        | false =>
          obtain ⟨rfl, hno⟩ := hfb
          refine ⟨lead, h1, h2, ?_, h3, fromCharsDouble_none.1 hf, hno⟩
          rintro rfl
          exact hne hb
    · rename_i v rem hfc
      dsimp only at h
      have hp : Piece s v (rem.takeWhile (fun c => !isStop c)) (rem.dropWhile (fun c => !isStop c)) :=
        piece_iff.2 ⟨rem, by rw [hb]; exact hfc, rfl, rfl⟩
      split at h
      · rename_i hu
        cases h
        refine ⟨v, _, hp, fun u hul => ?_⟩
        rw [unitSeconds_of hul] at hu
        cases hu
      · rename_i u hu
        split at h
        · cases h
        · rename_i e' he
          cases h
          refine ⟨v, _, _, u, hp, unitLen_of hu, fun n hn hf => ?_⟩
          rw [converts_iff.2 hn] at he
          change addTicks d t n = _ at he
          rw [addTicks, if_pos hf] at he
          cases he

theorem munch_prefix {n : Decimal} {a b : Text} (h : Munch n (a ++ b)) : Munch n a :=
  ⟨fun c r' e => h.digit c (r' ++ b) (by rw [e]; rfl),
    fun h1 h2 r' e => h.point h1 h2 (r' ++ b) (by rw [e]; rfl),
    fun h1 c sg d r' hc hd e => h.exp h1 c sg d (r' ++ b) hc hd (by rw [e]; simp)⟩

/-- The first part of a text can be read without the end of the text. -/
theorem piece_prefix {s : Text} {v : Val} {unit a b : Text} {q : Rat} (hv : v = .finite q)
    (h : Piece s v unit (a ++ b)) : ∃ s', s = s' ++ b ∧ Piece s' v unit a := by
  obtain ⟨⟨lead, body, rfl, hl, hb, hr⟩, hu, hrest⟩ := h
  subst hv
  generalize hw : unit ++ (a ++ b) = w at hr
  generalize hval : Val.finite q = v' at hr
  cases hr with
  | infinity => cases hval
  | inf => cases hval
  | nan => cases hval
  | nanPayload => cases hval
  | literal n _ hn hm =>
    subst hw
    rw [← List.append_assoc] at hm
    refine ⟨lead ++ (n.text ++ (unit ++ a)), by simp, ⟨lead, _, rfl, hl, ?_, ?_⟩, hu, ?_⟩
    · intro c r e
      refine hb c (r ++ b) ?_
      have := congrArg (· ++ b) e
      simpa using this
    · exact .literal n _ hn (munch_prefix hm)
    · intro c r e
      exact hrest c (r ++ b) (by rw [e]; rfl)

/-- C113. A failure: the text splits into a first part, which is read and added as if it stood alone, and
the part at which the parser stopped, about which the exception is right. -/
theorem failure_blames (d : DurTy) (t : Int) (s : Text) (t' : Int) (e : DurErr)
    (h : parseX d t s = some (t', .error e)) :
    ∃ front tail, s = front ++ tail ∧ Outcome d t front t' (.ok ()) ∧ Blames d t' tail e := by
  have key : ∀ (fuel : Nat) (t : Int) (s : Text), parseLoopX d fuel t s = some (t', .error e) →
      ∃ front tail, s = front ++ tail ∧ Outcome d t front t' (.ok ()) ∧ Blames d t' tail e := by
    intro fuel
    induction fuel with
    | zero => intro t s h; cases s <;> cases h
    | succ fuel ih =>
      intro t s h
      cases s with
      | nil => cases h
      | cons c s =>
        rw [parseLoopX] at h
        cases hp : parseSingleX d t (c :: s) with
        | error e' =>
          rw [hp] at h
          cases h
          exact ⟨[], c :: s, rfl, .done _ _ (by intro c hc; cases hc), single_blames hp⟩
        | ok p =>
          obtain ⟨t₁, s₁⟩ := p
          rw [hp] at h
          obtain ⟨front, tail, rfl, h2, h3⟩ := ih _ _ h
          have hsingle := parseSingleX_erase d t (c :: s)
          rw [hp] at hsingle
          change Except.ok (t₁, front ++ tail) = _ at hsingle
          rcases single_cases d t (c :: s) with ⟨k1, k2⟩ | ⟨v, unit, rest, u, n, k1, k2, k3, k4, k5⟩ |
            ⟨e', k1, _⟩
          · rw [k2] at hsingle
            simp only [Except.ok.injEq, Prod.mk.injEq] at hsingle
            have : parseLoopX d fuel t₁ [] = some (t₁, .ok ()) := by cases fuel <;> rfl
            simp only at h
            rw [hsingle.2, this] at h
            cases h
          · rw [k5] at hsingle
            cases hsingle
            obtain ⟨q, hq, _⟩ := id k3
            obtain ⟨s', hs', hp'⟩ := piece_prefix hq k1
            exact ⟨s', tail, hs', .term t s' v unit front u n t' _ hp' k2 k3 k4 h2, h3⟩
          · rw [k1] at hsingle
            cases hsingle
  exact key s.length t s h

/-- C113, full statement: the text quoted by the exception is itself not acceptable. -/
def QuotesOffender (conv : Rat → Rat → Rounded) : Prop :=
  ∀ (d : DurTy) (t t' : Int) (s : Text) (b : Bool) (quoted : Text), d.conv = conv →
    parseX d t s = some (t', .error (.value b quoted)) →
    ∀ t'', parseDuration d t quoted ≠ some (t'', .ok ())

/-- C113, what holds: if there is no number where one is expected, the text quoted is the rest of the
input from that place, and parsing it fails in the same way. -/
theorem quotes_offender_partial (d : DurTy) (t : Int) (s : Text) (t' : Int) (quoted : Text)
    (h : parseX d t s = some (t', .error (.value false quoted))) :
    (∃ front, s = front ++ quoted) ∧
      ∀ t₀, parseDuration d t₀ quoted = some (t₀, .error (.throw .invalidDurationValue)) := by
  obtain ⟨front, tail, rfl, _, lead, rfl, _, hne, hb, hr, _⟩ := failure_blames d t s t' _ h
  refine ⟨⟨front ++ lead, by simp⟩, fun t₀ => (parse_exact d t₀ quoted t₀ _).2 ?_⟩
  exact .badValue t₀ [] quoted (by intro c hc; cases hc) hne hb hr

/-- C113. The unit quoted by `invalid_duration_units` is a nonempty part of the input that is not the name
of a unit; a number stands before it, and it extends to the end or to a character that ends a unit. -/
theorem quotes_unit (d : DurTy) (t : Int) (s : Text) (t' : Int) (quoted : Text)
    (h : parseX d t s = some (t', .error (.units quoted))) :
    ∃ front tail number rest, s = front ++ tail ∧ tail = number ++ quoted ++ rest ∧
      (∃ v, Piece tail v quoted rest) ∧ Outcome d t front t' (.ok ()) ∧ quoted ≠ [] ∧
      (∀ u, ¬ UnitLen quoted u) ∧ (∀ c ∈ quoted, c ∉ enders) ∧ (∀ c r, rest = c :: r → c ∈ enders) := by
  obtain ⟨front, tail, rfl, ho, v, rest, hp, hu⟩ := failure_blames d t s t' _ h
  obtain ⟨lead, body, rfl, _, _, hr⟩ := hp.split
  have hbody : ∃ number, body = number ++ (quoted ++ rest) := by
    generalize quoted ++ rest = w at hr
    cases hr with
    | literal n _ _ _ => exact ⟨n.text, rfl⟩
    | infinity neg w' _ _ => exact ⟨_, rfl⟩
    | inf neg w' _ _ _ => exact ⟨_, rfl⟩
    | nan neg w' _ _ _ => exact ⟨_, rfl⟩
    | nanPayload neg w' p _ _ _ => exact ⟨minusText neg ++ w' ++ '(' :: (p ++ [')']), by simp⟩
  obtain ⟨number, rfl⟩ := hbody
  refine ⟨front, _, lead ++ number, rest, rfl, by simp, ⟨v, hp⟩, ho, ?_, hu, hp.unit, hp.rest⟩
  rintro rfl
  exact hu 1 .none

/-- The literal `1e999`. -/
def hugeLit : Decimal := { ip := ['1'], exp := some ('e', none, ['9', '9', '9']) }

theorem hugeLit_form : hugeLit.Form where
  ip := by decide
  fp := by decide
  some_digit := by decide
  exp := by
    intro c sg ds h
    cases h
    exact ⟨.inl rfl, by decide, by decide⟩

theorem hugeLit_abs : (2 : Rat) ^ 1024 ≤ hugeLit.abs := by
  have h1 : hugeLit.abs = (10 : Rat) ^ (999 : ℕ) := by
    unfold Decimal.abs
    rw [show digitsVal (hugeLit.ip ++ hugeLit.frac) = 1 from rfl,
      show hugeLit.frac.length = 0 from rfl, show expVal hugeLit.exp = ((999 : ℕ) : ℤ) from rfl, zpow_natCast]
    simp
  rw [h1]
  calc (2 : Rat) ^ 1024 = 2 ^ (4 * 256) := rfl
    _ = (2 ^ 4) ^ 256 := pow_mul _ _ _
    _ ≤ (10 ^ 2) ^ 256 := pow_le_pow_left₀ (by norm_num) (by norm_num) _
    _ = 10 ^ (2 * 256) := (pow_mul _ _ _).symm
    _ ≤ 10 ^ 999 := pow_le_pow_right₀ (by norm_num) (by omega)

/-- The message for a number that is too large quotes what follows the number: nothing, for `1e999`. -/
theorem huge_quoted (d : DurTy) (t : Int) :
    parseX d t "1e999".toList = some (t, .error (.value true [])) := by
  have hd : scanDecimal "1e999".toList = some (hugeLit.abs, []) := by
    have := scanDecimal_munch hugeLit hugeLit_form (r := []) ⟨by simp, by simp, by simp⟩
    simpa [hugeLit, fracText, expText, signText] using this
  have hf : fromCharsDouble "1e999".toList = none := by
    unfold fromCharsDouble fromCharsBody
    rw [show minusSign "1e999".toList = (false, "1e999".toList) from rfl]
    simp only [show scanSpecial "1e999".toList = none from rfl, hd]
    rw [if_neg fun h => absurd hugeLit_abs (not_le.2 (h.1.trans_le (sub_le_self _ (by positivity))))]
  have hs : parseSingleX d t "1e999".toList = .error (.value true []) := by
    unfold parseSingleX
    rw [show ("1e999".toList).dropWhile isTrim = "1e999".toList from rfl]
    split
    · rename_i h; exact absurd h (by decide)
    · rw [hf]
      simp only [fromCharsFail, show (minusSign "1e999".toList).2 = "1e999".toList from rfl, hd]
  show parseLoopX d (4 + 1) t ('1' :: "e999".toList) = _
  rw [parseLoopX, show ('1' :: "e999".toList : Text) = "1e999".toList from rfl, hs]

/-- C113 is false for numbers that are too large. -/
theorem not_quotesOffender (conv : Rat → Rat → Rounded) : ¬ QuotesOffender conv := by
  intro h
  exact h (milliseconds conv) 0 0 "1e999".toList true [] rfl (huge_quoted _ _) 0 rfl

/-- Not vacuous: a unit is quoted. -/
theorem unit_quoted_example (d : DurTy) (t : Int) :
    parseX d t "3 parsecs".toList ≠ none ∧
    parseX d t "3parsecs 1s".toList = some (t, .error (.units "parsecs".toList)) := by
  refine ⟨?_, ?_⟩
  · intro h
    have := parseX_erase d t "3 parsecs".toList
    rw [h] at this
    obtain ⟨a, b, hab, _⟩ := parse_terminates d t "3 parsecs".toList
    rw [hab] at this
    cases this
  · have hv : (⟨false, ['3'], none, none⟩ : Decimal).Valid := ⟨⟨by decide, by decide, by decide,
      by intro c sg ds h; cases h⟩, by
        have : (⟨false, ['3'], none, none⟩ : Decimal).abs = 3 := by
          unfold Decimal.abs
          rw [show digitsVal (_ ++ Decimal.frac ⟨false, ['3'], none, none⟩) = 3 from rfl]
          norm_num [Decimal.frac, expVal]
        rw [this]
        exact small_range (by norm_num) (.inr (by norm_num))⟩
    have hf := fromCharsDouble_app _ hv (r := "parsecs 1s".toList) (by
      intro c r' h; cases h; decide)
    have hs : parseSingleX d t "3parsecs 1s".toList = .error (.units "parsecs".toList) := by
      unfold parseSingleX
      rw [show ("3parsecs 1s".toList).dropWhile isTrim = "3parsecs 1s".toList from rfl]
      split
      · rename_i h; exact absurd h (by decide)
      · rw [show "3parsecs 1s".toList = (⟨false, ['3'], none, none⟩ : Decimal).text ++ "parsecs 1s".toList
          from rfl, hf]
        rfl
    show parseLoopX d (10 + 1) t ('3' :: "parsecs 1s".toList) = _
    rw [parseLoopX, show ('3' :: "parsecs 1s".toList : Text) = "3parsecs 1s".toList from rfl, hs]

end Guanaqo.Duration
