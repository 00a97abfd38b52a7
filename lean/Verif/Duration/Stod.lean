import Verif.Duration.Errors
import Verif.Misc.FromChars

/-!
# The fallback `from_chars` for floating-point numbers (C122)

`/repo/src/include/guanaqo/from_chars-wrapper.hpp:62-96`: with Clang (and with compilers or libraries
without `std::from_chars` for floating-point numbers) `from_chars` is `std::stod`, so `strtod` of the C
library. `strtod` is modelled in full for the "C" locale: blanks, a sign, decimal and hexadecimal numbers,
the names of infinity and NaN. Texts are lists of characters; NUL characters end the C string, and also
every number, so that no special treatment is needed.
-/

namespace Guanaqo.Duration

open FromChars (isSpace Errc)

/-! ## The C library -/

/-- What the C standard leaves open: for which magnitudes `strtod` sets `errno` to `ERANGE`. -/
structure StrtodLib where
  erange : Rat → Bool

/-- What the C standard says: `ERANGE` for an overflow, none for zero and for the numbers that become normal
ones; whether an underflow sets it (for numbers below `2 ^ -1022`) is implementation-defined. -/
structure StrtodLib.Ok (L : StrtodLib) : Prop where
  big : ∀ q, 2 ^ 1024 - 2 ^ 970 ≤ q → L.erange q = true
  zero : L.erange 0 = false
  normal : ∀ q, 1 / 2 ^ 1022 ≤ q → q < 2 ^ 1024 - 2 ^ 970 → L.erange q = false

/-- A hexadecimal digit. -/
def isHexDigit (c : Char) : Bool := decide (FromChars.digitVal c < 16)

/-- The value of hexadecimal digits. -/
def hexVal (ds : Text) : Nat := ds.foldl (fun acc c => acc * 16 + FromChars.digitVal c) 0

/-- Split off the leading hexadecimal digits. -/
def scanHexDigits (s : Text) : Text × Text := (s.takeWhile isHexDigit, s.dropWhile isHexDigit)

/-- An optional point and hexadecimal digits. -/
def scanHexFrac : Text → Text × Text
  | '.' :: s => scanHexDigits s
  | s => ([], s)

/-- An optional binary exponent. -/
def scanBinExp (s : Text) : Int × Text :=
  match s with
  | [] => (0, [])
  | c :: r => if c = 'p' ∨ c = 'P' then (scanExpDigits r).getD (0, s) else (0, s)

/-- What follows `0x`: hexadecimal digits with an optional point (at least one digit), and an optional
exponent of two. -/
def scanHex (s : Text) : Option (Rat × Text) :=
  let (ip, s₁) := scanHexDigits s
  let (fp, s₂) := scanHexFrac s₁
  if (ip ++ fp).isEmpty then none
  else
    let (e, s₃) := scanBinExp s₂
    some ((hexVal (ip ++ fp) : Rat) / 16 ^ fp.length * (2 : Rat) ^ e, s₃)

/-- A hexadecimal number with its prefix. -/
def scanPrefixed : Text → Option (Rat × Text)
  | '0' :: x :: r => if x = 'x' ∨ x = 'X' then scanHex r else none
  | _ => none

/-- An unsigned number, as `strtod` reads it. -/
def strtodNumber (body : Text) : Option (Val × Text) :=
  match scanSpecial body with
  | some (.nan, r) => some (.nan, nanTail r)
  | some r => some r
  | none =>
    match scanPrefixed body with
    | some (q, r) => some (.finite q, r)
    | none => (scanDecimal body).map fun p => (.finite p.1, p.2)

/-- `strtod` (C library): blanks, an optional sign, a number; the sign, the magnitude and the text after the
number. -/
def strtod (s : Text) : Option (Bool × Val × Text) :=
  let p := expSign (s.dropWhile isSpace)
  (strtodNumber p.2).map fun x => (p.1, x)

/-- The outcome of `std::stod`. -/
inductive Stod where
  | ok (v : Val) (rest : Text)
  | invalidArgument
  | outOfRange

/-- `std::stod` (standard library): `std::out_of_range` if `strtod` has set `errno` to `ERANGE`. -/
def stod (L : StrtodLib) (s : Text) : Stod :=
  match strtod s with
  | none => .invalidArgument
  | some (neg, .finite q, r) => if L.erange q then .outOfRange else .ok (.finite (if neg then -q else q)) r
  | some (_, v, r) => .ok v r

/-! ## The wrapper and the parser that uses it -/

/-- The result of `from_chars`: the value if it was assigned, the text from `ptr` to the end, and `ec`. -/
structure FcRes where
  value : Option Val
  rest : Text
  ec : Errc

/-- from_chars-wrapper.hpp:68-95: `from_chars` for `double` with `std::stod`. When it throws, `end_index` is
still 0. -/
def fromCharsStod (L : StrtodLib) (s : Text) : FcRes :=
  match stod L s with
  | .ok v r => ⟨some v, r, .ok⟩
  | .invalidArgument => ⟨none, s, .invalidArgument⟩
  | .outOfRange => ⟨none, s, .outOfRange⟩

/-- from_chars-wrapper.hpp:45-49: `from_chars` for `double` with `std::from_chars`. -/
def fromCharsStd (s : Text) : FcRes :=
  match fromCharsDouble s with
  | some (v, r) => ⟨some v, r, .ok⟩
  | none => ⟨none, (fromCharsFail s).2, if (fromCharsFail s).1 then .outOfRange else .invalidArgument⟩

/-- duration-parse.hpp:25-66, `parse_single_duration`, for any `from_chars`. -/
def parseSingleFc (fc : Text → FcRes) (d : DurTy) (t : Int) (s : Text) : Except DurErr (Int × Text) :=
  match s.dropWhile isTrim with                                     -- 30-33
  | [] => .ok (t, [])
  | s =>
    match (fc s).ec, (fc s).value with                              -- 36-37
    | .invalidArgument, _ => .error (.value false (fc s).rest)      -- 38-42
    | .outOfRange, _ => .error (.value true (fc s).rest)
    | .ok, none => .error .undefined
    | .ok, some value =>
      let remainder := (fc s).rest                                  -- 43
      let units := remainder.takeWhile (fun c => !isStop c)         -- 44-45
      let rest := remainder.dropWhile (fun c => !isStop c)
      match unitSeconds units with
      | none => .error (.units units)
      | some u =>
        match cast d value u >>= addTicks d t with
        | .ok t => .ok (t, rest)                                    -- 63-65
        | .error _ => .error .undefined

/-- duration-parse.hpp:68-73, `parse_duration`, for any `from_chars`. -/
def parseLoopFc (fc : Text → FcRes) (d : DurTy) : Nat → Int → Text → Option (Int × Except DurErr Unit)
  | _, t, [] => some (t, .ok ())
  | 0, _, _ :: _ => none
  | fuel + 1, t, c :: s =>
    match parseSingleFc fc d t (c :: s) with
    | .error e => some (t, .error e)
    | .ok (t, s) => parseLoopFc fc d fuel t s

/-- `parse_duration` as a whole, for any `from_chars`. -/
def parseFc (fc : Text → FcRes) (d : DurTy) (t : Int) (s : Text) : Option (Int × Except DurErr Unit) :=
  parseLoopFc fc d s.length t s

/-! ## With `std::from_chars` it is the parser of the other theorems -/

theorem parseSingleFc_std (d : DurTy) (t : Int) (s : Text) :
    parseSingleFc fromCharsStd d t s = parseSingleX d t s := by
  unfold parseSingleFc parseSingleX
  cases hb : s.dropWhile isTrim with
  | nil => rfl
  | cons c body =>
    dsimp only
    unfold fromCharsStd
    cases hf : fromCharsDouble (c :: body) with
    | none =>
      dsimp only
      cases hg : (fromCharsFail (c :: body)).1 <;> rfl
    | some p => rfl

theorem parseFc_std (d : DurTy) (t : Int) (s : Text) : parseFc fromCharsStd d t s = parseX d t s := by
  have key : ∀ (fuel : Nat) (t : Int) (s : Text), parseLoopFc fromCharsStd d fuel t s = parseLoopX d fuel t s := by
    intro fuel
    induction fuel with
    | zero => intro t s; cases s <;> rfl
    | succ fuel ih =>
      intro t s
      cases s with
      | nil => rfl
      | cons c s =>
        rw [parseLoopFc, parseLoopX, parseSingleFc_std]
        cases parseSingleX d t (c :: s) with
        | error e => rfl
        | ok p => exact ih p.1 p.2
  exact key s.length t s

/-! ## Specification -/

/-- The text begins with an unsigned number: a decimal literal, or the name of infinity or NaN. -/
def StartsNumber (s : Text) : Prop :=
  (∃ (n : Decimal) (r : Text), n.Form ∧ n.neg = false ∧ s = n.text ++ r) ∨
  (∃ w r, w.map lower = "inf".toList ∧ s = w ++ r) ∨ (∃ w r, w.map lower = "nan".toList ∧ s = w ++ r)

/-- The text begins with a hexadecimal number: `0x`, and a digit, or a point and a digit. -/
def HexStart (s : Text) : Prop :=
  ∃ x d r, (x = 'x' ∨ x = 'X') ∧ isHexDigit d = true ∧ (s = '0' :: x :: d :: r ∨ s = '0' :: x :: '.' :: d :: r)

/-- The texts for which the fallback gives the result of `std::from_chars`: no number after blanks or a plus
sign, no hexadecimal number, and a decimal literal at the beginning is not out of range, for both. -/
structure Portable (L : StrtodLib) (s : Text) : Prop where
  start : ∀ ws sg body, s = ws ++ sg ++ body → (∀ c ∈ ws, isSpace c = true) →
    (sg = [] ∨ sg = ['+'] ∨ sg = ['-']) → (ws ≠ [] ∨ sg = ['+']) → ¬ StartsNumber body
  hex : ∀ neg body, s = minusText neg ++ body → ¬ HexStart body
  range : ∀ (n : Decimal) (r : Text), n.Form → s = n.text ++ r → Munch n r →
    DoubleRange n.abs ∧ L.erange n.abs = false

/-- A number that no library reports as out of range. -/
def Normal (q : Rat) : Prop := q = 0 ∨ 1 / 2 ^ 1022 ≤ q ∧ q < 2 ^ 1024 - 2 ^ 970

/-- C122, in full: durations are parsed the same with the fallback. -/
def SameWithFallback (conv : Rat → Rat → Rounded) : Prop := ∀ (L : StrtodLib), L.Ok → ∀ (bits : Nat) (perSec : Rat) (t : Int) (s : Text),
  parseFc (fromCharsStod L) ⟨bits, perSec, conv⟩ t s = parseX ⟨bits, perSec, conv⟩ t s

/-! ## The unsigned numbers -/

theorem isSpace_iff {c : Char} : isSpace c = true ↔ c ∈ [' ', '\t', '\n', '\x0b', '\x0c', '\r'] := by
  simp [isSpace]

theorem hexFrac_short (s : Text) : (scanHexFrac s).2.length ≤ s.length := by
  unfold scanHexFrac
  split
  · have := (List.dropWhile_sublist isHexDigit (l := ‹Text›)).length_le
    simp only [scanHexDigits, List.length_cons]; omega
  · exact Nat.le_refl _

theorem expDigits_short {s : Text} {p : Int × Text} (h : scanExpDigits s = some p) : p.2.length ≤ s.length := by
  have h1 : (expSign s).2.length ≤ s.length := by
    unfold expSign
    split <;> simp
  have h2 := (List.dropWhile_sublist isDigit (l := (expSign s).2)).length_le
  unfold scanExpDigits at h
  dsimp only at h
  by_cases hd : List.isEmpty (scanDigits (expSign s).2).1 = true
  · rw [if_pos hd] at h; cases h
  · rw [if_neg hd] at h
    cases h
    exact Nat.le_trans h2 h1

theorem binExp_short (s : Text) : (scanBinExp s).2.length ≤ s.length := by
  unfold scanBinExp
  split
  · exact Nat.le_refl _
  · rename_i c r
    split
    · cases h : scanExpDigits r with
      | none => simp
      | some p =>
        have := expDigits_short h
        simp only [Option.getD_some, List.length_cons]; omega
    · exact Nat.le_refl _

theorem scanHex_short {s : Text} {q : Rat} {r : Text} (h : scanHex s = some (q, r)) : r.length ≤ s.length := by
  unfold scanHex at h
  simp only at h
  split at h
  · cases h
  · simp only [Option.some.injEq, Prod.mk.injEq] at h
    rw [← h.2]
    refine Nat.le_trans (binExp_short _) (Nat.le_trans (hexFrac_short _) ?_)
    exact (List.dropWhile_sublist isHexDigit (l := s)).length_le

theorem scanHex_some {s : Text} : (scanHex s).isSome = true ↔
    ∃ d r, isHexDigit d = true ∧ (s = d :: r ∨ s = '.' :: d :: r) := by
  have key : (scanHex s).isSome = true ↔ ¬ ((scanHexDigits s).1 ++ (scanHexFrac (scanHexDigits s).2).1).isEmpty = true := by
    unfold scanHex
    simp only
    split <;> simp_all
  rw [key]
  cases s with
  | nil => simp [scanHexDigits, scanHexFrac]
  | cons c s =>
    cases hc : isHexDigit c with
    | true =>
      simp only [scanHexDigits, List.takeWhile_cons, hc, if_true, List.cons_append, List.isEmpty_cons,
        Bool.false_eq_true, not_false_eq_true, true_iff]
      exact ⟨c, s, hc, .inl rfl⟩
    | false =>
      simp only [scanHexDigits, List.takeWhile_cons, List.dropWhile_cons, hc, Bool.false_eq_true, if_false,
        List.nil_append]
      by_cases hp : c = '.'
      · subst hp
        simp only [scanHexFrac, scanHexDigits]
        cases s with
        | nil =>
          simp only [List.takeWhile_nil, List.isEmpty_nil, not_true_eq_false, false_iff]
          rintro ⟨d, r, hd, h | h⟩
          · cases h; rw [hc] at hd; cases hd
          · cases h
        | cons d s =>
          cases hd : isHexDigit d with
          | true =>
            simp only [List.takeWhile_cons, hd, if_true, List.isEmpty_cons, Bool.false_eq_true, not_false_eq_true,
              true_iff]
            exact ⟨d, s, hd, .inr rfl⟩
          | false =>
            simp only [List.takeWhile_cons, hd, Bool.false_eq_true, if_false, List.isEmpty_nil, not_true_eq_false,
              false_iff]
            rintro ⟨d', r, hd', h | h⟩
            · cases h; rw [hc] at hd'; cases hd'
            · cases h; rw [hd] at hd'; cases hd'
      · have : scanHexFrac (c :: s) = ([], c :: s) := by
          unfold scanHexFrac
          split
          · rename_i h; cases h; exact absurd rfl hp
          · rfl
        rw [this]
        simp only [List.isEmpty_nil, not_true_eq_false, false_iff]
        rintro ⟨d, r, hd, h | h⟩
        · cases h; rw [hc] at hd; cases hd
        · cases h; exact hp rfl

/-- A hexadecimal number is recognised by its first characters. -/
theorem scanPrefixed_some {s : Text} : (scanPrefixed s).isSome = true ↔ HexStart s := by
  unfold scanPrefixed
  split
  · rename_i x r
    by_cases hx : x = 'x' ∨ x = 'X'
    · rw [if_pos hx, scanHex_some]
      constructor
      · rintro ⟨d, r', hd, rfl | rfl⟩
        · exact ⟨x, d, r', hx, hd, .inl rfl⟩
        · exact ⟨x, d, r', hx, hd, .inr rfl⟩
      · rintro ⟨x', d, r', -, hd, h | h⟩
        · cases h; exact ⟨d, r', hd, .inl rfl⟩
        · cases h; exact ⟨d, r', hd, .inr rfl⟩
    · rw [if_neg hx]
      simp only [Option.isSome_none, Bool.false_eq_true, false_iff]
      rintro ⟨x', d, r', hx', hd, h | h⟩ <;> cases h <;> exact hx hx'
  · rename_i hne
    simp only [Option.isSome_none, Bool.false_eq_true, false_iff]
    rintro ⟨x', d, r', hx', hd, h | h⟩ <;> exact hne _ _ h

theorem unsigned_text {n : Decimal} (h : n.neg = false) (r : Text) :
    n.text ++ r = n.ip ++ fracText n.fp ++ expText n.exp ++ r := by
  simp [Decimal.text, h]

theorem hex_starts {s : Text} (h : HexStart s) : StartsNumber s := by
  have key : ∀ r, StartsNumber ('0' :: r) := fun r =>
    .inl ⟨{ ip := ['0'] }, r, ⟨by decide, by simp [Decimal.frac], by simp, by intro c sg ds h; cases h⟩, rfl, rfl⟩
  obtain ⟨x, d, r, _, _, rfl | rfl⟩ := h
  · exact key _
  · exact key _

theorem special_none {s : Text} (h : scanSpecial s = none) :
    ¬ ((∃ w r, w.map lower = "inf".toList ∧ s = w ++ r) ∨ (∃ w r, w.map lower = "nan".toList ∧ s = w ++ r)) := by
  rintro (⟨w, r, hw, rfl⟩ | ⟨w, r, hw, rfl⟩)
  · obtain ⟨h1, _⟩ := take_name (r := r) hw (k := 3) rfl
    unfold scanSpecial at h
    split at h
    · cases h
    · rw [h1, if_pos hw] at h; cases h
  · rw [scanSpecial_nan hw] at h; cases h

theorem special_some {s : Text} {p : Val × Text} (h : scanSpecial s = some p) :
    (∃ w r, w.map lower = "inf".toList ∧ s = w ++ r) ∨ (∃ w r, w.map lower = "nan".toList ∧ s = w ++ r) := by
  unfold scanSpecial at h
  split at h
  · rename_i h8
    left
    refine ⟨s.take 3, s.drop 3, ?_, (List.take_append_drop 3 s).symm⟩
    have : ((s.take 8).map lower).take 3 = "inf".toList := by rw [h8]; rfl
    rw [← List.map_take, List.take_take] at this
    exact this
  · split at h
    · rename_i h3
      exact .inl ⟨s.take 3, s.drop 3, h3, (List.take_append_drop 3 s).symm⟩
    · split at h
      · rename_i h3
        exact .inr ⟨s.take 3, s.drop 3, h3, (List.take_append_drop 3 s).symm⟩
      · cases h

/-- `strtod` fails exactly where no number begins. -/
theorem strtodNumber_none {s : Text} : strtodNumber s = none ↔ ¬ StartsNumber s := by
  unfold strtodNumber
  cases hp : scanSpecial s with
  | some p =>
    have := special_some hp
    obtain ⟨v, r⟩ := p
    have h1 : StartsNumber s := .inr this
    cases v <;> simp [h1]
  | none =>
    have h0 := special_none hp
    dsimp only
    cases hx : scanPrefixed s with
    | some p =>
      have := hex_starts (scanPrefixed_some.1 (by rw [hx]; rfl))
      simp [this]
    | none =>
      dsimp only
      rw [Option.map_eq_none_iff, scanDecimal_none]
      constructor
      · rintro h (⟨n, r, h1, h2, rfl⟩ | h3)
        · exact h ⟨n, r, h1, unsigned_text h2 r⟩
        · exact h0 h3
      · rintro h ⟨n, r, h1, rfl⟩
        refine h (.inl ⟨{ n with neg := false }, r, ⟨h1.ip, h1.fp, h1.some_digit, h1.exp⟩, rfl, ?_⟩)
        simp [Decimal.text]

theorem starts_head {s : Text} (h : StartsNumber s) {c : Char} {r : Text} (hc : s = c :: r) :
    isSpace c = false ∧ c ≠ '+' ∧ c ≠ '-' := by
  have name : ∀ (w r' : Text) (a : Char) (name : Text), w.map lower = a :: name → (∀ c, lower c = a → isSpace c = false ∧ c ≠ '+' ∧ c ≠ '-') →
      w ++ r' = c :: r → isSpace c = false ∧ c ≠ '+' ∧ c ≠ '-' := by
    intro w r' a name hw ha he
    cases w with
    | nil => cases hw
    | cons b w =>
      simp only [List.map_cons, List.cons.injEq] at hw
      simp only [List.cons_append, List.cons.injEq] at he
      rw [← he.1]; exact ha b hw.1
  have low : ∀ (a : Char), lower ' ' ≠ a → lower '\t' ≠ a → lower '\n' ≠ a → lower '\x0b' ≠ a → lower '\x0c' ≠ a → lower '\r' ≠ a →
      lower '+' ≠ a → lower '-' ≠ a → ∀ c, lower c = a → isSpace c = false ∧ c ≠ '+' ∧ c ≠ '-' := by
    intro a h1 h2 h3 h4 h5 h6 h7 h8 c hc
    refine ⟨?_, ?_, ?_⟩
    · cases hs : isSpace c with
      | false => rfl
      | true =>
        rw [isSpace_iff] at hs
        simp only [List.mem_cons, List.not_mem_nil, or_false] at hs
        rcases hs with rfl | rfl | rfl | rfl | rfl | rfl <;> contradiction
    · rintro rfl; exact h7 hc
    · rintro rfl; exact h8 hc
  rcases h with ⟨n, r', h1, h2, rfl⟩ | ⟨w, r', hw, rfl⟩ | ⟨w, r', hw, rfl⟩
  · rw [unsigned_text h2] at hc
    rcases abs_text_head n h1 r' c r hc with hd | rfl
    · refine ⟨?_, ?_, ?_⟩
      · cases hs : isSpace c with
        | false => rfl
        | true =>
          rw [isSpace_iff] at hs
          simp only [List.mem_cons, List.not_mem_nil, or_false] at hs
          rcases hs with rfl | rfl | rfl | rfl | rfl | rfl <;> exact absurd hd (by decide)
      · rintro rfl; exact absurd hd (by decide)
      · rintro rfl; exact absurd hd (by decide)
    · decide
  · exact name w r' 'i' "nf".toList hw (low _ (by decide) (by decide) (by decide) (by decide) (by decide) (by decide) (by decide) (by decide)) hc
  · exact name w r' 'n' "an".toList hw (low _ (by decide) (by decide) (by decide) (by decide) (by decide) (by decide) (by decide) (by decide)) hc

theorem starts_ne_nil {s : Text} (h : StartsNumber s) : s ≠ [] := by
  rintro rfl
  have : strtodNumber [] = none := by decide
  exact strtodNumber_none.1 this h

/-! ## Signs and blanks -/

theorem expSign_split (s : Text) : ∃ sg, s = sg ++ (expSign s).2 ∧
    (sg = [] ∧ (expSign s).1 = false ∨ sg = ['+'] ∧ (expSign s).1 = false ∨ sg = ['-'] ∧ (expSign s).1 = true) := by
  unfold expSign
  split
  · exact ⟨['-'], rfl, .inr (.inr ⟨rfl, rfl⟩)⟩
  · exact ⟨['+'], rfl, .inr (.inl ⟨rfl, rfl⟩)⟩
  · exact ⟨[], rfl, .inl ⟨rfl, rfl⟩⟩

theorem expSign_minus {s : Text} (h : ∀ r, s ≠ '+' :: r) : expSign s = minusSign s := by
  unfold expSign minusSign
  split
  · rfl
  · rename_i r; exact absurd rfl (h r)
  · rename_i hm _
    split
    · exact (hm _ rfl).elim
    · rfl

theorem minusSign_split (s : Text) : s = minusText (minusSign s).1 ++ (minusSign s).2 := by
  unfold minusSign
  split <;> rfl

theorem minusSign_other {s : Text} (h : ∀ r, s ≠ '-' :: r) : minusSign s = (false, s) := by
  unfold minusSign
  split
  · rename_i r; exact absurd rfl (h r)
  · rfl

/-- The scan of a text with blanks, a sign and a number. -/
theorem strtod_app {ws sg body : Text} (hw : ∀ c ∈ ws, isSpace c = true) (hs : sg = [] ∨ sg = ['+'] ∨ sg = ['-'])
    (hb : StartsNumber body) : strtod (ws ++ sg ++ body) = (strtodNumber body).map fun x => (decide (sg = ['-']), x) := by
  have hd : (ws ++ sg ++ body).dropWhile isSpace = sg ++ body := by
    rw [List.append_assoc]
    refine (takeWhile_append_stop (p := isSpace) hw ?_).2
    intro c r h
    rcases hs with rfl | rfl | rfl
    · exact (starts_head hb h).1
    · cases h; decide
    · cases h; decide
  have he : expSign (sg ++ body) = (decide (sg = ['-']), body) := by
    rcases hs with rfl | rfl | rfl
    · cases hbody : body with
      | nil => exact absurd hbody (starts_ne_nil hb)
      | cons c r =>
        obtain ⟨_, h1, h2⟩ := starts_head hb hbody
        show expSign (c :: r) = _
        unfold expSign
        split
        · rename_i h; cases h; exact absurd rfl h2
        · rename_i h; cases h; exact absurd rfl h1
        · rfl
    · rfl
    · rfl
  unfold strtod
  rw [hd, he]

/-- A text that begins with a blank or a plus sign is no number for `std::from_chars`. -/
theorem std_rejects {s : Text} {c : Char} {r : Text} (hs : s = c :: r) (hc : isSpace c = true ∨ c = '+') :
    fromCharsStd s = ⟨none, s, .invalidArgument⟩ := by
  have hn : ¬ StartsNumber s := by
    intro h
    have := starts_head h hs
    rcases hc with h1 | h1
    · rw [h1] at this; cases this.1
    · exact this.2.1 h1
  have hm : minusSign s = (false, s) := by
    apply minusSign_other
    rintro r' h
    rw [hs] at h
    cases h
    rcases hc with h1 | h1
    · exact absurd h1 (by decide)
    · exact absurd h1 (by decide)
  have h1 := strtodNumber_none.2 hn
  unfold strtodNumber at h1
  cases hp : scanSpecial s with
  | some p => obtain ⟨v, x⟩ := p; rw [hp] at h1; cases v <;> cases h1
  | none =>
    rw [hp] at h1
    dsimp only at h1
    cases hx : scanPrefixed s with
    | some p => rw [hx] at h1; cases h1
    | none =>
      rw [hx] at h1
      dsimp only at h1
      rw [Option.map_eq_none_iff] at h1
      have hd : fromCharsDouble s = none := by
        unfold fromCharsDouble fromCharsBody
        rw [hm]
        simp only [hp, h1]
      have hf : fromCharsFail s = (false, s) := by
        unfold fromCharsFail
        rw [hm]
        simp only [h1]
      unfold fromCharsStd
      rw [hd, hf]
      rfl

theorem minusSign_text {n : Decimal} (hn : n.Form) (r : Text) :
    minusSign (n.text ++ r) = (n.neg, n.ip ++ fracText n.fp ++ expText n.exp ++ r) := by
  unfold Decimal.text
  cases hneg : n.neg with
  | true => simp [minusSign]
  | false =>
    have : ∀ s : Text, (∀ c r', s = c :: r' → isDigit c = true ∨ c = '.') → minusSign s = (false, s) := by
      intro s hs
      apply minusSign_other
      rintro r' rfl
      exact absurd (hs _ _ rfl) (by decide)
    simpa using this _ (fun c r' h => abs_text_head n hn r c r' h)

theorem text_length_pos {n : Decimal} (hn : n.Form) : 0 < n.text.length := by
  apply List.length_pos_of_ne_nil
  intro e
  simp only [Decimal.text, List.append_eq_nil_iff] at e
  obtain ⟨⟨⟨_, e2⟩, e3⟩, _⟩ := e
  have : n.frac = [] := by
    unfold Decimal.frac
    cases hfp : n.fp with
    | none => rfl
    | some ds => rw [hfp] at e3; simp [fracText] at e3
  exact hn.some_digit (by rw [e2, this]; rfl)

/-- `std::from_chars` on a literal. -/
theorem std_literal {n : Decimal} (hn : n.Form) {r : Text} (hm : Munch n r) :
    fromCharsStd (n.text ++ r) = if DoubleRange n.abs then ⟨some (.finite n.value), r, .ok⟩ else ⟨none, r, .outOfRange⟩ := by
  have h1 := scanDecimal_munch n hn hm
  have h2 : scanSpecial (n.ip ++ fracText n.fp ++ expText n.exp ++ r) = none :=
    not_special_of (fun c r' h => abs_text_head n hn r c r' h)
  have h3 := minusSign_text hn r
  unfold fromCharsStd fromCharsDouble fromCharsBody fromCharsFail
  rw [h3]
  simp only [h2, h1]
  by_cases h : DoubleRange n.abs
  · simp only [if_pos h]; rfl
  · simp only [if_neg h]; rfl

/-- `std::stod` on a literal that is not hexadecimal. -/
theorem stod_literal (L : StrtodLib) {n : Decimal} (hn : n.Form) {r : Text} (hm : Munch n r)
    (hx : ∀ neg body, n.text ++ r = minusText neg ++ body → ¬ HexStart body) :
    fromCharsStod L (n.text ++ r) = if L.erange n.abs then ⟨none, n.text ++ r, .outOfRange⟩ else ⟨some (.finite n.value), r, .ok⟩ := by
  have h1 := scanDecimal_munch n hn hm
  have h2 : scanSpecial (n.ip ++ fracText n.fp ++ expText n.exp ++ r) = none :=
    not_special_of (fun c r' h => abs_text_head n hn r c r' h)
  have hst : StartsNumber (n.ip ++ fracText n.fp ++ expText n.exp ++ r) :=
    .inl ⟨{ n with neg := false }, r, ⟨hn.ip, hn.fp, hn.some_digit, hn.exp⟩, rfl, by simp [Decimal.text]⟩
  have hspl : n.text ++ r = [] ++ minusText n.neg ++ (n.ip ++ fracText n.fp ++ expText n.exp ++ r) := by
    simp [Decimal.text, minusText]
  have hp : scanPrefixed (n.ip ++ fracText n.fp ++ expText n.exp ++ r) = none := by
    have := hx n.neg _ (by rw [hspl]; rfl)
    rw [← scanPrefixed_some] at this
    simpa using this
  have hs := strtod_app (ws := []) (sg := minusText n.neg) (by simp) (by cases n.neg <;> simp [minusText]) hst
  have hnum : strtodNumber (n.ip ++ fracText n.fp ++ expText n.exp ++ r) = some (.finite n.abs, r) := by
    unfold strtodNumber
    simp only [h2, hp, h1]
    rfl
  rw [hnum] at hs
  have hneg : decide (minusText n.neg = ['-']) = n.neg := by cases n.neg <;> rfl
  rw [hneg] at hs
  unfold fromCharsStod stod
  conv_lhs => rw [hspl, hs]
  simp only [Option.map_some]
  by_cases he : L.erange n.abs = true
  · simp only [he, if_true]
    rw [← hspl]
  · simp only [he]
    rfl

/-! ## The fallback against `std::from_chars` -/

/-- C122, exactly: for every text, the fallback gives the value, the end pointer and the error code of
`std::from_chars` if and only if the text is `Portable`: there is no number after blanks or a plus sign, no
hexadecimal number, and the decimal literal that it begins with (if any) is in the range of `double`, also
for `strtod`. -/
theorem fallback_agrees_iff (L : StrtodLib) (s : Text) : fromCharsStod L s = fromCharsStd s ↔ Portable L s := by
  constructor
  · intro heq
    have hhex : ∀ neg body, s = minusText neg ++ body → ¬ HexStart body := by
      rintro neg body rfl hx
      -- `std::from_chars` reads the zero
      have hzero : ∃ x r, (x = 'x' ∨ x = 'X') ∧ body = '0' :: x :: r := by
        obtain ⟨x, d, r, h1, _, rfl | rfl⟩ := hx
        · exact ⟨x, _, h1, rfl⟩
        · exact ⟨x, _, h1, rfl⟩
      obtain ⟨x, r, hx1, hb⟩ := hzero
      have hform : (Decimal.mk neg ['0'] none none).Form :=
        ⟨by intro c hc; rw [List.mem_singleton.1 hc]; decide, by simp [Decimal.frac], by simp, by intro c sg ds h; cases h⟩
      have hmunch : Munch (Decimal.mk neg ['0'] none none) (x :: r) := by
        refine ⟨?_, ?_, ?_⟩
        · intro c r' h; cases h; rcases hx1 with rfl | rfl <;> decide
        · intro _ _ r' h; cases h; rcases hx1 with h | h <;> cases h
        · intro _ c sg d r' hc _ h
          cases h
          rcases hx1 with rfl | rfl <;> rcases hc with h | h <;> cases h
      have htext : minusText neg ++ body = (Decimal.mk neg ['0'] none none).text ++ (x :: r) := by
        rw [hb]; cases neg <;> rfl
      have h1 := std_literal hform hmunch
      have habs : (Decimal.mk neg ['0'] none none).abs = 0 := by
        simp [Decimal.abs, Decimal.frac, digitsVal, expVal]
      rw [if_pos (by rw [habs]; exact small_range (by norm_num) (.inl rfl)), ← htext, ← heq] at h1
      -- the fallback reads further
      have h2 := strtod_app (ws := []) (sg := minusText neg) (by simp) (by cases neg <;> simp [minusText]) (hex_starts hx)
      rw [List.nil_append] at h2
      obtain ⟨p, hp⟩ := Option.isSome_iff_exists.1 (scanPrefixed_some.2 hx)
      obtain ⟨q, r'⟩ := p
      have hsp : scanSpecial body = none := not_special_of (fun c r' h => by rw [hb] at h; cases h; left; decide)
      have hnum : strtodNumber body = some (.finite q, r') := by
        unfold strtodNumber; simp only [hsp, hp]
      have hlen : r'.length ≤ r.length := by
        rw [hb] at hp
        simp only [scanPrefixed, if_pos hx1] at hp
        exact scanHex_short hp
      rw [hnum] at h2
      unfold fromCharsStod stod at h1
      rw [h2] at h1
      simp only [Option.map_some] at h1
      by_cases he : L.erange q = true
      · simp only [he, if_true, FcRes.mk.injEq] at h1
        exact absurd h1.1 (by simp)
      · simp only [he] at h1
        have := congrArg FcRes.rest h1
        simp only at this
        have hl := congrArg List.length this
        simp at hl
        omega
    refine ⟨?_, hhex, ?_⟩
    · rintro ws sg body rfl hw hsg hor hst
      have h1 := strtod_app hw hsg hst
      have h2 : fromCharsStd (ws ++ sg ++ body) = ⟨none, ws ++ sg ++ body, .invalidArgument⟩ := by
        cases hws : ws with
        | cons c l => exact std_rejects rfl (.inl (hw c (by simp [hws])))
        | nil =>
          rcases hor with h | h
          · exact absurd hws h
          · rw [h]; exact std_rejects (c := '+') (r := body) rfl (.inr rfl)
      rw [h2] at heq
      obtain ⟨p, hp⟩ := Option.isSome_iff_exists.1 (show (strtodNumber body).isSome = true by
        rw [Option.isSome_iff_ne_none]; intro h; exact strtodNumber_none.1 h hst)
      obtain ⟨v, r⟩ := p
      rw [hp] at h1
      unfold fromCharsStod stod at heq
      rw [h1] at heq
      cases v with
      | finite q =>
        simp only [Option.map_some] at heq
        by_cases he : L.erange q = true
        · simp only [he, if_true] at heq
          exact absurd (congrArg FcRes.ec heq) (by simp)
        · simp only [he] at heq
          exact absurd (congrArg FcRes.ec heq) (by simp)
      | inf => exact absurd (congrArg FcRes.ec heq) (by simp)
      | nan => exact absurd (congrArg FcRes.ec heq) (by simp)
    · rintro n r hn rfl hm
      rw [stod_literal L hn hm hhex, std_literal hn hm] at heq
      have hlen := text_length_pos hn
      by_cases he : L.erange n.abs = true <;> by_cases hd : DoubleRange n.abs
      · simp only [he, hd, if_true] at heq
        exact absurd (congrArg FcRes.ec heq) (by simp)
      · simp only [he, hd, if_true, if_false] at heq
        have h9 : n.text ++ r = r := congrArg FcRes.rest heq
        have h10 := congrArg List.length h9
        rw [List.length_append] at h10
        omega
      · exact ⟨hd, by simpa using he⟩
      · simp only [he, hd, if_false] at heq
        exact absurd (congrArg FcRes.ec heq) (by simp)
  · intro hp
    by_cases hc : ∃ c r, s = c :: r ∧ (isSpace c = true ∨ c = '+')
    · obtain ⟨c, r, hs, hc⟩ := hc
      rw [std_rejects hs hc]
      obtain ⟨sg, he1, he2⟩ := expSign_split (s.dropWhile isSpace)
      have hsplit : s = s.takeWhile isSpace ++ sg ++ (expSign (s.dropWhile isSpace)).2 := by
        rw [List.append_assoc, ← he1, List.takeWhile_append_dropWhile]
      have hor : s.takeWhile isSpace ≠ [] ∨ sg = ['+'] := by
        rcases hc with h | h
        · left; rw [hs]; simp [h]
        · right
          have : s.dropWhile isSpace = '+' :: r := by rw [hs, h]; rfl
          rw [this] at he1 he2
          simp only [expSign] at he1 he2
          rcases he2 with ⟨rfl, _⟩ | ⟨rfl, _⟩ | ⟨_, h⟩
          · exfalso
            have := congrArg List.length he1
            simp at this
          · rfl
          · cases h
      have hst := hp.start _ _ _ hsplit (fun c hc => mem_takeWhile hc)
        (by rcases he2 with ⟨h, _⟩ | ⟨h, _⟩ | ⟨h, _⟩ <;> simp [h]) hor
      have hn := strtodNumber_none.2 hst
      unfold fromCharsStod stod strtod
      simp only [hn]
      rfl
    · have hdw : s.dropWhile isSpace = s := by
        cases hs : s with
        | nil => rfl
        | cons c r =>
          have : isSpace c = false := by
            cases h : isSpace c with
            | false => rfl
            | true => exact absurd ⟨c, r, hs, .inl h⟩ hc
          simp [this]
      have hes : expSign s = minusSign s := expSign_minus (fun r h => hc ⟨_, r, h, .inr rfl⟩)
      have hspl := minusSign_split s
      have hnx := hp.hex _ _ hspl
      have hpre : scanPrefixed (minusSign s).2 = none := by
        rw [← scanPrefixed_some] at hnx
        simpa using hnx
      cases hd : scanDecimal (minusSign s).2 with
      | some p =>
        obtain ⟨q, r⟩ := p
        obtain ⟨n, n1, n2, n3, n4, n5⟩ := scanDecimal_long hd
        have htext : s = ({ n with neg := (minusSign s).1 } : Decimal).text ++ r := by
          conv_lhs => rw [hspl, n2]
          simp [Decimal.text, minusText]
        have hform : ({ n with neg := (minusSign s).1 } : Decimal).Form := ⟨n4.ip, n4.fp, n4.some_digit, n4.exp⟩
        have hmun : Munch ({ n with neg := (minusSign s).1 } : Decimal) r := ⟨n5.digit, n5.point, n5.exp⟩
        obtain ⟨r1, r2⟩ := hp.range _ _ hform htext hmun
        have hx := hp.hex
        generalize hN : ({ n with neg := (minusSign s).1 } : Decimal) = N at htext hform hmun r1 r2
        rw [htext] at hx ⊢
        rw [stod_literal L hform hmun hx, std_literal hform hmun, if_pos r1, if_neg (by simp [r2])]
      | none =>
        have hsame : strtod s = (match scanSpecial (minusSign s).2 with
            | some (.nan, r) => some ((minusSign s).1, .nan, nanTail r)
            | some r => some ((minusSign s).1, r)
            | none => none) := by
          unfold strtod strtodNumber
          rw [hdw, hes]
          dsimp only
          cases scanSpecial (minusSign s).2 with
          | none => simp only [hpre, hd]; rfl
          | some p => obtain ⟨v, r⟩ := p; cases v <;> rfl
        unfold fromCharsStod stod fromCharsStd fromCharsDouble fromCharsBody fromCharsFail
        rw [hsame]
        cases hsp : scanSpecial (minusSign s).2 with
        | none => simp only [hd]; rfl
        | some p =>
          obtain ⟨v, r⟩ := p
          cases v with
          | finite q =>
            exfalso
            unfold scanSpecial at hsp
            split at hsp
            · cases hsp
            · split at hsp
              · cases hsp
              · split at hsp <;> cases hsp
          | inf => rfl
          | nan => rfl

end Guanaqo.Duration
