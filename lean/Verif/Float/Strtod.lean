import Verif.Float.RoundTrip
import Verif.Duration.Stod
import Verif.Csv.ByExact

/-! # Reading floating-point numbers without `std::from_chars` (C123)

The configuration of `csv.tpp` for standard libraries without `__cpp_lib_to_chars` (csv.tpp:97-131), for `float`, `double` and
`long double`: `read_single` with `strtof`, `strtod` and `strtold` of the C library, which scan alike and differ in the format they
round to. The scan is that of `Verif/Duration/Stod.lean` ("C" locale). -/

namespace Guanaqo.Float

open Guanaqo.Duration (Text Val isDigit scanSpecial scanDecimal minusSign lower nanTail isPayload Decimal strtod strtodNumber
  scanPrefixed scanHex scanHexFrac scanHexDigits scanBinExp isHexDigit expSign)
open Guanaqo.FromChars (isSpace)

/-! ## The model -/

/-- The number that `strtod` returns, if it does not set `errno`: `conv` rounds, and gives nothing where the library sets `errno` to
`ERANGE`. -/
def strtodValue {f : Fmt} (conv : ℚ → Option (Mag f)) (neg : Bool) : Val → Option (Fl f)
  | .finite q => (conv q).map (.fin neg)
  | .inf => some (.inf neg)
  | .nan => some (.nan neg)

/-- csv.tpp:98-106 and 119-130: `read_single` with `strtof`, `strtod` or `strtold`. The text ends at the first NUL character (the code puts one
after the buffer, line 120). An error if `errno` was set or nothing was converted. -/
def strtodSingle {f : Fmt} (conv : ℚ → Option (Mag f)) (buf : Text) : Option (Fl f × Text) :=
  let str := buf.takeWhile (· != '\x00')
  match strtod str with
  | none => none
  | some (neg, v, rest) => (strtodValue conv neg v).map fun x => (x, buf.drop (str.length - rest.length))

/-! ## Specification -/

/-- A character that is no part of a number, and not skipped before one. -/
structure CSepOk (sep : Char) : Prop extends SepOk sep where
  blank : isSpace sep = false
  hex : isHexDigit sep = false
  x : sep ≠ 'x' ∧ sep ≠ 'X'
  p : sep ≠ 'p' ∧ sep ≠ 'P'

/-- Commas, semicolons, bars and NUL characters are no part of a number, and not skipped. -/
theorem cSepOk_examples : CSepOk ',' ∧ CSepOk ';' ∧ CSepOk '|' ∧ CSepOk '\x00' := by
  refine ⟨?_, ?_, ?_, ?_⟩ <;> refine ⟨⟨?_, ?_, ?_, ?_, ?_, ?_, ?_, ?_⟩, ?_, ?_, ?_, ?_⟩ <;> decide

/-! ## Numbers end at separators -/

section Stops
variable {sep : Char} (hs : CSepOk sep)
include hs

theorem scanHexDigits_stops (f r : Text) : scanHexDigits (f ++ sep :: r) = push (sep :: r) (scanHexDigits f) := by
  simp only [scanHexDigits, push, Csv.takeWhile_append_stop _ _ _ _ hs.hex, Csv.dropWhile_append_stop _ _ _ _ hs.hex]

theorem scanHexFrac_stops (f r : Text) : scanHexFrac (f ++ sep :: r) = push (sep :: r) (scanHexFrac f) := by
  cases f with
  | nil =>
    show scanHexFrac (sep :: r) = _
    unfold scanHexFrac
    split
    · rename_i heq; cases heq; exact absurd rfl hs.point
    · rfl
  | cons c f =>
    by_cases hc : c = '.'
    · subst hc
      exact scanHexDigits_stops hs f r
    · have h : ∀ g : Text, scanHexFrac (c :: g) = ([], c :: g) := by
        intro g
        unfold scanHexFrac
        split
        · rename_i heq; cases heq; exact absurd rfl hc
        · rfl
      rw [List.cons_append, h, h]; rfl

theorem scanBinExp_stops (f r : Text) : scanBinExp (f ++ sep :: r) = push (sep :: r) (scanBinExp f) := by
  cases f with
  | nil =>
    show scanBinExp (sep :: r) = _
    simp [scanBinExp, hs.p.1, hs.p.2, push]
  | cons c f =>
    unfold scanBinExp
    simp only [List.cons_append]
    split
    · rw [scanExpDigits_stops hs.toSepOk]
      cases Duration.scanExpDigits f <;> rfl
    · rfl

theorem scanHex_stops (f r : Text) : scanHex (f ++ sep :: r) = (scanHex f).map (push (sep :: r)) := by
  simp only [scanHex, scanHexDigits_stops hs, push, scanHexFrac_stops hs, scanBinExp_stops hs]
  split <;> rfl

theorem scanPrefixed_stops (f r : Text) : scanPrefixed (f ++ sep :: r) = (scanPrefixed f).map (push (sep :: r)) := by
  have hno : ∀ c : Char, c ≠ '0' → ∀ g, scanPrefixed (c :: g) = none := by
    intro c hc g
    unfold scanPrefixed
    split
    · rename_i heq; cases heq; exact absurd rfl hc
    · rfl
  cases f with
  | nil => exact hno sep (by rintro rfl; exact absurd hs.digit (by decide)) r
  | cons c f =>
    by_cases hc : c = '0'
    · subst hc
      cases f with
      | nil =>
        show (if sep = 'x' ∨ sep = 'X' then _ else _) = _
        rw [if_neg (by simp [hs.x.1, hs.x.2])]; rfl
      | cons x f =>
        show (if x = 'x' ∨ x = 'X' then scanHex (f ++ sep :: r) else none) = (if x = 'x' ∨ x = 'X' then scanHex f else none).map _
        by_cases hx : x = 'x' ∨ x = 'X'
        · rw [if_pos hx, if_pos hx]; exact scanHex_stops hs f r
        · rw [if_neg hx, if_neg hx]; rfl
    · rw [List.cons_append, hno c hc, hno c hc]; rfl

theorem strtodNumber_stops (f r : Text) : strtodNumber (f ++ sep :: r) = (strtodNumber f).map (push (sep :: r)) := by
  unfold strtodNumber
  rw [scanSpecial_stops hs.toSepOk, scanPrefixed_stops hs, scanDecimal_stops hs.toSepOk]
  cases h1 : scanSpecial f with
  | some p =>
    obtain ⟨v, t⟩ := p
    cases v with
    | nan => simp only [Option.map_some, push, nanTail_stops hs.toSepOk]
    | inf => rfl
    | finite q => rfl
  | none =>
    simp only [Option.map_none]
    cases h2 : scanPrefixed f with
    | some p => rfl
    | none =>
      simp only [Option.map_none]
      cases h3 : scanDecimal f <;> rfl

theorem strtod_stops (f r : Text) : strtod (f ++ sep :: r) = (strtod f).map fun p => (p.1, push (sep :: r) p.2) := by
  unfold strtod
  rw [Csv.dropWhile_append_stop _ _ _ _ hs.blank, expSign_stops hs.toSepOk]
  simp only [push]
  rw [strtodNumber_stops hs]
  cases strtodNumber (expSign (f.dropWhile isSpace)).2 <;> rfl

end Stops

theorem scanHex_consumes {s : Text} {q : ℚ} {t : Text} (h : scanHex s = some (q, t)) : ∃ d, s = d ++ t := by
  have hd : ∀ s : Text, s = (scanHexDigits s).1 ++ (scanHexDigits s).2 := fun s => (List.takeWhile_append_dropWhile ..).symm
  have hfr : ∀ s : Text, ∃ d, s = d ++ (scanHexFrac s).2 := by
    intro s
    unfold scanHexFrac
    split
    · rename_i s'
      exact ⟨'.' :: (scanHexDigits s').1, by rw [List.cons_append, ← hd]⟩
    · exact ⟨[], rfl⟩
  have hex : ∀ s : Text, ∃ d, s = d ++ (scanBinExp s).2 := by
    intro s
    unfold scanBinExp
    split
    · exact ⟨[], rfl⟩
    · rename_i c r
      split
      · cases he : Duration.scanExpDigits r with
        | none => exact ⟨[], rfl⟩
        | some p =>
          unfold Duration.scanExpDigits at he
          dsimp only at he
          split at he
          · cases he
          · cases he
            obtain ⟨sg, h1, _⟩ := Duration.expSign_split r
            refine ⟨c :: sg ++ (Duration.scanDigits (expSign r).2).1, ?_⟩
            have h2 := (Duration.scanDigits_sound (expSign r).2).1
            simp only [Option.getD_some, List.cons_append, List.append_assoc]
            rw [← h2, ← h1]
      · exact ⟨[], rfl⟩
  unfold scanHex at h
  dsimp only at h
  split at h
  · cases h
  · cases h
    obtain ⟨d2, e2⟩ := hfr (scanHexDigits s).2
    obtain ⟨d3, e3⟩ := hex (scanHexFrac (scanHexDigits s).2).2
    refine ⟨(scanHexDigits s).1 ++ d2 ++ d3, ?_⟩
    rw [List.append_assoc, List.append_assoc, ← e3, ← e2, ← hd]

theorem strtodNumber_consumes {s : Text} {v : Val} {t : Text} (h : strtodNumber s = some (v, t)) : ∃ d, d ≠ [] ∧ s = d ++ t := by
  unfold strtodNumber at h
  cases h1 : scanSpecial s with
  | some p =>
    obtain ⟨w, r⟩ := p
    rw [h1] at h
    obtain ⟨d₁, k1, k2⟩ := scanSpecial_consumes h1
    cases w with
    | nan =>
      cases h
      obtain ⟨d₂, k3⟩ := nanTail_suffix r
      exact ⟨d₁ ++ d₂, by simp [k1], by rw [List.append_assoc, ← k3]; exact k2⟩
    | inf => cases h; exact ⟨d₁, k1, k2⟩
    | finite q => cases h; exact ⟨d₁, k1, k2⟩
  | none =>
    rw [h1] at h
    dsimp only at h
    cases h2 : scanPrefixed s with
    | some p =>
      rw [h2] at h
      cases h
      unfold scanPrefixed at h2
      split at h2
      · rename_i x r
        split at h2
        · obtain ⟨d, hd⟩ := scanHex_consumes h2
          exact ⟨'0' :: x :: d, by simp, by rw [hd]; rfl⟩
        · cases h2
      · cases h2
    | none =>
      rw [h2] at h
      dsimp only at h
      cases h3 : scanDecimal s with
      | none => rw [h3] at h; cases h
      | some p => rw [h3] at h; cases h; exact scanDecimal_consumes h3

theorem strtod_consumes {s : Text} {neg : Bool} {v : Val} {t : Text} (h : strtod s = some (neg, v, t)) : ∃ d, d ≠ [] ∧ s = d ++ t := by
  unfold strtod at h
  dsimp only at h
  cases hn : strtodNumber (expSign (s.dropWhile isSpace)).2 with
  | none => rw [hn] at h; cases h
  | some p =>
    rw [hn] at h
    cases h
    obtain ⟨d, h1, h2⟩ := strtodNumber_consumes hn
    obtain ⟨sg, h3, _⟩ := Duration.expSign_split (s.dropWhile isSpace)
    refine ⟨s.takeWhile isSpace ++ sg ++ d, by simp [h1], ?_⟩
    rw [List.append_assoc, ← h2, List.append_assoc, ← h3, List.takeWhile_append_dropWhile]

/-- The NUL character after the buffer needs no special treatment. -/
theorem strtodSingle_eq {f : Fmt} (conv : ℚ → Option (Mag f)) (buf : Text) :
    strtodSingle conv buf = (strtod buf).bind fun p => (strtodValue conv p.1 p.2.1).map fun x => (x, p.2.2) := by
  have key : ∀ str tl : Text, buf = str ++ tl → (∀ neg v rest, strtod str = some (neg, v, rest) → strtod buf = some (neg, v, rest ++ tl)) →
      (strtod str = none → strtod buf = none) → buf.takeWhile (· != '\x00') = str →
      strtodSingle conv buf = (strtod buf).bind fun p => (strtodValue conv p.1 p.2.1).map fun x => (x, p.2.2) := by
    intro str tl hb h1 h2 h3
    unfold strtodSingle
    rw [h3]
    dsimp only
    cases hst : strtod str with
    | none => rw [h2 hst]; rfl
    | some p =>
      obtain ⟨neg, v, rest⟩ := p
      rw [h1 _ _ _ hst]
      obtain ⟨d, _, hd⟩ := strtod_consumes hst
      have hdrop : buf.drop (str.length - rest.length) = rest ++ tl := by
        rw [hb, hd, List.append_assoc, List.length_append, Nat.add_sub_cancel, List.drop_left]
      simp only [Option.bind_some, hdrop]
  have hsplit := List.takeWhile_append_dropWhile (p := fun c : Char => c != '\x00') (l := buf)
  cases ht : buf.dropWhile (fun c : Char => c != '\x00') with
  | nil =>
    rw [ht, List.append_nil] at hsplit
    exact key buf [] (by simp) (fun _ _ _ h => by simpa using h) id hsplit
  | cons c r =>
    have hc := Duration.dropWhile_head ht
    have hc0 : c = '\x00' := by simpa using hc
    subst hc0
    rw [ht] at hsplit
    have hst := strtod_stops cSepOk_examples.2.2.2 (buf.takeWhile (fun c : Char => c != '\x00')) r
    rw [hsplit] at hst
    refine key _ ('\x00' :: r) hsplit.symm ?_ ?_ rfl
    · intro neg v rest h
      rw [hst, h]; rfl
    · intro h
      rw [hst, h]; rfl

/-- `read_single` with `strtod` consumes what it converts and stops at separators. -/
theorem strtodSingle_ok {f : Fmt} (conv : ℚ → Option (Mag f)) {sep : Char} (hs : CSepOk sep) : Csv.SingleOk (strtodSingle conv) sep where
  consumes := by
    intro s v t h
    rw [strtodSingle_eq] at h
    cases hst : strtod s with
    | none => rw [hst] at h; cases h
    | some p =>
      obtain ⟨neg, w, rest⟩ := p
      rw [hst] at h
      simp only [Option.bind_some] at h
      cases hv : strtodValue conv neg w with
      | none => rw [hv] at h; cases h
      | some x => rw [hv] at h; cases h; exact strtod_consumes hst
  stops := by
    intro g r _
    rw [strtodSingle_eq, strtodSingle_eq, strtod_stops hs]
    cases hst : strtod g with
    | none => rfl
    | some p =>
      obtain ⟨neg, w, rest⟩ := p
      simp only [Option.map_some, Option.bind_some, push]
      cases strtodValue conv neg w <;> rfl

end Guanaqo.Float
