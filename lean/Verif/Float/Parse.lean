import Verif.Float.Model
import Verif.Csv.Ints

/-! # `std::from_chars` for floating-point numbers meets the assumptions of the CSV theorems -/

namespace Guanaqo.Float

open Guanaqo.Duration (Text Val isDigit scanDigits scanFrac scanExp scanExpDigits expSign scanDecimal scanSpecial minusSign lower digitsVal nanTail isPayload)

/-- A character that is no part of a number. -/
structure SepOk (sep : Char) : Prop where
  digit : isDigit sep = false
  point : sep ≠ '.'
  e : sep ≠ 'e'
  E : sep ≠ 'E'
  minus : sep ≠ '-'
  plus : sep ≠ '+'
  payload : isPayload sep = false ∧ sep ≠ '(' ∧ sep ≠ ')'
  special : lower sep ∉ "infty".toList ∧ lower sep ∉ "nan".toList

def push (t : Text) {α : Type} (p : α × Text) : α × Text := (p.1, p.2 ++ t)

variable {sep : Char} (hs : SepOk sep)
include hs

theorem scanDigits_stops (f r : Text) : scanDigits (f ++ sep :: r) = push (sep :: r) (scanDigits f) := by
  simp only [scanDigits, push, Csv.takeWhile_append_stop _ _ _ _ hs.digit, Csv.dropWhile_append_stop _ _ _ _ hs.digit]

theorem scanFrac_stops (f r : Text) : scanFrac (f ++ sep :: r) = push (sep :: r) (scanFrac f) := by
  cases f with
  | nil =>
    show scanFrac (sep :: r) = _
    unfold scanFrac
    split
    · rename_i heq; cases heq; exact absurd rfl hs.point
    · rfl
  | cons c f =>
    by_cases hc : c = '.'
    · subst hc
      exact scanDigits_stops hs f r
    · have h : ∀ g : Text, scanFrac (c :: g) = ([], c :: g) := by
        intro g
        unfold scanFrac
        split
        · rename_i heq; cases heq; exact absurd rfl hc
        · rfl
      rw [List.cons_append, h, h]; rfl

theorem expSign_stops (f r : Text) : expSign (f ++ sep :: r) = push (sep :: r) (expSign f) := by
  cases f with
  | nil =>
    show expSign (sep :: r) = _
    unfold expSign
    split
    · rename_i heq; cases heq; exact absurd rfl hs.minus
    · rename_i heq; cases heq; exact absurd rfl hs.plus
    · rfl
  | cons c f =>
    by_cases hc : c = '-'
    · subst hc; rfl
    · by_cases hc' : c = '+'
      · subst hc'; rfl
      · have h : ∀ g : Text, expSign (c :: g) = (false, c :: g) := by
          intro g
          unfold expSign
          split
          · rename_i heq; cases heq; exact absurd rfl hc
          · rename_i heq; cases heq; exact absurd rfl hc'
          · rfl
        rw [List.cons_append, h, h]; rfl

theorem minusSign_stops (f r : Text) : minusSign (f ++ sep :: r) = push (sep :: r) (minusSign f) := by
  cases f with
  | nil =>
    show minusSign (sep :: r) = _
    unfold minusSign
    split
    · rename_i heq; cases heq; exact absurd rfl hs.minus
    · rfl
  | cons c f =>
    by_cases hc : c = '-'
    · subst hc; rfl
    · have h : ∀ g : Text, minusSign (c :: g) = (false, c :: g) := by
        intro g
        unfold minusSign
        split
        · rename_i heq; cases heq; exact absurd rfl hc
        · rfl
      rw [List.cons_append, h, h]; rfl

theorem scanExpDigits_stops (f r : Text) : scanExpDigits (f ++ sep :: r) = (scanExpDigits f).map (push (sep :: r)) := by
  simp only [scanExpDigits, expSign_stops hs, push, scanDigits_stops hs]
  split <;> rfl

theorem scanExp_stops (f r : Text) : scanExp (f ++ sep :: r) = push (sep :: r) (scanExp f) := by
  cases f with
  | nil =>
    show scanExp (sep :: r) = _
    simp [scanExp, hs.e, hs.E, push]
  | cons c f =>
    unfold scanExp
    simp only [List.cons_append]
    split
    · rw [scanExpDigits_stops hs]
      cases scanExpDigits f <;> rfl
    · rfl

theorem scanDecimal_stops (f r : Text) : scanDecimal (f ++ sep :: r) = (scanDecimal f).map (push (sep :: r)) := by
  simp only [scanDecimal, scanDigits_stops hs, push, scanFrac_stops hs, scanExp_stops hs]
  split <;> rfl

omit hs in
theorem take_eq_of_all {w : Text} (n : ℕ) (hn : w.length = n) (f g : Text) (hsep : lower sep ∉ w) :
    (((f ++ sep :: g).take n).map lower = w ↔ (f.take n).map lower = w) ∧ ((f.take n).map lower = w → n ≤ f.length) := by
  have hlen : (f.take n).map lower = w → n ≤ f.length := by
    intro h
    have := congrArg List.length h
    simp at this
    omega
  refine ⟨⟨fun h => ?_, fun h => ?_⟩, hlen⟩
  · by_cases hf : n ≤ f.length
    · rw [List.take_append_of_le_length hf] at h; exact h
    · exfalso
      apply hsep
      rw [← h]
      apply List.mem_map_of_mem
      obtain ⟨k, hk⟩ : ∃ k, n - f.length = k + 1 := ⟨n - f.length - 1, by omega⟩
      rw [List.take_append, hk, List.take_succ_cons]
      simp
  · rw [List.take_append_of_le_length (hlen h)]; exact h

theorem scanSpecial_stops (f r : Text) : scanSpecial (f ++ sep :: r) = (scanSpecial f).map (push (sep :: r)) := by
  have hsp := hs.special
  have h1 := take_eq_of_all (sep := sep) (w := "infinity".toList) 8 rfl f r (by
    intro h; apply hsp.1; revert h; simp; tauto)
  have h2 := take_eq_of_all (sep := sep) (w := "inf".toList) 3 rfl f r (by
    intro h; apply hsp.1; revert h; simp; tauto)
  have h3 := take_eq_of_all (sep := sep) (w := "nan".toList) 3 rfl f r hsp.2
  unfold scanSpecial
  by_cases c1 : (f.take 8).map lower = "infinity".toList
  · rw [if_pos c1, if_pos (h1.1.2 c1), List.drop_append_of_le_length (h1.2 c1)]; rfl
  · rw [if_neg c1, if_neg (fun h => c1 (h1.1.1 h))]
    by_cases c2 : (f.take 3).map lower = "inf".toList
    · rw [if_pos c2, if_pos (h2.1.2 c2), List.drop_append_of_le_length (h2.2 c2)]; rfl
    · rw [if_neg c2, if_neg (fun h => c2 (h2.1.1 h))]
      by_cases c3 : (f.take 3).map lower = "nan".toList
      · rw [if_pos c3, if_pos (h3.1.2 c3), List.drop_append_of_le_length (h3.2 c3)]; rfl
      · rw [if_neg c3, if_neg (fun h => c3 (h3.1.1 h))]; rfl

theorem nanTail_stops (f r : Text) : nanTail (f ++ sep :: r) = nanTail f ++ sep :: r := by
  obtain ⟨h1, h2, h3⟩ := hs.payload
  cases f with
  | nil =>
    show nanTail (sep :: r) = _
    unfold nanTail
    split
    · rename_i heq; cases heq; exact absurd rfl h2
    · rfl
  | cons c f =>
    by_cases hc : c = '('
    · subst hc
      have hd := Csv.dropWhile_append_stop isPayload f sep r h1
      show nanTail ('(' :: (f ++ sep :: r)) = _
      simp only [nanTail]
      rw [hd]
      cases hf : f.dropWhile isPayload with
      | nil =>
        simp only [List.nil_append]
        split
        · rename_i heq; cases heq; exact absurd rfl h3
        · rfl
      | cons a l =>
        by_cases ha : a = ')'
        · subst ha; rfl
        · simp only [List.cons_append]
          split
          · rename_i heq; cases heq; exact absurd rfl ha
          · split
            · rename_i heq; cases heq; exact absurd rfl ha
            · rfl
    · have k : ∀ g : Text, nanTail (c :: g) = c :: g := by
        intro g
        unfold nanTail
        split
        · rename_i heq; cases heq; exact absurd rfl hc
        · rfl
      rw [List.cons_append, k, k]
      rfl

omit hs in
theorem nanTail_suffix (r : Text) : ∃ d, r = d ++ nanTail r := by
  unfold nanTail
  split
  · rename_i r'
    split
    · rename_i r'' h
      refine ⟨'(' :: (r'.takeWhile isPayload ++ [')']), ?_⟩
      rw [List.cons_append, List.append_assoc]
      show _ = '(' :: (r'.takeWhile isPayload ++ ')' :: r'')
      rw [← h, List.takeWhile_append_dropWhile]
    · exact ⟨[], rfl⟩
  · exact ⟨[], rfl⟩

omit hs in
theorem scanSpecial_consumes {s : Text} {v : Val} {t : Text} (h : scanSpecial s = some (v, t)) : ∃ d, d ≠ [] ∧ s = d ++ t := by
  have key : ∀ n w, 0 < n → (s.take n).map lower = w → w.length = n → ∃ d, d ≠ [] ∧ s = d ++ s.drop n := by
    intro n w hn hw hl
    refine ⟨s.take n, ?_, (List.take_append_drop n s).symm⟩
    intro e
    rw [e] at hw
    rw [← hw] at hl
    simp at hl
    omega
  unfold scanSpecial at h
  split at h
  · rename_i hc; cases h; exact key 8 _ (by decide) hc rfl
  · split at h
    · rename_i hc; cases h; exact key 3 _ (by decide) hc rfl
    · split at h
      · rename_i hc; cases h; exact key 3 _ (by decide) hc rfl
      · cases h

omit hs in
theorem scanDecimal_consumes {s : Text} {q : ℚ} {t : Text} (h : scanDecimal s = some (q, t)) : ∃ d, d ≠ [] ∧ s = d ++ t := by
  have hd : ∀ s : Text, s = (scanDigits s).1 ++ (scanDigits s).2 := fun s => (Duration.scanDigits_sound s).1
  have hfr : ∀ s : Text, ∃ d, s = d ++ (scanFrac s).2 ∧ ((scanFrac s).1 ≠ [] → d ≠ []) := by
    intro s
    unfold scanFrac
    split
    · rename_i s'
      exact ⟨'.' :: (scanDigits s').1, by rw [List.cons_append, ← hd], by simp⟩
    · exact ⟨[], rfl, by simp⟩
  unfold scanDecimal at h
  dsimp only at h
  split at h
  · cases h
  · rename_i hne
    cases h
    obtain ⟨d2, e2, n2⟩ := hfr (scanDigits s).2
    obtain ⟨x, e3, _⟩ := Duration.scanExp_sound (scanFrac (scanDigits s).2).2
    refine ⟨(scanDigits s).1 ++ d2 ++ Duration.expText x, ?_, ?_⟩
    · intro hnil
      apply hne
      simp only [List.append_eq_nil_iff] at hnil
      rw [hnil.1.1]
      by_cases hf : (scanFrac (scanDigits s).2).1 = []
      · rw [hf]; rfl
      · exact absurd hnil.1.2 (n2 hf)
    · rw [List.append_assoc, List.append_assoc, ← e3, ← e2, ← hd]

omit hs in
theorem minusSign_split (s : Text) : ∃ d, s = d ++ (minusSign s).2 := by
  unfold minusSign
  split
  · exact ⟨['-'], rfl⟩
  · exact ⟨[], rfl⟩

/-- For every rounding and every separator that is no part of a number. -/
theorem fromChars_ok {f : Fmt} (rnd : ℚ → Option (Mag f)) : (fromChars rnd).Ok sep where
  consumes := by
    intro s v t h
    obtain ⟨d, hd⟩ := minusSign_split s
    unfold fromChars at h
    dsimp only at h
    have key : (∃ d', d' ≠ [] ∧ (minusSign s).2 = d' ++ t) → ∃ d, d ≠ [] ∧ s = d ++ t := by
      rintro ⟨d', h1, h2⟩
      exact ⟨d ++ d', by simp [h1], by rw [List.append_assoc, ← h2, ← hd]⟩
    apply key
    split at h
    · rename_i heq; cases h; exact scanSpecial_consumes heq
    · rename_i r heq
      cases h
      obtain ⟨d₁, k1, k2⟩ := scanSpecial_consumes heq
      obtain ⟨d₂, k3⟩ := nanTail_suffix r
      exact ⟨d₁ ++ d₂, by simp [k1], by rw [List.append_assoc, ← k3]; exact k2⟩
    · cases h
    · split at h
      · cases h
      · rename_i q rest heq
        cases hr : rnd q with
        | none => rw [hr] at h; cases h
        | some x => rw [hr] at h; cases h; exact scanDecimal_consumes heq
  stops := by
    intro g r _
    unfold fromChars
    rw [minusSign_stops hs]
    simp only [push]
    rw [scanSpecial_stops hs, scanDecimal_stops hs]
    cases h1 : scanSpecial (minusSign g).2 with
    | some p =>
      obtain ⟨v, t⟩ := p
      cases v with
      | nan => simp only [Option.map_some, push, nanTail_stops hs]
      | inf => rfl
      | finite q => rfl
    | none =>
      simp only [Option.map_none]
      cases h2 : scanDecimal (minusSign g).2 with
      | none => rfl
      | some p =>
        obtain ⟨q, t⟩ := p
        simp only [Option.map_some, push]
        cases rnd q <;> rfl

omit hs in
/-- A comma, a semicolon, a space and a tab are no part of a number. -/
theorem sepOk_examples : SepOk ',' ∧ SepOk ';' ∧ SepOk ' ' ∧ SepOk '\t' := by
  refine ⟨?_, ?_, ?_, ?_⟩ <;> constructor <;> decide

end Guanaqo.Float
