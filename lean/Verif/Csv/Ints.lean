import Verif.Csv.Props

/-!
# Reading integers; concrete rows

`std::from_chars` for integers satisfies what `Parser.Ok` asks, for every separator that is neither a
digit nor a minus sign. The concrete cases of C40, C42 and C44.
-/

namespace Guanaqo.Csv

theorem takeWhile_append_stop {α : Type} (p : α → Bool) (f : List α) (c : α) (r : List α)
    (hc : p c = false) : (f ++ c :: r).takeWhile p = f.takeWhile p := by
  induction f with
  | nil => simp [hc]
  | cons a f ih =>
    simp only [List.cons_append, List.takeWhile_cons, ih]

theorem dropWhile_append_stop {α : Type} (p : α → Bool) (f : List α) (c : α) (r : List α)
    (hc : p c = false) : (f ++ c :: r).dropWhile p = f.dropWhile p ++ c :: r := by
  induction f with
  | nil => simp [hc]
  | cons a f ih =>
    simp only [List.cons_append, List.dropWhile_cons, ih]
    split <;> rfl

/-- The part of `fromCharsInt` after the sign. -/
def fromDigits (bits : Nat) (neg : Bool) (body : List Char) : Option (Int × List Char) :=
  let ds := body.takeWhile (fun c => (digitVal c).isSome)
  let rest := body.dropWhile (fun c => (digitVal c).isSome)
  if ds.isEmpty then none
  else
    let v : Int := if neg then -(digitsVal ds : Int) else digitsVal ds
    if -(2 ^ (bits - 1) : Int) ≤ v ∧ v < (2 ^ (bits - 1) : Int) then some (v, rest) else none

theorem fromCharsInt_minus (bits : Nat) (r : List Char) :
    fromCharsInt bits ('-' :: r) = fromDigits bits true r := rfl

theorem fromCharsInt_plain (bits : Nat) {s : List Char} (h : s.head? ≠ some '-') :
    fromCharsInt bits s = fromDigits bits false s := by
  unfold fromCharsInt fromDigits
  split
  rename_i neg body heq
  split at heq
  · exact absurd rfl h
  · cases heq; rfl

theorem fromDigits_consumes {bits : Nat} {neg : Bool} {s : List Char} {v : Int} {t : List Char}
    (h : fromDigits bits neg s = some (v, t)) : ∃ d, d ≠ [] ∧ s = d ++ t := by
  unfold fromDigits at h
  dsimp only at h
  generalize hd : s.takeWhile (fun c => (digitVal c).isSome) = ds at h
  generalize (if neg then -(digitsVal ds : Int) else digitsVal ds) = w at h
  by_cases hne : ds.isEmpty
  · simp [hne] at h
  · by_cases hw : -(2 ^ (bits - 1) : Int) ≤ w ∧ w < (2 ^ (bits - 1) : Int)
    · simp only [hne, Bool.false_eq_true, if_false, hw, and_self, if_true, Option.some.injEq,
        Prod.mk.injEq] at h
      refine ⟨ds, ?_, ?_⟩
      · intro e; rw [e] at hne; exact hne rfl
      · rw [← h.2, ← hd, List.takeWhile_append_dropWhile]
    · rw [if_neg hne] at h
      simp only [if_neg hw] at h
      cases h

theorem fromDigits_stops {bits : Nat} {neg : Bool} {sep : Char} (hs : digitVal sep = none)
    (f r : List Char) : fromDigits bits neg (f ++ sep :: r) =
      (fromDigits bits neg f).map (fun p => (p.1, p.2 ++ sep :: r)) := by
  unfold fromDigits
  simp only
  rw [takeWhile_append_stop _ _ _ _ (by simp [hs]), dropWhile_append_stop _ _ _ _ (by simp [hs])]
  generalize f.takeWhile (fun c => (digitVal c).isSome) = ds
  generalize (if neg then -(digitsVal ds : Int) else digitsVal ds) = w
  by_cases hne : ds.isEmpty
  · simp [hne]
  · by_cases hw : -(2 ^ (bits - 1) : Int) ≤ w ∧ w < (2 ^ (bits - 1) : Int)
    · simp [hne, hw]
    · rw [if_neg hne, if_neg hne, if_neg hw, if_neg hw]; rfl

/-- `std::from_chars` for integers of any width meets the assumption of the CSV theorems, for every
separator that is not a digit and not a minus sign. -/
theorem fromCharsInt_ok (bits : Nat) (sep : Char) (hs : digitVal sep = none) (hm : sep ≠ '-') :
    (fromCharsInt bits).Ok sep where
  consumes := by
    intro s v t h
    by_cases hh : s.head? = some '-'
    · cases s with
      | nil => cases hh
      | cons c s =>
        simp only [List.head?_cons, Option.some.injEq] at hh
        subst hh
        rw [fromCharsInt_minus] at h
        obtain ⟨d, hd, rfl⟩ := fromDigits_consumes h
        exact ⟨'-' :: d, by simp, rfl⟩
    · rw [fromCharsInt_plain _ hh] at h
      exact fromDigits_consumes h
  stops := by
    intro f r _
    by_cases hh : f.head? = some '-'
    · cases f with
      | nil => cases hh
      | cons c s =>
        simp only [List.head?_cons, Option.some.injEq] at hh
        subst hh
        rw [List.cons_append, fromCharsInt_minus, fromCharsInt_minus]
        exact fromDigits_stops hs s r
    · rw [fromCharsInt_plain _ hh, fromCharsInt_plain, fromDigits_stops hs]
      cases f with
      | nil => simpa using hm
      | cons c s => simpa using hh

/-! ## Concrete cases -/

/-- A comment, then a row with signs and a trailing separator: the hypotheses of `csv_read_row_exact` hold and the
values are those expected. -/
example : ∃ is', csvReadRow (fromCharsInt 32) true true ',' 3
    { rest := "# a\n12,-3,+4,\n7\n".toList } = .ok ([12, -3, 4], is') ∧
    AfterLine "\n7\n".toList is' := by
  have := csv_read_row_exact (fromCharsInt 32) ',' (fromCharsInt_ok 32 ',' (by decide) (by decide))
    (by decide) true true 3 [" a".toList] (by decide) "12,-3,+4,".toList "\n7\n".toList (by decide)
    (by decide) (by decide) (.inr ⟨_, rfl⟩) (by decide +kernel)
  have hs : rowSpec (fromCharsInt 32) ',' 3 "12,-3,+4,".toList = some [12, -3, 4] := by
    decide +kernel
  rw [hs] at this
  exact this

/-- One field too many or too few, or a field that is no number, throws. -/
example : csvReadRow (fromCharsInt 32) true true ',' 2 { rest := "1,2,3\n".toList } =
      .error (.throw .csvReadError) ∧
    csvReadRow (fromCharsInt 32) true true ',' 4 { rest := "1,2,3\n".toList } =
      .error (.throw .csvReadError) ∧
    csvReadRow (fromCharsInt 32) true true ',' 2 { rest := "1,2x\n".toList } =
      .error (.throw .csvReadError) ∧
    csvReadRow (fromCharsInt 8) true true ',' 1 { rest := "128\n".toList } =
      .error (.throw .csvReadError) := by
  refine ⟨?_, ?_, ?_, ?_⟩ <;> decide +kernel

/-- A 2 × 2 matrix with a comment between the rows. -/
example : csvRead (fromCharsInt 32) false true ',' 2 2
    { rest := "1,2\n#c\n3,4\nrest".toList } = .ok ([[1, 2], [3, 4]], { rest := "rest".toList }) := by
  have := csv_read_exact (fromCharsInt 32) ',' (fromCharsInt_ok 32 ',' (by decide) (by decide))
    (by decide) false true 2 [⟨[], "1,2".toList⟩, ⟨["c".toList], "3,4".toList⟩]
    (by
      intro r hr
      simp only [List.mem_cons, List.not_mem_nil, or_false] at hr
      rcases hr with rfl | rfl <;> refine ⟨?_, ?_, ?_, ?_, ?_⟩ <;> decide +kernel) "rest".toList
  have hs : [(⟨[], "1,2".toList⟩ : RowText), ⟨["c".toList], "3,4".toList⟩].mapM
      (fun r => rowSpec (fromCharsInt 32) ',' 2 r.line) = some [[1, 2], [3, 4]] := by decide +kernel
  rw [hs] at this
  exact this

/-- C42 is false as stated: after a comment line, an empty line is not accepted as an empty row,
although without the comment it is. -/
theorem not_commentsSkipped : ¬ CommentsSkipped := by
  intro h
  have := h (fromCharsInt 32) ',' (fromCharsInt_ok 32 ',' (by decide) (by decide)) (by decide) true
    true 0 [[]] (by decide) [] [] (by decide) (by decide)
  revert this
  decide +kernel

end Guanaqo.Csv
