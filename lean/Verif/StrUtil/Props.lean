import Verif.StrUtil.Model
import Verif.Std.Sort
import Verif.Tactics
import Mathlib.Data.List.Lex
import Mathlib.Data.List.Infix

/-!
# Properties of the string utilities (C29–C34)
-/

namespace Guanaqo.StrUtil

theorem find_none {tok s : Str} : find tok s = none ↔ ¬ tok <:+: s := by
  induction s with
  | nil =>
    simp only [find]
    cases tok <;> simp
  | cons c s ih =>
    simp only [find]
    rw [List.infix_cons_iff]
    split
    · rename_i h
      have := List.isPrefixOf_iff_prefix.1 h
      simp [this]
    · rename_i h
      have h' : ¬ tok <+: c :: s := fun hp => h (List.isPrefixOf_iff_prefix.2 hp)
      simp [h', ih]

theorem find_some {tok s : Str} {n : Nat} (h : find tok s = some n) :
    n ≤ s.length ∧ tok <+: s.drop n ∧ ∀ k, k < n → ¬ tok <+: s.drop k := by
  induction s generalizing n with
  | nil =>
    simp only [find] at h
    split at h
    · rename_i hp
      cases h
      exact ⟨by simp, List.isPrefixOf_iff_prefix.1 hp, by omega⟩
    · cases h
  | cons c s ih =>
    simp only [find] at h
    split at h
    · rename_i hp
      cases h
      exact ⟨by simp, List.isPrefixOf_iff_prefix.1 hp, by omega⟩
    · rename_i hp
      obtain ⟨m, hm, rfl⟩ := Option.map_eq_some_iff.1 h
      obtain ⟨h1, h2, h3⟩ := ih hm
      refine ⟨by simp; omega, by simpa using h2, ?_⟩
      intro k hk
      cases k with
      | zero => exact fun hh => hp (List.isPrefixOf_iff_prefix.2 (by simpa using hh))
      | succ k => simpa using h3 k (by omega)

/-- What splitting at the first occurrence means: `key ++ tok ++ rem = s`, and `tok` does not
occur in `s` at any earlier position. -/
def CutAtFirst (s tok key rem : Str) : Prop :=
  s = key ++ tok ++ rem ∧ ∀ k, k < key.length → ¬ tok <+: s.drop k

theorem split_cut {s tok : Str} {n : Nat} (h : find tok s = some n) :
    CutAtFirst s tok (substrTo s n) (substrFrom s (n + tok.length)) := by
  obtain ⟨h1, h2, h3⟩ := find_some h
  have hlen : (substrTo s n).length = n := by simp [substrTo]; omega
  refine ⟨?_, by rw [hlen]; exact h3⟩
  obtain ⟨r, hr⟩ := h2
  have h4 : substrFrom s (n + tok.length) = r := by
    simp only [substrFrom]
    rw [← List.drop_drop, ← hr]; simp
  rw [h4, List.append_assoc, hr, substrTo, List.take_append_drop]

/-- C29. `split` cuts at the first occurrence of the token; if the token does not occur it
returns the whole string and an empty remainder. -/
theorem split_correct (s tok : Str) :
    (tok <:+: s → CutAtFirst s tok (split s tok).1 (split s tok).2) ∧
    (¬ tok <:+: s → split s tok = (s, [])) := by
  unfold split
  cases h : find tok s with
  | none =>
    have := find_none.1 h
    exact ⟨fun hh => absurd hh this, fun _ => rfl⟩
  | some n =>
    refine ⟨fun _ => split_cut h, fun hh => ?_⟩
    rw [find_none.2 hh] at h; cases h

/-- C30. `split_second` cuts at the first occurrence too; if the token does not occur it returns
an empty key and the whole string as remainder. -/
theorem splitSecond_correct (s tok : Str) :
    (tok <:+: s → CutAtFirst s tok (splitSecond s tok).1 (splitSecond s tok).2) ∧
    (¬ tok <:+: s → splitSecond s tok = ([], s)) := by
  unfold splitSecond
  cases h : find tok s with
  | none =>
    have := find_none.1 h
    exact ⟨fun hh => absurd hh this, fun _ => rfl⟩
  | some n =>
    refine ⟨fun _ => split_cut h, fun hh => ?_⟩
    rw [find_none.2 hh] at h; cases h

/-- `CutAtFirst` determines the pieces. -/
theorem cutAtFirst_unique {s tok k₁ r₁ k₂ r₂ : Str} (h₁ : CutAtFirst s tok k₁ r₁)
    (h₂ : CutAtFirst s tok k₂ r₂) : k₁ = k₂ ∧ r₁ = r₂ := by
  have key : ∀ {k r k' r'}, CutAtFirst s tok k r → CutAtFirst s tok k' r' →
      ¬ k.length < k'.length := by
    intro k r k' r' h h' hlt
    apply h'.2 _ hlt
    rw [h.1]; simp
  have hl : k₁.length = k₂.length := by
    have := key h₁ h₂; have := key h₂ h₁; omega
  have he : k₁ ++ (tok ++ r₁) = k₂ ++ (tok ++ r₂) := by
    rw [← List.append_assoc, ← List.append_assoc, ← h₁.1, ← h₂.1]
  obtain ⟨e1, e2⟩ := List.append_inj he hl
  exact ⟨e1, List.append_cancel_left e2⟩

example : split [1, 2, 3, 2, 3, 4] [2, 3] = ([1], [2, 3, 4]) ∧ [2, 3] <:+: [1, 2, 3, 2, 3, 4] :=
  ⟨by decide, ⟨[1], [2, 3, 4], rfl⟩⟩

theorem foldl_join (sep : Str) (rest : List Str) (acc : Str) :
    rest.foldl (fun acc e => acc ++ sep ++ e) acc = acc ++ (rest.map (sep ++ ·)).flatten := by
  induction rest generalizing acc with
  | nil => simp
  | cons e rest ih => simp [ih, List.append_assoc]

theorem intercalate_cons (sep x : Str) (rest : List Str) :
    sep.intercalate (x :: rest) = x ++ (rest.map (sep ++ ·)).flatten := by
  induction rest generalizing x with
  | nil => simp [List.intercalate]
  | cons y rest ih =>
    have := ih y
    simp only [List.intercalate, List.intersperse, List.flatten_cons] at this ⊢
    rw [this]; simp [List.append_assoc]

/-- C31. `join` of a non-empty list is the concatenation of its elements with the separator
between consecutive ones; of the empty list it is the `empty` option. -/
theorem join_correct (strings : List Str) (sep empty : Str) :
    join strings sep empty = if strings = [] then empty else sep.intercalate strings := by
  cases strings with
  | nil => rfl
  | cons x rest =>
    simp only [join, foldl_join, intercalate_cons]
    simp

/-- C32. `join_quote` is `join` of the quoted elements. -/
theorem joinQuote_correct (strings : List Str) (sep empty ql qr : Str) :
    joinQuote strings sep empty ql qr =
      if strings = [] then empty else sep.intercalate (strings.map (fun s => ql ++ s ++ qr)) := by
  cases strings with
  | nil => rfl
  | cons x rest =>
    have h : ∀ (rest : List Str) (acc : Str),
        rest.foldl (fun acc e => acc ++ qr ++ sep ++ ql ++ e) acc ++ qr =
          acc ++ qr ++ ((rest.map (fun s => ql ++ s ++ qr)).map (sep ++ ·)).flatten := by
      intro rest
      induction rest with
      | nil => intro acc; simp
      | cons e rest ih => intro acc; rw [List.foldl_cons, ih]; simp [List.append_assoc]
    simp only [joinQuote, h, List.map_cons, intercalate_cons]
    simp

example : join [[1], [], [2, 3]] [9, 9] [0] = [1, 9, 9, 9, 9, 2, 3] ∧
    joinQuote [[1], [2]] [9] [0] [7] [8] = [7, 1, 8, 9, 7, 2, 8] := by decide

/-- `x` cannot be confused with the separator: no occurrence of `tok` begins inside `x` in
`x ++ tok ++ …`. -/
def Separable (tok x : Str) : Prop := ¬ tok <:+: x ++ tok.dropLast

theorem separable_cut {tok x : Str} (ht : tok ≠ []) (hs : Separable tok x) (r : Str) :
    CutAtFirst (x ++ tok ++ r) tok x r := by
  refine ⟨rfl, ?_⟩
  intro k hk hp
  apply hs
  -- the occurrence at `k` lies inside `x ++ tok.dropLast`
  have htl : 0 < tok.length := List.length_pos_iff.2 ht
  have h1 : tok <+: (x ++ tok.dropLast).drop k := by
    have h2 : (x ++ tok.dropLast).drop k <+: (x ++ tok ++ r).drop k := by
      have h3 : x ++ tok.dropLast <+: x ++ tok ++ r := by
        rw [List.append_assoc]
        exact (List.prefix_append_right_inj x).2 ((List.dropLast_prefix tok).trans (List.prefix_append _ _))
      exact h3.drop k
    have h4 : tok.length ≤ ((x ++ tok.dropLast).drop k).length := by simp; omega
    exact List.prefix_of_prefix_length_le hp h2 h4
  exact h1.isInfix.trans (List.drop_suffix _ _).isInfix

theorem separable_not_infix {tok x : Str} (hs : Separable tok x) : ¬ tok <:+: x :=
  fun h => hs (h.trans (List.prefix_append _ _).isInfix)

/-- C33. Splitting `join(strings, tok)` at `tok` as many times as there are strings recovers the
strings, with nothing left over, when the token cannot be confused with the text. -/
theorem split_join (strings : List Str) (tok empty : Str) (ht : tok ≠ []) (hne : strings ≠ [])
    (hs : ∀ x ∈ strings, Separable tok x) :
    splitLoop tok strings.length (join strings tok empty) = (strings, []) := by
  rw [join_correct, if_neg hne]
  induction strings with
  | nil => exact absurd rfl hne
  | cons x rest ih =>
    have hx := hs x (by simp)
    cases rest with
    | nil =>
      have h1 : tok.intercalate [x] = x := by simp [List.intercalate]
      have h2 := (split_correct x tok).2 (separable_not_infix hx)
      simp [splitLoop, h1, h2]
    | cons y rest =>
      have h1 : tok.intercalate (x :: y :: rest) = x ++ tok ++ tok.intercalate (y :: rest) := by
        simp [List.intercalate, List.intersperse, List.append_assoc]
      have hin : tok <:+: x ++ tok ++ tok.intercalate (y :: rest) :=
        ⟨x, tok.intercalate (y :: rest), rfl⟩
      have h2 := (split_correct (x ++ tok ++ tok.intercalate (y :: rest)) tok).1 hin
      have h3 := cutAtFirst_unique h2 (separable_cut ht hx (tok.intercalate (y :: rest)))
      have h4 := ih (by simp) (fun z hz => hs z (by simp [hz]))
      have hsp : split (x ++ tok ++ tok.intercalate (y :: rest)) tok =
          (x, tok.intercalate (y :: rest)) := Prod.ext h3.1 h3.2
      have hstep : ∀ n s, splitLoop tok (n + 1) s =
          ((split s tok).1 :: (splitLoop tok n (split s tok).2).1,
            (splitLoop tok n (split s tok).2).2) := fun _ _ => rfl
      rw [h1, show (x :: y :: rest).length = (y :: rest).length + 1 from rfl, hstep, hsp]
      simp only [h4]

/-- The hypotheses are needed: with `tok = "aa"`, joining `"a"` and `"b"` gives `"aaab"`, which
splits differently. -/
theorem split_join_ambiguous :
    splitLoop [97, 97] 2 (join [[97], [98]] [97, 97] []) ≠ ([[97], [98]], []) := by decide

example : Separable [44, 32] [97, 32, 98] ∧ [44, 32] ≠ [] := by
  constructor
  · intro ⟨s, t, h⟩
    simp only [List.dropLast, List.append_assoc, List.cons_append, List.nil_append] at h
    match s, h with
    | [], h => simp at h
    | [_], h => simp at h
    | [_, _], h => simp at h
    | [_, _, _], h => simp at h
    | _ :: _ :: _ :: _ :: s, h => simp at h
  · simp

/-! ## C34 -/

theorem lexCompare_iff (a b : List Int) : lexCompare a b = true ↔ a < b := by
  induction a generalizing b with
  | nil => cases b <;> simp [lexCompare]
  | cons x xs ih =>
    cases b with
    | nil => simp [lexCompare]
    | cons y ys =>
      rw [List.cons_lt_cons_iff, lexCompare]
      split
      · rename_i h; simp [h]
      · rename_i h
        split
        · rename_i h'; simp; refine ⟨by omega, fun hh => by omega⟩
        · rename_i h'
          have : x = y := by omega
          simp [this, ih]

theorem cmpCI_strictWeak (toupper : Nat → Int) : StrictWeak (cmpCI toupper) := by
  refine ⟨?_, ?_⟩
  · intro a b h
    have h1 := (lexCompare_iff _ _).1 h
    cases h2 : cmpCI toupper b a with
    | false => rfl
    | true => exact absurd ((lexCompare_iff _ _).1 h2) (lt_asymm h1)
  · intro a b c h
    have h1 := (lexCompare_iff _ _).1 h
    by_cases h2 : a.map toupper < b.map toupper
    · exact .inl ((lexCompare_iff _ _).2 h2)
    · exact .inr ((lexCompare_iff _ _).2 (lt_of_le_of_lt (not_lt.1 h2) h1))

/-- C34. For every conforming sorting algorithm, `sort_case_insensitive` yields a permutation of
the range in which the upper-cased strings are in (non-strict) lexicographic order. -/
theorem sortCI_correct (sort : {α : Type} → (α → α → Bool) → List α → List α)
    (hsort : SortContract @sort) (toupper : Nat → Int) (range : List Str) :
    (sortCI @sort toupper range).Perm range ∧
    (sortCI @sort toupper range).Pairwise (fun x y => x.map toupper ≤ y.map toupper) := by
  obtain ⟨h1, h2⟩ := hsort (cmpCI toupper) range (cmpCI_strictWeak toupper)
  refine ⟨h1, h2.imp ?_⟩
  intro x y hxy
  refine not_lt.1 (fun hlt => ?_)
  rw [show cmpCI toupper y x = true from (lexCompare_iff _ _).2 hlt] at hxy
  cases hxy

example : SortContract @someSort := someSort_contract

/-- "b" and "A" are swapped: the comparator puts "A" before "b". -/
example : cmpCI toupperC [65] [98] = true ∧ cmpCI toupperC [65] [97] = false := by decide

end Guanaqo.StrUtil
