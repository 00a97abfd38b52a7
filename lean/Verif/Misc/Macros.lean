/-!
# C106, C107: the macros of preprocessor.h, and `possible_alias_t`

The macros are functions from arguments to token sequences. An argument is a list of tokens, a token its spelling; a call without arguments has one, empty
argument. Arguments are taken to be macro-expanded (as they are when the macros hand them on), and tokens of the results are not names of macros
themselves. White space is left out.
-/

namespace Guanaqo.Macros

abbrev Tok := List Char
abbrev Arg := List Tok

/-! ## The model -/

/-- What expanding a macro gives: tokens, or an error (the wrong number of arguments, or `##` does not make a token). -/
abbrev Expansion := Option (List Tok)

/-- The characters of identifiers and of numbers without points. -/
def isWordChar (c : Char) : Bool := c.isAlphanum || c == '_'

/-- `##` of two tokens: the result must be a token. Only words are (operators such as `<` `<` and floating-point numbers are left out: an error here). -/
def pasteTok (a b : Tok) : Option Tok := if (a ++ b).all isWordChar then some (a ++ b) else none

/-- `x##y` for two token sequences: the last token of the first is joined with the first of the second; an empty argument is no token. -/
def paste (x y : List Tok) : Expansion :=
  match x.reverse, y with
  | [], y => some y
  | x, [] => some x.reverse
  | a :: x, b :: y => (pasteTok a b).map fun t => x.reverse ++ t :: y

/-- preprocessor.h:4-5: `GUANAQO_CONCATENATE_TOKENS`. -/
def concatenateTokens (a b : List Tok) : Expansion := paste a b

/-- preprocessor.h:8: `GUANAQO_NUM_ARGS_IMPL` has eleven parameters, the last of which is the result, and takes any number of further arguments. -/
def numArgsImpl (args : List Arg) : Expansion := args[10]?

/-- preprocessor.h:9-10: `GUANAQO_NUM_ARGS`. -/
def numArgs (args : List Arg) : Expansion :=
  numArgsImpl (args ++ ["10", "9", "8", "7", "6", "5", "4", "3", "2", "1"].map fun s => [s.toList])

/-- preprocessor.h:20-29: the bodies `x1##_##x2##_…`, which are all of this form. (`##` is evaluated from the right; the order does not matter for words.) -/
def pasteAll : List Arg → Expansion
  | [] => some []
  | [x] => some x
  | x :: y :: r => do
    let l ← paste x ["_".toList]
    let r ← pasteAll (y :: r)
    paste l r

/-- preprocessor.h:20-29: `GUANAQO_JOIN_TOKENS_ARGS_N` for `N` from 1 to 10, by name. The names are those that pasting makes. -/
def joinTokensTable : List (Tok × Nat) :=
  [("GUANAQO_JOIN_TOKENS_ARGS_1".toList, 1), ("GUANAQO_JOIN_TOKENS_ARGS_2".toList, 2), ("GUANAQO_JOIN_TOKENS_ARGS_3".toList, 3),
   ("GUANAQO_JOIN_TOKENS_ARGS_4".toList, 4), ("GUANAQO_JOIN_TOKENS_ARGS_5".toList, 5), ("GUANAQO_JOIN_TOKENS_ARGS_6".toList, 6),
   ("GUANAQO_JOIN_TOKENS_ARGS_7".toList, 7), ("GUANAQO_JOIN_TOKENS_ARGS_8".toList, 8), ("GUANAQO_JOIN_TOKENS_ARGS_9".toList, 9),
   ("GUANAQO_JOIN_TOKENS_ARGS_10".toList, 10)]

/-- The tokens of a call that is not one of a macro: `name(a, b, …)`. -/
def plainCall (name : List Tok) (args : List Arg) : List Tok := name ++ "(".toList :: (args.intersperse [",".toList]).flatten ++ [")".toList]

/-- preprocessor.h:13-16: `GUANAQO_JOIN_TOKENS`. If the name that the chooser makes is not a macro, it remains as it is, with the arguments. -/
def joinTokens (args : List Arg) : Expansion := do
  let n ← numArgs args
  let name ← concatenateTokens ["GUANAQO_JOIN_TOKENS_ARGS_".toList] n
  match name with
  | [name] =>
    match joinTokensTable.lookup name with
    | some arity => if args.length = arity then pasteAll args else none
    | none => some (plainCall [name] args)
  | name => some (plainCall name args)

/-- `#x`: the string literal with the spelling of the argument (a token with quotes; words have no characters to be escaped). -/
def stringize (x : Arg) : Tok := '"' :: x.flatten ++ ['"']

/-- preprocessor.h:42-51: the bodies `#x1 sep #x2 sep …`, which are all of this form. -/
def stringsBody (sep : Arg) : List Arg → List Tok
  | [] => []
  | [x] => [stringize x]
  | x :: y :: r => stringize x :: sep ++ stringsBody sep (y :: r)

/-- preprocessor.h:42-51: `GUANAQO_JOIN_STRINGS_ARGS_N`, by name: the number of strings. -/
def joinStringsTable : List (Tok × Nat) :=
  [("GUANAQO_JOIN_STRINGS_ARGS_1".toList, 1), ("GUANAQO_JOIN_STRINGS_ARGS_2".toList, 2), ("GUANAQO_JOIN_STRINGS_ARGS_3".toList, 3),
   ("GUANAQO_JOIN_STRINGS_ARGS_4".toList, 4), ("GUANAQO_JOIN_STRINGS_ARGS_5".toList, 5), ("GUANAQO_JOIN_STRINGS_ARGS_6".toList, 6),
   ("GUANAQO_JOIN_STRINGS_ARGS_7".toList, 7), ("GUANAQO_JOIN_STRINGS_ARGS_8".toList, 8), ("GUANAQO_JOIN_STRINGS_ARGS_9".toList, 9),
   ("GUANAQO_JOIN_STRINGS_ARGS_10".toList, 10)]

/-- preprocessor.h:33-38: `GUANAQO_JOIN_STRINGS`. -/
def joinStrings (sep : Arg) (args : List Arg) : Expansion := do
  let n ← numArgs args
  let name ← concatenateTokens ["GUANAQO_JOIN_STRINGS_ARGS_".toList] n
  match name with
  | [name] =>
    match joinStringsTable.lookup name with
    | some arity => if args.length = arity then some (stringsBody sep args) else none
    | none => some (plainCall [name] (sep :: args))
  | name => some (plainCall name (sep :: args))

/-! ## Specification -/

/-- An identifier or a number. -/
def Word (t : Tok) : Prop := t ≠ [] ∧ ∀ c ∈ t, isWordChar c = true

/-- The decimal spelling of a number. -/
def number (n : Nat) : List Tok := [(toString n).toList]

/-- The words with underscores between them. -/
def underscored : List Tok → Tok
  | [] => []
  | [t] => t
  | t :: u :: r => t ++ '_' :: underscored (u :: r)

/-- What adjacent string literals denote: their characters, one after the other. A token that is not a literal denotes nothing. -/
def literalText : List Tok → Option (List Char)
  | [] => some []
  | t :: r =>
    match t with
    | '"' :: s => if s.getLast? = some '"' then (literalText r).map (s.dropLast ++ ·) else none
    | _ => none

/-- C106, in full: for every number of arguments. -/
def CountsAll : Prop := ∀ args : List Arg, args ≠ [] → numArgs args = some (number args.length)

def JoinsAll : Prop := ∀ words : List Tok, words ≠ [] → (∀ t ∈ words, Word t) → joinTokens (words.map fun t => [t]) = some [underscored words]

/-! ## Proofs -/

/-- C106. One to ten arguments, whatever they are, are counted. Missing: more (see below). -/
theorem num_args_partial (args : List Arg) (h1 : 1 ≤ args.length) (h2 : args.length ≤ 10) : numArgs args = some (number args.length) := by
  unfold numArgs numArgsImpl
  rw [List.getElem?_append_right (by omega)]
  generalize args.length = n at *
  obtain rfl | rfl | rfl | rfl | rfl | rfl | rfl | rfl | rfl | rfl : n = 1 ∨ n = 2 ∨ n = 3 ∨ n = 4 ∨ n = 5 ∨ n = 6 ∨ n = 7 ∨ n = 8 ∨ n = 9 ∨ n = 10 := by omega
  all_goals rfl

/-- C106: with eleven arguments and more, the result is the eleventh argument. -/
theorem num_args_more (args : List Arg) (h : 11 ≤ args.length) : numArgs args = args[10]? := by
  unfold numArgs numArgsImpl
  rw [List.getElem?_append_left (by omega)]

theorem not_countsAll : ¬ CountsAll := by
  intro h
  have := h (List.replicate 11 ["x".toList]) (by simp)
  rw [num_args_more _ (by simp)] at this
  revert this
  decide +kernel

theorem paste_words {a b : Tok} (ha : ∀ c ∈ a, isWordChar c = true) (hb : ∀ c ∈ b, isWordChar c = true) : paste [a] [b] = some [a ++ b] := by
  have : (a ++ b).all isWordChar = true := by
    rw [List.all_eq_true]
    intro c hc
    rcases List.mem_append.1 hc with h | h
    · exact ha c h
    · exact hb c h
  simp [paste, pasteTok, this]

theorem underscored_word {words : List Tok} (hw : ∀ t ∈ words, Word t) : ∀ c ∈ underscored words, isWordChar c = true := by
  induction words with
  | nil => simp [underscored]
  | cons t r ih =>
    cases r with
    | nil => simpa [underscored] using (hw t (by simp)).2
    | cons u r =>
      intro c hc
      simp only [underscored, List.mem_append, List.mem_cons] at hc
      rcases hc with h | h | h
      · exact (hw t (by simp)).2 c h
      · subst h; rfl
      · exact ih (fun t' ht' => hw t' (List.mem_cons_of_mem _ ht')) c h

theorem pasteAll_words {words : List Tok} (h0 : words ≠ []) (hw : ∀ t ∈ words, Word t) :
    pasteAll (words.map fun t => [t]) = some [underscored words] := by
  induction words with
  | nil => exact absurd rfl h0
  | cons t r ih =>
    cases r with
    | nil => rfl
    | cons u r =>
      have ih := ih (by simp) (fun t' ht' => hw t' (List.mem_cons_of_mem _ ht'))
      have h1 : ∀ c ∈ t ++ "_".toList, isWordChar c = true := by
        intro c hc
        rcases List.mem_append.1 hc with h | h
        · exact (hw t (by simp)).2 c h
        · have : c = '_' := by simpa using h
          subst this; rfl
      show (do let l ← paste [t] ["_".toList]; let r ← pasteAll ((u :: r).map fun t => [t]); paste l r) = _
      rw [ih, paste_words (hw t (by simp)).2 (by decide)]
      show paste [t ++ "_".toList] [underscored (u :: r)] = _
      rw [paste_words h1 (underscored_word fun t' ht' => hw t' (List.mem_cons_of_mem _ ht'))]
      simp [underscored]

/-- The chooser finds the macro for the number of arguments. -/
theorem chooser (n : Nat) (h1 : 1 ≤ n) (h2 : n ≤ 10) :
    ∃ name, concatenateTokens ["GUANAQO_JOIN_TOKENS_ARGS_".toList] (number n) = some [name] ∧ joinTokensTable.lookup name = some n := by
  obtain rfl | rfl | rfl | rfl | rfl | rfl | rfl | rfl | rfl | rfl : n = 1 ∨ n = 2 ∨ n = 3 ∨ n = 4 ∨ n = 5 ∨ n = 6 ∨ n = 7 ∨ n = 8 ∨ n = 9 ∨ n = 10 := by omega
  all_goals exact ⟨_, rfl, by decide +kernel⟩

theorem chooser_strings (n : Nat) (h1 : 1 ≤ n) (h2 : n ≤ 10) :
    ∃ name, concatenateTokens ["GUANAQO_JOIN_STRINGS_ARGS_".toList] (number n) = some [name] ∧ joinStringsTable.lookup name = some n := by
  obtain rfl | rfl | rfl | rfl | rfl | rfl | rfl | rfl | rfl | rfl : n = 1 ∨ n = 2 ∨ n = 3 ∨ n = 4 ∨ n = 5 ∨ n = 6 ∨ n = 7 ∨ n = 8 ∨ n = 9 ∨ n = 10 := by omega
  all_goals exact ⟨_, rfl, by decide +kernel⟩

/-- C106. `GUANAQO_JOIN_TOKENS` joins one to ten words with underscores. Missing: more words. -/
theorem join_tokens_partial (words : List Tok) (h1 : 1 ≤ words.length) (h2 : words.length ≤ 10) (hw : ∀ t ∈ words, Word t) :
    joinTokens (words.map fun t => [t]) = some [underscored words] := by
  have hl : (words.map fun t => [t]).length = words.length := by simp
  obtain ⟨name, c1, c2⟩ := chooser words.length h1 h2
  unfold joinTokens
  rw [num_args_partial _ (by omega) (by omega), hl]
  simp only [Option.bind_eq_bind, Option.bind_some, c1, c2, if_true]
  exact pasteAll_words (by rintro rfl; simp at h1) hw

/-- C106. For all arguments, not only words, one to ten of them go to the macro for that number. -/
theorem join_tokens_dispatch (args : List Arg) (h1 : 1 ≤ args.length) (h2 : args.length ≤ 10) : joinTokens args = pasteAll args := by
  obtain ⟨name, c1, c2⟩ := chooser args.length h1 h2
  unfold joinTokens
  rw [num_args_partial _ h1 h2]
  simp only [Option.bind_eq_bind, Option.bind_some, c1, c2, if_true]

/-- C106: eleven words or more are never joined: the result is an error or a call of something that is not a macro. -/
theorem join_tokens_more (words : List Tok) (h : 11 ≤ words.length) (hw : ∀ t ∈ words, Word t) :
    joinTokens (words.map fun t => [t]) = none ∨
      joinTokens (words.map fun t => [t]) = some (plainCall ["GUANAQO_JOIN_TOKENS_ARGS_".toList ++ words[10]!] (words.map fun t => [t])) := by
  have hl : (words.map fun t => [t]).length = words.length := by simp
  have hg : (words.map fun t => [t])[10]? = some [words[10]] := by simp [List.getElem?_eq_getElem (show 10 < words.length by omega)]
  have hw10 := hw words[10] (List.getElem_mem _)
  have hb : words[10]! = words[10] := by simp [show 10 < words.length by omega]
  unfold joinTokens
  rw [num_args_more _ (by omega), hg, hb]
  simp only [Option.bind_eq_bind, Option.bind_some, concatenateTokens]
  rw [paste_words (by decide +kernel) hw10.2]
  simp only [Option.bind_some]
  cases hlk : joinTokensTable.lookup ("GUANAQO_JOIN_TOKENS_ARGS_".toList ++ words[10]) with
  | none => exact .inr rfl
  | some arity =>
    left
    have ha : arity ≤ 10 := by
      have hall : ∀ p ∈ joinTokensTable, p.2 ≤ 10 := by decide
      have : ∀ (l : List (Tok × Nat)) k v, l.lookup k = some v → (∀ p ∈ l, p.2 ≤ 10) → v ≤ 10 := by
        intro l k v hl hp
        induction l with
        | nil => cases hl
        | cons q r ih =>
          obtain ⟨k', v'⟩ := q
          simp only [List.lookup] at hl
          split at hl
          · cases hl; exact hp (k', v) (by simp)
          · exact ih hl fun p hp' => hp p (List.mem_cons_of_mem _ hp')
      exact this _ _ _ hlk hall
    dsimp only
    rw [if_neg (by simp only [List.length_map]; omega)]

theorem not_joinsAll : ¬ JoinsAll := by
  intro h
  have hw : ∀ t ∈ List.replicate 11 "x".toList, Word t := by
    intro t ht
    rw [List.eq_of_mem_replicate ht]
    exact ⟨by decide, by decide⟩
  have h1 := h (List.replicate 11 "x".toList) (by simp) hw
  rcases join_tokens_more _ (by simp) hw with h2 | h2
  · rw [h1] at h2; cases h2
  · rw [h1] at h2
    revert h2
    decide +kernel

theorem literalText_append {l r : List Tok} {s t : List Char} (hl : literalText l = some s) (hr : literalText r = some t) :
    literalText (l ++ r) = some (s ++ t) := by
  induction l generalizing s with
  | nil => simp only [literalText, Option.some.injEq] at hl; subst hl; simpa using hr
  | cons a l ih =>
    cases a with
    | nil => simp [literalText] at hl
    | cons c a =>
      by_cases hc : c = '"'
      · subst hc
        simp only [literalText, List.cons_append] at hl ⊢
        split at hl
        · rename_i hq
          rw [if_pos hq]
          cases hlt : literalText l with
          | none => rw [hlt] at hl; cases hl
          | some u =>
            rw [hlt] at hl
            rw [ih hlt]
            simp only [Option.map_some, Option.some.injEq] at hl ⊢
            rw [← hl, List.append_assoc]
        · cases hl
      · simp [literalText, hc] at hl

theorem literalText_stringize (x : Arg) : literalText [stringize x] = some x.flatten := by
  simp [stringize, literalText]

/-- C106. `GUANAQO_JOIN_STRINGS` with a separator that is a string (or several, or none) gives string literals, which denote the spellings of the one to ten arguments
with the separator between them. Missing: more arguments. -/
theorem join_strings_partial (sep : Arg) (s : List Char) (hs : literalText sep = some s) (args : List Arg) (h1 : 1 ≤ args.length) (h2 : args.length ≤ 10) :
    ∃ toks, joinStrings sep args = some toks ∧ literalText toks = some (s.intercalate (args.map List.flatten)) := by
  obtain ⟨name, c1, c2⟩ := chooser_strings args.length h1 h2
  refine ⟨stringsBody sep args, ?_, ?_⟩
  · unfold joinStrings
    rw [num_args_partial _ h1 h2]
    simp only [Option.bind_eq_bind, Option.bind_some, c1, c2, if_true]
  · have h0 : args ≠ [] := by rintro rfl; simp at h1
    clear h1 h2 c1 c2
    induction args with
    | nil => exact absurd rfl h0
    | cons x r ih =>
      cases r with
      | nil => simp [stringsBody, literalText_stringize, List.intercalate]
      | cons y r =>
        have ih := ih (by simp)
        have := literalText_append (literalText_append (literalText_stringize x) hs) ih
        simpa [stringsBody, List.intercalate] using this

/-- Instances. -/
example : joinTokens [["a".toList], ["b".toList], ["c2".toList]] = some ["a_b_c2".toList] ∧
    joinStrings ["\"::\"".toList] [["a".toList], ["b".toList]] = some ["\"a\"".toList, "\"::\"".toList, "\"b\"".toList] ∧
    numArgs [[]] = some ["1".toList] := by decide +kernel

/-! ## `possible_alias_t` (possible-alias.hpp) -/

/-- Types: those of the user, and the tags `dummy<T, Ts...>`, which differ if their arguments do (possible-alias.hpp:14-17). -/
inductive Ty where
  | user (n : Nat)
  | dummy (new : Ty) (aliases : List Ty)

/-- `std::is_same_v` -/
noncomputable instance : DecidableEq Ty := fun _ _ => Classical.propDecidable _

/-- possible-alias.hpp:9-12: `any_is_same`. -/
noncomputable def anyIsSame (a : Ty) (bs : List Ty) : Bool := bs.any fun b => decide (a = b)

/-- possible-alias.hpp:25-28: `possible_alias_t<NewAlias, PossibleAliases...>`. -/
noncomputable def possibleAlias (new : Ty) (aliases : List Ty) : Ty := if anyIsSame new aliases then .dummy new aliases else new

/-- The types for which a template is specialized when each type of a list is guarded by those before it, as in
`Foo<A>`, `Foo<possible_alias_t<B, A>>`, `Foo<possible_alias_t<C, A, B>>`. -/
noncomputable def guarded (before : List Ty) : List Ty → List Ty
  | [] => []
  | t :: r => possibleAlias t before :: guarded (before ++ [t]) r

/-- A type of the user. -/
def Ty.IsUser : Ty → Prop
  | .user _ => True
  | .dummy _ _ => False

/-- C107. A type that is different from the others is itself. -/
theorem alias_distinct (t : Ty) (bs : List Ty) (h : t ∉ bs) : possibleAlias t bs = t := by
  unfold possibleAlias anyIsSame
  rw [if_neg]
  simp only [List.any_eq_true, decide_eq_true_eq]
  rintro ⟨b, hb, rfl⟩
  exact h hb

/-- C107. Otherwise it is a tag, which is not a type of the user and determines the types. -/
theorem alias_same (t : Ty) (bs : List Ty) (h : t ∈ bs) : possibleAlias t bs = .dummy t bs := by
  unfold possibleAlias anyIsSame
  rw [if_pos]
  simp only [List.any_eq_true, decide_eq_true_eq]
  exact ⟨t, h, rfl⟩

theorem guarded_mem (before : List Ty) (ts : List Ty) (t : Ty) (h : t ∈ guarded before ts) :
    (t ∈ ts ∧ t ∉ before) ∨ ∃ new bs, t = .dummy new bs ∧ before.length ≤ bs.length := by
  induction ts generalizing before with
  | nil => cases h
  | cons u r ih =>
    rcases List.mem_cons.1 h with h | h
    · by_cases hu : u ∈ before
      · rw [alias_same _ _ hu] at h
        exact .inr ⟨u, before, h, Nat.le_refl _⟩
      · rw [alias_distinct _ _ hu] at h
        subst h
        exact .inl ⟨by simp, hu⟩
    · rcases ih _ h with ⟨h1, h2⟩ | ⟨new, bs, h1, h2⟩
      · exact .inl ⟨List.mem_cons_of_mem _ h1, fun hb => h2 (List.mem_append_left _ hb)⟩
      · refine .inr ⟨new, bs, h1, ?_⟩
        simp only [List.length_append, List.length_cons, List.length_nil] at h2
        omega

/-- C107. The guarded types are pairwise different, whichever of the types of the user are the same, so that there are no two specializations for the same type; and every
type of the user has its specialization. -/
theorem guarded_nodup (ts : List Ty) (hu : ∀ t ∈ ts, t.IsUser) (before : List Ty) :
    (guarded before ts).Nodup ∧ ∀ t ∈ ts, t ∉ before → t ∈ guarded before ts := by
  induction ts generalizing before with
  | nil => exact ⟨List.nodup_nil, fun t ht => by cases ht⟩
  | cons u r ih =>
    obtain ⟨ih1, ih2⟩ := ih (fun t ht => hu t (List.mem_cons_of_mem _ ht)) (before ++ [u])
    have huu := hu u (by simp)
    constructor
    · refine List.nodup_cons.2 ⟨fun hm => ?_, ih1⟩
      rcases guarded_mem _ _ _ hm with ⟨h1, h2⟩ | ⟨new, bs, h1, h2⟩
      · by_cases hb : u ∈ before
        · rw [alias_same _ _ hb] at h1
          exact hu _ (List.mem_cons_of_mem _ h1)
        · rw [alias_distinct _ _ hb] at h2
          exact h2 (by simp)
      · by_cases hb : u ∈ before
        · rw [alias_same _ _ hb] at h1
          injection h1 with _ h1
          rw [← h1] at h2
          simp only [List.length_append, List.length_cons, List.length_nil] at h2
          omega
        · rw [alias_distinct _ _ hb] at h1
          rw [h1] at huu
          exact huu
    · intro t ht hb
      rw [guarded, List.mem_cons]
      by_cases htu : t = u
      · subst htu
        exact .inl (alias_distinct _ _ hb).symm
      · right
        refine ih2 t ?_ ?_
        · rcases List.mem_cons.1 ht with h | h
          · exact absurd h htu
          · exact h
        · intro h
          rcases List.mem_append.1 h with h | h
          · exact hb h
          · exact htu (List.mem_singleton.1 h)

/-- An instance: `int`, `long`, `long` again. -/
example : guarded [] [.user 0, .user 1, .user 1] = [.user 0, .user 1, .dummy (.user 1) [.user 0, .user 1]] := by
  simp [guarded, possibleAlias, anyIsSame]

end Guanaqo.Macros
