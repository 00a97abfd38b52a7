import Verif.Misc.FromChars

/-! # C65 and C86: what the fallback `from_chars` does with any text -/

namespace Guanaqo.FromChars

/-- The numbers that do not make the underlying conversion function fail. -/
def Ty.Taken (t : Ty) (x : Int) : Prop :=
  match t with
  | .schar | .short | .int => -2 ^ 31 ≤ x ∧ x < 2 ^ 31
  | .long | .llong => -2 ^ 63 ≤ x ∧ x < 2 ^ 63
  | .uchar | .ushort | .uint | .ulong | .ullong => -2 ^ 64 < x ∧ x < 2 ^ 64

theorem stoul_taken {base : Nat} {text : List Char} {neg : Bool} {v k : Nat} (h : scan base text = some (neg, v, k)) :
    stoul base text =
      if -2 ^ 64 < signedVal neg v ∧ signedVal neg v < 2 ^ 64 then .ok (signedVal neg v % 2 ^ 64) k else .outOfRange := by
  unfold stoul; rw [h]
  cases neg with
  | true =>
    simp only [signedVal, if_true]
    by_cases hv : v < 2 ^ 64
    · rw [if_pos hv, if_pos (by omega)]
    · rw [if_neg hv, if_neg (by omega)]
  | false =>
    simp only [signedVal, Bool.false_eq_true, if_false]
    by_cases hv : v < 2 ^ 64
    · rw [if_pos hv, if_pos (by omega)]
      congr 1
      omega
    · rw [if_neg hv, if_neg (by omega)]

theorem cast_exact (t : Ty) (x : Int) : t.Fits (t.cast x) ∧ ∃ q, t.cast x = x + q * 2 ^ t.bits := by
  cases t <;> simp only [Ty.Fits, Ty.cast, Ty.signed, Ty.bits, if_true, Bool.false_eq_true, if_false] <;>
    first
    | (refine ⟨?_, -(x / 2 ^ 8), ?_⟩ <;> omega)
    | (refine ⟨?_, -(x / 2 ^ 16), ?_⟩ <;> omega)
    | (refine ⟨?_, -(x / 2 ^ 32), ?_⟩ <;> omega)
    | (refine ⟨?_, -(x / 2 ^ 64), ?_⟩ <;> omega)
    | (rw [Int.bmod_def]; refine ⟨?_, ?_⟩
       · split <;> omega
       · split
         · first
           | exact ⟨-(x / 2 ^ 8), by omega⟩
           | exact ⟨-(x / 2 ^ 16), by omega⟩
           | exact ⟨-(x / 2 ^ 32), by omega⟩
           | exact ⟨-(x / 2 ^ 64), by omega⟩
         · first
           | exact ⟨-(x / 2 ^ 8) - 1, by omega⟩
           | exact ⟨-(x / 2 ^ 16) - 1, by omega⟩
           | exact ⟨-(x / 2 ^ 32) - 1, by omega⟩
           | exact ⟨-(x / 2 ^ 64) - 1, by omega⟩)

/-- **C65**, exactly, for every text: without a number at its beginning, the result is an error. Otherwise, for the longest number at
its beginning: if the conversion function takes it, the result is the number of the type that is congruent to it modulo the size of the
type (so the number itself if it fits, and another one if it does not); otherwise it is reported as out of range. -/
theorem from_chars_exact (t : Ty) (base : Nat) (text : List Char) (old : Int) (h2 : 2 ≤ base) (hb : base ≤ 36) :
    ((∀ k x, ¬ IsNumber base (text.take k) x) → fromChars t base text old = ⟨old, 0, .invalidArgument⟩) ∧
    ∀ k x, Longest (IsNumber base) text k x →
      (t.Taken x → ∃ y q, fromChars t base text old = ⟨y, k, .ok⟩ ∧ t.Fits y ∧ y = x + q * 2 ^ t.bits) ∧
      (¬ t.Taken x → fromChars t base text old = ⟨old, 0, .outOfRange⟩) := by
  refine ⟨(never_wrapped_partial t base text old h2 hb).1, fun k x hl => ?_⟩
  obtain ⟨neg, v, hs, rfl⟩ := (scan_longest h2 hb text).2.2 k x hl
  have e1 := stoi_val hs
  have e2 := stol_val hs
  have e3 := stoul_taken hs
  constructor
  · intro ht
    unfold fromChars
    cases t <;> simp only [Ty.Taken] at ht <;> simp only [convert]
    · rw [e1, if_pos ht]
      obtain ⟨c1, q, c2⟩ := cast_exact .schar (signedVal neg v)
      exact ⟨_, q, rfl, c1, c2⟩
    · rw [e1, if_pos ht]
      obtain ⟨c1, q, c2⟩ := cast_exact .short (signedVal neg v)
      exact ⟨_, q, rfl, c1, c2⟩
    · rw [e1, if_pos ht]
      exact ⟨_, 0, rfl, (by simp only [Ty.Fits, Ty.signed, Ty.bits, if_true]; omega), by omega⟩
    · rw [e2, if_pos ht]
      exact ⟨_, 0, rfl, (by simp only [Ty.Fits, Ty.signed, Ty.bits, if_true]; omega), by omega⟩
    · rw [e2, if_pos ht]
      exact ⟨_, 0, rfl, (by simp only [Ty.Fits, Ty.signed, Ty.bits, if_true]; omega), by omega⟩
    · rw [e3, if_pos ht]
      obtain ⟨c1, q, c2⟩ := cast_exact .uchar (signedVal neg v % 2 ^ 64)
      refine ⟨_, q - signedVal neg v / 2 ^ 64 * 2 ^ 56, rfl, c1, ?_⟩
      rw [c2]; simp only [Ty.bits]; omega
    · rw [e3, if_pos ht]
      obtain ⟨c1, q, c2⟩ := cast_exact .ushort (signedVal neg v % 2 ^ 64)
      refine ⟨_, q - signedVal neg v / 2 ^ 64 * 2 ^ 48, rfl, c1, ?_⟩
      rw [c2]; simp only [Ty.bits]; omega
    · rw [e3, if_pos ht]
      obtain ⟨c1, q, c2⟩ := cast_exact .uint (signedVal neg v % 2 ^ 64)
      refine ⟨_, q - signedVal neg v / 2 ^ 64 * 2 ^ 32, rfl, c1, ?_⟩
      rw [c2]; simp only [Ty.bits]; omega
    · rw [e3, if_pos ht]
      refine ⟨_, -(signedVal neg v / 2 ^ 64), rfl, ?_, ?_⟩
      · simp only [Ty.Fits, Ty.signed, Ty.bits, Bool.false_eq_true, if_false]; omega
      · simp only [Ty.bits]; omega
    · rw [e3, if_pos ht]
      refine ⟨_, -(signedVal neg v / 2 ^ 64), rfl, ?_, ?_⟩
      · simp only [Ty.Fits, Ty.signed, Ty.bits, Bool.false_eq_true, if_false]; omega
      · simp only [Ty.bits]; omega
  · intro ht
    unfold fromChars
    cases t <;> simp only [Ty.Taken] at ht <;> simp only [convert] <;>
      first
      | rw [e1, if_neg ht]
      | rw [e2, if_neg ht]
      | rw [e3, if_neg ht]

/-- **C65**, exactly where it fails: a number that does not fit the type is wrapped, that is, converted to another number without an
error, if and only if the conversion function takes it. -/
theorem wrapped_iff (t : Ty) (base : Nat) (text : List Char) (old : Int) (h2 : 2 ≤ base) (hb : base ≤ 36) {k : Nat} {x : Int}
    (hl : Longest (IsNumber base) text k x) (hf : ¬ t.Fits x) :
    ((fromChars t base text old).ec = .ok ↔ t.Taken x) ∧ (t.Taken x → (fromChars t base text old).value ≠ x) := by
  obtain ⟨h3, h4⟩ := (from_chars_exact t base text old h2 hb).2 k x hl
  by_cases ht : t.Taken x
  · obtain ⟨y, q, e, hy, -⟩ := h3 ht
    rw [e]
    exact ⟨⟨fun _ => ht, fun _ => rfl⟩, fun _ (hc : y = x) => hf (hc ▸ hy)⟩
  · rw [h4 ht]
    exact ⟨⟨fun hc => (by cases hc), fun hc => absurd hc ht⟩, fun hc => absurd hc ht⟩

/-- A number of each kind: -1 is taken for `unsigned char` (and becomes 255), 70000 for `short`, and `2 ^ 31` is refused for `short`. -/
example : Ty.uchar.Taken (-1) ∧ ¬ Ty.uchar.Fits (-1) ∧ Ty.short.Taken 70000 ∧ ¬ Ty.short.Fits 70000 ∧ ¬ Ty.short.Taken (2 ^ 31) ∧
    Longest (IsNumber 10) "70000".toList 5 70000 := by
  refine ⟨by unfold Ty.Taken; decide, by decide, by unfold Ty.Taken; decide, by decide, by unfold Ty.Taken; decide, ?_⟩
  exact longest_of_scan (neg := false) (v := 70000) (by decide) (by decide) (by decide +kernel) rfl

/-! ## C86 -/

/-- A text that starts with a number starts with a longest one. -/
theorem longest_exists {P : List Char → Int → Prop} {text : List Char} {k : Nat} {x : Int} (hk : k ≤ text.length) (h : P (text.take k) x) :
    ∃ k' y, Longest P text k' y := by
  by_cases hm : ∃ k', k < k' ∧ k' ≤ text.length ∧ ∃ y, P (text.take k') y
  · obtain ⟨k', h1, h2, y, h3⟩ := hm
    exact longest_exists h2 h3
  · exact ⟨k, x, hk, h, fun k' h1 h2 y hy => hm ⟨k', h1, h2, y, hy⟩⟩
termination_by text.length - k

/-- Every number of `std::from_chars` is one of the fallback, with the same value. -/
theorem std_number {signed : Bool} {base : Nat} {text : List Char} {x : Int} (h : IsStdNumber signed base text x) : IsNumber base text x := by
  obtain ⟨sg, ds, a1, a2, a3, a4, a5⟩ := h
  refine ⟨[], sg, [], ds, by simpa using a1, by simp, ?_, .inl rfl, a3, a4, a5⟩
  rcases a2 with rfl | ⟨-, rfl⟩ <;> simp

/-- The result of `std::from_chars` ([charconv.from.chars]). -/
def StdResult (t : Ty) (base : Nat) (text : List Char) (old : Int) (r : Result) : Prop :=
  ((∀ k x, ¬ IsStdNumber t.signed base (text.take k) x) → r = ⟨old, 0, .invalidArgument⟩) ∧
  (∀ k x, Longest (IsStdNumber t.signed base) text k x → t.Fits x → r = ⟨x, k, .ok⟩) ∧
  (∀ k x, Longest (IsStdNumber t.signed base) text k x → ¬ t.Fits x → r = ⟨old, k, .outOfRange⟩)

theorem number_pos {base : Nat} {text : List Char} {k : Nat} {x : Int} (h : IsNumber base (text.take k) x) : 0 < k := by
  rcases Nat.eq_zero_or_pos k with rfl | h0
  · obtain ⟨ws, sg, pre, ds, a1, -, -, -, a5, -⟩ := h
    have := congrArg List.length a1
    simp only [List.take_zero, List.length_nil, List.length_append] at this
    exact absurd (List.length_eq_zero_iff.1 (by omega)) a5
  · exact h0

/-- **C86**, exactly: the fallback gives the result of `std::from_chars` if and only if the text starts with no number (in the sense of
`strtol`), or the longest number that it starts with in the sense of `strtol` is also the longest one in the sense of `std::from_chars`,
and fits the type. -/
theorem same_as_std_iff (t : Ty) (base : Nat) (text : List Char) (old : Int) (h2 : 2 ≤ base) (hb : base ≤ 36) :
    StdResult t base text old (fromChars t base text old) ↔
      (∀ k x, ¬ IsNumber base (text.take k) x) ∨
      ∃ k x, Longest (IsNumber base) text k x ∧ Longest (IsStdNumber t.signed base) text k x ∧ t.Fits x := by
  obtain ⟨e1, e2⟩ := from_chars_exact t base text old h2 hb
  have fit := (never_wrapped_partial t base text old h2 hb).2.1
  have uniq : ∀ {k k' x x'}, Longest (IsStdNumber t.signed base) text k x → Longest (IsStdNumber t.signed base) text k' x' → k = k' := by
    rintro k k' x x' ⟨a1, a2, a3⟩ ⟨b1, b2, b3⟩
    rcases Nat.lt_trichotomy k k' with h | h | h
    · exact absurd b2 (a3 k' h b1 x')
    · exact h
    · exact absurd a2 (b3 k h a1 x)
  have uniqN : ∀ {k x x'}, Longest (IsNumber base) text k x → Longest (IsNumber base) text k x' → x = x' := by
    intro k x x' h h'
    obtain ⟨neg, v, a1, rfl⟩ := (scan_longest h2 hb text).2.2 k x h
    obtain ⟨neg', v', b1, rfl⟩ := (scan_longest h2 hb text).2.2 k x' h'
    rw [a1] at b1; cases b1; rfl
  have std_le : ∀ {k x}, (h : Longest (IsNumber base) text k x) → ∀ {k' x'}, Longest (IsStdNumber t.signed base) text k' x' →
      k' ≤ k ∧ (k' = k → x' = x) := by
    rintro k x h k' x' ⟨b1, b2, b3⟩
    have hle : k' ≤ k := Nat.not_lt.1 fun hlt => h.2.2 k' hlt b1 x' (std_number b2)
    refine ⟨hle, fun hk => ?_⟩
    subst hk
    exact uniqN ⟨b1, std_number b2, h.2.2⟩ h
  constructor
  · rintro ⟨s1, s2, s3⟩
    by_cases hn : ∀ k x, ¬ IsNumber base (text.take k) x
    · exact .inl hn
    · right
      obtain ⟨k, x, hl⟩ : ∃ k x, Longest (IsNumber base) text k x := by
        obtain ⟨k, x, h⟩ : ∃ k x, IsNumber base (text.take k) x :=
          Classical.byContradiction fun hc => hn fun k x h => hc ⟨k, x, h⟩
        by_cases hk : k ≤ text.length
        · exact longest_exists hk h
        · rw [List.take_of_length_le (by omega), ← List.take_of_length_le (Nat.le_refl text.length)] at h
          exact longest_exists (Nat.le_refl _) h
      have hk := number_pos hl.2.1
      -- the fallback converts the number, or reports that it is out of range
      have res : (∃ y, fromChars t base text old = ⟨y, k, .ok⟩ ∧ (t.Fits x → y = x) ∧ (¬ t.Fits x → t.Taken x)) ∨
          fromChars t base text old = ⟨old, 0, .outOfRange⟩ := by
        by_cases ht : t.Taken x
        · obtain ⟨y, q, e, -, -⟩ := (e2 k x hl).1 ht
          refine .inl ⟨y, e, fun hf => ?_, fun _ => ht⟩
          have := fit k x hl hf
          rw [e] at this; exact congrArg Result.value this
        · exact .inr ((e2 k x hl).2 ht)
      by_cases hs : ∀ k x, ¬ IsStdNumber t.signed base (text.take k) x
      · have := s1 hs
        rcases res with ⟨y, e, -⟩ | e <;> rw [e] at this <;> cases this
      · obtain ⟨k', x', hl'⟩ : ∃ k x, Longest (IsStdNumber t.signed base) text k x := by
          obtain ⟨k, x, h⟩ : ∃ k x, IsStdNumber t.signed base (text.take k) x :=
            Classical.byContradiction fun hc => hs fun k x h => hc ⟨k, x, h⟩
          by_cases hk : k ≤ text.length
          · exact longest_exists hk h
          · rw [List.take_of_length_le (by omega), ← List.take_of_length_le (Nat.le_refl text.length)] at h
            exact longest_exists (Nat.le_refl _) h
        have hk' := number_pos (std_number hl'.2.1)
        by_cases hf : t.Fits x'
        · have := s2 k' x' hl' hf
          rcases res with ⟨y, e, -⟩ | e
          · rw [e] at this
            have hkk : k = k' := congrArg Result.ptr this
            subst hkk
            have hx := (std_le hl hl').2 rfl
            subst hx
            exact ⟨k, x', hl, hl', hf⟩
          · rw [e] at this; cases this
        · have := s3 k' x' hl' hf
          rcases res with ⟨y, e, -⟩ | e
          · rw [e] at this; cases this
          · rw [e] at this
            have : 0 = k' := congrArg Result.ptr this
            omega
  · rintro (hn | ⟨k, x, h1, h2, h3⟩)
    · refine ⟨fun _ => e1 hn, fun k x hl => absurd (std_number hl.2.1) (hn k x), fun k x hl => absurd (std_number hl.2.1) (hn k x)⟩
    · refine ⟨fun hs => absurd h2.2.1 (hs k x), fun k' x' hl _ => ?_, fun k' x' hl hf => ?_⟩
      · have hk := uniq h2 hl
        subst hk
        have hx := (std_le h1 hl).2 rfl
        subst hx
        exact fit k x' h1 h3
      · have hk := uniq h2 hl
        subst hk
        have hx := (std_le h1 hl).2 rfl
        subst hx
        exact absurd h3 hf

end Guanaqo.FromChars
