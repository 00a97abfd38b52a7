import Verif.StrUtil.Props

/-!
# C151: `join` and `join_quote` read every string once (string-util.hpp:53-66, 80-99)

The strings may come from an input range that can be passed only once (an input iterator that parses a file, say) or computes its elements (`std::views::transform`), and reading an element
or moving on to the next one may throw.
-/

namespace Guanaqo.StrUtil.SinglePass

/-! ## Model -/

/-- The source of the strings: `get i` is what reading the `i`th element gives, `adv i` tells whether moving on from it throws. -/
structure Source (ε : Type) where
  len : Nat
  get : Nat → Except ε Str
  adv : Nat → Except ε Unit

/-- Where the source is, and which elements have been read. -/
structure St where
  pos : Nat := 0
  reads : List Nat := []
  deriving DecidableEq, Repr

/-- `none` is undefined behaviour. -/
abbrev Res (ε α : Type) := Option (Except ε α × St)

/-- `*it`. All iterators into a single-pass range are invalid once a copy of theirs was incremented ([iterator.concept.input], [input.iterators]), here: if `it` is not the position of the source. -/
def deref {ε : Type} (r : Source ε) (it : Nat) (s : St) : Res ε Str :=
  if it = s.pos ∧ it < r.len then some (r.get it, { s with reads := s.reads ++ [it] }) else none

/-- `++it`. -/
def incr {ε : Type} (r : Source ε) (it : Nat) (s : St) : Res ε Nat :=
  if it = s.pos ∧ it < r.len then
    match r.adv it with
    | .error e => some (.error e, s)
    | .ok () => some (.ok (it + 1), { s with pos := it + 1 })
  else none

/-- `std::accumulate(it, end, acc, f)` (standard library): `for (; it != end; ++it) acc = f(std::move(acc), *it);`. -/
def accumulate {ε : Type} (r : Source ε) (f : Str → Str → Str) (it : Nat) (acc : Str) (s : St) : Res ε Str :=
  if it ≠ s.pos then none                                                   -- `it != end` with an invalid iterator
  else if it = r.len then some (.ok acc, s)
  else if _h : it < r.len then
    match deref r it s with
    | none => none
    | some (.error e, s) => some (.error e, s)
    | some (.ok e, s) =>
      match incr r it s with
      | none => none
      | some (.error e, s) => some (.error e, s)
      | some (.ok _, s) => accumulate r f (it + 1) (f acc e) s
  else none
termination_by r.len - it

/-- string-util.hpp:53-66. `std::ranges::empty` of a range that is not a `forward_range` asks for its size or calls `empty()`; for a forward range it compares iterators. It reads no element. -/
def join {ε : Type} (r : Source ε) (sep empty : Str) (s : St) : Res ε Str :=
  if r.len = 0 then some (.ok empty, s)                                     -- lines 54-55
  else
    match deref r 0 s with                                                  -- line 64: `first{*begin}`
    | none => none
    | some (.error e, s) => some (.error e, s)
    | some (.ok first, s) =>
      match incr r 0 s with                                                 -- line 65: `next(begin)`
      | none => none
      | some (.error e, s) => some (.error e, s)
      | some (.ok it, s) => accumulate r (fun acc e => acc ++ sep ++ e) it first s

/-- string-util.hpp:80-99. -/
def joinQuote {ε : Type} (r : Source ε) (sep empty ql qr : Str) (s : St) : Res ε Str :=
  if r.len = 0 then some (.ok empty, s)                                     -- lines 81-82
  else
    match deref r 0 s with                                                  -- line 93
    | none => none
    | some (.error e, s) => some (.error e, s)
    | some (.ok first, s) =>
      match incr r 0 s with                                                 -- line 96
      | none => none
      | some (.error e, s) => some (.error e, s)
      | some (.ok it, s) =>
        match accumulate r (fun acc e => acc ++ qr ++ sep ++ ql ++ e) it (ql ++ first) s with
        | none => none
        | some (.error e, s) => some (.error e, s)
        | some (.ok result, s) => some (.ok (result ++ qr), s)              -- line 97

/-! ## Specification -/

/-- Reading the source through gives `xs`. -/
def Gives {ε : Type} (r : Source ε) (xs : List Str) : Prop :=
  xs.length = r.len ∧ (∀ i x, xs[i]? = some x → r.get i = .ok x) ∧ ∀ i, i < r.len → r.adv i = .ok ()

/-- The first exception of the source is `e`, when the `k`th element is read, or when moving on from it. -/
def Fails {ε : Type} (r : Source ε) (k : Nat) (e : ε) : Prop :=
  k < r.len ∧ (∀ i, i < k → (∃ x, r.get i = .ok x) ∧ r.adv i = .ok ()) ∧ (r.get k = .error e ∨ ((∃ x, r.get k = .ok x) ∧ r.adv k = .error e))

/-! ## Proofs -/

theorem accumulate_gives {ε : Type} {r : Source ε} {xs : List Str} (h : Gives r xs) (f : Str → Str → Str) (n it : Nat) (acc : Str) (reads : List Nat) (hn : it + n = r.len) :
    accumulate r f it acc ⟨it, reads⟩ = some (.ok ((xs.drop it).foldl f acc), ⟨r.len, reads ++ List.range' it n⟩) := by
  obtain ⟨h1, h2, h3⟩ := h
  induction n generalizing it acc reads with
  | zero =>
    have : it = r.len := by omega
    subst this
    rw [accumulate, if_neg (by simp), if_pos rfl, List.drop_eq_nil_of_le (by omega)]
    simp
  | succ n ih =>
    have hlt : it < r.len := by omega
    have hx : it < xs.length := by omega
    have hg := h2 it xs[it] (List.getElem?_eq_getElem hx)
    rw [accumulate, if_neg (by simp), if_neg (by omega), dif_pos hlt]
    simp only [deref, hlt, and_self, if_true, hg, incr, h3 it hlt]
    have hd : xs.drop it = xs[it] :: xs.drop (it + 1) := List.drop_eq_getElem_cons hx
    rw [ih (it + 1) _ _ (by omega), hd, List.foldl_cons, List.range'_succ, List.append_assoc, List.singleton_append]

theorem accumulate_fails {ε : Type} {r : Source ε} {k : Nat} {e : ε} (h : Fails r k e) (f : Str → Str → Str) (n it : Nat) (acc : Str) (reads : List Nat) (hn : it + n = k) :
    ∃ p, accumulate r f it acc ⟨it, reads⟩ = some (.error e, ⟨p, reads ++ List.range' it (n + 1)⟩) := by
  have h' := h
  obtain ⟨h1, h2, h3⟩ := h
  induction n generalizing it acc reads with
  | zero =>
    have : it = k := by omega
    subst this
    rw [accumulate, if_neg (by simp), if_neg (by omega), dif_pos h1]
    rcases h3 with h3 | ⟨⟨x, hx⟩, h3⟩
    · exact ⟨it, by simp [deref, h1, h3]⟩
    · exact ⟨it, by simp [deref, incr, h1, hx, h3]⟩
  | succ n ih =>
    have hlt : it < r.len := by omega
    obtain ⟨⟨x, hx⟩, ha⟩ := h2 it (by omega)
    rw [accumulate, if_neg (by simp), if_neg (by omega), dif_pos hlt]
    simp only [deref, hlt, and_self, if_true, hx, incr, ha]
    obtain ⟨p, hp⟩ := ih (it + 1) (f acc x) (reads ++ [it]) (by omega)
    exact ⟨p, by rw [hp]; simp [List.range'_succ]⟩

/-- The first element, and the others. -/
theorem gives_cons {ε : Type} {r : Source ε} {xs : List Str} (h : Gives r xs) (hr : r.len ≠ 0) : ∃ x rest, xs = x :: rest ∧ r.get 0 = .ok x ∧ r.adv 0 = .ok () := by
  cases xs with
  | nil => exact absurd h.1.symm hr
  | cons x rest => exact ⟨x, rest, rfl, h.2.1 0 x rfl, h.2.2 0 (by omega)⟩

theorem join_gives {ε : Type} {r : Source ε} {xs : List Str} (h : Gives r xs) (sep empty : Str) :
    join r sep empty {} = some (.ok (StrUtil.join xs sep empty), ⟨r.len, List.range r.len⟩) := by
  by_cases hr : r.len = 0
  · have : xs = [] := List.eq_nil_of_length_eq_zero (by rw [h.1, hr])
    subst this
    simp [join, hr, StrUtil.join]
  · obtain ⟨x, rest, rfl, hg, ha⟩ := gives_cons h hr
    have hp : 0 < r.len := by omega
    simp only [join, if_neg hr, deref, hp, and_self, if_true, hg, incr, ha]
    have := accumulate_gives h (fun acc e => acc ++ sep ++ e) (r.len - 1) 1 x [0] (by omega)
    simp only [Nat.zero_add, List.nil_append, this]
    simp only [StrUtil.join, List.drop_one, List.tail_cons, Option.some.injEq, Prod.mk.injEq, true_and, St.mk.injEq]
    rw [List.range_eq_range', ← Nat.succ_pred_eq_of_pos hp, List.range'_succ]
    simp

theorem joinQuote_gives {ε : Type} {r : Source ε} {xs : List Str} (h : Gives r xs) (sep empty ql qr : Str) :
    joinQuote r sep empty ql qr {} = some (.ok (StrUtil.joinQuote xs sep empty ql qr), ⟨r.len, List.range r.len⟩) := by
  by_cases hr : r.len = 0
  · have : xs = [] := List.eq_nil_of_length_eq_zero (by rw [h.1, hr])
    subst this
    simp [joinQuote, hr, StrUtil.joinQuote]
  · obtain ⟨x, rest, rfl, hg, ha⟩ := gives_cons h hr
    have hp : 0 < r.len := by omega
    simp only [joinQuote, if_neg hr, deref, hp, and_self, if_true, hg, incr, ha]
    have := accumulate_gives h (fun acc e => acc ++ qr ++ sep ++ ql ++ e) (r.len - 1) 1 (ql ++ x) [0] (by omega)
    simp only [Nat.zero_add, List.nil_append, this]
    simp only [StrUtil.joinQuote, List.drop_one, List.tail_cons, Option.some.injEq, Prod.mk.injEq, true_and, St.mk.injEq]
    rw [List.range_eq_range', ← Nat.succ_pred_eq_of_pos hp, List.range'_succ]
    simp

/-- C151: on any source, single-pass or not, `join` reads every element once, in order, uses no iterator that is invalid, and gives the elements with `sep` between them. -/
theorem join_reads_once {ε : Type} (r : Source ε) (xs : List Str) (h : Gives r xs) (sep empty : Str) :
    join r sep empty {} = some (.ok (if xs = [] then empty else sep.intercalate xs), ⟨r.len, List.range r.len⟩) := by
  rw [join_gives h, join_correct]

/-- C151: the same for `join_quote`. -/
theorem joinQuote_reads_once {ε : Type} (r : Source ε) (xs : List Str) (h : Gives r xs) (sep empty ql qr : Str) :
    joinQuote r sep empty ql qr {} = some (.ok (if xs = [] then empty else sep.intercalate (xs.map fun s => ql ++ s ++ qr)), ⟨r.len, List.range r.len⟩) := by
  rw [joinQuote_gives h, joinQuote_correct]

/-- C151: the first exception of the source is passed on, and nothing is read after it. -/
theorem join_throws {ε : Type} (r : Source ε) (k : Nat) (e : ε) (h : Fails r k e) (sep empty : Str) :
    ∃ p, join r sep empty {} = some (.error e, ⟨p, List.range (k + 1)⟩) := by
  have hp : 0 < r.len := by have := h.1; omega
  have hr : r.len ≠ 0 := by omega
  cases k with
  | zero =>
    rcases h.2.2 with h3 | ⟨⟨x, hx⟩, h3⟩
    · exact ⟨0, by simp [join, hr, deref, hp, h3, List.range_succ]⟩
    · exact ⟨0, by simp [join, hr, deref, hp, incr, hx, h3, List.range_succ]⟩
  | succ k =>
    obtain ⟨⟨x, hx⟩, ha⟩ := h.2.1 0 (by omega)
    obtain ⟨p, hq⟩ := accumulate_fails h (fun acc e => acc ++ sep ++ e) k 1 x [0] (by omega)
    refine ⟨p, ?_⟩
    simp only [join, if_neg hr, deref, hp, and_self, if_true, hx, incr, ha, Nat.zero_add, List.nil_append, hq]
    have : List.range (k + 1 + 1) = 0 :: List.range' 1 (k + 1) := by rw [List.range_eq_range', List.range'_succ]
    rw [this]
    simp

/-- C151: the same for `join_quote`. -/
theorem joinQuote_throws {ε : Type} (r : Source ε) (k : Nat) (e : ε) (h : Fails r k e) (sep empty ql qr : Str) :
    ∃ p, joinQuote r sep empty ql qr {} = some (.error e, ⟨p, List.range (k + 1)⟩) := by
  have hp : 0 < r.len := by have := h.1; omega
  have hr : r.len ≠ 0 := by omega
  cases k with
  | zero =>
    rcases h.2.2 with h3 | ⟨⟨x, hx⟩, h3⟩
    · exact ⟨0, by simp [joinQuote, hr, deref, hp, h3, List.range_succ]⟩
    · exact ⟨0, by simp [joinQuote, hr, deref, hp, incr, hx, h3, List.range_succ]⟩
  | succ k =>
    obtain ⟨⟨x, hx⟩, ha⟩ := h.2.1 0 (by omega)
    obtain ⟨p, hq⟩ := accumulate_fails h (fun acc e => acc ++ qr ++ sep ++ ql ++ e) k 1 (ql ++ x) [0] (by omega)
    refine ⟨p, ?_⟩
    simp only [joinQuote, if_neg hr, deref, hp, and_self, if_true, hx, incr, ha, Nat.zero_add, List.nil_append, hq]
    have : List.range (k + 1 + 1) = 0 :: List.range' 1 (k + 1) := by rw [List.range_eq_range', List.range'_succ]
    rw [this]
    simp

/-- The two cases are all: either the source gives its strings, or there is a first exception. -/
theorem gives_or_fails {ε : Type} (r : Source ε) : (∃ xs, Gives r xs) ∨ ∃ k e, Fails r k e := by
  -- up to any position
  have key : ∀ n, n ≤ r.len → (∃ xs : List Str, xs.length = n ∧ (∀ i x, xs[i]? = some x → r.get i = .ok x) ∧ ∀ i, i < n → r.adv i = .ok ()) ∨ ∃ k e, Fails r k e := by
    intro n
    induction n with
    | zero => exact fun _ => .inl ⟨[], rfl, fun i x h => by simp at h, fun i h => by omega⟩
    | succ n ih =>
      intro hn
      rcases ih (by omega) with ⟨xs, h1, h2, h3⟩ | h
      · have hb : ∀ i, i < n → (∃ x, r.get i = .ok x) ∧ r.adv i = .ok () := fun i hi =>
          ⟨⟨xs[i], h2 i _ (List.getElem?_eq_getElem (by omega))⟩, h3 i hi⟩
        cases hg : r.get n with
        | error e => exact .inr ⟨n, e, by omega, hb, .inl hg⟩
        | ok x =>
          cases ha : r.adv n with
          | error e => exact .inr ⟨n, e, by omega, hb, .inr ⟨⟨x, hg⟩, ha⟩⟩
          | ok u =>
            refine .inl ⟨xs ++ [x], by simp [h1], fun i y hy => ?_, fun i hi => ?_⟩
            · rw [List.getElem?_append] at hy
              split at hy
              · exact h2 i y hy
              · have : i = n := by
                  by_cases h0 : i - xs.length = 0
                  · omega
                  · rw [List.getElem?_eq_none (by simp; omega)] at hy; cases hy
                subst this
                rw [h1, Nat.sub_self] at hy
                simp at hy
                rw [hg, hy]
            · by_cases hin : i < n
              · exact h3 i hin
              · rw [show i = n by omega, ha]
      · exact .inr h
  rcases key r.len (Nat.le_refl _) with ⟨xs, h1, h2, h3⟩ | h
  · exact .inl ⟨xs, h1, h2, h3⟩
  · exact .inr h

/-! ## Non-vacuity -/

def two : Source Nat := ⟨2, fun i => .ok [i, i], fun _ => .ok ()⟩
def bad : Source Nat := ⟨3, fun i => if i = 1 then .error 7 else .ok [i], fun _ => .ok ()⟩

example : Gives two [[0, 0], [1, 1]] := by
  refine ⟨rfl, fun i x h => ?_, fun _ _ => rfl⟩
  match i with
  | 0 => simp at h; subst h; rfl
  | 1 => simp at h; subst h; rfl
  | i + 2 => simp at h
example : Fails bad 1 7 := ⟨by decide, fun i hi => ⟨⟨[i], by simp [bad]; omega⟩, rfl⟩, .inl rfl⟩

end Guanaqo.StrUtil.SinglePass
