import Verif.Misc.Ranges

/-!
# C154: assigning to the elements of `enumerate(range)` (enumerate.hpp)

`for (auto [i, x] : enumerate(range))`: the value of `*it` is a `std::tuple<index_t, decltype(*it)>` (enumerate.hpp:33), so that `x` is a reference if the range's iterators give references.
-/

namespace Guanaqo.Ranges.Assign

/-! ## Model -/

/-- Iterators into `n` elements at `base`, as positions; a reference is an address. -/
def elems (base n : Nat) : Iter Nat Nat where
  atEnd it := it == n
  deref it := if it < n then some (base + it) else none
  next it := if it < n then some (it + 1) else none

/-- What the body of the loop does: it may write anywhere, and end the loop with `break` (`true`). -/
abbrev Body (M : Type) := Int → Nat → M → M × Bool

/-- The range-based `for` loop with `I`'s iterators, from memory to memory. -/
inductive Loop {It M : Type} (I : Iter It (Int × Nat)) (body : Body M) : It → M → M → Prop
  | done {it : It} {m : M} (h : I.atEnd it = true) : Loop I body it m m
  | brk {it : It} {i : Int} {a : Nat} {m m' : M} (h : I.atEnd it = false) (hd : I.deref it = some (i, a)) (hb : body i a m = (m', true)) : Loop I body it m m'
  | step {it it' : It} {i : Int} {a : Nat} {m m' m'' : M} (h : I.atEnd it = false) (hd : I.deref it = some (i, a)) (hb : body i a m = (m', false))
      (hn : I.next it = some it') (ht : Loop I body it' m' m'') : Loop I body it m m''

/-- What is enumerated: an lvalue of a container (`all_t` is `ref_view`), a view such as a span (it is copied), or an rvalue of a container (`owning_view`). -/
inductive Kind where
  | lvalue
  | view
  | rvalue
  deriving DecidableEq, Repr

/-- Whether the references may be assigned to. enumerate.hpp:16: the iterators are those of `std::as_const(rng)`; constness of a `ref_view` or a span is not that of the elements, but an `owning_view`
passes it on to its container. `const` tells whether the elements (or the container) are const to begin with. -/
def assignable (k : Kind) (const : Bool) : Bool :=
  match k with
  | .lvalue | .view => !const
  | .rvalue => false

/-! ## Specification -/

def set {α : Type} (m : Nat → α) (a : Nat) (x : α) : Nat → α := fun b => if b = a then x else m b

/-- The loop `for (i = 0; i < n; ++i)` over the elements by index, from `i` on. -/
def byIndex {M : Type} (body : Body M) (base : Nat) : (n i : Nat) → M → M
  | 0, _, m => m
  | n + 1, i, m => match body i (base + i) m with
    | (m', true) => m'
    | (m', false) => byIndex body base n (i + 1) m'

/-- C154, full statement: whatever is enumerated, if its elements are not const they may be assigned to. -/
def AlwaysAssignable : Prop := ∀ k, assignable k false = true

/-! ## Proofs -/

theorem loop_from {M : Type} (w base n : Nat) (body : Body M) (hn : (n : Int) < 2 ^ (w - 1)) (r : Nat) : ∀ (i : Nat) (m m' : M), i + r = n →
    (Loop (enumIter w (elems base n)) body ⟨i, i⟩ m m' ↔ m' = byIndex body base r i m) := by
  induction r with
  | zero =>
    intro i m m' hi
    have hend : (enumIter w (elems base n)).atEnd ⟨i, i⟩ = true := by simp only [enumIter, elems, beq_iff_eq]; omega
    constructor
    · intro h
      cases h with
      | done _ => rfl
      | brk h => rw [hend] at h; cases h
      | step h => rw [hend] at h; cases h
    · rintro rfl; exact .done hend
  | succ r ih =>
    intro i m m' hi
    have hlt : i < n := by omega
    have hend : (enumIter w (elems base n)).atEnd ⟨i, i⟩ = false := by simp only [enumIter, elems, beq_eq_false_iff_ne]; omega
    have hd : (enumIter w (elems base n)).deref ⟨i, i⟩ = some ((i : Int), base + i) := by simp only [enumIter, elems, if_pos hlt, Option.map_some]
    have hnx : (enumIter w (elems base n)).next ⟨i, i⟩ = some ⟨((i + 1 : Nat) : Int), i + 1⟩ := by
      simp only [enumIter, elems, if_pos hlt, Option.bind_some]
      rw [if_pos (by omega)]; rfl
    cases hb : body i (base + i) m with
    | mk m₁ b =>
      cases b with
      | true =>
        simp only [byIndex, hb]
        constructor
        · intro h
          cases h with
          | done h => rw [hend] at h; cases h
          | brk _ hd' hb' => rw [hd] at hd'; cases hd'; rw [hb] at hb'; cases hb'; rfl
          | step _ hd' hb' => rw [hd] at hd'; cases hd'; rw [hb] at hb'; cases hb'
        · rintro rfl; exact .brk hend hd hb
      | false =>
        simp only [byIndex, hb]
        rw [← ih (i + 1) m₁ m' (by omega)]
        constructor
        · intro h
          cases h with
          | done h => rw [hend] at h; cases h
          | brk _ hd' hb' => rw [hd] at hd'; cases hd'; rw [hb] at hb'; cases hb'
          | step _ hd' hb' hn' ht =>
            rw [hd] at hd'; cases hd'; rw [hb] at hb'; cases hb'
            rw [hnx] at hn'; cases hn'
            exact ht
        · intro h; exact .step hend hd hb hnx h

/-- C154: the loop over `enumerate(range)` is the loop by index, whatever the body does with the elements (or other memory), with `break` or without. -/
theorem loop_by_index {M : Type} (w base n : Nat) (body : Body M) (hn : (n : Int) < 2 ^ (w - 1)) (m m' : M) :
    Loop (enumIter w (elems base n)) body (enumBegin 0) m m' ↔ m' = byIndex body base n 0 m := loop_from w base n body hn n 0 m m' (by omega)

/-- C154: assigning `f(i, x)` to `x` in the loop replaces every element of the range, and nothing else. -/
theorem assign_through {α : Type} (w base n : Nat) (hn : (n : Int) < 2 ^ (w - 1)) (f : Int → α → α) (m m' : Nat → α) :
    Loop (enumIter w (elems base n)) (fun i a m => (set m a (f i (m a)), false)) (enumBegin 0) m m' ↔
      ∀ a, m' a = if base ≤ a ∧ a < base + n then f ((a - base : Nat) : Int) (m a) else m a := by
  rw [loop_by_index w base n _ hn]
  have key : ∀ (r i : Nat) (m : Nat → α) (a : Nat), byIndex (fun i a m => (set m a (f i (m a)), false)) base r i m a =
      if base + i ≤ a ∧ a < base + i + r then f ((a - base : Nat) : Int) (m a) else m a := by
    intro r
    induction r with
    | zero => intro i m a; rw [if_neg (by omega)]; rfl
    | succ r ih =>
      intro i m a
      simp only [byIndex]
      rw [ih (i + 1)]
      simp only [set]
      by_cases ha : a = base + i
      · subst ha
        rw [if_neg (by omega), if_pos rfl, if_pos (by omega), show base + i - base = i by omega]
      · simp only [if_neg ha]
        by_cases h : base + (i + 1) ≤ a ∧ a < base + (i + 1) + r
        · rw [if_pos h, if_pos (by omega)]
        · rw [if_neg h, if_neg (by omega)]
  constructor
  · rintro rfl a
    rw [key]; rfl
  · intro h
    funext a
    rw [h a, key]; rfl

/-- C154, exactly: elements that are not const may be assigned to unless the range is an rvalue of a container. -/
theorem assignable_partial (k : Kind) (const : Bool) : assignable k const = true ↔ k ≠ .rvalue ∧ const = false := by
  cases k <;> cases const <;> simp [assignable]

/-- C154 is false for those: the elements of a temporary container are const. -/
theorem not_alwaysAssignable : ¬ AlwaysAssignable := fun h => by cases h .rvalue

/-! ## Non-vacuity -/

example : byIndex (fun i a m => (set m a (m a + i), decide (i = 2))) 5 4 0 (fun a => (a : Int)) 7 = 9 := by decide
example : byIndex (fun i a m => (set m a (m a + i), decide (i = 2))) 5 4 0 (fun a => (a : Int)) 8 = 8 := by decide

end Guanaqo.Ranges.Assign
