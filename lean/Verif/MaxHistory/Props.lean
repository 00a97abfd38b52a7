import Verif.MaxHistory.Model
import Verif.MatView.Lemmas
import Verif.Tactics
import Mathlib.Order.Defs.LinearOrder
import Mathlib.Order.Lattice

/-!
# Properties of `MaxHistory` (C26, C27)
-/

namespace Guanaqo.MaxHistory

open Guanaqo.MatView (ok_bind error_bind)

variable {α : Type} [LinearOrder α]

/-- The comparison operators of a linear order. -/
def ops : Ops α := { gt := fun a b => decide (a > b), lt := fun a b => decide (a < b), eq := fun a b => decide (a = b) }

@[simp] theorem ops_gt (a b : α) : (ops (α := α)).gt a b = decide (a > b) := rfl
@[simp] theorem ops_lt (a b : α) : (ops (α := α)).lt a b = decide (a < b) := rfl
@[simp] theorem ops_eq (a b : α) : (ops (α := α)).eq a b = decide (a = b) := rfl

/-- `m` is the maximum of the list: a member that no member exceeds. -/
def IsMax (l : List α) (m : α) : Prop := m ∈ l ∧ ∀ x ∈ l, x ≤ m

/-- The last `n` elements of a list. -/
def lastN (n : Nat) (l : List α) : List α := l.drop (l.length - n)

theorem maxElement_isMax (x : α) (xs : List α) : IsMax (x :: xs) (maxElement ops x xs) := by
  induction xs generalizing x with
  | nil => exact ⟨by simp [maxElement], by simp [maxElement]⟩
  | cons y ys ih =>
    simp only [maxElement, ops_lt]
    have ih' := ih (if (decide (x < y)) = true then y else x)
    refine ⟨?_, ?_⟩
    · have := ih'.1
      simp only [List.mem_cons] at this ⊢
      rcases this with h | h
      · by_cases hxy : x < y <;> simp only [hxy, decide_true, decide_false, if_true, if_false, Bool.false_eq_true] at h ⊢ <;> tauto
      · right; right; exact h
    · intro z hz
      have hle := ih'.2 (if (decide (x < y)) = true then y else x) (by simp)
      simp only [List.mem_cons] at hz
      by_cases hxy : x < y
      · simp only [hxy, decide_true, if_true] at hle ⊢
        rcases hz with rfl | rfl | h
        · exact le_trans hxy.le hle
        · exact hle
        · have := ih'.2 z (by simp [h])
          simpa only [hxy, decide_true, if_true] using this
      · simp only [hxy, decide_false, Bool.false_eq_true, if_false] at hle ⊢
        rcases hz with rfl | rfl | h
        · exact hle
        · exact le_trans (not_lt.1 hxy) hle
        · have := ih'.2 z (by simp [h])
          simpa only [hxy, decide_false, Bool.false_eq_true, if_false] using this

/-- Representation invariant: the values added so far are `xs`, the vector has `memory`
elements. Not full: the first `it = |xs|` slots hold `xs`; full: reading the ring from `it`
gives the last `memory` values. -/
structure Inv (memory : Nat) (xs : List α) (h : Hist α) : Prop where
  len : h.buffer.length = memory
  itlt : h.it < memory
  notFull : h.full = false → xs.length = h.it ∧ h.buffer.take h.it = xs
  isFull : h.full = true → memory ≤ xs.length ∧
    h.buffer.drop h.it ++ h.buffer.take h.it = lastN memory xs
  isMax : xs ≠ [] → IsMax (lastN memory xs) h.max

theorem isMax_perm {l l' : List α} {m : α} (hp : ∀ x, x ∈ l ↔ x ∈ l') (h : IsMax l m) : IsMax l' m :=
  ⟨(hp m).1 h.1, fun x hx => h.2 x ((hp x).2 hx)⟩

theorem add_inv {memory : Nat} {xs : List α} {h : Hist α} (hi : Inv memory xs h) (x : α) :
    ∃ h', add ops h x = .ok h' ∧ Inv memory (xs ++ [x]) h' := by
  obtain ⟨hlen, hit, hnf, hf, hm⟩ := hi
  have hget : h.buffer[h.it]? = some (h.buffer[h.it]'(by omega)) := List.getElem?_eq_getElem (by omega)
  set old := h.buffer[h.it]'(by omega) with hold
  have hdrop : h.buffer.drop h.it = old :: h.buffer.drop (h.it + 1) :=
    List.drop_eq_getElem_cons (by omega)
  unfold add
  rw [hget]
  cases hfull : h.full with
  | true =>
    obtain ⟨hle, hring⟩ := hf hfull
    have hne : xs ≠ [] := by rintro rfl; simp at hle; omega
    have hmax := hm hne
    -- the new window
    have hwin : lastN memory (xs ++ [x]) = h.buffer.drop (h.it + 1) ++ h.buffer.take h.it ++ [x] := by
      have h1 : lastN memory (xs ++ [x]) = (lastN memory xs).drop 1 ++ [x] := by
        simp only [lastN, List.length_append, List.length_cons, List.length_nil, List.drop_drop]
        rw [List.drop_append_of_le_length (by omega)]
        congr 2; omega
      rw [h1, ← hring, hdrop]; simp
    have hring0 : ∀ y, y ∈ lastN memory xs ↔ y = old ∨ y ∈ h.buffer.drop (h.it + 1) ++ h.buffer.take h.it := by
      intro y; rw [← hring, hdrop]; simp
    have hset : h.buffer.set h.it x = h.buffer.take h.it ++ x :: h.buffer.drop (h.it + 1) := by
      rw [List.set_eq_take_append_cons_drop]; simp [show h.it < h.buffer.length by omega]
    have hbmem : ∀ y, y ∈ h.buffer.set h.it x ↔ y ∈ lastN memory (xs ++ [x]) := by
      intro y; rw [hset, hwin]; simp; tauto
    -- the new maximum
    have hmaxok : ∃ m, fullMax ops h.max old x (h.buffer.set h.it x) = .ok m ∧ IsMax (lastN memory (xs ++ [x])) m := by
      by_cases hgt : x > h.max
      · refine ⟨x, by simp [fullMax, hgt], ?_, ?_⟩
        · rw [hwin]; simp
        · intro y hy
          rw [hwin] at hy
          rcases List.mem_append.1 hy with hy | hy
          · exact le_trans (hmax.2 y ((hring0 y).2 (.inr hy))) hgt.le
          · rw [List.mem_singleton.1 hy]
      · by_cases heq : old = h.max
        · cases hb : h.buffer.set h.it x with
          | nil => rw [hset] at hb; simp at hb
          | cons y ys =>
            refine ⟨maxElement ops y ys, ?_, ?_⟩
            · simp [fullMax, hgt, heq, derefMaxElement]
            · exact isMax_perm (fun z => by rw [← hb]; exact hbmem z) (maxElement_isMax y ys)
        · refine ⟨h.max, by simp [fullMax, hgt, heq], ?_, ?_⟩
          · rw [hwin]
            have := (hring0 h.max).1 hmax.1
            rcases this with h' | h'
            · exact absurd h'.symm heq
            · exact List.mem_append_left _ h'
          · intro y hy
            rw [hwin] at hy
            rcases List.mem_append.1 hy with hy | hy
            · exact hmax.2 y ((hring0 y).2 (.inr hy))
            · rw [List.mem_singleton.1 hy]; exact not_lt.1 hgt
    obtain ⟨m, hm1, hm2⟩ := hmaxok
    refine ⟨{ buffer := h.buffer.set h.it x, full := true,
              it := if h.it + 1 = (h.buffer.set h.it x).length then 0 else h.it + 1, max := m }, ?_, ?_⟩
    · simp only [if_true]
      rw [hm1]; rfl
    · have hl : (h.buffer.set h.it x).length = memory := by simp [hlen]
      refine ⟨hl, ?_, by simp, ?_, fun _ => hm2⟩
      · simp only [hl]; split <;> omega
      · intro _
        refine ⟨by simp; omega, ?_⟩
        simp only [hl]
        rw [hwin]
        split
        · rename_i h0
          rw [hset]
          have : h.buffer.drop (h.it + 1) = [] := by
            rw [List.drop_eq_nil_iff]; omega
          simp [this]
        · rename_i h0
          rw [hset]
          have e1 : (h.buffer.take h.it).length = h.it := by simp; omega
          have e2 : (h.buffer.take h.it ++ x :: h.buffer.drop (h.it + 1)).drop (h.it + 1)
              = h.buffer.drop (h.it + 1) := by
            rw [show h.it + 1 = (h.buffer.take h.it).length + 1 by rw [e1],
              List.drop_append]
            simp
          have e3 : (h.buffer.take h.it ++ x :: h.buffer.drop (h.it + 1)).take (h.it + 1)
              = h.buffer.take h.it ++ [x] := by
            conv => lhs; rw [show h.it + 1 = (h.buffer.take h.it).length + 1 by rw [e1]]
            rw [List.take_append, List.take_of_length_le (by omega)]
            simp
          rw [e2, e3]; simp
  | false =>
    obtain ⟨hxl, htk⟩ := hnf hfull
    have hset : h.buffer.set h.it x = h.buffer.take h.it ++ x :: h.buffer.drop (h.it + 1) := by
      rw [List.set_eq_take_append_cons_drop]; simp [show h.it < h.buffer.length by omega]
    have hl : (h.buffer.set h.it x).length = memory := by simp [hlen]
    have hall : lastN memory (xs ++ [x]) = xs ++ [x] := by
      simp only [lastN, List.length_append, List.length_cons, List.length_nil]
      rw [show xs.length + (0 + 1) - memory = 0 by omega]; rfl
    have htk' : (h.buffer.set h.it x).take (h.it + 1) = xs ++ [x] := by
      rw [hset, htk]
      conv => lhs; rw [← hxl, List.take_append]
      rw [List.take_of_length_le (by omega)]
      simp
    have hnewmax : IsMax (lastN memory (xs ++ [x]))
        (if (h.it = 0 || (ops (α := α)).gt x h.max) = true then x else h.max) := by
      rw [hall]
      by_cases h0 : h.it = 0
      · have : xs = [] := by apply List.eq_nil_of_length_eq_zero; omega
        subst this
        simp [h0, IsMax]
      · have hne : xs ≠ [] := by rintro rfl; simp at hxl; omega
        have hmx := hm hne
        have hl2 : lastN memory xs = xs := by
          simp only [lastN]; rw [show xs.length - memory = 0 by omega]; rfl
        rw [hl2] at hmx
        by_cases hgt : x > h.max
        · simp only [h0, ops_gt, hgt, decide_true, decide_false, Bool.or_true, if_true]
          refine ⟨by simp, ?_⟩
          intro y hy
          rcases List.mem_append.1 hy with hy | hy
          · exact le_trans (hmx.2 y hy) hgt.le
          · rw [List.mem_singleton.1 hy]
        · simp only [h0, ops_gt, hgt, decide_false, Bool.or_self, Bool.false_eq_true, if_false]
          refine ⟨List.mem_append_left _ hmx.1, ?_⟩
          intro y hy
          rcases List.mem_append.1 hy with hy | hy
          · exact hmx.2 y hy
          · rw [List.mem_singleton.1 hy]; exact not_lt.1 hgt
    simp only [Bool.false_eq_true, if_false]
    split
    · rename_i hend
      refine ⟨_, rfl, hl, by simp only; omega, by simp, ?_, fun _ => hnewmax⟩
      intro _
      refine ⟨by simp; omega, ?_⟩
      simp only [List.drop_zero, List.take_zero, List.append_nil]
      rw [hall, ← htk', List.take_of_length_le (by omega)]
    · rename_i hend
      refine ⟨_, rfl, hl, by simp only; omega, ?_, by simp, fun _ => hnewmax⟩
      intro _
      refine ⟨by simp; omega, htk'⟩

theorem addAll_inv {memory : Nat} {xs : List α} {h : Hist α} (hi : Inv memory xs h) (ys : List α) :
    ∃ h', addAll ops h ys = .ok h' ∧ Inv memory (xs ++ ys) h' := by
  induction ys generalizing xs h with
  | nil => exact ⟨h, rfl, by simpa using hi⟩
  | cons y ys ih =>
    obtain ⟨h1, h2, h3⟩ := add_inv hi y
    obtain ⟨h4, h5, h6⟩ := ih h3
    refine ⟨h4, ?_, by simpa using h6⟩
    simp only [addAll, h2, ok_bind, h5]

theorem init_inv (zero : α) {memory : Nat} (hm : 0 < memory) : Inv memory [] (init zero memory) := by
  refine ⟨by simp [init], by simpa [init] using hm, ?_, ?_, ?_⟩
  · intro _; simp [init]
  · intro h; simp [init] at h
  · intro h; exact absurd rfl h

/-- C26. After adding any non-empty sequence `xs` to a `MaxHistory` of positive memory length,
no undefined behaviour has occurred and `max()` is the maximum of the last
`min(memory, xs.length)` values. -/
theorem max_of_last (zero : α) (memory : Nat) (hm : 0 < memory) (xs : List α) (hx : xs ≠ []) :
    ∃ h, addAll ops (init zero memory) xs = .ok h ∧
      h.max ∈ xs.drop (xs.length - memory) ∧ ∀ x ∈ xs.drop (xs.length - memory), x ≤ h.max := by
  obtain ⟨h, h1, h2⟩ := addAll_inv (init_inv zero hm) xs
  rw [List.nil_append] at h2
  exact ⟨h, h1, h2.isMax hx⟩

/-- C26. With a memory length of zero, the first `add` is undefined behaviour (there is no
check in the constructor). -/
theorem zero_memory_ub (zero x : α) : add ops (init zero 0) x = .error .ub := by
  simp [add, init]

/-- Non-vacuity / illustration: evicting the maximum. -/
example : (addAll ops (init (0 : Nat) 3) [5, 1, 2, 4, 3]).toOption.map (·.max) = some 4 := by decide

/-! ## C27: copies -/

/-- The objects `0` (the original, with any history) and `1` (a copy of it). -/
def copied (h : Hist α) : List (Obj α) :=
  let ob : Obj α := { buffer := h.buffer, full := h.full, itBuf := 0, it := h.it, max := h.max }
  [ob, copyObj ob]

/-- C27, full statement: adding to a copy behaves as adding to an independent object with the
same contents. -/
def CopiesIndependent (α : Type) [LinearOrder α] : Prop :=
  ∀ (zero : α) (memory : Nat) (xs : List α) (h : Hist α) (x : α), 0 < memory →
    addAll ops (init zero memory) xs = .ok h →
    ∃ objs h', addObj ops (copied h) 1 x = .ok objs ∧ add ops h x = .ok h' ∧
      objs[0]?.map (·.buffer) = some h.buffer ∧ objs[1]?.map (·.max) = some h'.max

/-- C27. The full statement is false: the copy's iterator still points into the original's
vector, so the first `add` on the copy compares iterators of different vectors. -/
theorem not_copiesIndependent : ¬ CopiesIndependent Nat := by
  intro h
  obtain ⟨objs, h', h1, _⟩ := h 0 2 [5] { buffer := [5, 0], full := false, it := 1, max := 5 } 7
    (by decide) rfl
  cases h1

/-- C27. What does hold: the original is not affected by having been copied, and the copy can
be read: it has the same elements, and `max()` of the copy is the maximum of the original. -/
theorem copy_read_partial (h : Hist α) (x : α) (h' : Hist α) (ha : add ops h x = .ok h') :
    (copied h)[1]?.map (·.max) = some h.max ∧ (copied h)[1]?.map (·.buffer) = some h.buffer ∧
    ∃ objs, addObj ops (copied h) 0 x = .ok objs ∧ objs[0]?.map (·.max) = some h'.max ∧
      objs[1]?.map (·.max) = some h.max := by
  refine ⟨rfl, rfl, ?_⟩
  have he : ({ buffer := h.buffer, full := h.full, it := h.it, max := h.max } : Hist α) = h := rfl
  simp only [addObj, copied, List.getElem?_cons_zero, ne_eq, not_true_eq_false, if_false]
  rw [he, ha]
  exact ⟨_, rfl, rfl, rfl⟩

example : add ops (init (0 : Nat) 2) 3 = .ok { buffer := [3, 0], full := false, it := 1, max := 3 } := by
  rfl

end Guanaqo.MaxHistory
