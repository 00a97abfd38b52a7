import Verif.MaxHistory.Props
import Mathlib.Data.List.Induction

/-!
# C148: `MaxHistory` and values that are not numbers (max-history.hpp)

`MaxHistory<double>` with NaN among the values: the comparison operators of C++ are false if an operand is a NaN. `none` is NaN; the other values are any linear order (the two zeros count as one).
-/

namespace Guanaqo.MaxHistory.Nan

open Guanaqo.MaxHistory
open Guanaqo.MatView (ok_bind error_bind)

variable {α : Type} [LinearOrder α]

/-! ## Model -/

/-- `a < b` of floating-point numbers (used at max-history.hpp:19, 22 and 26). -/
def lt : Option α → Option α → Bool
  | some a, some b => decide (a < b)
  | _, _ => false

/-- `a == b` of floating-point numbers (max-history.hpp:21). -/
def eq : Option α → Option α → Bool
  | some a, some b => decide (a = b)
  | _, _ => false

/-- The operators of a floating-point type. -/
def nops : Ops (Option α) := ⟨fun a b => lt b a, lt, eq⟩

/-! ## Specification -/

/-- The last `memory` values. -/
def recent (memory : Nat) (xs : List (Option α)) : List (Option α) := xs.drop (xs.length - memory)

/-- `m` is the largest number in the list, which may contain NaN as well. -/
def Top (l : List (Option α)) (m : α) : Prop := some m ∈ l ∧ ∀ y, some y ∈ l → y ≤ m

/-- Adding `x` after `xs` makes the maximum NaN: it is the first value, or the value that is dropped is the largest number of the last `memory` ones, `x` is not larger (or NaN), and the value
that was added first in the current round of `memory` calls is NaN (this may be `x` itself). -/
def Spoils (memory : Nat) (xs : List (Option α)) (x : Option α) : Prop :=
  (xs = [] ∧ x = none) ∨
  (memory ≤ xs.length ∧ ∃ m, Top (recent memory xs) m ∧ xs[xs.length - memory]? = some (some m) ∧ (∀ y, x = some y → y ≤ m) ∧ (xs ++ [x])[memory * (xs.length / memory)]? = some none)

/-- C148, full statement: `max()` is the largest number among the last `memory` values, if there is a number among them. -/
def IgnoresNan (α : Type) [LinearOrder α] : Prop :=
  ∀ (zero : Option α) (memory : Nat) (xs : List (Option α)) (h : Hist (Option α)), 0 < memory → addAll nops (init zero memory) xs = .ok h → ∀ m, Top (recent memory xs) m → h.max = some m

/-! ## Proofs -/

theorem top_unique {l : List (Option α)} {m m' : α} (h : Top l m) (h' : Top l m') : m = m' := le_antisymm (h'.2 _ h.1) (h.2 _ h'.1)

theorem top_congr {l l' : List (Option α)} (hm : ∀ y, y ∈ l ↔ y ∈ l') {m : α} (h : Top l m) : Top l' m := ⟨(hm _).1 h.1, fun y hy => h.2 y ((hm _).2 hy)⟩

omit [LinearOrder α] in
theorem mem_recent {memory : Nat} {xs : List (Option α)} {y : Option α} : y ∈ recent memory xs ↔ ∃ i, xs.length ≤ i + memory ∧ xs[i]? = some y := by
  unfold recent
  rw [List.mem_iff_getElem?]
  constructor
  · rintro ⟨i, h⟩
    rw [List.getElem?_drop] at h
    exact ⟨_, by omega, h⟩
  · rintro ⟨i, h1, h2⟩
    refine ⟨i - (xs.length - memory), ?_⟩
    rw [List.getElem?_drop, show xs.length - memory + (i - (xs.length - memory)) = i by omega, h2]

/-- The buffer is a ring. -/
structure Ring (memory : Nat) (xs : List (Option α)) (h : Hist (Option α)) : Prop where
  len : h.buffer.length = memory
  it : h.it = xs.length % memory
  full : h.full = decide (memory ≤ xs.length)
  slot : ∀ i, i < xs.length → xs.length ≤ i + memory → h.buffer[i % memory]? = xs[i]?

omit [LinearOrder α] in
theorem ring_init (zero : Option α) {memory : Nat} (hm : 0 < memory) : Ring memory [] (init zero memory) := by
  refine ⟨by simp [init], by simp [init], ?_, fun i h => by simp at h⟩
  have : ¬ memory ≤ 0 := by omega
  simp [init]; omega

/-- The new maximum (lines 19-22 and 26). -/
def newMax (memory : Nat) (xs : List (Option α)) (h : Hist (Option α)) (old x : Option α) : Res (Option α) :=
  if memory ≤ xs.length then fullMax nops h.max old x (h.buffer.set h.it x) else .ok (if xs.length = 0 || nops.gt x h.max then x else h.max)

theorem succ_mod (n memory : Nat) (hm : 0 < memory) : (if n % memory + 1 = memory then 0 else n % memory + 1) = (n + 1) % memory := by
  have h1 := Nat.mod_lt n hm
  have h2 := Nat.add_mod n 1 memory
  split
  · rename_i h
    rcases Nat.lt_or_ge 1 memory with g | g
    · rw [h2, Nat.mod_eq_of_lt g, h, Nat.mod_self]
    · have : memory = 1 := by omega
      subst this; rw [Nat.mod_one]
  · rename_i h
    have g : 1 < memory := by omega
    rw [h2, Nat.mod_eq_of_lt g]
    exact (Nat.mod_eq_of_lt (show n % memory + 1 < memory by omega)).symm

theorem mod_ne {i n memory : Nat} (h1 : i < n) (h2 : n < i + memory) : i % memory ≠ n % memory := by
  intro h
  have := Nat.le_of_dvd (by omega) (Nat.dvd_of_mod_eq_zero (Nat.sub_mod_eq_zero_of_mod_eq h.symm))
  omega

theorem add_ring {memory : Nat} (hm : 0 < memory) {xs : List (Option α)} {h : Hist (Option α)} (hr : Ring memory xs h) (x : Option α) :
    ∃ old, h.buffer[h.it]? = some old ∧ (memory ≤ xs.length → xs[xs.length - memory]? = some old) ∧
      ∀ m, newMax memory xs h old x = .ok m → ∃ h', add nops h x = .ok h' ∧ Ring memory (xs ++ [x]) h' ∧ h'.max = m ∧ h'.buffer = h.buffer.set h.it x := by
  obtain ⟨r1, r2, r3, r4⟩ := hr
  have hit : h.it < memory := by rw [r2]; exact Nat.mod_lt _ hm
  refine ⟨_, List.getElem?_eq_getElem (by omega), fun hle => ?_, fun m hnm => ?_⟩
  · have := r4 (xs.length - memory) (by omega) (by omega)
    have e : (xs.length - memory) % memory = h.it := by rw [r2, ← Nat.mod_eq_sub_mod hle]
    rw [e] at this
    rw [← this]; exact List.getElem?_eq_getElem (by omega)
  · have hring : ∀ (f : Bool) (i : Nat) (b : List (Option α)), b = h.buffer.set h.it x → i = (xs.length + 1) % memory → f = decide (memory ≤ xs.length + 1) →
        Ring memory (xs ++ [x]) ⟨b, f, i, m⟩ := by
      rintro f i _ rfl rfl rfl
      refine ⟨by simp [r1], by simp, by simp, fun i hi1 hi2 => ?_⟩
      simp only [List.length_append, List.length_singleton] at hi1 hi2
      by_cases he : i = xs.length
      · subst he
        rw [← r2, List.getElem?_set_self (by omega)]
        simp
      · have hlt : i < xs.length := by omega
        rw [List.getElem?_append_left hlt, List.getElem?_set_ne (by rw [r2]; exact (mod_ne hlt (by omega)).symm)]
        exact r4 i hlt (by omega)
    unfold add
    rw [List.getElem?_eq_getElem (by omega)]
    dsimp only
    unfold newMax at hnm
    by_cases hle : memory ≤ xs.length
    · rw [if_pos hle] at hnm
      rw [if_pos (by rw [r3]; simpa using hle), hnm]
      refine ⟨_, rfl, hring _ _ _ rfl ?_ (by simp; omega), rfl, rfl⟩
      rw [List.length_set, r1, r2, succ_mod _ _ hm]
    · rw [if_neg hle] at hnm
      injection hnm with hnm
      have e2 : h.it = xs.length := by rw [r2, Nat.mod_eq_of_lt (by omega)]
      rw [if_neg (by rw [r3]; simpa using hle), ← hnm, e2]
      rw [← hnm] at hring
      rw [e2] at hring
      have hl : (h.buffer.set xs.length x).length = memory := by rw [List.length_set, r1]
      rw [hl]
      by_cases hend : xs.length + 1 = memory
      · rw [if_pos hend]
        refine ⟨_, rfl, ?_, rfl, rfl⟩
        have := hring true 0 _ rfl (by rw [hend, Nat.mod_self]) (by simp; omega)
        simpa using this
      · rw [if_neg hend]
        refine ⟨_, rfl, ?_, rfl, rfl⟩
        have := hring false (xs.length + 1) _ rfl (by rw [Nat.mod_eq_of_lt (by omega)]) (by simp; omega)
        simpa using this

omit [LinearOrder α] in
theorem mem_buffer {memory : Nat} (hm : 0 < memory) {xs : List (Option α)} {h : Hist (Option α)} (hr : Ring memory xs h) (hf : memory ≤ xs.length) (y : Option α) : y ∈ h.buffer ↔ y ∈ recent memory xs := by
  obtain ⟨r1, -, -, r4⟩ := hr
  rw [mem_recent, List.mem_iff_getElem?]
  constructor
  · rintro ⟨j, hj⟩
    have hlt : j < memory := by
      obtain ⟨h, -⟩ := List.getElem?_eq_some_iff.1 hj
      omega
    obtain ⟨i, h1, h2, h3⟩ : ∃ i, i < xs.length ∧ xs.length ≤ i + memory ∧ i % memory = j := by
      have e := Nat.div_add_mod xs.length memory
      have g := Nat.mod_lt xs.length hm
      have k := Nat.div_pos hf hm
      by_cases hc : j < xs.length % memory
      · refine ⟨memory * (xs.length / memory) + j, by omega, by omega, ?_⟩
        rw [Nat.mul_add_mod, Nat.mod_eq_of_lt hlt]
      · obtain ⟨q, hq⟩ : ∃ q, xs.length / memory = q + 1 := ⟨xs.length / memory - 1, by omega⟩
        rw [hq, Nat.mul_add, Nat.mul_one] at e
        refine ⟨memory * q + j, by omega, by omega, ?_⟩
        rw [Nat.mul_add_mod, Nat.mod_eq_of_lt hlt]
    refine ⟨i, h2, ?_⟩
    rw [← r4 i h1 h2, h3, hj]
  · rintro ⟨i, h1, h2⟩
    have hi : i < xs.length := (List.getElem?_eq_some_iff.1 h2).1
    exact ⟨i % memory, by rw [r4 i hi h1, h2]⟩

omit [LinearOrder α] in
theorem slot_zero {memory : Nat} (hm : 0 < memory) {xs : List (Option α)} {h : Hist (Option α)} (hr : Ring memory xs h) (hx : xs ≠ []) :
    h.buffer[0]? = xs[memory * ((xs.length - 1) / memory)]? := by
  have hp : 0 < xs.length := List.length_pos_iff.2 hx
  have e := Nat.div_add_mod (xs.length - 1) memory
  have g := Nat.mod_lt (xs.length - 1) hm
  have := hr.slot (memory * ((xs.length - 1) / memory)) (by omega) (by omega)
  rwa [Nat.mul_mod_right] at this

theorem maxElement_none (l : List (Option α)) : maxElement nops none l = none := by
  induction l with
  | nil => rfl
  | cons x l ih => exact ih

theorem maxElement_some (l : List (Option α)) (b : α) : ∃ m, maxElement nops (some b) l = some m ∧ Top (some b :: l) m := by
  induction l generalizing b with
  | nil => exact ⟨b, rfl, by simp, fun y hy => by simp at hy; exact hy.le⟩
  | cons x l ih =>
    cases x with
    | none =>
      obtain ⟨m, h1, h2⟩ := ih b
      exact ⟨m, h1, by have := h2.1; simp at this ⊢; tauto, fun y hy => h2.2 y (by simp at hy ⊢; tauto)⟩
    | some c =>
      by_cases hbc : b < c
      · obtain ⟨m, h1, h2⟩ := ih c
        refine ⟨m, ?_, ?_, fun y hy => ?_⟩
        · rw [maxElement, if_pos (by simpa [nops, lt] using hbc)]; exact h1
        · exact List.mem_cons_of_mem _ h2.1
        · rcases List.mem_cons.1 hy with h | h
          · injection h with h; subst h
            exact hbc.le.trans (h2.2 c (by simp))
          · exact h2.2 y h
      · obtain ⟨m, h1, h2⟩ := ih b
        refine ⟨m, ?_, ?_, fun y hy => ?_⟩
        · rw [maxElement, if_neg (by simpa [nops, lt] using hbc)]; exact h1
        · have := h2.1; simp only [List.mem_cons] at this ⊢; tauto
        · simp only [List.mem_cons, Option.some.injEq] at hy
          rcases hy with h | h | h
          · exact h2.2 y (by simp [h])
          · subst h; exact (not_lt.1 hbc).trans (h2.2 b (by simp))
          · exact h2.2 y (by simp [h])

omit [LinearOrder α] in
theorem mem_recent_snoc {memory : Nat} (hm : 0 < memory) {xs : List (Option α)} (x y : Option α) :
    y ∈ recent memory (xs ++ [x]) ↔ y = x ∨ ∃ i, xs.length < i + memory ∧ xs[i]? = some y := by
  rw [mem_recent]
  simp only [List.length_append, List.length_singleton]
  constructor
  · rintro ⟨i, h1, h2⟩
    rcases Nat.lt_or_ge i xs.length with h | h
    · rw [List.getElem?_append_left h] at h2
      exact .inr ⟨i, by omega, h2⟩
    · rw [List.getElem?_append_right h] at h2
      left
      cases hk : i - xs.length with
      | zero => rw [hk] at h2; simpa using h2.symm
      | succ k => rw [hk] at h2; simp at h2
  · rintro (rfl | ⟨i, h1, h2⟩)
    · exact ⟨xs.length, by omega, by simp⟩
    · have hi : i < xs.length := (List.getElem?_eq_some_iff.1 h2).1
      exact ⟨i, by omega, by rw [List.getElem?_append_left hi, h2]⟩

/-- The state of the maximum. -/
def Good (memory : Nat) (xs : List (Option α)) (h : Hist (Option α)) : Prop := xs = [] ∨ ∃ m, h.max = some m ∧ Top (recent memory xs) m

theorem add_good {memory : Nat} (hm : 0 < memory) {xs : List (Option α)} {h : Hist (Option α)} (hr : Ring memory xs h) (hg : Good memory xs h) (x : Option α) :
    ∃ h', add nops h x = .ok h' ∧ Ring memory (xs ++ [x]) h' ∧ ((Spoils memory xs x ∧ h'.max = none) ∨ (¬ Spoils memory xs x ∧ Good memory (xs ++ [x]) h')) := by
  obtain ⟨old, o1, o2, o3⟩ := add_ring hm hr x
  rcases hg with rfl | ⟨m, hmx, ht⟩
  · obtain ⟨h', a1, a2, a3, -⟩ := o3 x (by unfold newMax; rw [if_neg (by simp; omega)]; simp)
    refine ⟨h', a1, a2, ?_⟩
    cases x with
    | none => exact .inl ⟨.inl ⟨rfl, rfl⟩, a3⟩
    | some y =>
      refine .inr ⟨?_, .inr ⟨y, a3, ?_⟩⟩
      · rintro (⟨-, h⟩ | ⟨h, -⟩)
        · cases h
        · simp at h; omega
      · constructor
        · rw [mem_recent_snoc hm]; exact .inl rfl
        · intro z hz
          rw [mem_recent_snoc hm] at hz
          rcases hz with h | ⟨i, -, h⟩
          · injection h with h; exact h.le
          · simp at h
  · have hne : xs ≠ [] := by
      rintro rfl
      have := ht.1
      simp [recent] at this
    have hlen : xs.length ≠ 0 := fun h => hne (List.eq_nil_of_length_eq_zero h)
    by_cases hx : ∃ y, x = some y ∧ m < y
    · -- a larger number
      obtain ⟨y, rfl, hy⟩ := hx
      obtain ⟨h', a1, a2, a3, -⟩ := o3 (some y) (by
        unfold newMax fullMax
        simp [nops, lt, hmx, hy])
      refine ⟨h', a1, a2, .inr ⟨?_, .inr ⟨y, a3, ?_⟩⟩⟩
      · rintro (⟨h, -⟩ | ⟨-, m', t', -, h, -⟩)
        · exact hne h
        · rw [← top_unique ht t'] at h
          exact absurd (h y rfl) (not_le.2 hy)
      · constructor
        · rw [mem_recent_snoc hm]; exact .inl rfl
        · intro z hz
          rw [mem_recent_snoc hm] at hz
          rcases hz with h | ⟨i, h1, h2⟩
          · injection h with h; exact h.le
          · exact (ht.2 z (mem_recent.2 ⟨i, by omega, h2⟩)).trans hy.le
    · have hx' : ∀ y, x = some y → y ≤ m := fun y h => by
        by_contra hc
        exact hx ⟨y, h, not_le.1 hc⟩
      have hngt : nops.gt x h.max = false := by
        rw [hmx]
        cases x with
        | none => rfl
        | some y => simpa [nops, lt] using hx' y rfl
      -- the maximum stays if it is not dropped
      have hstay : (∃ i, xs.length < i + memory ∧ xs[i]? = some (some m)) → Top (recent memory (xs ++ [x])) m := by
        intro hi
        constructor
        · rw [mem_recent_snoc hm]; exact .inr hi
        · intro z hz
          rw [mem_recent_snoc hm] at hz
          rcases hz with h | ⟨i, h1, h2⟩
          · exact hx' z h.symm
          · exact ht.2 z (mem_recent.2 ⟨i, by omega, h2⟩)
      by_cases hle : memory ≤ xs.length
      · by_cases hold : old = some m
        · -- the largest is dropped
          subst hold
          have hb0 : ∀ h' : Hist (Option α), Ring memory (xs ++ [x]) h' → h'.buffer[0]? = (xs ++ [x])[memory * (xs.length / memory)]? := by
            intro h' hr'
            have := slot_zero hm hr' (by simp)
            simpa using this
          have hnil : h.buffer.set h.it x ≠ [] := by
            intro hc
            have := congrArg List.length hc
            rw [List.length_set, hr.len] at this
            simp at this; omega
          obtain ⟨z, zs, hz⟩ := List.exists_cons_of_ne_nil hnil
          obtain ⟨h', a1, a2, a3, a4⟩ := o3 (maxElement nops z zs) (by
            unfold newMax fullMax
            rw [if_pos hle, hngt, hmx, hz]
            simp [nops, eq, derefMaxElement])
          have hz0 := hb0 h' a2
          rw [a4, hz] at hz0
          simp only [List.getElem?_cons_zero] at hz0
          refine ⟨h', a1, a2, ?_⟩
          cases z with
          | none => exact .inl ⟨.inr ⟨hle, m, ht, o2 hle, hx', hz0.symm⟩, by rw [a3, maxElement_none]⟩
          | some b =>
            obtain ⟨m', e1, e2⟩ := maxElement_some zs b
            refine .inr ⟨?_, .inr ⟨m', by rw [a3, e1], ?_⟩⟩
            · rintro (⟨h, -⟩ | ⟨-, _, _, _, _, h⟩)
              · exact hne h
              · rw [h] at hz0; cases hz0
            · rw [← hz, ← a4] at e2
              exact top_congr (mem_buffer hm a2 (by simp; omega)) e2
        · obtain ⟨h', a1, a2, a3, -⟩ := o3 (some m) (by
            unfold newMax fullMax
            rw [if_pos hle, hngt, hmx]
            have : nops.eq old (some m) = false := by
              cases old with
              | none => rfl
              | some b => simpa [nops, eq] using hold
            simp [this])
          refine ⟨h', a1, a2, .inr ⟨?_, .inr ⟨m, a3, hstay ?_⟩⟩⟩
          · rintro (⟨h, -⟩ | ⟨-, m', t', h, -⟩)
            · exact hne h
            · rw [← top_unique ht t', o2 hle] at h
              injection h with h
              exact hold h
          · obtain ⟨i, h1, h2⟩ := mem_recent.1 ht.1
            refine ⟨i, ?_, h2⟩
            rcases Nat.eq_or_lt_of_le h1 with h | h
            · have e : i = xs.length - memory := by omega
              rw [e, o2 hle] at h2
              injection h2 with h2
              exact absurd h2 hold
            · exact h
      · obtain ⟨h', a1, a2, a3, -⟩ := o3 (some m) (by
          unfold newMax
          rw [if_neg hle, hngt, hmx]
          simp [hne])
        refine ⟨h', a1, a2, .inr ⟨?_, .inr ⟨m, a3, hstay ?_⟩⟩⟩
        · rintro (⟨h, -⟩ | ⟨h, -⟩)
          · exact hne h
          · exact hle h
        · obtain ⟨i, h1, h2⟩ := mem_recent.1 ht.1
          exact ⟨i, by omega, h2⟩

/-- Once NaN, always NaN. -/
theorem add_stuck {memory : Nat} (hm : 0 < memory) {xs : List (Option α)} {h : Hist (Option α)} (hr : Ring memory xs h) (hx : xs ≠ []) (hn : h.max = none) (x : Option α) :
    ∃ h', add nops h x = .ok h' ∧ Ring memory (xs ++ [x]) h' ∧ h'.max = none := by
  obtain ⟨old, -, -, o3⟩ := add_ring hm hr x
  have hgt : nops.gt x h.max = false := by rw [hn]; cases x <;> rfl
  have heq : nops.eq old h.max = false := by rw [hn]; cases old <;> rfl
  obtain ⟨h', a1, a2, a3, -⟩ := o3 none (by
    unfold newMax fullMax
    rw [hgt, heq]
    simp [hn, hx])
  exact ⟨h', a1, a2, a3⟩

theorem addAll_state {memory : Nat} (hm : 0 < memory) (zero : Option α) (xs : List (Option α)) :
    ∃ h, addAll nops (init zero memory) xs = .ok h ∧ Ring memory xs h ∧
      ((h.max = none ∧ ∃ pre x post, xs = pre ++ x :: post ∧ Spoils memory pre x) ∨ ((∀ pre x post, xs = pre ++ x :: post → ¬ Spoils memory pre x) ∧ Good memory xs h)) := by
  have hsnoc : ∀ (ys : List (Option α)) (h : Hist (Option α)) (x : Option α), addAll nops h (ys ++ [x]) = (addAll nops h ys >>= fun h => add nops h x) := by
    intro ys
    induction ys with
    | nil =>
      intro h x
      simp only [List.nil_append, addAll, ok_bind]
      cases add nops h x <;> rfl
    | cons y ys ih =>
      intro h x
      simp only [List.cons_append, addAll]
      cases add nops h y with
      | error e => rfl
      | ok h' => simp only [ok_bind]; exact ih h' x
  induction xs using List.reverseRecOn with
  | nil =>
    refine ⟨_, rfl, ring_init zero hm, .inr ⟨fun pre x post h => ?_, .inl rfl⟩⟩
    exact absurd h.symm (by simp)
  | append_singleton xs x ih =>
    obtain ⟨h, h1, h2, h3⟩ := ih
    rw [hsnoc, h1, ok_bind]
    rcases h3 with ⟨hn, pre, y, post, e, hs⟩ | ⟨hno, hg⟩
    · obtain ⟨h', a1, a2, a3⟩ := add_stuck hm h2 (by rw [e]; simp) hn x
      exact ⟨h', a1, a2, .inl ⟨a3, pre, y, post ++ [x], by rw [e]; simp, hs⟩⟩
    · obtain ⟨h', a1, a2, ⟨hs, hn⟩ | ⟨hs, hg'⟩⟩ := add_good hm h2 hg x
      · exact ⟨h', a1, a2, .inl ⟨hn, xs, x, [], rfl, hs⟩⟩
      · refine ⟨h', a1, a2, .inr ⟨fun pre y post e => ?_, hg'⟩⟩
        rcases List.eq_nil_or_concat post with rfl | ⟨post', z, rfl⟩
        · obtain ⟨e1, e2⟩ := List.append_inj' e rfl
          injection e2 with e2
          subst e1 e2
          exact hs
        · have e' : xs ++ [x] = (pre ++ y :: post') ++ [z] := by rw [e]; simp
          obtain ⟨e1, -⟩ := List.append_inj' e' rfl
          exact hno pre y post' e1

/-- C148, exactly: without undefined behaviour, `max()` is NaN for ever after a call that spoils it; until then it is the largest number of the last `memory` values, and there is one. -/
theorem max_nan_partial (memory : Nat) (hm : 0 < memory) (zero : Option α) (xs : List (Option α)) (hx : xs ≠ []) :
    ∃ h, addAll nops (init zero memory) xs = .ok h ∧
      (h.max = none ↔ ∃ pre x post, xs = pre ++ x :: post ∧ Spoils memory pre x) ∧
      (∀ m, h.max = some m ↔ (∀ pre x post, xs = pre ++ x :: post → ¬ Spoils memory pre x) ∧ Top (recent memory xs) m) := by
  obtain ⟨h, h1, -, ⟨hn, hs⟩ | ⟨hno, hg⟩⟩ := addAll_state hm zero xs
  · refine ⟨h, h1, ⟨fun _ => hs, fun _ => hn⟩, fun m => ⟨fun h => (by rw [hn] at h; cases h), fun ⟨h, _⟩ => ?_⟩⟩
    obtain ⟨pre, x, post, e, hs⟩ := hs
    exact absurd hs (h pre x post e)
  · rcases hg with h | ⟨m, g1, g2⟩
    · exact absurd h hx
    · refine ⟨h, h1, ⟨fun h => (by rw [g1] at h; cases h), fun ⟨pre, x, post, e, hs⟩ => absurd hs (hno pre x post e)⟩, fun m' => ⟨fun h => ?_, fun ⟨_, h⟩ => ?_⟩⟩
      · rw [g1] at h; cases h
        exact ⟨hno, g2⟩
      · rw [g1, top_unique g2 h]

/-- C148: if no value that starts a round of `memory` calls is NaN, `max()` is the largest number among the last `memory` values: NaN elsewhere is ignored. -/
theorem nan_ignored (memory : Nat) (hm : 0 < memory) (zero : Option α) (xs : List (Option α)) (hx : xs ≠ []) (hr : ∀ k, xs[memory * k]? ≠ some none) :
    ∃ h m, addAll nops (init zero memory) xs = .ok h ∧ h.max = some m ∧ Top (recent memory xs) m := by
  obtain ⟨h, h1, h2, h3⟩ := max_nan_partial memory hm zero xs hx
  cases hmax : h.max with
  | some m => exact ⟨h, m, h1, hmax, ((h3 m).1 hmax).2⟩
  | none =>
    obtain ⟨pre, x, post, e, hs⟩ := h2.1 hmax
    rcases hs with ⟨rfl, rfl⟩ | ⟨_, _, _, _, _, h⟩
    · exact absurd (by rw [e]; simp) (hr 0)
    · refine absurd ?_ (hr (pre.length / memory))
      rw [e, show pre ++ x :: post = (pre ++ [x]) ++ post by simp, List.getElem?_append_left (List.getElem?_eq_some_iff.1 h).1, h]

/-- C148 is false: after NaN, 1, 2 with a memory of two values the largest of 1 and 2 is not found. -/
theorem not_ignoresNan : ¬ IgnoresNan ℕ := by
  intro h
  have := h none 2 [none, some 1, some 2] ⟨[some 2, some 1], true, 1, none⟩ (by decide) (by decide) 2 ⟨by decide, fun y hy => by simp [recent] at hy; omega⟩
  cases this

/-! ## Non-vacuity -/

example : (addAll nops (init (some 0) 3) [some 5, none, some 2, some 4, none, none, some (1 : ℕ)]).toOption.map (·.max) = some (some 1) := by decide
/-- Spoilt when the 5 is dropped. -/
example : Spoils 3 [some 3, some 5, some 2, none] (some (1 : ℕ)) :=
  .inr ⟨by decide, 5, ⟨by decide, fun y hy => by simp [recent] at hy; omega⟩, rfl, fun y h => by injection h with h; omega, rfl⟩
example : (addAll nops (init (some 0) 3) [some 3, some 5, some 2, none, some 1, some 7, some (9 : ℕ)]).toOption.map (·.max) = some none := by decide

end Guanaqo.MaxHistory.Nan
