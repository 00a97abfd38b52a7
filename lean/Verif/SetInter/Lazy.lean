import Verif.SetInter.Props
import Mathlib.Algebra.Order.Group.Nat

/-!
# C146: `iter_set_intersection` is lazy and linear (set-intersection.hpp)

Ranges without an end, such as `std::views::iota(0)`, are ranges as well: `begin()` and `++` then search for the next common element, which they find if there is one. Ranges are given by what
`*` gives at each position (nothing from the end on).
-/

namespace Guanaqo.SetInter.Lazy

open Guanaqo.SetInter

variable {α β κ : Type}

/-! ## Model -/

/-- A range: the element at each position, `none` at the end. -/
abbrev Rng (γ : Type) := Nat → Option γ

/-- One iteration of the loop of `advance()`, set-intersection.hpp:74-85, at the positions of the two iterators; `none`: the loop is left. -/
def step (p : Params α β κ) (r1 : Rng α) (r2 : Rng β) (s : Nat × Nat) : Option (Nat × Nat) :=
  match r1 s.1, r2 s.2 with
  | some a, some b =>
    if p.comp (p.proj1 a) (p.proj2 b) then some (s.1 + 1, s.2)
    else if p.comp (p.proj2 b) (p.proj1 a) then some (s.1, s.2 + 1)
    else none
  | _, _ => none

/-- `advance()` from the first positions ends at the second ones, after `n` iterations. -/
inductive Leaves (p : Params α β κ) (r1 : Rng α) (r2 : Rng β) : Nat × Nat → Nat → Nat × Nat → Prop where
  | stop {s} : step p r1 r2 s = none → Leaves p r1 r2 s 0 s
  | go {s s₁ n s'} : step p r1 r2 s = some s₁ → Leaves p r1 r2 s₁ n s' → Leaves p r1 r2 s (n + 1) s'

/-- Dereferencing (line 73) and incrementing (63-67) the iterator again and again gives the elements and leads to the last positions. -/
inductive Gives (p : Params α β κ) (r1 : Rng α) (r2 : Rng β) : Nat × Nat → List (α × β) → Nat × Nat → Prop where
  | nil {s} : Gives p r1 r2 s [] s
  | cons {i j a b n s₁ out s'} : r1 i = some a → r2 j = some b → Leaves p r1 r2 (i + 1, j + 1) n s₁ → Gives p r1 r2 s₁ out s' → Gives p r1 r2 (i, j) ((a, b) :: out) s'

/-- `advance()` on finite ranges, counting the calls of `comp` (lines 76 and 79). -/
def advanceC (p : Params α β κ) : List α → List β → Iter α β × Nat
  | a :: as, b :: bs =>
    if p.comp (p.proj1 a) (p.proj2 b) then
      let r := advanceC p as (b :: bs)
      (r.1, r.2 + 1)
    else if p.comp (p.proj2 b) (p.proj1 a) then
      let r := advanceC p (a :: as) bs
      (r.1, r.2 + 2)
    else (⟨a :: as, b :: bs⟩, 2)
  | l1, l2 => (⟨l1, l2⟩, 0)
termination_by l1 l2 => l1.length + l2.length

/-- The whole iteration, counting the calls of `comp` after `begin()`. -/
def collectC (p : Params α β κ) : Nat → Iter α β → Nat
  | 0, _ => 0
  | fuel + 1, it => match it.first1, it.first2 with
    | _ :: as, _ :: bs => (advanceC p as bs).2 + collectC p fuel (advanceC p as bs).1
    | _, _ => 0

/-! ## Specification -/

/-- Nothing follows the end. -/
def Closed {γ : Type} (r : Rng γ) : Prop := ∀ n m, n ≤ m → r n = none → r m = none

/-- No end. -/
def Endless {γ : Type} (r : Rng γ) : Prop := ∀ n, (r n).isSome

/-- Sorted by its projected keys. -/
def Sorted {γ : Type} (comp : κ → κ → Bool) (proj : γ → κ) (r : Rng γ) : Prop :=
  ∀ n m x y, n < m → r n = some x → r m = some y → comp (proj y) (proj x) = false

/-- There is a common element at `(i, j)` or later in both ranges. -/
def Common (p : Params α β κ) (r1 : Rng α) (r2 : Rng β) (i j i' j' : Nat) : Prop :=
  i ≤ i' ∧ j ≤ j' ∧ ∃ a b, r1 i' = some a ∧ r2 j' = some b ∧ Equiv p.comp (p.proj1 a) (p.proj2 b) = true

/-- One of the ranges has no end, and all of it from here on comes before some element of the other. -/
def Hopeless (p : Params α β κ) (r1 : Rng α) (r2 : Rng β) (i j : Nat) : Prop :=
  (Endless r2 ∧ ∃ i' a, i ≤ i' ∧ r1 i' = some a ∧ ∀ j' b, j ≤ j' → r2 j' = some b → p.comp (p.proj2 b) (p.proj1 a) = true) ∨
  (Endless r1 ∧ ∃ j' b, j ≤ j' ∧ r2 j' = some b ∧ ∀ i' a, i ≤ i' → r1 i' = some a → p.comp (p.proj1 a) (p.proj2 b) = true)

/-! ## Proofs -/

section

variable {p : Params α β κ} {r1 : Rng α} {r2 : Rng β}

theorem step_cases (p : Params α β κ) (r1 : Rng α) (r2 : Rng β) (i j : Nat) :
    (∃ a b, r1 i = some a ∧ r2 j = some b ∧ p.comp (p.proj1 a) (p.proj2 b) = true ∧ step p r1 r2 (i, j) = some (i + 1, j)) ∨
    (∃ a b, r1 i = some a ∧ r2 j = some b ∧ p.comp (p.proj1 a) (p.proj2 b) = false ∧ p.comp (p.proj2 b) (p.proj1 a) = true ∧ step p r1 r2 (i, j) = some (i, j + 1)) ∨
    (step p r1 r2 (i, j) = none ∧ (r1 i = none ∨ r2 j = none ∨ ∃ a b, r1 i = some a ∧ r2 j = some b ∧ Equiv p.comp (p.proj1 a) (p.proj2 b) = true)) := by
  unfold step
  cases h1 : r1 i with
  | none => right; right; exact ⟨rfl, .inl rfl⟩
  | some a =>
    cases h2 : r2 j with
    | none => right; right; exact ⟨rfl, .inr (.inl rfl)⟩
    | some b =>
      cases h3 : p.comp (p.proj1 a) (p.proj2 b) with
      | true => left; exact ⟨a, b, rfl, rfl, h3, by simp [h3]⟩
      | false =>
        cases h4 : p.comp (p.proj2 b) (p.proj1 a) with
        | true => right; left; exact ⟨a, b, rfl, rfl, h3, h4, by simp [h3, h4]⟩
        | false => right; right; exact ⟨by simp [h3, h4], .inr (.inr ⟨a, b, rfl, rfl, by simp [Equiv, h3, h4]⟩)⟩

theorem leaves_mono {s s' : Nat × Nat} {n : Nat} (h : Leaves p r1 r2 s n s') : s.1 ≤ s'.1 ∧ s.2 ≤ s'.2 ∧ (s'.1 - s.1) + (s'.2 - s.2) = n := by
  induction h with
  | stop h => simp
  | @go s s₁ n s' h1 h2 ih =>
    obtain ⟨i, j⟩ := s
    rcases step_cases p r1 r2 i j with ⟨_, _, _, _, _, h⟩ | ⟨_, _, _, _, _, _, h⟩ | ⟨h, _⟩
    · rw [h1] at h; cases h; simp only at ih ⊢; omega
    · rw [h1] at h; cases h; simp only at ih ⊢; omega
    · rw [h1] at h; cases h

theorem leaves_stop {s s' : Nat × Nat} {n : Nat} (h : Leaves p r1 r2 s n s') : step p r1 r2 s' = none := by
  induction h with
  | stop h => exact h
  | go _ _ ih => exact ih

/-- `advance` passes an element only for a larger one of the other range. -/
theorem leaves_passes1 {s s' : Nat × Nat} {n : Nat} (h : Leaves p r1 r2 s n s') {i₀ : Nat} {a : α} (h0 : s.1 ≤ i₀) (h1 : i₀ < s'.1) (ha : r1 i₀ = some a) :
    ∃ j₀ b, s.2 ≤ j₀ ∧ r2 j₀ = some b ∧ p.comp (p.proj1 a) (p.proj2 b) = true := by
  induction h with
  | stop h => omega
  | @go s s₁ n s' hs h2 ih =>
    obtain ⟨i, j⟩ := s
    simp only at h0 ⊢
    rcases step_cases p r1 r2 i j with ⟨x, b, k1, k2, k3, h⟩ | ⟨_, b, _, _, _, _, h⟩ | ⟨h, _⟩
    · rw [hs] at h; cases h
      by_cases hi : i₀ = i
      · subst hi
        rw [ha] at k1; cases k1
        exact ⟨j, b, Nat.le_refl _, k2, k3⟩
      · exact ih (by simp only; omega) h1
    · rw [hs] at h; cases h
      obtain ⟨j₀, b', g1, g2⟩ := ih h0 h1
      exact ⟨j₀, b', by simp only at g1; omega, g2⟩
    · rw [hs] at h; cases h

theorem leaves_passes2 {s s' : Nat × Nat} {n : Nat} (h : Leaves p r1 r2 s n s') {j₀ : Nat} {b : β} (h0 : s.2 ≤ j₀) (h1 : j₀ < s'.2) (hb : r2 j₀ = some b) :
    ∃ i₀ a, s.1 ≤ i₀ ∧ r1 i₀ = some a ∧ p.comp (p.proj2 b) (p.proj1 a) = true := by
  induction h with
  | stop h => omega
  | @go s s₁ n s' hs h2 ih =>
    obtain ⟨i, j⟩ := s
    simp only at h0 ⊢
    rcases step_cases p r1 r2 i j with ⟨a, _, _, _, _, h⟩ | ⟨a, x, k1, k2, _, k3, h⟩ | ⟨h, _⟩
    · rw [hs] at h; cases h
      obtain ⟨i₀, a', g1, g2⟩ := ih h0 h1
      exact ⟨i₀, a', by simp only at g1; omega, g2⟩
    · rw [hs] at h; cases h
      by_cases hj : j₀ = j
      · subst hj
        rw [hb] at k2; cases k2
        exact ⟨i, a, Nat.le_refl _, k1, k3⟩
      · exact ih (by simp only; omega) h1
    · rw [hs] at h; cases h

theorem sorted_le {γ : Type} {comp : κ → κ → Bool} (hw : StrictWeak comp) {proj : γ → κ} {r : Rng γ} (hs : Sorted comp proj r) {n m : Nat} {x y : γ} (hnm : n ≤ m) (hx : r n = some x) (hy : r m = some y) :
    comp (proj y) (proj x) = false := by
  rcases Nat.eq_or_lt_of_le hnm with rfl | h
  · rw [hx] at hy; cases hy
    cases hc : comp (proj x) (proj x) with
    | false => rfl
    | true => have := hw.asymm _ _ hc; rw [hc] at this; cases this
  · exact hs n m x y h hx hy

/-- A common element is not passed. -/
theorem lazy_finds_aux (hw : StrictWeak p.comp) (hs1 : Sorted p.comp p.proj1 r1) (hs2 : Sorted p.comp p.proj2 r2) (hc1 : Closed r1) (hc2 : Closed r2) (i' j' : Nat) :
    ∀ (k i j : Nat), (i' - i) + (j' - j) ≤ k → Common p r1 r2 i j i' j' →
      ∃ n i'' j'', Leaves p r1 r2 (i, j) n (i'', j'') ∧ i'' ≤ i' ∧ j'' ≤ j' ∧ ∃ a b, r1 i'' = some a ∧ r2 j'' = some b ∧ Equiv p.comp (p.proj1 a) (p.proj2 b) = true := by
  intro k
  induction k with
  | zero =>
    intro i j hk ⟨h1, h2, a, b, h3, h4, h5⟩
    have e1 : i = i' := by omega
    have e2 : j = j' := by omega
    subst e1 e2
    refine ⟨0, i, j, .stop ?_, Nat.le_refl _, Nat.le_refl _, a, b, h3, h4, h5⟩
    simp only [Equiv, Bool.and_eq_true, Bool.not_eq_true'] at h5
    simp [step, h3, h4, h5]
  | succ k ih =>
    intro i j hk ⟨h1, h2, a, b, h3, h4, h5⟩
    have h5' := h5
    simp only [Equiv, Bool.and_eq_true, Bool.not_eq_true'] at h5'
    rcases step_cases p r1 r2 i j with ⟨x, y, k1, k2, k3, h⟩ | ⟨x, y, k1, k2, _, k3, h⟩ | ⟨h, hr⟩
    · have hlt : i < i' := by
        rcases Nat.eq_or_lt_of_le h1 with rfl | h
        · rw [k1] at h3; cases h3
          rcases hw.negTrans _ (p.proj2 b) _ k3 with h | h
          · rw [h5'.1] at h; cases h
          · rw [sorted_le hw hs2 h2 k2 h4] at h; cases h
        · exact h
      obtain ⟨n, i'', j'', g1, g2⟩ := ih (i + 1) j (by omega) ⟨hlt, h2, a, b, h3, h4, h5⟩
      exact ⟨n + 1, i'', j'', .go h g1, g2⟩
    · have hlt : j < j' := by
        rcases Nat.eq_or_lt_of_le h2 with rfl | h
        · rw [k2] at h4; cases h4
          rcases hw.negTrans _ (p.proj1 a) _ k3 with h | h
          · rw [h5'.2] at h; cases h
          · rw [sorted_le hw hs1 h1 k1 h3] at h; cases h
        · exact h
      obtain ⟨n, i'', j'', g1, g2⟩ := ih i (j + 1) (by omega) ⟨h1, hlt, a, b, h3, h4, h5⟩
      exact ⟨n + 1, i'', j'', .go h g1, g2⟩
    · rcases hr with hr | hr | hr
      · rw [hc1 i i' h1 hr] at h3; cases h3
      · rw [hc2 j j' h2 hr] at h4; cases h4
      · exact ⟨0, i, j, .stop h, h1, h2, hr⟩

/-- A search in which the first range ends, and the second is passed by to some position only. -/
theorem leaves_bound1 (hc1 : Closed r1) (N M i₀ j₀ : Nat) (hN : r1 N = none)
    (hM : ∀ i j a b, i₀ ≤ i → j₀ ≤ j → r1 i = some a → r2 j = some b → p.comp (p.proj2 b) (p.proj1 a) = true → j < M) :
    ∀ (k i j : Nat), i₀ ≤ i → j₀ ≤ j → (N - i) + (M - j) ≤ k → ∃ n s', Leaves p r1 r2 (i, j) n s' := by
  intro k
  induction k with
  | zero =>
    intro i j hi hj hk
    rcases step_cases p r1 r2 i j with ⟨x, y, k1, _, _, h⟩ | ⟨x, y, k1, _, _, _, h⟩ | ⟨h, _⟩
    · rw [hc1 N i (by omega) hN] at k1; cases k1
    · rw [hc1 N i (by omega) hN] at k1; cases k1
    · exact ⟨0, _, .stop h⟩
  | succ k ih =>
    intro i j hi hj hk
    rcases step_cases p r1 r2 i j with ⟨x, y, k1, _, _, h⟩ | ⟨x, y, k1, k2, _, k3, h⟩ | ⟨h, _⟩
    · have : i < N := by
        by_contra hh
        rw [hc1 N i (by omega) hN] at k1; cases k1
      obtain ⟨n, s', g⟩ := ih (i + 1) j (by omega) hj (by omega)
      exact ⟨n + 1, s', .go h g⟩
    · have := hM i j x y hi hj k1 k2 k3
      obtain ⟨n, s', g⟩ := ih i (j + 1) hi (by omega) (by omega)
      exact ⟨n + 1, s', .go h g⟩
    · exact ⟨0, _, .stop h⟩

theorem leaves_bound2 (hc2 : Closed r2) (N M i₀ j₀ : Nat) (hN : r2 N = none)
    (hM : ∀ i j a b, i₀ ≤ i → j₀ ≤ j → r1 i = some a → r2 j = some b → p.comp (p.proj1 a) (p.proj2 b) = true → i < M) :
    ∀ (k i j : Nat), i₀ ≤ i → j₀ ≤ j → (N - j) + (M - i) ≤ k → ∃ n s', Leaves p r1 r2 (i, j) n s' := by
  intro k
  induction k with
  | zero =>
    intro i j hi hj hk
    rcases step_cases p r1 r2 i j with ⟨x, y, _, k1, _, h⟩ | ⟨x, y, _, k1, _, _, h⟩ | ⟨h, _⟩
    · rw [hc2 N j (by omega) hN] at k1; cases k1
    · rw [hc2 N j (by omega) hN] at k1; cases k1
    · exact ⟨0, _, .stop h⟩
  | succ k ih =>
    intro i j hi hj hk
    rcases step_cases p r1 r2 i j with ⟨x, y, k1, k2, k3, h⟩ | ⟨x, y, k1, k2, _, k3, h⟩ | ⟨h, _⟩
    · have := hM i j x y hi hj k1 k2 k3
      obtain ⟨n, s', g⟩ := ih (i + 1) j (by omega) hj (by omega)
      exact ⟨n + 1, s', .go h g⟩
    · have : j < N := by
        by_contra hh
        rw [hc2 N j (by omega) hN] at k2; cases k2
      obtain ⟨n, s', g⟩ := ih i (j + 1) hi (by omega) (by omega)
      exact ⟨n + 1, s', .go h g⟩
    · exact ⟨0, _, .stop h⟩

/-- One bound for finitely many positions. -/
theorem uniform (P : Nat → Nat → Prop) (N : Nat) (h : ∀ i, i < N → ∃ j, P i j) : ∃ M, ∀ i, i < N → ∃ j, j ≤ M ∧ P i j := by
  induction N with
  | zero => exact ⟨0, fun i hi => by omega⟩
  | succ N ih =>
    obtain ⟨M, hM⟩ := ih fun i hi => h i (by omega)
    obtain ⟨j, hj⟩ := h N (by omega)
    refine ⟨max M j, fun i hi => ?_⟩
    by_cases he : i = N
    · subst he; exact ⟨j, by omega, hj⟩
    · obtain ⟨j', h1, h2⟩ := hM i (by omega)
      exact ⟨j', by omega, h2⟩

theorem not_endless {γ : Type} {r : Rng γ} (h : ¬ Endless r) : ∃ N, r N = none := by
  by_contra hh
  refine h fun n => ?_
  cases hr : r n with
  | none => exact absurd ⟨n, hr⟩ hh
  | some x => rfl

/-- C146: for sorted ranges, with or without end, the search from any two positions ends exactly if there is another common element, or one of the ranges ends and the other does not
stay below one of its elements for ever. -/
theorem search_ends_iff (hw : StrictWeak p.comp) (hs1 : Sorted p.comp p.proj1 r1) (hs2 : Sorted p.comp p.proj2 r2) (hc1 : Closed r1) (hc2 : Closed r2) (i j : Nat) :
    (∃ n s', Leaves p r1 r2 (i, j) n s') ↔ (∃ i' j', Common p r1 r2 i j i' j') ∨ ((¬ Endless r1 ∨ ¬ Endless r2) ∧ ¬ Hopeless p r1 r2 i j) := by
  constructor
  · rintro ⟨n, ⟨i', j'⟩, h⟩
    by_cases hcom : ∃ i' j', Common p r1 r2 i j i' j'
    · exact .inl hcom
    · right
      obtain ⟨m1, m2, -⟩ := leaves_mono h
      simp only at m1 m2
      have hstop := leaves_stop h
      have hend : r1 i' = none ∨ r2 j' = none := by
        rcases step_cases p r1 r2 i' j' with ⟨_, _, _, _, _, g⟩ | ⟨_, _, _, _, _, _, g⟩ | ⟨_, g | g | g⟩
        · rw [hstop] at g; cases g
        · rw [hstop] at g; cases g
        · exact .inl g
        · exact .inr g
        · exact absurd ⟨i', j', m1, m2, g⟩ hcom
      refine ⟨?_, ?_⟩
      · rcases hend with g | g
        · exact .inl fun he => by have := he i'; rw [g] at this; cases this
        · exact .inr fun he => by have := he j'; rw [g] at this; cases this
      · rintro (⟨he, i₀, a, h1, h2, h3⟩ | ⟨he, j₀, b, h1, h2, h3⟩)
        · have hr1 : r1 i' = none := by
            rcases hend with g | g
            · exact g
            · have := he j'; rw [g] at this; cases this
          have hlt : i₀ < i' := by
            by_contra hh
            rw [hc1 i' i₀ (by omega) hr1] at h2; cases h2
          obtain ⟨j₀, b, g1, g2, g3⟩ := leaves_passes1 h h1 hlt h2
          have := hw.asymm _ _ (h3 j₀ b g1 g2)
          rw [g3] at this; cases this
        · have hr2 : r2 j' = none := by
            rcases hend with g | g
            · have := he i'; rw [g] at this; cases this
            · exact g
          have hlt : j₀ < j' := by
            by_contra hh
            rw [hc2 j' j₀ (by omega) hr2] at h2; cases h2
          obtain ⟨i₀, a, g1, g2, g3⟩ := leaves_passes2 h h1 hlt h2
          have := hw.asymm _ _ (h3 i₀ a g1 g2)
          rw [g3] at this; cases this
  · rintro (⟨i', j', h⟩ | ⟨hend, hno⟩)
    · obtain ⟨n, i'', j'', h1, -⟩ := lazy_finds_aux hw hs1 hs2 hc1 hc2 i' j' _ i j (Nat.le_refl _) h
      exact ⟨n, _, h1⟩
    · rcases hend with h1 | h2
      · obtain ⟨N, hN⟩ := not_endless h1
        have hM : ∃ M, ∀ i₁ j₁ a b, i ≤ i₁ → j ≤ j₁ → r1 i₁ = some a → r2 j₁ = some b → p.comp (p.proj2 b) (p.proj1 a) = true → j₁ < M := by
          by_cases he : Endless r2
          · obtain ⟨M, hM⟩ := uniform (fun i₁ j₁ => i ≤ i₁ → ∀ a, r1 i₁ = some a → j ≤ j₁ ∧ ∃ b, r2 j₁ = some b ∧ p.comp (p.proj2 b) (p.proj1 a) = false) N (by
              intro i₁ _
              by_contra hh
              push Not at hh
              have h0 := hh j
              obtain ⟨hi, a, ha, -⟩ := h0
              refine hno (.inl ⟨he, i₁, a, hi, ha, fun j' b hj hb => ?_⟩)
              obtain ⟨-, a', ha', hx⟩ := hh j'
              rw [ha] at ha'; cases ha'
              have := hx hj b hb
              simpa using this)
            refine ⟨M, fun i₁ j₁ a b hi hj ha hb hc => ?_⟩
            have hlt : i₁ < N := by
              by_contra hh
              rw [hc1 N i₁ (by omega) hN] at ha; cases ha
            obtain ⟨j₂, g1, g2⟩ := hM i₁ hlt
            obtain ⟨g3, b₂, g4, g5⟩ := g2 hi a ha
            by_contra hh
            rcases hw.negTrans _ (p.proj2 b₂) _ hc with g | g
            · rw [sorted_le hw hs2 (show j₂ ≤ j₁ by omega) g4 hb] at g; cases g
            · rw [g5] at g; cases g
          · obtain ⟨M, hM⟩ := not_endless he
            refine ⟨M, fun i₁ j₁ a b _ _ _ hb _ => ?_⟩
            by_contra hh
            rw [hc2 M j₁ (by omega) hM] at hb; cases hb
        obtain ⟨M, hM⟩ := hM
        exact leaves_bound1 hc1 N M i j hN hM _ i j (Nat.le_refl _) (Nat.le_refl _) (Nat.le_refl _)
      · obtain ⟨N, hN⟩ := not_endless h2
        have hM : ∃ M, ∀ i₁ j₁ a b, i ≤ i₁ → j ≤ j₁ → r1 i₁ = some a → r2 j₁ = some b → p.comp (p.proj1 a) (p.proj2 b) = true → i₁ < M := by
          by_cases he : Endless r1
          · obtain ⟨M, hM⟩ := uniform (fun j₁ i₁ => j ≤ j₁ → ∀ b, r2 j₁ = some b → i ≤ i₁ ∧ ∃ a, r1 i₁ = some a ∧ p.comp (p.proj1 a) (p.proj2 b) = false) N (by
              intro j₁ _
              by_contra hh
              push Not at hh
              have h0 := hh i
              obtain ⟨hj, b, hb, -⟩ := h0
              refine hno (.inr ⟨he, j₁, b, hj, hb, fun i' a hi ha => ?_⟩)
              obtain ⟨-, b', hb', hx⟩ := hh i'
              rw [hb] at hb'; cases hb'
              have := hx hi a ha
              simpa using this)
            refine ⟨M, fun i₁ j₁ a b hi hj ha hb hc => ?_⟩
            have hlt : j₁ < N := by
              by_contra hh
              rw [hc2 N j₁ (by omega) hN] at hb; cases hb
            obtain ⟨i₂, g1, g2⟩ := hM j₁ hlt
            obtain ⟨g3, a₂, g4, g5⟩ := g2 hj b hb
            by_contra hh
            rcases hw.negTrans _ (p.proj1 a₂) _ hc with g | g
            · rw [sorted_le hw hs1 (show i₂ ≤ i₁ by omega) g4 ha] at g; cases g
            · rw [g5] at g; cases g
          · obtain ⟨M, hM⟩ := not_endless he
            refine ⟨M, fun i₁ j₁ a b _ _ ha _ _ => ?_⟩
            by_contra hh
            rw [hc1 M i₁ (by omega) hM] at ha; cases ha
        obtain ⟨M, hM⟩ := hM
        exact leaves_bound2 hc2 N M i j hN hM _ i j (Nat.le_refl _) (Nat.le_refl _) (Nat.le_refl _)

/-- C146: the next common element is found without looking beyond it: no position after the two elements is visited, and each iteration advances one of the iterators by one. -/
theorem search_finds (hw : StrictWeak p.comp) (hs1 : Sorted p.comp p.proj1 r1) (hs2 : Sorted p.comp p.proj2 r2) (hc1 : Closed r1) (hc2 : Closed r2) (i j i' j' : Nat)
    (h : Common p r1 r2 i j i' j') :
    ∃ n i'' j'', Leaves p r1 r2 (i, j) n (i'', j'') ∧ i'' ≤ i' ∧ j'' ≤ j' ∧ n = (i'' - i) + (j'' - j) ∧
      ∃ a b, r1 i'' = some a ∧ r2 j'' = some b ∧ Equiv p.comp (p.proj1 a) (p.proj2 b) = true := by
  obtain ⟨n, i'', j'', h1, h2, h3, h4⟩ := lazy_finds_aux hw hs1 hs2 hc1 hc2 i' j' _ i j (Nat.le_refl _) h
  exact ⟨n, i'', j'', h1, h2, h3, (leaves_mono h1).2.2.symm, h4⟩

/-! ## Prefixes -/

theorem drop_some {γ : Type} {l : List γ} {n : Nat} {x : γ} (h : l[n]? = some x) : l.drop n = x :: l.drop (n + 1) := by
  obtain ⟨hlt, rfl⟩ := List.getElem?_eq_some_iff.1 h
  exact List.drop_eq_getElem_cons hlt

theorem drop_none {γ : Type} {l : List γ} {n : Nat} (h : l[n]? = none) : l.drop n = [] := by
  rw [List.drop_eq_nil_iff]
  exact List.getElem?_eq_none_iff.1 h

/-- On lists that agree with the ranges up to the last positions, this is the model of C28. -/
theorem leaves_advance {s s' : Nat × Nat} {n : Nat} (h : Leaves p r1 r2 s n s') (l1 : List α) (l2 : List β) (h1 : ∀ k, k ≤ s'.1 → l1[k]? = r1 k) (h2 : ∀ k, k ≤ s'.2 → l2[k]? = r2 k) :
    advance p (l1.drop s.1) (l2.drop s.2) = ⟨l1.drop s'.1, l2.drop s'.2⟩ := by
  induction h with
  | @stop s h =>
    have e1 := h1 s.1 (Nat.le_refl _)
    have e2 := h2 s.2 (Nat.le_refl _)
    rcases step_cases p r1 r2 s.1 s.2 with ⟨_, _, _, _, _, g⟩ | ⟨_, _, _, _, _, _, g⟩ | ⟨_, g | g | ⟨a, b, g1, g2, g3⟩⟩
    · rw [h] at g; cases g
    · rw [h] at g; cases g
    · rw [g] at e1
      rw [drop_none e1]
      unfold advance; rfl
    · rw [g] at e2
      rw [drop_none e2]
      unfold advance
      cases l1.drop s.1 <;> rfl
    · rw [g1] at e1
      rw [g2] at e2
      simp only [Equiv, Bool.and_eq_true, Bool.not_eq_true'] at g3
      rw [drop_some e1, drop_some e2]
      unfold advance
      simp [g3]
  | @go s s₁ n s' hs hl ih =>
    have ihh := ih h1 h2
    obtain ⟨m1, m2, -⟩ := leaves_mono hl
    obtain ⟨i, j⟩ := s
    rcases step_cases p r1 r2 i j with ⟨a, b, g1, g2, g3, g⟩ | ⟨a, b, g1, g2, g3, g4, g⟩ | ⟨g, _⟩
    · rw [hs] at g; cases g
      simp only at m1 m2 ihh ⊢
      have e1 := h1 i (by omega)
      have e2 := h2 j (by omega)
      rw [g1] at e1; rw [g2] at e2
      rw [← ihh, drop_some e1, drop_some e2]
      conv_lhs => unfold advance
      simp [g3]
    · rw [hs] at g; cases g
      simp only at m1 m2 ihh ⊢
      have e1 := h1 i (by omega)
      have e2 := h2 j (by omega)
      rw [g1] at e1; rw [g2] at e2
      rw [← ihh, drop_some e1, drop_some e2]
      conv_lhs => unfold advance
      simp [g3, g4]
    · rw [hs] at g; cases g

theorem gives_mono {s s' : Nat × Nat} {out : List (α × β)} (h : Gives p r1 r2 s out s') : s.1 ≤ s'.1 ∧ s.2 ≤ s'.2 := by
  induction h with
  | nil => exact ⟨Nat.le_refl _, Nat.le_refl _⟩
  | cons _ _ hl _ ih =>
    obtain ⟨m1, m2, -⟩ := leaves_mono hl
    simp only at m1 m2 ⊢
    omega

theorem gives_inter {s s' : Nat × Nat} {out : List (α × β)} (h : Gives p r1 r2 s out s') (hst : step p r1 r2 s = none) (l1 : List α) (l2 : List β) (h1 : ∀ k, k ≤ s'.1 → l1[k]? = r1 k)
    (h2 : ∀ k, k ≤ s'.2 → l2[k]? = r2 k) : ∃ rest, inter p (l1.drop s.1) (l2.drop s.2) = out ++ rest := by
  induction h with
  | nil => exact ⟨_, rfl⟩
  | @cons i j a b n s₁ out s' ha hb hl hg ih =>
    obtain ⟨m1, m2⟩ := gives_mono hg
    obtain ⟨k1, k2, -⟩ := leaves_mono hl
    simp only at k1 k2
    obtain ⟨rest, hr⟩ := ih (leaves_stop hl) h1 h2
    have e1 := h1 i (by omega)
    have e2 := h2 j (by omega)
    rw [ha] at e1; rw [hb] at e2
    have hadv := leaves_advance hl l1 l2 (fun k hk => h1 k (by omega)) (fun k hk => h2 k (by omega))
    simp only at hadv
    refine ⟨rest, ?_⟩
    have hin : inter p (l1.drop (i + 1)) (l2.drop (j + 1)) = inter p (l1.drop s₁.1) (l2.drop s₁.2) := by
      rcases advance_inter p (l1.drop (i + 1)) (l2.drop (j + 1)) with ⟨x, xs, y, ys, g1, g2, -⟩ | ⟨g1, g2⟩
      · rw [hadv] at g1
        injection g1 with g3 g4
        rw [g2, g3, g4]
        have hs1 := leaves_stop hl
        have e3 := h1 s₁.1 m1
        have e4 := h2 s₁.2 m2
        have hx : r1 s₁.1 = some x := by
          rw [← e3]
          have := congrArg List.head? g3
          rwa [List.head?_drop] at this
        have hy : r2 s₁.2 = some y := by
          rw [← e4]
          have := congrArg List.head? g4
          rwa [List.head?_drop] at this
        simp only [step, hx, hy] at hs1
        split at hs1
        · cases hs1
        · split at hs1
          · cases hs1
          · rename_i n1 n2
            conv_rhs => unfold inter
            rw [if_neg n1, if_neg n2]
      · rw [hadv] at g1
        rw [g2]
        simp only [Iter.notEnd, Bool.and_eq_false_iff, Bool.not_eq_false', List.isEmpty_iff] at g1
        rcases g1 with g | g
        · rw [g]; unfold inter; rfl
        · rw [g]; unfold inter; cases l1.drop s₁.1 <;> rfl
    simp only [step, ha, hb] at hst
    split at hst
    · cases hst
    · split at hst
      · cases hst
      · rename_i n1 n2
        rw [drop_some e1, drop_some e2]
        conv_lhs => unfold inter
        rw [if_neg n1, if_neg n2, hin, hr]
        rfl

/-- C146: the elements found in ranges without end are the first of those that C28 is about, in any finite ranges that begin in the same way. -/
theorem lazy_prefix {n : Nat} {s₀ s' : Nat × Nat} {out : List (α × β)} (hb : Leaves p r1 r2 (0, 0) n s₀) (hg : Gives p r1 r2 s₀ out s') (l1 : List α) (l2 : List β)
    (h1 : ∀ k, k ≤ s'.1 → l1[k]? = r1 k) (h2 : ∀ k, k ≤ s'.2 → l2[k]? = r2 k) :
    ∃ rest, collect p l1.length (begin p l1 l2) = .ok (some (out ++ rest)) := by
  obtain ⟨m1, m2⟩ := gives_mono hg
  have hadv := leaves_advance hb l1 l2 (fun k hk => h1 k (by omega)) (fun k hk => h2 k (by omega))
  obtain ⟨rest, hr⟩ := gives_inter hg (leaves_stop hb) l1 l2 h1 h2
  refine ⟨rest, ?_⟩
  have hc := collect_inter p l1.length (l1.drop s₀.1) (l2.drop s₀.2) (by rw [List.length_drop]; omega)
  have hstop : advance p (l1.drop s₀.1) (l2.drop s₀.2) = ⟨l1.drop s₀.1, l2.drop s₀.2⟩ :=
    leaves_advance (.stop (leaves_stop hb)) l1 l2 (fun k hk => h1 k (by omega)) (fun k hk => h2 k (by omega))
  simp only [List.drop_zero] at hadv
  rw [begin, hadv, ← hstop, hc, hr]

end

/-! ## Cost -/

theorem advanceC_fst (p : Params α β κ) (l1 : List α) (l2 : List β) : (advanceC p l1 l2).1 = advance p l1 l2 := by
  fun_induction advance p l1 l2 with
  | case1 a as b bs h ih => rw [advanceC, if_pos h]; exact ih
  | case2 a as b bs h1 h2 ih => rw [advanceC, if_neg h1, if_pos h2]; exact ih
  | case3 a as b bs h1 h2 => rw [advanceC, if_neg h1, if_neg h2]
  | case4 l1 l2 h =>
    cases l1 with
    | nil => unfold advanceC; rfl
    | cons a as =>
      cases l2 with
      | nil => unfold advanceC; rfl
      | cons b bs => exact absurd rfl (h a as b bs rfl)

/-- The number of elements that are left. -/
def left (it : Iter α β) : Nat := it.first1.length + it.first2.length

theorem advanceC_cost (p : Params α β κ) (l1 : List α) (l2 : List β) :
    (advanceC p l1 l2).2 + 2 * left (advanceC p l1 l2).1 ≤ 2 * (l1.length + l2.length) + (if (advanceC p l1 l2).1.notEnd then 2 else 0) := by
  fun_induction advance p l1 l2 with
  | case1 a as b bs h ih => rw [advanceC, if_pos h]; simp only [List.length_cons] at ih ⊢; omega
  | case2 a as b bs h1 h2 ih => rw [advanceC, if_neg h1, if_pos h2]; simp only [List.length_cons] at ih ⊢; omega
  | case3 a as b bs h1 h2 => rw [advanceC, if_neg h1, if_neg h2]; simp [left, Iter.notEnd]; omega
  | case4 l1 l2 h =>
    cases l1 with
    | nil => unfold advanceC; simp [left]
    | cons a as =>
      cases l2 with
      | nil => unfold advanceC; simp [left]
      | cons b bs => exact absurd rfl (h a as b bs rfl)

theorem collectC_cost (p : Params α β κ) (fuel : Nat) (it : Iter α β) : collectC p fuel it + (if it.notEnd then 2 else 0) ≤ 2 * left it := by
  induction fuel generalizing it with
  | zero =>
    obtain ⟨l1, l2⟩ := it
    cases l1 <;> cases l2 <;> simp [collectC, left, Iter.notEnd]
    omega
  | succ fuel ih =>
    obtain ⟨l1, l2⟩ := it
    cases l1 with
    | nil => simp [collectC, left, Iter.notEnd]
    | cons a as =>
      cases l2 with
      | nil => simp [collectC, left, Iter.notEnd]
      | cons b bs =>
        have h1 := advanceC_cost p as bs
        have h2 := ih (advanceC p as bs).1
        simp only [collectC, left, Iter.notEnd, List.length_cons, List.isEmpty_cons, Bool.not_false, Bool.and_self, if_true] at h1 h2 ⊢
        omega

/-- C146: visiting the whole intersection calls the comparison at most twice per element of the two ranges, for any comparison and ranges in any order; one search calls it at most twice per
element it passes, and twice where it stops at a pair. -/
theorem comparisons_linear (p : Params α β κ) (r1 : List α) (r2 : List β) :
    (advanceC p r1 r2).1 = begin p r1 r2 ∧
    (∀ l1 l2, (advanceC p l1 l2).2 + 2 * ((advance p l1 l2).first1.length + (advance p l1 l2).first2.length) ≤
      2 * (l1.length + l2.length) + (if (advance p l1 l2).notEnd then 2 else 0)) ∧
    ∀ fuel, (advanceC p r1 r2).2 + collectC p fuel (begin p r1 r2) ≤ 2 * (r1.length + r2.length) := by
  refine ⟨advanceC_fst p r1 r2, fun l1 l2 => ?_, fun fuel => ?_⟩
  · have := advanceC_cost p l1 l2
    rw [advanceC_fst] at this
    exact this
  · have h1 := advanceC_cost p r1 r2
    have h2 := collectC_cost p fuel (begin p r1 r2)
    rw [advanceC_fst] at h1
    simp only [begin] at h2 ⊢
    cases hn : (advance p r1 r2).notEnd with
    | true => simp only [hn, if_true] at h1 h2; omega
    | false => simp only [hn, Bool.false_eq_true, if_false] at h1 h2; omega

/-! ## Non-vacuity -/

/-- The even numbers and the multiples of three. -/
def exP : Params Nat Nat Nat := ⟨fun a b => decide (a < b), id, id⟩
def ex1 : Rng Nat := fun n => some (2 * n)
def ex2 : Rng Nat := fun n => some (3 * n)
/-- 1, 3, 5, and the end. -/
def ex3 : Rng Nat := fun n => if n < 3 then some (2 * n + 1) else none

example : StrictWeak exP.comp ∧ Closed ex1 ∧ Closed ex2 ∧ Closed ex3 ∧ Endless ex1 ∧ Endless ex2 ∧ ¬ Endless ex3 ∧ Sorted exP.comp exP.proj1 ex1 ∧ Sorted exP.comp exP.proj2 ex2 ∧
    Sorted exP.comp exP.proj2 ex3 ∧ Common exP ex1 ex2 1 1 3 2 ∧ ¬ Hopeless exP ex1 ex3 0 0 := by
  refine ⟨⟨fun a b h => by simp [exP] at h ⊢; omega, fun a b c h => by simp [exP] at h ⊢; omega⟩, fun n m _ h => by simp [ex1] at h, fun n m _ h => by simp [ex2] at h, fun n m h1 h => ?_,
    fun n => rfl, fun n => rfl, fun h => absurd (h 3) (by decide), ?_, ?_, ?_, ⟨by decide, by decide, 6, 6, rfl, rfl, by decide⟩, ?_⟩
  · simp only [ex3] at h ⊢
    split at h
    · cases h
    · rw [if_neg (by omega)]
  · intro n m x y h h1 h2
    simp only [ex1, Option.some.injEq] at h1 h2
    simp [exP]; omega
  · intro n m x y h h1 h2
    simp only [ex2, Option.some.injEq] at h1 h2
    simp [exP]; omega
  · intro n m x y h h1 h2
    simp only [ex3] at h1 h2
    split at h1 <;> split at h2 <;> cases h1 <;> cases h2
    simp [exP]; omega
  · rintro (⟨h, -⟩ | ⟨-, j', b, -, hb, h⟩)
    · exact absurd (h 3) (by decide)
    · have := h 3 6 (by omega) rfl
      simp only [ex3] at hb
      split at hb
      · cases hb
        simp [exP] at this; omega
      · cases hb

/-- The first common elements, and the comparisons in the two lists of the example of C28. -/
example : Leaves exP ex1 ex2 (0, 0) 0 (0, 0) ∧ Gives exP ex1 ex2 (0, 0) [(0, 0), (6, 6)] (6, 4) ∧ (advanceC exP [1, 2, 2, 5] [2, 3, 5, 5]).2 = 3 := by
  refine ⟨.stop rfl, .cons rfl rfl (.go (s₁ := (2, 1)) rfl (.go (s₁ := (2, 2)) rfl (.go (s₁ := (3, 2)) rfl (.stop rfl)))) (.cons rfl rfl
    (.go (s₁ := (5, 3)) rfl (.go (s₁ := (5, 4)) rfl (.go (s₁ := (6, 4)) rfl (.stop rfl)))) .nil), ?_⟩
  simp [advanceC, exP]

/-- A search that does not end: among infinitely many zeros, for 1. -/
example : Hopeless exP ex3 (fun n => some (n - n)) 0 0 := .inl ⟨fun _ => rfl, 0, 1, by decide, rfl, fun j' b _ h => by simp only [Option.some.injEq] at h; subst h; simp [exP]⟩

end Guanaqo.SetInter.Lazy
