import Verif.SetInter.Props

/-!
# C147: intersections of intersections (set-intersection.hpp)

`set_intersection_iterable` is a view, so that it may be an argument of `iter_set_intersection` again. Its iterators are modelled over iterators of any type.
-/

namespace Guanaqo.SetInter.Compose

open Guanaqo.SetInter

variable {α β γ κ σ τ : Type}

/-! ## Model -/

/-- An iterator type with its sentinel: `*it` (nothing at the end) and `++it`. -/
structure Cursor (σ γ : Type) where
  deref : σ → Option γ
  next : σ → Res σ

/-- Iterators of a finite range, e.g. `std::vector`; incrementing the end is undefined. -/
def listCursor (γ : Type) : Cursor (List γ) γ where
  deref l := l.head?
  next
    | [] => .error .ub
    | _ :: l => .ok l

/-- `advance()`, set-intersection.hpp:74-85, over two iterators. The fuel bounds the number of iterations (undefined if it runs out). -/
def advance (C : Cursor σ α) (D : Cursor τ β) (p : Params α β κ) : Nat → σ → τ → Res (σ × τ)
  | fuel, s, t =>
    match C.deref s, D.deref t with
    | some a, some b =>
      if p.comp (p.proj1 a) (p.proj2 b) then
        match fuel with
        | 0 => .error .ub
        | fuel + 1 =>
          match C.next s with
          | .error e => .error e
          | .ok s => advance C D p fuel s t
      else if p.comp (p.proj2 b) (p.proj1 a) then
        match fuel with
        | 0 => .error .ub
        | fuel + 1 =>
          match D.next t with
          | .error e => .error e
          | .ok t => advance C D p fuel s t
      else .ok (s, t)
    | _, _ => .ok (s, t)

/-- `iter_t`, set-intersection.hpp:55-73, as an iterator itself: `!=`, `*` and `++`. -/
def interCursor (C : Cursor σ α) (D : Cursor τ β) (p : Params α β κ) (fuel : Nat) : Cursor (σ × τ) (α × β) where
  deref s :=
    match C.deref s.1, D.deref s.2 with
    | some a, some b => some (a, b)
    | _, _ => none
  next s :=
    match C.deref s.1, D.deref s.2 with
    | some _, some _ =>
      match C.next s.1 with
      | .error e => .error e
      | .ok s₁ =>
        match D.next s.2 with
        | .error e => .error e
        | .ok s₂ => advance C D p fuel s₁ s₂
    | _, _ => .error .ub

/-! ## Specification -/

/-- A loop from the iterator to the end, without undefined behaviour, visits the elements. -/
inductive Visits (C : Cursor σ γ) : σ → List γ → Prop where
  | done {s} : C.deref s = none → Visits C s []
  | more {s s' x l} : C.deref s = some x → C.next s = .ok s' → Visits C s' l → Visits C s (x :: l)

/-- The elements with a key equivalent to `k`. -/
abbrev keyed (comp : κ → κ → Bool) (proj : γ → κ) (k : κ) (l : List γ) : List γ := l.filter fun x => Equiv comp (proj x) k

/-! ## Proofs -/

theorem visits_list (l : List γ) : Visits (listCursor γ) l l := by
  induction l with
  | nil => exact .done rfl
  | cons x l ih => exact .more rfl rfl ih

/-- What a loop visits is determined. -/
theorem visits_unique {C : Cursor σ γ} {s : σ} {l l' : List γ} (h : Visits C s l) (h' : Visits C s l') : l = l' := by
  induction h generalizing l' with
  | done h =>
    cases h' with
    | done => rfl
    | more h1 => rw [h] at h1; cases h1
  | more h1 h2 _ ih =>
    cases h' with
    | done h => rw [h] at h1; cases h1
    | more g1 g2 g3 =>
      rw [h1] at g1; cases g1
      rw [h2] at g2; cases g2
      rw [ih g3]

theorem advance_visits {C : Cursor σ α} {D : Cursor τ β} (p : Params α β κ) (F : Nat) : ∀ (n f : Nat) (s : σ) (t : τ) (l1 : List α) (l2 : List β), Visits C s l1 → Visits D t l2 →
    l1.length + l2.length ≤ n → n ≤ f → n ≤ F → ∃ s', advance C D p f s t = .ok s' ∧ Visits (interCursor C D p F) s' (inter p l1 l2) := by
  intro n
  induction n with
  | zero =>
    intro f s t l1 l2 h1 h2 hn _ _
    cases l1 with
    | cons => simp at hn
    | nil =>
      cases h1 with
      | done h1 =>
        refine ⟨(s, t), ?_, ?_⟩
        · unfold advance; rw [h1]
        · unfold inter; exact .done (by simp [interCursor, h1])
  | succ n ih =>
    intro f s t l1 l2 h1 h2 hn hf hF
    cases h1 with
    | done h1 =>
      refine ⟨(s, t), ?_, ?_⟩
      · unfold advance; rw [h1]
      · unfold inter; exact .done (by simp [interCursor, h1])
    | @more _ s₁ a as a1 a2 a3 =>
      cases h2 with
      | done h2 =>
        refine ⟨(s, t), ?_, ?_⟩
        · unfold advance; rw [a1, h2]
        · unfold inter; exact .done (by simp [interCursor, h2])
      | @more _ t₁ b bs b1 b2 b3 =>
        simp only [List.length_cons] at hn
        obtain ⟨f, rfl⟩ : ∃ f', f = f' + 1 := ⟨f - 1, by omega⟩
        unfold advance inter
        rw [a1, b1]
        dsimp only
        by_cases c1 : p.comp (p.proj1 a) (p.proj2 b) = true
        · rw [if_pos c1, if_pos c1, a2]
          exact ih f s₁ t as (b :: bs) a3 (.more b1 b2 b3) (by simp; omega) (by omega) (by omega)
        · rw [if_neg c1, if_neg c1]
          by_cases c2 : p.comp (p.proj2 b) (p.proj1 a) = true
          · rw [if_pos c2, if_pos c2, b2]
            exact ih f s t₁ (a :: as) bs (.more a1 a2 a3) b3 (by simp; omega) (by omega) (by omega)
          · rw [if_neg c2, if_neg c2]
            obtain ⟨s', g1, g2⟩ := ih F s₁ t₁ as bs a3 b3 (by omega) (by omega) (by omega)
            exact ⟨(s, t), rfl, .more (by simp [interCursor, a1, b1]) (by simp [interCursor, a1, b1, a2, b2, g1]) g2⟩

theorem sorted_keyed_ext {comp : κ → κ → Bool} (hw : StrictWeak comp) {proj : γ → κ} : ∀ {l l' : List γ}, SortedBy comp proj l → SortedBy comp proj l' →
    (∀ k, keyed comp proj k l = keyed comp proj k l') → l = l' := by
  have hrefl (k : κ) : Equiv comp k k = true := by
    cases hc : comp k k with
    | false => simp [Equiv, hc]
    | true => have := hw.asymm _ _ hc; rw [hc] at this; cases this
  intro l
  induction l with
  | nil =>
    intro l' _ _ h
    cases l' with
    | nil => rfl
    | cons b bs =>
      have := h (proj b)
      rw [keyed, keyed, List.filter_nil, List.filter_cons_of_pos (by exact hrefl _)] at this
      cases this
  | cons a as ih =>
    intro l' h1 h2 h
    cases l' with
    | nil =>
      have := h (proj a)
      rw [keyed, keyed, List.filter_nil, List.filter_cons_of_pos (by exact hrefl _)] at this
      cases this
    | cons b bs =>
      have hab : Equiv comp (proj b) (proj a) = true := by
        by_cases he : Equiv comp (proj b) (proj a) = true
        · exact he
        · have ha := h (proj a)
          rw [keyed, keyed, List.filter_cons_of_pos (by exact hrefl _), List.filter_cons_of_neg (by exact he)] at ha
          have m1 : a ∈ bs := (List.mem_filter.1 (ha ▸ List.mem_cons_self)).1
          have hb := h (proj b)
          have he' : ¬ Equiv comp (proj a) (proj b) = true := fun x => he (by simpa [Equiv, Bool.and_comm] using x)
          rw [keyed, keyed, List.filter_cons_of_neg (by exact he'), List.filter_cons_of_pos (by exact hrefl _)] at hb
          have m2 : b ∈ as := (List.mem_filter.1 (hb ▸ List.mem_cons_self)).1
          have g1 := (List.pairwise_cons.1 h1).1 b m2
          have g2 := (List.pairwise_cons.1 h2).1 a m1
          simp [Equiv, g1, g2]
      have ha := h (proj a)
      rw [keyed, keyed, List.filter_cons_of_pos (by exact hrefl _), List.filter_cons_of_pos (by exact hab)] at ha
      injection ha with e _
      subst e
      congr 1
      refine ih (List.Pairwise.of_cons h1) (List.Pairwise.of_cons h2) fun k => ?_
      have hk := h k
      by_cases hc : Equiv comp (proj a) k = true
      · rw [keyed, keyed, List.filter_cons_of_pos (by exact hc), List.filter_cons_of_pos (by exact hc)] at hk
        injection hk
      · rw [keyed, keyed, List.filter_cons_of_neg (by exact hc), List.filter_cons_of_neg (by exact hc)] at hk
        exact hk

theorem visits_begin {C : Cursor σ α} {D : Cursor τ β} (p : Params α β κ) {s : σ} {t : τ} {l1 : List α} {l2 : List β} (h1 : Visits C s l1) (h2 : Visits D t l2) :
    ∃ s', advance C D p (l1.length + l2.length) s t = .ok s' ∧ Visits (interCursor C D p (l1.length + l2.length)) s' (inter p l1 l2) :=
  advance_visits p _ _ _ s t l1 l2 h1 h2 (Nat.le_refl _) (Nat.le_refl _) (Nat.le_refl _)

/-- C147: the intersection of two ranges of any kind, e.g. intersections again, given by their iterators, visits what C28 says about the lists of the elements of both. -/
theorem any_ranges (C : Cursor σ α) (D : Cursor τ β) (p : Params α β κ) {s : σ} {t : τ} {l1 : List α} {l2 : List β} (h1 : Visits C s l1) (h2 : Visits D t l2) :
    ∃ s' out, advance C D p (l1.length + l2.length) s t = .ok s' ∧ Visits (interCursor C D p (l1.length + l2.length)) s' out ∧ collect p l1.length (begin p l1 l2) = .ok (some out) := by
  obtain ⟨s', g1, g2⟩ := visits_begin p h1 h2
  exact ⟨s', _, g1, g2, collect_inter p _ l1 l2 (Nat.le_refl _)⟩

/-- C147: the intersection of the intersection of two sorted ranges with a third one (compared by the keys of the first elements) visits, in key order, for every key the elements of the three
ranges with that key in order, as many as the shortest of the three. -/
theorem three_way (comp : κ → κ → Bool) (hw : StrictWeak comp) (π₁ : α → κ) (π₂ : β → κ) (π₃ : γ → κ) (r1 : List α) (r2 : List β) (r3 : List γ) (h1 : SortedBy comp π₁ r1)
    (h2 : SortedBy comp π₂ r2) (h3 : SortedBy comp π₃ r3) :
    ∃ F G s t out, advance (listCursor α) (listCursor β) ⟨comp, π₁, π₂⟩ F r1 r2 = .ok s ∧
      advance (interCursor (listCursor α) (listCursor β) ⟨comp, π₁, π₂⟩ F) (listCursor γ) ⟨comp, fun x => π₁ x.1, π₃⟩ G s r3 = .ok t ∧
      Visits (interCursor (interCursor (listCursor α) (listCursor β) ⟨comp, π₁, π₂⟩ F) (listCursor γ) ⟨comp, fun x => π₁ x.1, π₃⟩ G) t out ∧
      SortedBy comp (fun x : (α × β) × γ => π₁ x.1.1) out ∧
      ∀ k, keyed comp (fun x : (α × β) × γ => π₁ x.1.1) k out = ((keyed comp π₁ k r1).zip (keyed comp π₂ k r2)).zip (keyed comp π₃ k r3) := by
  obtain ⟨s, g1, g2⟩ := visits_begin ⟨comp, π₁, π₂⟩ (visits_list r1) (visits_list r2)
  obtain ⟨t, g3, g4⟩ := visits_begin ⟨comp, fun x : α × β => π₁ x.1, π₃⟩ g2 (visits_list r3)
  have hs := inter_sorted ⟨comp, π₁, π₂⟩ r1 r2 h1
  refine ⟨_, _, s, t, _, g1, g3, g4, inter_sorted ⟨comp, fun x : α × β => π₁ x.1, π₃⟩ _ r3 hs, fun k => ?_⟩
  have e1 := inter_filter (p := ⟨comp, fun x : α × β => π₁ x.1, π₃⟩) hw (inter ⟨comp, π₁, π₂⟩ r1 r2) r3 hs h3 k
  have e2 := inter_filter (p := ⟨comp, π₁, π₂⟩) hw r1 r2 h1 h2 k
  rw [keyed, e1, e2]

/-- The elements visited by the intersection of two finite ranges. -/
def Result (p : Params α β κ) (l1 : List α) (l2 : List β) (out : List (α × β)) : Prop := collect p l1.length (begin p l1 l2) = .ok (some out)

theorem result_iff (p : Params α β κ) (l1 : List α) (l2 : List β) (out : List (α × β)) : Result p l1 l2 out ↔ out = inter p l1 l2 := by
  unfold Result begin
  rw [collect_inter p _ l1 l2 (Nat.le_refl _)]
  constructor
  · intro h; injection h with h; injection h with h; exact h.symm
  · rintro rfl; rfl

theorem inter_swap (comp : κ → κ → Bool) (hw : StrictWeak comp) (π₁ : α → κ) (π₂ : β → κ) (l1 : List α) (l2 : List β) :
    inter ⟨comp, π₂, π₁⟩ l2 l1 = (inter ⟨comp, π₁, π₂⟩ l1 l2).map Prod.swap := by
  fun_induction inter (⟨comp, π₁, π₂⟩ : Params α β κ) l1 l2 with
  | case1 a as b bs h ih =>
    rw [inter, if_neg (by have := hw.asymm _ _ h; simp [this]), if_pos h]; exact ih
  | case2 a as b bs h1 h2 ih => rw [inter, if_pos h2]; exact ih
  | case3 a as b bs h1 h2 ih => rw [inter, if_neg h2, if_neg h1, ih]; rfl
  | case4 l1 l2 h =>
    cases l1 with
    | nil => unfold inter; cases l2 <;> rfl
    | cons a as =>
      cases l2 with
      | nil => unfold inter; rfl
      | cons b bs => exact absurd rfl (h a as b bs rfl)

/-- C147: the order of the two ranges only decides which element of a pair comes first, for ranges in any order. -/
theorem commutative (comp : κ → κ → Bool) (hw : StrictWeak comp) (π₁ : α → κ) (π₂ : β → κ) (r1 : List α) (r2 : List β) (out : List (α × β)) :
    Result ⟨comp, π₁, π₂⟩ r1 r2 out ↔ Result ⟨comp, π₂, π₁⟩ r2 r1 (out.map Prod.swap) := by
  rw [result_iff, result_iff]
  constructor
  · rintro rfl
    rw [inter_swap comp hw π₂ π₁]
    simp [List.map_map, Function.comp_def]
  · intro h
    rw [inter_swap comp hw π₁ π₂] at h
    have := congrArg (List.map Prod.swap) h
    simpa [List.map_map, Function.comp_def] using this

/-- C147: it does not matter which two of three sorted ranges are intersected first. -/
theorem associative (comp : κ → κ → Bool) (hw : StrictWeak comp) (π₁ : α → κ) (π₂ : β → κ) (π₃ : γ → κ) (r1 : List α) (r2 : List β) (r3 : List γ) (h1 : SortedBy comp π₁ r1)
    (h2 : SortedBy comp π₂ r2) (h3 : SortedBy comp π₃ r3) (out12 : List (α × β)) (out23 : List (β × γ)) (h12 : Result ⟨comp, π₁, π₂⟩ r1 r2 out12) (h23 : Result ⟨comp, π₂, π₃⟩ r2 r3 out23)
    (outL : List ((α × β) × γ)) (outR : List (α × (β × γ))) (hL : Result ⟨comp, fun x => π₁ x.1, π₃⟩ out12 r3 outL) (hR : Result ⟨comp, π₁, fun x => π₂ x.1⟩ r1 out23 outR) :
    outR = outL.map fun x => (x.1.1, (x.1.2, x.2)) := by
  rw [result_iff] at h12 h23 hL hR
  subst h12 h23 hL hR
  have s12 := inter_sorted ⟨comp, π₁, π₂⟩ r1 r2 h1
  have s23 := inter_sorted ⟨comp, π₂, π₃⟩ r2 r3 h2
  have sL := inter_sorted ⟨comp, fun x : α × β => π₁ x.1, π₃⟩ _ r3 s12
  have sR := inter_sorted ⟨comp, π₁, fun x : β × γ => π₂ x.1⟩ r1 (inter ⟨comp, π₂, π₃⟩ r2 r3) h1
  refine sorted_keyed_ext hw (proj := fun x : α × β × γ => π₁ x.1) sR ?_ fun k => ?_
  · exact List.pairwise_map.2 sL
  · have e1 := inter_filter (p := ⟨comp, π₁, fun x : β × γ => π₂ x.1⟩) hw r1 _ h1 s23 k
    have e2 := inter_filter (p := ⟨comp, π₂, π₃⟩) hw r2 r3 h2 h3 k
    have e3 := inter_filter (p := ⟨comp, fun x : α × β => π₁ x.1, π₃⟩) hw _ r3 s12 h3 k
    have e4 := inter_filter (p := ⟨comp, π₁, π₂⟩) hw r1 r2 h1 h2 k
    dsimp only at e1 e2 e3 e4
    rw [keyed, keyed, List.filter_map, e1, e2]
    have : List.filter ((fun x : α × β × γ => Equiv comp (π₁ x.1) k) ∘ fun x : (α × β) × γ => (x.1.1, (x.1.2, x.2))) (inter ⟨comp, fun x : α × β => π₁ x.1, π₃⟩ (inter ⟨comp, π₁, π₂⟩ r1 r2) r3) =
        List.filter (fun x : (α × β) × γ => Equiv comp (π₁ x.1.1) k) (inter ⟨comp, fun x : α × β => π₁ x.1, π₃⟩ (inter ⟨comp, π₁, π₂⟩ r1 r2) r3) := rfl
    rw [this, e3, e4]
    generalize r1.filter _ = a
    generalize r2.filter _ = b
    generalize r3.filter _ = c
    induction a generalizing b c with
    | nil => simp
    | cons x a ih =>
      cases b with
      | nil => simp
      | cons y b =>
        cases c with
        | nil => simp
        | cons z c => simp [ih]

/-- C147: a range (sorted or not) intersected with itself is paired with itself. -/
theorem idempotent (comp : κ → κ → Bool) (hw : StrictWeak comp) (π : α → κ) (r : List α) : Result ⟨comp, π, π⟩ r r (r.map fun x => (x, x)) := by
  rw [result_iff]
  induction r with
  | nil => unfold inter; rfl
  | cons a as ih =>
    have hc : comp (π a) (π a) = false := by
      cases hc : comp (π a) (π a) with
      | false => rfl
      | true => have := hw.asymm _ _ hc; rw [hc] at this; cases this
    rw [inter, if_neg (by simp [hc]), if_neg (by simp [hc]), ← ih]
    rfl

/-! ## Non-vacuity -/

example : StrictWeak (fun a b : Nat => decide (a < b)) ∧ SortedBy (fun a b : Nat => decide (a < b)) id [1, 2, 2, 5, 7] ∧ SortedBy (fun a b : Nat => decide (a < b)) id [2, 2, 5, 7, 7] ∧
    SortedBy (fun a b : Nat => decide (a < b)) id [0, 2, 7] :=
  ⟨⟨fun a b h => by simp at h ⊢; omega, fun a b c h => by simp at h ⊢; omega⟩, by simp [SortedBy], by simp [SortedBy], by simp [SortedBy]⟩

example : Result (⟨fun a b : Nat => decide (a < b), id, id⟩ : Params Nat Nat Nat) [1, 2, 2, 5, 7] [2, 2, 5, 7, 7] [(2, 2), (2, 2), (5, 5), (7, 7)] ∧
    Result (⟨fun a b : Nat => decide (a < b), fun x => x.1, id⟩ : Params (Nat × Nat) Nat Nat) [(2, 2), (2, 2), (5, 5), (7, 7)] [0, 2, 7] [((2, 2), 2), ((7, 7), 7)] := by
  rw [result_iff, result_iff]
  constructor <;> simp [inter]

end Guanaqo.SetInter.Compose
