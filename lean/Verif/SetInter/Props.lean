import Verif.SetInter.Model
import Verif.Std.Sort
import Verif.MatView.Lemmas
import Verif.Tactics

/-!
# Properties of `iter_set_intersection` (C28)
-/

namespace Guanaqo.SetInter

open Guanaqo.MatView (ok_bind error_bind)

variable {α β κ : Type}

/-- Two keys are equivalent: neither comes before the other. -/
def Equiv (comp : κ → κ → Bool) (a b : κ) : Bool := !comp a b && !comp b a

/-- The range is sorted by its projected keys. -/
def SortedBy {γ : Type} (comp : κ → κ → Bool) (proj : γ → κ) (l : List γ) : Prop :=
  l.Pairwise (fun x y => comp (proj y) (proj x) = false)

/-- Helper: the recursion computed by the iteration. -/
def inter (p : Params α β κ) : List α → List β → List (α × β)
  | a :: as, b :: bs =>
    if p.comp (p.proj1 a) (p.proj2 b) then inter p as (b :: bs)
    else if p.comp (p.proj2 b) (p.proj1 a) then inter p (a :: as) bs
    else (a, b) :: inter p as bs
  | _, _ => []
termination_by l1 l2 => l1.length + l2.length

theorem advance_inter (p : Params α β κ) (l1 : List α) (l2 : List β) :
    (∃ a as b bs, advance p l1 l2 = ⟨a :: as, b :: bs⟩ ∧
      inter p l1 l2 = (a, b) :: inter p as bs ∧ as.length < l1.length) ∨
    ((advance p l1 l2).notEnd = false ∧ inter p l1 l2 = []) := by
  fun_induction advance p l1 l2 with
  | case1 a as b bs h ih =>
    rw [inter, if_pos h]
    rcases ih with ⟨a', as', b', bs', h1, h2, h3⟩ | h1
    · exact .inl ⟨a', as', b', bs', h1, h2, by simp; omega⟩
    · exact .inr h1
  | case2 a as b bs h1 h2 ih =>
    rw [inter, if_neg h1, if_pos h2]
    exact ih
  | case3 a as b bs h1 h2 =>
    rw [inter, if_neg h1, if_neg h2]
    exact .inl ⟨a, as, b, bs, rfl, rfl, by simp⟩
  | case4 l1 l2 h =>
    right
    cases l1 with
    | nil => simp [Iter.notEnd, inter]
    | cons a as =>
      cases l2 with
      | nil => simp [Iter.notEnd, inter]
      | cons b bs => exact absurd rfl (h a as b bs rfl)

theorem collect_inter (p : Params α β κ) :
    ∀ (fuel : Nat) (l1 : List α) (l2 : List β), l1.length ≤ fuel →
      collect p fuel (advance p l1 l2) = .ok (some (inter p l1 l2)) := by
  intro fuel
  induction fuel with
  | zero =>
    intro l1 l2 hf
    rcases advance_inter p l1 l2 with ⟨a, as, b, bs, _, _, h3⟩ | ⟨h1, h2⟩
    · omega
    · simp [collect, h1, h2, pure, Except.pure]
  | succ fuel ih =>
    intro l1 l2 hf
    rcases advance_inter p l1 l2 with ⟨a, as, b, bs, h1, h2, h3⟩ | ⟨h1, h2⟩
    · rw [collect, h1, h2]
      simp only [Iter.notEnd, List.isEmpty_cons, Bool.not_false, Bool.and_self, Bool.not_true,
        Bool.false_eq_true, if_false, Iter.deref, Iter.inc, ok_bind]
      rw [ih as bs (by omega)]
      rfl
    · simp [collect, h1, h2, pure, Except.pure]

theorem inter_mem (p : Params α β κ) (l1 : List α) (l2 : List β) (x : α × β)
    (h : x ∈ inter p l1 l2) :
    x.1 ∈ l1 ∧ x.2 ∈ l2 ∧ Equiv p.comp (p.proj1 x.1) (p.proj2 x.2) = true := by
  fun_induction inter p l1 l2 with
  | case1 a as b bs hc ih => have := ih h; exact ⟨by simp [this.1], this.2⟩
  | case2 a as b bs h1 h2 ih => have := ih h; exact ⟨this.1, by simp [this.2.1], this.2.2⟩
  | case3 a as b bs h1 h2 ih =>
    rcases List.mem_cons.1 h with rfl | h
    · exact ⟨by simp, by simp, by simp [Equiv, h1, h2]⟩
    · have := ih h; exact ⟨by simp [this.1], by simp [this.2.1], this.2.2⟩
  | case4 => simp at h

theorem equiv_lt_false {comp : κ → κ → Bool} (hw : StrictWeak comp) {a b c k : κ}
    (hab : comp a b = true) (hbc : comp c b = false) (hak : Equiv comp a k = true) :
    Equiv comp c k = false := by
  simp only [Equiv, Bool.and_eq_true, Bool.not_eq_true', Bool.and_eq_false_iff] at *
  right
  rcases hw.negTrans a k b hab with h | h
  · rw [hak.1] at h; cases h
  · rcases hw.negTrans k c b h with h | h
    · simp [h]
    · rw [hbc] at h; cases h

theorem inter_filter {p : Params α β κ} (hw : StrictWeak p.comp) (l1 : List α) (l2 : List β)
    (h1 : SortedBy p.comp p.proj1 l1) (h2 : SortedBy p.comp p.proj2 l2) (k : κ) :
    (inter p l1 l2).filter (fun x => Equiv p.comp (p.proj1 x.1) k) =
      List.zip (l1.filter (fun x => Equiv p.comp (p.proj1 x) k))
        (l2.filter (fun y => Equiv p.comp (p.proj2 y) k)) := by
  fun_induction inter p l1 l2 with
  | case1 a as b bs hc ih =>
    rw [ih (List.Pairwise.of_cons h1) h2]
    by_cases hak : Equiv p.comp (p.proj1 a) k = true
    · have hnil : (b :: bs).filter (fun y => Equiv p.comp (p.proj2 y) k) = [] := by
        rw [List.filter_eq_nil_iff]
        intro y hy
        have : p.comp (p.proj2 y) (p.proj2 b) = false := by
          rcases List.mem_cons.1 hy with rfl | hy
          · cases hh : p.comp (p.proj2 y) (p.proj2 y) with
            | false => rfl
            | true => have := hw.asymm _ _ hh; rw [hh] at this; exact this
          · exact (List.pairwise_cons.1 h2).1 y hy
        rw [equiv_lt_false hw hc this hak]; simp
      rw [hnil]; simp
    · rw [List.filter_cons_of_neg (p := fun y => Equiv p.comp (p.proj1 y) k) hak]
  | case2 a as b bs hc1 hc2 ih =>
    rw [ih h1 (List.Pairwise.of_cons h2)]
    by_cases hbk : Equiv p.comp (p.proj2 b) k = true
    · have hnil : (a :: as).filter (fun y => Equiv p.comp (p.proj1 y) k) = [] := by
        rw [List.filter_eq_nil_iff]
        intro y hy
        have : p.comp (p.proj1 y) (p.proj1 a) = false := by
          rcases List.mem_cons.1 hy with rfl | hy
          · cases hh : p.comp (p.proj1 y) (p.proj1 y) with
            | false => rfl
            | true => have := hw.asymm _ _ hh; rw [hh] at this; exact this
          · exact (List.pairwise_cons.1 h1).1 y hy
        rw [equiv_lt_false hw hc2 this hbk]; simp
      rw [hnil]; simp
    · rw [List.filter_cons_of_neg (p := fun y => Equiv p.comp (p.proj2 y) k) hbk]
  | case3 a as b bs hc1 hc2 ih =>
    have heq : Equiv p.comp (p.proj1 a) k = Equiv p.comp (p.proj2 b) k := by
      have e1 : ∀ u v w : κ, p.comp u v = false → p.comp v u = false →
          Equiv p.comp u w = true → Equiv p.comp v w = true := by
        intro u v w huv hvu huw
        simp only [Equiv, Bool.and_eq_true, Bool.not_eq_true'] at huw ⊢
        constructor
        · cases h : p.comp v w with
          | false => rfl
          | true => rcases hw.negTrans v u w h with h' | h' <;> simp_all
        · cases h : p.comp w v with
          | false => rfl
          | true => rcases hw.negTrans w u v h with h' | h' <;> simp_all
      cases hA : Equiv p.comp (p.proj1 a) k with
      | true => exact (e1 _ _ _ (by simpa using hc1) (by simpa using hc2) hA).symm
      | false =>
        cases hB : Equiv p.comp (p.proj2 b) k with
        | false => rfl
        | true => rw [e1 _ _ _ (by simpa using hc2) (by simpa using hc1) hB] at hA; cases hA
    have ih' := ih (List.Pairwise.of_cons h1) (List.Pairwise.of_cons h2)
    by_cases hak : Equiv p.comp (p.proj1 a) k = true
    · have hbk : Equiv p.comp (p.proj2 b) k = true := heq ▸ hak
      rw [List.filter_cons_of_pos (p := fun y => Equiv p.comp (p.proj2 y) k) hbk,
        List.filter_cons_of_pos (p := fun y => Equiv p.comp (p.proj1 y) k) hak,
        List.filter_cons_of_pos (by simpa using hak), List.zip_cons_cons, ih']
    · have hbk : ¬ Equiv p.comp (p.proj2 b) k = true := heq ▸ hak
      rw [List.filter_cons_of_neg (p := fun y => Equiv p.comp (p.proj2 y) k) hbk,
        List.filter_cons_of_neg (p := fun y => Equiv p.comp (p.proj1 y) k) hak,
        List.filter_cons_of_neg (by simpa using hak), ih']
  | case4 l1 l2 h =>
    cases l1 with
    | nil => simp
    | cons a as =>
      cases l2 with
      | nil => simp
      | cons b bs => exact absurd rfl (h a as b bs rfl)

theorem inter_sorted (p : Params α β κ) (l1 : List α) (l2 : List β)
    (h1 : SortedBy p.comp p.proj1 l1) :
    (inter p l1 l2).Pairwise (fun x y => p.comp (p.proj1 y.1) (p.proj1 x.1) = false) := by
  fun_induction inter p l1 l2 with
  | case1 a as b bs hc ih => exact ih (List.Pairwise.of_cons h1)
  | case2 a as b bs hc1 hc2 ih => exact ih h1
  | case3 a as b bs hc1 hc2 ih =>
    refine List.pairwise_cons.2 ⟨?_, ih (List.Pairwise.of_cons h1)⟩
    intro y hy
    exact (List.pairwise_cons.1 h1).1 y.1 (inter_mem p _ _ y hy).1
  | case4 => exact List.Pairwise.nil

/-- C28. For two ranges sorted by their keys under a strict weak order, iterating the
intersection terminates after at most `|r1|` iterations without undefined behaviour and yields a
list `out` such that
* every pair consists of elements of the two ranges with equivalent keys,
* `out` is in key order,
* for every key `k`, the pairs with that key are the elements of `r1` with that key paired in
  order with the elements of `r2` with that key (as many as the shorter of the two) – the
  multiset intersection. -/
theorem intersection_exact (p : Params α β κ) (hw : StrictWeak p.comp) (r1 : List α) (r2 : List β)
    (h1 : SortedBy p.comp p.proj1 r1) (h2 : SortedBy p.comp p.proj2 r2) :
    ∃ out, collect p r1.length (begin p r1 r2) = .ok (some out) ∧
      (∀ x ∈ out, x.1 ∈ r1 ∧ x.2 ∈ r2 ∧ Equiv p.comp (p.proj1 x.1) (p.proj2 x.2) = true) ∧
      SortedBy p.comp (fun x : α × β => p.proj1 x.1) out ∧
      (∀ k, out.filter (fun x => Equiv p.comp (p.proj1 x.1) k) =
        List.zip (r1.filter (fun x => Equiv p.comp (p.proj1 x) k))
          (r2.filter (fun y => Equiv p.comp (p.proj2 y) k))) :=
  ⟨inter p r1 r2, collect_inter p _ r1 r2 (Nat.le_refl _), fun x hx => inter_mem p r1 r2 x hx,
    inter_sorted p r1 r2 h1, inter_filter hw r1 r2 h1 h2⟩

/-- C28. For unsorted input the iteration still terminates without undefined behaviour and all
pairs have equivalent keys. -/
theorem intersection_safe (p : Params α β κ) (r1 : List α) (r2 : List β) :
    ∃ out, collect p r1.length (begin p r1 r2) = .ok (some out) ∧
      ∀ x ∈ out, x.1 ∈ r1 ∧ x.2 ∈ r2 ∧ Equiv p.comp (p.proj1 x.1) (p.proj2 x.2) = true :=
  ⟨inter p r1 r2, collect_inter p _ r1 r2 (Nat.le_refl _), fun x hx => inter_mem p r1 r2 x hx⟩

/-- Non-vacuity: `<` on naturals is a strict weak order, and a concrete intersection. -/
example : StrictWeak (fun a b : Nat => decide (a < b)) :=
  ⟨fun a b h => by simp at h ⊢; omega, fun a b c h => by simp at h ⊢; omega⟩

example : SortedBy (fun a b : Nat => decide (a < b)) id [1, 2, 2, 5] ∧
    inter (⟨fun a b => decide (a < b), id, fun x : Nat × Nat => x.1⟩ : Params Nat (Nat × Nat) Nat)
      [1, 2, 2, 5] [(2, 10), (3, 11), (5, 12), (5, 13)] = [(2, (2, 10)), (5, (5, 12))] := by
  constructor
  · simp [SortedBy]
  · simp [inter]

end Guanaqo.SetInter
