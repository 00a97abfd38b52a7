import Verif.Base

/-!
# The contract of `std::sort` / `std::ranges::sort`

The standard library's sorting algorithm is not modelled; every theorem about code that sorts
holds for every function meeting this contract.
-/

namespace Guanaqo

/-- `comp` is a strict weak order (the precondition of the standard sorting and set
algorithms). -/
structure StrictWeak {κ : Type} (comp : κ → κ → Bool) : Prop where
  asymm : ∀ a b, comp a b = true → comp b a = false
  negTrans : ∀ a b c, comp a c = true → comp a b = true ∨ comp b c = true

/-- What `std::sort(first, last, comp)` guarantees for a strict weak order: a permutation of the
input in which no element comes before a smaller one. -/
def SortContract (sort : {α : Type} → (α → α → Bool) → List α → List α) : Prop :=
  ∀ {α : Type} (comp : α → α → Bool) (l : List α), StrictWeak comp →
    (sort comp l).Perm l ∧ (sort comp l).Pairwise (fun x y => comp y x = false)

/-- Insertion into a sorted list. -/
def insertBy {α : Type} (comp : α → α → Bool) (x : α) : List α → List α
  | [] => [x]
  | y :: l => if comp y x then y :: insertBy comp x l else x :: y :: l

/-- Insertion sort, as an instance of the contract. -/
def someSort {α : Type} (comp : α → α → Bool) : List α → List α
  | [] => []
  | x :: l => insertBy comp x (someSort comp l)

theorem insertBy_perm {α : Type} (comp : α → α → Bool) (x : α) (l : List α) :
    (insertBy comp x l).Perm (x :: l) := by
  induction l with
  | nil => exact List.Perm.refl _
  | cons y l ih =>
    unfold insertBy
    split
    · exact (ih.cons y).trans (List.Perm.swap x y l)
    · exact List.Perm.refl _

/-- The contract is satisfiable. -/
theorem someSort_contract : SortContract @someSort := by
  intro α comp l h
  induction l with
  | nil => exact ⟨List.Perm.refl _, List.Pairwise.nil⟩
  | cons x l ih =>
    refine ⟨(insertBy_perm comp x _).trans (ih.1.cons x), ?_⟩
    have hs := ih.2
    change (insertBy comp x (someSort comp l)).Pairwise _
    generalize someSort comp l = s at hs
    induction s with
    | nil => simp [insertBy]
    | cons y s ihs =>
      have hs' := List.pairwise_cons.1 hs
      unfold insertBy
      split
      · rename_i hyx
        refine List.pairwise_cons.2 ⟨?_, ihs hs'.2⟩
        intro z hz
        rcases List.mem_cons.1 ((insertBy_perm comp x s).mem_iff.1 hz) with rfl | hz
        · exact h.asymm _ _ hyx
        · exact hs'.1 z hz
      · rename_i hyx
        have hyx : comp y x = false := by simpa using hyx
        refine List.pairwise_cons.2 ⟨?_, hs⟩
        intro z hz
        rcases List.mem_cons.1 hz with rfl | hz
        · exact hyx
        · cases hzx : comp z x with
          | false => rfl
          | true =>
            rcases h.negTrans z y x hzx with h' | h'
            · rw [hs'.1 z hz] at h'; cases h'
            · rw [hyx] at h'; cases h'

/-- A comparator defined by a key into a strict weak order is a strict weak order. -/
theorem StrictWeak.comap {κ α : Type} {comp : κ → κ → Bool} (h : StrictWeak comp) (f : α → κ) :
    StrictWeak (fun a b => comp (f a) (f b)) :=
  ⟨fun _ _ => h.asymm _ _, fun _ _ _ => h.negTrans _ _ _⟩

end Guanaqo
