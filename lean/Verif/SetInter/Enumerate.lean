import Verif.SetInter.Compose
import Verif.Misc.Ranges

/-!
# C155: `enumerate` and `iter_set_intersection` together (enumerate.hpp, set-intersection.hpp)

`enumerate(iter_set_intersection(a, b))` numbers the common elements; `iter_set_intersection(enumerate(a), enumerate(b), comp, proj₁, proj₂)` with projections that look at the elements gives the positions of the
common elements in both ranges.
-/

namespace Guanaqo.SetInter.Enumerate

open Guanaqo.SetInter Guanaqo.SetInter.Compose
open Guanaqo.Ranges (EnumIt enumIter enumBegin)

variable {α β γ κ σ τ : Type}

/-! ## Model -/

/-- The iterators of C147 as those of C71, and back (the sentinel's comparison is part of `deref` in C147). -/
def iterOf (C : Cursor σ γ) : Ranges.Iter σ γ where
  atEnd s := (C.deref s).isNone
  deref s := C.deref s
  next s := match C.next s with
    | .ok s => some s
    | .error _ => none

def cursorOf (I : Ranges.Iter σ γ) : Cursor σ γ where
  deref s := if I.atEnd s then none else I.deref s
  next s := match I.next s with
    | some s => .ok s
    | none => .error .ub

/-- The iterators of `enumerate` over iterators of any type: `enumIter` of C71 (enumerate.hpp:22-53), with a difference type of `w` bits. -/
def enumCursor (w : Nat) (C : Cursor σ γ) : Cursor (EnumIt σ) (Int × γ) := cursorOf (enumIter w (iterOf C))

/-! ## Specification -/

/-- The elements with their positions. -/
def numbered (l : List γ) : List (Int × γ) := l.zipIdx.map fun x => ((x.2 : Int), x.1)

/-! ## Proofs -/

/-- Numbered from `k` on. -/
def numberedFrom (k : Nat) (l : List γ) : List (Int × γ) := (l.zipIdx k).map fun x => ((x.2 : Int), x.1)

theorem visits_enum (w : Nat) (C : Cursor σ γ) {s : σ} {l : List γ} (h : Visits C s l) : ∀ (k : Nat), (k : Int) + l.length < 2 ^ (w - 1) →
    Visits (enumCursor w C) ⟨k, s⟩ (numberedFrom k l) := by
  induction h with
  | done h =>
    intro k _
    exact .done (by simp [enumCursor, cursorOf, enumIter, iterOf, h])
  | @more s s' x l h1 h2 _ ih =>
    intro k hk
    simp only [List.length_cons, Int.natCast_add, Int.natCast_one] at hk
    have := ih (k + 1) (by omega)
    refine .more (s' := ⟨((k + 1 : Nat) : Int), s'⟩) ?_ ?_ this
    · simp [enumCursor, cursorOf, enumIter, iterOf, h1]
    · simp only [enumCursor, cursorOf, enumIter, iterOf, h2, Option.bind_some]
      rw [if_pos (by omega)]; rfl

/-- C155: `enumerate` over the intersection of any two ranges visits the common elements (of C28) with the numbers 0, 1, .... -/
theorem enumerate_common (w : Nat) (C : Cursor σ α) (D : Cursor τ β) (p : Params α β κ) {s : σ} {t : τ} {l1 : List α} {l2 : List β} (h1 : Visits C s l1) (h2 : Visits D t l2) (out : List (α × β))
    (hout : collect p l1.length (begin p l1 l2) = .ok (some out)) (hw : (out.length : Int) < 2 ^ (w - 1)) :
    ∃ F s', Compose.advance C D p F s t = .ok s' ∧ Visits (enumCursor w (interCursor C D p F)) (enumBegin s') (numbered out) := by
  obtain ⟨s', out', g1, g2, g3⟩ := any_ranges C D p h1 h2
  rw [hout] at g3
  injection g3 with g3; injection g3 with g3
  subst g3
  exact ⟨_, s', g1, visits_enum w _ g2 0 (by omega)⟩

theorem inter_map {α' β' : Type} (comp : κ → κ → Bool) (π₁ : α → κ) (π₂ : β → κ) (f : α' → α) (g : β' → β) (l1 : List α') (l2 : List β') :
    (inter ⟨comp, fun x => π₁ (f x), fun y => π₂ (g y)⟩ l1 l2).map (fun x => (f x.1, g x.2)) = inter ⟨comp, π₁, π₂⟩ (l1.map f) (l2.map g) := by
  fun_induction inter (⟨comp, fun x => π₁ (f x), fun y => π₂ (g y)⟩ : Params α' β' κ) l1 l2 with
  | case1 a as b bs h ih => simp only [List.map_cons]; rw [inter, if_pos h]; exact ih
  | case2 a as b bs h1 h2 ih => simp only [List.map_cons]; rw [inter, if_neg h1, if_pos h2]; exact ih
  | case3 a as b bs h1 h2 ih => simp only [List.map_cons]; rw [inter, if_neg h1, if_neg h2, ih]
  | case4 l1 l2 h =>
    cases l1 with
    | nil => simp [inter]
    | cons a as =>
      cases l2 with
      | nil => simp [inter]
      | cons b bs => exact absurd rfl (h a as b bs rfl)

theorem inter_sublist (p : Params α β κ) (l1 : List α) (l2 : List β) : ((inter p l1 l2).map (·.1)).Sublist l1 ∧ ((inter p l1 l2).map (·.2)).Sublist l2 := by
  fun_induction inter p l1 l2 with
  | case1 a as b bs h ih => exact ⟨ih.1.cons _, ih.2⟩
  | case2 a as b bs h1 h2 ih => exact ⟨ih.1, ih.2.cons _⟩
  | case3 a as b bs h1 h2 ih => exact ⟨ih.1.cons_cons _, ih.2.cons_cons _⟩
  | case4 l1 l2 h => exact ⟨List.nil_sublist _, List.nil_sublist _⟩

theorem numbered_mem {l : List γ} {i : Int} {x : γ} (h : (i, x) ∈ numbered l) : ∃ n : Nat, i = n ∧ l[n]? = some x := by
  simp only [numbered, List.mem_map, Prod.mk.injEq] at h
  obtain ⟨⟨y, n⟩, hm, rfl, rfl⟩ := h
  exact ⟨n, rfl, List.mk_mem_zipIdx_iff_getElem?.1 hm⟩

theorem numberedFrom_pairwise (l : List γ) : ∀ k, (numberedFrom k l).Pairwise fun x y => x.1 < y.1 := by
  induction l with
  | nil => intro k; exact .nil
  | cons x l ih =>
    intro k
    simp only [numberedFrom, List.zipIdx_cons, List.map_cons, List.pairwise_cons]
    refine ⟨fun y hy => ?_, ih (k + 1)⟩
    simp only [List.mem_map] at hy
    obtain ⟨⟨z, n⟩, hm, rfl⟩ := hy
    have := (List.mem_zipIdx hm).1
    simp only
    omega

theorem numberedFrom_snd (l : List γ) : ∀ k, (numberedFrom k l).map (·.2) = l := by
  induction l with
  | nil => intro k; rfl
  | cons x l ih => intro k; simp only [numberedFrom, List.zipIdx_cons, List.map_cons]; exact congrArg _ (ih (k + 1))

/-- C155: the intersection of `enumerate(r1)` and `enumerate(r2)`, with projections that look at the elements, visits the common elements of C28 with their positions: element `i` of `r1` and element `j` of `r2`,
with `i` and with `j` increasing, i.e. no element is visited twice. -/
theorem positions_of_common (w : Nat) (comp : κ → κ → Bool) (π₁ : α → κ) (π₂ : β → κ) (r1 : List α) (r2 : List β) (hw1 : (r1.length : Int) < 2 ^ (w - 1)) (hw2 : (r2.length : Int) < 2 ^ (w - 1)) :
    ∃ F s out, Compose.advance (enumCursor w (listCursor α)) (enumCursor w (listCursor β)) ⟨comp, fun x => π₁ x.2, fun y => π₂ y.2⟩ F (enumBegin r1) (enumBegin r2) = .ok s ∧
      Visits (interCursor (enumCursor w (listCursor α)) (enumCursor w (listCursor β)) ⟨comp, fun x => π₁ x.2, fun y => π₂ y.2⟩ F) s out ∧
      Result ⟨comp, π₁, π₂⟩ r1 r2 (out.map fun x => (x.1.2, x.2.2)) ∧
      (∀ i x j y, ((i, x), (j, y)) ∈ out → (∃ n : Nat, i = n ∧ r1[n]? = some x) ∧ ∃ n : Nat, j = n ∧ r2[n]? = some y) ∧
      (out.Pairwise fun a b => a.1.1 < b.1.1 ∧ a.2.1 < b.2.1) := by
  obtain ⟨s, out, g1, g2, g3⟩ := any_ranges (enumCursor w (listCursor α)) (enumCursor w (listCursor β)) ⟨comp, fun x => π₁ x.2, fun y => π₂ y.2⟩
    (visits_enum w _ (visits_list r1) 0 (by omega)) (visits_enum w _ (visits_list r2) 0 (by omega))
  have ho := (result_iff _ _ _ _).1 g3
  refine ⟨_, s, out, g1, g2, ?_, ?_, ?_⟩
  · rw [result_iff, ho, inter_map comp π₁ π₂ Prod.snd Prod.snd, numberedFrom_snd, numberedFrom_snd]
  · intro i x j y h
    rw [ho] at h
    have hs := inter_sublist (⟨comp, fun x => π₁ x.2, fun y => π₂ y.2⟩ : Params (Int × α) (Int × β) κ) (numberedFrom 0 r1) (numberedFrom 0 r2)
    exact ⟨numbered_mem (hs.1.subset (List.mem_map_of_mem (f := (·.1)) h)), numbered_mem (hs.2.subset (List.mem_map_of_mem (f := (·.2)) h))⟩
  · rw [ho]
    have hs := inter_sublist (⟨comp, fun x => π₁ x.2, fun y => π₂ y.2⟩ : Params (Int × α) (Int × β) κ) (numberedFrom 0 r1) (numberedFrom 0 r2)
    have a := List.pairwise_map.1 ((numberedFrom_pairwise r1 0).sublist hs.1)
    have b := List.pairwise_map.1 ((numberedFrom_pairwise r2 0).sublist hs.2)
    exact List.Pairwise.and a b

/-! ## Non-vacuity -/

example : numbered ["a", "b"] = [(0, "a"), (1, "b")] := by decide
example : Result (⟨fun a b => decide (a < b), id, id⟩ : Params Nat Nat Nat) [1, 3, 5, 7] [3, 4, 7] [(3, 3), (7, 7)] := by
  rw [result_iff]; simp [inter]

end Guanaqo.SetInter.Enumerate
