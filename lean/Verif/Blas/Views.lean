import Verif.Blas.Spec

/-! # From addresses to views -/

namespace Guanaqo.Blas

open Guanaqo.MatView (View)
open Finset Matrix

variable {α : Type} [Field α]

set_option linter.unusedSectionVars false

theorem addr_eq {v : View} (h : v.inner = 1) (i j : ℕ) : v.addr i j = cell .col v.data v.outer i j := by
  simp only [View.addr, cell, h]; ring

/-- `op` of the matrix of a view. -/
def opMat (t : Trans) (v : View) (r c : ℕ) (m : Mem α) : Matrix (Fin r) (Fin c) α := fun i j => val m (opCell .col t v.data v.outer i j)

theorem opMat_no {v : View} {r c : ℕ} {m : Mem α} (h : v.inner = 1) : opMat .no v r c m = mat v r c m := by
  funext i j; simp only [opMat, mat, opCell, addr_eq h]

theorem opMat_yes {v : View} {r c : ℕ} {m : Mem α} (h : v.inner = 1) : opMat .yes v r c m = (mat v c r m)ᵀ := by
  funext i j; simp only [opMat, mat, opCell, Matrix.transpose_apply, addr_eq h]

theorem Is.isElem {v : View} {r c : ℕ} {m : Mem α} (h : Is v r c m) {p : Int → Int → Prop} {a : Int} :
    v.IsElemAddr p a ↔ ∃ i j : ℕ, i < r ∧ j < c ∧ p i j ∧ a = cell .col v.data v.outer i j := by
  constructor
  · rintro ⟨x, y, ⟨h1, h2, h3, h4⟩, hp, rfl⟩
    rw [h.rows] at h2; rw [h.cols] at h4
    obtain ⟨i, rfl⟩ := Int.eq_ofNat_of_zero_le h1
    obtain ⟨j, rfl⟩ := Int.eq_ofNat_of_zero_le h3
    exact ⟨i, j, by exact_mod_cast h2, by exact_mod_cast h4, hp, by simp [cell, h.inner]⟩
  · rintro ⟨i, j, h1, h2, hp, rfl⟩
    exact ⟨i, j, ⟨by omega, by rw [h.rows]; omega, by omega, by rw [h.cols]; omega⟩, hp, by simp [cell, h.inner]⟩

theorem Is.alloc {v : View} {r c : ℕ} {m : Mem α} (h : Is v r c m) : Alloc (rect r c) (cell .col v.data v.outer) m := by
  rintro i j ⟨h1, h2⟩
  obtain ⟨x, hx⟩ := h.backed i j ⟨by omega, by rw [h.rows]; exact h1, by omega, by rw [h.cols]; exact h2⟩
  exact ⟨x, by rw [← hx]; simp [cell, h.inner]⟩

theorem Is.alloc_op {v : View} {r c : ℕ} {m : Mem α} (t : Trans) (h : Is v (if t = .no then r else c) (if t = .no then c else r) m) :
    Alloc (rect r c) (opCell .col t v.data v.outer) m := by
  cases t with
  | no => exact h.alloc
  | yes => rintro i j ⟨h1, h2⟩; exact h.alloc j i ⟨h2, h1⟩

theorem Is.alloc_tri {v : View} {n : ℕ} {m : Mem α} (h : Is v n n m) : Alloc (tri .lower n) (cell .col v.data v.outer) m := by
  rintro i j ⟨h1, h2⟩
  exact h.alloc i j ⟨h1, by omega⟩

theorem Is.opLdOk {v : View} {r c : ℕ} {m : Mem α} (t : Trans) (h : Is v (if t = .no then r else c) (if t = .no then c else r) m) :
    OpLdOk .col t r c v.outer := by
  cases t with
  | no => exact h.outer
  | yes => exact h.outer

theorem Separate.apart {v w : View} {r c r' c' : ℕ} {m : Mem α} (hs : Separate v w) (hv : Is v r c m) (hw : Is w r' c' m) {S S' : ℕ → ℕ → Prop}
    (h1 : ∀ i j, S i j → i < r ∧ j < c) (h2 : ∀ i j, S' i j → i < r' ∧ j < c') :
    Apart S (cell .col v.data v.outer) S' (cell .col w.data w.outer) := by
  intro i j i' j' a b e
  refine hs _ (hv.isElem.2 ⟨i, j, (h1 i j a).1, (h1 i j a).2, trivial, rfl⟩) ?_
  rw [e]
  exact hw.isElem.2 ⟨i', j', (h2 i' j' b).1, (h2 i' j' b).2, trivial, rfl⟩

theorem Separate.apart_op {v w : View} {r c r' c' : ℕ} {m : Mem α} (t : Trans) (hs : Separate v w) (hv : Is v r c m)
    (hw : Is w (if t = .no then r' else c') (if t = .no then c' else r') m) {S : ℕ → ℕ → Prop}
    (h1 : ∀ i j, S i j → i < r ∧ j < c) :
    Apart S (cell .col v.data v.outer) (rect r' c') (opCell .col t w.data w.outer) := by
  cases t with
  | no => exact hs.apart hv hw h1 (by rintro i j ⟨a, b⟩; exact ⟨by simpa using a, by simpa using b⟩)
  | yes =>
    intro i j i' j' a b
    exact hs.apart hv hw h1 (S' := rect c' r') (by rintro i j ⟨a, b⟩; exact ⟨by simpa using a, by simpa using b⟩) i j j' i' a ⟨b.2, b.1⟩

theorem rect_lt {r c : ℕ} : ∀ i j, rect r c i j → i < r ∧ j < c := by
  rintro i j ⟨a, b⟩; exact ⟨by exact_mod_cast a, by exact_mod_cast b⟩

theorem tri_lt {n : ℕ} : ∀ i j, tri .lower n i j → i < n ∧ j < n := by
  rintro i j ⟨a, b⟩; omega

/-- What has been written in a view. -/
theorem Writes.mat_eq {v : View} {r c : ℕ} {m m' : Mem α} {f : ℕ → ℕ → α} (hv : Is v r c m)
    (h : Writes (rect r c) (cell .col v.data v.outer) f m m') : (∀ i j, mat v r c m' i j = f i j) ∧ OnlyIn v m m' := by
  constructor
  · intro i j
    simp only [mat, addr_eq hv.inner, val, h.1 i j ⟨by exact_mod_cast i.2, by exact_mod_cast j.2⟩, Option.getD_some]
  · refine ⟨fun a ha => ?_, fun a ha => ?_⟩
    · apply h.2
      rintro i j hij rfl
      exact ha (hv.isElem.2 ⟨i, j, (rect_lt i j hij).1, (rect_lt i j hij).2, trivial, rfl⟩)
    · obtain ⟨i, j, hi, hj, _, rfl⟩ := hv.isElem.1 ha
      exact ⟨_, h.1 i j ⟨by exact_mod_cast hi, by exact_mod_cast hj⟩⟩

/-- What has been written in the lower triangle of a view. -/
theorem Writes.lower_eq {v : View} {n : ℕ} {m m' : Mem α} {f : ℕ → ℕ → α} (hv : Is v n n m)
    (h : Writes (tri .lower n) (cell .col v.data v.outer) f m m') :
    LowerEq (mat v n n m') (fun (i j : Fin n) => f i j) ∧ OnlyInLower v m m' := by
  constructor
  · intro i j hij
    simp only [mat, addr_eq hv.inner, val, h.1 i j ⟨by exact_mod_cast i.2, hij⟩, Option.getD_some]
  · refine ⟨fun a ha => ?_, fun a ha => ?_⟩
    · apply h.2
      rintro i j hij rfl
      exact ha (hv.isElem.2 ⟨i, j, (tri_lt i j hij).1, (tri_lt i j hij).2, by exact_mod_cast hij.2, rfl⟩)
    · obtain ⟨i, j, hi, hj, hij, rfl⟩ := hv.isElem.1 ha
      exact ⟨_, h.1 i j ⟨by exact_mod_cast hi, by exact_mod_cast hij⟩⟩

theorem Changes.onlyIn {v : View} {r c : ℕ} {m m' : Mem α} (hv : Is v r c m)
    (h : Changes (rect r c) (cell .col v.data v.outer) m m') : OnlyIn v m m' := by
  refine ⟨fun a ha => ?_, fun a ha => ?_⟩
  · apply h.2
    rintro i j hij rfl
    exact ha (hv.isElem.2 ⟨i, j, (rect_lt i j hij).1, (rect_lt i j hij).2, trivial, rfl⟩)
  · obtain ⟨i, j, hi, hj, _, rfl⟩ := hv.isElem.1 ha
    exact h.1 i j ⟨by exact_mod_cast hi, by exact_mod_cast hj⟩

theorem Changes.onlyInLower {v : View} {n : ℕ} {m m' : Mem α} (hv : Is v n n m)
    (h : Changes (tri .lower n) (cell .col v.data v.outer) m m') : OnlyInLower v m m' := by
  refine ⟨fun a ha => ?_, fun a ha => ?_⟩
  · apply h.2
    rintro i j hij rfl
    exact ha (hv.isElem.2 ⟨i, j, (tri_lt i j hij).1, (tri_lt i j hij).2, by exact_mod_cast hij.2, rfl⟩)
  · obtain ⟨i, j, hi, hj, hij, rfl⟩ := hv.isElem.1 ha
    exact h.1 i j ⟨by exact_mod_cast hi, by exact_mod_cast hij⟩

/-- `op` of the lower triangle. -/
def opLower (t : Trans) {n : ℕ} (A : Matrix (Fin n) (Fin n) α) : Matrix (Fin n) (Fin n) α :=
  match t with
  | .no => lower A
  | .yes => (lower A)ᵀ

theorem triVal_lower {v : View} {n : ℕ} {m : Mem α} (h : v.inner = 1) (i j : Fin n) :
    triVal .col .lower .nonUnit m v.data v.outer i j = lower (mat v n n m) i j := by
  simp only [triVal, lower, mat, addr_eq h]
  by_cases hij : (i : ℕ) = j
  · have : j ≤ i := by rw [Fin.le_def]; omega
    rw [if_pos hij, if_pos this]
  · rw [if_neg hij]
    by_cases hlt : (j : ℕ) < i
    · have : j ≤ i := by rw [Fin.le_def]; omega
      rw [if_pos hlt, if_pos this]
    · have : ¬ j ≤ i := by rw [Fin.le_def]; omega
      rw [if_neg hlt, if_neg this]

theorem opTri_lower {v : View} {n : ℕ} {m : Mem α} (h : v.inner = 1) (t : Trans) (i j : Fin n) :
    opTri .col .lower t .nonUnit m v.data v.outer i j = opLower t (mat v n n m) i j := by
  cases t with
  | no => exact triVal_lower h i j
  | yes => exact triVal_lower h j i

/-- A column vector as a view. -/
theorem Is.vec {v : View} {n : ℕ} {m : Mem α} (_h : Is v n 1 m) (i j : ℕ) (hj : rect n 1 i j) :
    cell .row v.data 1 i j = cell .col v.data v.outer i j := by
  have : j = 0 := by have := hj.2; omega
  subst this; simp [cell]

theorem Is.regular {v : View} {n : ℕ} {m : Mem α} (h : v.inner = 1) (hd : ∀ i, mat v n n m i i ≠ 0) :
    Regular .col .nonUnit n m v.data v.outer := by
  intro _ i hi
  have := hd ⟨i, by exact_mod_cast hi⟩
  simpa [mat, addr_eq h] using this

end Guanaqo.Blas
