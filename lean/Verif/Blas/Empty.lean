import Verif.Blas.Ref
import Mathlib.Data.Rat.Cast.Defs
import Mathlib.Tactic.NormNum

/-! # Empty operands (C66)

The theorems of `Props.lean` ask for a distance between columns of at least one, and for `gemv` they ask for operands that are not empty. The
statements here do without: any view with rows next to each other and columns that do not overlap, in particular `MatrixView` with its
default outer stride (`rows`, so zero for a view without rows). They are false. -/

namespace Guanaqo.Blas

open Guanaqo.MatView (View)
open Finset Matrix

/-- A view of an `r` by `c` matrix with rows next to each other, and columns that do not overlap. -/
structure IsView {α : Type} (v : View) (r c : ℕ) (m : Mem α) : Prop where
  rows : v.rows = r
  cols : v.cols = c
  inner : v.inner = 1
  outer : (r : Int) ≤ v.outer
  backed : v.Backed m

/-- `xgemm_NN` gives `alpha A B + beta C` for all conforming views. -/
def GemmFull : Prop := ∀ (α : Type) [Field α] (L : Lib α), L.Conforms → ∀ (A B C : View) (r k c : ℕ) (alpha beta : α) (m : Mem α),
  IsView A r k m → IsView B k c m → IsView C r c m → Separate C A → Separate C B →
  ∃ m', xgemm_NN L alpha A B beta C m = .ok m' ∧ mat C r c m' = alpha • (mat A r k m * mat B k c m) + beta • mat C r c m ∧ OnlyIn C m m'

/-- `xgemv_N` gives `alpha A x + beta y` for all conforming views. -/
def GemvFull : Prop := ∀ (α : Type) [Field α] (L : Lib α), L.Conforms → ∀ (A x y : View) (r k : ℕ) (alpha beta : α) (m : Mem α),
  IsView A r k m → IsView x k 1 m → IsView y r 1 m → Separate y A → Separate y x →
  ∃ m', xgemv_N L alpha A x beta y m = .ok m' ∧ mat y r 1 m' = alpha • (mat A r k m * mat x k 1 m) + beta • mat y r 1 m ∧ OnlyIn y m m'

/-- `xpotrf_L` throws only if there is no factorisation. -/
def PotrfFull : Prop := ∀ (α : Type) [Field α] (L : Lib α), L.Conforms → ∀ (A : View) (n : ℕ) (m : Mem α), IsView A n n m →
  ∀ info m', xpotrf_L L A m = .lapackError info m' → ¬ ∃ X : Matrix (Fin n) (Fin n) α, LowerEq (lower X * (lower X)ᵀ) (mat A n n m)

/-- One element, with value one. -/
def oneCell : Mem ℚ := fun a => if a = 0 then some 1 else none

theorem oneCell_backed : View.Backed { data := 0, rows := 1, cols := 1, inner := 1, outer := 1 } oneCell := by
  rintro r c ⟨h1, h2, h3, h4⟩
  have e1 : r = 0 := by dsimp only at *; omega
  have e2 : c = 0 := by dsimp only at *; omega
  subst e1 e2
  exact ⟨1, by simp [oneCell]⟩

theorem separate_empty {v w : View} (h : w.rows = 0 ∨ w.cols = 0) : Separate v w := by
  rintro a - ⟨r, c, ⟨h1, h2, h3, h4⟩, -⟩
  omega

theorem backed_empty {α : Type} {w : View} {m : Mem α} (h : w.rows = 0 ∨ w.cols = 0) : w.Backed m := by
  rintro r c ⟨h1, h2, h3, h4⟩
  omega

/-- With `A` of size 1×0 and `B` of size 0×1 (with its default outer stride, 0), the leading dimension of `B` is rejected; `C` should have been
multiplied by `beta`. -/
theorem not_gemmFull : ¬ GemmFull := by
  intro h
  obtain ⟨m', e, -⟩ := h ℚ (ref ℚ) ref_conforms
    (View.withDefaultOuter 0 1 0 1) (View.withDefaultOuter 0 0 1 1) { data := 0, rows := 1, cols := 1, inner := 1, outer := 1 } 1 0 1 1 2 oneCell
    ⟨rfl, rfl, rfl, by decide, backed_empty (Or.inr rfl)⟩ ⟨rfl, rfl, rfl, by decide, backed_empty (Or.inl rfl)⟩
    ⟨rfl, rfl, rfl, by decide, oneCell_backed⟩ (separate_empty (Or.inr rfl)) (separate_empty (Or.inl rfl))
  unfold xgemm_NN xgemm at e
  rw [assume_ok (by decide)] at e
  simp only [ref, Blas.guard] at e
  rw [if_neg] at e
  · cases e
  · rintro ⟨-, -, -, -, h5, -⟩
    exact absurd h5 (by simp [OpLdOk, LdOk, View.withDefaultOuter])

/-- With a matrix of size 1×0, `y` should be multiplied by `beta`; BLAS returns at once. -/
theorem not_gemvFull : ¬ GemvFull := by
  intro h
  obtain ⟨m', e, hm, -⟩ := h ℚ (ref ℚ) ref_conforms
    (View.withDefaultOuter 0 1 0 1) (View.withDefaultOuter 0 0 1 1) { data := 0, rows := 1, cols := 1, inner := 1, outer := 1 } 1 0 1 2 oneCell
    ⟨rfl, rfl, rfl, by decide, backed_empty (Or.inr rfl)⟩ ⟨rfl, rfl, rfl, by decide, backed_empty (Or.inl rfl)⟩
    ⟨rfl, rfl, rfl, by decide, oneCell_backed⟩ (separate_empty (Or.inr rfl)) (separate_empty (Or.inl rfl))
  unfold xgemv_N xgemv at e
  rw [assume_ok (by decide)] at e
  have g := (ref_conforms (α := ℚ)).gemv_empty .col .no 1 0 1 0 1 0 1 2 0 1 oneCell (by decide) (by decide) (Or.inr rfl) (by decide) (by decide)
    (by simp [LdOk])
  cases g.symm.trans e
  have := congrFun (congrFun hm 0) 0
  simp [mat, val, View.addr, oneCell, Matrix.mul_apply] at this

/-- A matrix of size 0×0 (with its default outer stride, 0) has a Cholesky factorisation, but `lapack_error` is thrown. -/
theorem not_potrfFull : ¬ PotrfFull := by
  intro h
  refine h ℚ (ref ℚ) ref_conforms (View.withDefaultOuter 0 0 0 1) 0 oneCell ⟨rfl, rfl, rfl, by decide, backed_empty (Or.inl rfl)⟩ (-4) oneCell ?_
    ⟨fun i => i.elim0, fun i => i.elim0⟩
  unfold xpotrf_L xpotrf
  rw [assume_ok (by decide)]
  simp [ref, LdOk, View.withDefaultOuter, throwOnErr]

/-! A case with operands of 2×2, 2×2 (in a 3-row array) and 2×2. -/

def exA : View := { data := 0, rows := 2, cols := 2, inner := 1, outer := 2 }
def exB : View := { data := 5, rows := 2, cols := 2, inner := 1, outer := 3 }
def exC : View := { data := 20, rows := 2, cols := 2, inner := 1, outer := 2 }
def exMem : Mem ℚ := fun a => some a

theorem exA_is : Is exA 2 2 exMem := ⟨rfl, rfl, rfl, by decide, fun _ _ _ => ⟨_, rfl⟩⟩
theorem exB_is : Is exB 2 2 exMem := ⟨rfl, rfl, rfl, by decide, fun _ _ _ => ⟨_, rfl⟩⟩
theorem exC_is : Is exC 2 2 exMem := ⟨rfl, rfl, rfl, by decide, fun _ _ _ => ⟨_, rfl⟩⟩

theorem ex_separate1 : Separate exC exA := by
  rintro a ⟨r, c, ⟨h1, h2, h3, h4⟩, -, e⟩ ⟨r', c', ⟨g1, g2, g3, g4⟩, -, e'⟩
  simp only [exA, exC] at *; omega

theorem ex_separate2 : Separate exC exB := by
  rintro a ⟨r, c, ⟨h1, h2, h3, h4⟩, -, e⟩ ⟨r', c', ⟨g1, g2, g3, g4⟩, -, e'⟩
  simp only [exB, exC] at *; omega

/-- Element (1, 0) of `A B` for `A = [0 2; 1 3]`, `B = [5 8; 6 9]`. -/
example : ∃ m', xgemm_NN (ref ℚ) 1 exA exB 0 exC exMem = .ok m' ∧ m' 21 = some 23 := by
  obtain ⟨m', e, hm, -⟩ := xgemm_NN_partial ref_conforms 1 0 exA_is exB_is exC_is ex_separate1 ex_separate2
  refine ⟨m', e, ?_⟩
  have := congrFun (congrFun hm 1) 0
  simp [mat, val, View.addr, exMem, exA, exB, exC, Matrix.mul_apply, Fin.sum_univ_two] at this
  cases h : m' 21 with
  | none => simp [h] at this; norm_num at this
  | some v => simp [h] at this; rw [this]; norm_num

end Guanaqo.Blas
