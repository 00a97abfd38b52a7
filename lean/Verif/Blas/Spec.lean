import Verif.Blas.Contract
import Mathlib.LinearAlgebra.Matrix.Defs
import Mathlib.Data.Matrix.Mul

/-! # Specification (C66): matrices of views

The matrices are those of Mathlib, with its product and transpose. -/

namespace Guanaqo.Blas

open Guanaqo.MatView (View)

variable {α : Type} [Field α]

/-- A view of a matrix with `r` rows and `c` columns in memory, with rows next to each other. The distance between the columns is what
BLAS allows. -/
structure Is (v : View) (r c : ℕ) (m : Mem α) : Prop where
  rows : v.rows = r
  cols : v.cols = c
  inner : v.inner = 1
  outer : max 1 (r : Int) ≤ v.outer
  backed : v.Backed m

/-- The matrix. -/
def mat (v : View) (r c : ℕ) (m : Mem α) : Matrix (Fin r) (Fin c) α := fun i j => val m (v.addr i j)

/-- The lower triangle, with zeros above. -/
def lower {n : ℕ} (A : Matrix (Fin n) (Fin n) α) : Matrix (Fin n) (Fin n) α := fun i j => if j ≤ i then A i j else 0

/-- No element in common. -/
def Separate (v w : View) : Prop := ∀ a, v.IsElemAddr (fun _ _ => True) a → ¬ w.IsElemAddr (fun _ _ => True) a

/-- Nothing has changed, except for the values of elements of the view. -/
def OnlyIn (v : View) (m m' : Mem α) : Prop :=
  (∀ a, ¬ v.IsElemAddr (fun _ _ => True) a → m' a = m a) ∧ ∀ a, v.IsElemAddr (fun _ _ => True) a → ∃ x, m' a = some x

/-- Nothing has changed, except for the values of elements in the lower triangle of the view. -/
def OnlyInLower (v : View) (m m' : Mem α) : Prop :=
  (∀ a, ¬ v.IsElemAddr (fun r c => c ≤ r) a → m' a = m a) ∧ ∀ a, v.IsElemAddr (fun r c => c ≤ r) a → ∃ x, m' a = some x

/-- Two matrices have the same lower triangle. -/
def LowerEq {n : ℕ} (A B : Matrix (Fin n) (Fin n) α) : Prop := ∀ i j, j ≤ i → A i j = B i j

end Guanaqo.Blas
