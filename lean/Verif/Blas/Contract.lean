import Verif.Blas.Model
import Mathlib.Algebra.BigOperators.Fin
import Mathlib.Algebra.Field.Defs
import Mathlib.Algebra.BigOperators.Ring.Finset

/-! # What the BLAS and LAPACK routines do

The contract of the library, for all layouts, transpositions, triangles and sides, in terms of addresses. It is what the wrappers are
proved against, and it is not proved of any library; `Ref.lean` shows that it can be met. The elements are those of a field
(rounding is left out). As in the standard:

* a leading dimension that is smaller than `max(1, size)` is an error, and nothing is said about the result;
* the operand that is written must not overlap with those that are read;
* only the given triangle of a triangular or symmetric operand is read or written;
* `gemv` returns immediately if the matrix is empty. -/

namespace Guanaqo.Blas

variable {α : Type} [Field α]

/-- The value at an address. -/
def val (m : Mem α) (a : Int) : α := (m a).getD 0

/-- The address of element `(i, j)` of a stored matrix. -/
def cell (lay : Layout) (p ld : Int) (i j : ℕ) : Int :=
  match lay with
  | .col => p + i + j * ld
  | .row => p + i * ld + j

/-- The address of element `(i, j)` of `op(A)`. -/
def opCell (lay : Layout) (t : Trans) (p ld : Int) (i j : ℕ) : Int :=
  match t with
  | .no => cell lay p ld i j
  | .yes => cell lay p ld j i

/-- The positions of a matrix. -/
def rect (M N : Int) (i j : ℕ) : Prop := (i : Int) < M ∧ (j : Int) < N

/-- The positions of a triangle, with the diagonal. -/
def tri (u : Uplo) (N : Int) (i j : ℕ) : Prop :=
  match u with
  | .lower => (i : Int) < N ∧ j ≤ i
  | .upper => (j : Int) < N ∧ i ≤ j

/-- All the addresses are allocated. -/
def Alloc (S : ℕ → ℕ → Prop) (addr : ℕ → ℕ → Int) (m : Mem α) : Prop := ∀ i j, S i j → ∃ x, m (addr i j) = some x

/-- No address in common. -/
def Apart (S : ℕ → ℕ → Prop) (addr : ℕ → ℕ → Int) (S' : ℕ → ℕ → Prop) (addr' : ℕ → ℕ → Int) : Prop :=
  ∀ i j i' j', S i j → S' i' j' → addr i j ≠ addr' i' j'

/-- `f i j` has been written at these addresses, and nothing else has changed. -/
def Writes (S : ℕ → ℕ → Prop) (addr : ℕ → ℕ → Int) (f : ℕ → ℕ → α) (m m' : Mem α) : Prop :=
  (∀ i j, S i j → m' (addr i j) = some (f i j)) ∧ ∀ a, (∀ i j, S i j → a ≠ addr i j) → m' a = m a

/-- Only these addresses have changed, and they are still allocated. -/
def Changes (S : ℕ → ℕ → Prop) (addr : ℕ → ℕ → Int) (m m' : Mem α) : Prop :=
  (∀ i j, S i j → ∃ x, m' (addr i j) = some x) ∧ ∀ a, (∀ i j, S i j → a ≠ addr i j) → m' a = m a

/-- The leading dimension of a stored matrix with `r` rows and `c` columns is legal. -/
def LdOk (lay : Layout) (r c ld : Int) : Prop :=
  match lay with
  | .col => max 1 r ≤ ld
  | .row => max 1 c ≤ ld

/-- The stored matrix of which `op` has `r` rows and `c` columns. -/
def OpLdOk (lay : Layout) (t : Trans) (r c ld : Int) : Prop :=
  match t with
  | .no => LdOk lay r c ld
  | .yes => LdOk lay c r ld

/-- Element `(i, j)` of a triangular matrix. -/
def triVal (lay : Layout) (u : Uplo) (dg : Diag) (m : Mem α) (p ld : Int) (i j : ℕ) : α :=
  if i = j then (match dg with | .unit => 1 | .nonUnit => val m (cell lay p ld i j))
  else match u with
    | .lower => if j < i then val m (cell lay p ld i j) else 0
    | .upper => if i < j then val m (cell lay p ld i j) else 0

/-- Element `(i, j)` of `op` of a triangular matrix. -/
def opTri (lay : Layout) (u : Uplo) (t : Trans) (dg : Diag) (m : Mem α) (p ld : Int) (i j : ℕ) : α :=
  match t with
  | .no => triVal lay u dg m p ld i j
  | .yes => triVal lay u dg m p ld j i

/-- The diagonal has no zeros (which matters if it is not taken to be one). -/
def Regular (lay : Layout) (dg : Diag) (N : Int) (m : Mem α) (p ld : Int) : Prop :=
  dg = .nonUnit → ∀ i : ℕ, (i : Int) < N → val m (cell lay p ld i i) ≠ 0

/-- The size of the triangular matrix. -/
def sideDim (s : Side) (M N : Int) : Int :=
  match s with
  | .left => M
  | .right => N

open Finset in
/-- The contract. -/
structure Lib.Conforms (L : Lib α) : Prop where
  /-- `y := alpha * op(A) * x + beta * y`, for a matrix that is not empty. -/
  gemv : ∀ lay t M N (alpha : α) A lda X incX beta Y incY m, 0 < M → 0 < N → 0 < incX → 0 < incY → LdOk lay M N lda →
    let r := if t = .no then M else N
    let c := if t = .no then N else M
    Alloc (rect r c) (opCell lay t A lda) m → Alloc (rect c 1) (cell .row X incX) m → Alloc (rect r 1) (cell .row Y incY) m →
    Apart (rect r 1) (cell .row Y incY) (rect r c) (opCell lay t A lda) → Apart (rect r 1) (cell .row Y incY) (rect c 1) (cell .row X incX) →
    ∃ m', L.gemv lay t M N alpha A lda X incX beta Y incY m = .ok m' ∧
      Writes (rect r 1) (cell .row Y incY) (fun i j => alpha * ∑ l ∈ range c.toNat, val m (opCell lay t A lda i l) * val m (cell .row X incX l 0)
        + beta * val m (cell .row Y incY i j)) m m'
  gemv_empty : ∀ lay t M N (alpha : α) A lda X incX beta Y incY m, 0 ≤ M → 0 ≤ N → M = 0 ∨ N = 0 → 0 < incX → 0 < incY →
    LdOk lay M N lda → L.gemv lay t M N alpha A lda X incX beta Y incY m = .ok m
  /-- `C := alpha * op(A) * op(B) + beta * C` -/
  gemm : ∀ lay tA tB M N K (alpha : α) A lda B ldb beta C ldc m, 0 ≤ M → 0 ≤ N → 0 ≤ K → OpLdOk lay tA M K lda → OpLdOk lay tB K N ldb →
    LdOk lay M N ldc → Alloc (rect M K) (opCell lay tA A lda) m → Alloc (rect K N) (opCell lay tB B ldb) m → Alloc (rect M N) (cell lay C ldc) m →
    Apart (rect M N) (cell lay C ldc) (rect M K) (opCell lay tA A lda) → Apart (rect M N) (cell lay C ldc) (rect K N) (opCell lay tB B ldb) →
    ∃ m', L.gemm lay tA tB M N K alpha A lda B ldb beta C ldc m = .ok m' ∧
      Writes (rect M N) (cell lay C ldc) (fun i j => alpha * ∑ l ∈ range K.toNat, val m (opCell lay tA A lda i l) * val m (opCell lay tB B ldb l j)
        + beta * val m (cell lay C ldc i j)) m m'
  /-- The same for one triangle of `C`. -/
  gemmt : ∀ lay u tA tB N K (alpha : α) A lda B ldb beta C ldc m, 0 ≤ N → 0 ≤ K → OpLdOk lay tA N K lda → OpLdOk lay tB K N ldb →
    LdOk lay N N ldc → Alloc (rect N K) (opCell lay tA A lda) m → Alloc (rect K N) (opCell lay tB B ldb) m → Alloc (tri u N) (cell lay C ldc) m →
    Apart (tri u N) (cell lay C ldc) (rect N K) (opCell lay tA A lda) → Apart (tri u N) (cell lay C ldc) (rect K N) (opCell lay tB B ldb) →
    ∃ m', L.gemmt lay u tA tB N K alpha A lda B ldb beta C ldc m = .ok m' ∧
      Writes (tri u N) (cell lay C ldc) (fun i j => alpha * ∑ l ∈ range K.toNat, val m (opCell lay tA A lda i l) * val m (opCell lay tB B ldb l j)
        + beta * val m (cell lay C ldc i j)) m m'
  /-- `C := alpha * op(A) * op(A)ᵀ + beta * C`, one triangle -/
  syrk : ∀ lay u t N K (alpha : α) A lda beta C ldc m, 0 ≤ N → 0 ≤ K → OpLdOk lay t N K lda → LdOk lay N N ldc →
    Alloc (rect N K) (opCell lay t A lda) m → Alloc (tri u N) (cell lay C ldc) m →
    Apart (tri u N) (cell lay C ldc) (rect N K) (opCell lay t A lda) →
    ∃ m', L.syrk lay u t N K alpha A lda beta C ldc m = .ok m' ∧
      Writes (tri u N) (cell lay C ldc) (fun i j => alpha * ∑ l ∈ range K.toNat, val m (opCell lay t A lda i l) * val m (opCell lay t A lda j l)
        + beta * val m (cell lay C ldc i j)) m m'
  /-- `x := op(A) * x` -/
  trmv : ∀ lay u t dg N A lda X incX (m : Mem α), 0 ≤ N → 0 < incX → LdOk lay N N lda → Alloc (tri u N) (cell lay A lda) m →
    Alloc (rect N 1) (cell .row X incX) m → Apart (rect N 1) (cell .row X incX) (tri u N) (cell lay A lda) →
    ∃ m', L.trmv lay u t dg N A lda X incX m = .ok m' ∧
      Writes (rect N 1) (cell .row X incX) (fun i _ => ∑ l ∈ range N.toNat, opTri lay u t dg m A lda i l * val m (cell .row X incX l 0)) m m'
  /-- The new `x` solves `op(A) * x = old x`. -/
  trsv : ∀ lay u t dg N A lda X incX (m : Mem α), 0 ≤ N → 0 < incX → LdOk lay N N lda → Alloc (tri u N) (cell lay A lda) m →
    Alloc (rect N 1) (cell .row X incX) m → Apart (rect N 1) (cell .row X incX) (tri u N) (cell lay A lda) → Regular lay dg N m A lda →
    ∃ m', L.trsv lay u t dg N A lda X incX m = .ok m' ∧ Changes (rect N 1) (cell .row X incX) m m' ∧
      ∀ i : ℕ, (i : Int) < N → ∑ l ∈ range N.toNat, opTri lay u t dg m A lda i l * val m' (cell .row X incX l 0) = val m (cell .row X incX i 0)
  /-- `B := alpha * op(A) * B` or `B := alpha * B * op(A)` -/
  trmm : ∀ lay s u t dg M N (alpha : α) A lda B ldb m, 0 ≤ M → 0 ≤ N → LdOk lay (sideDim s M N) (sideDim s M N) lda → LdOk lay M N ldb →
    Alloc (tri u (sideDim s M N)) (cell lay A lda) m → Alloc (rect M N) (cell lay B ldb) m →
    Apart (rect M N) (cell lay B ldb) (tri u (sideDim s M N)) (cell lay A lda) →
    ∃ m', L.trmm lay s u t dg M N alpha A lda B ldb m = .ok m' ∧
      Writes (rect M N) (cell lay B ldb) (fun i j => alpha * (match s with
        | .left => ∑ l ∈ range M.toNat, opTri lay u t dg m A lda i l * val m (cell lay B ldb l j)
        | .right => ∑ l ∈ range N.toNat, val m (cell lay B ldb i l) * opTri lay u t dg m A lda l j)) m m'
  /-- The new `B` solves `op(A) * X = alpha * B` or `X * op(A) = alpha * B`. -/
  trsm : ∀ lay s u t dg M N (alpha : α) A lda B ldb m, 0 ≤ M → 0 ≤ N → LdOk lay (sideDim s M N) (sideDim s M N) lda → LdOk lay M N ldb →
    Alloc (tri u (sideDim s M N)) (cell lay A lda) m → Alloc (rect M N) (cell lay B ldb) m →
    Apart (rect M N) (cell lay B ldb) (tri u (sideDim s M N)) (cell lay A lda) → Regular lay dg (sideDim s M N) m A lda →
    ∃ m', L.trsm lay s u t dg M N alpha A lda B ldb m = .ok m' ∧ Changes (rect M N) (cell lay B ldb) m m' ∧
      ∀ i j : ℕ, (i : Int) < M → (j : Int) < N → (match s with
        | .left => ∑ l ∈ range M.toNat, opTri lay u t dg m A lda i l * val m' (cell lay B ldb l j)
        | .right => ∑ l ∈ range N.toNat, val m' (cell lay B ldb i l) * opTri lay u t dg m A lda l j) = alpha * val m (cell lay B ldb i j)
  /-- Cholesky: `A = L * Lᵀ` or `A = Uᵀ * U`, without zeros on the diagonal, if `info` is zero. (LAPACK stores matrices by columns.) -/
  potrf : ∀ u n a lda (m : Mem α), 0 ≤ n → LdOk .col n n lda → Alloc (tri u n) (cell .col a lda) m →
    ∀ m' info, L.potrf u n a lda m = (m', info) → 0 ≤ info ∧ Changes (tri u n) (cell .col a lda) m m' ∧
      (info = 0 → ∀ i j : ℕ, (i : Int) < n → (j : Int) < n → tri u n i j →
        (match u with
          | .lower => ∑ l ∈ range n.toNat, triVal .col u .nonUnit m' a lda i l * triVal .col u .nonUnit m' a lda j l
          | .upper => ∑ l ∈ range n.toNat, triVal .col u .nonUnit m' a lda l i * triVal .col u .nonUnit m' a lda l j) = val m (cell .col a lda i j)) ∧
      (info = 0 → Regular .col .nonUnit n m' a lda)
  /-- `Lᵀ * L` or `U * Uᵀ` -/
  lauum : ∀ u n a lda (m : Mem α), 0 ≤ n → LdOk .col n n lda → Alloc (tri u n) (cell .col a lda) m →
    ∃ m', L.lauum u n a lda m = (m', 0) ∧ Writes (tri u n) (cell .col a lda) (fun i j => match u with
      | .lower => ∑ l ∈ range n.toNat, triVal .col u .nonUnit m a lda l i * triVal .col u .nonUnit m a lda l j
      | .upper => ∑ l ∈ range n.toNat, triVal .col u .nonUnit m a lda i l * triVal .col u .nonUnit m a lda j l) m m'
  /-- The inverse of a triangular matrix; `info` is zero if there are no zeros on the diagonal, otherwise the position of one. -/
  trtri : ∀ u dg n a lda (m : Mem α), 0 ≤ n → LdOk .col n n lda → Alloc (tri u n) (cell .col a lda) m →
    (Regular .col dg n m a lda → ∃ m', L.trtri u dg n a lda m = (m', 0) ∧ Changes (tri u n) (cell .col a lda) m m' ∧
      ∀ i j : ℕ, (i : Int) < n → (j : Int) < n →
        ∑ l ∈ range n.toNat, triVal .col u dg m' a lda i l * triVal .col u dg m a lda l j = if i = j then 1 else 0) ∧
    (∀ k : ℕ, dg = .nonUnit → (k : Int) < n → val m (cell .col a lda k k) = 0 → (∀ i < k, val m (cell .col a lda i i) ≠ 0) →
      L.trtri u dg n a lda m = (m, (k : Int) + 1))

end Guanaqo.Blas
