import Verif.Blas.Props
import Mathlib.LinearAlgebra.Matrix.Block
import Mathlib.Data.Rat.Defs

/-! # A library that meets the contract

It shows that the contract is not contradictory, and it rejects illegal leading dimensions, as the standard says. -/

namespace Guanaqo.Blas

open Guanaqo.MatView (View)
open Finset Matrix
open scoped Classical

variable {α : Type} [Field α]

set_option linter.unusedSectionVars false

/-- Write `f i j` at `addr i j`. -/
noncomputable def writeCells (S : ℕ → ℕ → Prop) (addr : ℕ → ℕ → Int) (f : ℕ → ℕ → α) (m : Mem α) : Mem α := fun a =>
  if h : ∃ q : ℕ × ℕ, S q.1 q.2 ∧ addr q.1 q.2 = a then some (f h.choose.1 h.choose.2) else m a

def InjOn (S : ℕ → ℕ → Prop) (addr : ℕ → ℕ → Int) : Prop := ∀ i j i' j', S i j → S i' j' → addr i j = addr i' j' → i = i' ∧ j = j'

theorem writeCells_writes {S : ℕ → ℕ → Prop} {addr : ℕ → ℕ → Int} (h : InjOn S addr) (f : ℕ → ℕ → α) (m : Mem α) :
    Writes S addr f m (writeCells S addr f m) := by
  constructor
  · intro i j hij
    have hex : ∃ q : ℕ × ℕ, S q.1 q.2 ∧ addr q.1 q.2 = addr i j := ⟨(i, j), hij, rfl⟩
    unfold writeCells
    rw [dif_pos hex]
    obtain ⟨e1, e2⟩ := h _ _ _ _ hex.choose_spec.1 hij hex.choose_spec.2
    rw [e1, e2]
  · intro a ha
    unfold writeCells
    rw [dif_neg]
    rintro ⟨q, hq, rfl⟩
    exact ha _ _ hq rfl

theorem Writes.changes {S : ℕ → ℕ → Prop} {addr : ℕ → ℕ → Int} {f : ℕ → ℕ → α} {m m' : Mem α} (h : Writes S addr f m m') :
    Changes S addr m m' := ⟨fun i j hij => ⟨_, h.1 i j hij⟩, h.2⟩

theorem lin_inj {ld : Int} {i j i' j' : ℕ} (h1 : (i : Int) < ld) (h2 : (i' : Int) < ld) (e : (i : Int) + j * ld = i' + j' * ld) :
    i = i' ∧ j = j' := by
  have hj : (j : Int) = j' := by
    rcases lt_trichotomy (j : Int) j' with h | h | h
    · nlinarith
    · exact h
    · nlinarith
  refine ⟨?_, by exact_mod_cast hj⟩
  rw [hj] at e
  have : (i : Int) = i' := by linarith
  exact_mod_cast this

theorem cell_inj {lay : Layout} {p ld M N : Int} (h : LdOk lay M N ld) : InjOn (rect M N) (cell lay p ld) := by
  rintro i j i' j' ⟨h1, h2⟩ ⟨h3, h4⟩ e
  cases lay with
  | col =>
    have h : max 1 M ≤ ld := h
    simp only [cell] at e
    exact lin_inj (ld := ld) (by omega) (by omega) (by linarith)
  | row =>
    have h : max 1 N ≤ ld := h
    simp only [cell] at e
    exact (lin_inj (ld := ld) (i := j) (i' := j') (j := i) (j' := i') (by omega) (by omega) (by linarith)).symm

theorem InjOn.mono {S S' : ℕ → ℕ → Prop} {addr : ℕ → ℕ → Int} (h : InjOn S addr) (hs : ∀ i j, S' i j → S i j) : InjOn S' addr :=
  fun i j i' j' a b => h i j i' j' (hs _ _ a) (hs _ _ b)

theorem tri_rect {u : Uplo} {N : Int} : ∀ i j, tri u N i j → rect N N i j := by
  intro i j h
  cases u with
  | lower => exact ⟨h.1, by have := h.1; have := h.2; omega⟩
  | upper => exact ⟨by have := h.1; have := h.2; omega, h.1⟩

theorem tri_inj {lay : Layout} {u : Uplo} {p ld N : Int} (h : LdOk lay N N ld) : InjOn (tri u N) (cell lay p ld) :=
  (cell_inj h).mono tri_rect

theorem vec_inj {N p inc : Int} (h : 0 < inc) : InjOn (rect N 1) (cell .row p inc) :=
  cell_inj (lay := .row) (M := N) (N := 1) (show max 1 1 ≤ inc by omega)

/-- A call, if its arguments are legal. -/
noncomputable def guard (P : Prop) (k : Out α) : Out α := if P then k else .illegal

/-- Some memory with the property, if there is one. -/
noncomputable def choose (m : Mem α) (P : Mem α → Prop) : Mem α := if h : ∃ m', P m' then h.choose else m

theorem choose_spec {m : Mem α} {P : Mem α → Prop} (h : ∃ m', P m') : P (choose m P) := by
  unfold choose; rw [dif_pos h]; exact h.choose_spec

/-- The solution of `trsv`. -/
def TrsvP (lay : Layout) (u : Uplo) (t : Trans) (dg : Diag) (N A lda X incX : Int) (m m' : Mem α) : Prop :=
  Changes (rect N 1) (cell .row X incX) m m' ∧
    ∀ i : ℕ, (i : Int) < N → ∑ l ∈ range N.toNat, opTri lay u t dg m A lda i l * val m' (cell .row X incX l 0) = val m (cell .row X incX i 0)

/-- The solution of `trsm`. -/
def TrsmP (lay : Layout) (s : Side) (u : Uplo) (t : Trans) (dg : Diag) (M N : Int) (alpha : α) (A lda B ldb : Int) (m m' : Mem α) : Prop :=
  Changes (rect M N) (cell lay B ldb) m m' ∧
    ∀ i j : ℕ, (i : Int) < M → (j : Int) < N → (match s with
      | .left => ∑ l ∈ range M.toNat, opTri lay u t dg m A lda i l * val m' (cell lay B ldb l j)
      | .right => ∑ l ∈ range N.toNat, val m' (cell lay B ldb i l) * opTri lay u t dg m A lda l j) = alpha * val m (cell lay B ldb i j)

/-- The Cholesky factor. -/
def PotrfP (u : Uplo) (n a lda : Int) (m m' : Mem α) : Prop :=
  Changes (tri u n) (cell .col a lda) m m' ∧
  (∀ i j : ℕ, (i : Int) < n → (j : Int) < n → tri u n i j →
      (match u with
        | .lower => ∑ l ∈ range n.toNat, triVal .col u .nonUnit m' a lda i l * triVal .col u .nonUnit m' a lda j l
        | .upper => ∑ l ∈ range n.toNat, triVal .col u .nonUnit m' a lda l i * triVal .col u .nonUnit m' a lda l j) = val m (cell .col a lda i j)) ∧
  Regular .col .nonUnit n m' a lda

/-- A part of the memory. -/
noncomputable def keep (P : Int → Prop) (m : Mem α) : Mem α := fun a => if P a then m a else none

/-- One memory over another. -/
noncomputable def overlay (P : Int → Prop) (m m' : Mem α) : Mem α := fun a => if P a then m' a else m a

/-- The addresses of a set of elements. -/
def At (S : ℕ → ℕ → Prop) (addr : ℕ → ℕ → Int) (a : Int) : Prop := ∃ i j, S i j ∧ a = addr i j

/-- The addresses of the operands of `trsm`. -/
def trsmAt (lay : Layout) (s : Side) (u : Uplo) (M N A lda B ldb : Int) (a : Int) : Prop :=
  At (tri u (sideDim s M N)) (cell lay A lda) a ∨ At (rect M N) (cell lay B ldb) a

/-- `potrf`, where the memory is only that of the operand. -/
noncomputable def potrfAt (u : Uplo) (n a lda : Int) (m : Mem α) : Mem α × Int :=
  if ∃ m', PotrfP u n a lda m m' then (choose m (PotrfP u n a lda m), 0) else (m, 1)

/-- The reference library. -/
noncomputable def ref (α : Type) [Field α] : Lib α where
  gemv lay t M N alpha A lda X incX beta Y incY m :=
    guard (0 ≤ M ∧ 0 ≤ N ∧ incX ≠ 0 ∧ incY ≠ 0 ∧ LdOk lay M N lda) (.ok (if M = 0 ∨ N = 0 then m else
      writeCells (rect (if t = .no then M else N) 1) (cell .row Y incY) (fun i j =>
        alpha * ∑ l ∈ range (if t = .no then N else M).toNat, val m (opCell lay t A lda i l) * val m (cell .row X incX l 0)
          + beta * val m (cell .row Y incY i j)) m))
  gemm lay tA tB M N K alpha A lda B ldb beta C ldc m :=
    guard (0 ≤ M ∧ 0 ≤ N ∧ 0 ≤ K ∧ OpLdOk lay tA M K lda ∧ OpLdOk lay tB K N ldb ∧ LdOk lay M N ldc) (.ok
      (writeCells (rect M N) (cell lay C ldc) (fun i j =>
        alpha * ∑ l ∈ range K.toNat, val m (opCell lay tA A lda i l) * val m (opCell lay tB B ldb l j) + beta * val m (cell lay C ldc i j)) m))
  gemmt lay u tA tB N K alpha A lda B ldb beta C ldc m :=
    guard (0 ≤ N ∧ 0 ≤ K ∧ OpLdOk lay tA N K lda ∧ OpLdOk lay tB K N ldb ∧ LdOk lay N N ldc) (.ok
      (writeCells (tri u N) (cell lay C ldc) (fun i j =>
        alpha * ∑ l ∈ range K.toNat, val m (opCell lay tA A lda i l) * val m (opCell lay tB B ldb l j) + beta * val m (cell lay C ldc i j)) m))
  syrk lay u t N K alpha A lda beta C ldc m :=
    guard (0 ≤ N ∧ 0 ≤ K ∧ OpLdOk lay t N K lda ∧ LdOk lay N N ldc) (.ok
      (writeCells (tri u N) (cell lay C ldc) (fun i j =>
        alpha * ∑ l ∈ range K.toNat, val m (opCell lay t A lda i l) * val m (opCell lay t A lda j l) + beta * val m (cell lay C ldc i j)) m))
  trmv lay u t dg N A lda X incX m :=
    guard (0 ≤ N ∧ incX ≠ 0 ∧ LdOk lay N N lda) (.ok
      (writeCells (rect N 1) (cell .row X incX) (fun i _ =>
        ∑ l ∈ range N.toNat, opTri lay u t dg m A lda i l * val m (cell .row X incX l 0)) m))
  trsv lay u t dg N A lda X incX m :=
    guard (0 ≤ N ∧ incX ≠ 0 ∧ LdOk lay N N lda) (.ok (choose m (TrsvP lay u t dg N A lda X incX m)))
  trmm lay s u t dg M N alpha A lda B ldb m :=
    guard (0 ≤ M ∧ 0 ≤ N ∧ LdOk lay (sideDim s M N) (sideDim s M N) lda ∧ LdOk lay M N ldb) (.ok
      (writeCells (rect M N) (cell lay B ldb) (fun i j => alpha * (match s with
        | .left => ∑ l ∈ range M.toNat, opTri lay u t dg m A lda i l * val m (cell lay B ldb l j)
        | .right => ∑ l ∈ range N.toNat, val m (cell lay B ldb i l) * opTri lay u t dg m A lda l j)) m))
  trsm lay s u t dg M N alpha A lda B ldb m :=
    guard (0 ≤ M ∧ 0 ≤ N ∧ LdOk lay (sideDim s M N) (sideDim s M N) lda ∧ LdOk lay M N ldb) (.ok
      (overlay (At (rect M N) (cell lay B ldb)) m
        (choose (keep (trsmAt lay s u M N A lda B ldb) m) (TrsmP lay s u t dg M N alpha A lda B ldb (keep (trsmAt lay s u M N A lda B ldb) m)))))
  potrf u n a lda m :=
    if 0 ≤ n ∧ LdOk .col n n lda then
      (overlay (At (tri u n) (cell .col a lda)) m (potrfAt u n a lda (keep (At (tri u n) (cell .col a lda)) m)).1,
        (potrfAt u n a lda (keep (At (tri u n) (cell .col a lda)) m)).2)
    else (m, -4)
  lauum u n a lda m :=
    if 0 ≤ n ∧ LdOk .col n n lda then (writeCells (tri u n) (cell .col a lda) (fun i j => match u with
      | .lower => ∑ l ∈ range n.toNat, triVal .col u .nonUnit m a lda l i * triVal .col u .nonUnit m a lda l j
      | .upper => ∑ l ∈ range n.toNat, triVal .col u .nonUnit m a lda i l * triVal .col u .nonUnit m a lda j l) m, 0) else (m, -4)
  trtri u dg n a lda m :=
    if 0 ≤ n ∧ LdOk .col n n lda then
      if h : ∃ k : ℕ, dg = .nonUnit ∧ (k : Int) < n ∧ val m (cell .col a lda k k) = 0 then (m, (Nat.find h : Int) + 1)
      else (choose m fun m' => Changes (tri u n) (cell .col a lda) m m' ∧ ∀ i j : ℕ, (i : Int) < n → (j : Int) < n →
        ∑ l ∈ range n.toNat, triVal .col u dg m' a lda i l * triVal .col u dg m a lda l j = if i = j then 1 else 0, 0)
    else (m, -5)

/-! ## Triangular systems have solutions -/

/-- The matrix. -/
def triMat (lay : Layout) (u : Uplo) (t : Trans) (dg : Diag) (n : ℕ) (m : Mem α) (p ld : Int) : Matrix (Fin n) (Fin n) α :=
  fun i j => opTri lay u t dg m p ld i j

theorem triVal_diag {lay : Layout} {u : Uplo} {dg : Diag} {n : ℕ} {m : Mem α} {p ld : Int} (h : Regular lay dg n m p ld) (i : Fin n) :
    triVal lay u dg m p ld i i ≠ 0 := by
  unfold triVal
  rw [if_pos rfl]
  cases dg with
  | unit => exact one_ne_zero
  | nonUnit => exact h rfl i (by exact_mod_cast i.2)

theorem triMat_det {lay : Layout} {u : Uplo} {t : Trans} {dg : Diag} {n : ℕ} {m : Mem α} {p ld : Int} (h : Regular lay dg n m p ld) :
    IsUnit (triMat lay u t dg n m p ld).det := by
  have hlow : ∀ (i j : Fin n), triVal lay .lower dg m p ld i j = 0 ∨ j ≤ i := by
    intro i j
    by_cases hh : (i : ℕ) = j
    · right; rw [Fin.le_def]; omega
    · by_cases hlt : (j : ℕ) < i
      · right; rw [Fin.le_def]; omega
      · left; simp [triVal, hh, hlt]
  have hup : ∀ (i j : Fin n), triVal lay .upper dg m p ld i j = 0 ∨ i ≤ j := by
    intro i j
    by_cases hh : (i : ℕ) = j
    · right; rw [Fin.le_def]; omega
    · by_cases hlt : (i : ℕ) < j
      · right; rw [Fin.le_def]; omega
      · left; simp [triVal, hh, hlt]
  have hd : ∀ i : Fin n, triMat lay u t dg n m p ld i i ≠ 0 := by
    intro i
    cases t <;> exact triVal_diag h i
  rw [isUnit_iff_ne_zero]
  have hcase : (∀ i j : Fin n, i < j → triMat lay u t dg n m p ld i j = 0) ∨ (∀ i j : Fin n, j < i → triMat lay u t dg n m p ld i j = 0) := by
    cases u <;> cases t
    · left; intro i j hij; exact (hlow i j).resolve_right (not_le.2 hij)
    · right; intro i j hij; exact (hlow j i).resolve_right (not_le.2 hij)
    · right; intro i j hij; exact (hup i j).resolve_right (not_le.2 hij)
    · left; intro i j hij; exact (hup j i).resolve_right (not_le.2 hij)
  rcases hcase with hc | hc
  · rw [Matrix.det_of_isLowerTriangular _ (fun i j hij => hc i j (by simpa using hij))]
    exact Finset.prod_ne_zero_iff.2 fun i _ => hd i
  · rw [Matrix.det_of_isUpperTriangular (fun i j hij => hc i j (by simpa using hij))]
    exact Finset.prod_ne_zero_iff.2 fun i _ => hd i

/-- A matrix as a function of natural numbers. -/
noncomputable def ext {r c : ℕ} (X : Matrix (Fin r) (Fin c) α) (i j : ℕ) : α := if h : i < r ∧ j < c then X ⟨i, h.1⟩ ⟨j, h.2⟩ else 0

theorem ext_fin {r c : ℕ} (X : Matrix (Fin r) (Fin c) α) (i : Fin r) (j : Fin c) : ext X i j = X i j := by
  unfold ext; rw [dif_pos ⟨i.2, j.2⟩]

theorem val_written {S : ℕ → ℕ → Prop} {addr : ℕ → ℕ → Int} {f : ℕ → ℕ → α} {m m' : Mem α} (h : Writes S addr f m m') {i j : ℕ} (hij : S i j) :
    val m' (addr i j) = f i j := by simp [val, h.1 i j hij]

theorem solve_left {lay : Layout} {u : Uplo} {t : Trans} {dg : Diag} {n c : ℕ} {m : Mem α} {p ld : Int} (h : Regular lay dg n m p ld)
    {addr : ℕ → ℕ → Int} (hi : InjOn (rect n c) addr) (b : ℕ → ℕ → α) :
    ∃ m', Changes (rect n c) addr m m' ∧ ∀ i j : ℕ, (i : Int) < n → (j : Int) < c →
      ∑ l ∈ range (n : Int).toNat, opTri lay u t dg m p ld i l * val m' (addr l j) = b i j := by
  let B : Matrix (Fin n) (Fin c) α := fun i j => b i j
  let X := (triMat lay u t dg n m p ld)⁻¹ * B
  have hX : triMat lay u t dg n m p ld * X = B := by
    rw [← Matrix.mul_assoc, Matrix.mul_nonsing_inv _ (triMat_det h), Matrix.one_mul]
  have hw := writeCells_writes hi (ext X) m
  refine ⟨_, hw.changes, fun i j h1 h2 => ?_⟩
  have h1' : i < n := by exact_mod_cast h1
  have h2' : j < c := by exact_mod_cast h2
  have := congrFun (congrFun hX ⟨i, h1'⟩) ⟨j, h2'⟩
  rw [Matrix.mul_apply] at this
  rw [sum_fin]
  refine Eq.trans (Finset.sum_congr rfl fun l _ => ?_) this
  rw [val_written hw ⟨by exact_mod_cast l.2, h2⟩]
  have := ext_fin X l ⟨j, h2'⟩
  rw [this]; rfl

theorem solve_right {lay : Layout} {u : Uplo} {t : Trans} {dg : Diag} {n r : ℕ} {m : Mem α} {p ld : Int} (h : Regular lay dg n m p ld)
    {addr : ℕ → ℕ → Int} (hi : InjOn (rect r n) addr) (b : ℕ → ℕ → α) :
    ∃ m', Changes (rect r n) addr m m' ∧ ∀ i j : ℕ, (i : Int) < r → (j : Int) < n →
      ∑ l ∈ range (n : Int).toNat, val m' (addr i l) * opTri lay u t dg m p ld l j = b i j := by
  let B : Matrix (Fin r) (Fin n) α := fun i j => b i j
  let X := B * (triMat lay u t dg n m p ld)⁻¹
  have hX : X * triMat lay u t dg n m p ld = B := by
    rw [Matrix.mul_assoc, Matrix.nonsing_inv_mul _ (triMat_det h), Matrix.mul_one]
  have hw := writeCells_writes hi (ext X) m
  refine ⟨_, hw.changes, fun i j h1 h2 => ?_⟩
  have h1' : i < r := by exact_mod_cast h1
  have h2' : j < n := by exact_mod_cast h2
  have := congrFun (congrFun hX ⟨i, h1'⟩) ⟨j, h2'⟩
  rw [Matrix.mul_apply] at this
  rw [sum_fin]
  refine Eq.trans (Finset.sum_congr rfl fun l _ => ?_) this
  rw [val_written hw ⟨h1, by exact_mod_cast l.2⟩]
  have := ext_fin X ⟨i, h1'⟩ l
  rw [this]; rfl

/-- Not in the triangle. -/
def outside (u : Uplo) (i j : ℕ) : Prop :=
  match u with
  | .lower => i < j
  | .upper => j < i

theorem triVal_zero {lay : Layout} {u : Uplo} {dg : Diag} {m : Mem α} {p ld : Int} {i j : ℕ} (h : outside u i j) :
    triVal lay u dg m p ld i j = 0 := by
  unfold triVal
  cases u with
  | lower =>
    have h : i < j := h
    rw [if_neg (by omega)]
    simp only
    rw [if_neg (by omega)]
  | upper =>
    have h : j < i := h
    rw [if_neg (by omega)]
    simp only
    rw [if_neg (by omega)]

/-- The inverse of a triangular matrix is triangular, and its diagonal consists of the inverses. -/
theorem triMat_inv {lay : Layout} {u : Uplo} {dg : Diag} {n : ℕ} {m : Mem α} {p ld : Int} (h : Regular lay dg n m p ld) :
    (∀ i j : Fin n, outside u i j → (triMat lay u .no dg n m p ld)⁻¹ i j = 0) ∧
    (∀ i : Fin n, dg = .unit → (triMat lay u .no dg n m p ld)⁻¹ i i = 1) := by
  have hdet := triMat_det (u := u) (t := .no) h
  have : Invertible (triMat lay u .no dg n m p ld) := Matrix.invertibleOfIsUnitDet _ hdet
  have hz : ∀ i j : Fin n, outside u i j → (triMat lay u .no dg n m p ld)⁻¹ i j = 0 := by
    cases u with
    | lower =>
      have hb : (triMat lay .lower .no dg n m p ld).IsLowerTriangular := fun i j hij => triVal_zero (u := .lower) (by simpa [outside] using hij)
      have hi : (triMat lay .lower .no dg n m p ld)⁻¹.IsLowerTriangular := Matrix.blockTriangular_inv_of_blockTriangular hb
      intro i j hij
      exact hi (by simpa [outside] using hij)
    | upper =>
      have hb : (triMat lay .upper .no dg n m p ld).IsUpperTriangular := fun i j hij => triVal_zero (u := .upper) (by simpa [outside] using hij)
      have hi : (triMat lay .upper .no dg n m p ld)⁻¹.IsUpperTriangular := Matrix.blockTriangular_inv_of_blockTriangular hb
      intro i j hij
      exact hi (by simpa [outside] using hij)
  refine ⟨hz, fun i hu => ?_⟩
  have hone := congrFun (congrFun (Matrix.nonsing_inv_mul _ hdet) i) i
  rw [Matrix.mul_apply, Finset.sum_eq_single i] at hone
  · have hd : triMat lay u .no dg n m p ld i i = 1 := by
      subst hu
      simp [triMat, opTri, triVal]
    rw [hd, mul_one, Matrix.one_apply_eq] at hone
    exact hone
  · intro l _ hl
    rcases lt_or_gt_of_ne hl with hlt | hlt
    · cases u with
      | lower =>
        have : triMat lay .lower .no dg n m p ld l i = 0 := triVal_zero (u := .lower) (by simpa [outside] using hlt)
        rw [this, mul_zero]
      | upper => rw [hz i l hlt, zero_mul]
    · cases u with
      | lower => rw [hz i l hlt, zero_mul]
      | upper =>
        have : triMat lay .upper .no dg n m p ld l i = 0 := triVal_zero (u := .upper) (by simpa [outside] using hlt)
        rw [this, mul_zero]
  · intro hc; exact absurd (Finset.mem_univ _) hc

theorem inverse_exists {u : Uplo} {dg : Diag} {n : ℕ} {m : Mem α} {a lda : Int} (h : Regular .col dg n m a lda) (hl : LdOk .col n n lda) :
    ∃ m', Changes (tri u n) (cell .col a lda) m m' ∧ ∀ i j : ℕ, (i : Int) < n → (j : Int) < n →
      ∑ l ∈ range (n : Int).toNat, triVal .col u dg m' a lda i l * triVal .col u dg m a lda l j = if i = j then 1 else 0 := by
  let X := (triMat .col u .no dg n m a lda)⁻¹
  have hX : X * triMat .col u .no dg n m a lda = 1 := Matrix.nonsing_inv_mul _ (triMat_det h)
  have hw := writeCells_writes (tri_inj (u := u) (p := a) hl) (ext X) m
  obtain ⟨hz, h1⟩ := triMat_inv (u := u) h
  have key : ∀ i j : Fin n, triVal .col u dg (writeCells (tri u n) (cell .col a lda) (ext X) m) a lda i j = X i j := by
    intro i j
    have hin : tri u n i j → val (writeCells (tri u n) (cell .col a lda) (ext X) m) (cell .col a lda i j) = X i j := by
      intro ht; rw [val_written hw ht]; exact ext_fin X i j
    by_cases hij : i = j
    · subst hij
      cases dg with
      | unit =>
        have : triVal .col u .unit (writeCells (tri u n) (cell .col a lda) (ext X) m) a lda i i = 1 := by simp [triVal]
        rw [this]; exact (h1 i rfl).symm
      | nonUnit =>
        have : tri u n i i := by
          have := i.2
          cases u <;> exact ⟨by exact_mod_cast this, le_refl _⟩
        rw [← hin this]; simp [triVal]
    · have hne : (i : ℕ) ≠ j := fun e => hij (Fin.ext e)
      rcases lt_or_gt_of_ne hij with hlt | hlt
      · cases u with
        | lower => rw [triVal_zero (u := .lower) (by simpa [outside] using hlt)]; exact (hz i j hlt).symm
        | upper =>
          rw [← hin ⟨by exact_mod_cast j.2, le_of_lt hlt⟩]
          have : (i : ℕ) < j := hlt
          simp [triVal, hne, this]
      · cases u with
        | upper => rw [triVal_zero (u := .upper) (by simpa [outside] using hlt)]; exact (hz i j hlt).symm
        | lower =>
          rw [← hin ⟨by exact_mod_cast i.2, le_of_lt hlt⟩]
          have : (j : ℕ) < i := hlt
          simp [triVal, hne, this]
  refine ⟨_, hw.changes, fun i j h1 h2 => ?_⟩
  have h1' : i < n := by exact_mod_cast h1
  have h2' : j < n := by exact_mod_cast h2
  have := congrFun (congrFun hX ⟨i, h1'⟩) ⟨j, h2'⟩
  rw [Matrix.mul_apply, Matrix.one_apply] at this
  rw [sum_fin]
  simp only [Fin.mk.injEq] at this
  refine Eq.trans (Finset.sum_congr rfl fun l _ => ?_) this
  have := key ⟨i, h1'⟩ l
  simp only at this
  rw [this]; rfl

theorem keep_val {P : Int → Prop} {m : Mem α} {a : Int} (h : P a) : val (keep P m) a = val m a := by
  unfold keep val; dsimp only; rw [if_pos h]

theorem overlay_val {P : Int → Prop} {m m' : Mem α} {a : Int} (h : P a) : val (overlay P m m') a = val m' a := by
  unfold overlay val; dsimp only; rw [if_pos h]

theorem Changes.overlay {S : ℕ → ℕ → Prop} {addr : ℕ → ℕ → Int} {m m0 m' : Mem α} (h : Changes S addr m0 m') :
    Changes S addr m (overlay (At S addr) m m') := by
  refine ⟨fun i j hij => ?_, fun a ha => ?_⟩
  · unfold Blas.overlay; rw [if_pos ⟨i, j, hij, rfl⟩]; exact h.1 i j hij
  · unfold Blas.overlay; rw [if_neg]; rintro ⟨i, j, hij, e⟩; exact ha i j hij e

theorem triVal_congr {lay : Layout} {u : Uplo} {dg : Diag} {m m' : Mem α} {p ld : Int} {n : ℕ} (h : ∀ i j, tri u n i j →
    val m (cell lay p ld i j) = val m' (cell lay p ld i j)) {i j : ℕ} (hi : i < n) (hj : j < n) :
    triVal lay u dg m p ld i j = triVal lay u dg m' p ld i j := by
  unfold triVal
  by_cases hij : i = j
  · subst hij
    rw [if_pos rfl, if_pos rfl]
    cases dg with
    | unit => rfl
    | nonUnit => exact h i i (by cases u <;> exact ⟨by omega, le_refl _⟩)
  · rw [if_neg hij, if_neg hij]
    cases u with
    | lower =>
      dsimp only
      by_cases hl : j < i
      · rw [if_pos hl, if_pos hl]; exact h i j ⟨by omega, by omega⟩
      · rw [if_neg hl, if_neg hl]
    | upper =>
      dsimp only
      by_cases hl : i < j
      · rw [if_pos hl, if_pos hl]; exact h i j ⟨by omega, by omega⟩
      · rw [if_neg hl, if_neg hl]

theorem opTri_congr {lay : Layout} {u : Uplo} {t : Trans} {dg : Diag} {m m' : Mem α} {p ld : Int} {n : ℕ} (h : ∀ i j, tri u n i j →
    val m (cell lay p ld i j) = val m' (cell lay p ld i j)) {i j : ℕ} (hi : i < n) (hj : j < n) :
    opTri lay u t dg m p ld i j = opTri lay u t dg m' p ld i j := by
  cases t with
  | no => exact triVal_congr h hi hj
  | yes => exact triVal_congr h hj hi

theorem guard_pos {P : Prop} {k : Out α} (h : P) : guard P k = k := if_pos h

/-- The reference library meets the contract. -/
theorem ref_conforms : (ref α).Conforms where
  gemv := by
    intro lay t M N alpha A lda X incX beta Y incY m h1 h2 h3 h4 h5 r c _ _ _ _ _
    refine ⟨_, ?_, writeCells_writes (vec_inj h4) _ _⟩
    show guard _ _ = _
    rw [guard_pos ⟨by omega, by omega, by omega, by omega, h5⟩, if_neg (by omega)]
  gemv_empty := by
    intro lay t M N alpha A lda X incX beta Y incY m h1 h2 h0 h3 h4 h5
    show guard _ _ = _
    rw [guard_pos ⟨by omega, by omega, by omega, by omega, h5⟩, if_pos h0]
  gemm := by
    intro lay tA tB M N K alpha A lda B ldb beta C ldc m h1 h2 h3 h4 h5 h6 _ _ _ _ _
    exact ⟨_, guard_pos ⟨h1, h2, h3, h4, h5, h6⟩, writeCells_writes (cell_inj h6) _ _⟩
  gemmt := by
    intro lay u tA tB N K alpha A lda B ldb beta C ldc m h1 h2 h3 h4 h5 _ _ _ _ _
    exact ⟨_, guard_pos ⟨h1, h2, h3, h4, h5⟩, writeCells_writes (tri_inj h5) _ _⟩
  syrk := by
    intro lay u t N K alpha A lda beta C ldc m h1 h2 h3 h4 _ _ _
    exact ⟨_, guard_pos ⟨h1, h2, h3, h4⟩, writeCells_writes (tri_inj h4) _ _⟩
  trmv := by
    intro lay u t dg N A lda X incX m h1 h2 h3 _ _ _
    exact ⟨_, guard_pos ⟨h1, by omega, h3⟩, writeCells_writes (vec_inj h2) _ _⟩
  trsv := by
    intro lay u t dg N A lda X incX m h1 h2 h3 _ _ _ hr
    obtain ⟨n, rfl⟩ := Int.eq_ofNat_of_zero_le h1
    obtain ⟨m', a, b⟩ := solve_left (u := u) (t := t) (c := 1) hr (vec_inj (p := X) h2) (fun i _ => val m (cell .row X incX i 0))
    have key : ∃ m', TrsvP lay u t dg n A lda X incX m m' := ⟨m', a, fun i hi => b i 0 hi (by simp)⟩
    exact ⟨_, guard_pos ⟨h1, by omega, h3⟩, choose_spec (m := m) key⟩
  trmm := by
    intro lay s u t dg M N alpha A lda B ldb m h1 h2 h3 h4 _ _ _
    exact ⟨_, guard_pos ⟨h1, h2, h3, h4⟩, writeCells_writes (cell_inj h4) _ _⟩
  trsm := by
    intro lay s u t dg M N alpha A lda B ldb m h1 h2 h3 h4 _ _ _ hr
    obtain ⟨r, rfl⟩ := Int.eq_ofNat_of_zero_le h1
    obtain ⟨c, rfl⟩ := Int.eq_ofNat_of_zero_le h2
    set m0 := keep (trsmAt lay s u r c A lda B ldb) m with hm0
    have hr' : Regular lay dg (sideDim s r c) m0 A lda := by
      intro hd i hi
      have : val m0 (cell lay A lda i i) = val m (cell lay A lda i i) :=
        keep_val (Or.inl ⟨i, i, by cases u <;> exact ⟨hi, le_refl _⟩, rfl⟩)
      rw [this]
      exact hr hd i hi
    have key : ∃ m', TrsmP lay s u t dg r c alpha A lda B ldb m0 m' := by
      cases s with
      | left => exact solve_left hr' (cell_inj h4) (fun i j => alpha * val m0 (cell lay B ldb i j))
      | right => exact solve_right hr' (cell_inj h4) (fun i j => alpha * val m0 (cell lay B ldb i j))
    have sp := choose_spec (m := m0) key
    refine ⟨_, guard_pos ⟨h1, h2, h3, h4⟩, sp.1.overlay, ?_⟩
    have hA : ∀ n : ℕ, sideDim s r c = n → ∀ i j, i < n → j < n → opTri lay u t dg m A lda i j = opTri lay u t dg m0 A lda i j := by
      intro n hn i j hi hj
      refine opTri_congr (n := n) ?_ hi hj
      intro i j hij
      exact (keep_val (Or.inl ⟨i, j, by rw [hn]; exact hij, rfl⟩)).symm
    intro i j hi hj
    have := sp.2 i j hi hj
    have hB : val m0 (cell lay B ldb i j) = val m (cell lay B ldb i j) := keep_val (Or.inr ⟨i, j, ⟨hi, hj⟩, rfl⟩)
    rw [← hB, ← this]
    cases s with
    | left =>
      refine Finset.sum_congr rfl fun l hl => ?_
      have hl' : l < r := by simpa using hl
      rw [hA r rfl i l (by omega) hl']
      congr 1
      exact overlay_val ⟨l, j, ⟨by omega, hj⟩, rfl⟩
    | right =>
      refine Finset.sum_congr rfl fun l hl => ?_
      have hl' : l < c := by simpa using hl
      rw [hA c rfl l j hl' (by omega)]
      congr 1
      exact overlay_val ⟨i, l, ⟨hi, by omega⟩, rfl⟩
  potrf := by
    intro u n a lda m h1 h2 ha m' info e
    simp only [ref] at e
    rw [if_pos ⟨h1, h2⟩] at e
    set m0 := keep (At (tri u n) (cell .col a lda)) m with hm0
    unfold potrfAt at e
    by_cases hex : ∃ m', PotrfP u n a lda m0 m'
    · rw [if_pos hex] at e
      cases e
      have sp := choose_spec (m := m0) hex
      refine ⟨le_refl _, sp.1.overlay, fun _ i j hi hj hij => ?_, fun _ hdg k hk => ?_⟩
      rotate_left
      · rw [overlay_val ⟨k, k, by cases u <;> exact ⟨hk, le_refl _⟩, rfl⟩]
        exact sp.2.2 hdg k hk
      have := sp.2.1 i j hi hj hij
      obtain ⟨n, rfl⟩ := Int.eq_ofNat_of_zero_le h1
      have hv : ∀ i j, i < n → j < n → triVal .col u .nonUnit (overlay (At (tri u n) (cell .col a lda)) m (choose m0 (PotrfP u n a lda m0))) a lda i j =
          triVal .col u .nonUnit (choose m0 (PotrfP u n a lda m0)) a lda i j := by
        intro i j hi hj
        exact triVal_congr (n := n) (fun i j hij => overlay_val ⟨i, j, hij, rfl⟩) hi hj
      rw [show val m (cell .col a lda i j) = val m0 (cell .col a lda i j) from (keep_val ⟨i, j, hij, rfl⟩).symm, ← this]
      cases u with
      | lower =>
        refine Finset.sum_congr rfl fun l hl => ?_
        have hl' : l < n := by simpa using hl
        rw [hv i l (by omega) hl', hv j l (by omega) hl']
      | upper =>
        refine Finset.sum_congr rfl fun l hl => ?_
        have hl' : l < n := by simpa using hl
        rw [hv l i hl' (by omega), hv l j hl' (by omega)]
    · rw [if_neg hex] at e
      cases e
      have e0 : overlay (At (tri u n) (cell .col a lda)) m m0 = m := by
        funext b; unfold overlay; rw [hm0]; unfold keep; split <;> rfl
      dsimp only
      rw [e0]
      exact ⟨by omega, ⟨ha, fun _ _ => rfl⟩, fun h => absurd h (by decide), fun h => absurd h (by decide)⟩
  lauum := by
    intro u n a lda m h1 h2 _
    exact ⟨_, if_pos ⟨h1, h2⟩, writeCells_writes (tri_inj h2) _ _⟩
  trtri := by
    intro u dg n a lda m h1 h2 _
    obtain ⟨n, rfl⟩ := Int.eq_ofNat_of_zero_le h1
    refine ⟨fun hr => ?_, fun k hdg hk hz hi => ?_⟩
    · have hno : ¬ ∃ k : ℕ, dg = .nonUnit ∧ (k : Int) < n ∧ val m (cell .col a lda k k) = 0 := by
        rintro ⟨k, e1, e2, e3⟩; exact hr e1 k e2 e3
      refine ⟨_, ?_, choose_spec (m := m) (inverse_exists (u := u) hr h2)⟩
      show (if _ then _ else _) = _
      rw [if_pos ⟨h1, h2⟩, dif_neg hno]
    · have hex : ∃ k : ℕ, dg = .nonUnit ∧ (k : Int) < n ∧ val m (cell .col a lda k k) = 0 := ⟨k, hdg, hk, hz⟩
      have hf : Nat.find hex = k := by
        rw [Nat.find_eq_iff]
        exact ⟨⟨hdg, hk, hz⟩, fun i hik hc => hi i hik hc.2.2⟩
      show (if _ then _ else _) = _
      rw [if_pos ⟨h1, h2⟩, dif_pos hex, hf]

theorem ref_plain : (ref α).Plain := by
  refine ⟨?_, ?_, ?_, ?_, ?_, ?_, ?_, ?_⟩ <;> intros <;> show guard _ _ ≠ _ <;> unfold guard <;> split <;> simp

end Guanaqo.Blas
