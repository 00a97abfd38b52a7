import Verif.Blas.Props
import Verif.Blas.Batch
import Verif.Blas.Ref
import Mathlib.Tactic.FinCases
import Mathlib.Tactic.Linarith
import Mathlib.Tactic.NormNum
import Mathlib.LinearAlgebra.Matrix.Notation

/-!
# Programs that combine views and BLAS (C117)

Client programs of the library: solving a system by a Cholesky factorisation, and the factorisation block by block, on parts of the view of the matrix
(`mat-view.hpp`) with the functions of `hl-blas-interface.hpp`. The proofs use the theorems of C66 only, not the contract.
-/

namespace Guanaqo.Blas

open Guanaqo.MatView (View)
open Finset Matrix

variable {α : Type} [Field α]

set_option linter.unusedSectionVars false
set_option linter.unusedVariables false

variable (L : Lib α)

/-- `xpotrf_L(A); xtrsm_LLNN(1, A, B); xtrsm_LLTN(1, A, B);` (hl-blas-interface.hpp:325-335, 266-287) -/
def choleskySolve (A B : View) (m : Mem α) : Out α :=
  (xpotrf_L L A m).andThen fun m => (xtrsm_LLNN L 1 A B m).andThen fun m => xtrsm_LLTN L 1 A B m

/-- The parts of a matrix: `top_left(k, k)`, `bottom_left(n - k, k)`, `bottom_right(n - k, n - k)` (mat-view.hpp:122-133). -/
def parts (A : View) (k : Int) : Res (View × View × View) := do
  let A11 ← A.topLeft k k
  let A21 ← A.bottomLeft (A.rows - k) k
  let A22 ← A.bottomRight (A.rows - k) (A.cols - k)
  .ok (A11, A21, A22)

/-- Cholesky factorisation block by block, with the given sizes of the blocks; the rest in one piece. (A failing assertion of a view counts as a failing
assumption.) -/
def blockedCholesky : List ℕ → View → Mem α → Out α
  | [], A, m => xpotrf_L L A m
  | k :: ks, A, m =>
    match parts A k with
    | .error _ => .assumeFail
    | .ok (A11, A21, A22) =>
      (xpotrf_L L A11 m).andThen fun m =>
        (xtrsm_RLTN L 1 A11 A21 m).andThen fun m =>
          (xsyrk_LN L (-1) A21 1 A22 m).andThen fun m =>
            blockedCholesky ks A22 m

/-! ## Specification -/

/-- The symmetric matrix with this lower triangle. -/
def symm {n : ℕ} (A : Matrix (Fin n) (Fin n) α) : Matrix (Fin n) (Fin n) α := fun i j => if j ≤ i then A i j else A j i

/-- The lower triangle of the view is now the Cholesky factor of what was there, without zeros on the diagonal, and nothing else has changed. -/
def Factorised (A : View) (n : ℕ) (m m' : Mem α) : Prop :=
  lower (mat A n n m') * (lower (mat A n n m'))ᵀ = symm (mat A n n m) ∧ (∀ i, mat A n n m' i i ≠ 0) ∧ OnlyInLower A m m'

/-! ## Proofs -/

variable {L}

theorem symm_of_lowerEq {n : ℕ} {X A : Matrix (Fin n) (Fin n) α} (h : LowerEq (X * Xᵀ) A) : X * Xᵀ = symm A := by
  ext i j
  unfold symm
  split
  · next hij => exact h i j hij
  · next hij =>
    have hji : i ≤ j := le_of_lt (lt_of_not_ge hij)
    rw [← h j i hji, Matrix.mul_apply, Matrix.mul_apply]
    exact Finset.sum_congr rfl fun l _ => mul_comm _ _

theorem lowerEq_symm {n : ℕ} (A : Matrix (Fin n) (Fin n) α) : LowerEq (symm A) A := fun i j hij => if_pos hij

/-- Everything that was allocated still is. -/
def Live (m m' : Mem α) : Prop := ∀ a, (∃ x, m a = some x) → ∃ x, m' a = some x

theorem OnlyIn.live {v : View} {m m' : Mem α} (h : OnlyIn v m m') : Live m m' := by
  intro a ha
  by_cases he : v.IsElemAddr (fun _ _ => True) a
  · exact h.2 a he
  · rw [h.1 a he]; exact ha

theorem OnlyInLower.live {v : View} {m m' : Mem α} (h : OnlyInLower v m m') : Live m m' := by
  intro a ha
  by_cases he : v.IsElemAddr (fun r c => c ≤ r) a
  · exact h.2 a he
  · rw [h.1 a he]; exact ha

theorem Is.live {v : View} {r c : ℕ} {m m' : Mem α} (h : Is v r c m) (hl : Live m m') : Is v r c m' :=
  ⟨h.rows, h.cols, h.inner, h.outer, fun i j hij => hl _ (h.backed i j hij)⟩

/-- The view has not changed. -/
theorem mat_separate {v w : View} {r c : ℕ} {m m' : Mem α} (hw : Is w r c m) (hs : Separate v w) (h : OnlyIn v m m') :
    mat w r c m' = mat w r c m := by
  ext i j
  simp only [mat, val]
  rw [h.1 _ (fun he => hs _ he ?_)]
  rw [addr_eq hw.inner]
  exact hw.isElem.2 ⟨i, j, i.2, j.2, trivial, rfl⟩

theorem mat_separate_lower {v w : View} {r c : ℕ} {m m' : Mem α} (hw : Is w r c m) (hs : Separate v w) (h : OnlyInLower v m m') :
    mat w r c m' = mat w r c m := by
  ext i j
  simp only [mat, val]
  rw [h.1 _ (fun he => ?_)]
  obtain ⟨x, y, h1, _, h3⟩ := he
  refine hs _ ⟨x, y, h1, trivial, h3⟩ ?_
  rw [addr_eq hw.inner]
  exact hw.isElem.2 ⟨i, j, i.2, j.2, trivial, rfl⟩

theorem Separate.symm' {v w : View} (h : Separate v w) : Separate w v := fun a ha hb => h a hb ha

/-- `xpotrf_L`: the factorisation, or an exception. -/
theorem potrf_factorised (hL : L.Conforms) {A : View} {n : ℕ} {m : Mem α} (hA : Is A n n m) :
    (∃ m', xpotrf_L L A m = .ok m' ∧ Factorised A n m m') ∨
    (∃ m' info, xpotrf_L L A m = .lapackError info m' ∧ 0 < info ∧ OnlyInLower A m m') := by
  rcases xpotrf_L_partial hL hA with ⟨m', e, h1, h2, h3⟩ | ⟨m', info, e, h1, _, h2⟩
  · exact Or.inl ⟨m', e, symm_of_lowerEq h1, h2, h3⟩
  · exact Or.inr ⟨m', info, e, h1, h2⟩

/-- C117: the solution of a symmetric system: `B` becomes `X` with `A X = B`, where `A` is given by its lower triangle, which becomes the Cholesky factor;
nothing else changes. If there is no factorisation, an exception is thrown and `B` is as before. -/
theorem cholesky_solves (hL : L.Conforms) {A B : View} {n c : ℕ} {m : Mem α} (hA : Is A n n m) (hB : Is B n c m) (hs : Separate B A) :
    (∃ m', choleskySolve L A B m = .ok m' ∧ symm (mat A n n m) * mat B n c m' = mat B n c m ∧
      lower (mat A n n m') * (lower (mat A n n m'))ᵀ = symm (mat A n n m) ∧
      ∀ a, ¬ A.IsElemAddr (fun r c => c ≤ r) a → ¬ B.IsElemAddr (fun _ _ => True) a → m' a = m a) ∨
    (∃ m' info, choleskySolve L A B m = .lapackError info m' ∧ 0 < info ∧ mat B n c m' = mat B n c m ∧ OnlyInLower A m m') := by
  rcases potrf_factorised hL hA with ⟨m1, e1, f1, d1, o1⟩ | ⟨m1, info, e1, h1, o1⟩
  · left
    have hA1 := hA.live o1.live
    have hB1 := hB.live o1.live
    have b1 : mat B n c m1 = mat B n c m := mat_separate_lower hB hs.symm' o1
    obtain ⟨m2, e2, f2, o2⟩ := xtrsm_LLNN_partial hL 1 hA1 hB1 hs d1
    have hA2 := hA1.live o2.live
    have hB2 := hB1.live o2.live
    have a2 : mat A n n m2 = mat A n n m1 := mat_separate hA1 hs o2
    obtain ⟨m3, e3, f3, o3⟩ := xtrsm_LLTN_partial hL 1 hA2 hB2 hs (by rw [a2]; exact d1)
    have a3 : mat A n n m3 = mat A n n m2 := mat_separate hA2 hs o3
    refine ⟨m3, by simp only [choleskySolve, e1, Out.andThen, e2, e3], ?_, ?_, fun a h1 h2 => ?_⟩
    · rw [← f1, Matrix.mul_assoc, ← a2, f3, one_smul, a2, f2, one_smul, b1]
    · rw [a3, a2, f1]
    · rw [o3.1 a h2, o2.1 a h2, o1.1 a h1]
  · right
    exact ⟨m1, info, by simp only [choleskySolve, e1, Out.andThen], h1, mat_separate_lower hB hs.symm' o1, o1⟩

/-! ### Blocks -/

/-- Element `(i, j)`. -/
def elem (A : View) (m : Mem α) (i j : ℕ) : α := val m (cell .col A.data A.outer i j)

/-- The Cholesky factor, element by element. -/
def Chol (n : ℕ) (f g : ℕ → ℕ → α) : Prop := ∀ i j, j ≤ i → i < n → ∑ l ∈ range (j + 1), f i l * f j l = g i j

theorem mat_elem {A : View} {r c : ℕ} {m : Mem α} (h : A.inner = 1) (i : Fin r) (j : Fin c) : mat A r c m i j = elem A m i j := by
  simp only [mat, elem, addr_eq h]

/-- Products of lower triangles have few terms. -/
theorem sum_lower {n : ℕ} (f g : ℕ → ℕ → α) (i j : ℕ) (hj : j < n) (hij : j ≤ i) :
    ∑ l : Fin n, (if (l : ℕ) ≤ i then f i l else 0) * (if (l : ℕ) ≤ j then g j l else 0) = ∑ l ∈ range (j + 1), f i l * g j l := by
  rw [Fin.sum_univ_eq_sum_range (fun l => (if l ≤ i then f i l else 0) * (if l ≤ j then g j l else 0)) n]
  rw [← Finset.sum_subset (Finset.range_subset_range.2 (by omega : j + 1 ≤ n))]
  · refine Finset.sum_congr rfl fun l hl => ?_
    have hl' : l ≤ j := by have := Finset.mem_range.1 hl; omega
    rw [if_pos hl', if_pos (by omega)]
  · intro l _ hl
    have : ¬ l ≤ j := fun h => hl (Finset.mem_range.2 (by omega))
    rw [if_neg this, mul_zero]

theorem chol_iff {A : View} {n : ℕ} {m m' : Mem α} (h : A.inner = 1) :
    lower (mat A n n m') * (lower (mat A n n m'))ᵀ = symm (mat A n n m) ↔ Chol n (elem A m') (elem A m) := by
  have key : ∀ i j : Fin n, j ≤ i → (lower (mat A n n m') * (lower (mat A n n m'))ᵀ) i j = ∑ l ∈ range ((j : ℕ) + 1), elem A m' i l * elem A m' j l := by
    intro i j hij
    rw [← sum_lower (n := n) _ _ i j j.2 hij, Matrix.mul_apply]
    refine Finset.sum_congr rfl fun l _ => ?_
    simp only [Matrix.transpose_apply, lower, mat_elem h]
    rfl
  constructor
  · intro he i j hij hi
    have h1 := key ⟨i, hi⟩ ⟨j, by omega⟩ hij
    rw [he] at h1
    rw [← h1]
    exact (if_pos (show (⟨j, by omega⟩ : Fin n) ≤ ⟨i, hi⟩ from hij)).trans (mat_elem h _ _)
  · intro hc
    refine symm_of_lowerEq fun i j hij => ?_
    rw [key i j hij, hc i j hij i.2, mat_elem h]

theorem factorised_iff {A : View} {n : ℕ} {m m' : Mem α} (h : A.inner = 1) :
    Factorised A n m m' ↔ Chol n (elem A m') (elem A m) ∧ (∀ i < n, elem A m' i i ≠ 0) ∧ OnlyInLower A m m' := by
  unfold Factorised
  rw [chol_iff h]
  refine and_congr_right fun _ => and_congr_left fun _ => ⟨fun hd i hi => ?_, fun hd i => ?_⟩
  · rw [← mat_elem h ⟨i, hi⟩ ⟨i, hi⟩]; exact hd _
  · rw [mat_elem h]; exact hd i i.2

/-- The three parts. -/
def part11 (A : View) (k : ℕ) : View := { data := A.data, rows := k, cols := k, inner := A.inner, outer := A.outer }
def part21 (A : View) (n k : ℕ) : View := { data := A.data + k, rows := n - k, cols := k, inner := A.inner, outer := A.outer }
def part22 (A : View) (n k : ℕ) : View := { data := A.data + k + A.outer * k, rows := n - k, cols := n - k, inner := A.inner, outer := A.outer }

theorem parts_ok {A : View} {n k : ℕ} {m : Mem α} (hA : Is A n n m) (hk : k ≤ n) : parts A k = .ok (part11 A k, part21 A n k, part22 A n k) := by
  have e1 : (n : Int) - (n - k) = k := by omega
  simp only [parts, View.topLeft, View.topRows, View.leftCols, View.bottomLeft, View.bottomRight, View.bottomRows, View.rightCols, hA.rows, hA.cols,
    part11, part21, part22, assertThat, hA.inner]
  have h1 : (0 : Int) ≤ k ∧ (k : Int) ≤ n := by omega
  have h2 : (0 : Int) ≤ (n : Int) - k ∧ (n : Int) - k ≤ n := by omega
  simp only [h1, h2, decide_true, if_true, and_self, pure, Except.pure, bind, Except.bind, e1, one_mul]

theorem elem21 (A : View) (n k : ℕ) (m : Mem α) (i j : ℕ) : elem (part21 A n k) m i j = elem A m (k + i) j := by
  simp only [elem, part21, cell]
  congr 1
  push_cast
  ring

theorem elem22 (A : View) (n k : ℕ) (m : Mem α) (i j : ℕ) : elem (part22 A n k) m i j = elem A m (k + i) (k + j) := by
  simp only [elem, part22, cell]
  congr 1
  push_cast
  ring

/-- A part is in the view. -/
theorem is_part {A B : View} {n r c di dj : ℕ} {m : Mem α} (hA : Is A n n m) (hr : B.rows = r) (hc : B.cols = c) (hi : B.inner = A.inner)
    (ho : B.outer = A.outer) (hd : B.data = A.data + di + dj * A.outer) (h1 : di + r ≤ n) (h2 : dj + c ≤ n) : Is B r c m := by
  refine ⟨hr, hc, by rw [hi, hA.inner], by rw [ho]; have := hA.outer; omega, ?_⟩
  rintro x y ⟨hx, hx', hy, hy'⟩
  obtain ⟨v, hv⟩ := hA.backed (di + x) (dj + y) ⟨by omega, by rw [hA.rows]; omega, by omega, by rw [hA.cols]; omega⟩
  refine ⟨v, ?_⟩
  rw [← hv, hd, hi, ho, hA.inner]
  congr 1
  ring

/-- Where its elements are. -/
theorem part_elem {A B : View} {n r c di dj : ℕ} {m : Mem α} (hA : Is A n n m) (hB : Is B r c m) (ho : B.outer = A.outer)
    (hd : B.data = A.data + di + dj * A.outer) {p : Int → Int → Prop} {a : Int} (h : B.IsElemAddr p a) :
    ∃ i j : ℕ, i < r ∧ j < c ∧ p i j ∧ a = cell .col A.data A.outer (di + i) (dj + j) := by
  obtain ⟨i, j, hi, hj, hp, rfl⟩ := hB.isElem.1 h
  refine ⟨i, j, hi, hj, hp, ?_⟩
  simp only [cell, ho, hd]
  push_cast
  ring

/-- Different elements are in different places. -/
theorem elem_inj {A : View} {n : ℕ} {m : Mem α} (hA : Is A n n m) {i j i' j' : ℕ} (hi : i < n) (hi' : i' < n)
    (h : cell .col A.data A.outer i j = cell .col A.data A.outer i' j') : i = i' ∧ j = j' := by
  have ho := hA.outer
  simp only [cell] at h
  have hlt : ∀ {a b a' b' : ℕ}, a < n → a' < n → b < b' → A.data + (a : Int) + b * A.outer ≠ A.data + (a' : Int) + b' * A.outer := by
    intro a b a' b' ha ha' hb he
    have h1 : ((b : Int) + 1) * A.outer ≤ (b' : Int) * A.outer := by
      apply mul_le_mul_of_nonneg_right <;> omega
    have h2 : ((b : Int) + 1) * A.outer = b * A.outer + A.outer := by ring
    omega
  rcases Nat.lt_trichotomy j j' with hj | hj | hj
  · exact absurd h (hlt hi hi' hj)
  · subst hj
    exact ⟨by omega, rfl⟩
  · exact absurd h.symm (hlt hi' hi hj)

/-- A part is in the lower triangle of the view: what is not in the latter is not in the former. -/
theorem part_in {A B : View} {n r c di dj : ℕ} {m : Mem α} (hA : Is A n n m) (hB : Is B r c m) (ho : B.outer = A.outer)
    (hd : B.data = A.data + di + dj * A.outer) {p : Int → Int → Prop} (h1 : di + r ≤ n)
    (hp : ∀ i j : ℕ, i < r → j < c → p i j → dj + j ≤ di + i) {a : Int} (h : B.IsElemAddr p a) : A.IsElemAddr (fun r c => c ≤ r) a := by
  obtain ⟨i, j, hi, hj, hij, rfl⟩ := part_elem hA hB ho hd h
  have := hp i j hi hj hij
  refine hA.isElem.2 ⟨di + i, dj + j, by omega, by omega, ?_, rfl⟩
  push_cast; omega

/-- An element of the view that is not one of these of a part. -/
theorem part_frame {A B : View} {n r c di dj : ℕ} {m m0 : Mem α} (hA : Is A n n m0) (hB : Is B r c m0) (ho : B.outer = A.outer)
    (hd : B.data = A.data + di + dj * A.outer) {p : Int → Int → Prop} {m' : Mem α} (h1 : di + r ≤ n)
    (h : ∀ a, ¬ B.IsElemAddr p a → m' a = m a) {i j : ℕ} (hi : i < n)
    (hn : ∀ x y : ℕ, x < r → y < c → p x y → i = di + x → j = dj + y → False) : elem A m' i j = elem A m i j := by
  simp only [elem, val]
  rw [h _ fun he => ?_]
  obtain ⟨x, y, hx, hy, hp, he⟩ := part_elem hA hB ho hd he
  have hx' : di + x < n := by omega
  have e : cell .col A.data A.outer (i : ℕ) (j : ℕ) = cell .col A.data A.outer ((di + x : ℕ)) ((dj + y : ℕ)) := by
    rw [he]; 
  obtain ⟨e1, e2⟩ := elem_inj hA hi hx' e
  exact hn x y hx hy hp e1 e2

theorem part_separate {A B C : View} {n r c di dj r' c' di' dj' : ℕ} {m : Mem α} (hA : Is A n n m) (hB : Is B r c m) (ho : B.outer = A.outer)
    (hd : B.data = A.data + di + dj * A.outer) (h1 : di + r ≤ n) (hC : Is C r' c' m) (ho' : C.outer = A.outer)
    (hd' : C.data = A.data + di' + dj' * A.outer) (h1' : di' + r' ≤ n)
    (hn : ∀ x y x' y' : ℕ, x < r → y < c → x' < r' → y' < c' → di + x = di' + x' → dj + y = dj' + y' → False) : Separate B C := by
  intro a ha hb
  obtain ⟨x, y, hx, hy, _, rfl⟩ := part_elem hA hB ho hd ha
  obtain ⟨x', y', hx', hy', _, he⟩ := part_elem hA hC ho' hd' hb
  have e : cell .col A.data A.outer ((di + x : ℕ)) ((dj + y : ℕ)) = cell .col A.data A.outer ((di' + x' : ℕ)) ((dj' + y' : ℕ)) := by
    exact he
  obtain ⟨e1, e2⟩ := elem_inj hA (by omega) (by omega) e
  exact hn x y x' y' hx hy hx' hy' e1 e2

theorem Live.trans {m m' m'' : Mem α} (h : Live m m') (h' : Live m' m'') : Live m m'' := fun a ha => h' a (h a ha)

/-- Products with one lower triangle. -/
theorem sum_lower_right {n : ℕ} (f g : ℕ → α) (j : ℕ) (hj : j < n) :
    ∑ l : Fin n, f l * (if (l : ℕ) ≤ j then g l else 0) = ∑ l ∈ range (j + 1), f l * g l := by
  rw [Fin.sum_univ_eq_sum_range (fun l => f l * (if l ≤ j then g l else 0)) n]
  rw [← Finset.sum_subset (Finset.range_subset_range.2 (by omega : j + 1 ≤ n))]
  · refine Finset.sum_congr rfl fun l hl => ?_
    rw [if_pos (by have := Finset.mem_range.1 hl; omega)]
  · intro l _ hl
    have : ¬ l ≤ j := fun h => hl (Finset.mem_range.2 (by omega))
    rw [if_neg this, mul_zero]

/-- C117: the factorisation block by block, for all sizes of blocks. -/
theorem blocked_factorises (hL : L.Conforms) (ks : List ℕ) : ∀ {A : View} {n : ℕ} {m : Mem α}, Is A n n m → ks.sum ≤ n →
    (∃ m', blockedCholesky L ks A m = .ok m' ∧ Factorised A n m m') ∨
    (∃ m' info, blockedCholesky L ks A m = .lapackError info m' ∧ 0 < info ∧ OnlyInLower A m m') := by
  induction ks with
  | nil => intro A n m hA _; exact potrf_factorised hL hA
  | cons k ks ih =>
    intro A n m hA hks
    rw [List.sum_cons] at hks
    have hk : k ≤ n := by omega
    have hin := hA.inner
    -- the parts
    have o11 : (part11 A k).outer = A.outer := rfl
    have o21 : (part21 A n k).outer = A.outer := rfl
    have o22 : (part22 A n k).outer = A.outer := rfl
    have d11 : (part11 A k).data = A.data + ((0 : ℕ) : Int) + ((0 : ℕ) : Int) * A.outer := by simp [part11]
    have d21 : (part21 A n k).data = A.data + (k : Int) + ((0 : ℕ) : Int) * A.outer := by simp [part21]
    have d22 : (part22 A n k).data = A.data + (k : Int) + (k : Int) * A.outer := by simp only [part22]; ring
    have is11 : ∀ {m : Mem α}, Is A n n m → Is (part11 A k) k k m := fun h =>
      is_part h rfl rfl rfl rfl d11 (by omega) (by omega)
    have is21 : ∀ {m : Mem α}, Is A n n m → Is (part21 A n k) (n - k) k m := fun h =>
      is_part h (by simp only [part21]; omega) rfl rfl rfl d21 (by omega) (by omega)
    have is22 : ∀ {m : Mem α}, Is A n n m → Is (part22 A n k) (n - k) (n - k) m := fun h =>
      is_part h (by simp only [part22]; omega) (by simp only [part22]; omega) rfl rfl d22 (by omega) (by omega)
    have s21 : Separate (part21 A n k) (part11 A k) :=
      part_separate hA (is21 hA) o21 d21 (by omega) (is11 hA) o11 d11 (by omega) (by intros; omega)
    have s22 : Separate (part22 A n k) (part21 A n k) :=
      part_separate hA (is22 hA) o22 d22 (by omega) (is21 hA) o21 d21 (by omega) (by intros; omega)
    -- what changes is in the lower triangle
    have in11 : ∀ {a}, ¬ A.IsElemAddr (fun r c => c ≤ r) a → ¬ (part11 A k).IsElemAddr (fun r c => c ≤ r) a := fun h h' =>
      h (part_in hA (is11 hA) o11 d11 (by omega) (by intros; omega) h')
    have in21 : ∀ {a}, ¬ A.IsElemAddr (fun r c => c ≤ r) a → ¬ (part21 A n k).IsElemAddr (fun _ _ => True) a := fun h h' =>
      h (part_in hA (is21 hA) o21 d21 (by omega) (by intros; omega) h')
    have in22 : ∀ {a}, ¬ A.IsElemAddr (fun r c => c ≤ r) a → ¬ (part22 A n k).IsElemAddr (fun r c => c ≤ r) a := fun h h' =>
      h (part_in hA (is22 hA) o22 d22 (by omega) (by intros; omega) h')
    have only : ∀ {m' : Mem α}, (∀ a, ¬ A.IsElemAddr (fun r c => c ≤ r) a → m' a = m a) → Live m m' → OnlyInLower A m m' := by
      intro m' h hl
      refine ⟨h, fun a ha => hl a ?_⟩
      obtain ⟨i, j, hi, hj, hp, rfl⟩ := hA.isElem.1 ha
      have hb := hA.backed i j ⟨by omega, by rw [hA.rows]; omega, by omega, by rw [hA.cols]; omega⟩
      rw [hin] at hb
      simpa only [cell, one_mul, mul_one] using hb
    simp only [blockedCholesky, parts_ok hA hk]
    rcases potrf_factorised hL (is11 hA) with ⟨m1, e1, f1⟩ | ⟨m1, info, e1, h1, w1⟩
    · rw [factorised_iff (by simpa [part11] using hin)] at f1
      obtain ⟨f1, n1, w1⟩ := f1
      have l1 := w1.live
      have hA1 := hA.live l1
      have n1' : ∀ i, mat (part11 A k) k k m1 i i ≠ 0 := fun i => by rw [mat_elem (by simpa [part11] using hin)]; exact n1 i i.2
      obtain ⟨m2, e2, f2, w2⟩ := xtrsm_RLTN_partial hL 1 (is11 hA1) (is21 hA1) s21 n1'
      have l2 := w2.live
      have hA2 := hA1.live l2
      obtain ⟨m3, e3, f3, w3⟩ := xsyrk_LN_partial hL (-1) 1 (is21 hA2) (is22 hA2) s22
      have l3 := w3.live
      have hA3 := hA2.live l3
      -- the elements
      have g2 : ∀ i j, k ≤ i → i < n → j < k → ∑ l ∈ range (j + 1), elem A m2 i l * elem A m1 j l = elem A m1 i j := by
        intro i j hi hi' hj
        have := congrFun (congrFun f2 ⟨i - k, by omega⟩) ⟨j, hj⟩
        rw [one_smul, Matrix.mul_apply, mat_elem (by simpa [part21] using hin), elem21] at this
        simp only [Nat.add_sub_of_le hi] at this
        rw [← this, ← sum_lower_right _ _ j hj]
        refine Finset.sum_congr rfl fun l _ => ?_
        rw [mat_elem (by simpa [part21] using hin), elem21]
        simp only [Nat.add_sub_of_le hi, Matrix.transpose_apply, lower]
        rw [mat_elem (by simpa [part11] using hin)]
        rfl
      have g3 : ∀ i j, k ≤ j → j ≤ i → i < n → elem A m3 i j = elem A m2 i j - ∑ l ∈ range k, elem A m2 i l * elem A m2 j l := by
        intro i j hj hij hi
        have := f3 ⟨i - k, by omega⟩ ⟨j - k, by omega⟩ (by simp only [Fin.mk_le_mk]; omega)
        rw [mat_elem (by simpa [part22] using hin), elem22] at this
        simp only [Nat.add_sub_of_le (le_trans hj hij), Nat.add_sub_of_le hj] at this
        rw [this, Matrix.add_apply, Matrix.smul_apply, Matrix.smul_apply, one_smul, Matrix.mul_apply,
          mat_elem (by simpa [part22] using hin), elem22]
        simp only [Nat.add_sub_of_le (le_trans hj hij), Nat.add_sub_of_le hj, neg_smul, one_smul]
        rw [← Fin.sum_univ_eq_sum_range (fun l => elem A m2 i l * elem A m2 j l) k, neg_add_eq_sub]
        congr 1
        refine Finset.sum_congr rfl fun l _ => ?_
        simp only [Matrix.transpose_apply]
        rw [mat_elem (by simpa [part21] using hin), mat_elem (by simpa [part21] using hin), elem21, elem21]
        simp only [Nat.add_sub_of_le (le_trans hj hij), Nat.add_sub_of_le hj]
      -- what has not changed
      have k1 : ∀ {i j}, k ≤ i → i < n → elem A m1 i j = elem A m i j := fun hi hi' =>
        part_frame hA (is11 hA) o11 d11 (by omega) w1.1 hi' (by intros; omega)
      have k2 : ∀ {i j}, i < n → i < k ∨ k ≤ j → elem A m2 i j = elem A m1 i j := fun hi' hi =>
        part_frame hA (is21 hA) o21 d21 (by omega) w2.1 hi' (by intros; omega)
      have k3 : ∀ {i j}, i < n → i < k ∨ j < k → elem A m3 i j = elem A m2 i j := fun hi' hi =>
        part_frame hA (is22 hA) o22 d22 (by omega) w3.1 hi' (by intros; omega)
      rcases ih (is22 hA3) (by omega) with ⟨m4, e4, f4⟩ | ⟨m4, info, e4, h4, w4⟩
      · rw [factorised_iff (by simpa [part22] using hin)] at f4
        obtain ⟨f4, n4, w4⟩ := f4
        have l4 := w4.live
        have k4 : ∀ {i j}, i < n → i < k ∨ j < k → elem A m4 i j = elem A m3 i j := fun hi' hi =>
          part_frame hA (is22 hA) o22 d22 (by omega) w4.1 hi' (by intros; omega)
        left
        refine ⟨m4, by simp only [e1, Out.andThen, e2, e3, e4], (factorised_iff hin).2 ⟨?_, ?_, ?_⟩⟩
        · intro i j hij hi
          by_cases hik : i < k
          · rw [show elem A m i j = elem (part11 A k) m i j from rfl, ← f1 i j hij hik]
            refine Finset.sum_congr rfl fun l _ => ?_
            rw [k4 hi (Or.inl hik), k3 hi (Or.inl hik), k2 hi (Or.inl hik), k4 (by omega : j < n) (Or.inl (by omega)),
              k3 (by omega : j < n) (Or.inl (by omega)), k2 (by omega : j < n) (Or.inl (by omega))]
            rfl
          · by_cases hjk : j < k
            · rw [← k1 (by omega : k ≤ i) hi, ← g2 i j (by omega) hi hjk]
              refine Finset.sum_congr rfl fun l hl => ?_
              have hl' : l < k := by have := Finset.mem_range.1 hl; omega
              rw [k4 hi (Or.inr hl'), k3 hi (Or.inr hl'), k4 (by omega : j < n) (Or.inl hjk), k3 (by omega : j < n) (Or.inl hjk),
                k2 (by omega : j < n) (Or.inl hjk)]
            · obtain ⟨i', rfl⟩ := Nat.exists_eq_add_of_le (show k ≤ i by omega)
              obtain ⟨j', rfl⟩ := Nat.exists_eq_add_of_le (show k ≤ j by omega)
              rw [Nat.add_assoc, Finset.sum_range_add]
              have hf := f4 i' j' (by omega) (by omega)
              simp only [elem22] at hf
              rw [hf, g3 _ _ (by omega) (by omega) hi, k2 hi (Or.inr (by omega)), k1 (by omega) hi, add_comm, sub_add_eq_add_sub, sub_eq_iff_eq_add,
                add_right_inj]
              refine Finset.sum_congr rfl fun l hl => ?_
              have hl' : l < k := Finset.mem_range.1 hl
              rw [k4 hi (Or.inr hl'), k3 hi (Or.inr hl'), k4 (by omega : k + j' < n) (Or.inr hl'), k3 (by omega : k + j' < n) (Or.inr hl')]
        · intro i hi
          by_cases hik : i < k
          · rw [k4 hi (Or.inl hik), k3 hi (Or.inl hik), k2 hi (Or.inl hik)]
            exact n1 i hik
          · obtain ⟨i', rfl⟩ := Nat.exists_eq_add_of_le (show k ≤ i by omega)
            rw [← elem22 A n k]
            exact n4 i' (by omega)
        · exact only (fun a ha => by rw [w4.1 a (in22 ha), w3.1 a (in22 ha), w2.1 a (in21 ha), w1.1 a (in11 ha)])
            (((l1.trans l2).trans l3).trans l4)
      · right
        exact ⟨m4, info, by simp only [e1, Out.andThen, e2, e3, e4], h4,
          only (fun a ha => by rw [w4.1 a (in22 ha), w3.1 a (in22 ha), w2.1 a (in21 ha), w1.1 a (in11 ha)])
            (((l1.trans l2).trans l3).trans w4.live)⟩
    · right
      exact ⟨m1, info, by simp only [e1, Out.andThen], h1, only (fun a ha => w1.1 a (in11 ha)) w1.live⟩

/-- C117: the blocked factorisation solves systems, too. -/
theorem blocked_solves (hL : L.Conforms) (ks : List ℕ) {A B : View} {n c : ℕ} {m : Mem α} (hA : Is A n n m) (hB : Is B n c m) (hs : Separate B A)
    (hk : ks.sum ≤ n) :
    (∃ m', ((blockedCholesky L ks A m).andThen fun m => (xtrsm_LLNN L 1 A B m).andThen fun m => xtrsm_LLTN L 1 A B m) = .ok m' ∧
      symm (mat A n n m) * mat B n c m' = mat B n c m) ∨
    (∃ m' info, blockedCholesky L ks A m = .lapackError info m' ∧ 0 < info ∧ mat B n c m' = mat B n c m) := by
  rcases blocked_factorises hL ks hA hk with ⟨m1, e1, f1, d1, o1⟩ | ⟨m1, info, e1, h1, o1⟩
  · left
    have hA1 := hA.live o1.live
    have hB1 := hB.live o1.live
    have b1 : mat B n c m1 = mat B n c m := mat_separate_lower hB hs.symm' o1
    obtain ⟨m2, e2, f2, o2⟩ := xtrsm_LLNN_partial hL 1 hA1 hB1 hs d1
    have hA2 := hA1.live o2.live
    have hB2 := hB1.live o2.live
    have a2 : mat A n n m2 = mat A n n m1 := mat_separate hA1 hs o2
    obtain ⟨m3, e3, f3, o3⟩ := xtrsm_LLTN_partial hL 1 hA2 hB2 hs (by rw [a2]; exact d1)
    refine ⟨m3, by simp only [e1, Out.andThen, e2, e3], ?_⟩
    rw [← f1, Matrix.mul_assoc, ← a2, f3, one_smul, a2, f2, one_smul, b1]
  · right
    exact ⟨m1, info, e1, h1, mat_separate_lower hB hs.symm' o1⟩

/-! ## A case

`A = [4 2; 2 5]` (with something else above the diagonal) and `B = [8; 8]`: the solution is `[3/2; 1]`. -/

def solA : View := { data := 0, rows := 2, cols := 2, inner := 1, outer := 2 }
def solB : View := { data := 10, rows := 2, cols := 1, inner := 1, outer := 2 }
def solMem : Mem ℚ := fun a => some (if a = 0 then 4 else if a = 1 then 2 else if a = 3 then 5 else if a = 2 then 99 else 8)

theorem solA_is : Is solA 2 2 solMem := ⟨rfl, rfl, rfl, by decide, fun _ _ _ => ⟨_, rfl⟩⟩
theorem solB_is : Is solB 2 1 solMem := ⟨rfl, rfl, rfl, by decide, fun _ _ _ => ⟨_, rfl⟩⟩
theorem sol_separate : Separate solB solA := by
  rintro a ⟨r, c, ⟨h1, h2, h3, h4⟩, -, e⟩ ⟨r', c', ⟨g1, g2, g3, g4⟩, -, e'⟩
  simp only [solA, solB] at *; omega

/-- The reference library finds the factor of a matrix that has one. -/
theorem ref_potrf_finds {n a lda : Int} {m m' : Mem α} (h0 : 0 ≤ n) (h1 : LdOk .col n n lda)
    (h : PotrfP .lower n a lda (keep (At (tri .lower n) (cell .col a lda)) m) m') : ((ref α).potrf .lower n a lda m).2 = 0 := by
  simp only [ref]
  rw [if_pos ⟨h0, h1⟩]
  simp only [potrfAt]
  rw [if_pos ⟨m', h⟩]

/-- The factor `[2 0; 1 2]`. -/
theorem sol_potrf : ((ref ℚ).potrf .lower 2 0 2 solMem).2 = 0 := by
  have hat : ∀ i j : ℕ, (i : Int) < 2 → j ≤ i → At (tri .lower 2) (cell .col 0 2) (cell .col 0 2 i j) := fun i j hi hj => ⟨i, j, ⟨hi, hj⟩, rfl⟩
  have h0 := hat 0 0 (by decide) (by decide)
  have h1 := hat 1 0 (by decide) (by decide)
  have h3 := hat 1 1 (by decide) (by decide)
  simp only [cell] at h0 h1 h3
  norm_num at h0 h1 h3
  refine ref_potrf_finds (m' := fun a => if a = 0 then some 2 else if a = 1 then some 1 else if a = 3 then some 2 else none) (by decide)
    (by simp [LdOk]) ⟨⟨?_, ?_⟩, ?_, ?_⟩
  · rintro i j ⟨hi, hj⟩
    have : (i = 0 ∧ j = 0) ∨ (i = 1 ∧ j = 0) ∨ (i = 1 ∧ j = 1) := by omega
    rcases this with ⟨rfl, rfl⟩ | ⟨rfl, rfl⟩ | ⟨rfl, rfl⟩ <;> simp [cell]
  · intro a ha
    have n0 : a ≠ 0 := fun h => ha 0 0 (by simp [tri]) (by simp [cell, h])
    have n1 : a ≠ 1 := fun h => ha 1 0 (by simp [tri]) (by simp [cell, h])
    have n3 : a ≠ 3 := fun h => ha 1 1 (by simp [tri]) (by simp [cell, h])
    simp only [n0, n1, n3, if_false, keep]
    rw [if_neg]
    rintro ⟨i, j, hij, e⟩
    exact ha i j hij e
  · rintro i j hi hj ⟨_, hij⟩
    have : (i = 0 ∧ j = 0) ∨ (i = 1 ∧ j = 0) ∨ (i = 1 ∧ j = 1) := by omega
    rcases this with ⟨rfl, rfl⟩ | ⟨rfl, rfl⟩ | ⟨rfl, rfl⟩ <;>
      simp [cell, triVal, val, keep, h0, h1, h3, solMem, Finset.sum_range_succ] <;> norm_num
  · intro _ k hk
    have : k = 0 ∨ k = 1 := by omega
    rcases this with rfl | rfl <;> simp [cell, val]

example : ∃ m', choleskySolve (ref ℚ) solA solB solMem = .ok m' ∧ mat solB 2 1 m' = !![3/2; 1] := by
  rcases cholesky_solves ref_conforms solA_is solB_is sol_separate with ⟨m', e, h, -⟩ | ⟨m', info, e, h, -⟩
  · refine ⟨m', e, ?_⟩
    have h0 := congrFun (congrFun h 0) 0
    have h1 := congrFun (congrFun h 1) 0
    simp [Matrix.mul_apply, Fin.sum_univ_two, symm, mat, val, View.addr, solMem, solA, solB] at h0 h1
    ext i j
    fin_cases i <;> fin_cases j <;> simp [mat, val, View.addr, solB] <;> linarith
  · exfalso
    have hp : xpotrf_L (ref ℚ) solA solMem = .ok ((ref ℚ).potrf .lower 2 0 2 solMem).1 := by
      unfold xpotrf_L xpotrf
      rw [assume_ok (by decide)]
      simp only [solA, throwOnErr, sol_potrf]
      rfl
    simp only [choleskySolve, hp, Out.andThen] at e
    rcases potrf_factorised ref_conforms solA_is with ⟨m1, e1, f1, d1, o1⟩ | ⟨m1, info1, e1, -⟩
    · rw [hp] at e1
      cases e1
      obtain ⟨m2, e2, f2, o2⟩ := xtrsm_LLNN_partial ref_conforms 1 (solA_is.live o1.live) (solB_is.live o1.live) sol_separate d1
      have a2 := mat_separate (solA_is.live o1.live) sol_separate o2
      obtain ⟨m3, e3, -⟩ := xtrsm_LLTN_partial ref_conforms 1 ((solA_is.live o1.live).live o2.live) ((solB_is.live o1.live).live o2.live) sol_separate
        (by rw [a2]; exact d1)
      rw [e2] at e
      simp only [e3] at e
      exact nomatch e
    · rw [hp] at e1
      exact nomatch e1

/-- The parts of a matrix of 5×5 for blocks of 2, 2 and the rest. -/
example (m : Mem ℚ) (hm : ∀ a, ∃ x, m a = some x) : Is { data := 7, rows := 5, cols := 5, inner := 1, outer := 8 } 5 5 m ∧ [2, 2].sum ≤ 5 :=
  ⟨⟨rfl, rfl, rfl, by decide, fun _ _ _ => hm _⟩, by decide⟩

end Guanaqo.Blas
