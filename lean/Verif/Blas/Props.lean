import Verif.Blas.Routines

/-! # The functions on views compute what they are named after (C66)

For every library that meets the contract, and for all sizes, views and distances between columns that BLAS allows. `lower A` is the lower
triangle of `A`. -/

namespace Guanaqo.Blas

open Guanaqo.MatView (View)
open Finset Matrix

variable {α : Type} [Field α] {L : Lib α}

set_option linter.unusedSectionVars false
set_option linter.unusedSimpArgs false
set_option linter.unusedTactic false
set_option linter.unreachableTactic false

theorem assume_ok {p : Bool} {k : Out α} (h : p = true) : assume p k = k := by rw [h]; rfl

/-- `C := alpha A B + beta C` -/
theorem xgemm_NN_partial (hL : L.Conforms) {A B C : View} {r k c : ℕ} (alpha beta : α) {m : Mem α} (hA : Is A r k m) (hB : Is B k c m)
    (hC : Is C r c m) (h1 : Separate C A) (h2 : Separate C B) :
    ∃ m', xgemm_NN L alpha A B beta C m = .ok m' ∧
      mat C r c m' = alpha • (mat A r k m * mat B k c m) + beta • mat C r c m ∧ OnlyIn C m m' := by
  obtain ⟨m', e, h⟩ := gemm_view hL .no .no alpha beta hA hB hC h1 h2
  rw [opMat_no hA.inner, opMat_no hB.inner] at h
  refine ⟨m', ?_, h⟩
  unfold xgemm_NN xgemm
  rw [assume_ok (by simp [hA.rows, hA.cols, hB.rows, hB.cols, hC.rows, hC.cols])]
  simpa only [hA.rows, hA.cols, hC.rows, hC.cols] using e

/-- `C := alpha Aᵀ B + beta C` -/
theorem xgemm_TN_partial (hL : L.Conforms) {A B C : View} {r k c : ℕ} (alpha beta : α) {m : Mem α} (hA : Is A k r m) (hB : Is B k c m)
    (hC : Is C r c m) (h1 : Separate C A) (h2 : Separate C B) :
    ∃ m', xgemm_TN L alpha A B beta C m = .ok m' ∧
      mat C r c m' = alpha • ((mat A k r m)ᵀ * mat B k c m) + beta • mat C r c m ∧ OnlyIn C m m' := by
  obtain ⟨m', e, h⟩ := gemm_view hL .yes .no alpha beta hA hB hC h1 h2
  rw [opMat_yes hA.inner, opMat_no hB.inner] at h
  refine ⟨m', ?_, h⟩
  unfold xgemm_TN xgemm
  rw [assume_ok (by simp [hA.rows, hA.cols, hB.rows, hB.cols, hC.rows, hC.cols])]
  simpa only [hA.rows, hA.cols, hC.rows, hC.cols] using e

/-- `C := alpha Aᵀ Bᵀ + beta C` -/
theorem xgemm_TT_partial (hL : L.Conforms) {A B C : View} {r k c : ℕ} (alpha beta : α) {m : Mem α} (hA : Is A k r m) (hB : Is B c k m)
    (hC : Is C r c m) (h1 : Separate C A) (h2 : Separate C B) :
    ∃ m', xgemm_TT L alpha A B beta C m = .ok m' ∧
      mat C r c m' = alpha • ((mat A k r m)ᵀ * (mat B c k m)ᵀ) + beta • mat C r c m ∧ OnlyIn C m m' := by
  obtain ⟨m', e, h⟩ := gemm_view hL .yes .yes alpha beta hA hB hC h1 h2
  rw [opMat_yes hA.inner, opMat_yes hB.inner] at h
  refine ⟨m', ?_, h⟩
  unfold xgemm_TT xgemm
  rw [assume_ok (by simp [hA.rows, hA.cols, hB.rows, hB.cols, hC.rows, hC.cols])]
  simpa only [hA.rows, hA.cols, hC.rows, hC.cols] using e

/-- `C := alpha A Bᵀ + beta C` -/
theorem xgemm_NT_partial (hL : L.Conforms) {A B C : View} {r k c : ℕ} (alpha beta : α) {m : Mem α} (hA : Is A r k m) (hB : Is B c k m)
    (hC : Is C r c m) (h1 : Separate C A) (h2 : Separate C B) :
    ∃ m', xgemm_NT L alpha A B beta C m = .ok m' ∧
      mat C r c m' = alpha • (mat A r k m * (mat B c k m)ᵀ) + beta • mat C r c m ∧ OnlyIn C m m' := by
  obtain ⟨m', e, h⟩ := gemm_view hL .no .yes alpha beta hA hB hC h1 h2
  rw [opMat_no hA.inner, opMat_yes hB.inner] at h
  refine ⟨m', ?_, h⟩
  unfold xgemm_NT xgemm
  rw [assume_ok (by simp [hA.rows, hA.cols, hB.rows, hB.cols, hC.rows, hC.cols])]
  simpa only [hA.rows, hA.cols, hC.rows, hC.cols] using e

/-- `C := alpha A B + beta C`, the lower triangle only. -/
theorem xgemmt_LNN_partial (hL : L.Conforms) {A B C : View} {n k : ℕ} (alpha beta : α) {m : Mem α} (hA : Is A n k m) (hB : Is B k n m)
    (hC : Is C n n m) (h1 : Separate C A) (h2 : Separate C B) :
    ∃ m', xgemmt_LNN L alpha A B beta C m = .ok m' ∧
      LowerEq (mat C n n m') (alpha • (mat A n k m * mat B k n m) + beta • mat C n n m) ∧ OnlyInLower C m m' := by
  obtain ⟨m', e, h⟩ := gemmt_view hL .no .no alpha beta hA hB hC h1 h2
  rw [opMat_no hA.inner, opMat_no hB.inner] at h
  refine ⟨m', ?_, h⟩
  unfold xgemmt_LNN xgemmt
  rw [assume_ok (by simp [hA.rows, hA.cols, hB.rows, hB.cols, hC.rows, hC.cols])]
  simpa only [hA.rows, hA.cols, hC.rows, hC.cols] using e

/-- `C := alpha Aᵀ B + beta C`, the lower triangle only. -/
theorem xgemmt_LTN_partial (hL : L.Conforms) {A B C : View} {n k : ℕ} (alpha beta : α) {m : Mem α} (hA : Is A k n m) (hB : Is B k n m)
    (hC : Is C n n m) (h1 : Separate C A) (h2 : Separate C B) :
    ∃ m', xgemmt_LTN L alpha A B beta C m = .ok m' ∧
      LowerEq (mat C n n m') (alpha • ((mat A k n m)ᵀ * mat B k n m) + beta • mat C n n m) ∧ OnlyInLower C m m' := by
  obtain ⟨m', e, h⟩ := gemmt_view hL .yes .no alpha beta hA hB hC h1 h2
  rw [opMat_yes hA.inner, opMat_no hB.inner] at h
  refine ⟨m', ?_, h⟩
  unfold xgemmt_LTN xgemmt
  rw [assume_ok (by simp [hA.rows, hA.cols, hB.rows, hB.cols, hC.rows, hC.cols])]
  simpa only [hA.rows, hA.cols, hC.rows, hC.cols] using e

/-- `C := alpha Aᵀ Bᵀ + beta C`, the lower triangle only. -/
theorem xgemmt_LTT_partial (hL : L.Conforms) {A B C : View} {n k : ℕ} (alpha beta : α) {m : Mem α} (hA : Is A k n m) (hB : Is B n k m)
    (hC : Is C n n m) (h1 : Separate C A) (h2 : Separate C B) :
    ∃ m', xgemmt_LTT L alpha A B beta C m = .ok m' ∧
      LowerEq (mat C n n m') (alpha • ((mat A k n m)ᵀ * (mat B n k m)ᵀ) + beta • mat C n n m) ∧ OnlyInLower C m m' := by
  obtain ⟨m', e, h⟩ := gemmt_view hL .yes .yes alpha beta hA hB hC h1 h2
  rw [opMat_yes hA.inner, opMat_yes hB.inner] at h
  refine ⟨m', ?_, h⟩
  unfold xgemmt_LTT xgemmt
  rw [assume_ok (by simp [hA.rows, hA.cols, hB.rows, hB.cols, hC.rows, hC.cols])]
  simpa only [hA.rows, hA.cols, hC.rows, hC.cols] using e

/-- `C := alpha A Bᵀ + beta C`, the lower triangle only. -/
theorem xgemmt_LNT_partial (hL : L.Conforms) {A B C : View} {n k : ℕ} (alpha beta : α) {m : Mem α} (hA : Is A n k m) (hB : Is B n k m)
    (hC : Is C n n m) (h1 : Separate C A) (h2 : Separate C B) :
    ∃ m', xgemmt_LNT L alpha A B beta C m = .ok m' ∧
      LowerEq (mat C n n m') (alpha • (mat A n k m * (mat B n k m)ᵀ) + beta • mat C n n m) ∧ OnlyInLower C m m' := by
  obtain ⟨m', e, h⟩ := gemmt_view hL .no .yes alpha beta hA hB hC h1 h2
  rw [opMat_no hA.inner, opMat_yes hB.inner] at h
  refine ⟨m', ?_, h⟩
  unfold xgemmt_LNT xgemmt
  rw [assume_ok (by simp [hA.rows, hA.cols, hB.rows, hB.cols, hC.rows, hC.cols])]
  simpa only [hA.rows, hA.cols, hC.rows, hC.cols] using e

/-- `C := alpha A Aᵀ + beta C`, the lower triangle only. -/
theorem xsyrk_LN_partial (hL : L.Conforms) {A C : View} {n k : ℕ} (alpha beta : α) {m : Mem α} (hA : Is A n k m) (hC : Is C n n m) (h1 : Separate C A) :
    ∃ m', xsyrk_LN L alpha A beta C m = .ok m' ∧
      LowerEq (mat C n n m') (alpha • (mat A n k m * (mat A n k m)ᵀ) + beta • mat C n n m) ∧ OnlyInLower C m m' := by
  obtain ⟨m', e, h⟩ := syrk_view hL .no alpha beta hA hC h1
  rw [opMat_no hA.inner] at h
  refine ⟨m', ?_, h⟩
  unfold xsyrk_LN xsyrk
  rw [assume_ok (by simp [hA.rows, hA.cols, hC.rows, hC.cols])]
  simpa only [hA.rows, hA.cols, hC.rows, hC.cols] using e

/-- `C := alpha Aᵀ A + beta C`, the lower triangle only. -/
theorem xsyrk_LT_partial (hL : L.Conforms) {A C : View} {n k : ℕ} (alpha beta : α) {m : Mem α} (hA : Is A k n m) (hC : Is C n n m) (h1 : Separate C A) :
    ∃ m', xsyrk_LT L alpha A beta C m = .ok m' ∧
      LowerEq (mat C n n m') (alpha • ((mat A k n m)ᵀ * mat A k n m) + beta • mat C n n m) ∧ OnlyInLower C m m' := by
  obtain ⟨m', e, h⟩ := syrk_view hL .yes alpha beta hA hC h1
  rw [opMat_yes hA.inner] at h
  refine ⟨m', ?_, by simpa only [Matrix.transpose_transpose] using h⟩
  unfold xsyrk_LT xsyrk
  rw [assume_ok (by simp [hA.rows, hA.cols, hC.rows, hC.cols])]
  simpa only [hA.rows, hA.cols, hC.rows, hC.cols] using e

/-- `y := alpha A x + beta y`, for a matrix that is not empty. -/
theorem xgemv_N_partial (hL : L.Conforms) {A x y : View} {r c : ℕ} (alpha beta : α) {m : Mem α} (hr : 0 < r) (hc : 0 < c) (hA : Is A r c m)
    (hx : Is x c 1 m) (hy : Is y r 1 m) (h1 : Separate y A) (h2 : Separate y x) :
    ∃ m', xgemv_N L alpha A x beta y m = .ok m' ∧
      mat y r 1 m' = alpha • (mat A r c m * mat x c 1 m) + beta • mat y r 1 m ∧ OnlyIn y m m' := by
  obtain ⟨m', e, h⟩ := gemv_view hL .no alpha beta hr hc hA hx hy h1 h2
  rw [opMat_no hA.inner] at h
  refine ⟨m', ?_, h⟩
  unfold xgemv_N xgemv
  rw [assume_ok (by simp [hA.rows, hA.cols, hx.rows, hx.cols, hy.rows, hy.cols])]
  exact e

/-- `y := alpha Aᵀ x + beta y`, for a matrix that is not empty. -/
theorem xgemv_T_partial (hL : L.Conforms) {A x y : View} {r c : ℕ} (alpha beta : α) {m : Mem α} (hr : 0 < r) (hc : 0 < c) (hA : Is A c r m)
    (hx : Is x c 1 m) (hy : Is y r 1 m) (h1 : Separate y A) (h2 : Separate y x) :
    ∃ m', xgemv_T L alpha A x beta y m = .ok m' ∧
      mat y r 1 m' = alpha • ((mat A c r m)ᵀ * mat x c 1 m) + beta • mat y r 1 m ∧ OnlyIn y m m' := by
  obtain ⟨m', e, h⟩ := gemv_view hL .yes alpha beta hr hc hA hx hy h1 h2
  rw [opMat_yes hA.inner] at h
  refine ⟨m', ?_, h⟩
  unfold xgemv_T xgemv
  rw [assume_ok (by simp [hA.rows, hA.cols, hx.rows, hx.cols, hy.rows, hy.cols])]
  exact e

/-- `x := lower(A) x` -/
theorem xtrmv_LNN_partial (hL : L.Conforms) {A x : View} {n : ℕ} {m : Mem α} (hA : Is A n n m) (hx : Is x n 1 m) (h1 : Separate x A) :
    ∃ m', xtrmv_LNN L A x m = .ok m' ∧ mat x n 1 m' = lower (mat A n n m) * mat x n 1 m ∧ OnlyIn x m m' := by
  obtain ⟨m', e, h⟩ := trmv_view hL .no hA hx h1
  refine ⟨m', ?_, h⟩
  unfold xtrmv_LNN xtrmv
  rw [assume_ok (by simp [hA.rows, hA.cols, hx.rows, hx.cols])]
  simpa only [hA.rows] using e

/-- The new `x` solves `lower(A) x = old x`. -/
theorem xtrsv_LNN_partial (hL : L.Conforms) {A x : View} {n : ℕ} {m : Mem α} (hA : Is A n n m) (hx : Is x n 1 m) (h1 : Separate x A)
    (hd : ∀ i, mat A n n m i i ≠ 0) :
    ∃ m', xtrsv_LNN L A x m = .ok m' ∧ lower (mat A n n m) * mat x n 1 m' = mat x n 1 m ∧ OnlyIn x m m' := by
  obtain ⟨m', e, h⟩ := trsv_view hL .no hA hx h1 hd
  refine ⟨m', ?_, h⟩
  unfold xtrsv_LNN xtrsv
  rw [assume_ok (by simp [hA.rows, hA.cols, hx.rows, hx.cols])]
  simpa only [hA.rows] using e

/-- `x := lower(A)ᵀ x` -/
theorem xtrmv_LTN_partial (hL : L.Conforms) {A x : View} {n : ℕ} {m : Mem α} (hA : Is A n n m) (hx : Is x n 1 m) (h1 : Separate x A) :
    ∃ m', xtrmv_LTN L A x m = .ok m' ∧ mat x n 1 m' = (lower (mat A n n m))ᵀ * mat x n 1 m ∧ OnlyIn x m m' := by
  obtain ⟨m', e, h⟩ := trmv_view hL .yes hA hx h1
  refine ⟨m', ?_, h⟩
  unfold xtrmv_LTN xtrmv
  rw [assume_ok (by simp [hA.rows, hA.cols, hx.rows, hx.cols])]
  simpa only [hA.rows] using e

/-- The new `x` solves `lower(A)ᵀ x = old x`. -/
theorem xtrsv_LTN_partial (hL : L.Conforms) {A x : View} {n : ℕ} {m : Mem α} (hA : Is A n n m) (hx : Is x n 1 m) (h1 : Separate x A)
    (hd : ∀ i, mat A n n m i i ≠ 0) :
    ∃ m', xtrsv_LTN L A x m = .ok m' ∧ (lower (mat A n n m))ᵀ * mat x n 1 m' = mat x n 1 m ∧ OnlyIn x m m' := by
  obtain ⟨m', e, h⟩ := trsv_view hL .yes hA hx h1 hd
  refine ⟨m', ?_, h⟩
  unfold xtrsv_LTN xtrsv
  rw [assume_ok (by simp [hA.rows, hA.cols, hx.rows, hx.cols])]
  simpa only [hA.rows] using e

/-- `B := alpha lower(A) B` -/
theorem xtrmm_LLNN_partial (hL : L.Conforms) {A B : View} {n c : ℕ} (alpha : α) {m : Mem α} (hA : Is A n n m) (hB : Is B n c m) (h1 : Separate B A) :
    ∃ m', xtrmm_LLNN L alpha A B m = .ok m' ∧ mat B n c m' = alpha • (lower (mat A n n m) * mat B n c m) ∧ OnlyIn B m m' := by
  obtain ⟨m', e, h⟩ := trmm_view_left hL .no alpha hA hB h1
  refine ⟨m', ?_, h⟩
  unfold xtrmm_LLNN xtrmm
  rw [assume_ok (by simp [hA.rows, hA.cols, hB.rows, hB.cols])]
  simpa only [hB.rows, hB.cols] using e

/-- The new `B` solves `lower(A) X = alpha B`. -/
theorem xtrsm_LLNN_partial (hL : L.Conforms) {A B : View} {n c : ℕ} (alpha : α) {m : Mem α} (hA : Is A n n m) (hB : Is B n c m) (h1 : Separate B A)
    (hd : ∀ i, mat A n n m i i ≠ 0) :
    ∃ m', xtrsm_LLNN L alpha A B m = .ok m' ∧ lower (mat A n n m) * mat B n c m' = alpha • mat B n c m ∧ OnlyIn B m m' := by
  obtain ⟨m', e, h⟩ := trsm_view_left hL .no alpha hA hB h1 hd
  refine ⟨m', ?_, h⟩
  unfold xtrsm_LLNN xtrsm
  rw [assume_ok (by simp [hA.rows, hA.cols, hB.rows, hB.cols])]
  simpa only [hB.rows, hB.cols] using e

/-- `B := alpha lower(A)ᵀ B` -/
theorem xtrmm_LLTN_partial (hL : L.Conforms) {A B : View} {n c : ℕ} (alpha : α) {m : Mem α} (hA : Is A n n m) (hB : Is B n c m) (h1 : Separate B A) :
    ∃ m', xtrmm_LLTN L alpha A B m = .ok m' ∧ mat B n c m' = alpha • ((lower (mat A n n m))ᵀ * mat B n c m) ∧ OnlyIn B m m' := by
  obtain ⟨m', e, h⟩ := trmm_view_left hL .yes alpha hA hB h1
  refine ⟨m', ?_, h⟩
  unfold xtrmm_LLTN xtrmm
  rw [assume_ok (by simp [hA.rows, hA.cols, hB.rows, hB.cols])]
  simpa only [hB.rows, hB.cols] using e

/-- The new `B` solves `lower(A)ᵀ X = alpha B`. -/
theorem xtrsm_LLTN_partial (hL : L.Conforms) {A B : View} {n c : ℕ} (alpha : α) {m : Mem α} (hA : Is A n n m) (hB : Is B n c m) (h1 : Separate B A)
    (hd : ∀ i, mat A n n m i i ≠ 0) :
    ∃ m', xtrsm_LLTN L alpha A B m = .ok m' ∧ (lower (mat A n n m))ᵀ * mat B n c m' = alpha • mat B n c m ∧ OnlyIn B m m' := by
  obtain ⟨m', e, h⟩ := trsm_view_left hL .yes alpha hA hB h1 hd
  refine ⟨m', ?_, h⟩
  unfold xtrsm_LLTN xtrsm
  rw [assume_ok (by simp [hA.rows, hA.cols, hB.rows, hB.cols])]
  simpa only [hB.rows, hB.cols] using e

/-- `B := alpha B lower(A)` -/
theorem xtrmm_RLNN_partial (hL : L.Conforms) {A B : View} {n r : ℕ} (alpha : α) {m : Mem α} (hA : Is A n n m) (hB : Is B r n m) (h1 : Separate B A) :
    ∃ m', xtrmm_RLNN L alpha A B m = .ok m' ∧ mat B r n m' = alpha • (mat B r n m * lower (mat A n n m)) ∧ OnlyIn B m m' := by
  obtain ⟨m', e, h⟩ := trmm_view_right hL .no alpha hA hB h1
  refine ⟨m', ?_, h⟩
  unfold xtrmm_RLNN xtrmm
  rw [assume_ok (by simp [hA.rows, hA.cols, hB.rows, hB.cols])]
  simpa only [hB.rows, hB.cols] using e

/-- The new `B` solves `X lower(A) = alpha B`. -/
theorem xtrsm_RLNN_partial (hL : L.Conforms) {A B : View} {n r : ℕ} (alpha : α) {m : Mem α} (hA : Is A n n m) (hB : Is B r n m) (h1 : Separate B A)
    (hd : ∀ i, mat A n n m i i ≠ 0) :
    ∃ m', xtrsm_RLNN L alpha A B m = .ok m' ∧ mat B r n m' * lower (mat A n n m) = alpha • mat B r n m ∧ OnlyIn B m m' := by
  obtain ⟨m', e, h⟩ := trsm_view_right hL .no alpha hA hB h1 hd
  refine ⟨m', ?_, h⟩
  unfold xtrsm_RLNN xtrsm
  rw [assume_ok (by simp [hA.rows, hA.cols, hB.rows, hB.cols])]
  simpa only [hB.rows, hB.cols] using e

/-- `B := alpha B lower(A)ᵀ` -/
theorem xtrmm_RLTN_partial (hL : L.Conforms) {A B : View} {n r : ℕ} (alpha : α) {m : Mem α} (hA : Is A n n m) (hB : Is B r n m) (h1 : Separate B A) :
    ∃ m', xtrmm_RLTN L alpha A B m = .ok m' ∧ mat B r n m' = alpha • (mat B r n m * (lower (mat A n n m))ᵀ) ∧ OnlyIn B m m' := by
  obtain ⟨m', e, h⟩ := trmm_view_right hL .yes alpha hA hB h1
  refine ⟨m', ?_, h⟩
  unfold xtrmm_RLTN xtrmm
  rw [assume_ok (by simp [hA.rows, hA.cols, hB.rows, hB.cols])]
  simpa only [hB.rows, hB.cols] using e

/-- The new `B` solves `X lower(A)ᵀ = alpha B`. -/
theorem xtrsm_RLTN_partial (hL : L.Conforms) {A B : View} {n r : ℕ} (alpha : α) {m : Mem α} (hA : Is A n n m) (hB : Is B r n m) (h1 : Separate B A)
    (hd : ∀ i, mat A n n m i i ≠ 0) :
    ∃ m', xtrsm_RLTN L alpha A B m = .ok m' ∧ mat B r n m' * (lower (mat A n n m))ᵀ = alpha • mat B r n m ∧ OnlyIn B m m' := by
  obtain ⟨m', e, h⟩ := trsm_view_right hL .yes alpha hA hB h1 hd
  refine ⟨m', ?_, h⟩
  unfold xtrsm_RLTN xtrsm
  rw [assume_ok (by simp [hA.rows, hA.cols, hB.rows, hB.cols])]
  simpa only [hB.rows, hB.cols] using e

/-! ## LAPACK (C66, C68) -/

/-- If it returns, the lower triangle is the Cholesky factor: `L Lᵀ = A`. Otherwise it throws, with the code of LAPACK. In both cases
nothing but the lower triangle has changed. -/
theorem xpotrf_L_partial (hL : L.Conforms) {A : View} {n : ℕ} {m : Mem α} (hA : Is A n n m) :
    (∃ m', xpotrf_L L A m = .ok m' ∧ LowerEq (lower (mat A n n m') * (lower (mat A n n m'))ᵀ) (mat A n n m) ∧
      (∀ i, mat A n n m' i i ≠ 0) ∧ OnlyInLower A m m') ∨
    (∃ m' info, xpotrf_L L A m = .lapackError info m' ∧ 0 < info ∧ info = (L.potrf .lower n A.data A.outer m).2 ∧ OnlyInLower A m m') := by
  unfold xpotrf_L xpotrf
  rw [assume_ok (by simp [hA.rows, hA.cols]), hA.rows]
  obtain ⟨m', info, e⟩ : ∃ m' info, L.potrf .lower n A.data A.outer m = (m', info) := ⟨_, _, rfl⟩
  obtain ⟨h1, h2, h3, h4⟩ := potrf_view hL hA e
  rw [e]
  unfold throwOnErr
  by_cases h0 : info = 0
  · left; exact ⟨m', by simp [h0], h3 h0, h4 h0, h2⟩
  · right; exact ⟨m', info, by simp [h0], by omega, rfl, h2⟩

/-- The lower triangle becomes that of `Lᵀ L`. -/
theorem xlauum_L_partial (hL : L.Conforms) {A : View} {n : ℕ} {m : Mem α} (hA : Is A n n m) :
    ∃ m', xlauum_L L A m = .ok m' ∧ LowerEq (mat A n n m') ((lower (mat A n n m))ᵀ * lower (mat A n n m)) ∧ OnlyInLower A m m' := by
  obtain ⟨m', e, h⟩ := lauum_view hL hA
  refine ⟨m', ?_, h⟩
  unfold xlauum_L xlauum
  rw [assume_ok (by simp [hA.rows, hA.cols]), hA.rows, e]; rfl

/-- The lower triangle becomes its inverse, or `lapack_error` is thrown, with the position of the first zero on the diagonal. -/
theorem xtrtri_LN_partial (hL : L.Conforms) {A : View} {n : ℕ} {m : Mem α} (hA : Is A n n m) :
    ((∀ i, mat A n n m i i ≠ 0) → ∃ m', xtrtri_LN L A m = .ok m' ∧ lower (mat A n n m') * lower (mat A n n m) = 1 ∧ OnlyInLower A m m') ∧
    (∀ k, mat A n n m k k = 0 → (∀ i < k, mat A n n m i i ≠ 0) → xtrtri_LN L A m = .lapackError ((k : Int) + 1) m) := by
  obtain ⟨h1, h2⟩ := trtri_view hL hA
  unfold xtrtri_LN xtrtri
  rw [assume_ok (by simp [hA.rows, hA.cols]), hA.rows]
  refine ⟨fun hd => ?_, fun k hk hi => ?_⟩
  · obtain ⟨m', e, h⟩ := h1 hd
    exact ⟨m', by rw [e]; rfl, h⟩
  · rw [h2 k hk hi]
    unfold throwOnErr
    have : (k : Int) + 1 ≠ 0 := by omega
    rw [if_pos this]

/-! ## The dimensions are checked -/

/-- The raw routines do not fail with `assumeFail`: only the functions on views check assumptions. -/
def Lib.Plain (L : Lib α) : Prop :=
  (∀ lay t M N al A lda X ix be Y iy m, L.gemv lay t M N al A lda X ix be Y iy m ≠ .assumeFail) ∧
  (∀ lay tA tB M N K al A lda B ldb be C ldc m, L.gemm lay tA tB M N K al A lda B ldb be C ldc m ≠ .assumeFail) ∧
  (∀ lay u tA tB N K al A lda B ldb be C ldc m, L.gemmt lay u tA tB N K al A lda B ldb be C ldc m ≠ .assumeFail) ∧
  (∀ lay u t N K al A lda be C ldc m, L.syrk lay u t N K al A lda be C ldc m ≠ .assumeFail) ∧
  (∀ lay u t dg N A lda X ix m, L.trmv lay u t dg N A lda X ix m ≠ .assumeFail) ∧
  (∀ lay u t dg N A lda X ix m, L.trsv lay u t dg N A lda X ix m ≠ .assumeFail) ∧
  (∀ lay s u t dg M N al A lda B ldb m, L.trmm lay s u t dg M N al A lda B ldb m ≠ .assumeFail) ∧
  (∀ lay s u t dg M N al A lda B ldb m, L.trsm lay s u t dg M N al A lda B ldb m ≠ .assumeFail)

theorem assume_iff {p : Bool} {k : Out α} (h : k ≠ .assumeFail) : assume p k = .assumeFail ↔ p = false := by
  unfold assume
  cases p <;> simp [h]

/-- `op` of a matrix with these dimensions is `r` by `c`. -/
def Dims (t : Trans) (v : View) (r c : Int) : Prop :=
  match t with
  | .no => v.rows = r ∧ v.cols = c
  | .yes => v.rows = c ∧ v.cols = r


/-- C66 for the factorisations: they refuse exactly the matrices that are not square. -/
theorem square_checked (A : View) (m : Mem α) :
    (xpotrf_L L A m ≠ .assumeFail ↔ A.rows = A.cols) ∧ (xlauum_L L A m ≠ .assumeFail ↔ A.rows = A.cols) ∧
    (xtrtri_LN L A m ≠ .assumeFail ↔ A.rows = A.cols) := by
  have hk : ∀ r : Mem α × Int, throwOnErr r ≠ .assumeFail := by
    intro r
    unfold throwOnErr
    split <;> exact fun h => nomatch h
  refine ⟨?_, ?_, ?_⟩
  · rw [Ne, xpotrf_L, assume_iff (hk _)]; simp
  · rw [Ne, xlauum_L, assume_iff (hk _)]; simp
  · rw [Ne, xtrtri_LN, assume_iff (hk _)]; simp

/-- C66. A function on views goes on exactly if the dimensions match. -/
theorem dims_checked (h : L.Plain) :
    (∀ (A B C : View) (alpha beta : α) m, xgemm_NN L alpha A B beta C m ≠ .assumeFail ↔ ∃ k, Dims .no A C.rows k ∧ Dims .no B k C.cols) ∧
    (∀ (A B C : View) (alpha beta : α) m, xgemm_TN L alpha A B beta C m ≠ .assumeFail ↔ ∃ k, Dims .yes A C.rows k ∧ Dims .no B k C.cols) ∧
    (∀ (A B C : View) (alpha beta : α) m, xgemm_TT L alpha A B beta C m ≠ .assumeFail ↔ ∃ k, Dims .yes A C.rows k ∧ Dims .yes B k C.cols) ∧
    (∀ (A B C : View) (alpha beta : α) m, xgemm_NT L alpha A B beta C m ≠ .assumeFail ↔ ∃ k, Dims .no A C.rows k ∧ Dims .yes B k C.cols) ∧
    (∀ (A B C : View) (alpha beta : α) m, xgemmt_LNN L alpha A B beta C m ≠ .assumeFail ↔ C.rows = C.cols ∧ ∃ k, Dims .no A C.rows k ∧ Dims .no B k C.cols) ∧
    (∀ (A B C : View) (alpha beta : α) m, xgemmt_LTN L alpha A B beta C m ≠ .assumeFail ↔ C.rows = C.cols ∧ ∃ k, Dims .yes A C.rows k ∧ Dims .no B k C.cols) ∧
    (∀ (A B C : View) (alpha beta : α) m, xgemmt_LTT L alpha A B beta C m ≠ .assumeFail ↔ C.rows = C.cols ∧ ∃ k, Dims .yes A C.rows k ∧ Dims .yes B k C.cols) ∧
    (∀ (A B C : View) (alpha beta : α) m, xgemmt_LNT L alpha A B beta C m ≠ .assumeFail ↔ C.rows = C.cols ∧ ∃ k, Dims .no A C.rows k ∧ Dims .yes B k C.cols) ∧
    (∀ (A C : View) (alpha beta : α) m, xsyrk_LN L alpha A beta C m ≠ .assumeFail ↔ C.rows = C.cols ∧ ∃ k, Dims .no A C.rows k) ∧
    (∀ (A C : View) (alpha beta : α) m, xsyrk_LT L alpha A beta C m ≠ .assumeFail ↔ C.rows = C.cols ∧ ∃ k, Dims .yes A C.rows k) ∧
    (∀ (A x y : View) (alpha beta : α) m, xgemv_N L alpha A x beta y m ≠ .assumeFail ↔ Dims .no A y.rows x.rows ∧ x.cols = 1 ∧ y.cols = 1) ∧
    (∀ (A x y : View) (alpha beta : α) m, xgemv_T L alpha A x beta y m ≠ .assumeFail ↔ Dims .yes A y.rows x.rows ∧ x.cols = 1 ∧ y.cols = 1) ∧
    (∀ (A x : View) m, xtrmv_LNN L A x m ≠ .assumeFail ↔ A.rows = x.rows ∧ A.cols = x.rows ∧ x.cols = 1) ∧
    (∀ (A x : View) m, xtrmv_LTN L A x m ≠ .assumeFail ↔ A.rows = x.rows ∧ A.cols = x.rows ∧ x.cols = 1) ∧
    (∀ (A x : View) m, xtrsv_LNN L A x m ≠ .assumeFail ↔ A.rows = x.rows ∧ A.cols = x.rows ∧ x.cols = 1) ∧
    (∀ (A x : View) m, xtrsv_LTN L A x m ≠ .assumeFail ↔ A.rows = x.rows ∧ A.cols = x.rows ∧ x.cols = 1) ∧
    (∀ (A B : View) (alpha : α) m, xtrmm_LLNN L alpha A B m ≠ .assumeFail ↔ A.rows = B.rows ∧ A.cols = B.rows) ∧
    (∀ (A B : View) (alpha : α) m, xtrmm_LLTN L alpha A B m ≠ .assumeFail ↔ A.rows = B.rows ∧ A.cols = B.rows) ∧
    (∀ (A B : View) (alpha : α) m, xtrmm_RLNN L alpha A B m ≠ .assumeFail ↔ A.rows = B.cols ∧ A.cols = B.cols) ∧
    (∀ (A B : View) (alpha : α) m, xtrmm_RLTN L alpha A B m ≠ .assumeFail ↔ A.rows = B.cols ∧ A.cols = B.cols) ∧
    (∀ (A B : View) (alpha : α) m, xtrsm_LLNN L alpha A B m ≠ .assumeFail ↔ A.rows = B.rows ∧ A.cols = B.rows) ∧
    (∀ (A B : View) (alpha : α) m, xtrsm_LLTN L alpha A B m ≠ .assumeFail ↔ A.rows = B.rows ∧ A.cols = B.rows) ∧
    (∀ (A B : View) (alpha : α) m, xtrsm_RLNN L alpha A B m ≠ .assumeFail ↔ A.rows = B.cols ∧ A.cols = B.cols) ∧
    (∀ (A B : View) (alpha : α) m, xtrsm_RLTN L alpha A B m ≠ .assumeFail ↔ A.rows = B.cols ∧ A.cols = B.cols) := by
  refine ⟨?_, ?_, ?_, ?_, ?_, ?_, ?_, ?_, ?_, ?_, ?_, ?_, ?_, ?_, ?_, ?_, ?_, ?_, ?_, ?_, ?_, ?_, ?_, ?_⟩
  · intro A B C alpha beta m
    rw [Ne, xgemm_NN, xgemm, assume_iff (h.2.1 _ _ _ _ _ _ _ _ _ _ _ _ _ _ _)]
    simp only [Bool.not_eq_false, Bool.and_eq_true, decide_eq_true_eq, Dims]
    constructor
    · rintro hh
      skip
      exact ⟨_, ⟨by first | omega | rfl, by first | omega | rfl⟩, ⟨by first | omega | rfl, by first | omega | rfl⟩⟩
    · rintro hh
      obtain ⟨k, h1, h2⟩ := hh; omega
  · intro A B C alpha beta m
    rw [Ne, xgemm_TN, xgemm, assume_iff (h.2.1 _ _ _ _ _ _ _ _ _ _ _ _ _ _ _)]
    simp only [Bool.not_eq_false, Bool.and_eq_true, decide_eq_true_eq, Dims]
    constructor
    · rintro hh
      skip
      exact ⟨_, ⟨by first | omega | rfl, by first | omega | rfl⟩, ⟨by first | omega | rfl, by first | omega | rfl⟩⟩
    · rintro hh
      obtain ⟨k, h1, h2⟩ := hh; omega
  · intro A B C alpha beta m
    rw [Ne, xgemm_TT, xgemm, assume_iff (h.2.1 _ _ _ _ _ _ _ _ _ _ _ _ _ _ _)]
    simp only [Bool.not_eq_false, Bool.and_eq_true, decide_eq_true_eq, Dims]
    constructor
    · rintro hh
      skip
      exact ⟨_, ⟨by first | omega | rfl, by first | omega | rfl⟩, ⟨by first | omega | rfl, by first | omega | rfl⟩⟩
    · rintro hh
      obtain ⟨k, h1, h2⟩ := hh; omega
  · intro A B C alpha beta m
    rw [Ne, xgemm_NT, xgemm, assume_iff (h.2.1 _ _ _ _ _ _ _ _ _ _ _ _ _ _ _)]
    simp only [Bool.not_eq_false, Bool.and_eq_true, decide_eq_true_eq, Dims]
    constructor
    · rintro hh
      skip
      exact ⟨_, ⟨by first | omega | rfl, by first | omega | rfl⟩, ⟨by first | omega | rfl, by first | omega | rfl⟩⟩
    · rintro hh
      obtain ⟨k, h1, h2⟩ := hh; omega
  · intro A B C alpha beta m
    rw [Ne, xgemmt_LNN, xgemmt, assume_iff (h.2.2.1 _ _ _ _ _ _ _ _ _ _ _ _ _ _ _)]
    simp only [Bool.not_eq_false, Bool.and_eq_true, decide_eq_true_eq, Dims]
    constructor
    · rintro hh
      refine ⟨by omega, ?_⟩
      exact ⟨_, ⟨by first | omega | rfl, by first | omega | rfl⟩, ⟨by first | omega | rfl, by first | omega | rfl⟩⟩
    · rintro hh
      obtain ⟨h0, k, h1, h2⟩ := hh; omega
  · intro A B C alpha beta m
    rw [Ne, xgemmt_LTN, xgemmt, assume_iff (h.2.2.1 _ _ _ _ _ _ _ _ _ _ _ _ _ _ _)]
    simp only [Bool.not_eq_false, Bool.and_eq_true, decide_eq_true_eq, Dims]
    constructor
    · rintro hh
      refine ⟨by omega, ?_⟩
      exact ⟨_, ⟨by first | omega | rfl, by first | omega | rfl⟩, ⟨by first | omega | rfl, by first | omega | rfl⟩⟩
    · rintro hh
      obtain ⟨h0, k, h1, h2⟩ := hh; omega
  · intro A B C alpha beta m
    rw [Ne, xgemmt_LTT, xgemmt, assume_iff (h.2.2.1 _ _ _ _ _ _ _ _ _ _ _ _ _ _ _)]
    simp only [Bool.not_eq_false, Bool.and_eq_true, decide_eq_true_eq, Dims]
    constructor
    · rintro hh
      refine ⟨by omega, ?_⟩
      exact ⟨_, ⟨by first | omega | rfl, by first | omega | rfl⟩, ⟨by first | omega | rfl, by first | omega | rfl⟩⟩
    · rintro hh
      obtain ⟨h0, k, h1, h2⟩ := hh; omega
  · intro A B C alpha beta m
    rw [Ne, xgemmt_LNT, xgemmt, assume_iff (h.2.2.1 _ _ _ _ _ _ _ _ _ _ _ _ _ _ _)]
    simp only [Bool.not_eq_false, Bool.and_eq_true, decide_eq_true_eq, Dims]
    constructor
    · rintro hh
      refine ⟨by omega, ?_⟩
      exact ⟨_, ⟨by first | omega | rfl, by first | omega | rfl⟩, ⟨by first | omega | rfl, by first | omega | rfl⟩⟩
    · rintro hh
      obtain ⟨h0, k, h1, h2⟩ := hh; omega
  · intro A C alpha beta m
    rw [Ne, xsyrk_LN, xsyrk, assume_iff (h.2.2.2.1 _ _ _ _ _ _ _ _ _ _ _ _)]
    simp only [Bool.not_eq_false, Bool.and_eq_true, decide_eq_true_eq, Dims]
    constructor
    · rintro hh
      refine ⟨by omega, ?_⟩
      exact ⟨_, by first | omega | rfl, by first | omega | rfl⟩
    · rintro hh
      obtain ⟨h0, k, h1⟩ := hh; omega
  · intro A C alpha beta m
    rw [Ne, xsyrk_LT, xsyrk, assume_iff (h.2.2.2.1 _ _ _ _ _ _ _ _ _ _ _ _)]
    simp only [Bool.not_eq_false, Bool.and_eq_true, decide_eq_true_eq, Dims]
    constructor
    · rintro hh
      refine ⟨by omega, ?_⟩
      exact ⟨_, by first | omega | rfl, by first | omega | rfl⟩
    · rintro hh
      obtain ⟨h0, k, h1⟩ := hh; omega
  · intro A x y alpha beta m
    rw [Ne, xgemv_N, xgemv, assume_iff (h.1 _ _ _ _ _ _ _ _ _ _ _ _ _)]
    simp only [Bool.not_eq_false, Bool.and_eq_true, decide_eq_true_eq, Dims]
    constructor
    · rintro hh
      skip
      omega
    · rintro hh
      omega
  · intro A x y alpha beta m
    rw [Ne, xgemv_T, xgemv, assume_iff (h.1 _ _ _ _ _ _ _ _ _ _ _ _ _)]
    simp only [Bool.not_eq_false, Bool.and_eq_true, decide_eq_true_eq, Dims]
    constructor
    · rintro hh
      skip
      omega
    · rintro hh
      omega
  · intro A x m
    rw [Ne, xtrmv_LNN, xtrmv, assume_iff (h.2.2.2.2.1 _ _ _ _ _ _ _ _ _ _)]
    simp only [Bool.not_eq_false, Bool.and_eq_true, decide_eq_true_eq]
    constructor
    · rintro hh
      skip
      omega
    · rintro hh
      omega
  · intro A x m
    rw [Ne, xtrmv_LTN, xtrmv, assume_iff (h.2.2.2.2.1 _ _ _ _ _ _ _ _ _ _)]
    simp only [Bool.not_eq_false, Bool.and_eq_true, decide_eq_true_eq]
    constructor
    · rintro hh
      skip
      omega
    · rintro hh
      omega
  · intro A x m
    rw [Ne, xtrsv_LNN, xtrsv, assume_iff (h.2.2.2.2.2.1 _ _ _ _ _ _ _ _ _ _)]
    simp only [Bool.not_eq_false, Bool.and_eq_true, decide_eq_true_eq]
    constructor
    · rintro hh
      skip
      omega
    · rintro hh
      omega
  · intro A x m
    rw [Ne, xtrsv_LTN, xtrsv, assume_iff (h.2.2.2.2.2.1 _ _ _ _ _ _ _ _ _ _)]
    simp only [Bool.not_eq_false, Bool.and_eq_true, decide_eq_true_eq]
    constructor
    · rintro hh
      skip
      omega
    · rintro hh
      omega
  · intro A B alpha m
    rw [Ne, xtrmm_LLNN, xtrmm, assume_iff (h.2.2.2.2.2.2.1 _ _ _ _ _ _ _ _ _ _ _ _ _)]
    simp only [Bool.not_eq_false, Bool.and_eq_true, decide_eq_true_eq]
    constructor
    · rintro hh
      skip
      omega
    · rintro hh
      omega
  · intro A B alpha m
    rw [Ne, xtrmm_LLTN, xtrmm, assume_iff (h.2.2.2.2.2.2.1 _ _ _ _ _ _ _ _ _ _ _ _ _)]
    simp only [Bool.not_eq_false, Bool.and_eq_true, decide_eq_true_eq]
    constructor
    · rintro hh
      skip
      omega
    · rintro hh
      omega
  · intro A B alpha m
    rw [Ne, xtrmm_RLNN, xtrmm, assume_iff (h.2.2.2.2.2.2.1 _ _ _ _ _ _ _ _ _ _ _ _ _)]
    simp only [Bool.not_eq_false, Bool.and_eq_true, decide_eq_true_eq]
    constructor
    · rintro hh
      skip
      omega
    · rintro hh
      omega
  · intro A B alpha m
    rw [Ne, xtrmm_RLTN, xtrmm, assume_iff (h.2.2.2.2.2.2.1 _ _ _ _ _ _ _ _ _ _ _ _ _)]
    simp only [Bool.not_eq_false, Bool.and_eq_true, decide_eq_true_eq]
    constructor
    · rintro hh
      skip
      omega
    · rintro hh
      omega
  · intro A B alpha m
    rw [Ne, xtrsm_LLNN, xtrsm, assume_iff (h.2.2.2.2.2.2.2 _ _ _ _ _ _ _ _ _ _ _ _ _)]
    simp only [Bool.not_eq_false, Bool.and_eq_true, decide_eq_true_eq]
    constructor
    · rintro hh
      skip
      omega
    · rintro hh
      omega
  · intro A B alpha m
    rw [Ne, xtrsm_LLTN, xtrsm, assume_iff (h.2.2.2.2.2.2.2 _ _ _ _ _ _ _ _ _ _ _ _ _)]
    simp only [Bool.not_eq_false, Bool.and_eq_true, decide_eq_true_eq]
    constructor
    · rintro hh
      skip
      omega
    · rintro hh
      omega
  · intro A B alpha m
    rw [Ne, xtrsm_RLNN, xtrsm, assume_iff (h.2.2.2.2.2.2.2 _ _ _ _ _ _ _ _ _ _ _ _ _)]
    simp only [Bool.not_eq_false, Bool.and_eq_true, decide_eq_true_eq]
    constructor
    · rintro hh
      skip
      omega
    · rintro hh
      omega
  · intro A B alpha m
    rw [Ne, xtrsm_RLTN, xtrsm, assume_iff (h.2.2.2.2.2.2.2 _ _ _ _ _ _ _ _ _ _ _ _ _)]
    simp only [Bool.not_eq_false, Bool.and_eq_true, decide_eq_true_eq]
    constructor
    · rintro hh
      skip
      omega
    · rintro hh
      omega

end Guanaqo.Blas
