import Verif.Blas.Empty

/-! # Empty operands, exactly (C66)

`Props.lean` asks that the distance between the columns of every operand be at least one, `Empty.lean` shows that this cannot be left out. Here is
what happens for every conforming view, with a library that rejects illegal leading dimensions as the standard says (`Lib.Rejects`; the library of
`Ref.lean` is one): a function on views does what it should if and only if none of the leading dimensions that it passes is zero, which happens for
views without rows only, and otherwise the library rejects the call. The functions for matrix-vector products, in addition, leave `y` alone if the
product is empty. -/

namespace Guanaqo.Blas

open Guanaqo.MatView (View)
open Finset Matrix

set_option linter.unusedSectionVars false
set_option linter.unusedSimpArgs false

variable {α : Type} [Field α]

/-- The library rejects leading dimensions that are too small: `xerbla` for BLAS, a negative `info` (the position of the argument) for LAPACK. -/
structure Lib.Rejects (L : Lib α) : Prop where
  gemv : ∀ lay t M N (alpha : α) A lda X incX beta Y incY m, ¬ LdOk lay M N lda → L.gemv lay t M N alpha A lda X incX beta Y incY m = .illegal
  gemm : ∀ lay tA tB M N K (alpha : α) A lda B ldb beta C ldc m, ¬ (OpLdOk lay tA M K lda ∧ OpLdOk lay tB K N ldb ∧ LdOk lay M N ldc) →
    L.gemm lay tA tB M N K alpha A lda B ldb beta C ldc m = .illegal
  gemmt : ∀ lay u tA tB N K (alpha : α) A lda B ldb beta C ldc m, ¬ (OpLdOk lay tA N K lda ∧ OpLdOk lay tB K N ldb ∧ LdOk lay N N ldc) →
    L.gemmt lay u tA tB N K alpha A lda B ldb beta C ldc m = .illegal
  syrk : ∀ lay u t N K (alpha : α) A lda beta C ldc m, ¬ (OpLdOk lay t N K lda ∧ LdOk lay N N ldc) →
    L.syrk lay u t N K alpha A lda beta C ldc m = .illegal
  trmv : ∀ lay u t dg N A lda X incX (m : Mem α), ¬ LdOk lay N N lda → L.trmv lay u t dg N A lda X incX m = .illegal
  trsv : ∀ lay u t dg N A lda X incX (m : Mem α), ¬ LdOk lay N N lda → L.trsv lay u t dg N A lda X incX m = .illegal
  trmm : ∀ lay s u t dg M N (alpha : α) A lda B ldb m, ¬ (LdOk lay (sideDim s M N) (sideDim s M N) lda ∧ LdOk lay M N ldb) →
    L.trmm lay s u t dg M N alpha A lda B ldb m = .illegal
  trsm : ∀ lay s u t dg M N (alpha : α) A lda B ldb m, ¬ (LdOk lay (sideDim s M N) (sideDim s M N) lda ∧ LdOk lay M N ldb) →
    L.trsm lay s u t dg M N alpha A lda B ldb m = .illegal
  potrf : ∀ u n a lda (m : Mem α), ¬ LdOk .col n n lda → L.potrf u n a lda m = (m, -4)
  lauum : ∀ u n a lda (m : Mem α), ¬ LdOk .col n n lda → L.lauum u n a lda m = (m, -4)
  trtri : ∀ u dg n a lda (m : Mem α), ¬ LdOk .col n n lda → L.trtri u dg n a lda m = (m, -5)

theorem ref_rejects : (ref α).Rejects where
  gemv _ _ _ _ _ _ _ _ _ _ _ _ _ h := if_neg fun g => h g.2.2.2.2
  gemm _ _ _ _ _ _ _ _ _ _ _ _ _ _ _ h := if_neg fun g => h g.2.2.2
  gemmt _ _ _ _ _ _ _ _ _ _ _ _ _ _ _ h := if_neg fun g => h g.2.2
  syrk _ _ _ _ _ _ _ _ _ _ _ _ h := if_neg fun g => h g.2.2
  trmv _ _ _ _ _ _ _ _ _ _ h := if_neg fun g => h g.2.2
  trsv _ _ _ _ _ _ _ _ _ _ h := if_neg fun g => h g.2.2
  trmm _ _ _ _ _ _ _ _ _ _ _ _ _ h := if_neg fun g => h g.2.2
  trsm _ _ _ _ _ _ _ _ _ _ _ _ _ h := if_neg fun g => h g.2.2
  potrf _ _ _ _ _ h := if_neg fun g => h g.2
  lauum _ _ _ _ _ h := if_neg fun g => h g.2
  trtri _ _ _ _ _ _ h := if_neg fun g => h g.2

variable {L : Lib α}

omit [Field α] in
/-- What the theorems of `Props.lean` ask for beyond `IsView`. -/
theorem IsView.is {v : View} {r c : ℕ} {m : Mem α} (h : IsView v r c m) (h0 : v.outer ≠ 0) : Is v r c m :=
  ⟨h.rows, h.cols, h.inner, by have := h.outer; omega, h.backed⟩

omit [Field α] in
theorem IsView.ld {v : View} {r c : ℕ} {m : Mem α} (h : IsView v r c m) : LdOk .col v.rows v.cols v.outer ↔ v.outer ≠ 0 := by
  have := h.outer
  have := h.rows
  show max 1 v.rows ≤ v.outer ↔ _
  omega

omit [Field α] in
/-- A vector without elements may have any outer stride. -/
theorem IsView.vec {x : View} {n : ℕ} {m : Mem α} (h : IsView x n 1 m) : Is { x with outer := max 1 x.outer } n 1 m :=
  ⟨h.rows, h.cols, h.inner, by have := h.outer; dsimp only; omega, by
    rintro r c ⟨h1, h2, h3, h4⟩
    dsimp only at h2 h4
    have h5 : c = 0 := by have := h.cols; omega
    subst h5
    simpa using h.backed r 0 ⟨h1, h2, h3, h4⟩⟩

theorem mat_outer {x : View} {n : ℕ} {m : Mem α} : mat { x with outer := max 1 x.outer } n 1 m = mat x n 1 m := by
  funext i j
  have : j = 0 := Subsingleton.elim _ _
  subst this
  simp [mat, View.addr]

omit [Field α] in
theorem elem_vec {x : View} {n : ℕ} {m : Mem α} (h : IsView x n 1 m) (a : Int) :
    View.IsElemAddr { x with outer := max 1 x.outer } (fun _ _ => True) a ↔ x.IsElemAddr (fun _ _ => True) a := by
  constructor
  all_goals
    rintro ⟨r, c, ⟨h1, h2, h3, h4⟩, h5, e⟩
    have h4 : c < x.cols := h4
    have h6 : c = 0 := by have := h.cols; omega
    subst h6
    exact ⟨r, 0, ⟨h1, h2, h3, h4⟩, h5, by simpa using e⟩

theorem onlyIn_vec {x : View} {n : ℕ} {m m' m0 : Mem α} (h : IsView x n 1 m0) :
    OnlyIn { x with outer := max 1 x.outer } m m' ↔ OnlyIn x m m' := by
  unfold OnlyIn
  simp only [elem_vec h]

theorem separate_vec {x A : View} {n : ℕ} {m0 : Mem α} (h : IsView x n 1 m0) (hs : Separate x A) :
    Separate { x with outer := max 1 x.outer } A := fun a ha => hs a ((elem_vec h a).1 ha)

theorem separate_vec' {x A : View} {n : ℕ} {m0 : Mem α} (h : IsView x n 1 m0) (hs : Separate A x) :
    Separate A { x with outer := max 1 x.outer } := fun a ha hb => hs a ha ((elem_vec h a).1 hb)

theorem onlyIn_refl {v : View} {m : Mem α} (h : v.Backed m) : OnlyIn v m m :=
  ⟨fun _ _ => rfl, by
    rintro a ⟨r, c, hrc, -, rfl⟩
    exact h r c hrc⟩

/-- Either the call does what it should and all the leading dimensions are positive, or it is rejected. -/
def Exactly (out : Out α) (good : Prop) (spec : Mem α → Prop) : Prop :=
  ((∃ m', out = .ok m' ∧ spec m') ↔ good) ∧ (¬ good → out = .illegal)

theorem exactly_of {out : Out α} {good : Prop} {spec : Mem α → Prop} (h1 : good → ∃ m', out = .ok m' ∧ spec m') (h2 : ¬ good → out = .illegal) :
    Exactly out good spec :=
  ⟨⟨fun ⟨_, e, _⟩ => Classical.byContradiction fun hg => (nomatch (h2 hg).symm.trans e), h1⟩, h2⟩

theorem xgemm_NN_exactly (hL : L.Conforms) (hR : L.Rejects) {A B C : View} {r k c : ℕ} (alpha beta : α) {m : Mem α} (hA : IsView A r k m)
    (hB : IsView B k c m) (hC : IsView C r c m) (h1 : Separate C A) (h2 : Separate C B) :
    Exactly (xgemm_NN L alpha A B beta C m) (A.outer ≠ 0 ∧ B.outer ≠ 0 ∧ C.outer ≠ 0) fun m' =>
      mat C r c m' = alpha • (mat A r k m * mat B k c m) + beta • mat C r c m ∧ OnlyIn C m m' := by
  refine exactly_of (fun h => xgemm_NN_partial hL alpha beta (hA.is h.1) (hB.is h.2.1) (hC.is h.2.2) h1 h2) fun h => ?_
  unfold xgemm_NN xgemm
  rw [assume_ok (by simp [hA.rows, hA.cols, hB.rows, hB.cols, hC.rows, hC.cols])]
  refine hR.gemm _ _ _ _ _ _ _ _ _ _ _ _ _ _ _ fun g => h ?_
  have e1 := hA.ld
  have e2 := hB.ld
  have e3 := hC.ld
  simp only [OpLdOk, hA.rows, hA.cols, hB.rows, hB.cols, hC.rows, hC.cols] at g e1 e2 e3
  exact ⟨e1.1 g.1, e2.1 g.2.1, e3.1 g.2.2⟩

theorem xgemmt_LNN_exactly (hL : L.Conforms) (hR : L.Rejects) {A B C : View} {n k : ℕ} (alpha beta : α) {m : Mem α} (hA : IsView A n k m)
    (hB : IsView B k n m) (hC : IsView C n n m) (h1 : Separate C A) (h2 : Separate C B) :
    Exactly (xgemmt_LNN L alpha A B beta C m) (A.outer ≠ 0 ∧ B.outer ≠ 0 ∧ C.outer ≠ 0) fun m' =>
      LowerEq (mat C n n m') (alpha • (mat A n k m * mat B k n m) + beta • mat C n n m) ∧ OnlyInLower C m m' := by
  refine exactly_of (fun h => xgemmt_LNN_partial hL alpha beta (hA.is h.1) (hB.is h.2.1) (hC.is h.2.2) h1 h2) fun h => ?_
  unfold xgemmt_LNN xgemmt
  rw [assume_ok (by simp [hA.rows, hA.cols, hB.rows, hB.cols, hC.rows, hC.cols])]
  refine hR.gemmt _ _ _ _ _ _ _ _ _ _ _ _ _ _ _ fun g => h ?_
  have e1 := hA.ld
  have e2 := hB.ld
  have e3 := hC.ld
  simp only [OpLdOk, hA.rows, hA.cols, hB.rows, hB.cols, hC.rows, hC.cols] at g e1 e2 e3
  exact ⟨e1.1 g.1, e2.1 g.2.1, e3.1 g.2.2⟩

theorem xgemm_TN_exactly (hL : L.Conforms) (hR : L.Rejects) {A B C : View} {r k c : ℕ} (alpha beta : α) {m : Mem α} (hA : IsView A k r m)
    (hB : IsView B k c m) (hC : IsView C r c m) (h1 : Separate C A) (h2 : Separate C B) :
    Exactly (xgemm_TN L alpha A B beta C m) (A.outer ≠ 0 ∧ B.outer ≠ 0 ∧ C.outer ≠ 0) fun m' =>
      mat C r c m' = alpha • ((mat A k r m)ᵀ * mat B k c m) + beta • mat C r c m ∧ OnlyIn C m m' := by
  refine exactly_of (fun h => xgemm_TN_partial hL alpha beta (hA.is h.1) (hB.is h.2.1) (hC.is h.2.2) h1 h2) fun h => ?_
  unfold xgemm_TN xgemm
  rw [assume_ok (by simp [hA.rows, hA.cols, hB.rows, hB.cols, hC.rows, hC.cols])]
  refine hR.gemm _ _ _ _ _ _ _ _ _ _ _ _ _ _ _ fun g => h ?_
  have e1 := hA.ld
  have e2 := hB.ld
  have e3 := hC.ld
  simp only [OpLdOk, hA.rows, hA.cols, hB.rows, hB.cols, hC.rows, hC.cols] at g e1 e2 e3
  exact ⟨e1.1 g.1, e2.1 g.2.1, e3.1 g.2.2⟩

theorem xgemmt_LTN_exactly (hL : L.Conforms) (hR : L.Rejects) {A B C : View} {n k : ℕ} (alpha beta : α) {m : Mem α} (hA : IsView A k n m)
    (hB : IsView B k n m) (hC : IsView C n n m) (h1 : Separate C A) (h2 : Separate C B) :
    Exactly (xgemmt_LTN L alpha A B beta C m) (A.outer ≠ 0 ∧ B.outer ≠ 0 ∧ C.outer ≠ 0) fun m' =>
      LowerEq (mat C n n m') (alpha • ((mat A k n m)ᵀ * mat B k n m) + beta • mat C n n m) ∧ OnlyInLower C m m' := by
  refine exactly_of (fun h => xgemmt_LTN_partial hL alpha beta (hA.is h.1) (hB.is h.2.1) (hC.is h.2.2) h1 h2) fun h => ?_
  unfold xgemmt_LTN xgemmt
  rw [assume_ok (by simp [hA.rows, hA.cols, hB.rows, hB.cols, hC.rows, hC.cols])]
  refine hR.gemmt _ _ _ _ _ _ _ _ _ _ _ _ _ _ _ fun g => h ?_
  have e1 := hA.ld
  have e2 := hB.ld
  have e3 := hC.ld
  simp only [OpLdOk, hA.rows, hA.cols, hB.rows, hB.cols, hC.rows, hC.cols] at g e1 e2 e3
  exact ⟨e1.1 g.1, e2.1 g.2.1, e3.1 g.2.2⟩

theorem xgemm_TT_exactly (hL : L.Conforms) (hR : L.Rejects) {A B C : View} {r k c : ℕ} (alpha beta : α) {m : Mem α} (hA : IsView A k r m)
    (hB : IsView B c k m) (hC : IsView C r c m) (h1 : Separate C A) (h2 : Separate C B) :
    Exactly (xgemm_TT L alpha A B beta C m) (A.outer ≠ 0 ∧ B.outer ≠ 0 ∧ C.outer ≠ 0) fun m' =>
      mat C r c m' = alpha • ((mat A k r m)ᵀ * (mat B c k m)ᵀ) + beta • mat C r c m ∧ OnlyIn C m m' := by
  refine exactly_of (fun h => xgemm_TT_partial hL alpha beta (hA.is h.1) (hB.is h.2.1) (hC.is h.2.2) h1 h2) fun h => ?_
  unfold xgemm_TT xgemm
  rw [assume_ok (by simp [hA.rows, hA.cols, hB.rows, hB.cols, hC.rows, hC.cols])]
  refine hR.gemm _ _ _ _ _ _ _ _ _ _ _ _ _ _ _ fun g => h ?_
  have e1 := hA.ld
  have e2 := hB.ld
  have e3 := hC.ld
  simp only [OpLdOk, hA.rows, hA.cols, hB.rows, hB.cols, hC.rows, hC.cols] at g e1 e2 e3
  exact ⟨e1.1 g.1, e2.1 g.2.1, e3.1 g.2.2⟩

theorem xgemmt_LTT_exactly (hL : L.Conforms) (hR : L.Rejects) {A B C : View} {n k : ℕ} (alpha beta : α) {m : Mem α} (hA : IsView A k n m)
    (hB : IsView B n k m) (hC : IsView C n n m) (h1 : Separate C A) (h2 : Separate C B) :
    Exactly (xgemmt_LTT L alpha A B beta C m) (A.outer ≠ 0 ∧ B.outer ≠ 0 ∧ C.outer ≠ 0) fun m' =>
      LowerEq (mat C n n m') (alpha • ((mat A k n m)ᵀ * (mat B n k m)ᵀ) + beta • mat C n n m) ∧ OnlyInLower C m m' := by
  refine exactly_of (fun h => xgemmt_LTT_partial hL alpha beta (hA.is h.1) (hB.is h.2.1) (hC.is h.2.2) h1 h2) fun h => ?_
  unfold xgemmt_LTT xgemmt
  rw [assume_ok (by simp [hA.rows, hA.cols, hB.rows, hB.cols, hC.rows, hC.cols])]
  refine hR.gemmt _ _ _ _ _ _ _ _ _ _ _ _ _ _ _ fun g => h ?_
  have e1 := hA.ld
  have e2 := hB.ld
  have e3 := hC.ld
  simp only [OpLdOk, hA.rows, hA.cols, hB.rows, hB.cols, hC.rows, hC.cols] at g e1 e2 e3
  exact ⟨e1.1 g.1, e2.1 g.2.1, e3.1 g.2.2⟩

theorem xgemm_NT_exactly (hL : L.Conforms) (hR : L.Rejects) {A B C : View} {r k c : ℕ} (alpha beta : α) {m : Mem α} (hA : IsView A r k m)
    (hB : IsView B c k m) (hC : IsView C r c m) (h1 : Separate C A) (h2 : Separate C B) :
    Exactly (xgemm_NT L alpha A B beta C m) (A.outer ≠ 0 ∧ B.outer ≠ 0 ∧ C.outer ≠ 0) fun m' =>
      mat C r c m' = alpha • (mat A r k m * (mat B c k m)ᵀ) + beta • mat C r c m ∧ OnlyIn C m m' := by
  refine exactly_of (fun h => xgemm_NT_partial hL alpha beta (hA.is h.1) (hB.is h.2.1) (hC.is h.2.2) h1 h2) fun h => ?_
  unfold xgemm_NT xgemm
  rw [assume_ok (by simp [hA.rows, hA.cols, hB.rows, hB.cols, hC.rows, hC.cols])]
  refine hR.gemm _ _ _ _ _ _ _ _ _ _ _ _ _ _ _ fun g => h ?_
  have e1 := hA.ld
  have e2 := hB.ld
  have e3 := hC.ld
  simp only [OpLdOk, hA.rows, hA.cols, hB.rows, hB.cols, hC.rows, hC.cols] at g e1 e2 e3
  exact ⟨e1.1 g.1, e2.1 g.2.1, e3.1 g.2.2⟩

theorem xgemmt_LNT_exactly (hL : L.Conforms) (hR : L.Rejects) {A B C : View} {n k : ℕ} (alpha beta : α) {m : Mem α} (hA : IsView A n k m)
    (hB : IsView B n k m) (hC : IsView C n n m) (h1 : Separate C A) (h2 : Separate C B) :
    Exactly (xgemmt_LNT L alpha A B beta C m) (A.outer ≠ 0 ∧ B.outer ≠ 0 ∧ C.outer ≠ 0) fun m' =>
      LowerEq (mat C n n m') (alpha • (mat A n k m * (mat B n k m)ᵀ) + beta • mat C n n m) ∧ OnlyInLower C m m' := by
  refine exactly_of (fun h => xgemmt_LNT_partial hL alpha beta (hA.is h.1) (hB.is h.2.1) (hC.is h.2.2) h1 h2) fun h => ?_
  unfold xgemmt_LNT xgemmt
  rw [assume_ok (by simp [hA.rows, hA.cols, hB.rows, hB.cols, hC.rows, hC.cols])]
  refine hR.gemmt _ _ _ _ _ _ _ _ _ _ _ _ _ _ _ fun g => h ?_
  have e1 := hA.ld
  have e2 := hB.ld
  have e3 := hC.ld
  simp only [OpLdOk, hA.rows, hA.cols, hB.rows, hB.cols, hC.rows, hC.cols] at g e1 e2 e3
  exact ⟨e1.1 g.1, e2.1 g.2.1, e3.1 g.2.2⟩

theorem xsyrk_LN_exactly (hL : L.Conforms) (hR : L.Rejects) {A C : View} {n k : ℕ} (alpha beta : α) {m : Mem α} (hA : IsView A n k m)
    (hC : IsView C n n m) (h1 : Separate C A) :
    Exactly (xsyrk_LN L alpha A beta C m) (A.outer ≠ 0 ∧ C.outer ≠ 0) fun m' =>
      LowerEq (mat C n n m') (alpha • (mat A n k m * (mat A n k m)ᵀ) + beta • mat C n n m) ∧ OnlyInLower C m m' := by
  refine exactly_of (fun h => xsyrk_LN_partial hL alpha beta (hA.is h.1) (hC.is h.2) h1) fun h => ?_
  unfold xsyrk_LN xsyrk
  rw [assume_ok (by simp [hA.rows, hA.cols, hC.rows, hC.cols])]
  refine hR.syrk _ _ _ _ _ _ _ _ _ _ _ _ fun g => h ?_
  have e1 := hA.ld
  have e3 := hC.ld
  simp only [OpLdOk, hA.rows, hA.cols, hC.rows, hC.cols] at g e1 e3
  exact ⟨e1.1 g.1, e3.1 g.2⟩

theorem xsyrk_LT_exactly (hL : L.Conforms) (hR : L.Rejects) {A C : View} {n k : ℕ} (alpha beta : α) {m : Mem α} (hA : IsView A k n m)
    (hC : IsView C n n m) (h1 : Separate C A) :
    Exactly (xsyrk_LT L alpha A beta C m) (A.outer ≠ 0 ∧ C.outer ≠ 0) fun m' =>
      LowerEq (mat C n n m') (alpha • ((mat A k n m)ᵀ * mat A k n m) + beta • mat C n n m) ∧ OnlyInLower C m m' := by
  refine exactly_of (fun h => xsyrk_LT_partial hL alpha beta (hA.is h.1) (hC.is h.2) h1) fun h => ?_
  unfold xsyrk_LT xsyrk
  rw [assume_ok (by simp [hA.rows, hA.cols, hC.rows, hC.cols])]
  refine hR.syrk _ _ _ _ _ _ _ _ _ _ _ _ fun g => h ?_
  have e1 := hA.ld
  have e3 := hC.ld
  simp only [OpLdOk, hA.rows, hA.cols, hC.rows, hC.cols] at g e1 e3
  exact ⟨e1.1 g.1, e3.1 g.2⟩

theorem xtrmv_LNN_exactly (hL : L.Conforms) (hR : L.Rejects) {A x : View} {n : ℕ} {m : Mem α} (hA : IsView A n n m) (hx : IsView x n 1 m) (h1 : Separate x A) :
    Exactly (xtrmv_LNN L A x m) (A.outer ≠ 0) fun m' => mat x n 1 m' = lower (mat A n n m) * mat x n 1 m ∧ OnlyIn x m m' := by
  refine exactly_of (fun h => ?_) fun h => ?_
  · obtain ⟨m', e, e1, e2⟩ := xtrmv_LNN_partial hL (hA.is h) hx.vec (separate_vec hx h1)
    rw [mat_outer, mat_outer] at e1
    exact ⟨m', e, e1, (onlyIn_vec hx).1 e2⟩
  unfold xtrmv_LNN xtrmv
  rw [assume_ok (by simp [hA.rows, hA.cols, hx.rows, hx.cols])]
  refine hR.trmv _ _ _ _ _ _ _ _ _ _ fun g => h ?_
  have e1 := hA.ld
  simp only [hA.rows, hA.cols] at g e1
  exact e1.1 g

theorem xtrsv_LNN_exactly (hL : L.Conforms) (hR : L.Rejects) {A x : View} {n : ℕ} {m : Mem α} (hA : IsView A n n m) (hx : IsView x n 1 m) (h1 : Separate x A)
    (hd : ∀ i, mat A n n m i i ≠ 0) :
    Exactly (xtrsv_LNN L A x m) (A.outer ≠ 0) fun m' => lower (mat A n n m) * mat x n 1 m' = mat x n 1 m ∧ OnlyIn x m m' := by
  refine exactly_of (fun h => ?_) fun h => ?_
  · obtain ⟨m', e, e1, e2⟩ := xtrsv_LNN_partial hL (hA.is h) hx.vec (separate_vec hx h1) hd
    rw [mat_outer, mat_outer] at e1
    exact ⟨m', e, e1, (onlyIn_vec hx).1 e2⟩
  unfold xtrsv_LNN xtrsv
  rw [assume_ok (by simp [hA.rows, hA.cols, hx.rows, hx.cols])]
  refine hR.trsv _ _ _ _ _ _ _ _ _ _ fun g => h ?_
  have e1 := hA.ld
  simp only [hA.rows, hA.cols] at g e1
  exact e1.1 g

theorem xtrmv_LTN_exactly (hL : L.Conforms) (hR : L.Rejects) {A x : View} {n : ℕ} {m : Mem α} (hA : IsView A n n m) (hx : IsView x n 1 m) (h1 : Separate x A) :
    Exactly (xtrmv_LTN L A x m) (A.outer ≠ 0) fun m' => mat x n 1 m' = (lower (mat A n n m))ᵀ * mat x n 1 m ∧ OnlyIn x m m' := by
  refine exactly_of (fun h => ?_) fun h => ?_
  · obtain ⟨m', e, e1, e2⟩ := xtrmv_LTN_partial hL (hA.is h) hx.vec (separate_vec hx h1)
    rw [mat_outer, mat_outer] at e1
    exact ⟨m', e, e1, (onlyIn_vec hx).1 e2⟩
  unfold xtrmv_LTN xtrmv
  rw [assume_ok (by simp [hA.rows, hA.cols, hx.rows, hx.cols])]
  refine hR.trmv _ _ _ _ _ _ _ _ _ _ fun g => h ?_
  have e1 := hA.ld
  simp only [hA.rows, hA.cols] at g e1
  exact e1.1 g

theorem xtrsv_LTN_exactly (hL : L.Conforms) (hR : L.Rejects) {A x : View} {n : ℕ} {m : Mem α} (hA : IsView A n n m) (hx : IsView x n 1 m) (h1 : Separate x A)
    (hd : ∀ i, mat A n n m i i ≠ 0) :
    Exactly (xtrsv_LTN L A x m) (A.outer ≠ 0) fun m' => (lower (mat A n n m))ᵀ * mat x n 1 m' = mat x n 1 m ∧ OnlyIn x m m' := by
  refine exactly_of (fun h => ?_) fun h => ?_
  · obtain ⟨m', e, e1, e2⟩ := xtrsv_LTN_partial hL (hA.is h) hx.vec (separate_vec hx h1) hd
    rw [mat_outer, mat_outer] at e1
    exact ⟨m', e, e1, (onlyIn_vec hx).1 e2⟩
  unfold xtrsv_LTN xtrsv
  rw [assume_ok (by simp [hA.rows, hA.cols, hx.rows, hx.cols])]
  refine hR.trsv _ _ _ _ _ _ _ _ _ _ fun g => h ?_
  have e1 := hA.ld
  simp only [hA.rows, hA.cols] at g e1
  exact e1.1 g

theorem xtrmm_LLNN_exactly (hL : L.Conforms) (hR : L.Rejects) {A B : View} {n c : ℕ} (alpha : α) {m : Mem α} (hA : IsView A n n m) (hB : IsView B n c m)
    (h1 : Separate B A) :
    Exactly (xtrmm_LLNN L alpha A B m) (A.outer ≠ 0 ∧ B.outer ≠ 0) fun m' => mat B n c m' = alpha • (lower (mat A n n m) * mat B n c m) ∧ OnlyIn B m m' := by
  refine exactly_of (fun h => xtrmm_LLNN_partial hL alpha (hA.is h.1) (hB.is h.2) h1) fun h => ?_
  unfold xtrmm_LLNN xtrmm
  rw [assume_ok (by simp [hA.rows, hA.cols, hB.rows, hB.cols])]
  refine hR.trmm _ _ _ _ _ _ _ _ _ _ _ _ _ fun g => h ?_
  have e1 := hA.ld
  have e2 := hB.ld
  simp only [sideDim, hA.rows, hA.cols, hB.rows, hB.cols] at g e1 e2
  exact ⟨e1.1 g.1, e2.1 g.2⟩

theorem xtrsm_LLNN_exactly (hL : L.Conforms) (hR : L.Rejects) {A B : View} {n c : ℕ} (alpha : α) {m : Mem α} (hA : IsView A n n m) (hB : IsView B n c m)
    (h1 : Separate B A)
    (hd : ∀ i, mat A n n m i i ≠ 0) :
    Exactly (xtrsm_LLNN L alpha A B m) (A.outer ≠ 0 ∧ B.outer ≠ 0) fun m' => lower (mat A n n m) * mat B n c m' = alpha • mat B n c m ∧ OnlyIn B m m' := by
  refine exactly_of (fun h => xtrsm_LLNN_partial hL alpha (hA.is h.1) (hB.is h.2) h1 hd) fun h => ?_
  unfold xtrsm_LLNN xtrsm
  rw [assume_ok (by simp [hA.rows, hA.cols, hB.rows, hB.cols])]
  refine hR.trsm _ _ _ _ _ _ _ _ _ _ _ _ _ fun g => h ?_
  have e1 := hA.ld
  have e2 := hB.ld
  simp only [sideDim, hA.rows, hA.cols, hB.rows, hB.cols] at g e1 e2
  exact ⟨e1.1 g.1, e2.1 g.2⟩

theorem xtrmm_LLTN_exactly (hL : L.Conforms) (hR : L.Rejects) {A B : View} {n c : ℕ} (alpha : α) {m : Mem α} (hA : IsView A n n m) (hB : IsView B n c m)
    (h1 : Separate B A) :
    Exactly (xtrmm_LLTN L alpha A B m) (A.outer ≠ 0 ∧ B.outer ≠ 0) fun m' => mat B n c m' = alpha • ((lower (mat A n n m))ᵀ * mat B n c m) ∧ OnlyIn B m m' := by
  refine exactly_of (fun h => xtrmm_LLTN_partial hL alpha (hA.is h.1) (hB.is h.2) h1) fun h => ?_
  unfold xtrmm_LLTN xtrmm
  rw [assume_ok (by simp [hA.rows, hA.cols, hB.rows, hB.cols])]
  refine hR.trmm _ _ _ _ _ _ _ _ _ _ _ _ _ fun g => h ?_
  have e1 := hA.ld
  have e2 := hB.ld
  simp only [sideDim, hA.rows, hA.cols, hB.rows, hB.cols] at g e1 e2
  exact ⟨e1.1 g.1, e2.1 g.2⟩

theorem xtrsm_LLTN_exactly (hL : L.Conforms) (hR : L.Rejects) {A B : View} {n c : ℕ} (alpha : α) {m : Mem α} (hA : IsView A n n m) (hB : IsView B n c m)
    (h1 : Separate B A)
    (hd : ∀ i, mat A n n m i i ≠ 0) :
    Exactly (xtrsm_LLTN L alpha A B m) (A.outer ≠ 0 ∧ B.outer ≠ 0) fun m' => (lower (mat A n n m))ᵀ * mat B n c m' = alpha • mat B n c m ∧ OnlyIn B m m' := by
  refine exactly_of (fun h => xtrsm_LLTN_partial hL alpha (hA.is h.1) (hB.is h.2) h1 hd) fun h => ?_
  unfold xtrsm_LLTN xtrsm
  rw [assume_ok (by simp [hA.rows, hA.cols, hB.rows, hB.cols])]
  refine hR.trsm _ _ _ _ _ _ _ _ _ _ _ _ _ fun g => h ?_
  have e1 := hA.ld
  have e2 := hB.ld
  simp only [sideDim, hA.rows, hA.cols, hB.rows, hB.cols] at g e1 e2
  exact ⟨e1.1 g.1, e2.1 g.2⟩

theorem xtrmm_RLNN_exactly (hL : L.Conforms) (hR : L.Rejects) {A B : View} {n r : ℕ} (alpha : α) {m : Mem α} (hA : IsView A n n m) (hB : IsView B r n m)
    (h1 : Separate B A) :
    Exactly (xtrmm_RLNN L alpha A B m) (A.outer ≠ 0 ∧ B.outer ≠ 0) fun m' => mat B r n m' = alpha • (mat B r n m * lower (mat A n n m)) ∧ OnlyIn B m m' := by
  refine exactly_of (fun h => xtrmm_RLNN_partial hL alpha (hA.is h.1) (hB.is h.2) h1) fun h => ?_
  unfold xtrmm_RLNN xtrmm
  rw [assume_ok (by simp [hA.rows, hA.cols, hB.rows, hB.cols])]
  refine hR.trmm _ _ _ _ _ _ _ _ _ _ _ _ _ fun g => h ?_
  have e1 := hA.ld
  have e2 := hB.ld
  simp only [sideDim, hA.rows, hA.cols, hB.rows, hB.cols] at g e1 e2
  exact ⟨e1.1 g.1, e2.1 g.2⟩

theorem xtrsm_RLNN_exactly (hL : L.Conforms) (hR : L.Rejects) {A B : View} {n r : ℕ} (alpha : α) {m : Mem α} (hA : IsView A n n m) (hB : IsView B r n m)
    (h1 : Separate B A)
    (hd : ∀ i, mat A n n m i i ≠ 0) :
    Exactly (xtrsm_RLNN L alpha A B m) (A.outer ≠ 0 ∧ B.outer ≠ 0) fun m' => mat B r n m' * lower (mat A n n m) = alpha • mat B r n m ∧ OnlyIn B m m' := by
  refine exactly_of (fun h => xtrsm_RLNN_partial hL alpha (hA.is h.1) (hB.is h.2) h1 hd) fun h => ?_
  unfold xtrsm_RLNN xtrsm
  rw [assume_ok (by simp [hA.rows, hA.cols, hB.rows, hB.cols])]
  refine hR.trsm _ _ _ _ _ _ _ _ _ _ _ _ _ fun g => h ?_
  have e1 := hA.ld
  have e2 := hB.ld
  simp only [sideDim, hA.rows, hA.cols, hB.rows, hB.cols] at g e1 e2
  exact ⟨e1.1 g.1, e2.1 g.2⟩

theorem xtrmm_RLTN_exactly (hL : L.Conforms) (hR : L.Rejects) {A B : View} {n r : ℕ} (alpha : α) {m : Mem α} (hA : IsView A n n m) (hB : IsView B r n m)
    (h1 : Separate B A) :
    Exactly (xtrmm_RLTN L alpha A B m) (A.outer ≠ 0 ∧ B.outer ≠ 0) fun m' => mat B r n m' = alpha • (mat B r n m * (lower (mat A n n m))ᵀ) ∧ OnlyIn B m m' := by
  refine exactly_of (fun h => xtrmm_RLTN_partial hL alpha (hA.is h.1) (hB.is h.2) h1) fun h => ?_
  unfold xtrmm_RLTN xtrmm
  rw [assume_ok (by simp [hA.rows, hA.cols, hB.rows, hB.cols])]
  refine hR.trmm _ _ _ _ _ _ _ _ _ _ _ _ _ fun g => h ?_
  have e1 := hA.ld
  have e2 := hB.ld
  simp only [sideDim, hA.rows, hA.cols, hB.rows, hB.cols] at g e1 e2
  exact ⟨e1.1 g.1, e2.1 g.2⟩

theorem xtrsm_RLTN_exactly (hL : L.Conforms) (hR : L.Rejects) {A B : View} {n r : ℕ} (alpha : α) {m : Mem α} (hA : IsView A n n m) (hB : IsView B r n m)
    (h1 : Separate B A)
    (hd : ∀ i, mat A n n m i i ≠ 0) :
    Exactly (xtrsm_RLTN L alpha A B m) (A.outer ≠ 0 ∧ B.outer ≠ 0) fun m' => mat B r n m' * (lower (mat A n n m))ᵀ = alpha • mat B r n m ∧ OnlyIn B m m' := by
  refine exactly_of (fun h => xtrsm_RLTN_partial hL alpha (hA.is h.1) (hB.is h.2) h1 hd) fun h => ?_
  unfold xtrsm_RLTN xtrsm
  rw [assume_ok (by simp [hA.rows, hA.cols, hB.rows, hB.cols])]
  refine hR.trsm _ _ _ _ _ _ _ _ _ _ _ _ _ fun g => h ?_
  have e1 := hA.ld
  have e2 := hB.ld
  simp only [sideDim, hA.rows, hA.cols, hB.rows, hB.cols] at g e1 e2
  exact ⟨e1.1 g.1, e2.1 g.2⟩

/-- `y` should be `alpha A x + beta y`, which for an empty product is `beta y`, but is left as it is. -/
theorem xgemv_N_exactly (hL : L.Conforms) (hR : L.Rejects) {A x y : View} {r c : ℕ} (alpha beta : α) {m : Mem α} (hA : IsView A r c m)
    (hx : IsView x c 1 m) (hy : IsView y r 1 m) (h1 : Separate y A) (h2 : Separate y x) :
    ((∃ m', xgemv_N L alpha A x beta y m = .ok m' ∧ mat y r 1 m' = alpha • (mat A r c m * mat x c 1 m) + beta • mat y r 1 m ∧ OnlyIn y m m') ↔
      A.outer ≠ 0 ∧ (c = 0 → beta • mat y r 1 m = mat y r 1 m)) ∧
    (A.outer ≠ 0 → r = 0 ∨ c = 0 → xgemv_N L alpha A x beta y m = .ok m) ∧
    (A.outer = 0 → xgemv_N L alpha A x beta y m = .illegal) := by
  have hbad : A.outer = 0 → xgemv_N L alpha A x beta y m = .illegal := by
    intro h
    unfold xgemv_N xgemv
    rw [assume_ok (by simp [hA.rows, hA.cols, hx.rows, hx.cols, hy.rows, hy.cols])]
    exact hR.gemv _ _ _ _ _ _ _ _ _ _ _ _ _ fun g => hA.ld.1 g h
  have hempty : A.outer ≠ 0 → r = 0 ∨ c = 0 → xgemv_N L alpha A x beta y m = .ok m := by
    intro h hrc
    unfold xgemv_N xgemv
    rw [assume_ok (by simp [hA.rows, hA.cols, hx.rows, hx.cols, hy.rows, hy.cols])]
    exact hL.gemv_empty _ _ _ _ _ _ _ _ _ _ _ _ _ (by rw [hA.rows]; omega) (by rw [hA.cols]; omega) (by rw [hA.rows, hA.cols]; omega)
      (by decide) (by decide) (hA.ld.2 h)
  refine ⟨⟨?_, ?_⟩, hempty, hbad⟩
  · rintro ⟨m', e, e1, -⟩
    have h : A.outer ≠ 0 := by
      intro h
      rw [hbad h] at e
      cases e
    refine ⟨h, fun hc => ?_⟩
    rw [hempty h (Or.inr hc)] at e
    cases e
    subst hc
    simpa using e1.symm
  · rintro ⟨h, hb⟩
    rcases Nat.eq_zero_or_pos c with hc | hc
    · refine ⟨m, hempty h (Or.inr hc), ?_, onlyIn_refl hy.backed⟩
      rw [hb hc]
      subst hc
      simp
    rcases Nat.eq_zero_or_pos r with hr | hr
    · subst hr
      exact ⟨m, hempty h (Or.inl rfl), funext fun i => i.elim0, onlyIn_refl hy.backed⟩
    · obtain ⟨m', e, e1, e2⟩ := xgemv_N_partial hL alpha beta hr hc (hA.is h) hx.vec hy.vec (separate_vec hy h1)
        (separate_vec' hx (separate_vec hy h2))
      rw [mat_outer, mat_outer, mat_outer] at e1
      exact ⟨m', e, e1, (onlyIn_vec hy).1 e2⟩

/-- `y` should be `alpha A x + beta y`, which for an empty product is `beta y`, but is left as it is. -/
theorem xgemv_T_exactly (hL : L.Conforms) (hR : L.Rejects) {A x y : View} {r c : ℕ} (alpha beta : α) {m : Mem α} (hA : IsView A c r m)
    (hx : IsView x c 1 m) (hy : IsView y r 1 m) (h1 : Separate y A) (h2 : Separate y x) :
    ((∃ m', xgemv_T L alpha A x beta y m = .ok m' ∧ mat y r 1 m' = alpha • ((mat A c r m)ᵀ * mat x c 1 m) + beta • mat y r 1 m ∧ OnlyIn y m m') ↔
      A.outer ≠ 0 ∧ (c = 0 → beta • mat y r 1 m = mat y r 1 m)) ∧
    (A.outer ≠ 0 → r = 0 ∨ c = 0 → xgemv_T L alpha A x beta y m = .ok m) ∧
    (A.outer = 0 → xgemv_T L alpha A x beta y m = .illegal) := by
  have hbad : A.outer = 0 → xgemv_T L alpha A x beta y m = .illegal := by
    intro h
    unfold xgemv_T xgemv
    rw [assume_ok (by simp [hA.rows, hA.cols, hx.rows, hx.cols, hy.rows, hy.cols])]
    exact hR.gemv _ _ _ _ _ _ _ _ _ _ _ _ _ fun g => hA.ld.1 g h
  have hempty : A.outer ≠ 0 → r = 0 ∨ c = 0 → xgemv_T L alpha A x beta y m = .ok m := by
    intro h hrc
    unfold xgemv_T xgemv
    rw [assume_ok (by simp [hA.rows, hA.cols, hx.rows, hx.cols, hy.rows, hy.cols])]
    exact hL.gemv_empty _ _ _ _ _ _ _ _ _ _ _ _ _ (by rw [hA.rows]; omega) (by rw [hA.cols]; omega) (by rw [hA.rows, hA.cols]; omega)
      (by decide) (by decide) (hA.ld.2 h)
  refine ⟨⟨?_, ?_⟩, hempty, hbad⟩
  · rintro ⟨m', e, e1, -⟩
    have h : A.outer ≠ 0 := by
      intro h
      rw [hbad h] at e
      cases e
    refine ⟨h, fun hc => ?_⟩
    rw [hempty h (Or.inr hc)] at e
    cases e
    subst hc
    simpa using e1.symm
  · rintro ⟨h, hb⟩
    rcases Nat.eq_zero_or_pos c with hc | hc
    · refine ⟨m, hempty h (Or.inr hc), ?_, onlyIn_refl hy.backed⟩
      rw [hb hc]
      subst hc
      simp
    rcases Nat.eq_zero_or_pos r with hr | hr
    · subst hr
      exact ⟨m, hempty h (Or.inl rfl), funext fun i => i.elim0, onlyIn_refl hy.backed⟩
    · obtain ⟨m', e, e1, e2⟩ := xgemv_T_partial hL alpha beta hr hc (hA.is h) hx.vec hy.vec (separate_vec hy h1)
        (separate_vec' hx (separate_vec hy h2))
      rw [mat_outer, mat_outer, mat_outer] at e1
      exact ⟨m', e, e1, (onlyIn_vec hy).1 e2⟩

/-- The empty matrix, with the distance between its columns that `MatrixView` takes by default, is refused: argument 4 of `potrf` and `lauum`, argument 5
of `trtri`. With any other distance, these functions do what they should (`xpotrf_L_partial` etc. with `IsView.is`). -/
theorem lapack_rejects_iff (hL : L.Conforms) (hR : L.Rejects) {A : View} {n : ℕ} {m : Mem α} (hA : IsView A n n m) :
    ((∃ info m', xpotrf_L L A m = .lapackError info m' ∧ info < 0) ↔ A.outer = 0) ∧
    ((∃ info m', xlauum_L L A m = .lapackError info m') ↔ A.outer = 0) ∧
    ((∃ info m', xtrtri_LN L A m = .lapackError info m' ∧ info < 0) ↔ A.outer = 0) ∧
    (A.outer = 0 → xpotrf_L L A m = .lapackError (-4) m ∧ xlauum_L L A m = .lapackError (-4) m ∧ xtrtri_LN L A m = .lapackError (-5) m) := by
  have hbad : A.outer = 0 → xpotrf_L L A m = .lapackError (-4) m ∧ xlauum_L L A m = .lapackError (-4) m ∧ xtrtri_LN L A m = .lapackError (-5) m := by
    intro h
    have g : ¬ LdOk .col A.rows A.rows A.outer := by
      intro g
      have := hA.ld
      rw [hA.rows, hA.cols] at this
      rw [hA.rows] at g
      exact this.1 g h
    unfold xpotrf_L xpotrf xlauum_L xlauum xtrtri_LN xtrtri
    rw [assume_ok (by simp [hA.rows, hA.cols]), assume_ok (by simp [hA.rows, hA.cols]), assume_ok (by simp [hA.rows, hA.cols]),
      hR.potrf _ _ _ _ _ g, hR.lauum _ _ _ _ _ g, hR.trtri _ _ _ _ _ _ g]
    exact ⟨rfl, rfl, rfl⟩
  refine ⟨⟨?_, fun h => ⟨_, _, (hbad h).1, by decide⟩⟩, ⟨?_, fun h => ⟨_, _, (hbad h).2.1⟩⟩, ⟨?_, fun h => ⟨_, _, (hbad h).2.2, by decide⟩⟩, hbad⟩
  · rintro ⟨info, m', e, hi⟩
    by_contra h
    rcases xpotrf_L_partial hL (hA.is h) with ⟨m1, e1, -⟩ | ⟨m1, i1, e1, h1, -⟩
    · rw [e1] at e; cases e
    · rw [e1] at e
      cases e
      omega
  · rintro ⟨info, m', e⟩
    by_contra h
    obtain ⟨m1, e1, -⟩ := xlauum_L_partial hL (hA.is h)
    rw [e1] at e
    cases e
  · rintro ⟨info, m', e, hi⟩
    by_contra h
    obtain ⟨h1, h2⟩ := xtrtri_LN_partial hL (hA.is h)
    by_cases hd : ∀ i, mat A n n m i i ≠ 0
    · obtain ⟨m1, e1, -⟩ := h1 hd
      rw [e1] at e
      cases e
    · push Not at hd
      obtain ⟨k, hk, hmin⟩ : ∃ k, mat A n n m k k = 0 ∧ ∀ i < k, mat A n n m i i ≠ 0 := by
        classical
        obtain ⟨k, hk, hm⟩ := WellFounded.has_min (wellFounded_lt (α := Fin n)) {i | mat A n n m i i = 0} hd
        exact ⟨k, hk, fun i hi h0 => hm i h0 hi⟩
      rw [h2 k hk hmin] at e
      cases e
      omega

/-! The cases of `Empty.lean`: `C` is 1×1, `A` is 1×0 and `B` is 0×1 with its default outer stride. -/

example : ∃ A B C : View, IsView A 1 0 oneCell ∧ IsView B 0 1 oneCell ∧ IsView C 1 1 oneCell ∧ Separate C A ∧ Separate C B ∧
    ¬ (A.outer ≠ 0 ∧ B.outer ≠ 0 ∧ C.outer ≠ 0) :=
  ⟨View.withDefaultOuter 0 1 0 1, View.withDefaultOuter 0 0 1 1, { data := 0, rows := 1, cols := 1, inner := 1, outer := 1 },
    ⟨rfl, rfl, rfl, by decide, backed_empty (Or.inr rfl)⟩, ⟨rfl, rfl, rfl, by decide, backed_empty (Or.inl rfl)⟩,
    ⟨rfl, rfl, rfl, by decide, oneCell_backed⟩, separate_empty (Or.inr rfl), separate_empty (Or.inl rfl), by simp [View.withDefaultOuter]⟩

/-- The same with an outer stride of one: `C` is multiplied by `beta`. -/
example : ∃ m', xgemm_NN (ref ℚ) 1 { data := 0, rows := 1, cols := 0, inner := 1, outer := 1 } { data := 0, rows := 0, cols := 1, inner := 1, outer := 1 } 2
    { data := 0, rows := 1, cols := 1, inner := 1, outer := 1 } oneCell = .ok m' ∧ m' 0 = some 2 := by
  obtain ⟨m', e, hm, -⟩ := (xgemm_NN_exactly ref_conforms ref_rejects (A := { data := 0, rows := 1, cols := 0, inner := 1, outer := 1 })
    (B := { data := 0, rows := 0, cols := 1, inner := 1, outer := 1 }) (C := { data := 0, rows := 1, cols := 1, inner := 1, outer := 1 })
    (1 : ℚ) 2 (m := oneCell) (r := 1) (k := 0) (c := 1) ⟨rfl, rfl, rfl, by decide, backed_empty (Or.inr rfl)⟩
    ⟨rfl, rfl, rfl, by decide, backed_empty (Or.inl rfl)⟩ ⟨rfl, rfl, rfl, by decide, oneCell_backed⟩ (separate_empty (Or.inr rfl))
    (separate_empty (Or.inl rfl))).1.2 (by simp)
  refine ⟨m', e, ?_⟩
  have := congrFun (congrFun hm 0) 0
  simp [mat, val, View.addr, oneCell, Matrix.mul_apply] at this
  cases h : m' 0 with
  | none => simp [h] at this
  | some v => simp [h] at this; rw [this]

end Guanaqo.Blas
