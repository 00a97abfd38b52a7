import Verif.Blas.BatchBad

/-! # Errors of LAPACK (C68), and batches with MKL (C67) -/

namespace Guanaqo.Blas

open Guanaqo.MatView (View)
open Guanaqo.Par
open Finset

variable {α : Type} [Field α] {L : Lib α}

set_option linter.unusedSectionVars false

/-! ## Single calls -/

theorem throwOnErr_spec {r : Mem α × Int} :
    (∀ info m', throwOnErr r = .lapackError info m' ↔ info ≠ 0 ∧ r = (m', info)) ∧ ∀ m', throwOnErr r = .ok m' ↔ r = (m', 0) := by
  obtain ⟨m, i⟩ := r
  unfold throwOnErr
  refine ⟨fun info m' => ?_, fun m' => ?_⟩
  · by_cases h : i = 0
    · subst h
      simp
      intro h1 _ h2; exact h1 h2.symm
    · rw [if_pos h]
      simp
      constructor
      · rintro ⟨rfl, rfl⟩; exact ⟨h, rfl, rfl⟩
      · rintro ⟨_, rfl, rfl⟩; exact ⟨rfl, rfl⟩
  · by_cases h : i = 0
    · subst h; simp
    · rw [if_pos h]; simp [h]

/-- `xpotrf_L` of a square view throws `lapack_error` with the `info` of `potrf`, if that is not zero; otherwise it returns. -/
theorem xpotrf_L_reports (A : View) (h : A.rows = A.cols) (m : Mem α) :
    (∀ info m', xpotrf_L L A m = .lapackError info m' ↔ info ≠ 0 ∧ L.potrf .lower A.rows A.data A.outer m = (m', info)) ∧
    ∀ m', xpotrf_L L A m = .ok m' ↔ L.potrf .lower A.rows A.data A.outer m = (m', 0) := by
  unfold xpotrf_L xpotrf
  rw [assume_ok (by simp [h])]
  exact throwOnErr_spec

/-- The same for `xlauum_L`. -/
theorem xlauum_L_reports (A : View) (h : A.rows = A.cols) (m : Mem α) :
    (∀ info m', xlauum_L L A m = .lapackError info m' ↔ info ≠ 0 ∧ L.lauum .lower A.rows A.data A.outer m = (m', info)) ∧
    ∀ m', xlauum_L L A m = .ok m' ↔ L.lauum .lower A.rows A.data A.outer m = (m', 0) := by
  unfold xlauum_L xlauum
  rw [assume_ok (by simp [h])]
  exact throwOnErr_spec

/-- The same for `xtrtri_LN`. -/
theorem xtrtri_LN_reports (A : View) (h : A.rows = A.cols) (m : Mem α) :
    (∀ info m', xtrtri_LN L A m = .lapackError info m' ↔ info ≠ 0 ∧ L.trtri .lower .nonUnit A.rows A.data A.outer m = (m', info)) ∧
    ∀ m', xtrtri_LN L A m = .ok m' ↔ L.trtri .lower .nonUnit A.rows A.data A.outer m = (m', 0) := by
  unfold xtrtri_LN xtrtri
  rw [assume_ok (by simp [h])]
  exact throwOnErr_spec

/-- For example: a zero at position 1 (of 2) of the diagonal gives `info = 2`. -/
example : ∃ m' : Mem ℚ, xtrtri_LN (ref ℚ) { data := 0, rows := 2, cols := 2, inner := 1, outer := 2 } (fun a => if a = 3 then some 0 else some 1) =
    .lapackError 2 m' := by
  refine ⟨fun a => if a = 3 then some 0 else some 1,
    ((xtrtri_LN_reports { data := 0, rows := 2, cols := 2, inner := 1, outer := 2 } rfl _).1 2 _).2 ⟨by decide, ?_⟩⟩
  · refine ((ref_conforms (α := ℚ)).trtri .lower .nonUnit 2 0 2 (fun a => if a = 3 then some 0 else some 1) (by decide) (by simp [LdOk]) ?_).2 1 rfl
      (by decide) ?_ ?_
    · intro i j _
      dsimp only
      split <;> exact ⟨_, rfl⟩
    · simp [cell, val]
    · intro i hi
      have : i = 0 := by omega
      subst this
      simp [cell, val]

/-! ## Batches -/

/-- If `xpotrf_batch_strided` returns, all the factorisations have succeeded. -/
def BatchReports : Prop := ∀ (α : Type) [Field α] (L : Lib α) (_ : L.Conforms) (I : PotrfImpl L) (u : Uplo) (N A lda stridea : Int) (batch : Nat)
  (s : Shared α) (m' : Mem α), PotrfBlocks u N A lda stridea batch s.mem → PotrfBatch I u N A lda stridea batch s (.ok m') →
  ∀ info ∈ (loopInfo (fun i => xpotrf L u N (A + i * stridea) lda) batch s.mem).2, info = 0

/-- For legal arguments `xpotrf_batch_strided` never throws, whatever the matrices and the values of `info` are. -/
theorem xpotrf_batch_never_throws (hL : L.Conforms) (I : PotrfImpl L) {u : Uplo} {N A lda stridea : Int} {batch : Nat} {s : Shared α} {out : Out α}
    (hb : PotrfBlocks u N A lda stridea batch s.mem) (h : PotrfBatch I u N A lda stridea batch s out) : ∃ m', out = .ok m' := by
  have hnn : ∀ k ≤ batch, ∀ info ∈ (loopInfo (fun i => xpotrf L u N (A + i * stridea) lda) k s.mem).2, 0 ≤ info := by
    have hall : ∀ k ≤ batch, ∀ b, (∃ x, s.mem b = some x) → ∃ x, (loopInfo (fun i => xpotrf L u N (A + i * stridea) lda) k s.mem).1 b = some x := by
      intro k
      induction k with
      | zero => intro _ b hx; exact hx
      | succ k ih =>
        intro hk b hx
        rw [loopInfo]
        dsimp only
        obtain ⟨-, hc, -⟩ := hL.potrf u N (A + k * stridea) lda _ hb.N0 hb.hlda
          (fun i j hij => ih (by omega) _ (hb.alloc k (by omega) i j hij)) _ _ rfl
        by_cases ha : ∃ i j, tri u N i j ∧ b = cell .col (A + k * stridea) lda i j
        · obtain ⟨i, j, hij, rfl⟩ := ha
          exact hc.1 i j hij
        · have : ∀ i j, tri u N i j → b ≠ cell .col (A + k * stridea) lda i j := fun i j hij e => ha ⟨i, j, hij, e⟩
          have hcb := hc.2 b this
          obtain ⟨x, hx'⟩ := ih (by omega) b hx
          exact ⟨x, hcb.trans hx'⟩
    intro k
    induction k with
    | zero => intro _ info h; cases h
    | succ k ih =>
      intro hk info hi
      rw [loopInfo] at hi
      rcases List.mem_append.1 hi with hi | hi
      · exact ih (by omega) info hi
      · have : info = _ := List.mem_singleton.1 hi
        rw [this]
        exact (hL.potrf u N (A + k * stridea) lda _ hb.N0 hb.hlda
          (fun i j hij => hall k (by omega) _ (hb.alloc k (by omega) i j hij)) _ _ rfl).1
  rcases xpotrf_batch_is_loop I hb h with e | ⟨info, e⟩
  · exact ⟨_, e⟩
  · exfalso
    obtain ⟨i, hi, h0⟩ := (xpotrf_batch_throws_partial I hb h).1 ⟨_, _, e⟩
    have := hnn batch (Nat.le_refl _) i hi
    omega

/-- Minus one, everywhere. -/
def minusOnes : Shared ℚ := ⟨fun _ => some (-1), fun _ => 0⟩

theorem minusOnes_blocks : PotrfBlocks .lower 1 0 1 1 1 minusOnes.mem := by
  refine ⟨by decide, by simp [LdOk], fun _ _ _ _ _ => ⟨_, rfl⟩, fun i hi j hj hij => by omega⟩

/-- -1 has no square root. -/
theorem minusOne_info : ((ref ℚ).potrf .lower 1 0 1 minusOnes.mem).2 ≠ 0 := by
  intro h
  have e : (ref ℚ).potrf .lower 1 0 1 minusOnes.mem = (((ref ℚ).potrf .lower 1 0 1 minusOnes.mem).1, 0) := Prod.ext rfl h
  obtain ⟨-, hc, hz, -⟩ := (ref_conforms (α := ℚ)).potrf .lower 1 0 1 minusOnes.mem (by decide) (by simp [LdOk]) (fun _ _ _ => ⟨_, rfl⟩) _ _ e
  have := hz rfl 0 0 (by decide) (by decide) ⟨by decide, by decide⟩
  simp [triVal, cell, val, minusOnes] at this
  have h0 := mul_self_nonneg ((((ref ℚ).potrf .lower 1 0 1 minusOnes.mem).1 0).getD 0)
  change (((ref ℚ).potrf .lower 1 0 1 minusOnes.mem).1 0).getD 0 * (((ref ℚ).potrf .lower 1 0 1 minusOnes.mem).1 0).getD 0 = -1 at this
  rw [this] at h0
  norm_num at h0

/-- The matrix [-1] is not positive definite, and `xpotrf_batch_strided` does not tell. -/
theorem not_batchReports : ¬ BatchReports := by
  intro h
  obtain ⟨k, hs⟩ := steps_alone (c := start (potrfBody (refPotrf ℚ) .lower 1 0 1 1) [[0]] minusOnes) (t := 0) (i := 0) (rest := []) rfl
  have hp : PotrfBatch (refPotrf ℚ) .lower 1 0 1 1 1 minusOnes _ :=
    ⟨_, fun _ => ((potrfBody (refPotrf ℚ) .lower 1 0 1 1 0).run minusOnes).2, ⟨[[0]], k, _, List.Perm.refl _, hs, by
      intro l hl
      simp [start] at hl
      exact hl, rfl, by
      intro i hi
      have : i = 0 := by omega
      subst this
      rfl⟩, rfl⟩
  obtain ⟨m', e⟩ := xpotrf_batch_never_throws ref_conforms _ minusOnes_blocks hp
  rw [e] at hp
  refine minusOne_info (h ℚ (ref ℚ) ref_conforms (refPotrf ℚ) .lower 1 0 1 1 1 minusOnes m' minusOnes_blocks hp _ ?_)
  show _ ∈ [((ref ℚ).potrf .lower 1 (0 + ((0 : ℕ) : Int) * 1) 1 minusOnes.mem).2]
  simp

/-! ## MKL -/

/-- `cblas_dgemv_batch_strided` and `cblas_dgemm_batch_strided` of MKL. -/
structure MklLib (α : Type) where
  gemvBatch : Layout → Trans → (m n : Int) → (alpha : α) → (a lda stridea x incx stridex : Int) → (beta : α) → (y incy stridey : Int) → Nat → Mem α → Out α
  gemmBatch : Layout → Trans → Trans → (M N K : Int) → (alpha : α) → (A lda stridea B ldb strideb : Int) → (beta : α) → (C ldc stridec : Int) → Nat →
    Mem α → Out α

/-- They are loops of single calls, for operands that are not empty. -/
structure MklLib.Conforms (B : MklLib α) (L : Lib α) : Prop where
  gemv : ∀ lay t M N alpha a lda stridea x incx stridex beta y incy stridey batch m, 0 < M → 0 < N →
    GemvBlocks lay t M N a lda stridea x incx stridex y incy stridey batch m →
    B.gemvBatch lay t M N alpha a lda stridea x incx stridex beta y incy stridey batch m =
      loop (fun i => xgemv L lay t M N alpha (a + i * stridea) lda (x + i * stridex) incx beta (y + i * stridey) incy) batch m
  gemm : ∀ lay tA tB M N K alpha A lda stridea B' ldb strideb beta C ldc stridec batch m, 0 < M → 0 < N → 0 < K →
    GemmBlocks lay tA tB M N K A lda stridea B' ldb strideb C ldc stridec batch m →
    B.gemmBatch lay tA tB M N K alpha A lda stridea B' ldb strideb beta C ldc stridec batch m =
      loop (fun i => xgemm L lay tA tB M N K alpha (A + i * stridea) lda (B' + i * strideb) ldb beta (C + i * stridec) ldc) batch m

/-- blas-interface.cpp:222-248: `xgemv_batch_strided` with MKL. -/
def xgemv_batch_mkl (B : MklLib α) (lay : Layout) (t : Trans) (m n : Int) (alpha : α) (a lda stridea x incx stridex : Int) (beta : α)
    (y incy stridey : Int) (batch : Nat) (mem : Mem α) : Out α :=
  if m = 0 ∨ n = 0 then .ok mem else B.gemvBatch lay t m n alpha a lda stridea x incx stridex beta y incy stridey batch mem

/-- blas-interface.cpp:274-299: `xgemm_batch_strided` with MKL. -/
def xgemm_batch_mkl (B : MklLib α) (lay : Layout) (tA tB : Trans) (M N K : Int) (alpha : α) (A lda stridea B' ldb strideb : Int) (beta : α)
    (C ldc stridec : Int) (batch : Nat) (mem : Mem α) : Out α :=
  if M = 0 ∨ N = 0 ∨ K = 0 then .ok mem else B.gemmBatch lay tA tB M N K alpha A lda stridea B' ldb strideb beta C ldc stridec batch mem

theorem loop_ok {call : Nat → Mem α → Out α} {m : Mem α} : ∀ n, (∀ i < n, call i m = .ok m) → loop call n m = .ok m
  | 0, _ => rfl
  | n + 1, h => by rw [loop, loop_ok n fun i hi => h i (by omega)]; exact h n (by omega)

/-- With MKL, `xgemv_batch_strided` is a loop of single calls, for empty operands too. -/
theorem xgemv_batch_mkl_is_loop (hL : L.Conforms) {B : MklLib α} (hB : B.Conforms L) {lay : Layout} {t : Trans}
    {M N a lda stridea x incx stridex y incy stridey : Int} {alpha beta : α} {batch : Nat} {m : Mem α}
    (hb : GemvBlocks lay t M N a lda stridea x incx stridex y incy stridey batch m) :
    xgemv_batch_mkl B lay t M N alpha a lda stridea x incx stridex beta y incy stridey batch m =
      loop (fun i => xgemv L lay t M N alpha (a + i * stridea) lda (x + i * stridex) incx beta (y + i * stridey) incy) batch m := by
  unfold xgemv_batch_mkl
  by_cases h0 : M = 0 ∨ N = 0
  · rw [if_pos h0]
    exact (loop_ok batch fun i _ => hL.gemv_empty _ _ _ _ _ _ _ _ _ _ _ _ _ hb.M0 hb.N0 h0 hb.hincx hb.hincy hb.hlda).symm
  · rw [if_neg h0]
    have := hb.M0
    have := hb.N0
    exact hB.gemv _ _ _ _ _ _ _ _ _ _ _ _ _ _ _ _ _ (by omega) (by omega) hb

/-- With MKL, `xgemm_batch_strided` is a loop of single calls, if `K` is not zero. -/
theorem xgemm_batch_mkl_is_loop_partial (hL : L.Conforms) {B : MklLib α} (hB : B.Conforms L) {lay : Layout} {tA tB : Trans}
    {M N K A lda stridea B' ldb strideb C ldc stridec : Int} {alpha beta : α} {batch : Nat} {m : Mem α} (hK : K ≠ 0)
    (hb : GemmBlocks lay tA tB M N K A lda stridea B' ldb strideb C ldc stridec batch m) :
    xgemm_batch_mkl B lay tA tB M N K alpha A lda stridea B' ldb strideb beta C ldc stridec batch m =
      loop (fun i => xgemm L lay tA tB M N K alpha (A + i * stridea) lda (B' + i * strideb) ldb beta (C + i * stridec) ldc) batch m := by
  unfold xgemm_batch_mkl
  have hM := hb.M0
  have hN := hb.N0
  have hK0 := hb.K0
  by_cases h0 : M = 0 ∨ N = 0 ∨ K = 0
  · rw [if_pos h0]
    refine (loop_ok batch fun i hi => ?_).symm
    obtain ⟨m', e, w⟩ := hL.gemm lay tA tB M N K alpha (A + i * stridea) lda (B' + i * strideb) ldb beta (C + i * stridec) ldc m hM hN hK0
      hb.hlda hb.hldb hb.hldc (hb.allocA i hi) (hb.allocB i hi) (hb.allocC i hi) (hb.apartA i hi i hi) (hb.apartB i hi i hi)
    unfold xgemm
    rw [e]
    congr 1
    funext c
    refine w.2 c fun p q hpq => ?_
    obtain ⟨h1, h2⟩ := hpq
    omega
  · rw [if_neg h0]
    exact hB.gemm _ _ _ _ _ _ _ _ _ _ _ _ _ _ _ _ _ _ _ (by omega) (by omega) (by omega) hb

/-- The same without the condition on `K`. -/
def GemmMklFull : Prop := ∀ (α : Type) [Field α] (L : Lib α) (_ : L.Conforms) (B : MklLib α) (_ : B.Conforms L) (lay : Layout) (tA tB : Trans)
  (M N K A lda stridea B' ldb strideb C ldc stridec : Int) (alpha beta : α) (batch : Nat) (m : Mem α),
  GemmBlocks lay tA tB M N K A lda stridea B' ldb strideb C ldc stridec batch m →
  xgemm_batch_mkl B lay tA tB M N K alpha A lda stridea B' ldb strideb beta C ldc stridec batch m =
    loop (fun i => xgemm L lay tA tB M N K alpha (A + i * stridea) lda (B' + i * strideb) ldb beta (C + i * stridec) ldc) batch m

/-- A batched library made from single calls. -/
def mklOf (L : Lib α) : MklLib α where
  gemvBatch lay t M N alpha a lda stridea x incx stridex beta y incy stridey batch :=
    loop (fun i => xgemv L lay t M N alpha (a + i * stridea) lda (x + i * stridex) incx beta (y + i * stridey) incy) batch
  gemmBatch lay tA tB M N K alpha A lda stridea B' ldb strideb beta C ldc stridec batch :=
    loop (fun i => xgemm L lay tA tB M N K alpha (A + i * stridea) lda (B' + i * strideb) ldb beta (C + i * stridec) ldc) batch

theorem mklOf_conforms (L : Lib α) : (mklOf L).Conforms L := ⟨fun _ _ _ _ _ _ _ _ _ _ _ _ _ _ _ _ _ _ _ _ => rfl,
  fun _ _ _ _ _ _ _ _ _ _ _ _ _ _ _ _ _ _ _ _ _ _ _ => rfl⟩

/-- With `K = 0`, `C` should be multiplied by `beta`; nothing happens. -/
theorem not_gemmMklFull : ¬ GemmMklFull := by
  intro h
  have hb : GemmBlocks .col .no .no 1 1 0 0 1 1 2 1 1 10 1 1 1 (allOnes ℚ) := by
    refine ⟨by decide, by decide, by decide, by simp [OpLdOk, LdOk], by simp [OpLdOk, LdOk], by simp [LdOk], fun _ _ _ _ _ => ⟨_, rfl⟩,
      fun _ _ _ _ _ => ⟨_, rfl⟩, fun _ _ _ _ _ => ⟨_, rfl⟩, ?_, ?_, fun i hi j hj hij => by omega⟩
    · rintro i hi j hj p q p' q' - ⟨-, h⟩; omega
    · rintro i hi j hj p q p' q' - ⟨h, -⟩; omega
  have e := h ℚ (ref ℚ) ref_conforms (mklOf (ref ℚ)) (mklOf_conforms _) .col .no .no 1 1 0 0 1 1 2 1 1 10 1 1 1 2 1 (allOnes ℚ) hb
  obtain ⟨m', e', w⟩ := (ref_conforms (α := ℚ)).gemm .col .no .no 1 1 0 1 (0 + (0 : ℕ) * 1) 1 (2 + (0 : ℕ) * 1) 1 2 (10 + (0 : ℕ) * 1) 1 (allOnes ℚ)
    (by decide) (by decide) (by decide) hb.hlda hb.hldb hb.hldc (hb.allocA 0 (by decide)) (hb.allocB 0 (by decide)) (hb.allocC 0 (by decide))
    (hb.apartA 0 (by decide) 0 (by decide)) (hb.apartB 0 (by decide) 0 (by decide))
  have e2 : loop (fun i => xgemm (ref ℚ) .col .no .no 1 1 0 1 (0 + i * 1) 1 (2 + i * 1) 1 2 (10 + i * 1) 1) 1 (allOnes ℚ) = .ok m' := e'
  rw [e2] at e
  have e3 : xgemm_batch_mkl (mklOf (ref ℚ)) .col .no .no 1 1 0 1 0 1 1 2 1 1 2 10 1 1 1 (allOnes ℚ) = .ok (allOnes ℚ) := rfl
  rw [e3] at e
  cases e
  have := w.1 0 0 ⟨by decide, by decide⟩
  simp [allOnes, val] at this

/-! A batch of `gemv` for which the conditions hold: three matrices of 1×2, the same vector for all of them. -/

example : GemvBlocks (α := ℚ) .col .no 1 2 0 1 2 10 1 0 20 1 1 3 (fun _ => some 1) := by
  refine ⟨by decide, by decide, by decide, by decide, by simp [LdOk], fun _ _ _ _ _ => ⟨_, rfl⟩, fun _ _ _ _ _ => ⟨_, rfl⟩, fun _ _ _ _ _ => ⟨_, rfl⟩,
    ?_, ?_, ?_⟩
  · rintro i hi j hj p q p' q' ⟨h1, h2⟩ ⟨h3, h4⟩ e
    simp [cell, opCell, opRows, opCols] at *
    omega
  · rintro i hi j hj p q p' q' ⟨h1, h2⟩ ⟨h3, h4⟩ e
    simp [cell, opRows, opCols] at *
    omega
  · rintro i hi j hj hij p q p' q' ⟨h1, h2⟩ ⟨h3, h4⟩ e
    simp [cell, opRows] at *
    omega

end Guanaqo.Blas
