import Verif.MatView.Model
import Verif.MatView.Spec

/-! # The BLAS interface (C66): `/repo/src/blas`

The BLAS and LAPACK routines are functions on the memory, taken as a parameter (`Lib`): what the standard says about them is in
`Contract.lean`. Here are the functions of `blas-interface.cpp`, which pass their arguments on, and those of
`hl-blas-interface.hpp`, which take views. Left out: `xsytrf_rk`, `xtrtrs` and `xscal`, for which there is no function on views; the
choice between `float` and `double`; the tracing (see `Flops.lean` for the numbers that it records). -/

namespace Guanaqo.Blas

open Guanaqo.MatView (View)

/-- `CBLAS_LAYOUT` -/
inductive Layout where | row | col
  deriving DecidableEq
/-- `CBLAS_TRANSPOSE` -/
inductive Trans where | no | yes
  deriving DecidableEq
/-- `CBLAS_UPLO`, and the strings `"L"` and `"U"` of LAPACK. -/
inductive Uplo where | lower | upper
  deriving DecidableEq
/-- `CBLAS_SIDE` -/
inductive Side where | left | right
  deriving DecidableEq
/-- `CBLAS_DIAG`, and the strings `"N"` and `"U"` of LAPACK. -/
inductive Diag where | nonUnit | unit
  deriving DecidableEq

/-- The outcome of a call. -/
inductive Out (α : Type) where
  /-- It returns. -/
  | ok (m : Mem α)
  /-- A `GUANAQO_ASSUME` does not hold: `std::logic_error`, or undefined behaviour in a release build. -/
  | assumeFail
  /-- The library has rejected an argument (`xerbla`). -/
  | illegal
  /-- `lapack_error` is thrown. -/
  | lapackError (info : Int) (m : Mem α)

variable {α : Type}

/-- The routines of the library: `cblas_dgemv` etc. (or their `float` versions), and, for LAPACK, `dpotrf` etc. The latter give the
memory and `info`. -/
structure Lib (α : Type) where
  gemv : Layout → Trans → (M N : Int) → (alpha : α) → (A lda X incX : Int) → (beta : α) → (Y incY : Int) → Mem α → Out α
  gemm : Layout → Trans → Trans → (M N K : Int) → (alpha : α) → (A lda B ldb : Int) → (beta : α) → (C ldc : Int) → Mem α → Out α
  gemmt : Layout → Uplo → Trans → Trans → (N K : Int) → (alpha : α) → (A lda B ldb : Int) → (beta : α) → (C ldc : Int) → Mem α → Out α
  trmv : Layout → Uplo → Trans → Diag → (N A lda X incX : Int) → Mem α → Out α
  trsv : Layout → Uplo → Trans → Diag → (N A lda X incX : Int) → Mem α → Out α
  trmm : Layout → Side → Uplo → Trans → Diag → (M N : Int) → (alpha : α) → (A lda B ldb : Int) → Mem α → Out α
  trsm : Layout → Side → Uplo → Trans → Diag → (M N : Int) → (alpha : α) → (A lda B ldb : Int) → Mem α → Out α
  syrk : Layout → Uplo → Trans → (N K : Int) → (alpha : α) → (A lda : Int) → (beta : α) → (C ldc : Int) → Mem α → Out α
  potrf : Uplo → (n a lda : Int) → Mem α → Mem α × Int
  lauum : Uplo → (n a lda : Int) → Mem α → Mem α × Int
  trtri : Uplo → Diag → (n a lda : Int) → Mem α → Mem α × Int

variable (L : Lib α)

/-! ## blas-interface.cpp: the arguments are passed on -/

/-- blas-interface.cpp:8-23: `xgemv`. -/
def xgemv (lay : Layout) (tA : Trans) (M N : Int) (alpha : α) (A lda X incX : Int) (beta : α) (Y incY : Int) (m : Mem α) : Out α :=
  L.gemv lay tA M N alpha A lda X incX beta Y incY m

/-- blas-interface.cpp:25-41: `xgemm`. -/
def xgemm (lay : Layout) (tA tB : Trans) (M N K : Int) (alpha : α) (A lda B ldb : Int) (beta : α) (C ldc : Int) (m : Mem α) : Out α :=
  L.gemm lay tA tB M N K alpha A lda B ldb beta C ldc m

/-- blas-interface.cpp:43-60: `xgemmt`. -/
def xgemmt (lay : Layout) (uplo : Uplo) (tA tB : Trans) (N K : Int) (alpha : α) (A lda B ldb : Int) (beta : α) (C ldc : Int) (m : Mem α) : Out α :=
  L.gemmt lay uplo tA tB N K alpha A lda B ldb beta C ldc m

/-- blas-interface.cpp:62-74: `xtrmv`. -/
def xtrmv (lay : Layout) (uplo : Uplo) (tA : Trans) (dg : Diag) (N A lda X incX : Int) (m : Mem α) : Out α :=
  L.trmv lay uplo tA dg N A lda X incX m

/-- blas-interface.cpp:76-88: `xtrsv`. -/
def xtrsv (lay : Layout) (uplo : Uplo) (tA : Trans) (dg : Diag) (N A lda X incX : Int) (m : Mem α) : Out α :=
  L.trsv lay uplo tA dg N A lda X incX m

/-- blas-interface.cpp:90-103: `xtrmm`. -/
def xtrmm (lay : Layout) (side : Side) (uplo : Uplo) (tA : Trans) (dg : Diag) (M N : Int) (alpha : α) (A lda B ldb : Int) (m : Mem α) : Out α :=
  L.trmm lay side uplo tA dg M N alpha A lda B ldb m

/-- blas-interface.cpp:105-118: `xsyrk`. -/
def xsyrk (lay : Layout) (uplo : Uplo) (t : Trans) (N K : Int) (alpha : α) (A lda : Int) (beta : α) (C ldc : Int) (m : Mem α) : Out α :=
  L.syrk lay uplo t N K alpha A lda beta C ldc m

/-- blas-interface.cpp:120-133: `xtrsm`. -/
def xtrsm (lay : Layout) (side : Side) (uplo : Uplo) (tA : Trans) (dg : Diag) (M N : Int) (alpha : α) (A lda B ldb : Int) (m : Mem α) : Out α :=
  L.trsm lay side uplo tA dg M N alpha A lda B ldb m

/-- blas-interface.cpp:173-182: `xpotrf`. -/
def xpotrf (uplo : Uplo) (n a lda : Int) (m : Mem α) : Mem α × Int :=
  L.potrf uplo n a lda m

/-- blas-interface.cpp:184-193: `xlauum`. -/
def xlauum (uplo : Uplo) (n a lda : Int) (m : Mem α) : Mem α × Int :=
  L.lauum uplo n a lda m

/-- blas-interface.cpp:195-204: `xtrtri`. -/
def xtrtri (uplo : Uplo) (dg : Diag) (n a lda : Int) (m : Mem α) : Mem α × Int :=
  L.trtri uplo dg n a lda m

/-! ## hl-blas-interface.hpp -/

/-- `GUANAQO_ASSUME`, several in a row. -/
def assume (p : Bool) (k : Out α) : Out α := if p then k else .assumeFail

/-- lapack.hpp:31-34: `lapack_throw_on_err`, after a call that gave the memory and `info`. -/
def throwOnErr (r : Mem α × Int) : Out α := if r.2 ≠ 0 then .lapackError r.2 r.1 else .ok r.1

/-- hl-blas-interface.hpp:24-34: `xgemv_N`. -/
def xgemv_N (alpha : α) (A x : View) (beta : α) (y : View) (m : Mem α) : Out α :=
  assume (decide (A.rows = y.rows) && decide (A.cols = x.rows) && decide (x.cols = 1) && decide (y.cols = 1))
    (xgemv L .col .no A.rows A.cols alpha A.data A.outer x.data 1 beta y.data 1 m)

/-- hl-blas-interface.hpp:37-47: `xgemv_T`. -/
def xgemv_T (alpha : α) (A x : View) (beta : α) (y : View) (m : Mem α) : Out α :=
  assume (decide (A.cols = y.rows) && decide (A.rows = x.rows) && decide (x.cols = 1) && decide (y.cols = 1))
    (xgemv L .col .yes A.rows A.cols alpha A.data A.outer x.data 1 beta y.data 1 m)

/-- hl-blas-interface.hpp:50-60: `xgemm_NN`. -/
def xgemm_NN (alpha : α) (A B : View) (beta : α) (C : View) (m : Mem α) : Out α :=
  assume (decide (A.rows = C.rows) && decide (A.cols = B.rows) && decide (B.cols = C.cols))
    (xgemm L .col .no .no C.rows C.cols A.cols alpha A.data A.outer B.data B.outer beta C.data C.outer m)

/-- hl-blas-interface.hpp:63-73: `xgemm_TN`. -/
def xgemm_TN (alpha : α) (A B : View) (beta : α) (C : View) (m : Mem α) : Out α :=
  assume (decide (A.cols = C.rows) && decide (A.rows = B.rows) && decide (B.cols = C.cols))
    (xgemm L .col .yes .no C.rows C.cols A.rows alpha A.data A.outer B.data B.outer beta C.data C.outer m)

/-- hl-blas-interface.hpp:76-86: `xgemm_TT`. -/
def xgemm_TT (alpha : α) (A B : View) (beta : α) (C : View) (m : Mem α) : Out α :=
  assume (decide (A.cols = C.rows) && decide (A.rows = B.cols) && decide (B.rows = C.cols))
    (xgemm L .col .yes .yes C.rows C.cols A.rows alpha A.data A.outer B.data B.outer beta C.data C.outer m)

/-- hl-blas-interface.hpp:89-99: `xgemm_NT`. -/
def xgemm_NT (alpha : α) (A B : View) (beta : α) (C : View) (m : Mem α) : Out α :=
  assume (decide (A.rows = C.rows) && decide (A.cols = B.cols) && decide (B.rows = C.cols))
    (xgemm L .col .no .yes C.rows C.cols A.cols alpha A.data A.outer B.data B.outer beta C.data C.outer m)

/-- hl-blas-interface.hpp:102-113: `xgemmt_LNN`. -/
def xgemmt_LNN (alpha : α) (A B : View) (beta : α) (C : View) (m : Mem α) : Out α :=
  assume (decide (A.rows = C.rows) && decide (A.cols = B.rows) && decide (B.cols = C.cols) && decide (C.rows = C.cols))
    (xgemmt L .col .lower .no .no C.rows A.cols alpha A.data A.outer B.data B.outer beta C.data C.outer m)

/-- hl-blas-interface.hpp:116-127: `xgemmt_LTN`. -/
def xgemmt_LTN (alpha : α) (A B : View) (beta : α) (C : View) (m : Mem α) : Out α :=
  assume (decide (A.cols = C.rows) && decide (A.rows = B.rows) && decide (B.cols = C.cols) && decide (C.rows = C.cols))
    (xgemmt L .col .lower .yes .no C.rows A.rows alpha A.data A.outer B.data B.outer beta C.data C.outer m)

/-- hl-blas-interface.hpp:130-141: `xgemmt_LTT`. -/
def xgemmt_LTT (alpha : α) (A B : View) (beta : α) (C : View) (m : Mem α) : Out α :=
  assume (decide (A.cols = C.rows) && decide (A.rows = B.cols) && decide (B.rows = C.cols) && decide (C.rows = C.cols))
    (xgemmt L .col .lower .yes .yes C.rows A.rows alpha A.data A.outer B.data B.outer beta C.data C.outer m)

/-- hl-blas-interface.hpp:144-155: `xgemmt_LNT`. -/
def xgemmt_LNT (alpha : α) (A B : View) (beta : α) (C : View) (m : Mem α) : Out α :=
  assume (decide (A.rows = C.rows) && decide (A.cols = B.cols) && decide (B.rows = C.cols) && decide (C.rows = C.cols))
    (xgemmt L .col .lower .no .yes C.rows A.cols alpha A.data A.outer B.data B.outer beta C.data C.outer m)

/-- hl-blas-interface.hpp:158-166: `xtrmv_LNN`. -/
def xtrmv_LNN (A x : View) (m : Mem α) : Out α :=
  assume (decide (A.rows = A.cols) && decide (A.cols = x.rows) && decide (x.cols = 1))
    (xtrmv L .col .lower .no .nonUnit A.rows A.data A.outer x.data 1 m)

/-- hl-blas-interface.hpp:169-177: `xtrmv_LTN`. -/
def xtrmv_LTN (A x : View) (m : Mem α) : Out α :=
  assume (decide (A.rows = A.cols) && decide (A.cols = x.rows) && decide (x.cols = 1))
    (xtrmv L .col .lower .yes .nonUnit A.rows A.data A.outer x.data 1 m)

/-- hl-blas-interface.hpp:180-188: `xtrsv_LNN`. -/
def xtrsv_LNN (A x : View) (m : Mem α) : Out α :=
  assume (decide (A.rows = A.cols) && decide (A.cols = x.rows) && decide (x.cols = 1))
    (xtrsv L .col .lower .no .nonUnit A.rows A.data A.outer x.data 1 m)

/-- hl-blas-interface.hpp:191-199: `xtrsv_LTN`. -/
def xtrsv_LTN (A x : View) (m : Mem α) : Out α :=
  assume (decide (A.rows = A.cols) && decide (A.cols = x.rows) && decide (x.cols = 1))
    (xtrsv L .col .lower .yes .nonUnit A.rows A.data A.outer x.data 1 m)

/-- hl-blas-interface.hpp:202-210: `xtrmm_LLNN`. -/
def xtrmm_LLNN (alpha : α) (A B : View) (m : Mem α) : Out α :=
  assume (decide (A.rows = A.cols) && decide (A.cols = B.rows))
    (xtrmm L .col .left .lower .no .nonUnit B.rows B.cols alpha A.data A.outer B.data B.outer m)

/-- hl-blas-interface.hpp:213-221: `xtrmm_LLTN`. -/
def xtrmm_LLTN (alpha : α) (A B : View) (m : Mem α) : Out α :=
  assume (decide (A.rows = A.cols) && decide (A.cols = B.rows))
    (xtrmm L .col .left .lower .yes .nonUnit B.rows B.cols alpha A.data A.outer B.data B.outer m)

/-- hl-blas-interface.hpp:224-232: `xtrmm_RLNN`. -/
def xtrmm_RLNN (alpha : α) (A B : View) (m : Mem α) : Out α :=
  assume (decide (A.rows = A.cols) && decide (A.rows = B.cols))
    (xtrmm L .col .right .lower .no .nonUnit B.rows B.cols alpha A.data A.outer B.data B.outer m)

/-- hl-blas-interface.hpp:235-243: `xtrmm_RLTN`. -/
def xtrmm_RLTN (alpha : α) (A B : View) (m : Mem α) : Out α :=
  assume (decide (A.rows = A.cols) && decide (A.rows = B.cols))
    (xtrmm L .col .right .lower .yes .nonUnit B.rows B.cols alpha A.data A.outer B.data B.outer m)

/-- hl-blas-interface.hpp:246-253: `xsyrk_LN`. -/
def xsyrk_LN (alpha : α) (A : View) (beta : α) (C : View) (m : Mem α) : Out α :=
  assume (decide (C.rows = C.cols) && decide (A.rows = C.rows))
    (xsyrk L .col .lower .no C.rows A.cols alpha A.data A.outer beta C.data C.outer m)

/-- hl-blas-interface.hpp:256-263: `xsyrk_LT`. -/
def xsyrk_LT (alpha : α) (A : View) (beta : α) (C : View) (m : Mem α) : Out α :=
  assume (decide (C.rows = C.cols) && decide (A.cols = C.rows))
    (xsyrk L .col .lower .yes C.rows A.rows alpha A.data A.outer beta C.data C.outer m)

/-- hl-blas-interface.hpp:266-275: `xtrsm_LLNN`. -/
def xtrsm_LLNN (alpha : α) (A B : View) (m : Mem α) : Out α :=
  assume (decide (A.rows = A.cols) && decide (A.cols = B.rows))
    (xtrsm L .col .left .lower .no .nonUnit B.rows B.cols alpha A.data A.outer B.data B.outer m)

/-- hl-blas-interface.hpp:278-287: `xtrsm_LLTN`. -/
def xtrsm_LLTN (alpha : α) (A B : View) (m : Mem α) : Out α :=
  assume (decide (A.rows = A.cols) && decide (A.rows = B.rows))
    (xtrsm L .col .left .lower .yes .nonUnit B.rows B.cols alpha A.data A.outer B.data B.outer m)

/-- hl-blas-interface.hpp:290-299: `xtrsm_RLNN`. -/
def xtrsm_RLNN (alpha : α) (A B : View) (m : Mem α) : Out α :=
  assume (decide (A.rows = A.cols) && decide (A.cols = B.cols))
    (xtrsm L .col .right .lower .no .nonUnit B.rows B.cols alpha A.data A.outer B.data B.outer m)

/-- hl-blas-interface.hpp:302-311: `xtrsm_RLTN`. -/
def xtrsm_RLTN (alpha : α) (A B : View) (m : Mem α) : Out α :=
  assume (decide (A.rows = A.cols) && decide (A.cols = B.cols))
    (xtrsm L .col .right .lower .yes .nonUnit B.rows B.cols alpha A.data A.outer B.data B.outer m)

/-- hl-blas-interface.hpp:326-334: `xpotrf_L`. -/
def xpotrf_L (A : View) (m : Mem α) : Out α :=
  assume (decide (A.rows = A.cols))
    (throwOnErr (xpotrf L .lower A.rows A.data A.outer m))

/-- hl-blas-interface.hpp:338-346: `xlauum_L`. -/
def xlauum_L (A : View) (m : Mem α) : Out α :=
  assume (decide (A.rows = A.cols))
    (throwOnErr (xlauum L .lower A.rows A.data A.outer m))

/-- hl-blas-interface.hpp:350-358: `xtrtri_LN`. -/
def xtrtri_LN (A : View) (m : Mem α) : Out α :=
  assume (decide (A.rows = A.cols))
    (throwOnErr (xtrtri L .lower .nonUnit A.rows A.data A.outer m))

end Guanaqo.Blas
