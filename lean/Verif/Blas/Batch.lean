import Verif.Blas.Ref
import Verif.Par.OpenMP

/-! # Batches (C67, C68): `/repo/src/blas/src/blas-interface.cpp:206-404`

The loops over the batch are `omp parallel for` (see `Par/OpenMP.lean`), in which the routines of the library run concurrently. So, in
addition to what a routine does (`Lib`), it is given here as a program that reads and writes, of which it is known which addresses it
touches (`GemvImpl` etc.). -/

namespace Guanaqo.Blas

open Guanaqo.Par
open Finset

variable {α : Type} [Field α]

set_option linter.unusedSectionVars false

/-- The rows and columns of `op(A)`. -/
def opRows (t : Trans) (M N : Int) : Int := if t = .no then M else N
def opCols (t : Trans) (M N : Int) : Int := if t = .no then N else M

/-- `gemv` as a program. -/
structure GemvImpl (L : Lib α) where
  prog : Layout → Trans → (M N : Int) → (alpha : α) → (A lda X incX : Int) → (beta : α) → (Y incY : Int) → Prog α Int
  run : ∀ lay t M N alpha A lda X incX beta Y incY (s : Shared α) m', L.gemv lay t M N alpha A lda X incX beta Y incY s.mem = .ok m' →
    (prog lay t M N alpha A lda X incX beta Y incY).run s = ({ s with mem := m' }, 0)
  touches : ∀ lay t M N alpha A lda X incX beta Y incY, 0 ≤ M → 0 ≤ N → 0 < incX → 0 < incY → LdOk lay M N lda →
    (prog lay t M N alpha A lda X incX beta Y incY).Touches
      (fun a => At (rect (opRows t M N) (opCols t M N)) (opCell lay t A lda) a ∨ At (rect (opCols t M N) 1) (cell .row X incX) a)
      (At (rect (opRows t M N) 1) (cell .row Y incY))

/-- `gemm` as a program. -/
structure GemmImpl (L : Lib α) where
  prog : Layout → Trans → Trans → (M N K : Int) → (alpha : α) → (A lda B ldb : Int) → (beta : α) → (C ldc : Int) → Prog α Int
  run : ∀ lay tA tB M N K alpha A lda B ldb beta C ldc (s : Shared α) m', L.gemm lay tA tB M N K alpha A lda B ldb beta C ldc s.mem = .ok m' →
    (prog lay tA tB M N K alpha A lda B ldb beta C ldc).run s = ({ s with mem := m' }, 0)
  touches : ∀ lay tA tB M N K alpha A lda B ldb beta C ldc, 0 ≤ M → 0 ≤ N → 0 ≤ K → OpLdOk lay tA M K lda → OpLdOk lay tB K N ldb →
    LdOk lay M N ldc → (prog lay tA tB M N K alpha A lda B ldb beta C ldc).Touches
      (fun a => At (rect M K) (opCell lay tA A lda) a ∨ At (rect K N) (opCell lay tB B ldb) a) (At (rect M N) (cell lay C ldc))

/-- `syrk` as a program. -/
structure SyrkImpl (L : Lib α) where
  prog : Layout → Uplo → Trans → (N K : Int) → (alpha : α) → (A lda : Int) → (beta : α) → (C ldc : Int) → Prog α Int
  run : ∀ lay u t N K alpha A lda beta C ldc (s : Shared α) m', L.syrk lay u t N K alpha A lda beta C ldc s.mem = .ok m' →
    (prog lay u t N K alpha A lda beta C ldc).run s = ({ s with mem := m' }, 0)
  touches : ∀ lay u t N K alpha A lda beta C ldc, 0 ≤ N → 0 ≤ K → OpLdOk lay t N K lda → LdOk lay N N ldc →
    (prog lay u t N K alpha A lda beta C ldc).Touches (At (rect N K) (opCell lay t A lda)) (At (tri u N) (cell lay C ldc))

/-- `trsm` as a program. -/
structure TrsmImpl (L : Lib α) where
  prog : Layout → Side → Uplo → Trans → Diag → (M N : Int) → (alpha : α) → (A lda B ldb : Int) → Prog α Int
  run : ∀ lay sd u t dg M N alpha A lda B ldb (s : Shared α) m', L.trsm lay sd u t dg M N alpha A lda B ldb s.mem = .ok m' →
    (prog lay sd u t dg M N alpha A lda B ldb).run s = ({ s with mem := m' }, 0)
  touches : ∀ lay sd u t dg M N alpha A lda B ldb, 0 ≤ M → 0 ≤ N → LdOk lay (sideDim sd M N) (sideDim sd M N) lda → LdOk lay M N ldb →
    (prog lay sd u t dg M N alpha A lda B ldb).Touches (At (tri u (sideDim sd M N)) (cell lay A lda)) (At (rect M N) (cell lay B ldb))

/-- `potrf` as a program; the result is `info`. -/
structure PotrfImpl (L : Lib α) where
  prog : Uplo → (n a lda : Int) → Prog α Int
  run : ∀ u n a lda (s : Shared α), 0 ≤ n → LdOk .col n n lda → Alloc (tri u n) (cell .col a lda) s.mem →
    (prog u n a lda).run s = ({ s with mem := (L.potrf u n a lda s.mem).1 }, (L.potrf u n a lda s.mem).2)
  touches : ∀ u n a lda, 0 ≤ n → LdOk .col n n lda → (prog u n a lda).Touches (fun _ => False) (At (tri u n) (cell .col a lda))

/-! ## The code -/

/-- blas-interface.cpp:206-220: the body of the loop of `xgemv_batch_strided`. -/
def gemvBody {L : Lib α} (I : GemvImpl L) (layout : Layout) (trans : Trans) (m n : Int) (alpha : α) (a lda stridea x incx stridex : Int) (beta : α)
    (y incy stridey : Int) (i : Nat) : Prog α Int :=
  let offset_a := i * stridea
  let offset_x := i * stridex
  let offset_y := i * stridey
  I.prog layout trans m n alpha (a + offset_a) lda (x + offset_x) incx beta (y + offset_y) incy

/-- `P += stride`, on a shared variable: it is read, and then it is written. -/
def bump (x : PVar) (stride : Int) (k : Prog α Int) : Prog α Int := .load x fun v => .store x (v + stride) k

/-- blas-interface.cpp:258-272: the body of the loop of `xgemm_batch_strided`. `A`, `B` and `C` are declared outside of the loop, so they are
shared. -/
def gemmBody {L : Lib α} (I : GemmImpl L) (lay : Layout) (tA tB : Trans) (M N K : Int) (alpha : α) (lda stridea ldb strideb : Int) (beta : α)
    (ldc stridec : Int) (_i : Nat) : Prog α Int :=
  .load .A fun a => .load .B fun b => .load .C fun c =>
    (I.prog lay tA tB M N K alpha a lda b ldb beta c ldc).bind fun _ =>
      bump .A stridea (bump .B strideb (bump .C stridec (.ret 0)))

/-- blas-interface.cpp:309-320: the body of the loop of `xsyrk_batch_strided`. -/
def syrkBody {L : Lib α} (I : SyrkImpl L) (lay : Layout) (u : Uplo) (t : Trans) (N K : Int) (alpha : α) (lda stridea : Int) (beta : α)
    (ldc stridec : Int) (_i : Nat) : Prog α Int :=
  .load .A fun a => .load .C fun c =>
    (I.prog lay u t N K alpha a lda beta c ldc).bind fun _ => bump .A stridea (bump .C stridec (.ret 0))

/-- blas-interface.cpp:348-359: the body of the loop of `xtrsm_batch_strided`. -/
def trsmBody {L : Lib α} (I : TrsmImpl L) (lay : Layout) (sd : Side) (u : Uplo) (t : Trans) (dg : Diag) (M N : Int) (alpha : α)
    (lda stridea ldb strideb : Int) (_i : Nat) : Prog α Int :=
  .load .A fun a => .load .B fun b =>
    (I.prog lay sd u t dg M N alpha a lda b ldb).bind fun _ => bump .A stridea (bump .B strideb (.ret 0))

/-- blas-interface.cpp:389-400: the body of the loop of `xpotrf_batch_strided`; the result is what is added to `info_all`. -/
def potrfBody {L : Lib α} (I : PotrfImpl L) (u : Uplo) (N A lda stridea : Int) (i : Nat) : Prog α Int :=
  let offset := i * stridea
  (I.prog u N (A + offset) lda).bind fun info => .ret (if info > 0 then 0 else info)

/-- blas-interface.cpp:206-220: `xgemv_batch_strided`, from `s` to `s'`. -/
def GemvBatch {L : Lib α} (I : GemvImpl L) (layout : Layout) (trans : Trans) (m n : Int) (alpha : α) (a lda stridea x incx stridex : Int) (beta : α)
    (y incy stridey : Int) (batch : Nat) (s s' : Shared α) : Prop :=
  ∃ r, ParFor batch (gemvBody I layout trans m n alpha a lda stridea x incx stridex beta y incy stridey) s s' r

/-- The pointers that are passed. -/
def ptrs (a b c : Int) : PVar → Int
  | .A => a
  | .B => b
  | .C => c

/-- blas-interface.cpp:258-272: `xgemm_batch_strided`, from memory `mem` to `mem'`. -/
def GemmBatch {L : Lib α} (I : GemmImpl L) (lay : Layout) (tA tB : Trans) (M N K : Int) (alpha : α) (A lda stridea B ldb strideb : Int) (beta : α)
    (C ldc stridec : Int) (batch : Nat) (mem mem' : Mem α) : Prop :=
  ∃ r p, ParFor batch (gemmBody I lay tA tB M N K alpha lda stridea ldb strideb beta ldc stridec) ⟨mem, ptrs A B C⟩ ⟨mem', p⟩ r

/-- blas-interface.cpp:389-404: `xpotrf_batch_strided`: `info_all` is the sum of the results (`reduction(+:info_all)`). -/
def PotrfBatch {L : Lib α} (I : PotrfImpl L) (u : Uplo) (N A lda stridea : Int) (batch : Nat) (s : Shared α) (out : Out α) : Prop :=
  ∃ s' r, ParFor batch (potrfBody I u N A lda stridea) s s' r ∧ out = throwOnErr (s'.mem, ((List.range batch).map r).sum)

/-! ## The specification -/

/-- After a call, another. -/
def Out.andThen {α : Type} (o : Out α) (f : Mem α → Out α) : Out α :=
  match o with
  | .ok m => f m
  | e => e

/-- `for (i = 0; i < n; ++i) call(i)` -/
def loop {α : Type} (call : Nat → Mem α → Out α) : Nat → Mem α → Out α
  | 0, m => .ok m
  | n + 1, m => (loop call n m).andThen (call n)

/-- The same for LAPACK, with the values of `info`. -/
def loopInfo {α : Type} (call : Nat → Mem α → Mem α × Int) : Nat → Mem α → Mem α × List Int
  | 0, m => (m, [])
  | n + 1, m => ((call n (loopInfo call n m).1).1, (loopInfo call n m).2 ++ [(call n (loopInfo call n m).1).2])

/-! ## gemv -/

theorem run_alloc {β : Type} (p : Prog α β) (s : Shared α) {a : Int} (h : ∃ x, s.mem a = some x) : ∃ x, (p.run s).1.mem a = some x := by
  induction p generalizing s with
  | ret b => exact h
  | read b k ih => exact ih _ s h
  | write b v k ih =>
    refine ih _ ?_
    show ∃ x, (if a = b then some v else s.mem a) = some x
    by_cases hab : a = b
    · exact ⟨v, if_pos hab⟩
    · rw [if_neg hab]; exact h
  | load x k ih => exact ih _ s h
  | store x v k ih => exact ih _ h

theorem Alloc.run {β : Type} {S : ℕ → ℕ → Prop} {addr : ℕ → ℕ → Int} {s : Shared α} (h : Alloc S addr s.mem) (body : Nat → Prog α β) :
    ∀ n, Alloc S addr (seqFor body n s).1.mem
  | 0 => h
  | n + 1 => fun i j hij => run_alloc _ _ (h.run body n i j hij)

/-- The blocks of the operands of `gemv`: legal, allocated, and what is written in one iteration is not used in another. -/
structure GemvBlocks (lay : Layout) (t : Trans) (M N : Int) (a lda stridea x incx stridex y incy stridey : Int) (batch : Nat) (m : Mem α) : Prop where
  M0 : 0 ≤ M
  N0 : 0 ≤ N
  hincx : 0 < incx
  hincy : 0 < incy
  hlda : LdOk lay M N lda
  allocA : ∀ i < batch, Alloc (rect (opRows t M N) (opCols t M N)) (opCell lay t (a + i * stridea) lda) m
  allocX : ∀ i < batch, Alloc (rect (opCols t M N) 1) (cell .row (x + i * stridex) incx) m
  allocY : ∀ i < batch, Alloc (rect (opRows t M N) 1) (cell .row (y + i * stridey) incy) m
  apartA : ∀ i < batch, ∀ j < batch, Apart (rect (opRows t M N) 1) (cell .row (y + i * stridey) incy)
    (rect (opRows t M N) (opCols t M N)) (opCell lay t (a + j * stridea) lda)
  apartX : ∀ i < batch, ∀ j < batch, Apart (rect (opRows t M N) 1) (cell .row (y + i * stridey) incy)
    (rect (opCols t M N) 1) (cell .row (x + j * stridex) incx)
  apartY : ∀ i < batch, ∀ j < batch, i ≠ j → Apart (rect (opRows t M N) 1) (cell .row (y + i * stridey) incy)
    (rect (opRows t M N) 1) (cell .row (y + j * stridey) incy)

section
variable {L : Lib α} {lay : Layout} {t : Trans} {M N a lda stridea x incx stridex y incy stridey : Int} {alpha beta : α} {batch : Nat}

theorem gemv_legal (hL : L.Conforms) {m0 m : Mem α} (h : GemvBlocks lay t M N a lda stridea x incx stridex y incy stridey batch m0)
    (hm : ∀ b, (∃ v, m0 b = some v) → ∃ v, m b = some v) {i : Nat} (hi : i < batch) :
    ∃ m', L.gemv lay t M N alpha (a + i * stridea) lda (x + i * stridex) incx beta (y + i * stridey) incy m = .ok m' := by
  by_cases he : M = 0 ∨ N = 0
  · exact ⟨m, hL.gemv_empty _ _ _ _ _ _ _ _ _ _ _ _ _ h.M0 h.N0 he h.hincx h.hincy h.hlda⟩
  · have hM := h.M0; have hN := h.N0
    obtain ⟨m', e, -⟩ := hL.gemv lay t M N alpha (a + i * stridea) lda (x + i * stridex) incx beta (y + i * stridey) incy m (by omega) (by omega)
      h.hincx h.hincy h.hlda (fun p q hpq => hm _ (h.allocA i hi p q hpq)) (fun p q hpq => hm _ (h.allocX i hi p q hpq))
      (fun p q hpq => hm _ (h.allocY i hi p q hpq)) (h.apartA i hi i hi) (h.apartX i hi i hi)
    exact ⟨m', e⟩

theorem gemv_independent {m0 : Mem α} (h : GemvBlocks lay t M N a lda stridea x incx stridex y incy stridey batch m0) :
    Independent batch
      (fun i b => At (rect (opRows t M N) (opCols t M N)) (opCell lay t (a + i * stridea) lda) b ∨
        At (rect (opCols t M N) 1) (cell .row (x + i * stridex) incx) b)
      (fun i => At (rect (opRows t M N) 1) (cell .row (y + i * stridey) incy)) := by
  rintro i hi j hj hij b ⟨p, q, hpq, rfl⟩
  refine ⟨?_, ?_⟩
  · rintro (⟨p', q', h', e⟩ | ⟨p', q', h', e⟩)
    · exact h.apartA i hi j hj p q p' q' hpq h' e
    · exact h.apartX i hi j hj p q p' q' hpq h' e
  · rintro ⟨p', q', h', e⟩
    exact h.apartY i hi j hj hij p q p' q' hpq h' e

/-- For all numbers of threads, distributions of the work and orders of the accesses, `xgemv_batch_strided` is a loop of single calls. -/
theorem xgemv_batch_is_loop (hL : L.Conforms) (I : GemvImpl L) {s s' : Shared α}
    (hb : GemvBlocks lay t M N a lda stridea x incx stridex y incy stridey batch s.mem)
    (h : GemvBatch I lay t M N alpha a lda stridea x incx stridex beta y incy stridey batch s s') :
    loop (fun i => xgemv L lay t M N alpha (a + i * stridea) lda (x + i * stridex) incx beta (y + i * stridey) incy) batch s.mem = .ok s'.mem := by
  obtain ⟨r, h⟩ := h
  obtain ⟨e, -⟩ := parFor_eq_seqFor (gemv_independent hb) (fun i _ => I.touches _ _ _ _ _ _ _ _ _ _ _ _ hb.M0 hb.N0 hb.hincx hb.hincy hb.hlda) h
  rw [e]
  clear e h
  have key : ∀ k ≤ batch, loop (fun i => xgemv L lay t M N alpha (a + i * stridea) lda (x + i * stridex) incx beta (y + i * stridey) incy) k s.mem =
      .ok (seqFor (gemvBody I lay t M N alpha a lda stridea x incx stridex beta y incy stridey) k s).1.mem := by
    intro k
    induction k with
    | zero => intro _; rfl
    | succ k ih =>
      intro hk
      rw [loop, ih (by omega)]
      obtain ⟨m', e⟩ := gemv_legal (alpha := alpha) (beta := beta) hL hb
        (m := (seqFor (gemvBody I lay t M N alpha a lda stridea x incx stridex beta y incy stridey) k s).1.mem)
        (fun b hv => Alloc.run (S := fun _ _ => True) (addr := fun _ _ => b) (fun _ _ _ => hv) _ k 0 0 trivial) (i := k) (by omega)
      show xgemv L _ _ _ _ _ _ _ _ _ _ _ _ _ = _
      unfold xgemv
      rw [e, seqFor]
      exact congrArg (fun q : Shared α × Int => Out.ok q.1.mem) (I.run _ _ _ _ _ _ _ _ _ _ _ _ _ _ e).symm
  exact key batch (Nat.le_refl _)

/-- What is in the memory afterwards: block `i` of `y` is `alpha * op(A_i) * x_i + beta * y_i`, with the blocks as they were at first, and
nothing else has changed. -/
theorem xgemv_batch_blocks (hL : L.Conforms) (I : GemvImpl L) {s s' : Shared α} (hM : 0 < M) (hN : 0 < N)
    (hb : GemvBlocks lay t M N a lda stridea x incx stridex y incy stridey batch s.mem)
    (h : GemvBatch I lay t M N alpha a lda stridea x incx stridex beta y incy stridey batch s s') :
    (∀ i < batch, ∀ p : ℕ, (p : Int) < opRows t M N → s'.mem (y + i * stridey + p * incy) =
      some (alpha * ∑ l ∈ range (opCols t M N).toNat, val s.mem (opCell lay t (a + i * stridea) lda p l) * val s.mem (x + i * stridex + l * incx)
        + beta * val s.mem (y + i * stridey + p * incy))) ∧
    ∀ b, (∀ i < batch, ∀ p : ℕ, (p : Int) < opRows t M N → b ≠ y + i * stridey + p * incy) → s'.mem b = s.mem b := by
  obtain ⟨r, h⟩ := h
  have hT : ∀ i < batch, (gemvBody I lay t M N alpha a lda stridea x incx stridex beta y incy stridey i).Touches _ _ :=
    fun i _ => I.touches _ _ _ _ _ _ _ _ _ _ _ _ hb.M0 hb.N0 hb.hincx hb.hincy hb.hlda
  obtain ⟨e, -⟩ := parFor_eq_seqFor (gemv_independent hb) hT h
  obtain ⟨-, g1, g2, -⟩ := seqFor_spec (s0 := s) (gemv_independent hb) hT batch (Nat.le_refl _)
  rw [e]
  refine ⟨?_, ?_⟩
  · intro i hi p hp
    have hcell : ∀ q : Int, ∀ l : ℕ, ∀ inc : Int, cell .row q inc l 0 = q + l * inc := by intro q l inc; simp [cell]
    rw [g1 i hi _ ⟨p, 0, ⟨hp, by decide⟩, (hcell _ _ _).symm⟩]
    obtain ⟨m', e', hw⟩ := hL.gemv lay t M N alpha (a + i * stridea) lda (x + i * stridex) incx beta (y + i * stridey) incy s.mem hM hN
      hb.hincx hb.hincy hb.hlda (hb.allocA i hi) (hb.allocX i hi) (hb.allocY i hi) (hb.apartA i hi i hi) (hb.apartX i hi i hi)
    have := hw.1 p 0 ⟨hp, by decide⟩
    simp only [hcell] at this
    unfold gemvBody
    dsimp only
    rw [I.run _ _ _ _ _ _ _ _ _ _ _ _ _ _ e']
    exact this
  · intro b hb'
    refine g2 b ?_
    rintro i hi ⟨p, q, ⟨hp, hq⟩, rfl⟩
    refine hb' i hi p hp ?_
    have : q = 0 := by omega
    subst this
    simp [cell]

/-- The loop ends. -/
theorem xgemv_batch_ends (I : GemvImpl L) {m0 : Mem α} (hb : GemvBlocks lay t M N a lda stridea x incx stridex y incy stridey batch m0)
    (s : Shared α) {threads : List (List Nat)} (hd : Distributed batch threads) :
    (∃ K, ∀ k c, Steps k (start (gemvBody I lay t M N alpha a lda stridea x incx stridex beta y incy stridey) threads s) c → k ≤ K) ∧
    ∀ k c, Steps k (start (gemvBody I lay t M N alpha a lda stridea x incx stridex beta y incy stridey) threads s) c → (¬ ∃ d, Step c d) →
      GemvBatch I lay t M N alpha a lda stridea x incx stridex beta y incy stridey batch s c.sh := by
  obtain ⟨h1, h2⟩ := parFor_ends (gemv_independent hb)
    (fun i _ => I.touches lay t M N alpha (a + i * stridea) lda (x + i * stridex) incx beta (y + i * stridey) incy hb.M0 hb.N0 hb.hincx hb.hincy hb.hlda)
    s hd
  refine ⟨h1, fun k c hs hn => ?_⟩
  obtain ⟨r, -, hr⟩ := h2 k c hs hn
  exact ⟨r, hr⟩

end

/-! ## potrf -/

/-- The blocks of `potrf`. -/
structure PotrfBlocks (u : Uplo) (N A lda stridea : Int) (batch : Nat) (m : Mem α) : Prop where
  N0 : 0 ≤ N
  hlda : LdOk .col N N lda
  alloc : ∀ i < batch, Alloc (tri u N) (cell .col (A + i * stridea) lda) m
  apart : ∀ i < batch, ∀ j < batch, i ≠ j → Apart (tri u N) (cell .col (A + i * stridea) lda) (tri u N) (cell .col (A + j * stridea) lda)

theorem touches_bind {β γ : Type} {R W : Int → Prop} {p : Prog α β} (h : p.Touches R W) {f : β → Prog α γ} (hf : ∀ b, (f b).Touches R W) :
    (p.bind f).Touches R W := by
  induction p with
  | ret b => exact hf b
  | read a k ih => exact ⟨h.1, fun v => ih v (h.2 v)⟩
  | write a v k ih => exact ⟨h.1, ih h.2⟩
  | load x k ih => exact h.elim
  | store x v k ih => exact h.elim

section
variable {L : Lib α} {u : Uplo} {N A lda stridea : Int} {batch : Nat}

theorem potrf_parFor (I : PotrfImpl L) {s s' : Shared α} {r : Nat → Int} (hb : PotrfBlocks u N A lda stridea batch s.mem)
    (h : ParFor batch (potrfBody I u N A lda stridea) s s' r) :
    s'.mem = (loopInfo (fun i => xpotrf L u N (A + i * stridea) lda) batch s.mem).1 ∧
    (List.range batch).map r = (loopInfo (fun i => xpotrf L u N (A + i * stridea) lda) batch s.mem).2.map fun info => if info > 0 then 0 else info := by
  have hI : Independent batch (fun _ _ => False) (fun i => At (tri u N) (cell .col (A + i * stridea) lda)) := by
    rintro i hi j hj hij b ⟨p, q, hpq, rfl⟩
    refine ⟨id, ?_⟩
    rintro ⟨p', q', h', e⟩
    exact hb.apart i hi j hj hij p q p' q' hpq h' e
  obtain ⟨e1, e2⟩ := parFor_eq_seqFor hI (fun i _ => show (potrfBody I u N A lda stridea i).Touches _ _ from touches_bind (I.touches _ _ _ _ hb.N0 hb.hlda) fun _ => trivial) h
  rw [e1, e2]
  have key : ∀ k ≤ batch, (seqFor (potrfBody I u N A lda stridea) k s).1.mem = (loopInfo (fun i => xpotrf L u N (A + i * stridea) lda) k s.mem).1 ∧
      (seqFor (potrfBody I u N A lda stridea) k s).2 =
        (loopInfo (fun i => xpotrf L u N (A + i * stridea) lda) k s.mem).2.map fun info => if info > 0 then 0 else info := by
    intro k
    induction k with
    | zero => intro _; exact ⟨rfl, rfl⟩
    | succ k ih =>
      intro hk
      obtain ⟨h1, h2⟩ := ih (by omega)
      have hr := I.run u N (A + k * stridea) lda (seqFor (potrfBody I u N A lda stridea) k s).1 hb.N0 hb.hlda ((hb.alloc k (by omega)).run _ k)
      have hbody : ∀ q : Shared α, (potrfBody I u N A lda stridea k).run q = ((I.prog u N (A + k * stridea) lda).run q |>.1,
          if ((I.prog u N (A + k * stridea) lda).run q).2 > 0 then 0 else ((I.prog u N (A + k * stridea) lda).run q).2) := by
        intro q
        unfold potrfBody
        dsimp only
        rw [run_bind]
        rfl
      rw [seqFor, loopInfo]
      dsimp only
      rw [hbody, hr, h2, h1]
      refine ⟨rfl, ?_⟩
      rw [List.map_append]
      rfl
  exact key batch (Nat.le_refl _)

/-- For all numbers of threads, distributions and orders, the memory after `xpotrf_batch_strided` is that of a loop of single calls, whether
or not it throws. -/
theorem xpotrf_batch_is_loop (I : PotrfImpl L) {s : Shared α} {out : Out α} (hb : PotrfBlocks u N A lda stridea batch s.mem)
    (h : PotrfBatch I u N A lda stridea batch s out) :
    out = .ok (loopInfo (fun i => xpotrf L u N (A + i * stridea) lda) batch s.mem).1 ∨
    ∃ info, out = .lapackError info (loopInfo (fun i => xpotrf L u N (A + i * stridea) lda) batch s.mem).1 := by
  obtain ⟨s', r, h, rfl⟩ := h
  obtain ⟨e, -⟩ := potrf_parFor I hb h
  rw [← e]
  unfold throwOnErr
  split
  · exact Or.inr ⟨_, rfl⟩
  · exact Or.inl rfl

theorem sum_neg (l : List Int) (h : ∀ x ∈ l, x ≤ 0) : l.sum ≤ 0 ∧ (l.sum ≠ 0 ↔ ∃ x ∈ l, x < 0) := by
  induction l with
  | nil => simp
  | cons x xs ih =>
    obtain ⟨h1, h2⟩ := ih fun y hy => h y (List.mem_cons_of_mem _ hy)
    have hx := h x (List.mem_cons_self ..)
    refine ⟨by rw [List.sum_cons]; omega, ?_⟩
    rw [List.sum_cons]
    constructor
    · intro hs
      by_cases hx0 : x < 0
      · exact ⟨x, List.mem_cons_self .., hx0⟩
      · obtain ⟨y, hy, hy0⟩ := h2.1 (by omega)
        exact ⟨y, List.mem_cons_of_mem _ hy, hy0⟩
    · rintro ⟨y, hy, hy0⟩
      rcases List.mem_cons.1 hy with rfl | hy
      · omega
      · have := h2.2 ⟨y, hy, hy0⟩; omega

/-- `xpotrf_batch_strided` throws if, and only if, one of the single calls gives a negative `info` (an illegal argument). -/
theorem xpotrf_batch_throws_partial (I : PotrfImpl L) {s : Shared α} {out : Out α} (hb : PotrfBlocks u N A lda stridea batch s.mem)
    (h : PotrfBatch I u N A lda stridea batch s out) :
    (∃ info m, out = .lapackError info m) ↔ ∃ info ∈ (loopInfo (fun i => xpotrf L u N (A + i * stridea) lda) batch s.mem).2, info < 0 := by
  obtain ⟨s', r, h, rfl⟩ := h
  obtain ⟨-, e⟩ := potrf_parFor I hb h
  rw [e]
  generalize (loopInfo (fun i => xpotrf L u N (A + i * stridea) lda) batch s.mem).2 = l
  obtain ⟨-, g⟩ := sum_neg (l.map fun info => if info > 0 then 0 else info) (by
    intro x hx
    obtain ⟨y, -, rfl⟩ := List.mem_map.1 hx
    split <;> omega)
  have : (∃ info m, throwOnErr (s'.mem, (l.map fun info => if info > 0 then 0 else info).sum) = Out.lapackError info m) ↔
      (l.map fun info => if info > 0 then 0 else info).sum ≠ 0 := by
    unfold throwOnErr
    constructor
    · rintro ⟨info, m, e⟩ h0
      rw [if_neg (fun h => h h0)] at e
      cases e
    · intro h0
      rw [if_pos h0]
      exact ⟨_, _, rfl⟩
  rw [this, g]
  constructor
  · rintro ⟨x, hx, hx0⟩
    obtain ⟨y, hy, rfl⟩ := List.mem_map.1 hx
    refine ⟨y, hy, ?_⟩
    split at hx0 <;> omega
  · rintro ⟨x, hx, hx0⟩
    refine ⟨x, List.mem_map.2 ⟨x, hx, ?_⟩, hx0⟩
    rw [if_neg (by omega)]

end

/-! ## gemm, syrk, trsm: one thread -/

section
variable {L : Lib α} {lay : Layout} {tA tB : Trans} {M N K A lda stridea B ldb strideb C ldc stridec : Int} {alpha beta : α} {batch : Nat}

/-- The blocks of the operands of `gemm`. -/
structure GemmBlocks (lay : Layout) (tA tB : Trans) (M N K A lda stridea B ldb strideb C ldc stridec : Int) (batch : Nat) (m : Mem α) : Prop where
  M0 : 0 ≤ M
  N0 : 0 ≤ N
  K0 : 0 ≤ K
  hlda : OpLdOk lay tA M K lda
  hldb : OpLdOk lay tB K N ldb
  hldc : LdOk lay M N ldc
  allocA : ∀ i < batch, Alloc (rect M K) (opCell lay tA (A + i * stridea) lda) m
  allocB : ∀ i < batch, Alloc (rect K N) (opCell lay tB (B + i * strideb) ldb) m
  allocC : ∀ i < batch, Alloc (rect M N) (cell lay (C + i * stridec) ldc) m
  apartA : ∀ i < batch, ∀ j < batch, Apart (rect M N) (cell lay (C + i * stridec) ldc) (rect M K) (opCell lay tA (A + j * stridea) lda)
  apartB : ∀ i < batch, ∀ j < batch, Apart (rect M N) (cell lay (C + i * stridec) ldc) (rect K N) (opCell lay tB (B + j * strideb) ldb)
  apartC : ∀ i < batch, ∀ j < batch, i ≠ j → Apart (rect M N) (cell lay (C + i * stridec) ldc) (rect M N) (cell lay (C + j * stridec) ldc)

theorem bump3_run {sa sb sc : Int} (m : Mem α) (a b c : Int) :
    (bump .A sa (bump .B sb (bump .C sc (.ret 0)))).run ⟨m, ptrs a b c⟩ = (⟨m, ptrs (a + sa) (b + sb) (c + sc)⟩, (0 : Int)) := by
  unfold bump
  simp only [Prog.run]
  congr 2
  funext x
  cases x <;> rfl

theorem bump_AC_run {sa sc : Int} (m : Mem α) (a b c : Int) :
    (bump .A sa (bump .C sc (.ret 0))).run ⟨m, ptrs a b c⟩ = (⟨m, ptrs (a + sa) b (c + sc)⟩, (0 : Int)) := by
  unfold bump
  simp only [Prog.run]
  congr 2
  funext x
  cases x <;> rfl

theorem bump_AB_run {sa sb : Int} (m : Mem α) (a b c : Int) :
    (bump .A sa (bump .B sb (.ret 0))).run ⟨m, ptrs a b c⟩ = (⟨m, ptrs (a + sa) (b + sb) c⟩, (0 : Int)) := by
  unfold bump
  simp only [Prog.run]
  congr 2
  funext x
  cases x <;> rfl

/-- With one thread, `xgemm_batch_strided` is a loop of single calls (if these succeed). -/
theorem xgemm_batch_one_thread_partial (I : GemmImpl L) {mem mem' : Mem α} {p : PVar → Int} {r : Nat → Int} {m1 : Mem α}
    (hok : loop (fun i => xgemm L lay tA tB M N K alpha (A + i * stridea) lda (B + i * strideb) ldb beta (C + i * stridec) ldc) batch mem = .ok m1)
    (h : OneThread batch (gemmBody I lay tA tB M N K alpha lda stridea ldb strideb beta ldc stridec)
      ⟨mem, ptrs A B C⟩ ⟨mem', p⟩ r) : mem' = m1 := by
  obtain ⟨e, -⟩ := one_thread h
  have key : ∀ k, ∀ m, loop (fun i => xgemm L lay tA tB M N K alpha (A + i * stridea) lda (B + i * strideb) ldb beta (C + i * stridec) ldc) k mem = .ok m →
      (seqFor (gemmBody I lay tA tB M N K alpha lda stridea ldb strideb beta ldc stridec) k ⟨mem, ptrs A B C⟩).1 =
        ⟨m, ptrs (A + k * stridea) (B + k * strideb) (C + k * stridec)⟩ := by
    intro k
    induction k with
    | zero => intro m hm; cases hm; simp [seqFor]
    | succ k ih =>
      intro m hm
      rw [loop] at hm
      cases hl : loop (fun i => xgemm L lay tA tB M N K alpha (A + i * stridea) lda (B + i * strideb) ldb beta (C + i * stridec) ldc) k mem with
      | ok m0 =>
        rw [hl] at hm
        rw [seqFor, ih m0 hl]
        unfold gemmBody
        simp only [Prog.run, run_bind]
        have hr := I.run lay tA tB M N K alpha (A + k * stridea) lda (B + k * strideb) ldb beta (C + k * stridec) ldc
          ⟨m0, ptrs (A + k * stridea) (B + k * strideb) (C + k * stridec)⟩ m hm
        simp only [ptrs] at hr ⊢
        rw [hr]
        dsimp only
        rw [bump3_run]
        have e : ∀ p q : Int, p + k * q + q = p + ((k + 1 : ℕ) : Int) * q := by intro p q; push_cast; ring
        simp only [e]
      | assumeFail => rw [hl] at hm; cases hm
      | illegal => rw [hl] at hm; cases hm
      | lapackError => rw [hl] at hm; cases hm
  rw [key batch m1 hok] at e
  exact congrArg Shared.mem e

end

section
variable {L : Lib α} {lay : Layout} {u : Uplo} {t : Trans} {N K A lda stridea C ldc stridec : Int} {alpha beta : α} {batch : Nat}

/-- With one thread, `xsyrk_batch_strided` is a loop of single calls (if these succeed). -/
theorem xsyrk_batch_one_thread_partial (I : SyrkImpl L) {mem mem' : Mem α} {p : PVar → Int} {r : Nat → Int} {m1 : Mem α}
    (hok : loop (fun i => xsyrk L lay u t N K alpha (A + i * stridea) lda beta (C + i * stridec) ldc) batch mem = .ok m1)
    (h : OneThread batch (syrkBody I lay u t N K alpha lda stridea beta ldc stridec)
      ⟨mem, ptrs A 0 C⟩ ⟨mem', p⟩ r) : mem' = m1 := by
  obtain ⟨e, -⟩ := one_thread h
  have key : ∀ k, ∀ m, loop (fun i => xsyrk L lay u t N K alpha (A + i * stridea) lda beta (C + i * stridec) ldc) k mem = .ok m →
      (seqFor (syrkBody I lay u t N K alpha lda stridea beta ldc stridec) k ⟨mem, ptrs A 0 C⟩).1 =
        ⟨m, ptrs (A + k * stridea) 0 (C + k * stridec)⟩ := by
    intro k
    induction k with
    | zero => intro m hm; cases hm; simp [seqFor]
    | succ k ih =>
      intro m hm
      rw [loop] at hm
      cases hl : loop (fun i => xsyrk L lay u t N K alpha (A + i * stridea) lda beta (C + i * stridec) ldc) k mem with
      | ok m0 =>
        rw [hl] at hm
        rw [seqFor, ih m0 hl]
        unfold syrkBody
        simp only [Prog.run, run_bind]
        have hr := I.run lay u t N K alpha (A + k * stridea) lda beta (C + k * stridec) ldc
          ⟨m0, ptrs (A + k * stridea) 0 (C + k * stridec)⟩ m hm
        simp only [ptrs] at hr ⊢
        rw [hr]
        dsimp only
        rw [bump_AC_run]
        have e : ∀ p q : Int, p + k * q + q = p + ((k + 1 : ℕ) : Int) * q := by intro p q; push_cast; ring
        simp only [e]
      | assumeFail => rw [hl] at hm; cases hm
      | illegal => rw [hl] at hm; cases hm
      | lapackError => rw [hl] at hm; cases hm
  rw [key batch m1 hok] at e
  exact congrArg Shared.mem e

end

section
variable {L : Lib α} {lay : Layout} {sd : Side} {u : Uplo} {t : Trans} {dg : Diag} {M N A lda stridea B ldb strideb : Int} {alpha : α} {batch : Nat}

/-- With one thread, `xtrsm_batch_strided` is a loop of single calls (if these succeed). -/
theorem xtrsm_batch_one_thread_partial (I : TrsmImpl L) {mem mem' : Mem α} {p : PVar → Int} {r : Nat → Int} {m1 : Mem α}
    (hok : loop (fun i => xtrsm L lay sd u t dg M N alpha (A + i * stridea) lda (B + i * strideb) ldb) batch mem = .ok m1)
    (h : OneThread batch (trsmBody I lay sd u t dg M N alpha lda stridea ldb strideb)
      ⟨mem, ptrs A B 0⟩ ⟨mem', p⟩ r) : mem' = m1 := by
  obtain ⟨e, -⟩ := one_thread h
  have key : ∀ k, ∀ m, loop (fun i => xtrsm L lay sd u t dg M N alpha (A + i * stridea) lda (B + i * strideb) ldb) k mem = .ok m →
      (seqFor (trsmBody I lay sd u t dg M N alpha lda stridea ldb strideb) k ⟨mem, ptrs A B 0⟩).1 =
        ⟨m, ptrs (A + k * stridea) (B + k * strideb) 0⟩ := by
    intro k
    induction k with
    | zero => intro m hm; cases hm; simp [seqFor]
    | succ k ih =>
      intro m hm
      rw [loop] at hm
      cases hl : loop (fun i => xtrsm L lay sd u t dg M N alpha (A + i * stridea) lda (B + i * strideb) ldb) k mem with
      | ok m0 =>
        rw [hl] at hm
        rw [seqFor, ih m0 hl]
        unfold trsmBody
        simp only [Prog.run, run_bind]
        have hr := I.run lay sd u t dg M N alpha (A + k * stridea) lda (B + k * strideb) ldb
          ⟨m0, ptrs (A + k * stridea) (B + k * strideb) 0⟩ m hm
        simp only [ptrs] at hr ⊢
        rw [hr]
        dsimp only
        rw [bump_AB_run]
        have e : ∀ p q : Int, p + k * q + q = p + ((k + 1 : ℕ) : Int) * q := by intro p q; push_cast; ring
        simp only [e]
      | assumeFail => rw [hl] at hm; cases hm
      | illegal => rw [hl] at hm; cases hm
      | lapackError => rw [hl] at hm; cases hm
  rw [key batch m1 hok] at e
  exact congrArg Shared.mem e

end

end Guanaqo.Blas
