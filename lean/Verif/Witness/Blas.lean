import Verif.Blas.Info
import Verif.Blas.Cholesky
import Verif.Blas.EmptyExact
import Verif.Blas.Overflow
import Verif.Blas.BatchBad
import Mathlib.Tactic.FinCases

/-! # Concrete cases of the theorems of C66-C69 and C94

Each example applies a theorem to concrete data, so that all its hypotheses are met. -/

namespace Guanaqo.Par

variable {α β : Type}

/-- One thread that takes these iterations comes to the end of them. -/
theorem thread_runs : ∀ (l : List Nat) (c : Conf α β), l.Nodup → c.ths = [l] →
    ∃ k d, Steps k c d ∧ d.ths = [[]] ∧ (∀ i ∈ l, ∃ b, d.rem i = .ret b) ∧ ∀ i, i ∉ l → d.rem i = c.rem i
  | [], c, _, h => ⟨0, c, .zero, h, fun _ h => absurd h (by simp), fun _ _ => rfl⟩
  | i :: l, c, hn, h => by
    obtain ⟨hi, hn⟩ := List.nodup_cons.1 hn
    obtain ⟨k, hk⟩ := steps_alone (c := c) (t := 0) (i := i) (rest := l) (by rw [h]; rfl)
    obtain ⟨k', d, hd, h1, h2, h3⟩ := thread_runs l ⟨((c.rem i).run c.sh).1, setRem c.rem i (.ret ((c.rem i).run c.sh).2), c.ths.set 0 l⟩ hn (by dsimp only; rw [h]; rfl)
    refine ⟨_, d, hk.trans hd, h1, ?_, ?_⟩
    · intro j hj
      by_cases hjl : j ∈ l
      · exact h2 j hjl
      · rcases List.mem_cons.1 hj with rfl | hj
        · exact ⟨_, (h3 _ hi).trans (if_pos rfl)⟩
        · exact absurd hj hjl
    · intro j hj
      have hji : j ≠ i := fun e => hj (e ▸ List.mem_cons_self ..)
      exact (h3 j fun hjl => hj (List.mem_cons_of_mem _ hjl)).trans (if_neg hji)

/-- The loop can be run by one thread: the hypothesis of the theorems about one thread is met for every body and from every state. -/
theorem oneThread_runs (n : Nat) (body : Nat → Prog α β) (s : Shared α) : ∃ s' r, OneThread n body s s' r := by
  obtain ⟨k, d, hd, h1, h2, -⟩ := thread_runs (List.range n) (start body [List.range n] s) List.nodup_range rfl
  have : ∀ i, ∃ r : β, i < n → d.rem i = .ret r := by
    intro i
    by_cases hi : i < n
    · obtain ⟨b, hb⟩ := h2 i (List.mem_range.2 hi); exact ⟨b, fun _ => hb⟩
    · exact ⟨((body i).run s).2, fun h => absurd h hi⟩
  choose r hr using this
  exact ⟨d.sh, r, k, d, hd, fun l hl => by rw [h1] at hl; simpa using hl, rfl, hr⟩

theorem OneThread.parFor {n : Nat} {body : Nat → Prog α β} {s s' : Shared α} {r : Nat → β} (h : OneThread n body s s' r) : ParFor n body s s' r := by
  obtain ⟨k, c, hs, hd, he, hr⟩ := h
  exact ⟨[List.range n], k, c, by simp [Distributed], hs, hd, he, hr⟩

/-- So the hypothesis of the theorems about the parallel loop is met too. -/
theorem parFor_runs (n : Nat) (body : Nat → Prog α β) (s : Shared α) : ∃ s' r, ParFor n body s s' r := by
  obtain ⟨s', r, h⟩ := oneThread_runs n body s
  exact ⟨s', r, h.parFor⟩

end Guanaqo.Par

namespace Guanaqo.Blas

open Guanaqo.Par
open Guanaqo.MatView (View)

/-! ## The operands

`A` is 2×2 with elements 4, 2, 6, 8 in a column-major array with leading dimension 2; `B`, `C` are 2×2 elsewhere, `x`, `y` are 2×1. -/

def wMem : Mem ℚ := fun a => some (2 * a + 4)
def wA : View := { data := 0, rows := 2, cols := 2, inner := 1, outer := 2 }
def wB : View := { data := 5, rows := 2, cols := 2, inner := 1, outer := 3 }
def wC : View := { data := 20, rows := 2, cols := 2, inner := 1, outer := 2 }
def wx : View := { data := 30, rows := 2, cols := 1, inner := 1, outer := 2 }
def wy : View := { data := 40, rows := 2, cols := 1, inner := 1, outer := 2 }

theorem wA_is : Is wA 2 2 wMem := ⟨rfl, rfl, rfl, by decide, fun _ _ _ => ⟨_, rfl⟩⟩
theorem wB_is : Is wB 2 2 wMem := ⟨rfl, rfl, rfl, by decide, fun _ _ _ => ⟨_, rfl⟩⟩
theorem wC_is : Is wC 2 2 wMem := ⟨rfl, rfl, rfl, by decide, fun _ _ _ => ⟨_, rfl⟩⟩
theorem wx_is : Is wx 2 1 wMem := ⟨rfl, rfl, rfl, by decide, fun _ _ _ => ⟨_, rfl⟩⟩
theorem wy_is : Is wy 2 1 wMem := ⟨rfl, rfl, rfl, by decide, fun _ _ _ => ⟨_, rfl⟩⟩

theorem wA_view : IsView wA 2 2 wMem := ⟨rfl, rfl, rfl, by decide, fun _ _ _ => ⟨_, rfl⟩⟩
theorem wB_view : IsView wB 2 2 wMem := ⟨rfl, rfl, rfl, by decide, fun _ _ _ => ⟨_, rfl⟩⟩
theorem wC_view : IsView wC 2 2 wMem := ⟨rfl, rfl, rfl, by decide, fun _ _ _ => ⟨_, rfl⟩⟩
theorem wx_view : IsView wx 2 1 wMem := ⟨rfl, rfl, rfl, by decide, fun _ _ _ => ⟨_, rfl⟩⟩
theorem wy_view : IsView wy 2 1 wMem := ⟨rfl, rfl, rfl, by decide, fun _ _ _ => ⟨_, rfl⟩⟩

theorem wCA : Separate wC wA := by
  rintro a ⟨r, c, ⟨h1, h2, h3, h4⟩, -, e⟩ ⟨r', c', ⟨g1, g2, g3, g4⟩, -, e'⟩
  simp only [wA, wC] at *; omega
theorem wCB : Separate wC wB := by
  rintro a ⟨r, c, ⟨h1, h2, h3, h4⟩, -, e⟩ ⟨r', c', ⟨g1, g2, g3, g4⟩, -, e'⟩
  simp only [wB, wC] at *; omega
theorem wBA : Separate wB wA := by
  rintro a ⟨r, c, ⟨h1, h2, h3, h4⟩, -, e⟩ ⟨r', c', ⟨g1, g2, g3, g4⟩, -, e'⟩
  simp only [wA, wB] at *; omega
theorem wxA : Separate wx wA := by
  rintro a ⟨r, c, ⟨h1, h2, h3, h4⟩, -, e⟩ ⟨r', c', ⟨g1, g2, g3, g4⟩, -, e'⟩
  simp only [wA, wx] at *; omega
theorem wyA : Separate wy wA := by
  rintro a ⟨r, c, ⟨h1, h2, h3, h4⟩, -, e⟩ ⟨r', c', ⟨g1, g2, g3, g4⟩, -, e'⟩
  simp only [wA, wy] at *; omega
theorem wyx : Separate wy wx := by
  rintro a ⟨r, c, ⟨h1, h2, h3, h4⟩, -, e⟩ ⟨r', c', ⟨g1, g2, g3, g4⟩, -, e'⟩
  simp only [wx, wy] at *; omega

theorem wA_diag : ∀ i, mat wA 2 2 wMem i i ≠ 0 := by
  intro i
  fin_cases i <;> norm_num [mat, val, View.addr, wA, wMem]

/-! ## The routines -/

example := xgemm_NN_partial ref_conforms 1 3 wA_is wB_is wC_is wCA wCB
example := xgemm_TN_partial ref_conforms 1 3 wA_is wB_is wC_is wCA wCB
example := xgemm_TT_partial ref_conforms 1 3 wA_is wB_is wC_is wCA wCB
example := xgemm_NT_partial ref_conforms 1 3 wA_is wB_is wC_is wCA wCB
example := xgemmt_LNN_partial ref_conforms 1 3 wA_is wB_is wC_is wCA wCB
example := xgemmt_LTN_partial ref_conforms 1 3 wA_is wB_is wC_is wCA wCB
example := xgemmt_LTT_partial ref_conforms 1 3 wA_is wB_is wC_is wCA wCB
example := xgemmt_LNT_partial ref_conforms 1 3 wA_is wB_is wC_is wCA wCB
example := xsyrk_LN_partial ref_conforms 1 3 wA_is wC_is wCA
example := xsyrk_LT_partial ref_conforms 1 3 wA_is wC_is wCA
example := xgemv_N_partial ref_conforms 1 3 (by decide) (by decide) wA_is wx_is wy_is wyA wyx
example := xgemv_T_partial ref_conforms 1 3 (by decide) (by decide) wA_is wx_is wy_is wyA wyx
example := xtrmv_LNN_partial ref_conforms wA_is wx_is wxA
example := xtrmv_LTN_partial ref_conforms wA_is wx_is wxA
example := xtrsv_LNN_partial ref_conforms wA_is wx_is wxA wA_diag
example := xtrsv_LTN_partial ref_conforms wA_is wx_is wxA wA_diag
example := xtrmm_LLNN_partial ref_conforms 3 wA_is wB_is wBA
example := xtrmm_LLTN_partial ref_conforms 3 wA_is wB_is wBA
example := xtrmm_RLNN_partial ref_conforms 3 wA_is wB_is wBA
example := xtrmm_RLTN_partial ref_conforms 3 wA_is wB_is wBA
example := xtrsm_LLNN_partial ref_conforms 3 wA_is wB_is wBA wA_diag
example := xtrsm_LLTN_partial ref_conforms 3 wA_is wB_is wBA wA_diag
example := xtrsm_RLNN_partial ref_conforms 3 wA_is wB_is wBA wA_diag
example := xtrsm_RLTN_partial ref_conforms 3 wA_is wB_is wBA wA_diag
example := xpotrf_L_partial ref_conforms wA_is
example := xlauum_L_partial ref_conforms wA_is
example := xtrtri_LN_partial ref_conforms wA_is
example := dims_checked (α := ℚ) ref_plain

example := xgemm_NN_exactly ref_conforms ref_rejects 1 3 wA_view wB_view wC_view wCA wCB
example := xgemm_TN_exactly ref_conforms ref_rejects 1 3 wA_view wB_view wC_view wCA wCB
example := xgemm_TT_exactly ref_conforms ref_rejects 1 3 wA_view wB_view wC_view wCA wCB
example := xgemm_NT_exactly ref_conforms ref_rejects 1 3 wA_view wB_view wC_view wCA wCB
example := xgemmt_LNN_exactly ref_conforms ref_rejects 1 3 wA_view wB_view wC_view wCA wCB
example := xgemmt_LTN_exactly ref_conforms ref_rejects 1 3 wA_view wB_view wC_view wCA wCB
example := xgemmt_LTT_exactly ref_conforms ref_rejects 1 3 wA_view wB_view wC_view wCA wCB
example := xgemmt_LNT_exactly ref_conforms ref_rejects 1 3 wA_view wB_view wC_view wCA wCB
example := xsyrk_LN_exactly ref_conforms ref_rejects 1 3 wA_view wC_view wCA
example := xsyrk_LT_exactly ref_conforms ref_rejects 1 3 wA_view wC_view wCA
example := xgemv_N_exactly ref_conforms ref_rejects 1 3 wA_view wx_view wy_view wyA wyx
example := xgemv_T_exactly ref_conforms ref_rejects 1 3 wA_view wx_view wy_view wyA wyx
example := xtrmv_LNN_exactly ref_conforms ref_rejects wA_view wx_view wxA
example := xtrmv_LTN_exactly ref_conforms ref_rejects wA_view wx_view wxA
example := xtrsv_LNN_exactly ref_conforms ref_rejects wA_view wx_view wxA wA_diag
example := xtrsv_LTN_exactly ref_conforms ref_rejects wA_view wx_view wxA wA_diag
example := xtrmm_LLNN_exactly ref_conforms ref_rejects 3 wA_view wB_view wBA
example := xtrmm_LLTN_exactly ref_conforms ref_rejects 3 wA_view wB_view wBA
example := xtrmm_RLNN_exactly ref_conforms ref_rejects 3 wA_view wB_view wBA
example := xtrmm_RLTN_exactly ref_conforms ref_rejects 3 wA_view wB_view wBA
example := xtrsm_LLNN_exactly ref_conforms ref_rejects 3 wA_view wB_view wBA wA_diag
example := xtrsm_LLTN_exactly ref_conforms ref_rejects 3 wA_view wB_view wBA wA_diag
example := xtrsm_RLNN_exactly ref_conforms ref_rejects 3 wA_view wB_view wBA wA_diag
example := xtrsm_RLTN_exactly ref_conforms ref_rejects 3 wA_view wB_view wBA wA_diag
example := lapack_rejects_iff ref_conforms ref_rejects wA_view

/-! ## The batches -/

theorem wGemv : GemvBlocks (α := ℚ) .col .no 1 2 0 1 2 10 1 0 20 1 1 3 (fun _ => some 1) := by
  refine ⟨by decide, by decide, by decide, by decide, by simp [LdOk], fun _ _ _ _ _ => ⟨_, rfl⟩, fun _ _ _ _ _ => ⟨_, rfl⟩, fun _ _ _ _ _ => ⟨_, rfl⟩,
    ?_, ?_, ?_⟩ <;>
  · intros
    rintro p q p' q' ⟨h1, h2⟩ ⟨h3, h4⟩ e
    simp [cell, opCell, opRows, opCols] at *
    omega

/-- The three products of a batch. -/
example : ∃ s', GemvBatch (refGemv ℚ) .col .no 1 2 1 0 1 2 10 1 0 0 20 1 1 3 ⟨fun _ => some 1, ptrs 0 0 0⟩ s' ∧
    loop (fun i => xgemv (ref ℚ) .col .no 1 2 1 (0 + i * 2) 1 (10 + i * 0) 1 0 (20 + i * 1) 1) 3 (fun _ => some 1) = .ok s'.mem ∧
    s'.mem 22 = some 2 := by
  obtain ⟨s', r, h⟩ := parFor_runs 3 (gemvBody (refGemv ℚ) .col .no 1 2 1 0 1 2 10 1 0 0 20 1 1) ⟨fun _ => some 1, ptrs 0 0 0⟩
  refine ⟨s', ⟨r, h⟩, xgemv_batch_is_loop ref_conforms _ wGemv ⟨r, h⟩, ?_⟩
  have := (xgemv_batch_blocks ref_conforms _ (by decide) (by decide) wGemv ⟨r, h⟩).1 2 (by decide) 0 (by decide)
  norm_num [opCols, Finset.sum_range_succ, val] at this
  exact this

example := xgemv_batch_ends (alpha := 1) (beta := 0) (refGemv ℚ) wGemv ⟨fun _ => some 1, ptrs 0 0 0⟩ (threads := [[1], [0, 2]]) (by unfold Distributed; decide)

theorem wPotrf : PotrfBlocks (α := ℚ) .lower 2 0 2 4 3 solMem := by
  refine ⟨by decide, by simp [LdOk], fun _ _ _ _ _ => ⟨_, rfl⟩, ?_⟩
  intro i hi j hj hij p q p' q' ⟨h1, h2⟩ ⟨h3, h4⟩ e
  simp [cell] at *
  omega

example : ∃ out, PotrfBatch (refPotrf ℚ) .lower 2 0 2 4 3 ⟨solMem, ptrs 0 0 0⟩ out ∧
    ((∃ info m, out = .lapackError info m) ↔ ∃ info ∈ (loopInfo (fun i => xpotrf (ref ℚ) .lower 2 (0 + i * 4) 2) 3 solMem).2, info < 0) := by
  obtain ⟨s', r, h⟩ := parFor_runs 3 (potrfBody (refPotrf ℚ) .lower 2 0 2 4) ⟨solMem, ptrs 0 0 0⟩
  have hp : PotrfBatch (refPotrf ℚ) .lower 2 0 2 4 3 ⟨solMem, ptrs 0 0 0⟩ _ := ⟨s', r, h, rfl⟩
  have := xpotrf_batch_is_loop _ wPotrf hp
  exact ⟨_, hp, xpotrf_batch_throws_partial _ wPotrf hp⟩

/-- With one thread, for every loop that the library accepts. -/
example {m m1 : Mem ℚ} (A B C : Int) (h : loop (fun i => xgemm (ref ℚ) .col .no .no 1 1 1 1 (A + i * 1) 1 (B + i * 1) 1 0 (C + i * 1) 1) 2 m = .ok m1) :
    ∃ p r, OneThread 2 (gemmBody (refGemm ℚ) .col .no .no 1 1 1 1 1 1 1 1 0 1 1) ⟨m, ptrs A B C⟩ ⟨m1, p⟩ r := by
  obtain ⟨⟨m', p⟩, r, ho⟩ := oneThread_runs 2 (gemmBody (refGemm ℚ) .col .no .no 1 1 1 1 1 1 1 1 0 1 1) ⟨m, ptrs A B C⟩
  have := xgemm_batch_one_thread_partial (refGemm ℚ) h ho
  subst this
  exact ⟨p, r, ho⟩

/-- There is such a loop. -/
example : ∃ m1, loop (fun i => xgemm (ref ℚ) .col .no .no 1 1 1 1 (0 + i * 1) 1 (2 + i * 1) 1 0 (10 + i * 1) 1) 2 (ones ℚ) = .ok m1 := by
  obtain ⟨-, m1, -, h, -⟩ := xgemm_batch_race (α := ℚ) ref_conforms (refGemm ℚ)
  exact ⟨m1, h⟩

example {m m1 : Mem ℚ} (A C : Int) (h : loop (fun i => xsyrk (ref ℚ) .col .lower .no 1 1 1 (A + i * 1) 1 0 (C + i * 1) 1) 2 m = .ok m1) :
    ∃ p r, OneThread 2 (syrkBody (refSyrk ℚ) .col .lower .no 1 1 1 1 1 0 1 1) ⟨m, ptrs A 0 C⟩ ⟨m1, p⟩ r := by
  obtain ⟨⟨m', p⟩, r, ho⟩ := oneThread_runs 2 (syrkBody (refSyrk ℚ) .col .lower .no 1 1 1 1 1 0 1 1) ⟨m, ptrs A 0 C⟩
  have := xsyrk_batch_one_thread_partial (refSyrk ℚ) h ho
  subst this
  exact ⟨p, r, ho⟩

example : ∃ m1, loop (fun i => xsyrk (ref ℚ) .col .lower .no 1 1 1 (0 + i * 1) 1 0 (10 + i * 1) 1) 2 (ones ℚ) = .ok m1 := by
  obtain ⟨-, m1, -, -, -, h, -⟩ := xsyrk_batch_race (α := ℚ) ref_conforms (refSyrk ℚ)
  exact ⟨m1, h⟩

example {m m1 : Mem ℚ} (A B : Int) (h : loop (fun i => xtrsm (ref ℚ) .col .left .lower .no .nonUnit 1 1 0 (A + i * 1) 1 (B + i * 1) 1) 2 m = .ok m1) :
    ∃ p r, OneThread 2 (trsmBody (refTrsm ℚ) .col .left .lower .no .nonUnit 1 1 0 1 1 1 1) ⟨m, ptrs A B 0⟩ ⟨m1, p⟩ r := by
  obtain ⟨⟨m', p⟩, r, ho⟩ := oneThread_runs 2 (trsmBody (refTrsm ℚ) .col .left .lower .no .nonUnit 1 1 0 1 1 1 1) ⟨m, ptrs A B 0⟩
  have := xtrsm_batch_one_thread_partial (refTrsm ℚ) h ho
  subst this
  exact ⟨p, r, ho⟩

example : ∃ m1, loop (fun i => xtrsm (ref ℚ) .col .left .lower .no .nonUnit 1 1 0 (0 + i * 1) 1 (10 + i * 1) 1) 2 (allOnes ℚ) = .ok m1 := by
  obtain ⟨-, m1, -, -, -, h, -⟩ := xtrsm_batch_race (α := ℚ) ref_conforms (refTrsm ℚ)
  exact ⟨m1, h⟩

/-! ## The operation counts -/

example := gemv_flops (A := wA) (m := 2) (n := 2) rfl rfl
example := gemm_flops (A := wA) (C := wC) (m := 2) (n := 2) (k := 2) rfl rfl
example := gemmt_flops (A := wA) (C := wC) (n := 2) (k := 2) rfl
example := syrk_flops (A := wA) (C := wC) (n := 2) (k := 2) rfl
example := trmv_flops (A := wA) (n := 2) rfl
example := trsv_flops (A := wA) (n := 2) rfl
example := trmm_flops (A := wA) (B := wB) (n := 2) (c := 2) rfl
example := trsm_flops (A := wA) (B := wB) (n := 2) (c := 2) rfl
example := potrf_flops (A := wA) (n := 2) rfl
example := lauum_flops_partial (A := wA) (n := 2) rfl
example := trtri_flops_partial (A := wA) (n := 2) rfl

def wBig : View := { data := 0, rows := 40000, cols := 30000, inner := 1, outer := 40000 }
example := gemv_defined_iff (w := 32) (A := wBig) (by unfold Fits; decide) (by unfold Fits; decide)
example := gemm_defined_iff (w := 32) (C := wBig) (k := 7) (by unfold Fits; decide) (by unfold Fits; decide) (by unfold Fits; decide)
example := tri_defined_iff (w := 32) (n := 1000) (k := 1000) (by decide) (by decide) (by decide) (by unfold Fits; decide)
example := triVec_defined_iff (w := 32) (n := 1000) (by decide) (by decide)
example := trsm_defined_iff (w := 32) (n := 1000) (k := 1000) (by decide) (by decide) (by decide) (by unfold Fits; decide)
example := potrf_defined_iff (w := 32) (n := 1000) (by decide) (by decide)
example := lauum_defined_iff (w := 32) (n := 1000) (by decide) (by decide)
example := trtri_defined_iff (w := 32) (n := 1000) (by decide) (by decide)
example := counts_defined_64_partial wBig 1000000 1000000 (by decide) (by decide) (by decide) (by decide) (by decide) (by decide) (by decide) (by decide)
example := gemm_overflows_32 { wBig with rows := 1291, cols := 1291 } rfl rfl
example := thresholds_32 1290 (by decide) (by decide)
example := offset_value (w := 64) (i := 999) (stride := 2250000) rfl

end Guanaqo.Blas
