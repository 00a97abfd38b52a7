import Verif.Blas.BatchRef
import Mathlib.Tactic.NormNum
import Mathlib.Algebra.Order.Ring.Rat

/-! # Batches that go wrong (C67, C68), and the MKL versions

`xgemm_batch_strided`, `xsyrk_batch_strided` and `xtrsm_batch_strided` increment the shared pointers in the parallel loop: with two threads
both may work on the first block. This is shown for every library. `xpotrf_batch_strided` ignores matrices that are not positive definite. -/

namespace Guanaqo.Blas

open Guanaqo.Par
open Finset

variable {α : Type} [Field α]

set_option linter.unusedSectionVars false

/-! ## Full statements -/

/-- `xgemm_batch_strided` is a loop of single calls. -/
def GemmBatchFull : Prop := ∀ (α : Type) [Field α] (L : Lib α) (_ : L.Conforms) (I : GemmImpl L) (lay : Layout) (tA tB : Trans)
  (M N K A lda stridea B ldb strideb C ldc stridec : Int) (alpha beta : α) (batch : Nat) (mem mem' : Mem α),
  GemmBlocks lay tA tB M N K A lda stridea B ldb strideb C ldc stridec batch mem →
  GemmBatch I lay tA tB M N K alpha A lda stridea B ldb strideb beta C ldc stridec batch mem mem' →
  loop (fun i => xgemm L lay tA tB M N K alpha (A + i * stridea) lda (B + i * strideb) ldb beta (C + i * stridec) ldc) batch mem = .ok mem'

/-- `xsyrk_batch_strided` is a loop of single calls. -/
def SyrkBatchFull : Prop := ∀ (α : Type) [Field α] (L : Lib α) (_ : L.Conforms) (I : SyrkImpl L) (lay : Layout) (u : Uplo) (t : Trans)
  (N K A lda stridea C ldc stridec : Int) (alpha beta : α) (batch : Nat) (mem mem' m1 : Mem α) (p : PVar → Int) (r : Nat → Int),
  ParFor batch (syrkBody I lay u t N K alpha lda stridea beta ldc stridec) ⟨mem, ptrs A 0 C⟩ ⟨mem', p⟩ r →
  loop (fun i => xsyrk L lay u t N K alpha (A + i * stridea) lda beta (C + i * stridec) ldc) batch mem = .ok m1 → mem' = m1

/-- `xtrsm_batch_strided` is a loop of single calls. -/
def TrsmBatchFull : Prop := ∀ (α : Type) [Field α] (L : Lib α) (_ : L.Conforms) (I : TrsmImpl L) (lay : Layout) (sd : Side) (u : Uplo) (t : Trans)
  (dg : Diag) (M N A lda stridea B ldb strideb : Int) (alpha : α) (batch : Nat) (mem mem' m1 : Mem α) (p : PVar → Int) (r : Nat → Int),
  ParFor batch (trsmBody I lay sd u t dg M N alpha lda stridea ldb strideb) ⟨mem, ptrs A B 0⟩ ⟨mem', p⟩ r →
  loop (fun i => xtrsm L lay sd u t dg M N alpha (A + i * stridea) lda (B + i * strideb) ldb) batch mem = .ok m1 → mem' = m1

/-! ## Two threads -/

/-- Two threads with one iteration each. The first takes some steps, then the second, then the first finishes, then the second. -/
theorem two_threads {β : Type} {body : Nat → Prog α β} {s : Shared α} {k0 k1 : Nat} {p0 p1 : Prog α β}
    (h0 : ∀ c : Conf α β, c.ths = [[0], [1]] → c.sh = s → c.rem 0 = body 0 → Steps k0 c { c with rem := setRem c.rem 0 p0 })
    (h1 : ∀ c : Conf α β, c.ths = [[0], [1]] → c.sh = s → c.rem 1 = body 1 → Steps k1 c { c with rem := setRem c.rem 1 p1 }) :
    ∃ r, ParFor 2 body s (p1.run (p0.run s).1).1 r := by
  have e0 := h0 (start body [[0], [1]] s) rfl rfl rfl
  have e1 := h1 { start body [[0], [1]] s with rem := setRem (start body [[0], [1]] s).rem 0 p0 } rfl rfl rfl
  have e01 := e0.trans e1
  obtain ⟨k2, e2⟩ := steps_alone (c := { start body [[0], [1]] s with rem := setRem (setRem (start body [[0], [1]] s).rem 0 p0) 1 p1 })
    (t := 0) (i := 0) (rest := []) rfl
  obtain ⟨k3, e3⟩ := steps_alone (c := Conf.mk (p0.run s).1
    (setRem (setRem (setRem body 0 p0) 1 p1) 0 (.ret (p0.run s).2)) [[], [1]]) (t := 1) (i := 1) (rest := []) rfl
  refine ⟨fun i => if i = 0 then (p0.run s).2 else (p1.run (p0.run s).1).2, [[0], [1]], _, _, ?_, (e01.trans e2).trans e3, ?_, rfl, ?_⟩
  · exact List.Perm.refl _
  · intro l hl
    simp [List.set] at hl
    exact hl
  · intro i hi
    have : i = 0 ∨ i = 1 := by omega
    rcases this with rfl | rfl
    · rfl
    · rfl

theorem setRem_setRem {β : Type} (f : Nat → Prog α β) (i : Nat) (p q : Prog α β) : setRem (setRem f i p) i q = setRem f i q := by
  funext j; unfold setRem; by_cases h : j = i <;> simp [h]

theorem bump_mem {x : PVar} {st : Int} {k : Prog α Int} {m : Mem α} (h : ∀ s : Shared α, s.mem = m → (k.run s).1.mem = m) (s : Shared α)
    (hs : s.mem = m) : ((bump x st k).run s).1.mem = m := by
  unfold bump
  simp only [Prog.run]
  exact h _ hs

/-- A memory full of ones, except for a zero at address 11. -/
def ones (α : Type) [Field α] : Mem α := fun a => if a = 11 then some 0 else some 1

theorem ones_alloc (S : ℕ → ℕ → Prop) (addr : ℕ → ℕ → Int) : Alloc S addr (ones α) := by
  intro i j _
  unfold ones
  split
  · exact ⟨_, rfl⟩
  · exact ⟨_, rfl⟩

theorem rect_one {i j : ℕ} (h : rect 1 1 i j) : i = 0 ∧ j = 0 := by
  obtain ⟨a, b⟩ := h; omega

theorem at_one {lay : Layout} {p ld a : Int} (h : At (rect 1 1) (cell lay p ld) a) : a = p := by
  obtain ⟨i, j, hij, rfl⟩ := h
  obtain ⟨rfl, rfl⟩ := rect_one hij
  cases lay <;> simp [cell]

theorem blocks_ones : GemmBlocks .col .no .no 1 1 1 0 1 1 2 1 1 10 1 1 2 (ones α) := by
  refine ⟨by decide, by decide, by decide, by simp [OpLdOk, LdOk], by simp [OpLdOk, LdOk], by simp [LdOk], fun _ _ => ones_alloc _ _,
    fun _ _ => ones_alloc _ _, fun _ _ => ones_alloc _ _, ?_, ?_, ?_⟩
  · intro i hi j hj p q p' q' h h' e
    obtain ⟨rfl, rfl⟩ := rect_one h
    obtain ⟨rfl, rfl⟩ := rect_one h'
    simp [cell, opCell] at e
    omega
  · intro i hi j hj p q p' q' h h' e
    obtain ⟨rfl, rfl⟩ := rect_one h
    obtain ⟨rfl, rfl⟩ := rect_one h'
    simp [cell, opCell] at e
    omega
  · intro i hi j hj hij p q p' q' h h' e
    obtain ⟨rfl, rfl⟩ := rect_one h
    obtain ⟨rfl, rfl⟩ := rect_one h'
    simp [cell] at e
    omega

/-- Whatever the library: with two threads there is an execution of `xgemm_batch_strided`, on two blocks of 1×1 that do not overlap, which
leaves the second block of `C` as it was (zero). The single calls write one. -/
theorem xgemm_batch_race {L : Lib α} (hL : L.Conforms) (I : GemmImpl L) : ∃ mem' m1 : Mem α,
    GemmBatch I .col .no .no 1 1 1 1 0 1 1 2 1 1 0 10 1 1 2 (ones α) mem' ∧
    loop (fun i => xgemm L .col .no .no 1 1 1 1 (0 + i * 1) 1 (2 + i * 1) 1 0 (10 + i * 1) 1) 2 (ones α) = .ok m1 ∧
    mem' 11 = some 0 ∧ m1 11 = some 1 := by
  obtain ⟨r, hp⟩ := two_threads (body := gemmBody I .col .no .no 1 1 1 1 1 1 1 1 0 1 1) (s := ⟨ones α, ptrs 0 2 10⟩) (k0 := 3) (k1 := 3)
    (p0 := (I.prog .col .no .no 1 1 1 1 0 1 2 1 0 10 1).bind fun _ => bump .A 1 (bump .B 1 (bump .C 1 (.ret 0))))
    (p1 := (I.prog .col .no .no 1 1 1 1 0 1 2 1 0 10 1).bind fun _ => bump .A 1 (bump .B 1 (bump .C 1 (.ret 0))))
    (by
      rintro ⟨sh, rem, ths⟩ rfl rfl hr
      refine .succ (.micro (t := 0) (i := 0) (rest := []) rfl (show (rem 0).micro _ = _ by rw [show rem 0 = _ from hr]; rfl)) ?_
      refine .succ (.micro (t := 0) (i := 0) (rest := []) rfl rfl) ?_
      dsimp only [start]
      rw [setRem_setRem]
      refine .succ (.micro (t := 0) (i := 0) (rest := []) rfl rfl) ?_
      dsimp only
      rw [setRem_setRem]
      exact .zero)
    (by
      rintro ⟨sh, rem, ths⟩ rfl rfl hr
      refine .succ (.micro (t := 1) (i := 1) (rest := []) rfl (show (rem 1).micro _ = _ by rw [show rem 1 = _ from hr]; rfl)) ?_
      refine .succ (.micro (t := 1) (i := 1) (rest := []) rfl rfl) ?_
      dsimp only [start]
      rw [setRem_setRem]
      refine .succ (.micro (t := 1) (i := 1) (rest := []) rfl rfl) ?_
      dsimp only
      rw [setRem_setRem]
      exact .zero)
  have hframe : ∀ s : Shared α, (((I.prog .col .no .no 1 1 1 1 0 1 2 1 0 10 1).bind fun _ => bump .A 1 (bump .B 1 (bump .C 1 (.ret 0)))).run s).1.mem 11 =
      s.mem 11 := by
    intro s
    rw [run_bind, bump_mem (m := ((I.prog .col .no .no 1 1 1 1 0 1 2 1 0 10 1).run s).1.mem) ?_ _ rfl]
    · exact run_frame (I.touches .col .no .no 1 1 1 1 0 1 2 1 0 10 1 (by decide) (by decide) (by decide) (by simp [OpLdOk, LdOk])
        (by simp [OpLdOk, LdOk]) (by simp [LdOk])) s (fun h => absurd (at_one h) (by decide))
    · refine bump_mem fun s hs => bump_mem (k := .ret 0) (fun s hs => hs) s hs
  obtain ⟨m0, e0, w0⟩ := hL.gemm .col .no .no 1 1 1 1 (0 + (0 : ℕ) * 1) 1 (2 + (0 : ℕ) * 1) 1 0 (10 + (0 : ℕ) * 1) 1 (ones α) (by decide) (by decide)
    (by decide) (blocks_ones (α := α)).hlda (blocks_ones (α := α)).hldb (blocks_ones (α := α)).hldc (ones_alloc _ _) (ones_alloc _ _) (ones_alloc _ _)
    ((blocks_ones (α := α)).apartA 0 (by decide) 0 (by decide)) ((blocks_ones (α := α)).apartB 0 (by decide) 0 (by decide))
  have hne : ∀ a : Int, a ≠ 10 → m0 a = ones α a := by
    intro a ha
    refine w0.2 a fun i j hij => ?_
    obtain ⟨rfl, rfl⟩ := rect_one hij
    simpa [cell] using ha
  have hal : ∀ (S : ℕ → ℕ → Prop) (addr : ℕ → ℕ → Int), Alloc S addr m0 := by
    intro S addr i j hij
    by_cases ha : addr i j = 10
    · have := w0.1 0 0 ⟨by decide, by decide⟩
      rw [ha]
      simp only [cell] at this
      exact ⟨_, this⟩
    · rw [hne _ ha]; exact ones_alloc S addr i j hij
  obtain ⟨m1, e1, w1⟩ := hL.gemm .col .no .no 1 1 1 1 (0 + (1 : ℕ) * 1) 1 (2 + (1 : ℕ) * 1) 1 0 (10 + (1 : ℕ) * 1) 1 m0 (by decide) (by decide)
    (by decide) (blocks_ones (α := α)).hlda (blocks_ones (α := α)).hldb (blocks_ones (α := α)).hldc (hal _ _) (hal _ _) (hal _ _)
    ((blocks_ones (α := α)).apartA 1 (by decide) 1 (by decide)) ((blocks_ones (α := α)).apartB 1 (by decide) 1 (by decide))
  refine ⟨_, m1, ⟨r, _, hp⟩, ?_, ?_, ?_⟩
  · show Out.andThen (Out.andThen (.ok _) _) _ = _
    simp only [Out.andThen]
    unfold xgemm
    rw [e0]
    exact e1
  · rw [hframe, hframe]
    simp [ones]
  · have := w1.1 0 0 ⟨by decide, by decide⟩
    simp only [cell] at this
    norm_num at this
    rw [this]
    simp [opCell, cell, val, hne 1 (by decide), hne 3 (by decide), ones]

theorem not_gemmBatchFull : ¬ GemmBatchFull := by
  intro h
  obtain ⟨mem', m1, h1, h2, h3, h4⟩ := xgemm_batch_race (ref_conforms (α := ℚ)) (refGemm ℚ)
  have := h ℚ (ref ℚ) ref_conforms (refGemm ℚ) .col .no .no 1 1 1 0 1 1 2 1 1 10 1 1 1 0 2 (ones ℚ) mem' blocks_ones h1
  rw [h2] at this
  cases this
  rw [h3] at h4
  cases h4

/-- The same for `xsyrk_batch_strided`. -/
theorem xsyrk_batch_race {L : Lib α} (hL : L.Conforms) (I : SyrkImpl L) : ∃ (mem' m1 : Mem α) (p : PVar → Int) (r : Nat → Int),
    ParFor 2 (syrkBody I .col .lower .no 1 1 1 1 1 0 1 1) ⟨ones α, ptrs 0 0 10⟩ ⟨mem', p⟩ r ∧
    loop (fun i => xsyrk L .col .lower .no 1 1 1 (0 + i * 1) 1 0 (10 + i * 1) 1) 2 (ones α) = .ok m1 ∧ mem' 11 = some 0 ∧ m1 11 = some 1 := by
  obtain ⟨r, hp⟩ := two_threads (body := syrkBody I .col .lower .no 1 1 1 1 1 0 1 1) (s := ⟨ones α, ptrs 0 0 10⟩) (k0 := 2) (k1 := 2)
    (p0 := (I.prog .col .lower .no 1 1 1 0 1 0 10 1).bind fun _ => bump .A 1 (bump .C 1 (.ret 0)))
    (p1 := (I.prog .col .lower .no 1 1 1 0 1 0 10 1).bind fun _ => bump .A 1 (bump .C 1 (.ret 0)))
    (by
      rintro ⟨sh, rem, ths⟩ rfl rfl hr
      refine .succ (.micro (t := 0) (i := 0) (rest := []) rfl (show (rem 0).micro _ = _ by rw [show rem 0 = _ from hr]; rfl)) ?_
      refine .succ (.micro (t := 0) (i := 0) (rest := []) rfl rfl) ?_
      dsimp only [start]
      rw [setRem_setRem]
      exact .zero)
    (by
      rintro ⟨sh, rem, ths⟩ rfl rfl hr
      refine .succ (.micro (t := 1) (i := 1) (rest := []) rfl (show (rem 1).micro _ = _ by rw [show rem 1 = _ from hr]; rfl)) ?_
      refine .succ (.micro (t := 1) (i := 1) (rest := []) rfl rfl) ?_
      dsimp only [start]
      rw [setRem_setRem]
      exact .zero)
  have tri_one : ∀ {i j : ℕ}, tri .lower 1 i j → i = 0 ∧ j = 0 := by rintro i j ⟨h1, h2⟩; omega
  have hframe : ∀ s : Shared α, (((I.prog .col .lower .no 1 1 1 0 1 0 10 1).bind fun _ => bump .A 1 (bump .C 1 (.ret 0))).run s).1.mem 11 = s.mem 11 := by
    intro s
    rw [run_bind, bump_mem (m := ((I.prog .col .lower .no 1 1 1 0 1 0 10 1).run s).1.mem) (fun s hs => bump_mem (k := .ret 0) (fun s hs => hs) s hs) _ rfl]
    refine run_frame (I.touches .col .lower .no 1 1 1 0 1 0 10 1 (by decide) (by decide) (by simp [OpLdOk, LdOk]) (by simp [LdOk])) s ?_
    rintro ⟨i, j, hij, e⟩
    obtain ⟨rfl, rfl⟩ := tri_one hij
    simp [cell] at e
  have hap : ∀ i : ℕ, i < 2 → Apart (tri .lower 1) (cell .col (10 + (i : Int) * 1) 1) (rect 1 1) (opCell .col .no (0 + (i : Int) * 1) 1) := by
    intro i hi p q p' q' h h' e
    obtain ⟨rfl, rfl⟩ := tri_one h
    obtain ⟨rfl, rfl⟩ := rect_one h'
    simp [cell, opCell] at e
  obtain ⟨m0, e0, w0⟩ := hL.syrk .col .lower .no 1 1 1 (0 + (0 : ℕ) * 1) 1 0 (10 + (0 : ℕ) * 1) 1 (ones α) (by decide) (by decide)
    (by simp [OpLdOk, LdOk]) (by simp [LdOk]) (ones_alloc _ _) (ones_alloc _ _) (hap 0 (by decide))
  have hne : ∀ a : Int, a ≠ 10 → m0 a = ones α a := by
    intro a ha
    refine w0.2 a fun i j hij => ?_
    obtain ⟨rfl, rfl⟩ := tri_one hij
    simpa [cell] using ha
  have hal : ∀ (S : ℕ → ℕ → Prop) (addr : ℕ → ℕ → Int), Alloc S addr m0 := by
    intro S addr i j hij
    by_cases ha : addr i j = 10
    · have := w0.1 0 0 ⟨by decide, by decide⟩
      rw [ha]
      simp only [cell] at this
      exact ⟨_, this⟩
    · rw [hne _ ha]; exact ones_alloc S addr i j hij
  obtain ⟨m1, e1, w1⟩ := hL.syrk .col .lower .no 1 1 1 (0 + (1 : ℕ) * 1) 1 0 (10 + (1 : ℕ) * 1) 1 m0 (by decide) (by decide)
    (by simp [OpLdOk, LdOk]) (by simp [LdOk]) (hal _ _) (hal _ _) (hap 1 (by decide))
  refine ⟨_, m1, _, r, hp, ?_, ?_, ?_⟩
  · show Out.andThen (Out.andThen (.ok _) _) _ = _
    simp only [Out.andThen]
    unfold xsyrk
    rw [e0]
    exact e1
  · rw [hframe, hframe]
    simp [ones]
  · have := w1.1 0 0 ⟨by decide, by decide⟩
    simp only [cell] at this
    norm_num at this
    rw [this]
    simp [opCell, cell, val, hne 1 (by decide), ones]

theorem not_syrkBatchFull : ¬ SyrkBatchFull := by
  intro h
  obtain ⟨mem', m1, p, r, h1, h2, h3, h4⟩ := xsyrk_batch_race (ref_conforms (α := ℚ)) (refSyrk ℚ)
  have := h ℚ (ref ℚ) ref_conforms (refSyrk ℚ) .col .lower .no 1 1 0 1 1 10 1 1 1 0 2 (ones ℚ) mem' m1 p r h1 h2
  subst this
  rw [h3] at h4
  cases h4

/-- A memory full of ones. -/
def allOnes (α : Type) [Field α] : Mem α := fun _ => some 1

/-- The same for `xtrsm_batch_strided`: with `alpha` zero, both blocks of `B` should become zero, but the second one is still one. -/
theorem xtrsm_batch_race {L : Lib α} (hL : L.Conforms) (I : TrsmImpl L) : ∃ (mem' m1 : Mem α) (p : PVar → Int) (r : Nat → Int),
    ParFor 2 (trsmBody I .col .left .lower .no .nonUnit 1 1 0 1 1 1 1) ⟨allOnes α, ptrs 0 10 0⟩ ⟨mem', p⟩ r ∧
    loop (fun i => xtrsm L .col .left .lower .no .nonUnit 1 1 0 (0 + i * 1) 1 (10 + i * 1) 1) 2 (allOnes α) = .ok m1 ∧
    mem' 11 = some 1 ∧ m1 11 = some 0 := by
  obtain ⟨r, hp⟩ := two_threads (body := trsmBody I .col .left .lower .no .nonUnit 1 1 0 1 1 1 1) (s := ⟨allOnes α, ptrs 0 10 0⟩) (k0 := 2) (k1 := 2)
    (p0 := (I.prog .col .left .lower .no .nonUnit 1 1 0 0 1 10 1).bind fun _ => bump .A 1 (bump .B 1 (.ret 0)))
    (p1 := (I.prog .col .left .lower .no .nonUnit 1 1 0 0 1 10 1).bind fun _ => bump .A 1 (bump .B 1 (.ret 0)))
    (by
      rintro ⟨sh, rem, ths⟩ rfl rfl hr
      refine .succ (.micro (t := 0) (i := 0) (rest := []) rfl (show (rem 0).micro _ = _ by rw [show rem 0 = _ from hr]; rfl)) ?_
      refine .succ (.micro (t := 0) (i := 0) (rest := []) rfl rfl) ?_
      dsimp only [start]
      rw [setRem_setRem]
      exact .zero)
    (by
      rintro ⟨sh, rem, ths⟩ rfl rfl hr
      refine .succ (.micro (t := 1) (i := 1) (rest := []) rfl (show (rem 1).micro _ = _ by rw [show rem 1 = _ from hr]; rfl)) ?_
      refine .succ (.micro (t := 1) (i := 1) (rest := []) rfl rfl) ?_
      dsimp only [start]
      rw [setRem_setRem]
      exact .zero)
  have hframe : ∀ s : Shared α, (((I.prog .col .left .lower .no .nonUnit 1 1 0 0 1 10 1).bind fun _ => bump .A 1 (bump .B 1 (.ret 0))).run s).1.mem 11 =
      s.mem 11 := by
    intro s
    rw [run_bind, bump_mem (m := ((I.prog .col .left .lower .no .nonUnit 1 1 0 0 1 10 1).run s).1.mem) (fun s hs => bump_mem (k := .ret 0) (fun s hs => hs) s hs) _ rfl]
    exact run_frame (I.touches .col .left .lower .no .nonUnit 1 1 0 0 1 10 1 (by decide) (by decide) (by simp [LdOk, sideDim]) (by simp [LdOk])) s
      (fun h => absurd (at_one h) (by decide))
  have tri_one : ∀ {i j : ℕ}, tri .lower 1 i j → i = 0 ∧ j = 0 := by rintro i j ⟨h1, h2⟩; omega
  have hap : ∀ i : ℕ, i < 2 → Apart (rect 1 1) (cell .col (10 + (i : Int) * 1) 1) (tri .lower (sideDim .left 1 1)) (cell .col (0 + (i : Int) * 1) 1) := by
    intro i hi p q p' q' h h' e
    obtain ⟨rfl, rfl⟩ := rect_one h
    obtain ⟨rfl, rfl⟩ := tri_one h'
    simp [cell] at e
  have al : ∀ (S : ℕ → ℕ → Prop) (addr : ℕ → ℕ → Int), Alloc S addr (allOnes α) := fun S addr i j _ => ⟨1, rfl⟩
  obtain ⟨m0, e0, c0, -⟩ := hL.trsm .col .left .lower .no .nonUnit 1 1 0 (0 + (0 : ℕ) * 1) 1 (10 + (0 : ℕ) * 1) 1 (allOnes α) (by decide) (by decide)
    (by simp [LdOk, sideDim]) (by simp [LdOk]) (al _ _) (al _ _) (hap 0 (by decide)) (by intro _ i _; simp [allOnes, val])
  have hne : ∀ a : Int, a ≠ 10 → m0 a = allOnes α a := by
    intro a ha
    refine c0.2 a fun i j hij => ?_
    obtain ⟨rfl, rfl⟩ := rect_one hij
    simpa [cell] using ha
  have hal : ∀ (S : ℕ → ℕ → Prop) (addr : ℕ → ℕ → Int), Alloc S addr m0 := by
    intro S addr i j hij
    by_cases ha : addr i j = 10
    · obtain ⟨x, hx⟩ := c0.1 0 0 ⟨by decide, by decide⟩
      rw [ha]
      simp only [cell] at hx
      exact ⟨_, hx⟩
    · rw [hne _ ha]; exact ⟨1, rfl⟩
  obtain ⟨m1, e1, c1, w1⟩ := hL.trsm .col .left .lower .no .nonUnit 1 1 0 (0 + (1 : ℕ) * 1) 1 (10 + (1 : ℕ) * 1) 1 m0 (by decide) (by decide)
    (by simp [LdOk, sideDim]) (by simp [LdOk]) (hal _ _) (hal _ _) (hap 1 (by decide)) (by
      intro _ i hi
      have : i = 0 := by simp [sideDim] at hi; omega
      subst this
      simp [cell, val, hne 1 (by decide), allOnes])
  refine ⟨_, m1, _, r, hp, ?_, ?_, ?_⟩
  · show Out.andThen (Out.andThen (.ok _) _) _ = _
    simp only [Out.andThen]
    unfold xtrsm
    rw [e0]
    exact e1
  · rw [hframe, hframe]
    rfl
  · obtain ⟨x, hx⟩ := c1.1 0 0 ⟨by decide, by decide⟩
    have := w1 0 0 (by decide) (by decide)
    simp only [cell] at hx this
    norm_num at hx
    rw [hx]
    simp [opTri, triVal, cell, val, hne 1 (by decide), allOnes, hx] at this
    rw [this]

theorem not_trsmBatchFull : ¬ TrsmBatchFull := by
  intro h
  obtain ⟨mem', m1, p, r, h1, h2, h3, h4⟩ := xtrsm_batch_race (ref_conforms (α := ℚ)) (refTrsm ℚ)
  have := h ℚ (ref ℚ) ref_conforms (refTrsm ℚ) .col .left .lower .no .nonUnit 1 1 0 1 1 10 1 1 0 2 (allOnes ℚ) mem' m1 p r h1 h2
  subst this
  rw [h3] at h4
  cases h4

end Guanaqo.Blas
