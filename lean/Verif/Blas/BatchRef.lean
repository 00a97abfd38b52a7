import Verif.Blas.Batch

/-! # The reference library as programs

Programs that read the operands, and then write the result: `GemvImpl`, `GemmImpl`, `SyrkImpl`, `TrsmImpl` and `PotrfImpl` exist. -/

namespace Guanaqo.Blas

open Guanaqo.Par
open Finset
open scoped Classical

variable {α : Type} [Field α]

set_option linter.unusedSectionVars false

/-- Read a list of addresses. -/
noncomputable def readAll : List Int → Mem α → (Mem α → Prog α Int) → Prog α Int
  | [], acc, k => k acc
  | a :: as, acc, k => .read a fun v => readAll as (fun b => if b = a then v else acc b) k

/-- Write these addresses of a memory. -/
def writeAll : List Int → Mem α → Int → Prog α Int
  | [], _, b => .ret b
  | a :: as, m, b => match m a with
    | some v => .write a v (writeAll as m b)
    | none => writeAll as m b

/-- Read, compute, write. -/
noncomputable def progOf (rd wr : List Int) (f : Mem α → Mem α × Int) : Prog α Int :=
  readAll rd (fun _ => none) fun m0 => writeAll wr (f m0).1 (f m0).2

theorem run_readAll (k : Mem α → Prog α Int) : ∀ (as : List Int) (acc : Mem α) (s : Shared α),
    (readAll as acc k).run s = (k fun b => if b ∈ as then s.mem b else acc b).run s
  | [], acc, s => by simp [readAll]
  | a :: as, acc, s => by
    rw [readAll, Prog.run, run_readAll k as]
    congr 2
    funext b
    by_cases h1 : b ∈ as
    · simp [h1]
    · by_cases h2 : b = a
      · subst h2; simp [h1]
      · simp [h1, h2]

theorem run_writeAll (m : Mem α) (b : Int) : ∀ (as : List Int) (s : Shared α),
    (writeAll as m b).run s = ({ s with mem := fun a => if a ∈ as ∧ m a ≠ none then m a else s.mem a }, b)
  | [], s => by simp [writeAll, Prog.run]
  | a :: as, s => by
    rw [writeAll]
    cases h : m a with
    | none =>
      dsimp only
      rw [run_writeAll m b as]
      congr 2
      funext c
      by_cases hc : c = a
      · subst hc; simp [h]
      · simp [hc]
    | some v =>
      dsimp only
      rw [Prog.run, run_writeAll m b as]
      congr 2
      funext c
      by_cases hc : c = a
      · subst hc; simp [h, Mem.put]
      · simp [hc, Mem.put]

theorem run_progOf (rd wr : List Int) (f : Mem α → Mem α × Int) (s : Shared α) :
    (progOf rd wr f).run s = ({ s with mem := (fun a => if a ∈ wr ∧ (f (keep (· ∈ rd) s.mem)).1 a ≠ none then (f (keep (· ∈ rd) s.mem)).1 a
        else s.mem a) }, (f (keep (· ∈ rd) s.mem)).2) := by
  unfold progOf
  rw [run_readAll, run_writeAll]
  have e : keep (· ∈ rd) s.mem = fun b => if b ∈ rd then s.mem b else none := by
    funext b; unfold keep; by_cases h : b ∈ rd <;> simp [h]
  rw [e]

theorem touches_writeAll {R W : Int → Prop} (m : Mem α) (b : Int) : ∀ as : List Int, (∀ a ∈ as, W a) → (writeAll as m b).Touches R W
  | [], _ => trivial
  | a :: as, h => by
    rw [writeAll]
    have ih := touches_writeAll (R := R) m b as fun c hc => h c (List.mem_cons_of_mem _ hc)
    cases m a with
    | none => exact ih
    | some v => exact ⟨h a (List.mem_cons_self ..), ih⟩

theorem touches_readAll {R W : Int → Prop} {k : Mem α → Prog α Int} (hk : ∀ m, (k m).Touches R W) : ∀ (as : List Int) (acc : Mem α),
    (∀ a ∈ as, R a ∨ W a) → (readAll as acc k).Touches R W
  | [], acc, _ => hk acc
  | a :: as, acc, h => ⟨h a (List.mem_cons_self ..), fun _ => touches_readAll hk as _ fun c hc => h c (List.mem_cons_of_mem _ hc)⟩

theorem touches_progOf {R W : Int → Prop} {rd wr : List Int} {f : Mem α → Mem α × Int} (h1 : ∀ a ∈ rd, R a ∨ W a) (h2 : ∀ a ∈ wr, W a) :
    (progOf rd wr f).Touches R W := touches_readAll (fun _ => touches_writeAll _ _ _ h2) _ _ h1

/-- The addresses, as a list. -/
noncomputable def cells (S : ℕ → ℕ → Prop) (M N : Int) (addr : ℕ → ℕ → Int) : List Int :=
  ((List.range M.toNat).flatMap fun i => (List.range N.toNat).filterMap fun j => if S i j then some (addr i j) else none)

theorem mem_cells {S : ℕ → ℕ → Prop} {M N : Int} {addr : ℕ → ℕ → Int} (h : ∀ i j, S i j → rect M N i j) (a : Int) :
    a ∈ cells S M N addr ↔ At S addr a := by
  unfold cells At
  simp only [List.mem_flatMap, List.mem_filterMap, List.mem_range]
  constructor
  · rintro ⟨i, -, j, -, e⟩
    by_cases hs : S i j
    · rw [if_pos hs] at e; exact ⟨i, j, hs, (Option.some.inj e).symm⟩
    · rw [if_neg hs] at e; cases e
  · rintro ⟨i, j, hs, rfl⟩
    have := h i j hs
    exact ⟨i, by have := this.1; omega, j, by have := this.2; omega, if_pos hs⟩

/-- The memory after a call. -/
def outMem {α : Type} (m : Mem α) : Out α → Mem α
  | .ok m' => m'
  | .lapackError _ m' => m'
  | _ => m

theorem writeCells_local {S : ℕ → ℕ → Prop} {addr : ℕ → ℕ → Int} {wr : List Int} (hwr : ∀ a, a ∈ wr ↔ At S addr a) {F G : ℕ → ℕ → α}
    {m m0 : Mem α} (hFG : ∀ i j, S i j → F i j = G i j) :
    (fun a => if a ∈ wr ∧ writeCells S addr F m0 a ≠ none then writeCells S addr F m0 a else m a) = writeCells S addr G m := by
  funext a
  by_cases ha : ∃ q : ℕ × ℕ, S q.1 q.2 ∧ addr q.1 q.2 = a
  · have hs : a ∈ wr := (hwr a).2 ⟨_, _, ha.choose_spec.1, ha.choose_spec.2.symm⟩
    have e1 : writeCells S addr F m0 a = some (F ha.choose.1 ha.choose.2) := by unfold writeCells; rw [dif_pos ha]
    have e2 : writeCells S addr G m a = some (G ha.choose.1 ha.choose.2) := by unfold writeCells; rw [dif_pos ha]
    rw [if_pos ⟨hs, by rw [e1]; simp⟩, e1, e2, hFG _ _ ha.choose_spec.1]
  · have hs : a ∉ wr := by
      intro h
      obtain ⟨i, j, hij, e⟩ := (hwr a).1 h
      exact ha ⟨(i, j), hij, e.symm⟩
    rw [if_neg fun h => hs h.1]
    unfold writeCells
    rw [dif_neg ha]

theorem guard_ok {P : Prop} {k : Out α} {m : Mem α} (h : guard P k = .ok m) : P ∧ k = .ok m := by
  unfold guard at h
  split at h
  · exact ⟨by assumption, h⟩
  · cases h

theorem keep_mem {rd : List Int} {m : Mem α} {a : Int} (h : a ∈ rd) : val (keep (· ∈ rd) m) a = val m a := keep_val (P := (· ∈ rd)) h

theorem rect_sub {M N : Int} : ∀ i j, rect M N i j → rect M N i j := fun _ _ h => h

theorem tri_sub {u : Uplo} {N : Int} : ∀ i j, tri u N i j → rect N N i j := tri_rect

/-- `gemv` of the reference library. -/
noncomputable def refGemv (α : Type) [Field α] : GemvImpl (ref α) where
  prog lay t M N alpha A lda X incX beta Y incY := if M = 0 ∨ N = 0 then .ret 0 else
    progOf (cells (rect (opRows t M N) (opCols t M N)) (opRows t M N) (opCols t M N) (opCell lay t A lda) ++
        cells (rect (opCols t M N) 1) (opCols t M N) 1 (cell .row X incX) ++ cells (rect (opRows t M N) 1) (opRows t M N) 1 (cell .row Y incY))
      (cells (rect (opRows t M N) 1) (opRows t M N) 1 (cell .row Y incY))
      fun m0 => (outMem m0 ((ref α).gemv lay t M N alpha A lda X incX beta Y incY m0), 0)
  run := by
    intro lay t M N alpha A lda X incX beta Y incY s m' h
    obtain ⟨hP, e⟩ := guard_ok h
    by_cases h0 : M = 0 ∨ N = 0
    · rw [if_pos h0] at e ⊢
      cases e; rfl
    · rw [if_neg h0] at e ⊢
      cases e
      rw [run_progOf]
      generalize hrd : (cells (rect (opRows t M N) (opCols t M N)) (opRows t M N) (opCols t M N) (opCell lay t A lda) ++
        cells (rect (opCols t M N) 1) (opCols t M N) 1 (cell .row X incX) ++ cells (rect (opRows t M N) 1) (opRows t M N) 1 (cell .row Y incY)) = rd
      have hk : (ref α).gemv lay t M N alpha A lda X incX beta Y incY (keep (· ∈ rd) s.mem) = _ := (guard_pos hP).trans (congrArg Out.ok (if_neg h0))
      rw [hk]
      simp only [outMem]
      congr 2
      refine writeCells_local (mem_cells rect_sub) fun i j hij => ?_
      have hY : val (keep (· ∈ rd) s.mem) (cell .row Y incY i j) = val s.mem (cell .row Y incY i j) := by
        refine keep_mem ?_
        rw [← hrd]
        exact List.mem_append_right _ ((mem_cells rect_sub _).2 ⟨i, j, hij, rfl⟩)
      rw [hY]
      congr 2
      refine Finset.sum_congr rfl fun l hl => ?_
      have hl' : (l : Int) < opCols t M N := by
        have := Finset.mem_range.1 hl
        change l < (opCols t M N).toNat at this
        omega
      congr 1
      · refine keep_mem ?_
        rw [← hrd]
        exact List.mem_append_left _ (List.mem_append_left _ ((mem_cells rect_sub _).2 ⟨i, l, ⟨hij.1, hl'⟩, rfl⟩))
      · refine keep_mem ?_
        rw [← hrd]
        exact List.mem_append_left _ (List.mem_append_right _ ((mem_cells rect_sub _).2 ⟨l, 0, ⟨hl', by decide⟩, rfl⟩))
  touches := by
    intro lay t M N alpha A lda X incX beta Y incY _ _ _ _ _
    split
    · trivial
    · refine touches_progOf ?_ fun a ha => (mem_cells rect_sub a).1 ha
      intro a ha
      rcases List.mem_append.1 ha with ha | ha
      · rcases List.mem_append.1 ha with ha | ha
        · exact Or.inl (Or.inl ((mem_cells rect_sub a).1 ha))
        · exact Or.inl (Or.inr ((mem_cells rect_sub a).1 ha))
      · exact Or.inr ((mem_cells rect_sub a).1 ha)

/-- `gemm` of the reference library. -/
noncomputable def refGemm (α : Type) [Field α] : GemmImpl (ref α) where
  prog lay tA tB M N K alpha A lda B ldb beta C ldc :=
    progOf (cells (rect M K) M K (opCell lay tA A lda) ++ cells (rect K N) K N (opCell lay tB B ldb) ++ cells (rect M N) M N (cell lay C ldc))
      (cells (rect M N) M N (cell lay C ldc)) fun m0 => (outMem m0 ((ref α).gemm lay tA tB M N K alpha A lda B ldb beta C ldc m0), 0)
  run := by
    intro lay tA tB M N K alpha A lda B ldb beta C ldc s m' h
    obtain ⟨hP, e⟩ := guard_ok h
    cases e
    rw [run_progOf]
    generalize hrd : cells (rect M K) M K (opCell lay tA A lda) ++ cells (rect K N) K N (opCell lay tB B ldb) ++ cells (rect M N) M N (cell lay C ldc) = rd
    have hk : (ref α).gemm lay tA tB M N K alpha A lda B ldb beta C ldc (keep (· ∈ rd) s.mem) = .ok _ := guard_pos hP
    rw [hk]
    simp only [outMem]
    congr 2
    refine writeCells_local (mem_cells rect_sub) fun i j hij => ?_
    have hC : val (keep (· ∈ rd) s.mem) (cell lay C ldc i j) = val s.mem (cell lay C ldc i j) := by
      refine keep_mem ?_
      rw [← hrd]
      exact List.mem_append_right _ ((mem_cells rect_sub _).2 ⟨i, j, hij, rfl⟩)
    rw [hC]
    congr 2
    refine Finset.sum_congr rfl fun l hl => ?_
    have hl' : (l : Int) < K := by have := Finset.mem_range.1 hl; omega
    congr 1
    · refine keep_mem ?_
      rw [← hrd]
      exact List.mem_append_left _ (List.mem_append_left _ ((mem_cells rect_sub _).2 ⟨i, l, ⟨hij.1, hl'⟩, rfl⟩))
    · refine keep_mem ?_
      rw [← hrd]
      exact List.mem_append_left _ (List.mem_append_right _ ((mem_cells rect_sub _).2 ⟨l, j, ⟨hl', hij.2⟩, rfl⟩))
  touches := by
    intro lay tA tB M N K alpha A lda B ldb beta C ldc _ _ _ _ _ _
    refine touches_progOf ?_ fun a ha => (mem_cells rect_sub a).1 ha
    intro a ha
    rcases List.mem_append.1 ha with ha | ha
    · rcases List.mem_append.1 ha with ha | ha
      · exact Or.inl (Or.inl ((mem_cells rect_sub a).1 ha))
      · exact Or.inl (Or.inr ((mem_cells rect_sub a).1 ha))
    · exact Or.inr ((mem_cells rect_sub a).1 ha)

/-- `syrk` of the reference library. -/
noncomputable def refSyrk (α : Type) [Field α] : SyrkImpl (ref α) where
  prog lay u t N K alpha A lda beta C ldc :=
    progOf (cells (rect N K) N K (opCell lay t A lda) ++ cells (tri u N) N N (cell lay C ldc))
      (cells (tri u N) N N (cell lay C ldc)) fun m0 => (outMem m0 ((ref α).syrk lay u t N K alpha A lda beta C ldc m0), 0)
  run := by
    intro lay u t N K alpha A lda beta C ldc s m' h
    obtain ⟨hP, e⟩ := guard_ok h
    cases e
    rw [run_progOf]
    generalize hrd : cells (rect N K) N K (opCell lay t A lda) ++ cells (tri u N) N N (cell lay C ldc) = rd
    have hk : (ref α).syrk lay u t N K alpha A lda beta C ldc (keep (· ∈ rd) s.mem) = .ok _ := guard_pos hP
    rw [hk]
    simp only [outMem]
    congr 2
    refine writeCells_local (mem_cells tri_sub) fun i j hij => ?_
    have hC : val (keep (· ∈ rd) s.mem) (cell lay C ldc i j) = val s.mem (cell lay C ldc i j) := by
      refine keep_mem ?_
      rw [← hrd]
      exact List.mem_append_right _ ((mem_cells tri_sub _).2 ⟨i, j, hij, rfl⟩)
    have hr := tri_sub i j hij
    rw [hC]
    congr 2
    refine Finset.sum_congr rfl fun l hl => ?_
    have hl' : (l : Int) < K := by have := Finset.mem_range.1 hl; omega
    congr 1
    · refine keep_mem ?_
      rw [← hrd]
      exact List.mem_append_left _ ((mem_cells rect_sub _).2 ⟨i, l, ⟨hr.1, hl'⟩, rfl⟩)
    · refine keep_mem ?_
      rw [← hrd]
      exact List.mem_append_left _ ((mem_cells rect_sub _).2 ⟨j, l, ⟨hr.2, hl'⟩, rfl⟩)
  touches := by
    intro lay u t N K alpha A lda beta C ldc _ _ _ _
    refine touches_progOf ?_ fun a ha => (mem_cells tri_sub a).1 ha
    intro a ha
    rcases List.mem_append.1 ha with ha | ha
    · exact Or.inl ((mem_cells rect_sub a).1 ha)
    · exact Or.inr ((mem_cells tri_sub a).1 ha)

theorem overlay_local {P : Int → Prop} {wr : List Int} (hwr : ∀ a, a ∈ wr ↔ P a) {m m1 : Mem α} (h : ∀ a, P a → m1 a = none → m a = none) :
    (fun a => if a ∈ wr ∧ m1 a ≠ none then m1 a else m a) = overlay P m m1 := by
  funext a
  unfold overlay
  by_cases ha : P a
  · rw [if_pos ha]
    by_cases h1 : m1 a = none
    · rw [if_neg fun g => g.2 h1, h1]; exact h a ha h1
    · rw [if_pos ⟨(hwr a).2 ha, h1⟩]
  · rw [if_neg ha, if_neg fun g => ha ((hwr a).1 g.1)]

theorem changes_some {S : ℕ → ℕ → Prop} {addr : ℕ → ℕ → Int} {m m' : Mem α} (h : Changes S addr m m') {a : Int} (ha : At S addr a) : m' a ≠ none := by
  obtain ⟨i, j, hij, rfl⟩ := ha
  obtain ⟨x, hx⟩ := h.1 i j hij
  rw [hx]; simp

/-- `trsm` of the reference library. -/
noncomputable def refTrsm (α : Type) [Field α] : TrsmImpl (ref α) where
  prog lay sd u t dg M N alpha A lda B ldb :=
    progOf (cells (tri u (sideDim sd M N)) (sideDim sd M N) (sideDim sd M N) (cell lay A lda) ++ cells (rect M N) M N (cell lay B ldb))
      (cells (rect M N) M N (cell lay B ldb)) fun m0 => (choose m0 (TrsmP lay sd u t dg M N alpha A lda B ldb m0), 0)
  run := by
    intro lay sd u t dg M N alpha A lda B ldb s m' h
    obtain ⟨hP, e⟩ := guard_ok h
    cases e
    rw [run_progOf]
    have hk : keep (· ∈ cells (tri u (sideDim sd M N)) (sideDim sd M N) (sideDim sd M N) (cell lay A lda) ++ cells (rect M N) M N (cell lay B ldb)) s.mem =
        keep (trsmAt lay sd u M N A lda B ldb) s.mem := by
      congr 1
      funext a
      rw [List.mem_append, mem_cells tri_sub, mem_cells rect_sub]
      rfl
    rw [hk]
    generalize hm0 : keep (trsmAt lay sd u M N A lda B ldb) s.mem = m0
    congr 2
    refine overlay_local (mem_cells rect_sub) fun a ha h0 => ?_
    by_cases hex : ∃ m', TrsmP lay sd u t dg M N alpha A lda B ldb m0 m'
    · exact absurd h0 (changes_some (choose_spec (m := m0) hex).1 ha)
    · unfold choose at h0
      rw [dif_neg hex, ← hm0] at h0
      unfold keep at h0
      dsimp only at h0
      rw [if_pos (show trsmAt lay sd u M N A lda B ldb a from Or.inr ha)] at h0
      exact h0
  touches := by
    intro lay sd u t dg M N alpha A lda B ldb _ _ _ _
    refine touches_progOf ?_ fun a ha => (mem_cells rect_sub a).1 ha
    intro a ha
    rcases List.mem_append.1 ha with ha | ha
    · exact Or.inl ((mem_cells tri_sub a).1 ha)
    · exact Or.inr ((mem_cells rect_sub a).1 ha)

/-- `potrf` of the reference library. -/
noncomputable def refPotrf (α : Type) [Field α] : PotrfImpl (ref α) where
  prog u n a lda := progOf (cells (tri u n) n n (cell .col a lda)) (cells (tri u n) n n (cell .col a lda)) (potrfAt u n a lda)
  run := by
    intro u n a lda s h1 h2 ha
    rw [run_progOf]
    have hk : keep (· ∈ cells (tri u n) n n (cell .col a lda)) s.mem = keep (At (tri u n) (cell .col a lda)) s.mem := by
      congr 1
      funext b
      rw [mem_cells tri_sub]
    rw [hk]
    have e : (ref α).potrf u n a lda s.mem = _ := if_pos ⟨h1, h2⟩
    rw [e]
    dsimp only
    generalize hm0 : keep (At (tri u n) (cell .col a lda)) s.mem = m0
    congr 2
    refine overlay_local (mem_cells tri_sub) fun b hb h0 => ?_
    unfold potrfAt at h0
    by_cases hex : ∃ m', PotrfP u n a lda m0 m'
    · rw [if_pos hex] at h0
      exact absurd h0 (changes_some (choose_spec (m := m0) hex).1 hb)
    · rw [if_neg hex] at h0
      dsimp only at h0
      rw [← hm0] at h0
      unfold keep at h0
      rw [if_pos hb] at h0
      exact h0
  touches := by
    intro u n a lda _ _
    refine touches_progOf ?_ fun b hb => (mem_cells tri_sub b).1 hb
    intro b hb
    exact Or.inr ((mem_cells tri_sub b).1 hb)

end Guanaqo.Blas
