import Verif.Sparsity.PropsFromDense

/-!
# C05 (CSC to COO) and C06 (COO to COO)
-/

namespace Guanaqo.Sparsity

variable {T : Type}

/-- The COO pattern that lists the entries of a CSC pattern. -/
def cscCoo (s : CSC) (base : Int) : COO :=
  { rows := s.rows, cols := s.cols, symmetry := s.symmetry,
    rowIndices := s.innerIdx.map (· + base),
    colIndices := s.colOf.map (fun c : Nat => (c : Int) + base),
    order := if s.order = .sortedRows then .sortedByColsAndRows else .sortedByColsOnly,
    firstIndex := base }

theorem cscCoo_positions {s : CSC} (h : s.Wf) (base : Int) :
    (cscCoo s base).positions = s.positions := by
  rw [h.positions_eq, COO.positions]
  have := h.colOf_length
  apply List.ext_getElem
  · simp [cscCoo, this]
  · intro i a b; simp [cscCoo]

theorem cscCoo_entries {s : CSC} (h : s.Wf) (base : Int) {vals : List T}
    (hv : vals.length = s.innerIdx.length) :
    (cscCoo s base).entries vals = s.entries vals := by
  rw [h.entries_eq vals hv, COO.entries]
  have := h.colOf_length
  apply List.ext_getElem
  · simp [cscCoo, this, hv]
  · intro i a b; simp [cscCoo]

theorem cscCoo_wf {s : CSC} (h : s.Wf) (base : Int) : (cscCoo s base).Wf := by
  refine ⟨h.rows_nonneg, h.cols_nonneg, by simp [cscCoo, h.colOf_length], ?_, ?_⟩
  · intro x hx
    obtain ⟨r, hr, rfl⟩ := List.mem_map.1 hx
    have := h.inner_range r hr
    simp only [cscCoo]; omega
  · intro x hx
    obtain ⟨c, hc, rfl⟩ := List.mem_map.1 hx
    have := colList_lt hc
    simp only [cscCoo]; omega

theorem csc_positions_cols (s : CSC) : s.positions.Pairwise (fun p q => p.2 ≤ q.2) := by
  rw [CSC.positions, List.pairwise_flatMap]
  refine ⟨fun c _ => ?_, List.pairwise_lt_range.imp ?_⟩
  · rw [List.pairwise_map]
    exact List.Pairwise.imp (fun _ => le_refl _) (List.pairwise_of_forall (R := fun _ _ => True) (fun _ _ => trivial))
  · intro a b hab p hp q hq
    obtain ⟨x, _, rfl⟩ := List.mem_map.1 hp
    obtain ⟨y, _, rfl⟩ := List.mem_map.1 hq
    simp only; omega

theorem csc_positions_sorted {s : CSC} (hs : s.RowsSorted) :
    s.positions.Pairwise colRowLe := by
  rw [CSC.positions, List.pairwise_flatMap]
  refine ⟨fun c hc => ?_, List.pairwise_lt_range.imp ?_⟩
  · rw [List.pairwise_map]
    have hc := List.mem_range.1 hc
    exact (hs c (by omega)).imp (fun h => .inr ⟨rfl, h⟩)
  · intro a b hab p hp q hq
    obtain ⟨x, _, rfl⟩ := List.mem_map.1 hp
    obtain ⟨y, _, rfl⟩ := List.mem_map.1 hq
    exact .inl (by simp only; omega)

theorem nodup_zip_of_positions {s : COO} (hn : s.positions.Nodup) :
    (s.rowIndices.zip s.colIndices).Nodup := by
  rw [COO.positions] at hn
  exact List.Nodup.of_map _ hn

theorem assert_unique_coo {dbg : Bool} {s : COO} (h : dbg = true → s.positions.Nodup) :
    assertM dbg (.ok (checkUniquenessTriplets s.rowIndices s.colIndices)) = .ok () := by
  cases dbg with
  | false => rfl
  | true =>
    rw [checkUniquenessTriplets, noAdjacentEqual_of_nodup (nodup_zip_of_positions (h rfl))]
    rfl

theorem assert_unique_csc {dbg : Bool} {s : CSC} (hwf : s.Wf) (h : dbg = true → s.positions.Nodup) :
    assertM dbg (checkUniquenessCsc s.outerPtr s.innerIdx) = .ok () := by
  cases dbg with
  | false => rfl
  | true => exact assertM_ok (checkUnique_of_nodup hwf (h rfl))

/-- C05. CSC to COO: for every well-formed CSC matrix (without duplicates, in a build with
assertions) and every requested index base representable in the index type, the conversion runs
without fault and produces a well-formed COO matrix with the requested base, the same shape, a
truthful order flag, and, position by position, the same entries. -/
theorem csc_to_coo (dbg : Bool) (I : IntTy) (s : CSC) (req : Option Int) (hwf : s.Wf)
    (hfit : FitsIdx I s.rows s.cols (req.getD 0)) (hnd : dbg = true → s.positions.Nodup)
    (hord : s.order = .sortedRows → s.RowsSorted) :
    ∃ sp, CscToCoo.construct dbg I s req = .ok sp ∧
      sp.rows = s.rows ∧ sp.cols = s.cols ∧ sp.symmetry = s.symmetry ∧
      sp.firstIndex = req.getD 0 ∧ sp.Wf ∧ sp.OrderTrue ∧ sp.positions = s.positions ∧
      (s.order = .sortedRows → sp.order = .sortedByColsAndRows) ∧
      ∀ vals work : List T, vals.length = s.innerIdx.length →
        ∃ o, CscToCoo.convertValues dbg sp vals work = .ok o ∧
          sp.entries (o.values vals) = s.entries vals := by
  have hloop : forRange 0 s.cols (CscToCoo.outerBody dbg I (req.getD 0) s)
      (0, List.replicate s.innerIdx.length 0, List.replicate s.innerIdx.length 0) =
      .ok (s.innerIdx.length, (cscCoo s (req.getD 0)).rowIndices,
        (cscCoo s (req.getD 0)).colIndices) := by
    have h1 := cscLoop hwf dbg (fun c i => CscToCoo.innerBody dbg I (req.getD 0) s c i)
      (0, List.replicate s.innerIdx.length 0, List.replicate s.innerIdx.length 0)
    unfold CscToCoo.outerBody
    rw [h1]
    have hcl := hwf.colOf_length
    have hzl : (s.colOf.zip (List.range s.innerIdx.length)).length = s.innerIdx.length := by
      simp [hcl]
    have h2 := fill2
      (f := fun (p : Nat × Nat) st => CscToCoo.innerBody dbg I (req.getD 0) s (p.1 : Int) (p.2 : Int) st)
      (g := fun p => s.innerIdx.getD p.2 0 + req.getD 0) (h := fun p => (p.1 : Int) + req.getD 0)
      (S := fun p => p ∈ s.colOf.zip (List.range s.innerIdx.length))
      (by
        intro p l v w hp hl hl'
        have hz := List.of_mem_zip (show (p.1, p.2) ∈ _ from hp)
        have hc := colList_lt hz.1
        have hi := List.mem_range.1 hz.2
        have hr := hwf.inner_range (s.innerIdx.getD p.2 0) (by simp [List.getD, hi])
        obtain ⟨c1, a1⟩ := hfit.nat (r := s.innerIdx.getD p.2 0) (by omega) (.inl (by omega))
        obtain ⟨c2, a2⟩ := hfit.nat (r := (p.1 : Int)) (by omega) (.inr (by omega))
        simp only [CscToCoo.innerBody, castSz_nat, rd_getD 0 hi, c1, a1, c2, a2, res_ok_bind,
          wr_ok _ hl, wr_ok _ hl'])
      (s.colOf.zip (List.range s.innerIdx.length)) (fun _ h => h) [] []
      (List.replicate s.innerIdx.length 0) (List.replicate s.innerIdx.length 0)
      rfl (by simp [hcl]) (by simp [hcl])
    simp only [List.length_nil, List.nil_append, hzl, Nat.zero_add] at h2
    rw [h2]
    congr 3
    · apply List.ext_getElem
      · simp [cscCoo, hcl]
      · intro i a b
        have : i < s.innerIdx.length := by simpa [cscCoo] using b
        simp [cscCoo, List.getD, this]
    · apply List.ext_getElem
      · simp [cscCoo, hcl]
      · intro i a b; simp [cscCoo]
  refine ⟨cscCoo s (req.getD 0), ?_, rfl, rfl, rfl, rfl, cscCoo_wf hwf _, ?_,
    cscCoo_positions hwf _, ?_, ?_⟩
  · rw [CscToCoo.construct, CscToCoo.convertSparsity]
    simp only [CSC.nnz_ok hwf, res_ok_bind, castSz_nat, hloop]
    rw [assert_unique_coo (s := cscCoo s (req.getD 0)) (by rw [cscCoo_positions hwf]; exact hnd)]
    rfl
  · have hp := cscCoo_positions hwf (req.getD 0)
    unfold COO.OrderTrue
    by_cases h : s.order = .sortedRows
    · have : (cscCoo s (req.getD 0)).order = .sortedByColsAndRows := by simp [cscCoo, h]
      rw [this, hp]
      exact csc_positions_sorted (hord h)
    · have : (cscCoo s (req.getD 0)).order = .sortedByColsOnly := by simp [cscCoo, h]
      rw [this, hp]
      exact csc_positions_cols s
  · intro h; simp [cscCoo, h]
  · intro vals work hv
    refine ⟨⟨.fromValues, work⟩, ?_, cscCoo_entries hwf _ hv⟩
    have hl := (cscCoo_wf hwf (req.getD 0)).same_length
    rw [CscToCoo.convertValues, COO.nnz_ok hl, res_ok_bind, castSz_nat, res_ok_bind,
      assertM_dec (by simp [cscCoo, hv])]
    rfl

example : FitsIdx .int exampleCsc.rows exampleCsc.cols ((some 1 : Option Int).getD 0) ∧
    (exampleCsc.order = .sortedRows → exampleCsc.RowsSorted) ∧
    (cscCoo exampleCsc 1).rowIndices = [1, 3, 1] ∧ (cscCoo exampleCsc 1).colIndices = [1, 3, 3] :=
  ⟨⟨by decide, by decide, by decide, by decide, by decide⟩, (by intro h; cases h), by decide, by decide⟩

/-! ## COO to COO -/

/-- The COO pattern with re-based indices. -/
def cooRebase (s : COO) (base : Int) : COO :=
  { s with
    rowIndices := s.rowIndices.map (fun i => i + (base - s.firstIndex)),
    colIndices := s.colIndices.map (fun i => i + (base - s.firstIndex)),
    firstIndex := base }

theorem cooRebase_self (s : COO) : cooRebase s s.firstIndex = s := by
  simp [cooRebase]

theorem cooRebase_positions (s : COO) (base : Int) :
    (cooRebase s base).positions = s.positions := by
  simp only [COO.positions, cooRebase]
  apply List.ext_getElem
  · simp
  · intro i a b; simp; omega

theorem cooRebase_entries (s : COO) (base : Int) (vals : List T) :
    (cooRebase s base).entries vals = s.entries vals := by
  simp only [COO.entries, cooRebase]
  apply List.ext_getElem
  · simp
  · intro i a b; simp; omega

theorem cooRebase_wf {s : COO} (h : s.Wf) (base : Int) : (cooRebase s base).Wf := by
  refine ⟨h.rows_nonneg, h.cols_nonneg, by simp [cooRebase, h.same_length], ?_, ?_⟩
  · intro x hx
    obtain ⟨r, hr, rfl⟩ := List.mem_map.1 hx
    have := h.row_range r hr
    simp only [cooRebase]; omega
  · intro x hx
    obtain ⟨r, hr, rfl⟩ := List.mem_map.1 hx
    have := h.col_range r hr
    simp only [cooRebase]; omega

theorem cooRebase_order {s : COO} (base : Int) :
    (cooRebase s base).OrderTrue ↔ s.OrderTrue := by
  have : (cooRebase s base).order = s.order := rfl
  simp only [COO.OrderTrue, this, cooRebase_positions]

/-- C06. COO to COO: for every well-formed COO matrix and every requested base (or none: the base
is kept), with both index types able to hold the indices, the conversion yields the same entries
in the same order with the requested base, and the order flag stays as truthful as it was. -/
theorem coo_to_coo (dbg : Bool) (IFrom ITo : IntTy) (s : COO) (req : Option Int) (hwf : s.Wf)
    (hfit : FitsIdx ITo s.rows s.cols s.firstIndex)
    (hfit' : FitsIdx ITo s.rows s.cols (req.getD s.firstIndex))
    (hdiff : ITo.fits (req.getD s.firstIndex - s.firstIndex))
    (hnd : dbg = true → s.positions.Nodup) :
    ∃ sp, CooToCoo.construct dbg IFrom ITo s req = .ok sp ∧
      sp.rows = s.rows ∧ sp.cols = s.cols ∧ sp.symmetry = s.symmetry ∧
      sp.firstIndex = req.getD s.firstIndex ∧ sp.order = s.order ∧ sp.Wf ∧
      (s.OrderTrue → sp.OrderTrue) ∧ sp.positions = s.positions ∧
      ∀ vals work : List T, vals.length = s.rowIndices.length →
        ∃ o, CscToCoo.convertValues dbg sp vals work = .ok o ∧
          sp.entries (o.values vals) = s.entries vals := by
  have hl := hwf.same_length
  have hcf : ITo.cast s.firstIndex = s.firstIndex := IntTy.cast_eq hfit.base_fit
  have hdelta : CooToCoo.delta ITo s req = .ok (req.getD s.firstIndex - s.firstIndex) := by
    cases req with
    | none => simp [CooToCoo.delta]
    | some f =>
      simp only [CooToCoo.delta, hcf, Option.getD_some] at *
      exact IntTy.sub_ok hdiff
  have hidx : ∀ x, ((0 ≤ x - s.firstIndex ∧ x - s.firstIndex < s.rows) ∨
       (0 ≤ x - s.firstIndex ∧ x - s.firstIndex < s.cols)) →
      ITo.add (ITo.cast x) (req.getD s.firstIndex - s.firstIndex) =
        .ok (x + (req.getD s.firstIndex - s.firstIndex)) := by
    intro x hx
    rcases hx with hx | hx
    · rw [IntTy.cast_eq (IntTy.fits_between hfit.base_fit hfit.rows_base_fit (by omega) (by omega))]
      exact IntTy.add_ok (IntTy.fits_between hfit'.base_fit hfit'.rows_base_fit (by omega) (by omega))
    · rw [IntTy.cast_eq (IntTy.fits_between hfit.base_fit hfit.cols_base_fit (by omega) (by omega))]
      exact IntTy.add_ok (IntTy.fits_between hfit'.base_fit hfit'.cols_base_fit (by omega) (by omega))
  have hr : CooToCoo.cvtIdx ITo (req.getD s.firstIndex - s.firstIndex) s.rowIndices =
      .ok (cooRebase s (req.getD s.firstIndex)).rowIndices :=
    mapM_ok (fun x hx => hidx x (.inl (hwf.row_range x hx)))
  have hc : CooToCoo.cvtIdx ITo (req.getD s.firstIndex - s.firstIndex) s.colIndices =
      .ok (cooRebase s (req.getD s.firstIndex)).colIndices :=
    mapM_ok (fun x hx => hidx x (.inr (hwf.col_range x hx)))
  have hconv : CooToCoo.convertSparsity dbg IFrom ITo s req =
      .ok (cooRebase s (req.getD s.firstIndex)) := by
    rw [CooToCoo.convertSparsity, hdelta, res_ok_bind]
    split
    · rename_i h
      have : req.getD s.firstIndex = s.firstIndex := by omega
      rw [this, cooRebase_self]
    · rw [CooToCoo.shift, COO.nnz_ok hl, res_ok_bind, castSz_nat, res_ok_bind, hr, res_ok_bind, hc,
        res_ok_bind, hcf]
      rfl
  refine ⟨cooRebase s (req.getD s.firstIndex), ?_, rfl, rfl, rfl, rfl, rfl, cooRebase_wf hwf _,
    (cooRebase_order _).2, cooRebase_positions _ _, ?_⟩
  · rw [CooToCoo.construct, hconv, res_ok_bind,
      assert_unique_coo (by rw [cooRebase_positions]; exact hnd)]
    rfl
  · intro vals work hv
    refine ⟨⟨.fromValues, work⟩, ?_, cooRebase_entries _ _ _⟩
    have hl' := (cooRebase_wf hwf (req.getD s.firstIndex)).same_length
    rw [CscToCoo.convertValues, COO.nnz_ok hl', res_ok_bind, castSz_nat, res_ok_bind,
      assertM_dec (by simp [cooRebase, hv])]
    rfl

example : FitsIdx .long exampleCoo.rows exampleCoo.cols 0 ∧
    IntTy.fits .long ((some 0 : Option Int).getD 1 - exampleCoo.firstIndex) ∧
    (cooRebase exampleCoo 0).rowIndices = [1, 0, 0] :=
  ⟨⟨by decide, by decide, by decide, by decide, by decide⟩, by decide, by decide⟩

/-- The fitting hypotheses are needed: narrowing `long` indices to `int` wraps silently. -/
theorem narrowing_wraps :
    let s : COO := ⟨4294967297, 1, .unsymmetric, [4294967296], [0], .unsorted, 0⟩
    CooToCoo.construct true .long .int s none = .ok { s with rowIndices := [0] } := by rfl

end Guanaqo.Sparsity
