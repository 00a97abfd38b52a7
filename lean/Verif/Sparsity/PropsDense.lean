import Verif.Sparsity.Unique

/-!
# C01, C02, C12 and the to-dense part of C09 and C10

Every theorem concludes that the code runs without fault (`.ok`): every array access is in
bounds, no assertion fails, nothing is thrown.
-/

namespace Guanaqo.Sparsity

variable {T : Type}

theorem entries_positions {s : CSC} (h : s.Wf) {vals : List T}
    (hv : vals.length = s.innerIdx.length) :
    (s.entries vals).map (fun e => (e.1, e.2.1)) = s.positions := by
  rw [h.entries_eq vals hv, h.positions_eq, List.map_map]
  have : s.colOf.zip s.innerIdx
      = (s.colOf.zip (s.innerIdx.zip vals)).map (fun p => (p.1, p.2.1)) := by
    apply List.ext_getElem
    · simp [hv]
    · intro i h1 h2; simp
  rw [this, List.map_map]
  rfl

theorem csc_inBounds {s : CSC} (h : s.Wf) {vals : List T}
    (hv : vals.length = s.innerIdx.length) : ∀ e ∈ s.entries vals, InBounds s.rows s.cols e := by
  intro e he
  rw [h.entries_eq vals hv] at he
  obtain ⟨p, hp, rfl⟩ := List.mem_map.1 he
  have h1 := List.of_mem_zip (show (p.1, p.2) ∈ _ from hp)
  have h2 := List.of_mem_zip (show (p.2.1, p.2.2) ∈ _ from h1.2)
  have h3 := h.inner_range _ h2.1
  have h4 := colList_lt h1.1
  exact ⟨h3.1, h3.2, by simp, by simp only; omega⟩

/-- The loops of the CSC to dense conversion process the entries in order. -/
theorem cscToDense_loop {s : CSC} (h : s.Wf) {vals : List T}
    (hv : vals.length = s.innerIdx.length) (dbg : Bool) (sp : Dense) (w : List T) :
    forRange 0 s.cols (CscToDense.outerBody dbg s sp vals) (0, w) =
      ((s.entries vals).foldlM (place dbg s.symmetry sp.rows) w) >>=
        fun w => .ok (s.innerIdx.length, w) := by
  have h1 := cscLoop h dbg (fun c i => CscToDense.innerBody dbg s sp vals c i) (0, w)
  change _ = _ at h1
  unfold CscToDense.outerBody
  rw [h1]
  have hzl := h.colOf_length
  -- rewrite the pairs as a map over `range`
  have hp : s.colOf.zip (List.range s.innerIdx.length) =
      (List.range s.innerIdx.length).map (fun i => (s.colOf.getD i 0, i)) := by
    apply List.ext_getElem
    · simp [hzl]
    · intro i a b
      have : i < s.innerIdx.length := by simpa using b
      simp [List.getD, hzl, this]
  have he : s.entries vals = ((List.range s.innerIdx.length).map (fun i => (s.colOf.getD i 0, i))).pmap
      (fun p (hp : p.2 < s.innerIdx.length) =>
        (s.innerIdx[p.2], (p.1 : Int), vals[p.2]'(by rw [hv]; exact hp)))
      (by intro p hp; obtain ⟨i, hi, rfl⟩ := List.mem_map.1 hp; exact List.mem_range.1 hi) := by
    rw [h.entries_eq vals hv]
    apply List.ext_getElem
    · simp [hzl, hv]
    · intro i a b
      have : i < s.innerIdx.length := by simpa using b
      simp [List.getD, hzl, this]
  rw [hp, foldlM_map', List.range_eq_range']
  have hcnt := foldlM_counter (σ := List T) (fun i l w => do
      let i' ← castSz dbg (i : Int)
      let r ← rd s.innerIdx i'
      checkTriangle s.symmetry r (s.colOf.getD i 0 : Int)
      let v ← rd vals l
      placeEntry dbg s.symmetry sp.rows r (s.colOf.getD i 0 : Int) v w) s.innerIdx.length 0 w
  have hbody : ∀ (i : Nat) (st : Nat × List T),
      CscToDense.innerBody dbg s sp vals (s.colOf.getD i 0 : Int) (i : Int) st =
      ((do
        let i' ← castSz dbg (i : Int)
        let r ← rd s.innerIdx i'
        checkTriangle s.symmetry r (s.colOf.getD i 0 : Int)
        let v ← rd vals st.1
        placeEntry dbg s.symmetry sp.rows r (s.colOf.getD i 0 : Int) v st.2) >>=
          fun w => Except.ok (st.1 + 1, w)) := by
    intro i st
    simp only [CscToDense.innerBody, res_bind_assoc]
  simp only [hbody]
  rw [hcnt]
  congr 1
  · rw [he]
    have hz : (List.range' 0 s.innerIdx.length) = List.range s.innerIdx.length :=
      List.range_eq_range'.symm
    rw [hz]
    clear hcnt hbody he hp h1
    -- both sides fold over the indices
    have key : ∀ (l : List Nat) (hl : ∀ i ∈ l, i < s.innerIdx.length)
        (hl' : ∀ p ∈ l.map (fun i => (s.colOf.getD i 0, i)), p.2 < s.innerIdx.length) (w : List T),
        l.foldlM (fun w i => do
          let i' ← castSz dbg (i : Int)
          let r ← rd s.innerIdx i'
          checkTriangle s.symmetry r (s.colOf.getD i 0 : Int)
          let v ← rd vals i
          placeEntry dbg s.symmetry sp.rows r (s.colOf.getD i 0 : Int) v w) w =
        ((l.map (fun i => (s.colOf.getD i 0, i))).pmap
          (fun p (hp : p.2 < s.innerIdx.length) =>
            (s.innerIdx[p.2], (p.1 : Int), vals[p.2]'(by rw [hv]; exact hp))) hl').foldlM
          (place dbg s.symmetry sp.rows) w := by
      intro l
      induction l with
      | nil => intros; rfl
      | cons i l ih =>
        intro hl hl' w
        have hi := hl i (by simp)
        simp only [List.map_cons, List.pmap_cons, List.foldlM_cons]
        rw [castSz_nat, res_ok_bind, rd_ok (v := s.innerIdx[i]) (by simp [hi]), res_ok_bind,
          rd_ok (v := vals[i]'(by rw [hv]; exact hi)) (by simp [hv, hi])]
        simp only [place, res_ok_bind, res_bind_assoc]
        congr 1
        funext _
        congr 1
        funext w'
        exact ih (fun j hj => hl j (by simp [hj])) _ w'
    exact key _ (fun i hi => List.mem_range.1 hi) _ w
  · funext w'
    simp

/-- C01. Converting a well-formed CSC matrix without duplicates to dense, in any build, with a
work array of the documented size, runs without fault and fills the work array with exactly the
matrix the CSC data denote; the reported dense sparsity has the same shape and symmetry. -/
theorem csc_to_dense (zero : T) (dbg : Bool) (s : CSC) (hwf : s.Wf)
    (hshape : ShapeOk s.symmetry s.rows s.cols) (hnd : s.positions.Nodup)
    (htri : ∀ p ∈ s.positions, InTriangle s.symmetry p.1 p.2)
    (vals work : List T) (hv : vals.length = s.innerIdx.length)
    (hw : (work.length : Int) = s.rows * s.cols) :
    ∃ sp o, CscToDense.construct dbg s = .ok sp ∧
      sp = { rows := s.rows, cols := s.cols, symmetry := s.symmetry } ∧
      CscToDense.workSize dbg sp = .ok work.length ∧
      CscToDense.convertValues zero dbg s sp vals work = .ok o ∧
      o.loc = .work ∧
      DenseOf zero s.rows s.cols s.symmetry (s.entries vals) (o.values vals) := by
  have hr := hwf.rows_nonneg
  have hc := hwf.cols_nonneg
  have hws : CscToDense.workSize dbg { rows := s.rows, cols := s.cols, symmetry := s.symmetry }
      = .ok work.length := by
    simp only [CscToDense.workSize, castSz_ok hr, castSz_ok hc, res_ok_bind]
    congr 1
    obtain ⟨a, ha⟩ := Int.eq_ofNat_of_zero_le hr
    obtain ⟨b, hb⟩ := Int.eq_ofNat_of_zero_le hc
    rw [ha, hb] at hw ⊢
    simp only [Int.toNat_natCast]
    norm_cast at hw
    exact hw.symm
  have hpos : ((s.entries vals).map (fun e => (e.1, e.2.1))) = s.positions := entries_positions hwf hv
  have htri' : ∀ e ∈ s.entries vals, InTriangle s.symmetry e.1 e.2.1 := by
    intro e he
    exact htri (e.1, e.2.1) (by rw [← hpos]; exact List.mem_map.2 ⟨e, he, rfl⟩)
  refine ⟨_, ⟨.work, (s.entries vals).foldl (mirrorSet s.symmetry s.rows)
    (List.replicate work.length zero)⟩, ?_, rfl, hws, ?_, rfl, ?_⟩
  · rw [CscToDense.construct, assertM_ok (checkUnique_of_nodup hwf hnd), res_ok_bind, checkSquare,
      if_neg (by intro ⟨h1, h2⟩; exact h2 (hshape.2 h1))]
    rfl
  · rw [CscToDense.convertValues, CSC.nnz_ok hwf, res_ok_bind, assertM_dec (by simp [hv]),
      res_ok_bind, hws, res_ok_bind, assertM_dec rfl, res_ok_bind, cscToDense_loop hwf hv,
      places_ok hshape (csc_inBounds hwf hv) htri' (by simpa using hw)]
    rfl
  · exact denseOf_foldl hshape (csc_inBounds hwf hv) htri' (by rw [PosNodup, hpos]; exact hnd) hw

/-! ## COO to dense -/

/-- The index type of the COO pattern can hold its indices and dimensions. -/
def COO.Fits (I : IntTy) (s : COO) : Prop := FitsIdx I s.rows s.cols s.firstIndex

theorem coo_entries_positions {s : COO} (h : s.Wf) {vals : List T}
    (hv : vals.length = s.rowIndices.length) :
    (s.entries vals).map (fun e => (e.1, e.2.1)) = s.positions := by
  have hl := h.same_length
  rw [COO.entries, COO.positions, List.map_map]
  apply List.ext_getElem
  · simp [hv, hl]
  · intro i a b; simp

theorem coo_inBounds {s : COO} (h : s.Wf) (vals : List T) :
    ∀ e ∈ s.entries vals, InBounds s.rows s.cols e := by
  intro e he
  obtain ⟨p, hp, rfl⟩ := List.mem_map.1 he
  have h1 := List.of_mem_zip (show (p.1, p.2) ∈ _ from hp)
  have h2 := List.of_mem_zip (show (p.2.1, p.2.2) ∈ _ from h1.2)
  have h3 := h.row_range _ h1.1
  have h4 := h.col_range _ h2.1
  exact ⟨h3.1, h3.2, h4.1, h4.2⟩

theorem cooToDense_loop {s : COO} (h : s.Wf) {I : IntTy} (hI : COO.Fits I s) {vals : List T}
    (hv : vals.length = s.rowIndices.length) (dbg : Bool) (sp : Dense) (w : List T) :
    forRange 0 s.rowIndices.length (CooToDense.body dbg I s sp vals) w =
      (s.entries vals).foldlM (place dbg s.symmetry sp.rows) w := by
  have hl := h.same_length
  rw [forRange_eq_foldlM, rangeI_zero, foldlM_map']
  have he : s.entries vals = (List.range s.rowIndices.length).pmap
      (fun i (hp : i < s.rowIndices.length) =>
        (s.rowIndices[i] - s.firstIndex, s.colIndices[i]'(by omega) - s.firstIndex,
          vals[i]'(by omega)))
      (by intro i hi; exact List.mem_range.1 hi) := by
    apply List.ext_getElem
    · simp [COO.entries, hl, hv]
    · intro i a b
      simp [COO.entries]
  rw [he]
  have key : ∀ (l : List Nat) (hl' : ∀ i ∈ l, i < s.rowIndices.length) (w : List T),
      l.foldlM (fun w (i : Nat) => CooToDense.body dbg I s sp vals (i : Int) w) w =
      (l.pmap (fun i (hp : i < s.rowIndices.length) =>
        (s.rowIndices[i] - s.firstIndex, s.colIndices[i]'(by omega) - s.firstIndex,
          vals[i]'(by omega))) hl').foldlM (place dbg s.symmetry sp.rows) w := by
    intro l
    induction l with
    | nil => intros; rfl
    | cons i l ih =>
      intro hl' w
      have hi := hl' i (by simp)
      have hr := h.row_range s.rowIndices[i] (by simp)
      have hc := h.col_range (s.colIndices[i]'(by omega)) (by simp)
      have f1 : I.fits (s.rowIndices[i] - s.firstIndex) :=
        IntTy.fits_between I.fits_zero hI.rows_fit (by omega) (by omega)
      have f2 : I.fits (s.colIndices[i]'(by omega) - s.firstIndex) :=
        IntTy.fits_between I.fits_zero hI.cols_fit (by omega) (by omega)
      rw [List.pmap_cons, List.foldlM_cons, List.foldlM_cons]
      have hstep : CooToDense.body dbg I s sp vals (i : Int) w =
          place dbg s.symmetry sp.rows w
            (s.rowIndices[i] - s.firstIndex, s.colIndices[i]'(by omega) - s.firstIndex,
              vals[i]'(by omega)) := by
        simp only [CooToDense.body, Int.toNat_natCast]
        rw [rd_ok (v := s.rowIndices[i]) (by simp [hi]), res_ok_bind, IntTy.sub_ok f1, res_ok_bind,
          rd_ok (v := s.colIndices[i]'(by omega)) (by simp [hl ▸ hi]), res_ok_bind,
          IntTy.sub_ok f2, res_ok_bind, rd_ok (v := vals[i]'(by omega)) (by simp [hv, hi])]
        rfl
      rw [hstep]
      congr 1
      funext w'
      exact ih _ w'
  exact key _ _ w

/-- C02. Converting a well-formed COO matrix without duplicates to dense, for every index base,
every index type that can hold the indices, and in any build, runs without fault and fills the
work array with exactly the matrix denoted by the triplets. -/
theorem coo_to_dense (zero : T) (dbg : Bool) (I : IntTy) (s : COO) (hwf : s.Wf)
    (hI : COO.Fits I s) (hshape : ShapeOk s.symmetry s.rows s.cols) (hnd : s.positions.Nodup)
    (htri : ∀ p ∈ s.positions, InTriangle s.symmetry p.1 p.2)
    (vals work : List T) (hv : vals.length = s.rowIndices.length)
    (hw : (work.length : Int) = s.rows * s.cols) :
    ∃ sp o, CooToDense.construct dbg s = .ok sp ∧
      sp = { rows := s.rows, cols := s.cols, symmetry := s.symmetry } ∧
      CscToDense.workSize dbg sp = .ok work.length ∧
      CooToDense.convertValues zero dbg I s sp vals work = .ok o ∧
      o.loc = .work ∧
      DenseOf zero s.rows s.cols s.symmetry (s.entries vals) (o.values vals) := by
  have hr := hwf.rows_nonneg
  have hc := hwf.cols_nonneg
  have hl := hwf.same_length
  have hws : CscToDense.workSize dbg { rows := s.rows, cols := s.cols, symmetry := s.symmetry }
      = .ok work.length := by
    simp only [CscToDense.workSize, castSz_ok hr, castSz_ok hc, res_ok_bind]
    congr 1
    obtain ⟨a, ha⟩ := Int.eq_ofNat_of_zero_le hr
    obtain ⟨b, hb⟩ := Int.eq_ofNat_of_zero_le hc
    rw [ha, hb] at hw ⊢
    simp only [Int.toNat_natCast]
    norm_cast at hw
    exact hw.symm
  have hpos : ((s.entries vals).map (fun e => (e.1, e.2.1))) = s.positions :=
    coo_entries_positions hwf hv
  have htri' : ∀ e ∈ s.entries vals, InTriangle s.symmetry e.1 e.2.1 := by
    intro e he
    exact htri (e.1, e.2.1) (by rw [← hpos]; exact List.mem_map.2 ⟨e, he, rfl⟩)
  have hzip : (s.rowIndices.zip s.colIndices).Nodup := by
    rw [COO.positions] at hnd
    exact List.Nodup.of_map _ hnd
  refine ⟨_, ⟨.work, (s.entries vals).foldl (mirrorSet s.symmetry s.rows)
    (List.replicate work.length zero)⟩, ?_, rfl, hws, ?_, rfl, ?_⟩
  · rw [CooToDense.construct, checkUniquenessTriplets, noAdjacentEqual_of_nodup hzip,
      assertM_ok rfl, res_ok_bind, checkSquare,
      if_neg (by intro ⟨h1, h2⟩; exact h2 (hshape.2 h1))]
    rfl
  · rw [CooToDense.convertValues, COO.nnz_ok hl, res_ok_bind, assertM_dec (by simp [hv]),
      res_ok_bind, hws, res_ok_bind, assertM_dec rfl, res_ok_bind, cooToDense_loop hwf hI hv,
      places_ok hshape (coo_inBounds hwf vals) htri' (by simpa using hw)]
    rfl
  · exact denseOf_foldl hshape (coo_inBounds hwf vals) htri' (by rw [PosNodup, hpos]; exact hnd) hw

/-! ## Non-vacuity -/

/-- A 3 × 3 symmetric (upper) CSC matrix with an empty column and unsorted rows. -/
def exampleCsc : CSC :=
  { rows := 3, cols := 3, symmetry := .upper, innerIdx := [0, 2, 0], outerPtr := [0, 1, 1, 3],
    order := .unsorted }

example : exampleCsc.Wf ∧ ShapeOk exampleCsc.symmetry exampleCsc.rows exampleCsc.cols ∧
    exampleCsc.positions.Nodup ∧
    (∀ p ∈ exampleCsc.positions, InTriangle exampleCsc.symmetry p.1 p.2) ∧
    exampleCsc.entries [10, 20, 30] = [(0, 0, 10), (2, 2, 20), (0, 2, 30)] := by
  refine ⟨⟨by decide, by decide, by decide, by decide, ?_, by decide, by decide⟩,
    ⟨by decide, by decide⟩, by decide, ?_, by decide⟩
  · intro c hc
    have : c < 3 := by simp [exampleCsc] at hc; omega
    have : c = 0 ∨ c = 1 ∨ c = 2 := by omega
    rcases this with rfl | rfl | rfl <;> decide
  · intro p hp
    have hp : p ∈ [((0 : Int), (0 : Int)), (2, 2), (0, 2)] := hp
    simp at hp
    rcases hp with rfl | rfl | rfl <;> simp [InTriangle, exampleCsc]

/-- A Fortran-indexed (base 1) unsymmetric 2 × 3 COO matrix. -/
def exampleCoo : COO :=
  { rows := 2, cols := 3, symmetry := .unsymmetric, rowIndices := [2, 1, 1],
    colIndices := [1, 3, 1], order := .unsorted, firstIndex := 1 }

example : exampleCoo.Wf ∧ COO.Fits .int exampleCoo ∧
    ShapeOk exampleCoo.symmetry exampleCoo.rows exampleCoo.cols ∧ exampleCoo.positions.Nodup ∧
    exampleCoo.entries [10, 20, 30] = [(1, 0, 10), (0, 2, 20), (0, 0, 30)] := by
  refine ⟨⟨by decide, by decide, by decide, by decide, by decide⟩,
    ⟨by decide, by decide, by decide, by decide, by decide⟩, ⟨by decide, by decide⟩,
    by decide, by decide⟩

/-! ## C12 -/

/-- C12. On sorted patterns the uniqueness check of a CSC matrix says exactly whether some
position occurs twice. -/
theorem uniqueness_csc_exact (s : CSC) (hwf : s.Wf) (hs : s.RowsSorted) :
    ∃ b, checkUniquenessCsc s.outerPtr s.innerIdx = .ok b ∧ (b = true ↔ s.positions.Nodup) := by
  refine ⟨_, checkUniquenessCsc_eq hwf, ?_⟩
  rw [List.all_eq_true, positions_nodup_iff]
  constructor
  · intro h c hc
    exact nodup_of_noAdjacentEqual (fun a b h1 h2 => le_antisymm h1 h2) (hs c (by omega))
      (h c (List.mem_range.2 hc))
  · intro h c hc
    exact noAdjacentEqual_of_nodup (h c (List.mem_range.1 hc))

/-- C12, triplets sorted by column, then row. -/
theorem uniqueness_triplets_exact (rows cols : List Int)
    (hs : (rows.zip cols).Pairwise colRowLe ∨ (rows.zip cols).Pairwise rowColLe) :
    checkUniquenessTriplets rows cols = true ↔ (rows.zip cols).Nodup := by
  constructor
  · intro h
    rcases hs with hs | hs
    · refine nodup_of_noAdjacentEqual ?_ hs h
      intro a b h1 h2
      simp only [colRowLe] at h1 h2
      ext <;> omega
    · refine nodup_of_noAdjacentEqual ?_ hs h
      intro a b h1 h2
      simp only [rowColLe] at h1 h2
      ext <;> omega
  · exact noAdjacentEqual_of_nodup

/-- C12. On any pattern, a negative answer is right: without duplicates the checks succeed. -/
theorem uniqueness_no_false_alarm (s : CSC) (hwf : s.Wf) (rows cols : List Int) :
    (s.positions.Nodup → checkUniquenessCsc s.outerPtr s.innerIdx = .ok true) ∧
    ((rows.zip cols).Nodup → checkUniquenessTriplets rows cols = true) :=
  ⟨checkUnique_of_nodup hwf, noAdjacentEqual_of_nodup⟩

/-- Sortedness is needed ("Assumes sorted indices", sparse-ops.hpp:86-87): a duplicate that is
not adjacent is missed. -/
theorem uniqueness_unsorted_misses :
    checkUniquenessTriplets [0, 1, 0] [0, 0, 0] = true ∧
      ¬ (([0, 1, 0] : List Int).zip [0, 0, 0]).Nodup := by decide

example : exampleCsc.positions.Nodup ∧
    ([0, 1, 0] : List Int).zip [0, 0, 1] = [(0, 0), (1, 0), (0, 1)] ∧
    (([0, 1, 0] : List Int).zip [0, 0, 1]).Pairwise colRowLe := by
  refine ⟨by decide, by decide, ?_⟩
  simp [colRowLe]

/-! ## C09: rejected inputs of the conversions to dense -/

/-- C09. A symmetric (or invalid-symmetry) non-square matrix is refused with
`std::invalid_argument` by the constructors of all converters to dense. -/
theorem nonsquare_to_dense_refused (dbg : Bool) (sym : Symmetry) (rows cols : Int)
    (hs : sym ≠ .unsymmetric) (hrc : rows ≠ cols) :
    DenseToDense.construct ⟨rows, cols, sym⟩ = .error (.throw .invalidArgument) ∧
    (∀ s : CSC, s.rows = rows → s.cols = cols → s.symmetry = sym → s.Wf → s.positions.Nodup →
      CscToDense.construct dbg s = .error (.throw .invalidArgument)) ∧
    (∀ s : COO, s.rows = rows → s.cols = cols → s.symmetry = sym → s.positions.Nodup →
      CooToDense.construct dbg s = .error (.throw .invalidArgument)) := by
  refine ⟨?_, ?_, ?_⟩
  · simp [DenseToDense.construct, checkSquare, hs, hrc]
  · rintro s rfl rfl rfl hwf hn
    rw [CscToDense.construct, assertM_ok (checkUnique_of_nodup hwf hn)]
    simp [checkSquare, hs, hrc]
  · rintro s rfl rfl rfl hn
    have hzip : (s.rowIndices.zip s.colIndices).Nodup := by
      rw [COO.positions] at hn
      exact List.Nodup.of_map _ hn
    rw [CooToDense.construct, checkUniquenessTriplets, noAdjacentEqual_of_nodup hzip,
      assertM_ok rfl]
    simp [checkSquare, hs, hrc]

/-- C09. An entry in the triangle that the symmetry excludes (or any entry, if the symmetry value
is invalid) makes the value conversion to dense throw `std::invalid_argument`, in any build. -/
theorem wrong_triangle_refused (zero : T) (dbg : Bool) (I : IntTy) (vals work : List T) :
    (∀ s : CSC, s.Wf → vals.length = s.innerIdx.length →
      (work.length : Int) = s.rows * s.cols →
      (s.symmetry = .invalid ∨ ShapeOk s.symmetry s.rows s.cols) →
      (∃ p ∈ s.positions, ¬ InTriangle s.symmetry p.1 p.2) →
      CscToDense.convertValues zero dbg s ⟨s.rows, s.cols, s.symmetry⟩ vals work
        = .error (.throw .invalidArgument)) ∧
    (∀ s : COO, s.Wf → COO.Fits I s → vals.length = s.rowIndices.length →
      (work.length : Int) = s.rows * s.cols →
      (s.symmetry = .invalid ∨ ShapeOk s.symmetry s.rows s.cols) →
      (∃ p ∈ s.positions, ¬ InTriangle s.symmetry p.1 p.2) →
      CooToDense.convertValues zero dbg I s ⟨s.rows, s.cols, s.symmetry⟩ vals work
        = .error (.throw .invalidArgument)) := by
  have hws : ∀ {rows cols : Int} {sym : Symmetry}, 0 ≤ rows → 0 ≤ cols →
      (work.length : Int) = rows * cols →
      CscToDense.workSize dbg { rows := rows, cols := cols, symmetry := sym }
      = .ok work.length := by
    intro rows cols sym hr hc hw
    simp only [CscToDense.workSize, castSz_ok hr, castSz_ok hc, res_ok_bind]
    congr 1
    obtain ⟨a, ha⟩ := Int.eq_ofNat_of_zero_le hr
    obtain ⟨b, hb⟩ := Int.eq_ofNat_of_zero_le hc
    rw [ha, hb] at hw ⊢
    simp only [Int.toNat_natCast]
    norm_cast at hw
    exact hw.symm
  constructor
  · intro s hwf hv hw hs ⟨p, hp, hb⟩
    have hex : ∃ e ∈ s.entries vals, ¬ InTriangle s.symmetry e.1 e.2.1 := by
      rw [← entries_positions hwf hv] at hp
      obtain ⟨e, he, rfl⟩ := List.mem_map.1 hp
      exact ⟨e, he, hb⟩
    rw [CscToDense.convertValues, CSC.nnz_ok hwf, res_ok_bind, assertM_dec (by simp [hv]),
      res_ok_bind, hws hwf.rows_nonneg hwf.cols_nonneg hw, res_ok_bind, assertM_dec rfl,
      res_ok_bind, cscToDense_loop hwf hv,
      places_throw hs (csc_inBounds hwf hv) hex (by simpa using hw)]
    rfl
  · intro s hwf hI hv hw hs ⟨p, hp, hb⟩
    have hex : ∃ e ∈ s.entries vals, ¬ InTriangle s.symmetry e.1 e.2.1 := by
      rw [← coo_entries_positions hwf hv] at hp
      obtain ⟨e, he, rfl⟩ := List.mem_map.1 hp
      exact ⟨e, he, hb⟩
    rw [CooToDense.convertValues, COO.nnz_ok hwf.same_length, res_ok_bind,
      assertM_dec (by simp [hv]),
      res_ok_bind, hws hwf.rows_nonneg hwf.cols_nonneg hw, res_ok_bind, assertM_dec rfl,
      res_ok_bind, cooToDense_loop hwf hI hv,
      places_throw hs (coo_inBounds hwf vals) hex (by simpa using hw)]
    rfl

end Guanaqo.Sparsity
