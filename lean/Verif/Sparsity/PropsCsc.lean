import Verif.Sparsity.CscLemmas

/-!
# C07 (COO to CSC), C14 (orders)
-/

namespace Guanaqo.Sparsity

variable {T : Type}

/-- `convert_values` rearranges the values by the (possibly dropped) permutation. -/
theorem convertValues_gather (dbg : Bool) (cv : CscConv) (hwf : cv.sparsity.Wf) (q : List Int)
    (hq : q.Perm ((List.range cv.sparsity.innerIdx.length).map (fun k : Nat => (k : Int))))
    (hcv : cv.permutation = if isSorted q then [] else q)
    (vals work : List T) (hv : vals.length = cv.sparsity.innerIdx.length)
    (hw : work.length = cv.permutation.length) :
    ∃ o, cv.convertValues dbg vals work = .ok o ∧ ∀ d, o.values vals = gather q vals d := by
  obtain ⟨o, h1, h2, h3⟩ := convertValues_perm dbg cv hwf q (.inl hq) hcv vals work hv hw
  refine ⟨o, h1, ?_⟩
  by_cases h : q = []
  · intro d
    rw [h2 h]
    subst h
    have hl := hq.length_eq
    simp at hl
    rw [← hl] at hv
    simp [gather, List.length_eq_zero_iff.1 hv]
  · exact h3 h

theorem cvtRows_ok {I : IntTy} {rows : List Int} {base m : Int}
    (hb : I.fits base) (hm : I.fits (m + base)) (hm0 : I.fits m)
    (h : ∀ r ∈ rows, 0 ≤ r - base ∧ r - base < m) :
    cvtRows I base rows = .ok (rows.map (· - base)) := by
  apply mapM_ok
  intro r hr
  have := h r hr
  rw [IntTy.cast_eq hb, IntTy.cast_eq (IntTy.fits_between hb hm (by omega) (by omega))]
  exact IntTy.sub_ok (IntTy.fits_between I.fits_zero hm0 (by omega) (by omega))

theorem cmpCol_strictWeak : StrictWeak cmpCol :=
  ⟨fun a b h => by simp [cmpCol] at *; omega, fun a b c h => by simp [cmpCol] at *; omega⟩

theorem cmpColRow_strictWeak : StrictWeak cmpColRow := by
  have key : ∀ a b, cmpColRow a b = true ↔ (a.2.1 < b.2.1 ∨ (a.2.1 = b.2.1 ∧ a.1 < b.1)) := by
    intro a b
    unfold cmpColRow
    split
    · simp; omega
    · split
      · simp; omega
      · simp; omega
  refine ⟨fun a b h => ?_, fun a b c h => ?_⟩
  · rw [Bool.eq_false_iff]
    intro h'
    rw [key] at h h'; omega
  · rw [key] at h
    rw [key, key]; omega

theorem cmpColRow_false {a b : Trip} (h : cmpColRow b a = false) :
    colRowLe (a.1, a.2.1) (b.1, b.2.1) := by
  unfold cmpColRow at h
  unfold colRowLe
  split at h
  · simp at h
  · split at h
    · left; simp only; omega
    · right
      have : ¬ b.1 < a.1 := by simpa using h
      simp only; omega

/-- The sorted (or already sorted) triplets of a COO matrix. -/
def trips (s : COO) : List Trip :=
  s.rowIndices.zip (s.colIndices.zip
    ((List.range s.rowIndices.length).map (fun k : Nat => (k : Int))))

theorem trips_rows {s : COO} (h : s.rowIndices.length = s.colIndices.length) :
    (trips s).map (·.1) = s.rowIndices := by
  rw [trips, List.map_fst_zip (by simp [h])]

theorem trips_cols {s : COO} (h : s.rowIndices.length = s.colIndices.length) :
    (trips s).map (·.2.1) = s.colIndices := by
  apply List.ext_getElem
  · simp [trips, h]
  · intro i a b; simp [trips]

theorem trips_perm {s : COO} (h : s.rowIndices.length = s.colIndices.length) :
    (trips s).map (·.2.2) = (List.range s.rowIndices.length).map (fun k : Nat => (k : Int)) := by
  apply List.ext_getElem
  · simp [trips, h]
  · intro i a b; simp [trips]

/-- The triplets that are actually compressed: sorted as asked for, otherwise as stored. -/
def usedTrips (std : StdLib) (s : COO) (k : CooToCsc.SortKind) : List Trip :=
  match k with
  | .none => trips s
  | .colRow => std.sort cmpColRow (trips s)
  | .col => std.sort cmpCol (trips s)

theorem usedTrips_perm {std : StdLib} (hstd : std.Ok) (s : COO) (k : CooToCsc.SortKind) :
    (usedTrips std s k).Perm (trips s) := by
  cases k with
  | none => exact List.Perm.refl _
  | colRow => exact (hstd.sort _ _ cmpColRow_strictWeak).1
  | col => exact (hstd.sort _ _ cmpCol_strictWeak).1

/-- The sorted triplets have ascending columns, and ascending rows per column when the resulting
order says so. -/
theorem usedTrips_sorted {std : StdLib} (hstd : std.Ok) {s : COO} (h : s.Wf) (hord : s.OrderTrue)
    {req : Option CscOrder} {order : CscOrder} {k : CooToCsc.SortKind}
    (hch : CooToCsc.chooseOrder req s.order = .ok (order, k)) :
    ((usedTrips std s k).map (·.2.1)).Pairwise (· ≤ ·) ∧
    (order = .sortedRows →
      (((usedTrips std s k).map (·.1)).zip ((usedTrips std s k).map (·.2.1))).Pairwise colRowLe) ∧
    order ≠ .invalid ∧ (req = some .sortedRows → order = .sortedRows) := by
  have hzip : ∀ Z : List Trip, (Z.map (·.1)).zip (Z.map (·.2.1)) = Z.map (fun t => (t.1, t.2.1)) := by
    intro Z
    apply List.ext_getElem
    · simp
    · intro i a b; simp
  have hl := h.same_length
  have htz : (trips s).map (fun t => (t.1, t.2.1)) = s.rowIndices.zip s.colIndices := by
    rw [← hzip, trips_rows hl, trips_cols hl]
  have hpos : ∀ {R : Int × Int → Int × Int → Prop},
      (∀ p q : Int × Int, R (p.1 - s.firstIndex, p.2 - s.firstIndex)
        (q.1 - s.firstIndex, q.2 - s.firstIndex) → R p q) →
      s.positions.Pairwise R → (s.rowIndices.zip s.colIndices).Pairwise R := by
    intro R hR hp
    rw [COO.positions, List.pairwise_map] at hp
    exact hp.imp (fun h => hR _ _ h)
  have hcols : ∀ Z : List Trip, (Z.map (fun t => (t.1, t.2.1))).Pairwise (fun p q => p.2 ≤ q.2) →
      (Z.map (·.2.1)).Pairwise (· ≤ ·) := by
    intro Z hZ
    rw [List.pairwise_map] at hZ ⊢
    exact hZ
  have hcr : ∀ {l : List (Int × Int)}, l.Pairwise colRowLe → l.Pairwise (fun p q => p.2 ≤ q.2) := by
    intro l hp
    exact hp.imp (fun {a b} h => by unfold colRowLe at h; omega)
  have hcolRow : s.order = .sortedByColsAndRows →
      (s.rowIndices.zip s.colIndices).Pairwise colRowLe := by
    intro ho
    rw [COO.OrderTrue, ho] at hord
    exact hpos (fun p q h => by unfold colRowLe at *; simp only at h; omega) hord
  have hcolOnly : s.order = .sortedByColsOnly →
      (s.rowIndices.zip s.colIndices).Pairwise (fun p q => p.2 ≤ q.2) := by
    intro ho
    rw [COO.OrderTrue, ho] at hord
    exact hpos (fun p q h => by simp only at h; omega) hord
  have hsrt : ((std.sort cmpColRow (trips s)).map (fun t => (t.1, t.2.1))).Pairwise colRowLe := by
    rw [List.pairwise_map]
    exact (hstd.sort _ (trips s) cmpColRow_strictWeak).2.imp (fun h => cmpColRow_false h)
  have hsrtc : ((std.sort cmpCol (trips s)).map (fun t => (t.1, t.2.1))).Pairwise
      (fun p q => p.2 ≤ q.2) := by
    rw [List.pairwise_map]
    exact (hstd.sort _ (trips s) cmpCol_strictWeak).2.imp (fun h => by
      simp [cmpCol] at h; exact h)
  have hnone : s.order = .sortedByColsAndRows →
      ((usedTrips std s .none).map (·.2.1)).Pairwise (· ≤ ·) ∧
      (((usedTrips std s .none).map (·.1)).zip ((usedTrips std s .none).map (·.2.1))).Pairwise
        colRowLe := by
    intro ho
    refine ⟨hcols _ ?_, ?_⟩
    · rw [usedTrips, htz]; exact hcr (hcolRow ho)
    · rw [usedTrips, hzip, htz]; exact hcolRow ho
  have hsort : ((usedTrips std s .colRow).map (·.2.1)).Pairwise (· ≤ ·) ∧
      (((usedTrips std s .colRow).map (·.1)).zip ((usedTrips std s .colRow).map (·.2.1))).Pairwise
        colRowLe := ⟨hcols _ (hcr hsrt), by rw [hzip]; exact hsrt⟩
  unfold CooToCsc.chooseOrder at hch
  split at hch
  · split at hch <;> cases hch
    · rename_i _ ho; exact ⟨(hnone ho).1, fun _ => (hnone ho).2, by simp, fun _ => rfl⟩
    all_goals exact ⟨hsort.1, fun _ => hsort.2, by simp, fun _ => rfl⟩
  · rename_i hreq
    split at hch <;> cases hch
    · rename_i _ ho; exact ⟨(hnone ho).1, fun _ => (hnone ho).2, by simp, fun h => absurd h hreq⟩
    · rename_i _ ho
      refine ⟨hcols _ ?_, by simp, by simp, fun h => absurd h hreq⟩
      rw [usedTrips, htz]; exact hcolOnly ho
    all_goals exact ⟨hcols _ hsrtc, by simp, by simp, fun h => absurd h hreq⟩

theorem chooseOrder_total {req : Option CscOrder} {o : CooOrder} (h : o ≠ .invalid) :
    ∃ order k, CooToCsc.chooseOrder req o = .ok (order, k) := by
  unfold CooToCsc.chooseOrder
  split <;> cases o <;> simp at h ⊢

/-- The entries of the compressed matrix with gathered values are the entries of the source, up to
the order in which they are listed. -/
theorem gather_entries {s : COO} (h : s.Wf) {Z : List Trip} (hZ : Z.Perm (trips s))
    {vals : List T} (hv : vals.length = s.rowIndices.length) (d : T) :
    (((Z.map (·.1)).zip ((Z.map (·.2.1)).zip (gather (Z.map (·.2.2)) vals d))).map
      (fun p => (p.1 - s.firstIndex, p.2.1 - s.firstIndex, p.2.2))).Perm (s.entries vals) := by
  have hl := h.same_length
  have e1 : ((Z.map (·.1)).zip ((Z.map (·.2.1)).zip (gather (Z.map (·.2.2)) vals d))).map
      (fun p => (p.1 - s.firstIndex, p.2.1 - s.firstIndex, p.2.2)) =
      Z.map (fun t => (t.1 - s.firstIndex, t.2.1 - s.firstIndex, vals.getD t.2.2.toNat d)) := by
    apply List.ext_getElem
    · simp [gather]
    · intro i a b; simp [gather]
  have e2 : s.entries vals = (trips s).map
      (fun t => (t.1 - s.firstIndex, t.2.1 - s.firstIndex, vals.getD t.2.2.toNat d)) := by
    apply List.ext_getElem
    · simp [COO.entries, trips, hl, hv]
    · intro i a b
      have : i < vals.length := by simp [COO.entries] at a; omega
      simp [COO.entries, trips, List.getD, this]
  rw [e1, e2]
  exact hZ.map _

/-- C07. COO to CSC: for every well-formed COO matrix with a truthful order flag (duplicates are
excluded in builds with assertions only) and every supported request, the conversion yields a
well-formed CSC matrix of the same shape with a truthful order flag (the requested order if sorted
rows were requested), holding exactly the entries of the source, for every value array. -/
theorem coo_to_csc (std : StdLib) (hstd : std.Ok) (dbg : Bool) (IFrom ITo J : IntTy) (s : COO)
    (req : Option CscOrder) (hwf : s.Wf) (hord : s.OrderTrue)
    (hfrom : COO.Fits IFrom s) (hcols : IFrom.fits (s.cols + 1))
    (hto : FitsIdx ITo s.rows s.cols s.firstIndex) (hJ : J.fits s.rowIndices.length)
    (hreq : req = none ∨ req = some .sortedRows ∨
      (req = some .unsorted ∧ (dbg = true → s.order ≠ .sortedByColsAndRows)))
    (hnd : dbg = true → s.positions.Nodup) :
    ∃ cv, CooToCsc.construct std dbg IFrom ITo J s req = .ok cv ∧
      cv.sparsity.rows = s.rows ∧ cv.sparsity.cols = s.cols ∧
      cv.sparsity.symmetry = s.symmetry ∧ cv.sparsity.Wf ∧ cv.sparsity.OrderTrue ∧
      (req = some .sortedRows → cv.sparsity.order = .sortedRows) ∧
      cv.sparsity.innerIdx.length = s.rowIndices.length ∧
      cv.sparsity.positions.Perm s.positions ∧
      ∀ vals work : List T, vals.length = s.rowIndices.length →
        work.length = cv.permutation.length →
        ∃ o, cv.convertValues dbg vals work = .ok o ∧
          (o.values vals).length = vals.length ∧
          (cv.sparsity.entries (o.values vals)).Perm (s.entries vals) := by
  have hl := hwf.same_length
  obtain ⟨n, hn⟩ := Int.eq_ofNat_of_zero_le hwf.cols_nonneg
  have hne : s.order ≠ .invalid := by
    intro h; rw [COO.OrderTrue, h] at hord; exact hord
  obtain ⟨order, k, hch⟩ := chooseOrder_total (req := req) hne
  obtain ⟨hsc, hscr, hoi, hreqs⟩ := usedTrips_sorted hstd hwf hord hch
  have hZ := usedTrips_perm hstd s k
  set Z := usedTrips std s k with hZdef
  have hZlen : Z.length = s.rowIndices.length := by
    rw [hZ.length_eq]; simp [trips, hl]
  have hq : (Z.map (·.2.2)).Perm ((List.range s.rowIndices.length).map (fun k : Nat => (k : Int))) := by
    rw [← trips_perm hl]; exact hZ.map _
  have hR : ∀ r ∈ Z.map (·.1), 0 ≤ r - s.firstIndex ∧ r - s.firstIndex < s.rows := by
    intro r hr
    apply hwf.row_range
    rw [← trips_rows hl]
    exact (hZ.map _).mem_iff.1 hr
  have hC : ∀ c ∈ Z.map (·.2.1), 0 ≤ c - s.firstIndex ∧ c - s.firstIndex < (n : Int) := by
    intro c hc
    rw [← hn]
    apply hwf.col_range
    rw [← trips_cols hl]
    exact (hZ.map _).mem_iff.1 hc
  have hRC : (Z.map (·.1)).length = (Z.map (·.2.1)).length := by simp
  -- the triplets used by the code
  have htr : s.rowIndices.zip (s.colIndices.zip (iota J s.rowIndices.length)) = trips s := by
    rw [iota_eq hJ]; rfl
  have hst : CooToCsc.sortedTriplets std J s k = if k = .none then [] else Z := by
    unfold CooToCsc.sortedTriplets
    rw [htr]
    cases k <;> simp [hZdef, usedTrips]
  have hrow : (if (CooToCsc.sortedTriplets std J s k).isEmpty then s.rowIndices
      else (CooToCsc.sortedTriplets std J s k).map (·.1)) = Z.map (·.1) := by
    rw [hst]
    by_cases hk : k = .none
    · rw [if_pos hk]; subst hk; simp [hZdef, usedTrips, trips_rows hl]
    · rw [if_neg hk]
      by_cases hz : Z = []
      · rw [hz] at hZlen ⊢
        simp at hZlen ⊢
        exact List.length_eq_zero_iff.1 hZlen.symm
      · simp [hz]
  have hcol : (if (CooToCsc.sortedTriplets std J s k).isEmpty then s.colIndices
      else (CooToCsc.sortedTriplets std J s k).map (·.2.1)) = Z.map (·.2.1) := by
    rw [hst]
    by_cases hk : k = .none
    · rw [if_pos hk]; subst hk; simp [hZdef, usedTrips, trips_cols hl]
    · rw [if_neg hk]
      by_cases hz : Z = []
      · rw [hz] at hZlen ⊢
        simp at hZlen ⊢
        exact List.length_eq_zero_iff.1 (by omega)
      · simp [hz]
  have hperm : (if isSorted ((CooToCsc.sortedTriplets std J s k).map (·.2.2)) then []
      else (CooToCsc.sortedTriplets std J s k).map (·.2.2)) =
      if isSorted (Z.map (·.2.2)) then [] else Z.map (·.2.2) := by
    rw [hst]
    by_cases hk : k = .none
    · rw [if_pos hk]; subst hk
      have : isSorted (Z.map (·.2.2)) = true := by
        rw [isSorted_iff, hZdef, usedTrips, trips_perm hl]; exact iota_sorted _
      rw [this]; simp
    · rw [if_neg hk]
  have hassert : assertM dbg (.ok (decide (req = none ∨ req = some order))) = .ok () := by
    cases hdbg : dbg with
    | false => rfl
    | true =>
      apply assertM_dec
      rcases hreq with h | h | ⟨h, h'⟩
      · exact .inl h
      · right; rw [h, hreqs h]
      · right
        rw [h]
        have h' := h' hdbg
        rw [h] at hch
        unfold CooToCsc.chooseOrder at hch
        rw [if_neg (by simp)] at hch
        revert hch
        cases ho : s.order <;> intro hch <;> first | cases hch; done | (cases hch; first | rfl | exact absurd ho h')
  obtain ⟨it, hout⟩ := ccsOuter_ok (IFrom := IFrom) (J := J) (base := s.firstIndex) (n := n)
    hstd.lowerBound hsc (by rw [← hn]; exact hcols) hfrom.base_fit
    (by rw [← hn]; exact hfrom.cols_base_fit)
    (by rw [List.length_map, hZlen]; exact hJ)
    (fun x hx => by have := hC x hx; omega) (O := List.replicate (n + 1) 0) (by simp)
  have hrows := cvtRows_ok hto.base_fit hto.rows_base_fit hto.rows_fit hR
  have hccs : convertTripletsToCcs std dbg IFrom ITo J (Z.map (·.1)) (Z.map (·.2.1))
      (List.replicate s.rowIndices.length 0) (List.replicate (n + 1) 0) s.firstIndex =
      .ok ((Z.map (·.1)).map (· - s.firstIndex),
        (List.range (n + 1)).map (fun c : Nat => (cntLt (Z.map (·.2.1)) (c + s.firstIndex) : Int))) := by
    rw [convertTripletsToCcs, assertM_dec (by simp [hZlen]), res_ok_bind, hrows, res_ok_bind, hout]
    rfl
  have hwf' : (ccs s.rows n s.symmetry (Z.map (·.1)) (Z.map (·.2.1)) s.firstIndex order).Wf :=
    ccs_wf hwf.rows_nonneg hRC hR hC
  have hpos : (ccs s.rows n s.symmetry (Z.map (·.1)) (Z.map (·.2.1)) s.firstIndex
      order).positions.Perm s.positions := by
    rw [ccs_positions hwf.rows_nonneg hRC hsc hR hC, COO.positions]
    apply List.Perm.map
    have e1 : (Z.map (·.1)).zip (Z.map (·.2.1)) = Z.map (fun t => (t.1, t.2.1)) := by
      apply List.ext_getElem
      · simp
      · intro i a b; simp
    have e2 : s.rowIndices.zip s.colIndices = (trips s).map (fun t => (t.1, t.2.1)) := by
      apply List.ext_getElem
      · simp [trips, hl]
      · intro i a b; simp [trips]
    rw [e1, e2]; exact hZ.map _
  let cv : CscConv :=
    { innerIdx := (Z.map (·.1)).map (· - s.firstIndex),
      outerPtr := (List.range (n + 1)).map
        (fun c : Nat => (cntLt (Z.map (·.2.1)) (c + s.firstIndex) : Int)),
      permutation := if isSorted (Z.map (·.2.2)) then [] else Z.map (·.2.2),
      sparsity := ccs s.rows n s.symmetry (Z.map (·.1)) (Z.map (·.2.1)) s.firstIndex order }
  have hcvi : cv.sparsity.innerIdx.length = s.rowIndices.length := by
    simp [cv, ccs, hZlen]
  refine ⟨cv, ?_, rfl, hn.symm, rfl, hwf', ?_, fun h => hreqs h, hcvi, hpos, ?_⟩
  · have hcs : CooToCsc.convertSparsity std dbg IFrom ITo J s req = .ok cv := by
      unfold CooToCsc.convertSparsity
      rw [hch, res_ok_bind]
      simp only []
      rw [COO.nnz_ok hl, res_ok_bind, castSz_nat, res_ok_bind, hassert, res_ok_bind, hperm, hn,
        castSz_ok (by simp), res_ok_bind]
      rw [hrow, hcol, Int.toNat_natCast, hccs, res_ok_bind]
      rfl
    rw [CooToCsc.construct, hcs, res_ok_bind,
      assert_unique_csc hwf' (fun hd => (hpos.nodup_iff).2 (hnd hd))]
    rfl
  · have : cv.sparsity.order = order := rfl
    rw [CSC.OrderTrue, this]
    cases ho : order with
    | unsorted => trivial
    | sortedRows => exact ccs_rowsSorted hRC hsc (hscr ho)
    | invalid => exact absurd ho hoi
  · intro vals work hv hw
    obtain ⟨o, ho, hval⟩ := convertValues_gather dbg cv hwf' (Z.map (·.2.2))
      (by rw [hcvi]; exact hq) rfl vals work (by rw [hcvi]; exact hv) hw
    refine ⟨o, ho, ?_⟩
    by_cases hnil : vals = []
    · subst hnil
      have h0 : s.rowIndices.length = 0 := by simpa using hv.symm
      have hZ0 : Z = [] := List.length_eq_zero_iff.1 (by rw [hZlen, h0])
      have : o.values [] = ([] : List T) := by
        unfold Out.values
        by_cases hoo : o.loc = .fromValues
        · rw [hoo]
        · rw [CscConv.convertValues, CSC.nnz_ok hwf', res_ok_bind, castSz_nat, res_ok_bind,
            assertM_dec (show ([] : List T).length = cv.sparsity.innerIdx.length by
              rw [hcvi]; exact hv), res_ok_bind, assertM_dec hw, res_ok_bind,
            if_pos (show cv.permutation = [] by simp [cv, hZ0])] at ho
          cases ho
          simp at hoo
      rw [this]
      refine ⟨rfl, ?_⟩
      have hr0 : s.rowIndices = [] := List.length_eq_zero_iff.1 h0
      have : s.entries ([] : List T) = [] := by simp [COO.entries, hr0]
      rw [this, ccs_entries hwf.rows_nonneg hRC hsc hR hC (by simp [hZ0]), hZ0]
      simp
    · obtain ⟨d, vs, rfl⟩ := List.exists_cons_of_ne_nil hnil
      rw [hval d]
      refine ⟨by simp [gather, hZlen, ← hv], ?_⟩
      rw [ccs_entries hwf.rows_nonneg hRC hsc hR hC (by simp [gather])]
      exact gather_entries hwf hZ hv d

/-- The example of C02 meets the hypotheses of C07. -/
example : exampleCoo.OrderTrue ∧ IntTy.fits .int (exampleCoo.cols + 1) ∧
    IntTy.fits .long exampleCoo.rowIndices.length ∧ someStd.Ok ∧
    (CooToCsc.construct someStd true .int .int .long exampleCoo (some .sortedRows)).toOption.map
      (fun cv => (cv.innerIdx, cv.outerPtr, cv.permutation)) =
        some ([0, 1, 0], [0, 2, 2, 3], [2, 0, 1]) :=
  ⟨trivial, by decide, by decide, someStd_ok, by decide +kernel⟩

end Guanaqo.Sparsity
