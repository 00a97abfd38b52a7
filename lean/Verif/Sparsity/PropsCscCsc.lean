import Verif.Sparsity.PropsCsc
import Mathlib.Data.List.Perm.Basic

/-!
# C08 (CSC to CSC)
-/

namespace Guanaqo.Sparsity

variable {T : Type}

theorem cmpRow_strictWeak : StrictWeak cmpRow :=
  ⟨fun a b h => by simp [cmpRow] at *; omega, fun a b c h => by simp [cmpRow] at *; omega⟩

/-- The inner array with every column sorted. -/
def sortedZ (std : StdLib) (o : Nat → Nat) (n : Nat) (z : List (Int × Int)) : List (Int × Int) :=
  (List.range n).flatMap (fun c => std.sort cmpRow (slice z (o c) (o (c + 1))))

section
variable {std : StdLib} (hstd : std.Ok) {o : Nat → Nat} {n : Nat} {z : List (Int × Int)}
  (h0 : o 0 = 0) (hm : ∀ c, c < n → o c ≤ o (c + 1))

theorem sort_len {std : StdLib} (hstd : std.Ok) (l : List (Int × Int)) :
    (std.sort cmpRow l).length = l.length :=
  (hstd.sort cmpRow l cmpRow_strictWeak).1.length_eq

include hstd h0 hm in
theorem sortedZ_length (hz : o n ≤ z.length) : (sortedZ std o n z).length = o n := by
  induction n with
  | zero => simp [sortedZ, h0]
  | succ n ih =>
    have hk := hm n (by omega)
    have := ih (fun c hc => hm c (by omega)) (by omega)
    rw [sortedZ, List.range_succ, List.flatMap_append, List.length_append]
    change (sortedZ std o n z).length + _ = _
    simp [this, sort_len hstd, slice_length hz]
    omega

include hstd h0 hm in
theorem sortedZ_slice (hz : o n ≤ z.length) {c : Nat} (hc : c < n) :
    slice (sortedZ std o n z) (o c) (o (c + 1)) = std.sort cmpRow (slice z (o c) (o (c + 1))) := by
  have hoff : ∀ k, k ≤ n → off (fun c => o (c + 1) - o c) k = o k := by
    intro k
    induction k with
    | zero => intro _; simp [off, h0]
    | succ k ih =>
      intro hk
      rw [off, ih (by omega)]
      have := hm k (by omega)
      omega
  have h := slice_flatMap (hi := fun c => o (c + 1) - o c)
    (f := fun c => std.sort cmpRow (slice z (o c) (o (c + 1)))) (n := n)
    (fun c hc => by
      have := mono_of_step hm n (le_refl _) (c + 1) (by omega)
      rw [sort_len hstd, slice_length (by omega)]) hc
  rw [hoff c (by omega), hoff (c + 1) (by omega)] at h
  exact h

end

/-- The loop of `sort_rows_csc`. -/
theorem sortLoop {std : StdLib} (hstd : std.Ok) {s : CSC} (h : s.Wf) {z : List (Int × Int)}
    (hz : z.length = s.innerIdx.length) :
    (List.range (s.outerPtr.length - 1)).foldlM (fun z c => sortColumn std s.outerPtr c z) z =
      .ok (sortedZ std s.start s.cols.toNat z) := by
  have hlen := h.outer_length
  have hc0 := h.cols_nonneg
  have hn : s.outerPtr.length - 1 = s.cols.toNat := by omega
  rw [hn]
  have key : ∀ k, k ≤ s.cols.toNat →
      (List.range k).foldlM (fun z c => sortColumn std s.outerPtr c z) z =
        .ok (sortedZ std s.start k z ++ z.drop (s.start k)) := by
    intro k
    induction k with
    | zero => intro _; simp [sortedZ, h.start_zero]
    | succ k ih =>
      intro hk
      have hk1 := h.start_mono k (by omega)
      have hk2 := h.start_le (c := k + 1) (by omega)
      have hsl := sortedZ_length (z := z) hstd h.start_zero
        (fun c hc => h.start_mono c (by omega)) (n := k) (by omega)
      rw [List.range_succ, foldlM_append', ih (by omega), res_ok_bind, List.foldlM_cons, sortColumn,
        rd_getD 0 (by omega), res_ok_bind, rd_getD 0 (by omega), res_ok_bind,
        h.outer_start (by omega), h.outer_start (by omega),
        if_pos (by
          refine ⟨by omega, by omega, ?_⟩
          rw [List.length_append, List.length_drop, hsl]; omega)]
      simp only [List.foldlM_nil, res_ok_bind, res_pure, Int.toNat_natCast]
      congr 1
      have e1 : (sortedZ std s.start k z ++ z.drop (s.start k)).take (s.start k) =
          sortedZ std s.start k z := by
        rw [List.take_append_of_le_length (by omega), List.take_of_length_le (by omega)]
      have e2 : ((sortedZ std s.start k z ++ z.drop (s.start k)).take (s.start (k + 1))).drop
          (s.start k) = slice z (s.start k) (s.start (k + 1)) := by
        rw [List.take_append, List.drop_append, List.take_of_length_le (by omega), hsl,
          List.drop_of_length_le (by omega), Nat.sub_self, List.drop_zero, List.nil_append, slice,
          List.drop_take]
      have e3 : (sortedZ std s.start k z ++ z.drop (s.start k)).drop (s.start (k + 1)) =
          z.drop (s.start (k + 1)) := by
        rw [List.drop_append, List.drop_of_length_le (by omega), hsl, List.drop_drop, List.nil_append]
        congr 1; omega
      rw [e1, e2, e3]
      rw [show sortedZ std s.start (k + 1) z = sortedZ std s.start k z ++
        std.sort cmpRow (slice z (s.start k) (s.start (k + 1))) by
          simp [sortedZ, List.range_succ, List.flatMap_append]]
  rw [key _ (le_refl _), h.start_last, List.drop_of_length_le (by omega), List.append_nil]

/-- The types can hold the pattern. -/
structure FitsCsc (I J : IntTy) (s : CSC) : Prop where
  rows_fit : I.fits s.rows
  nnz_fit : J.fits s.innerIdx.length

theorem cast_inner {I J : IntTy} {s : CSC} (h : s.Wf) (hf : FitsCsc I J s) :
    s.innerIdx.map I.cast = s.innerIdx := by
  conv_rhs => rw [← List.map_id s.innerIdx]
  apply List.map_congr_left
  intro r hr
  have := h.inner_range r hr
  exact IntTy.cast_eq (IntTy.fits_between I.fits_zero hf.rows_fit (by omega) (by omega))

theorem cast_outer {I J : IntTy} {s : CSC} (h : s.Wf) (hf : FitsCsc I J s) :
    s.outerPtr.map J.cast = s.outerPtr := by
  conv_rhs => rw [← List.map_id s.outerPtr]
  apply List.map_congr_left
  intro r hr
  obtain ⟨c, hc, rfl⟩ := List.getElem_of_mem hr
  have hlen := h.outer_length
  have h1 := h.outer_start (c := c) (by omega)
  have h2 := h.start_le (c := c) (by omega)
  have h3 : s.outerPtr[c] = (s.start c : Int) := by rw [← h1]; simp [List.getD, hc]
  rw [h3]
  exact IntTy.cast_eq (IntTy.fits_between J.fits_zero hf.nnz_fit (by omega) (by omega))

/-- Replacing the inner indices of every column by a permutation of them. -/
theorem csc_permuted_wf {s : CSC} (h : s.Wf) {inner : List Int} {order : CscOrder}
    (hp : inner.Perm s.innerIdx) :
    ({ s with innerIdx := inner, order := order } : CSC).Wf :=
  ⟨h.rows_nonneg, h.cols_nonneg, h.outer_length, h.outer_first, h.outer_mono,
    by rw [hp.length_eq]; exact h.outer_last, fun r hr => h.inner_range r (hp.mem_iff.1 hr)⟩

/-- C08. CSC to CSC: for every well-formed CSC matrix with a truthful order flag and every
request, the conversion yields a well-formed CSC matrix of the same shape with a truthful flag (the
requested order if sorted rows were requested), holding exactly the entries of the source; without
sorting it is the same pattern. -/
theorem csc_to_csc (std : StdLib) (hstd : std.Ok) (dbg : Bool) (IFrom JFrom ITo JTo : IntTy)
    (s : CSC) (req : Option CscOrder) (hwf : s.Wf) (hord : s.OrderTrue)
    (hto : FitsCsc ITo JTo s) (hnd : dbg = true → s.positions.Nodup) :
    ∃ cv, CscToCsc.construct std dbg IFrom JFrom ITo JTo s req = .ok cv ∧
      cv.sparsity.rows = s.rows ∧ cv.sparsity.cols = s.cols ∧
      cv.sparsity.symmetry = s.symmetry ∧ cv.sparsity.Wf ∧ cv.sparsity.OrderTrue ∧
      (req = some .sortedRows → cv.sparsity.order = .sortedRows) ∧
      (req ≠ some .sortedRows → cv.sparsity = s ∧ cv.permutation = []) ∧
      cv.sparsity.innerIdx.length = s.innerIdx.length ∧
      cv.sparsity.positions.Perm s.positions ∧
      ∀ vals work : List T, vals.length = s.innerIdx.length →
        work.length = cv.permutation.length →
        ∃ o, cv.convertValues dbg vals work = .ok o ∧
          (o.values vals).length = vals.length ∧
          (cv.sparsity.entries (o.values vals)).Perm (s.entries vals) := by
  have hne : s.order ≠ .invalid := by
    intro h; rw [CSC.OrderTrue, h] at hord; exact hord
  have hci := cast_inner hwf hto
  have hco := cast_outer hwf hto
  by_cases hsort : req = some .sortedRows ∧ s.order = .unsorted
  · -- sorting
    obtain ⟨hreq, hun⟩ := hsort
    have hch : CscToCsc.chooseOrder req s.order = .ok (.sortedRows, true) := by
      simp [CscToCsc.chooseOrder, hreq, hun]
    set z := s.innerIdx.zip ((List.range s.innerIdx.length).map (fun k : Nat => (k : Int))) with hzdef
    have hzl : z.length = s.innerIdx.length := by simp [hzdef]
    set Z := sortedZ std s.start s.cols.toNat z with hZdef
    have hsl : s.start s.cols.toNat ≤ z.length := by rw [hwf.start_last, hzl]
    have hZl : Z.length = s.innerIdx.length := by
      rw [hZdef, sortedZ_length hstd hwf.start_zero hwf.start_mono hsl, hwf.start_last]
    have hZs : ∀ c, c < s.cols.toNat → slice Z (s.start c) (s.start (c + 1)) =
        std.sort cmpRow (slice z (s.start c) (s.start (c + 1))) := fun c hc =>
      sortedZ_slice hstd hwf.start_zero hwf.start_mono hsl hc
    have hzt : z = (List.range s.cols.toNat).flatMap
        (fun c => slice z (s.start c) (s.start (c + 1))) := by
      have := tile hwf.start_zero hwf.start_mono z hsl (fun _ x => x)
      simp only [List.map_id'] at this
      rw [this]
      have e : z.take (s.start s.cols.toNat) = z := by
        rw [hwf.start_last, List.take_of_length_le (by omega)]
      rw [e]
      have hcl := hwf.colOf_length
      exact (List.map_snd_zip (l₁ := colList s.start s.cols.toNat) (l₂ := z)
        (by change z.length ≤ s.colOf.length; omega)).symm
    have hZz : Z.Perm z := by
      conv_rhs => rw [hzt]
      exact List.Perm.flatMap_left _ (fun c _ => (hstd.sort cmpRow _ cmpRow_strictWeak).1)
    have hz1 : z.map (·.1) = s.innerIdx := by rw [hzdef, List.map_fst_zip (by simp)]
    have hz2 : z.map (·.2) = (List.range s.innerIdx.length).map (fun k : Nat => (k : Int)) := by
      rw [hzdef, List.map_snd_zip (by simp)]
    have hinner : (Z.map (·.1)).Perm s.innerIdx := by rw [← hz1]; exact hZz.map _
    have hq : (Z.map (·.2)).Perm ((List.range s.innerIdx.length).map (fun k : Nat => (k : Int))) := by
      rw [← hz2]; exact hZz.map _
    let sp : CSC := { s with innerIdx := Z.map (·.1), order := .sortedRows }
    have hwf' : sp.Wf := csc_permuted_wf hwf hinner
    have hinl : sp.innerIdx.length = s.innerIdx.length := hinner.length_eq
    have hstart : ∀ c, sp.start c = s.start c := fun _ => rfl
    have hpos : sp.positions.Perm s.positions := by
      rw [CSC.positions, CSC.positions]
      apply List.Perm.flatMap_left
      intro c hc
      have hc := List.mem_range.1 hc
      apply List.Perm.map
      rw [hstart, hstart, slice_map, hZs c hc, ← hz1, slice_map]
      exact (hstd.sort cmpRow _ cmpRow_strictWeak).1.map _
    have hsorted : sp.RowsSorted := by
      intro c hc
      have hc : c < s.cols.toNat := by
        have : (c : Int) < s.cols := hc
        omega
      rw [hstart, hstart, slice_map, hZs c hc, List.pairwise_map]
      exact (hstd.sort cmpRow _ cmpRow_strictWeak).2.imp (fun h => by simp [cmpRow] at h; exact h)
    let cv : CscConv :=
      { innerIdx := Z.map (·.1), outerPtr := s.outerPtr,
        permutation := if isSorted (Z.map (·.2)) then [] else Z.map (·.2),
        sparsity := sp }
    have houter : s.outerPtr ≠ [] := by
      intro h0
      have := hwf.outer_length
      have := hwf.cols_nonneg
      rw [h0] at *
      simp at *; omega
    refine ⟨cv, ?_, rfl, rfl, rfl, hwf', hsorted, fun _ => rfl, fun h => absurd hreq h, hinl, hpos,
      ?_⟩
    · have hcs : CscToCsc.convertSparsity std IFrom JFrom ITo JTo s req = .ok cv := by
        rw [CscToCsc.convertSparsity, hch, res_ok_bind]
        simp only [CscToCsc.convertIndices, if_true, hci, hco, iota_eq hto.nnz_fit, sortRowsCsc]
        rw [sortLoop hstd hwf hzl]
        simp only [res_ok_bind]
        have e1 : (if IFrom = ITo ∧ (Z.map (·.1)).isEmpty = true then s.innerIdx else Z.map (·.1)) =
            Z.map (·.1) := by
          split
          · rename_i h
            have hZ0 : Z.map (·.1) = [] := List.isEmpty_iff.1 h.2
            rw [hZ0] at hinner ⊢
            exact hinner.symm.eq_nil
          · rfl
        have e2 : (if JFrom = JTo ∧ s.outerPtr.isEmpty = true then s.outerPtr else s.outerPtr) =
            s.outerPtr := by split <;> rfl
        rw [e1, e2]
      rw [CscToCsc.construct, hcs, res_ok_bind,
        assert_unique_csc hwf' (fun hd => (hpos.nodup_iff).2 (hnd hd))]
      rfl
    · intro vals work hv hw
      obtain ⟨o, ho, hval⟩ := convertValues_gather dbg cv hwf' (Z.map (·.2))
        (by rw [hinl]; exact hq) rfl vals work (by rw [hinl]; exact hv) hw
      refine ⟨o, ho, ?_⟩
      have hgen : ∀ V : List T, V.length = s.innerIdx.length →
          (∃ d, V = gather (Z.map (·.2)) vals d) → (sp.entries V).Perm (s.entries vals) := by
        rintro V hV ⟨d, rfl⟩
        rw [CSC.entries, CSC.entries]
        apply List.Perm.flatMap_left
        intro c hc
        have hc := List.mem_range.1 hc
        have e1 : sp.innerIdx.zip (gather (Z.map (·.2)) vals d) =
            Z.map (fun t => (t.1, vals.getD t.2.toNat d)) := by
          apply List.ext_getElem
          · simp [sp, gather]
          · intro i a b; simp [sp, gather]
        have e2 : s.innerIdx.zip vals = z.map (fun t => (t.1, vals.getD t.2.toNat d)) := by
          apply List.ext_getElem
          · simp [hzdef, hv]
          · intro i a b
            have : i < vals.length := by simp at a; omega
            simp [hzdef, List.getD, this]
        rw [e1, e2, hstart, hstart, slice_map, slice_map, hZs c hc, List.map_map, List.map_map]
        exact (hstd.sort cmpRow _ cmpRow_strictWeak).1.map _
      by_cases hnil : vals = []
      · subst hnil
        have h0 : s.innerIdx.length = 0 := by simpa using hv.symm
        have hZ0 : Z = [] := List.length_eq_zero_iff.1 (by rw [hZl, h0])
        have hval0 : o.values [] = ([] : List T) := by
          rw [CscConv.convertValues, CSC.nnz_ok hwf', res_ok_bind, castSz_nat, res_ok_bind,
            assertM_dec (show ([] : List T).length = cv.sparsity.innerIdx.length by
              rw [show cv.sparsity.innerIdx.length = s.innerIdx.length from hinl]; exact hv),
            res_ok_bind, assertM_dec hw, res_ok_bind,
            if_pos (show cv.permutation = [] by simp [cv, hZ0])] at ho
          cases ho
          rfl
        rw [hval0]
        refine ⟨rfl, ?_⟩
        have hi0 : s.innerIdx = [] := List.length_eq_zero_iff.1 h0
        have e1 : s.entries ([] : List T) = [] := by simp [CSC.entries, hi0, slice]
        have e2 : cv.sparsity.entries ([] : List T) = [] := by simp [CSC.entries, slice]
        rw [e1, e2]
      · obtain ⟨d, vs, rfl⟩ := List.exists_cons_of_ne_nil hnil
        have hl : (gather (Z.map (·.2)) (d :: vs) d).length = s.innerIdx.length := by
          simp [gather, hZl]
        rw [hval d]
        exact ⟨by rw [hl, hv], hgen _ hl ⟨d, rfl⟩⟩
  · -- no sorting
    have hch : CscToCsc.chooseOrder req s.order = .ok (s.order, false) := by
      unfold CscToCsc.chooseOrder
      split
      · rename_i h
        have : s.order = .sortedRows := by
          cases ho : s.order with
          | unsorted => exact absurd ⟨h, ho⟩ hsort
          | sortedRows => rfl
          | invalid => exact absurd ho hne
        rw [this]
      · rfl
    have hreqo : req = some .sortedRows → s.order = .sortedRows := by
      intro h
      cases ho : s.order with
      | unsorted => exact absurd ⟨h, ho⟩ hsort
      | sortedRows => rfl
      | invalid => exact absurd ho hne
    let cv : CscConv :=
      { innerIdx := if IFrom = ITo then [] else s.innerIdx,
        outerPtr := if JFrom = JTo then [] else s.outerPtr,
        permutation := [], sparsity := s }
    refine ⟨cv, ?_, rfl, rfl, rfl, hwf, hord, hreqo, fun _ => ⟨rfl, rfl⟩, rfl, List.Perm.refl _, ?_⟩
    · have hcs : CscToCsc.convertSparsity std IFrom JFrom ITo JTo s req = .ok cv := by
        rw [CscToCsc.convertSparsity, hch, res_ok_bind]
        simp only [CscToCsc.convertIndices, Bool.false_eq_true, if_false, hci, hco, res_ok_bind,
          isSorted, if_true, cv]
        congr 2
        have e1 : (if IFrom = ITo ∧ (if IFrom = ITo then ([] : List Int) else s.innerIdx).isEmpty = true
            then s.innerIdx else if IFrom = ITo then [] else s.innerIdx) = s.innerIdx := by
          by_cases h : IFrom = ITo <;> simp [h]
        have e2 : (if JFrom = JTo ∧ (if JFrom = JTo then ([] : List Int) else s.outerPtr).isEmpty = true
            then s.outerPtr else if JFrom = JTo then [] else s.outerPtr) = s.outerPtr := by
          by_cases h : JFrom = JTo <;> simp [h]
        rw [e1, e2]
      rw [CscToCsc.construct, hcs, res_ok_bind, assert_unique_csc hwf hnd]
      rfl
    · intro vals work hv hw
      refine ⟨⟨.fromValues, work⟩, ?_, rfl, List.Perm.refl _⟩
      rw [CscConv.convertValues, CSC.nnz_ok hwf, res_ok_bind, castSz_nat, res_ok_bind,
        assertM_dec (show vals.length = s.innerIdx.length from hv), res_ok_bind,
        assertM_dec hw, res_ok_bind, if_pos (show cv.permutation = [] from rfl)]

/-- A column that needs sorting meets the hypotheses, and is sorted. -/
example : exampleCsc.OrderTrue ∧ FitsCsc .long .int exampleCsc ∧
    (CscToCsc.construct someStd true .int .int .long .int exampleCsc
      (some .sortedRows)).toOption.map
      (fun cv => (cv.sparsity.innerIdx, cv.sparsity.outerPtr, cv.permutation)) =
        some ([0, 0, 2], [0, 1, 1, 3], [0, 2, 1]) :=
  ⟨trivial, ⟨by decide, by decide⟩, by decide +kernel⟩

end Guanaqo.Sparsity
