import Verif.Sparsity.PropsCscCsc

/-!
# The functions of `sparse-ops.hpp` on their own, with values (C92, C93)

`/repo/src/include/guanaqo/linalg/sparse-ops.hpp` is a public header; the converters call it with index arrays
only (or with a permutation as third array). Here the third array has any type.
-/

namespace Guanaqo.Sparsity

variable {T : Type}

/-! ## Model -/

/-- The comparator of `sort_triplets`, sparse-ops.hpp:48-51. -/
def cmpColRowT (a b : Int × Int × T) : Bool :=
  if a.2.1 < b.2.1 then true else if b.2.1 < a.2.1 then false else decide (a.1 < b.1)

/-- The comparator of `sort_triplets_col`, sparse-ops.hpp:59-61. -/
def cmpColT (a b : Int × Int × T) : Bool := decide (a.2.1 < b.2.1)

/-- The comparator of `sort_rows_csc`, sparse-ops.hpp:72-74. -/
def cmpRowT (a b : Int × T) : Bool := decide (a.1 < b.1)

/-- `sort_triplets_impl(rows, cols, values)`, sparse-ops.hpp:38-41: sorts the zipped ranges in place; `views::zip`
ends with the shortest of them. -/
def sortTripletsImpl (std : StdLib) (cmp : Int × Int × T → Int × Int × T → Bool) (rows cols : List Int)
    (vals : List T) : List Int × List Int × List T :=
  let z := std.sort cmp (rows.zip (cols.zip vals))
  (z.map (·.1) ++ rows.drop z.length, z.map (·.2.1) ++ cols.drop z.length, z.map (·.2.2) ++ vals.drop z.length)

/-- `sort_triplets(rows, cols, values)`, sparse-ops.hpp:45-53. -/
def sortTriplets (std : StdLib) (rows cols : List Int) (vals : List T) : List Int × List Int × List T :=
  sortTripletsImpl std cmpColRowT rows cols vals

/-- `sort_triplets_col(rows, cols, values)`, sparse-ops.hpp:56-63. -/
def sortTripletsCol (std : StdLib) (rows cols : List Int) (vals : List T) : List Int × List Int × List T :=
  sortTripletsImpl std cmpColT rows cols vals

/-- One column of `sort_rows_csc(outer_ptr, inner, values)`, sparse-ops.hpp:76-83. -/
def sortColumnT (std : StdLib) (outer : List Int) (c : Nat) (p : List Int × List T) : Res (List Int × List T) := do
  let st ← rd outer c
  let en ← rd outer (c + 1)
  if 0 ≤ st ∧ st ≤ en ∧ en ≤ p.1.length ∧ en ≤ p.2.length then
    let z := std.sort cmpRowT
      (((p.1.take en.toNat).drop st.toNat).zip ((p.2.take en.toNat).drop st.toNat))
    .ok (p.1.take st.toNat ++ z.map (·.1) ++ p.1.drop en.toNat,
      p.2.take st.toNat ++ z.map (·.2) ++ p.2.drop en.toNat)
  else .error .ub

/-- `sort_rows_csc(outer_ptr, inner, values)`, sparse-ops.hpp:67-84. -/
def sortRowsCscT (std : StdLib) (outer inner : List Int) (vals : List T) : Res (List Int × List T) :=
  if outer.length = 0 then .ok (inner, vals)
  else (List.range (outer.length - 1)).foldlM (fun p c => sortColumnT std outer c p) (inner, vals)

/-- `std::ranges::adjacent_find` (standard library) with a comparison: whether there is no element that is equal to the next. -/
def noAdjacentBy {α : Type} (eq : α → α → Bool) : List α → Bool
  | a :: b :: l => if eq a b then false else noAdjacentBy eq (b :: l)
  | _ => true

/-- `check_uniqueness_triplets(rows, cols, values)`, sparse-ops.hpp:88-93: all components are compared, the values with their `==` (`eqv`, which for
floating-point types says that a NaN is not equal to itself and that 0 is equal to -0). -/
def checkUniquenessTripletsT (eqv : T → T → Bool) (rows cols : List Int) (vals : List T) : Bool :=
  noAdjacentBy (fun p q => decide (p.1 = q.1) && (decide (p.2.1 = q.2.1) && eqv p.2.2 q.2.2)) (rows.zip (cols.zip vals))

/-! ## C92: sorting -/

theorem cmpColT_strictWeak : StrictWeak (cmpColT (T := T)) :=
  ⟨fun a b h => by simp [cmpColT] at *; omega, fun a b c h => by simp [cmpColT] at *; omega⟩

theorem cmpRowT_strictWeak : StrictWeak (cmpRowT (T := T)) :=
  ⟨fun a b h => by simp [cmpRowT] at *; omega, fun a b c h => by simp [cmpRowT] at *; omega⟩

theorem cmpColRowT_iff (a b : Int × Int × T) :
    cmpColRowT a b = true ↔ (a.2.1 < b.2.1 ∨ (a.2.1 = b.2.1 ∧ a.1 < b.1)) := by
  unfold cmpColRowT
  split
  · simp; omega
  · split
    · simp; omega
    · simp; omega

theorem cmpColRowT_strictWeak : StrictWeak (cmpColRowT (T := T)) := by
  refine ⟨fun a b h => ?_, fun a b c h => ?_⟩
  · rw [Bool.eq_false_iff]
    intro h'
    rw [cmpColRowT_iff] at h h'; omega
  · rw [cmpColRowT_iff] at h
    rw [cmpColRowT_iff, cmpColRowT_iff]; omega

theorem zip3_unzip (z : List (Int × Int × T)) :
    (z.map (·.1)).zip ((z.map (·.2.1)).zip (z.map (·.2.2))) = z := by
  apply List.ext_getElem
  · simp
  · intro i a b; simp

theorem sortImpl_zip {std : StdLib} (hstd : std.Ok) {cmp : Int × Int × T → Int × Int × T → Bool}
    (hc : StrictWeak cmp) {rows cols : List Int} {vals : List T} (h1 : rows.length = cols.length)
    (h2 : vals.length = cols.length) :
    let o := sortTripletsImpl std cmp rows cols vals
    o.1.length = rows.length ∧ o.2.1.length = cols.length ∧ o.2.2.length = vals.length ∧
      o.1.zip (o.2.1.zip o.2.2) = std.sort cmp (rows.zip (cols.zip vals)) := by
  have hp : (std.sort cmp (rows.zip (cols.zip vals))).Perm (rows.zip (cols.zip vals)) := (hstd.sort cmp _ hc).1
  have hl := hp.length_eq
  have hl' : (rows.zip (cols.zip vals)).length = cols.length := by simp [h1, h2]
  unfold sortTripletsImpl
  simp only
  generalize std.sort cmp (rows.zip (cols.zip vals)) = z at *
  rw [List.drop_of_length_le (by omega), List.drop_of_length_le (by omega), List.drop_of_length_le (by omega),
    List.append_nil, List.append_nil, List.append_nil]
  refine ⟨by simp; omega, by simp; omega, by simp; omega, zip3_unzip z⟩

/-- What `sort_triplets` must do: the arrays keep their lengths, they hold the same (row, column, value) triplets,
and the triplets are in the given order. -/
def SortsTriplets (le : Int × Int → Int × Int → Prop) (rows cols : List Int) (vals : List T)
    (o : List Int × List Int × List T) : Prop :=
  o.1.length = rows.length ∧ o.2.1.length = cols.length ∧ o.2.2.length = vals.length ∧
  (o.1.zip (o.2.1.zip o.2.2)).Perm (rows.zip (cols.zip vals)) ∧
  (o.1.zip o.2.1).Pairwise le

theorem zip_cols (z : List (Int × Int × T)) {a b : List Int} {v : List T} (h : a.zip (b.zip v) = z)
    (h1 : a.length = b.length) (h2 : v.length = b.length) : a.zip b = z.map (fun t => (t.1, t.2.1)) := by
  subst h
  apply List.ext_getElem
  · simp [h1, h2]
  · intro i x y; simp

/-- C92: `sort_triplets` sorts by column, then by row. -/
theorem sort_triplets_correct (std : StdLib) (hstd : std.Ok) (rows cols : List Int) (vals : List T)
    (h1 : rows.length = cols.length) (h2 : vals.length = cols.length) :
    SortsTriplets colRowLe rows cols vals (sortTriplets std rows cols vals) := by
  obtain ⟨a, b, c, d⟩ := sortImpl_zip hstd cmpColRowT_strictWeak h1 h2
  refine ⟨a, b, c, ?_, ?_⟩
  · unfold sortTriplets; rw [d]; exact (hstd.sort _ _ cmpColRowT_strictWeak).1
  · unfold sortTriplets
    rw [zip_cols _ d (by omega) (by omega), List.pairwise_map]
    refine (hstd.sort _ _ cmpColRowT_strictWeak).2.imp ?_
    intro x y hxy
    have : ¬ cmpColRowT y x = true := by simp [hxy]
    rw [cmpColRowT_iff] at this
    unfold colRowLe
    simp only
    omega

/-- C92: `sort_triplets_col` sorts by column. -/
theorem sort_triplets_col_correct (std : StdLib) (hstd : std.Ok) (rows cols : List Int) (vals : List T)
    (h1 : rows.length = cols.length) (h2 : vals.length = cols.length) :
    SortsTriplets (fun p q => p.2 ≤ q.2) rows cols vals (sortTripletsCol std rows cols vals) := by
  obtain ⟨a, b, c, d⟩ := sortImpl_zip hstd cmpColT_strictWeak h1 h2
  refine ⟨a, b, c, ?_, ?_⟩
  · unfold sortTripletsCol; rw [d]; exact (hstd.sort _ _ cmpColT_strictWeak).1
  · unfold sortTripletsCol
    rw [zip_cols _ d (by omega) (by omega), List.pairwise_map]
    refine (hstd.sort _ _ cmpColT_strictWeak).2.imp ?_
    intro x y hxy
    simp [cmpColT] at hxy
    exact hxy

/-- What `sort_rows_csc` must do: in every column the same (row, value) pairs, in ascending order of the rows;
everything outside of the columns stays. -/
structure SortsRows (outer inner : List Int) (vals : List T) (o : List Int × List T) : Prop where
  inner_length : o.1.length = inner.length
  vals_length : o.2.length = vals.length
  columns : ∀ c : Nat, c + 1 < outer.length →
    (slice (o.1.zip o.2) (outer.getD c 0).toNat (outer.getD (c + 1) 0).toNat).Perm
      (slice (inner.zip vals) (outer.getD c 0).toNat (outer.getD (c + 1) 0).toNat) ∧
    (slice o.1 (outer.getD c 0).toNat (outer.getD (c + 1) 0).toNat).Pairwise (· ≤ ·)
  before : o.1.take (outer.getD 0 0).toNat = inner.take (outer.getD 0 0).toNat ∧
    o.2.take (outer.getD 0 0).toNat = vals.take (outer.getD 0 0).toNat
  after : o.1.drop (outer.getD (outer.length - 1) 0).toNat = inner.drop (outer.getD (outer.length - 1) 0).toNat ∧
    o.2.drop (outer.getD (outer.length - 1) 0).toNat = vals.drop (outer.getD (outer.length - 1) 0).toNat

/-- Column pointers that describe parts of arrays of length `n`. They need not start at zero. -/
structure OuterOk (outer : List Int) (n : Nat) : Prop where
  first : 0 ≤ outer.getD 0 0
  mono : ∀ c : Nat, c + 1 < outer.length → outer.getD c 0 ≤ outer.getD (c + 1) 0
  last : ∀ c : Nat, c < outer.length → outer.getD c 0 ≤ n

theorem OuterOk.le {outer : List Int} {n : Nat} (h : OuterOk outer n) {c : Nat} (hc : c < outer.length) {k : Nat}
    (hk : k ≤ c) : outer.getD k 0 ≤ outer.getD c 0 := by
  induction c with
  | zero => have : k = 0 := by omega
            subst this; exact Int.le_refl _
  | succ c ih =>
    by_cases hkc : k = c + 1
    · subst hkc; exact Int.le_refl _
    · have := ih (by omega) (by omega)
      have := h.mono c (by omega)
      omega

/-- Replacing the part `[st, en)` by another list of the same length. -/
theorem splice_facts {α : Type} {l m : List α} {st en : Nat} (h1 : st ≤ en) (h2 : en ≤ l.length)
    (hm : m.length = en - st) :
    (l.take st ++ m ++ l.drop en).length = l.length ∧
    (∀ a b, b ≤ st → slice (l.take st ++ m ++ l.drop en) a b = slice l a b) ∧
    slice (l.take st ++ m ++ l.drop en) st en = m ∧
    (∀ k, en ≤ k → (l.take st ++ m ++ l.drop en).drop k = l.drop k) ∧
    (∀ k, k ≤ st → (l.take st ++ m ++ l.drop en).take k = l.take k) := by
  have hl1 : (l.take st).length = st := by rw [List.length_take]; omega
  have htake : ∀ k, k ≤ st → (l.take st ++ m ++ l.drop en).take k = l.take k := by
    intro k hk
    rw [List.append_assoc, List.take_append_of_le_length (by omega), List.take_take, Nat.min_eq_left hk]
  refine ⟨by simp; omega, ?_, ?_, ?_, htake⟩
  · intro a b hb
    unfold slice
    rw [htake b hb]
  · unfold slice
    rw [List.take_append_of_le_length (by simp; omega), List.take_of_length_le (by simp; omega),
      List.drop_append, List.drop_of_length_le (by omega), hl1, Nat.sub_self, List.drop_zero, List.nil_append]
  · intro k hk
    rw [List.drop_append, List.drop_of_length_le (by simp; omega), List.nil_append, List.drop_drop]
    congr 1
    simp; omega

theorem slice_zip' {α β : Type} (l : List α) (m : List β) (a b : Nat) :
    slice (l.zip m) a b = (slice l a b).zip (slice m a b) := slice_zip ..

/-- C92: `sort_rows_csc`, for all column pointers that fit the arrays, and in particular for those of every
well-formed pattern. -/
theorem sort_rows_csc_correct (std : StdLib) (hstd : std.Ok) (outer inner : List Int) (vals : List T)
    (hv : vals.length = inner.length) (ho : OuterOk outer inner.length) :
    ∃ o, sortRowsCscT std outer inner vals = .ok o ∧ SortsRows outer inner vals o := by
  unfold sortRowsCscT
  by_cases h0 : outer.length = 0
  · rw [if_pos h0]
    exact ⟨_, rfl, rfl, rfl, fun c hc => by omega, ⟨rfl, rfl⟩, ⟨rfl, rfl⟩⟩
  rw [if_neg h0]
  have key : ∀ k, k < outer.length → ∃ o : List Int × List T,
      (List.range k).foldlM (fun p c => sortColumnT std outer c p) (inner, vals) = .ok o ∧
      o.1.length = inner.length ∧ o.2.length = vals.length ∧
      (∀ c : Nat, c < k →
        (slice (o.1.zip o.2) (outer.getD c 0).toNat (outer.getD (c + 1) 0).toNat).Perm
          (slice (inner.zip vals) (outer.getD c 0).toNat (outer.getD (c + 1) 0).toNat) ∧
        (slice o.1 (outer.getD c 0).toNat (outer.getD (c + 1) 0).toNat).Pairwise (· ≤ ·)) ∧
      (o.1.take (outer.getD 0 0).toNat = inner.take (outer.getD 0 0).toNat ∧
        o.2.take (outer.getD 0 0).toNat = vals.take (outer.getD 0 0).toNat) ∧
      (o.1.drop (outer.getD k 0).toNat = inner.drop (outer.getD k 0).toNat ∧
        o.2.drop (outer.getD k 0).toNat = vals.drop (outer.getD k 0).toNat) := by
    intro k
    induction k with
    | zero => intro _; exact ⟨_, rfl, rfl, rfl, fun c hc => by omega, ⟨rfl, rfl⟩, ⟨rfl, rfl⟩⟩
    | succ k ih =>
      intro hk
      obtain ⟨o, e, hl1, hl2, hcols, hbef, haft⟩ := ih (by omega)
      have hm := ho.mono k (by omega)
      have hf0 : outer.getD 0 0 ≤ outer.getD k 0 := ho.le (by omega) (Nat.zero_le _)
      have hf := ho.first
      have hlast := ho.last (k + 1) hk
      have hst : rd outer k = .ok (outer.getD k 0) := rd_getD 0 (by omega)
      have hen : rd outer (k + 1) = .ok (outer.getD (k + 1) 0) := rd_getD 0 hk
      rw [List.range_succ, foldlM_append', e, res_ok_bind, List.foldlM_cons, sortColumnT, hst, res_ok_bind, hen,
        res_ok_bind, if_pos (by refine ⟨by omega, hm, by omega, by omega⟩)]
      simp only [res_ok_bind, List.foldlM_nil, res_pure]
      obtain ⟨S, hS⟩ : ∃ S, (outer.getD k 0).toNat = S := ⟨_, rfl⟩
      obtain ⟨E, hE⟩ : ∃ E, (outer.getD (k + 1) 0).toNat = E := ⟨_, rfl⟩
      rw [hS] at haft
      simp only [hS, hE]
      have hSE : S ≤ E := by omega
      have hE1 : E ≤ o.1.length := by omega
      have hE2 : E ≤ o.2.length := by omega
      have hsort : (std.sort cmpRowT (((o.1.take E).drop S).zip ((o.2.take E).drop S))).Perm
          (((o.1.take E).drop S).zip ((o.2.take E).drop S)) ∧
          (std.sort cmpRowT (((o.1.take E).drop S).zip ((o.2.take E).drop S))).Pairwise
            (fun x y => cmpRowT y x = false) :=
        hstd.sort cmpRowT (((o.1.take E).drop S).zip ((o.2.take E).drop S)) cmpRowT_strictWeak
      generalize std.sort cmpRowT (((o.1.take E).drop S).zip ((o.2.take E).drop S)) = z at hsort
      have hzl : z.length = E - S := by
        rw [hsort.1.length_eq]; simp; omega
      obtain ⟨a1, a2, a3, a4, a5⟩ := splice_facts (l := o.1) (m := z.map (·.1)) hSE hE1 (by simpa using hzl)
      obtain ⟨b1, b2, b3, b4, b5⟩ := splice_facts (l := o.2) (m := z.map (·.2)) hSE hE2 (by simpa using hzl)
      refine ⟨_, rfl, by rw [a1, hl1], by rw [b1, hl2], ?_, ?_, ?_⟩
      · intro c hc
        by_cases hck : c = k
        · subst hck
          rw [hS, hE, slice_zip', a3, b3]
          have hzz : (z.map (·.1)).zip (z.map (·.2)) = z := by
            apply List.ext_getElem
            · simp
            · intro i x y; simp
          rw [hzz]
          -- the column is still the original one
          have hd1 : (o.1.take E).drop S = slice inner S E := by
            unfold slice; rw [List.drop_take, List.drop_take, haft.1]
          have hd2 : (o.2.take E).drop S = slice vals S E := by
            unfold slice; rw [List.drop_take, List.drop_take, haft.2]
          refine ⟨?_, ?_⟩
          · rw [slice_zip', ← hd1, ← hd2]; exact hsort.1
          · rw [List.pairwise_map]
            exact hsort.2.imp (fun h => by simp [cmpRowT] at h; exact h)
        · have hle : (outer.getD (c + 1) 0).toNat ≤ S := by
            have := ho.le (c := k) (by omega) (k := c + 1) (by omega)
            omega
          have := hcols c (by omega)
          rw [slice_zip'] at this
          rw [slice_zip', a2 _ _ hle, b2 _ _ hle]
          exact this
      · refine ⟨?_, ?_⟩
        · rw [a5 _ (by omega)]; exact hbef.1
        · rw [b5 _ (by omega)]; exact hbef.2
      · rw [a4 _ (Nat.le_refl _), b4 _ (Nat.le_refl _)]
        have d1 := congrArg (List.drop (E - S)) haft.1
        have d2 := congrArg (List.drop (E - S)) haft.2
        rw [List.drop_drop, List.drop_drop, show S + (E - S) = E by omega] at d1 d2
        exact ⟨d1, d2⟩
  obtain ⟨o, e, h1, h2, h3, h4, h5⟩ := key (outer.length - 1) (by omega)
  exact ⟨o, e, h1, h2, fun c hc => h3 c (by omega), h4, h5⟩

/-- C92: compressing triplets that are sorted by column, with any index base: the result is a well-formed pattern
with the same entries, whatever was in the output arrays. -/
theorem convert_triplets_to_ccs_correct (std : StdLib) (hstd : std.Ok) (dbg : Bool) (IFrom I J : IntTy) (s : COO)
    (hw : s.Wf) (hs : s.colIndices.Pairwise (· ≤ ·)) (hfrom : FitsIdx IFrom s.rows s.cols s.firstIndex)
    (hcols : IFrom.fits (s.cols + 1)) (hto : FitsIdx I s.rows s.cols s.firstIndex)
    (hJ : J.fits s.rowIndices.length) (inner outer : List Int) (hi : inner.length = s.rowIndices.length)
    (hout : (outer.length : Int) = s.cols + 1) (order : CscOrder) :
    ∃ o, convertTripletsToCcs std dbg IFrom I J s.rowIndices s.colIndices inner outer s.firstIndex = .ok o ∧
      let sp : CSC := ⟨s.rows, s.cols, s.symmetry, o.1, o.2, order⟩
      sp.Wf ∧ sp.positions = s.positions ∧
      ∀ vals : List T, vals.length = s.rowIndices.length → sp.entries vals = s.entries vals := by
  obtain ⟨n, hn⟩ : ∃ n : Nat, s.cols = (n : Int) := ⟨s.cols.toNat, by have := hw.cols_nonneg; omega⟩
  have hl := hw.same_length
  have hC : ∀ c ∈ s.colIndices, 0 ≤ c - s.firstIndex ∧ c - s.firstIndex < (n : Int) := by
    intro c hc; have := hw.col_range c hc; omega
  obtain ⟨it, ho⟩ := ccsOuter_ok (IFrom := IFrom) (J := J) (base := s.firstIndex) (n := n) hstd.lowerBound hs
    (by rw [← hn]; exact hcols) hfrom.base_fit (by rw [← hn]; exact hfrom.cols_base_fit) (by rw [← hl]; exact hJ)
    (fun x hx => by have := hC x hx; omega) (O := outer) (by omega)
  have hrows := cvtRows_ok hto.base_fit hto.rows_base_fit hto.rows_fit hw.row_range
  refine ⟨(s.rowIndices.map (· - s.firstIndex),
    (List.range (n + 1)).map (fun c : Nat => (cntLt s.colIndices (c + s.firstIndex) : Int))), ?_, ?_⟩
  · rw [convertTripletsToCcs, assertM_dec (by omega), res_ok_bind, hrows, res_ok_bind, ho]
    rfl
  · simp only
    have hsp : (⟨s.rows, s.cols, s.symmetry, s.rowIndices.map (· - s.firstIndex),
        (List.range (n + 1)).map (fun c : Nat => (cntLt s.colIndices (c + s.firstIndex) : Int)), order⟩ : CSC) =
        ccs s.rows n s.symmetry s.rowIndices s.colIndices s.firstIndex order := by
      unfold ccs; rw [hn]
    rw [hsp]
    refine ⟨ccs_wf hw.rows_nonneg hl hw.row_range hC, ?_, ?_⟩
    · rw [ccs_positions hw.rows_nonneg hl hs hw.row_range hC]; rfl
    · intro vals hv
      rw [ccs_entries hw.rows_nonneg hl hs hw.row_range hC hv]; rfl

/-- The column pointers of a well-formed pattern are fine. -/
theorem outerOk_of_wf {s : CSC} (h : s.Wf) : OuterOk s.outerPtr s.innerIdx.length where
  first := Int.le_of_eq h.outer_first.symm
  mono := fun c hc => h.outer_mono c (by have := h.outer_length; omega)
  last := fun c hc => by
    have h1 := h.outer_length
    have h2 := h.outer_start (c := c) (by omega)
    have h3 := h.start_le (c := c) (by omega)
    omega

/-- An example, and column pointers that do not start at zero. -/
example : sortTriplets someStd [1, 0, 0] [1, 1, 0] ['a', 'b', 'c'] = ([0, 0, 1], [0, 1, 1], ['c', 'b', 'a']) ∧
    sortRowsCscT someStd [1, 3] [5, 2, 1, 0] ['a', 'b', 'c', 'd'] = .ok ([5, 1, 2, 0], ['a', 'c', 'b', 'd']) ∧
    OuterOk [1, 3] 4 := by
  refine ⟨by decide, by rfl, by decide, ?_, ?_⟩
  · intro c hc
    have : c = 0 := by simp at hc; omega
    subst this; decide
  · intro c hc
    have : c = 0 ∨ c = 1 := by simp at hc; omega
    rcases this with rfl | rfl <;> decide

/-! ## C93: uniqueness with values -/

/-- C93, full statement: on arrays sorted by column and row, the answer is whether no position occurs twice. -/
def UniquenessWithValues (T : Type) (eqv : T → T → Bool) : Prop :=
  ∀ (rows cols : List Int) (vals : List T), rows.length = cols.length → vals.length = cols.length →
    (rows.zip cols).Pairwise colRowLe →
    (checkUniquenessTripletsT eqv rows cols vals = true ↔ (rows.zip cols).Nodup)

/-- The full statement is false: a position that occurs twice with different values is not found. -/
theorem not_uniquenessWithValues (T : Type) (eqv : T → T → Bool) (a b : T) (hab : eqv a b = false) : ¬ UniquenessWithValues T eqv := by
  intro h
  have := (h [0, 0] [0, 0] [a, b] rfl rfl (by simp [colRowLe])).1 (by
    simp [checkUniquenessTripletsT, noAdjacentBy, hab])
  revert this
  decide

theorem noAdjacentBy_iff {α : Type} (eq : α → α → Bool) (l : List α) : noAdjacentBy eq l = true ↔
    ∀ i (hi : i + 1 < l.length), eq l[i] l[i + 1] = false := by
  induction l with
  | nil => simp [noAdjacentBy]
  | cons a l ih =>
    cases l with
    | nil => simp [noAdjacentBy]
    | cons b l =>
      unfold noAdjacentBy
      by_cases hab : eq a b = true
      · rw [if_pos hab]
        simp only [Bool.false_eq_true, false_iff]
        intro h
        have := h 0 (by simp)
        simp only [List.getElem_cons_zero, List.getElem_cons_succ] at this
        rw [hab] at this
        cases this
      · rw [if_neg hab, ih]
        constructor
        · intro h i hi
          cases i with
          | zero => simpa using hab
          | succ i => exact h i (by simpa using hi)
        · intro h i hi
          exact h (i + 1) (by simpa using hi)

/-- C93, the direction that holds: without duplicate positions the answer is yes; and a yes excludes only
duplicates with equal values next to each other. -/
theorem uniqueness_with_values_partial (eqv : T → T → Bool) (rows cols : List Int) (vals : List T)
    (h1 : rows.length = cols.length) (h2 : vals.length = cols.length) :
    ((rows.zip cols).Nodup → checkUniquenessTripletsT eqv rows cols vals = true) ∧
    (checkUniquenessTripletsT eqv rows cols vals = true ↔
      ∀ i (hi : i + 1 < rows.length),
        ¬ (rows[i] = rows[i + 1] ∧ cols[i]'(by omega) = cols[i + 1]'(by omega) ∧ eqv (vals[i]'(by omega)) (vals[i + 1]'(by omega)) = true)) := by
  have key : checkUniquenessTripletsT eqv rows cols vals = true ↔ ∀ i (hi : i + 1 < rows.length),
        ¬ (rows[i] = rows[i + 1] ∧ cols[i]'(by omega) = cols[i + 1]'(by omega) ∧ eqv (vals[i]'(by omega)) (vals[i + 1]'(by omega)) = true) := by
    unfold checkUniquenessTripletsT
    rw [noAdjacentBy_iff]
    constructor
    · intro h i hi
      have := h i (by simp [h1, h2]; omega)
      simpa using this
    · intro h i hi
      have hi' : i + 1 < rows.length := by simp [h1, h2] at hi; omega
      have := h i hi'
      simpa using this
  refine ⟨fun hn => key.2 fun i hi h => ?_, key⟩
  have hl : (rows.zip cols).length = rows.length := by simp [h1]
  have := (List.Nodup.getElem_inj_iff hn (i := i) (j := i + 1) (hi := by omega) (hj := by omega)).1 (by simp [h.1, h.2.1])
  omega

/-- C93, exactly: the answer is right if and only if no position occurs twice or some position occurs twice in a row with equal
values. -/
theorem uniqueness_with_values_iff (eqv : T → T → Bool) (rows cols : List Int) (vals : List T)
    (h1 : rows.length = cols.length) (h2 : vals.length = cols.length) :
    ((checkUniquenessTripletsT eqv rows cols vals = true ↔ (rows.zip cols).Nodup) ↔
      (rows.zip cols).Nodup ∨ ∃ i, ∃ hi : i + 1 < rows.length,
        rows[i] = rows[i + 1] ∧ cols[i]'(by omega) = cols[i + 1]'(by omega) ∧ eqv (vals[i]'(by omega)) (vals[i + 1]'(by omega)) = true) := by
  obtain ⟨p1, p2⟩ := uniqueness_with_values_partial eqv rows cols vals h1 h2
  constructor
  · intro h
    by_cases hn : (rows.zip cols).Nodup
    · exact Or.inl hn
    · right
      have : ¬ checkUniquenessTripletsT eqv rows cols vals = true := fun e => hn (h.1 e)
      rw [p2] at this
      push Not at this
      exact this
  · rintro (hn | ⟨i, hi, hd⟩)
    · exact ⟨fun _ => hn, p1⟩
    · exact ⟨fun h => absurd hd (p2.1 h i hi), p1⟩

example : checkUniquenessTripletsT (· == ·) [0, 1, 0] [0, 0, 1] [7, 7, 7] = true ∧
    checkUniquenessTripletsT (· == ·) [0, 0] [0, 0] [7, 7] = false ∧ checkUniquenessTripletsT (· == ·) [0, 0] [0, 0] [7, 8] = true := by
  decide

end Guanaqo.Sparsity
