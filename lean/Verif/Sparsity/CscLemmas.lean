import Verif.Sparsity.PropsCoo

/-!
# Helper lemmas for the conversions to CSC
-/

namespace Guanaqo.Sparsity

variable {T : Type}

/-! ## Counting in sorted lists -/

/-- Number of elements less than `v`. -/
def cntLt (C : List Int) (v : Int) : Nat := C.countP (fun x => decide (x < v))

theorem cntLt_zero {C : List Int} {v : Int} (h : ∀ x ∈ C, v ≤ x) : cntLt C v = 0 := by
  rw [cntLt, List.countP_eq_zero]
  intro x hx
  have := h x hx
  simp; omega

theorem cntLt_all {C : List Int} {v : Int} (h : ∀ x ∈ C, x < v) : cntLt C v = C.length := by
  rw [cntLt, List.countP_eq_length]
  intro x hx
  have := h x hx
  simp; omega

theorem cntLt_mono (C : List Int) {u v : Int} (h : u ≤ v) : cntLt C u ≤ cntLt C v := by
  apply List.countP_mono_left
  intro x _ hx
  simp at hx ⊢; omega

theorem cntLt_le (C : List Int) (v : Int) : cntLt C v ≤ C.length := List.countP_le_length

theorem sorted_take {C : List Int} (hs : C.Pairwise (· ≤ ·)) (v : Int) :
    (∀ x ∈ C.take (cntLt C v), x < v) ∧ (∀ x ∈ C.drop (cntLt C v), v ≤ x) := by
  induction C with
  | nil => simp
  | cons a C ih =>
    have hs' := List.pairwise_cons.1 hs
    by_cases ha : a < v
    · have : cntLt (a :: C) v = cntLt C v + 1 := by
        simp [cntLt, ha]
      rw [this]
      obtain ⟨h1, h2⟩ := ih hs'.2
      refine ⟨?_, by simpa using h2⟩
      intro x hx
      simp only [List.take_succ_cons, List.mem_cons] at hx
      rcases hx with rfl | hx
      · exact ha
      · exact h1 x hx
    · have : cntLt (a :: C) v = 0 := by
        apply cntLt_zero
        intro x hx
        rcases List.mem_cons.1 hx with rfl | hx
        · omega
        · have := hs'.1 x hx; omega
      rw [this]
      refine ⟨by simp, ?_⟩
      intro x hx
      simp only [List.drop_zero, List.mem_cons] at hx
      rcases hx with rfl | hx
      · omega
      · have := hs'.1 x hx; omega

theorem cntLt_drop {C : List Int} (hs : C.Pairwise (· ≤ ·)) {u v : Int} (h : u ≤ v) :
    cntLt C u + cntLt (C.drop (cntLt C u)) v = cntLt C v := by
  have h1 := (sorted_take hs u).1
  have e : cntLt C v = cntLt (C.take (cntLt C u)) v + cntLt (C.drop (cntLt C u)) v := by
    conv_lhs => rw [← List.take_append_drop (cntLt C u) C]
    rw [cntLt, List.countP_append]; rfl
  rw [e, cntLt_all (C := C.take (cntLt C u)) (fun x hx => by have := h1 x hx; omega)]
  simp [cntLt_le]

/-! ## `convert_triplets_to_ccs` -/

theorem ccsOuter_ok {std : StdLib} (hstd : LowerBoundContract std.lowerBound) {IFrom J : IntTy}
    {C : List Int} (hs : C.Pairwise (· ≤ ·)) {base : Int} {n : Nat}
    (hn : IFrom.fits ((n : Int) + 1)) (hb : IFrom.fits base) (hnb : IFrom.fits ((n : Int) + base))
    (hJ : J.fits C.length) (hlo : ∀ x ∈ C, base ≤ x) {O : List Int} (hO : O.length = n + 1) :
    ∃ it, ccsOuter std IFrom J C base O =
      .ok (it, (List.range (n + 1)).map (fun c : Nat => (cntLt C (c + base) : Int))) := by
  rw [ccsOuter, hO]
  have hc : IFrom.cast ((n + 1 : Nat) : Int) = ((n + 1 : Nat) : Int) :=
    IntTy.cast_eq (by push_cast; exact hn)
  rw [hc, forRange_eq_foldlM, rangeI_zero, foldlM_map']
  have key : ∀ k, k ≤ n + 1 → (List.range k).foldlM
      (fun (s : Nat × List Int) (c : Nat) => (do
        let v ← IFrom.add (c : Int) base
        let it := s.1 + std.lowerBound (C.drop s.1) v
        let o ← wr s.2 (c : Int).toNat (J.cast it)
        .ok (it, o) : Res (Nat × List Int))) (0, O) =
      .ok (cntLt C ((k : Int) - 1 + base),
        (List.range k).map (fun c : Nat => (cntLt C (c + base) : Int)) ++
          O.drop k) := by
    intro k
    induction k with
    | zero =>
      intro _
      rw [cntLt_zero (fun x hx => by have := hlo x hx; push_cast; omega)]
      simp
    | succ k ih =>
      intro hk
      rw [List.range_succ, foldlM_append', ih (by omega), res_ok_bind, List.foldlM_cons]
      have hadd : IFrom.add (k : Int) base = .ok ((k : Int) + base) :=
        IntTy.add_ok (IntTy.fits_between hb hnb (by omega) (by omega))
      have hlb := hstd (C.drop (cntLt C ((k : Int) - 1 + base))) ((k : Int) + base)
        (hs.sublist (List.drop_sublist _ _))
      have hcnt := cntLt_drop hs (u := (k : Int) - 1 + base) (v := (k : Int) + base) (by omega)
      have hit : cntLt C ((k : Int) - 1 + base) +
          std.lowerBound (C.drop (cntLt C ((k : Int) - 1 + base))) ((k : Int) + base) =
          cntLt C ((k : Int) + base) := by rw [hlb]; exact hcnt
      have hcast : J.cast (cntLt C ((k : Int) + base) : Int) = cntLt C ((k : Int) + base) := by
        have := cntLt_le C ((k : Int) + base)
        exact IntTy.cast_eq (IntTy.fits_between J.fits_zero hJ (by omega) (by omega))
      simp only [hadd, res_ok_bind, hit, hcast, Int.toNat_natCast]
      have hlt : k < ((List.range k).map (fun c : Nat => (cntLt C (c + base) : Int)) ++
          O.drop k).length := by simp; omega
      rw [wr_ok _ hlt, res_ok_bind]
      simp only [List.foldlM_nil, res_pure]
      have e1 : ((k + 1 : Nat) : Int) - 1 + base = (k : Int) + base := by push_cast; omega
      rw [e1, List.map_append, List.drop_eq_getElem_cons (i := k) (l := O) (by omega),
          set_append_at _ _ _ _ (by simp)]
      rfl
  have hk := key (n + 1) (le_refl _)
  rw [List.drop_of_length_le (by omega), List.append_nil] at hk
  exact ⟨_, hk⟩

/-- The CSC pattern for rows `R` and sorted columns `C`. -/
def ccs (rows : Int) (n : Nat) (sym : Symmetry) (R C : List Int) (base : Int) (order : CscOrder) :
    CSC :=
  { rows := rows, cols := n, symmetry := sym,
    innerIdx := R.map (· - base),
    outerPtr := (List.range (n + 1)).map (fun c : Nat => (cntLt C (c + base) : Int)),
    order := order }

section
variable {rows : Int} {n : Nat} {sym : Symmetry} {R C : List Int} {base : Int} {order : CscOrder}

theorem ccs_getD {c : Nat} (hc : c ≤ n) :
    (ccs rows n sym R C base order).outerPtr.getD c 0 = (cntLt C (c + base) : Int) := by
  have : c < n + 1 := by omega
  simp [ccs, List.getD, this]

theorem ccs_start {c : Nat} (hc : c ≤ n) :
    (ccs rows n sym R C base order).start c = cntLt C (c + base) := by
  rw [CSC.start, ccs_getD hc]; simp

theorem ccs_wf (hrows : 0 ≤ rows) (hl : R.length = C.length)
    (hR : ∀ r ∈ R, 0 ≤ r - base ∧ r - base < rows)
    (hC : ∀ c ∈ C, 0 ≤ c - base ∧ c - base < n) : (ccs rows n sym R C base order).Wf := by
  refine ⟨hrows, by simp [ccs], by simp [ccs], ?_, ?_, ?_, ?_⟩
  · rw [ccs_getD (by omega), cntLt_zero]
    · rfl
    · intro x hx; have := hC x hx; push_cast; omega
  · intro c hc
    have hc : c < n := by simp [ccs] at hc; exact hc
    rw [ccs_getD (by omega), ccs_getD (by omega)]
    have := cntLt_mono C (u := (c : Int) + base) (v := ((c + 1 : Nat) : Int) + base)
      (by push_cast; omega)
    omega
  · have : (ccs rows n sym R C base order).cols.toNat = n := by simp [ccs]
    rw [this, ccs_getD (le_refl _), cntLt_all]
    · simp [ccs, hl]
    · intro x hx; have := hC x hx; omega
  · intro r hr
    obtain ⟨x, hx, rfl⟩ := List.mem_map.1 hr
    exact hR x hx

theorem slice_cols (hs : C.Pairwise (· ≤ ·)) (k : Int) :
    ∀ x ∈ slice C (cntLt C k) (cntLt C (k + 1)), x = k := by
  intro x hx
  have h1 := (sorted_take hs (k + 1)).1 x (List.mem_of_mem_drop hx)
  have h2 := (sorted_take hs k).2 x (by
    have : slice C (cntLt C k) (cntLt C (k + 1)) = (C.drop (cntLt C k)).take (cntLt C (k + 1) - cntLt C k) := by
      rw [slice, List.drop_take]
    rw [this] at hx
    exact List.mem_of_mem_take hx)
  omega

theorem colList_ccs (hs : C.Pairwise (· ≤ ·)) (hC : ∀ c ∈ C, 0 ≤ c - base) (k : Nat) :
    colList (fun c => cntLt C (c + base)) k =
      (C.take (cntLt C (k + base))).map (fun c => (c - base).toNat) := by
  induction k with
  | zero =>
    rw [cntLt_zero (fun x hx => by have := hC x hx; push_cast; omega)]
    simp [colList]
  | succ k ih =>
    have hm := cntLt_mono C (u := (k : Int) + base) (v := ((k + 1 : Nat) : Int) + base)
      (by push_cast; omega)
    rw [colList_succ, ih, ← take_append_slice C hm, List.map_append]
    congr 1
    have hcast : ((k + 1 : Nat) : Int) + base = ((k : Int) + base) + 1 := by push_cast; ring
    have hx := slice_cols hs ((k : Int) + base)
    rw [← hcast] at hx
    have hlen : (slice C (cntLt C (k + base)) (cntLt C (((k + 1 : Nat) : Int) + base))).length =
        cntLt C (((k + 1 : Nat) : Int) + base) - cntLt C (k + base) := slice_length (cntLt_le _ _)
    rw [← hlen]
    symm
    rw [List.eq_replicate_iff]
    refine ⟨by simp, ?_⟩
    intro y hy
    obtain ⟨x, hx', rfl⟩ := List.mem_map.1 hy
    rw [hx x hx']; omega

theorem ccs_colOf (hs : C.Pairwise (· ≤ ·)) (hC : ∀ c ∈ C, 0 ≤ c - base ∧ c - base < n) :
    (ccs rows n sym R C base order).colOf = C.map (fun c => (c - base).toNat) := by
  have h1 : (ccs rows n sym R C base order).colOf = colList (fun c => cntLt C (c + base)) n := by
    have hn : (ccs rows n sym R C base order).cols.toNat = n := by simp [ccs]
    rw [CSC.colOf, hn, colList, colList]
    apply List.flatMap_congr
    intro c hc
    have hc := List.mem_range.1 hc
    rw [ccs_start (by omega), ccs_start (by omega)]
  rw [h1, colList_ccs hs (fun c hc => (hC c hc).1), cntLt_all (fun x hx => by
    have := hC x hx; omega), List.take_of_length_le (le_refl _)]

/-- The entries of the pattern are the triplets. -/
theorem ccs_entries (hrows : 0 ≤ rows) (hl : R.length = C.length) (hs : C.Pairwise (· ≤ ·))
    (hR : ∀ r ∈ R, 0 ≤ r - base ∧ r - base < rows)
    (hC : ∀ c ∈ C, 0 ≤ c - base ∧ c - base < n) {vals : List T} (hv : vals.length = R.length) :
    (ccs rows n sym R C base order).entries vals =
      (R.zip (C.zip vals)).map (fun p => (p.1 - base, p.2.1 - base, p.2.2)) := by
  have hwf := ccs_wf (sym := sym) (order := order) hrows hl hR hC
  rw [hwf.entries_eq vals (by simp [ccs, hv]), ccs_colOf hs hC]
  apply List.ext_getElem
  · simp [ccs, hl, hv]
  · intro i a b
    have hi : i < C.length := by simp at a; omega
    have := hC C[i] (by simp)
    simp [ccs]; omega

theorem ccs_positions (hrows : 0 ≤ rows) (hl : R.length = C.length) (hs : C.Pairwise (· ≤ ·))
    (hR : ∀ r ∈ R, 0 ≤ r - base ∧ r - base < rows)
    (hC : ∀ c ∈ C, 0 ≤ c - base ∧ c - base < n) :
    (ccs rows n sym R C base order).positions =
      (R.zip C).map (fun p => (p.1 - base, p.2 - base)) := by
  have hwf := ccs_wf (sym := sym) (order := order) hrows hl hR hC
  rw [hwf.positions_eq, ccs_colOf hs hC]
  apply List.ext_getElem
  · simp [ccs, hl]
  · intro i a b
    have hi : i < C.length := by simp at a; omega
    have := hC C[i] (by simp)
    simp [ccs]; omega

theorem ccs_rowsSorted (hl : R.length = C.length) (hs : C.Pairwise (· ≤ ·))
    (hrc : (R.zip C).Pairwise colRowLe) : (ccs rows n sym R C base order).RowsSorted := by
  intro c hc
  have hc : c < n := by simp [ccs] at hc; exact hc
  rw [ccs_start (by omega), ccs_start (by omega)]
  change (slice (R.map (· - base)) _ _).Pairwise _
  rw [slice_map, List.pairwise_map]
  have hcast : ((c + 1 : Nat) : Int) + base = ((c : Int) + base) + 1 := by push_cast; ring
  have hcol := slice_cols hs ((c : Int) + base)
  rw [← hcast] at hcol
  have h1 : (slice (R.zip C) (cntLt C (c + base)) (cntLt C (((c + 1 : Nat) : Int) + base))).Pairwise
      colRowLe := hrc.sublist ((List.drop_sublist _ _).trans (List.take_sublist _ _))
  rw [slice_zip] at h1
  have hle : cntLt C (((c + 1 : Nat) : Int) + base) ≤ C.length := cntLt_le _ _
  have hlen : (slice R (cntLt C (c + base)) (cntLt C (((c + 1 : Nat) : Int) + base))).length =
      (slice C (cntLt C (c + base)) (cntLt C (((c + 1 : Nat) : Int) + base))).length := by
    rw [slice_length hle, slice_length (by omega)]
  generalize slice R (cntLt C (c + base)) (cntLt C (((c + 1 : Nat) : Int) + base)) = A at *
  generalize slice C (cntLt C (c + base)) (cntLt C (((c + 1 : Nat) : Int) + base)) = B at *
  have h2 : A = (A.zip B).map Prod.fst := by rw [List.map_fst_zip (by omega)]
  rw [h2, List.pairwise_map]
  refine List.Pairwise.imp_of_mem ?_ h1
  intro p q hp hq hpq
  have e1 := hcol p.2 (List.of_mem_zip (show (p.1, p.2) ∈ _ from hp)).2
  have e2 := hcol q.2 (List.of_mem_zip (show (q.1, q.2) ∈ _ from hq)).2
  simp only [colRowLe] at hpq
  omega

end

/-! ## Permutations -/

theorem isSorted_iff {l : List Int} : isSorted l = true ↔ l.Pairwise (· ≤ ·) := by
  induction l with
  | nil => simp [isSorted]
  | cons a l ih =>
    cases l with
    | nil => simp [isSorted]
    | cons b l =>
      simp only [isSorted]
      by_cases h : b < a
      · rw [if_pos h]
        simp only [Bool.false_eq_true, false_iff]
        intro hp
        have := (List.pairwise_cons.1 hp).1 b (by simp)
        omega
      · rw [if_neg h, ih]
        constructor
        · intro hp
          refine List.pairwise_cons.2 ⟨?_, hp⟩
          intro x hx
          rcases List.mem_cons.1 hx with rfl | hx
          · omega
          · have := (List.pairwise_cons.1 hp).1 x hx; omega
        · exact fun hp => (List.pairwise_cons.1 hp).2

theorem iota_eq {J : IntTy} {n : Nat} (hJ : J.fits n) :
    iota J n = (List.range n).map (fun k : Nat => (k : Int)) := by
  apply List.map_congr_left
  intro k hk
  have := List.mem_range.1 hk
  exact IntTy.cast_eq (IntTy.fits_between J.fits_zero hJ (by omega) (by omega))

theorem iota_sorted (n : Nat) :
    ((List.range n).map (fun k : Nat => (k : Int))).Pairwise (· ≤ ·) := by
  rw [List.pairwise_map]
  exact List.pairwise_lt_range.imp (by intro a b h; omega)

/-- The permuted values. -/
def gather (perm : List Int) (vals : List T) (d : T) : List T :=
  perm.map (fun p => vals.getD p.toNat d)

theorem gather_iota (vals : List T) (d : T) :
    gather ((List.range vals.length).map (fun k : Nat => (k : Int))) vals d = vals := by
  apply List.ext_getElem
  · simp [gather]
  · intro i a b
    have : i < vals.length := b
    simp [gather, List.getD, this]

theorem permLoop (dbg : Bool) (perm : List Int) (vals work : List T) (d : T)
    (hp : ∀ p ∈ perm, 0 ≤ p ∧ p < vals.length) (hw : work.length = perm.length) :
    forRange 0 perm.length (permBody dbg perm vals) work = .ok (gather perm vals d) := by
  rw [forRange_eq_foldlM, rangeI_zero, foldlM_map']
  have key : ∀ k, k ≤ perm.length → (List.range k).foldlM
      (fun w (i : Nat) => permBody dbg perm vals (i : Int) w) work =
      .ok ((gather perm vals d).take k ++ work.drop k) := by
    intro k
    induction k with
    | zero => intro _; simp
    | succ k ih =>
      intro hk
      have hgl : (gather perm vals d).length = perm.length := by simp [gather]
      have hpk := hp perm[k] (by simp)
      have hval : rd vals perm[k].toNat = .ok (vals.getD perm[k].toNat d) := rd_getD d (by omega)
      have hw1 : k < ((gather perm vals d).take k ++ work.drop k).length := by
        simp [hgl]; omega
      rw [List.range_succ, foldlM_append', ih (by omega), res_ok_bind, List.foldlM_cons, permBody,
        Int.toNat_natCast, rd_ok (v := perm[k]) (by simp), res_ok_bind, castSz_ok hpk.1,
        res_ok_bind, hval, res_ok_bind, wr_ok _ hw1, res_ok_bind]
      simp only [List.foldlM_nil, res_pure]
      congr 1
      have hdk : work.drop k = work[k]'(by omega) :: work.drop (k + 1) :=
        List.drop_eq_getElem_cons (by omega)
      rw [hdk, set_append_at _ _ _ _ (by simp [hgl]; omega)]
      congr 1
      rw [List.take_succ_eq_append_getElem (by omega)]
      simp [gather]
  rw [key _ (le_refl _), List.take_of_length_le (by simp [gather]),
    List.drop_of_length_le (by omega), List.append_nil]

/-- `convert_values` of the converters to CSC, in terms of the unsimplified permutation `q`: the
values are rearranged by `q`, whether or not the identity permutation was dropped. -/
theorem convertValues_perm (dbg : Bool) (cv : CscConv) (hwf : cv.sparsity.Wf) (q : List Int)
    (hq : q.Perm ((List.range cv.sparsity.innerIdx.length).map (fun k : Nat => (k : Int))) ∨ q = [])
    (hcv : cv.permutation = if isSorted q then [] else q)
    (vals work : List T) (hv : vals.length = cv.sparsity.innerIdx.length)
    (hw : work.length = cv.permutation.length) :
    ∃ o, cv.convertValues dbg vals work = .ok o ∧
      (q = [] → o.values vals = vals) ∧
      (q ≠ [] → ∀ d, o.values vals = gather q vals d) := by
  rw [CscConv.convertValues, CSC.nnz_ok hwf, res_ok_bind, castSz_nat, res_ok_bind,
    assertM_dec hv, res_ok_bind, assertM_dec hw, res_ok_bind]
  by_cases hs : isSorted q = true
  · have hpe : cv.permutation = [] := by rw [hcv, if_pos hs]
    rw [if_pos hpe]
    refine ⟨_, rfl, fun _ => rfl, ?_⟩
    intro hne d
    rcases hq with hq | hq
    · have : q = (List.range cv.sparsity.innerIdx.length).map (fun k : Nat => (k : Int)) := by
        refine hq.eq_of_pairwise ?_ (isSorted_iff.1 hs) (iota_sorted _)
        intro a b _ _ h1 h2; exact le_antisymm h1 h2
      rw [this, ← hv, gather_iota]; rfl
    · exact absurd hq hne
  · have hpe : cv.permutation = q := by rw [hcv, if_neg hs]
    have hne : q ≠ [] := by
      rintro rfl; exact hs rfl
    rw [if_neg (by rw [hpe]; exact hne)]
    have hq' := hq.resolve_right hne
    have hmem : ∀ p ∈ q, 0 ≤ p ∧ p < vals.length := by
      intro p hp
      obtain ⟨k, hk, rfl⟩ := List.mem_map.1 (hq'.mem_iff.1 hp)
      have := List.mem_range.1 hk
      omega
    have hnev : vals ≠ [] := by
      rintro rfl
      have : q.length = 0 := by rw [hq'.length_eq]; simpa using hv.symm
      exact hne (List.length_eq_zero_iff.1 this)
    obtain ⟨d0, vs, rfl⟩ := List.exists_cons_of_ne_nil hnev
    rw [hpe] at hw ⊢
    rw [permLoop dbg q _ work d0 hmem hw]
    refine ⟨_, rfl, fun h => absurd h hne, ?_⟩
    intro _ d
    simp only [Out.values, gather]
    apply List.map_congr_left
    intro p hp
    have := hmem p hp
    have hlt : p.toNat < (d0 :: vs).length := by omega
    simp only [List.getD, List.getElem?_eq_getElem hlt, Option.getD_some]

end Guanaqo.Sparsity
