import Verif.Sparsity.Spec
import Verif.Loops
import Verif.Tactics

/-!
# Helper lemmas: casts, slices, column tiling, sequential filling
-/

namespace Guanaqo.Sparsity

/-! ## Integer types -/

theorem IntTy.bits_pos (I : IntTy) : 0 < I.bits := by cases I <;> decide

theorem IntTy.fits_zero (I : IntTy) : I.fits 0 := by cases I <;> decide

theorem IntTy.cast_eq {I : IntTy} {x : Int} (h : I.fits x) : I.cast x = x := by
  cases I <;>
  · simp only [IntTy.fits, IntTy.bits, IntTy.cast] at *
    norm_num at h
    rw [Int.bmod_eq_of_le] <;> norm_num <;> omega

theorem IntTy.add_ok {I : IntTy} {x y : Int} (h : I.fits (x + y)) : I.add x y = .ok (x + y) := by
  simp [IntTy.add, h]

theorem IntTy.sub_ok {I : IntTy} {x y : Int} (h : I.fits (x - y)) : I.sub x y = .ok (x - y) := by
  simp [IntTy.sub, h]

/-- A value between two representable ones is representable. -/
theorem IntTy.fits_between {I : IntTy} {a b x : Int} (ha : I.fits a) (hb : I.fits b)
    (h1 : a ≤ x) (h2 : x ≤ b) : I.fits x := ⟨le_trans ha.1 h1, lt_of_le_of_lt h2 hb.2⟩

/-! ## Reads, writes, assertions -/

theorem assertM_ok {dbg : Bool} {x : Res Bool} (h : x = .ok true) : assertM dbg x = .ok () := by
  subst h; cases dbg <;> rfl

theorem assertM_dec {dbg : Bool} {p : Prop} [Decidable p] (h : p) :
    assertM dbg (.ok (decide p)) = .ok () := assertM_ok (by simp [h])

theorem castSz_ok {dbg : Bool} {i : Int} (h : 0 ≤ i) : castSz dbg i = .ok i.toNat := by
  simp [castSz, h]

@[simp] theorem castSz_nat {dbg : Bool} (n : Nat) : castSz dbg (n : Int) = .ok n := by
  simp [castSz]

theorem rd_ok {α : Type} {l : List α} {i : Nat} {v : α} (h : l[i]? = some v) : rd l i = .ok v := by
  simp [rd, h]

theorem rd_getD {α : Type} {l : List α} {i : Nat} (d : α) (h : i < l.length) :
    rd l i = .ok (l.getD i d) := by
  apply rd_ok
  simp [List.getD, h]

theorem wr_ok {α : Type} {l : List α} {i : Nat} (v : α) (h : i < l.length) :
    wr l i v = .ok (l.set i v) := by simp [wr, h]

theorem CSC.nnz_ok {s : CSC} (h : s.Wf) (dbg : Bool) : s.nnz dbg = .ok s.innerIdx.length := by
  have h1 := h.outer_length
  have h2 := h.outer_last
  have h3 := h.cols_nonneg
  have hl : s.outerPtr.getLast? = some (s.innerIdx.length : Int) := by
    rw [List.getLast?_eq_getElem?]
    have : s.outerPtr.length - 1 = s.cols.toNat := by omega
    rw [this, ← h2]
    have : s.cols.toNat < s.outerPtr.length := by omega
    simp [List.getD, this]
  rw [CSC.nnz, assertM_dec h1, hl]
  simp only [res_ok_bind, decide_true, assertM_ok]

theorem COO.nnz_ok {s : COO} (h : s.rowIndices.length = s.colIndices.length) (dbg : Bool) :
    s.nnz dbg = .ok s.rowIndices.length := by
  rw [COO.nnz, assertM_dec h]; rfl

/-! ## Slices and tilings -/

theorem slice_length {α : Type} {l : List α} {a b : Nat} (hb : b ≤ l.length) :
    (slice l a b).length = b - a := by
  simp [slice]; omega

theorem slice_range {n a b : Nat} (hb : b ≤ n) :
    slice (List.range n) a b = List.range' a (b - a) := by
  apply List.ext_getElem
  · simp [slice]; omega
  · intro i h1 h2
    simp [slice]

theorem take_append_slice {α : Type} (l : List α) {a b : Nat} (h : a ≤ b) :
    l.take a ++ slice l a b = l.take b := by
  have h1 : l.take a = (l.take b).take a := by rw [List.take_take]; congr 1; omega
  rw [h1, slice, List.take_append_drop]

theorem slice_zip {α β : Type} (l : List α) (m : List β) (a b : Nat) :
    slice (l.zip m) a b = (slice l a b).zip (slice m a b) := by
  simp only [slice, List.zip, List.take_zipWith, List.drop_zipWith]

theorem slice_map {α β : Type} (f : α → β) (l : List α) (a b : Nat) :
    slice (l.map f) a b = (slice l a b).map f := by
  simp [slice, List.map_take, List.map_drop]

/-- Column number of every inner position. -/
def colList (o : Nat → Nat) (k : Nat) : List Nat :=
  (List.range k).flatMap (fun c => List.replicate (o (c + 1) - o c) c)

theorem colList_succ (o : Nat → Nat) (k : Nat) :
    colList o (k + 1) = colList o k ++ List.replicate (o (k + 1) - o k) k := by
  simp [colList, List.range_succ, List.flatMap_append]

theorem mono_of_step {o : Nat → Nat} {k : Nat} (hm : ∀ c, c < k → o c ≤ o (c + 1)) :
    ∀ j, j ≤ k → ∀ i, i ≤ j → o i ≤ o j := by
  intro j
  induction j with
  | zero => intro _ i hi; have : i = 0 := by omega
            subst this; exact le_refl _
  | succ j ih =>
    intro hj i hi
    rcases Nat.lt_or_ge i (j + 1) with h | h
    · exact le_trans (ih (by omega) i (by omega)) (hm j (by omega))
    · have : i = j + 1 := by omega
      subst this; exact le_refl _

theorem colList_length {o : Nat → Nat} {k : Nat} (h0 : o 0 = 0)
    (hm : ∀ c, c < k → o c ≤ o (c + 1)) : (colList o k).length = o k := by
  induction k with
  | zero => simp [colList, h0]
  | succ k ih =>
    rw [colList_succ, List.length_append, ih (fun c hc => hm c (by omega)), List.length_replicate]
    have := hm k (by omega)
    omega

theorem zip_replicate {α β : Type} (l : List α) (b : β) :
    (List.replicate l.length b).zip l = l.map (fun x => (b, x)) := by
  induction l with
  | nil => rfl
  | cons x l ih => simp [List.replicate_succ, ih]

/-- Concatenating the columns gives back the whole array, each element with its column. -/
theorem tile {α β : Type} {o : Nat → Nat} {k : Nat} (h0 : o 0 = 0)
    (hm : ∀ c, c < k → o c ≤ o (c + 1)) (z : List α) (hz : o k ≤ z.length) (f : Nat → α → β) :
    (List.range k).flatMap (fun c => (slice z (o c) (o (c + 1))).map (f c))
      = ((colList o k).zip (z.take (o k))).map (fun p => f p.1 p.2) := by
  induction k with
  | zero => simp [colList]
  | succ k ih =>
    have hk := hm k (by omega)
    have hm' : ∀ c, c < k → o c ≤ o (c + 1) := fun c hc => hm c (by omega)
    rw [List.range_succ, List.flatMap_append, ih hm' (by omega), colList_succ,
      ← take_append_slice z hk, List.zip_append (by
        rw [colList_length h0 hm', List.length_take]; omega), List.map_append]
    congr 1
    have hl : (slice z (o k) (o (k + 1))).length = o (k + 1) - o k := slice_length hz
    rw [← hl, zip_replicate]
    simp

/-! ## Consequences of well-formedness -/

theorem CSC.Wf.start_zero {s : CSC} (h : s.Wf) : s.start 0 = 0 := by
  rw [CSC.start, h.outer_first]; rfl

theorem CSC.Wf.start_mono {s : CSC} (h : s.Wf) :
    ∀ c, c < s.cols.toNat → s.start c ≤ s.start (c + 1) := by
  intro c hc
  have := h.outer_mono c (by omega)
  simp only [CSC.start]; omega

theorem CSC.Wf.start_last {s : CSC} (h : s.Wf) : s.start s.cols.toNat = s.innerIdx.length := by
  simp only [CSC.start, h.outer_last]; omega

theorem CSC.Wf.start_le {s : CSC} (h : s.Wf) {c : Nat} (hc : c ≤ s.cols.toNat) :
    s.start c ≤ s.innerIdx.length := by
  rw [← h.start_last]
  exact mono_of_step h.start_mono _ (le_refl _) _ hc

theorem CSC.Wf.outer_nonneg {s : CSC} (h : s.Wf) {c : Nat} (hc : c ≤ s.cols.toNat) :
    0 ≤ s.outerPtr.getD c 0 := by
  induction c with
  | zero => rw [h.outer_first]
  | succ c ih =>
    have := ih (by omega)
    have := h.outer_mono c (by omega)
    omega

theorem CSC.Wf.outer_start {s : CSC} (h : s.Wf) {c : Nat} (hc : c ≤ s.cols.toNat) :
    s.outerPtr.getD c 0 = (s.start c : Int) := by
  have := h.outer_nonneg hc
  simp only [CSC.start]; omega

/-- The columns of the stored entries. -/
def CSC.colOf (s : CSC) : List Nat := colList s.start s.cols.toNat

theorem CSC.Wf.colOf_length {s : CSC} (h : s.Wf) : s.colOf.length = s.innerIdx.length := by
  rw [CSC.colOf, colList_length h.start_zero h.start_mono, h.start_last]

theorem CSC.Wf.entries_eq {T : Type} {s : CSC} (h : s.Wf) (vals : List T)
    (hv : vals.length = s.innerIdx.length) :
    s.entries vals =
      (s.colOf.zip (s.innerIdx.zip vals)).map (fun p => (p.2.1, (p.1 : Int), p.2.2)) := by
  have hz : (s.innerIdx.zip vals).length = s.innerIdx.length := by simp [hv]
  rw [CSC.entries, tile h.start_zero h.start_mono _ (by rw [h.start_last, hz])
    (fun c (p : Int × T) => (p.1, (c : Int), p.2)), h.start_last, List.take_of_length_le (by rw [hz])]
  rfl

theorem CSC.Wf.positions_eq {s : CSC} (h : s.Wf) :
    s.positions = (s.colOf.zip s.innerIdx).map (fun p => (p.2, (p.1 : Int))) := by
  rw [CSC.positions, tile h.start_zero h.start_mono _ (by rw [h.start_last])
    (fun c (p : Int) => (p, (c : Int))), h.start_last, List.take_of_length_le (le_refl _)]
  rfl

theorem colList_lt {o : Nat → Nat} {k c : Nat} (h : c ∈ colList o k) : c < k := by
  simp only [colList, List.mem_flatMap, List.mem_range, List.mem_replicate] at h
  obtain ⟨a, ha, _, rfl⟩ := h
  exact ha

/-- The loops over a CSC pattern visit the entries in order. -/
theorem cscLoop {σ : Type} {s : CSC} (h : s.Wf) (dbg : Bool) (f : Int → Int → σ → Res σ) (w : σ) :
    forRange 0 s.cols (fun c w => do
      let c' ← castSz dbg c
      let st ← rd s.outerPtr c'
      let en ← rd s.outerPtr (c' + 1)
      forRange st en (f c) w) w
    = (s.colOf.zip (List.range s.innerIdx.length)).foldlM
        (fun w p => f (p.1 : Int) (p.2 : Int) w) w := by
  have hlen := h.outer_length
  have hc := h.cols_nonneg
  have hz : s.colOf.zip (List.range s.innerIdx.length)
      = (List.range s.cols.toNat).flatMap (fun c =>
          (slice (List.range s.innerIdx.length) (s.start c) (s.start (c + 1))).map
            (fun i => (c, i))) := by
    rw [tile h.start_zero h.start_mono _ (by simp [h.start_last]) (fun c i => (c, i)),
      h.start_last, List.take_of_length_le (by simp)]
    simp [CSC.colOf]
  rw [hz, foldlM_flatMap', forRange_eq_foldlM]
  have : rangeI 0 s.cols = (List.range s.cols.toNat).map (fun k : Nat => (k : Int)) := by
    simp [rangeI]
  rw [this, foldlM_map']
  apply foldlM_congr
  intro c hcm w
  have hcm := List.mem_range.1 hcm
  rw [castSz_nat, res_ok_bind, rd_getD 0 (by omega), res_ok_bind, rd_getD 0 (by omega),
    res_ok_bind, h.outer_start (by omega), h.outer_start (by omega), forRange_eq_foldlM,
    foldlM_map', slice_range (h.start_le (by omega))]
  have h2 : rangeI (s.start c) (s.start (c + 1))
      = (List.range' (s.start c) (s.start (c + 1) - s.start c)).map (fun k : Nat => (k : Int)) := by
    rw [rangeI, List.range'_eq_map_range, List.map_map]
    have : ((s.start (c + 1) : Int) - (s.start c : Int)).toNat
        = s.start (c + 1) - s.start c := by omega
    rw [this]
    apply List.map_congr_left
    intro k _
    simp
  rw [h2, foldlM_map']

/-! ## Sequential filling of two index arrays -/

/-- Writing `x` at the counter position of a partially filled array. -/
theorem set_fill {α : Type} (pre rest : List α) (y x : α) :
    (pre ++ y :: rest).set pre.length x = (pre ++ [x]) ++ rest := by
  simp

end Guanaqo.Sparsity
