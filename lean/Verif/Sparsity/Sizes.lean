import Verif.Sparsity.PropsChain
import Verif.Ints

/-!
# C129: the conversions with the arithmetic of a 64-bit machine

In `Model.lean` the sizes (`size_t`, `length_t`) are unbounded. Here the conversions that multiply sizes are modelled again
with the arithmetic of the machine: `size_t` wraps around, overflow of `length_t` (`std::ptrdiff_t`) is undefined. The other
conversions do not multiply sizes. Index and length types have 64 bits; a vector can be resized to any size.
-/

namespace Guanaqo.Sparsity.Sizes

open Guanaqo.Sparsity

/-- `a * b` for `size_t`. -/
def mulSz (a b : Nat) : Nat := a * b % 2 ^ 64

/-- `a + b` for `size_t`. -/
def addSz (a b : Nat) : Nat := (a + b) % 2 ^ 64

/-- `work_size`, sparsity-conversions.hpp:89-91, 158-160. -/
def workSize (dbg : Bool) (sp : Dense) : Res Nat := do
  let r ← castSz dbg sp.rows
  let c ← castSz dbg sp.cols
  .ok (mulSz r c)

/-- `nnz_from` of the converters from `Dense`, sparsity-conversions.hpp:55-57, 272-274, 706-708 (`length_t`). -/
def nnzFrom (rows cols : Int) : Res Int := chk 64 (rows * cols)

/-- `W(r, c) = v`, sparsity-conversions.hpp:100-102, 170-172. -/
def writeW {T : Type} (dbg : Bool) (rows : Int) (r c : Int) (v : T) (work : List T) : Res (List T) := do
  let r' ← castSz dbg r
  let c' ← castSz dbg c
  let n ← castSz dbg rows
  wr work (addSz r' (mulSz c' n)) v

/-- The assignments of the `switch`, sparsity-conversions.hpp:110, 117, 125. -/
def placeEntry {T : Type} (dbg : Bool) (sym : Symmetry) (rows : Int) (r c : Int) (v : T) (work : List T) :
    Res (List T) :=
  match sym with
  | .unsymmetric => writeW dbg rows r c v work
  | _ => do
    let work ← writeW dbg rows r c v work
    writeW dbg rows c r v work

/-- `SparsityConverter<Dense, Dense>::convert_values`, sparsity-conversions.hpp:59-65. -/
def denseToDense {T : Type} (dbg : Bool) (sp : Dense) (vals work : List T) : Res (Out T) := do
  let n ← nnzFrom sp.rows sp.cols
  let n ← castSz dbg n
  assertM dbg (.ok (decide (vals.length = n)))
  .ok ⟨.fromValues, work⟩

/-- Body of the inner loop, sparsity-conversions.hpp:108-129. -/
def cscInner {T : Type} (dbg : Bool) (frm : CSC) (sp : Dense) (vals : List T) (c i : Int) (s : Nat × List T) :
    Res (Nat × List T) := do
  let i' ← castSz dbg i
  let r ← rd frm.innerIdx i'
  checkTriangle frm.symmetry r c
  let v ← rd vals s.1
  let w ← placeEntry dbg frm.symmetry sp.rows r c v s.2
  .ok (s.1 + 1, w)

/-- Body of the outer loop, sparsity-conversions.hpp:105-130. -/
def cscOuter {T : Type} (dbg : Bool) (frm : CSC) (sp : Dense) (vals : List T) (c : Int) (s : Nat × List T) :
    Res (Nat × List T) := do
  let c' ← castSz dbg c
  let st ← rd frm.outerPtr c'
  let en ← rd frm.outerPtr (c' + 1)
  forRange st en (cscInner dbg frm sp vals c) s

/-- `SparsityConverter<SparseCSC, Dense>::convert_values`, sparsity-conversions.hpp:93-133. -/
def cscToDense {T : Type} (zero : T) (dbg : Bool) (frm : CSC) (sp : Dense) (vals work : List T) : Res (Out T) := do
  let nnz ← frm.nnz dbg
  assertM dbg (.ok (decide (vals.length = nnz.toNat)))
  let n ← workSize dbg sp
  assertM dbg (.ok (decide (work.length = n)))
  let s ← forRange 0 frm.cols (cscOuter dbg frm sp vals) (0, List.replicate work.length zero)
  .ok ⟨.work, s.2⟩

/-- Body of the loop, sparsity-conversions.hpp:174-195. -/
def cooBody {T : Type} (dbg : Bool) (I : IntTy) (frm : COO) (sp : Dense) (vals : List T) (l : Int) (work : List T) :
    Res (List T) := do
  let r₀ ← rd frm.rowIndices l.toNat
  let r ← I.sub r₀ frm.firstIndex
  let c₀ ← rd frm.colIndices l.toNat
  let c ← I.sub c₀ frm.firstIndex
  checkTriangle frm.symmetry r c
  let v ← rd vals l.toNat
  placeEntry dbg frm.symmetry sp.rows r c v work

/-- `SparsityConverter<SparseCOO, Dense>::convert_values`, sparsity-conversions.hpp:163-198. -/
def cooToDense {T : Type} (zero : T) (dbg : Bool) (I : IntTy) (frm : COO) (sp : Dense) (vals work : List T) :
    Res (Out T) := do
  let nnz ← frm.nnz dbg
  assertM dbg (.ok (decide (vals.length = nnz.toNat)))
  let n ← workSize dbg sp
  assertM dbg (.ok (decide (work.length = n)))
  let w ← forRange 0 nnz (cooBody dbg I frm sp vals) (List.replicate work.length zero)
  .ok ⟨.work, w⟩

/-- `SparsityConverter<Dense, SparseCOO>::convert_sparsity`, sparsity-conversions.hpp:212-260. -/
def denseToCoo (dbg : Bool) (I : IntTy) (frm : Dense) (req : Option Int) : Res COO :=
  let Δ := req.getD 0
  let mk (s : Nat × List Int × List Int) : COO :=
    { rows := frm.rows, cols := frm.cols, symmetry := frm.symmetry,
      rowIndices := s.2.1, colIndices := s.2.2, order := .sortedByColsAndRows,
      firstIndex := req.getD 0 }
  match frm.symmetry with
  | .unsymmetric => do
    let r ← castSz dbg frm.rows
    let c ← castSz dbg frm.cols
    let s ← DenseToCoo.indices I Δ frm.cols (fun _ => frm.rows) (mulSz r c)
    .ok (mk s)
  | .upper =>
    if frm.rows ≠ frm.cols then .error (.throw .invalidArgument)
    else do
      let r ← castSz dbg frm.rows
      let r1 ← chk 64 (frm.rows + 1)
      let r1 ← castSz dbg r1
      let s ← DenseToCoo.indices I Δ frm.cols (fun c => c + 1) (mulSz r r1 / 2)
      .ok (mk s)
  | .lower => .error (.throw .invalidArgument)
  | .invalid => .error (.throw .invalidArgument)

/-- The column loop, sparsity-conversions.hpp:284-290, 718-724. -/
def packBody {T : Type} (dbg : Bool) (rows : Int) (vals : List T) (c : Int) (s : Nat × List T) :
    Res (Nat × List T) := do
  let c' ← castSz dbg c
  let n ← castSz dbg rows
  let t := s.1 + (c + 1).toNat
  let w ← DenseToCoo.copyBackward vals (mulSz c' n) (c' + 1) s.2 t
  .ok (t, w)

/-- `SparsityConverter<Dense, SparseCOO>::convert_values`, sparsity-conversions.hpp:275-296. -/
def denseToCooValues {T : Type} (dbg : Bool) (sp : COO) (vals work : List T) : Res (Out T) := do
  let n ← nnzFrom sp.rows sp.cols
  let n ← castSz dbg n
  assertM dbg (.ok (decide (vals.length = n)))
  let nnz ← sp.nnz dbg
  assertM dbg (.ok (decide (work.length = DenseToCoo.workSize sp.symmetry nnz)))
  match sp.symmetry with
  | .unsymmetric => .ok ⟨.fromValues, work⟩
  | .upper => do
    let s ← forRange 0 sp.cols (packBody dbg sp.rows vals) (0, work)
    .ok ⟨.work, s.2⟩
  | _ => .error (.throw .logicError)

/-- `SparsityConverter<Dense, SparseCSC>::convert_sparsity`, sparsity-conversions.hpp:644-693. -/
def denseToCsc (dbg : Bool) (I J : IntTy) (frm : Dense) : Res CSC :=
  let mk (s : List Int × List Int) : CSC :=
    { rows := frm.rows, cols := frm.cols, symmetry := frm.symmetry,
      innerIdx := s.1, outerPtr := s.2, order := .sortedRows }
  match frm.symmetry with
  | .unsymmetric => do
    let r ← castSz dbg frm.rows
    let c ← castSz dbg frm.cols
    let s ← DenseToCsc.indices dbg I J frm.cols (fun _ => frm.rows) (mulSz r c)
    .ok (mk s)
  | .upper =>
    if frm.rows ≠ frm.cols then .error (.throw .invalidArgument)
    else do
      let r ← castSz dbg frm.rows
      let s ← DenseToCsc.indices dbg I J frm.cols (fun c => c + 1) (mulSz r (addSz r 1) / 2)
      .ok (mk s)
  | .lower => .error (.throw .invalidArgument)
  | .invalid => .error (.throw .invalidArgument)

/-- `SparsityConverter<Dense, SparseCSC>::convert_values`, sparsity-conversions.hpp:709-730. -/
def denseToCscValues {T : Type} (dbg : Bool) (sp : CSC) (vals work : List T) : Res (Out T) := do
  let n ← nnzFrom sp.rows sp.cols
  let n ← castSz dbg n
  assertM dbg (.ok (decide (vals.length = n)))
  let nnz ← sp.nnz dbg
  assertM dbg (.ok (decide (work.length = DenseToCoo.workSize sp.symmetry nnz)))
  match sp.symmetry with
  | .unsymmetric => .ok ⟨.fromValues, work⟩
  | .upper => do
    let s ← forRange 0 sp.cols (packBody dbg sp.rows vals) (0, work)
    .ok ⟨.work, s.2⟩
  | _ => .error (if dbg then .assertFail else .ub)

/-- `SparsityConverter<Sparsity, To>`, sparsity-conversions.hpp:754-779, 823-828, on the machine. -/
def convert {T : Type} (zero : T) (std : StdLib) (dbg : Bool) : Pattern → Target → Res (AnyConv T)
  | .dense d, .dense => do
    let sp ← DenseToDense.construct d
    .ok ⟨.dense sp, .ok 0, nnzFrom sp.rows sp.cols, denseToDense dbg sp⟩
  | .csc _ _ s, .dense => do
    let sp ← CscToDense.construct dbg s
    .ok ⟨.dense sp, workSize dbg sp, s.nnz dbg, cscToDense zero dbg s sp⟩
  | .coo I s, .dense => do
    let sp ← CooToDense.construct dbg s
    .ok ⟨.dense sp, workSize dbg sp, s.nnz dbg, cooToDense zero dbg I s sp⟩
  | .dense d, .coo I f => do
    let sp ← denseToCoo dbg I d f
    .ok ⟨.coo I sp, do let n ← sp.nnz dbg
                       .ok (DenseToCoo.workSize sp.symmetry n),
      nnzFrom sp.rows sp.cols, denseToCooValues dbg sp⟩
  | .dense d, .csc I J _ => do
    let sp ← denseToCsc dbg I J d
    .ok ⟨.csc I J sp, do let n ← sp.nnz dbg
                         .ok (DenseToCoo.workSize sp.symmetry n),
      nnzFrom sp.rows sp.cols, denseToCscValues dbg sp⟩
  | p, tgt => Sparsity.convert zero std dbg p tgt

/-! ## Sizes that fit -/

section
variable {T : Type}

theorem mulSz_eq {a b : Nat} (h : a * b < 2 ^ 64) : mulSz a b = a * b := Nat.mod_eq_of_lt h

theorem index_lt {r c m n : Nat} (hr : r < m) (hc : c < n) : r + c * m < m * n := by
  have : c * m + m ≤ n * m := by
    rw [← Nat.succ_mul]; exact Nat.mul_le_mul_right _ hc
  rw [Nat.mul_comm m n]; omega

theorem writeW_eq {dbg : Bool} {rows cols r c : Int} (h0 : 0 ≤ rows) (h1 : 0 ≤ cols) (hf : rows * cols < 2 ^ 63)
    (hr : 0 ≤ r ∧ r < rows) (hc : 0 ≤ c ∧ c < cols) (v : T) (work : List T) :
    writeW dbg rows r c v work = Sparsity.writeW dbg rows r c v work := by
  unfold writeW Sparsity.writeW
  rw [castSz_ok hr.1, castSz_ok hc.1, castSz_ok h0]
  simp only [res_ok_bind]
  obtain ⟨m, rfl⟩ := Int.eq_ofNat_of_zero_le h0
  obtain ⟨n, rfl⟩ := Int.eq_ofNat_of_zero_le h1
  obtain ⟨a, rfl⟩ := Int.eq_ofNat_of_zero_le hr.1
  obtain ⟨b, rfl⟩ := Int.eq_ofNat_of_zero_le hc.1
  simp only [Int.toNat_natCast]
  have hf' : m * n < 2 ^ 63 := by exact_mod_cast hf
  have hi := index_lt (r := a) (c := b) (m := m) (n := n) (by omega) (by omega)
  rw [mulSz_eq (by omega)]
  unfold addSz
  rw [Nat.mod_eq_of_lt (by omega)]

theorem placeEntry_eq {dbg : Bool} {sym : Symmetry} {rows cols r c : Int} (h0 : 0 ≤ rows) (h1 : 0 ≤ cols)
    (hs : ShapeOk sym rows cols) (hf : rows * cols < 2 ^ 63) (hr : 0 ≤ r ∧ r < rows) (hc : 0 ≤ c ∧ c < cols) (v : T)
    (work : List T) : placeEntry dbg sym rows r c v work = Sparsity.placeEntry dbg sym rows r c v work := by
  have e := fun w => writeW_eq (dbg := dbg) h0 h1 hf hr hc v (w : List T)
  cases sym with
  | unsymmetric => exact e work
  | invalid => exact absurd rfl hs.1
  | _ =>
    have hsq := hs.2 (by decide)
    have e' := fun w => writeW_eq (dbg := dbg) h0 h1 hf (r := c) (c := r) (by omega) (by omega) v (w : List T)
    simp only [placeEntry, Sparsity.placeEntry, e, e']

theorem workSize_eq {dbg : Bool} {sp : Dense} (h0 : 0 ≤ sp.rows) (h1 : 0 ≤ sp.cols) (hf : sp.rows * sp.cols < 2 ^ 63) :
    workSize dbg sp = CscToDense.workSize dbg sp := by
  unfold workSize CscToDense.workSize
  rw [castSz_ok h0, castSz_ok h1]
  simp only [res_ok_bind]
  obtain ⟨m, hm⟩ := Int.eq_ofNat_of_zero_le h0
  obtain ⟨n, hn⟩ := Int.eq_ofNat_of_zero_le h1
  rw [hm, hn] at hf ⊢
  simp only [Int.toNat_natCast]
  have hf' : m * n < 2 ^ 63 := by exact_mod_cast hf
  rw [mulSz_eq (by omega)]

theorem nnzFrom_eq {rows cols : Int} (h0 : 0 ≤ rows) (h1 : 0 ≤ cols) (hf : rows * cols < 2 ^ 63) :
    nnzFrom rows cols = .ok (rows * cols) := by
  unfold nnzFrom
  refine chk_ok.2 ⟨⟨?_, hf⟩, rfl⟩
  have := Int.mul_nonneg h0 h1
  have : (0 : Int) < 2 ^ (64 - 1) := Int.pow_pos (by decide)
  omega

theorem forRange_congr' {σ : Type} {lo hi : Int} {f g : Int → σ → Res σ} (h : ∀ i s, lo ≤ i → i < hi → f i s = g i s) (s : σ) :
    forRange lo hi f s = forRange lo hi g s := by
  rw [forRange_eq_foldlM, forRange_eq_foldlM]
  apply foldlM_congr
  intro a ha s
  have := mem_rangeI.1 ha
  exact h a s this.1 this.2


theorem rd_mem {α : Type} {l : List α} {i : Nat} {v : α} (h : rd l i = .ok v) : v ∈ l := by
  unfold rd at h
  cases hl : l[i]? with
  | none => rw [hl] at h; cases h
  | some w => rw [hl] at h; cases h; exact List.mem_of_getElem? hl

theorem cscInner_eq {dbg : Bool} {s : CSC} (hwf : s.Wf) (hs : ShapeOk s.symmetry s.rows s.cols)
    (hf : s.rows * s.cols < 2 ^ 63) {sp : Dense} (hsp : sp.rows = s.rows) (vals : List T) {c : Int} (hc : 0 ≤ c ∧ c < s.cols)
    (i : Int) (st : Nat × List T) : cscInner dbg s sp vals c i st = CscToDense.innerBody dbg s sp vals c i st := by
  unfold cscInner CscToDense.innerBody
  cases hi : castSz dbg i with
  | error e => rfl
  | ok i' =>
    simp only [res_ok_bind]
    cases hr : rd s.innerIdx i' with
    | error e => rfl
    | ok r =>
      simp only [res_ok_bind]
      have := hwf.inner_range r (rd_mem hr)
      simp only [hsp, placeEntry_eq hwf.rows_nonneg hwf.cols_nonneg hs hf this hc]

theorem cscToDense_eq {zero : T} {dbg : Bool} {s : CSC} (hwf : s.Wf) (hs : ShapeOk s.symmetry s.rows s.cols)
    (hf : s.rows * s.cols < 2 ^ 63) {sp : Dense} (hsp : sp.rows = s.rows) (hsp' : sp.cols = s.cols) :
    cscToDense zero dbg s sp = CscToDense.convertValues zero dbg s sp := by
  funext vals work
  have hl : forRange 0 s.cols (cscOuter dbg s sp vals) (0, List.replicate work.length zero) =
      forRange 0 s.cols (CscToDense.outerBody dbg s sp vals) (0, List.replicate work.length zero) := by
    refine forRange_congr' (fun c st h1 h2 => ?_) _
    unfold cscOuter CscToDense.outerBody
    have e : cscInner dbg s sp vals c = CscToDense.innerBody dbg s sp vals c := by
      funext i st; exact cscInner_eq hwf hs hf hsp vals ⟨h1, h2⟩ i st
    rw [e]
  unfold cscToDense CscToDense.convertValues
  rw [workSize_eq (by rw [hsp]; exact hwf.rows_nonneg) (by rw [hsp']; exact hwf.cols_nonneg) (by rw [hsp, hsp']; exact hf), hl]

theorem cooBody_eq {dbg : Bool} {I : IntTy} {s : COO} (hwf : s.Wf) (hs : ShapeOk s.symmetry s.rows s.cols)
    (hf : s.rows * s.cols < 2 ^ 63) {sp : Dense} (hsp : sp.rows = s.rows) (vals : List T) (l : Int) (work : List T) :
    cooBody dbg I s sp vals l work = CooToDense.body dbg I s sp vals l work := by
  unfold cooBody CooToDense.body
  cases hr : rd s.rowIndices l.toNat with
  | error e => rfl
  | ok r₀ =>
    simp only [res_ok_bind]
    have h1 := hwf.row_range r₀ (rd_mem hr)
    unfold IntTy.sub
    by_cases hfr : I.fits (r₀ - s.firstIndex)
    · rw [if_pos hfr]
      simp only [res_ok_bind]
      cases hc : rd s.colIndices l.toNat with
      | error e => rfl
      | ok c₀ =>
        simp only [res_ok_bind]
        have h2 := hwf.col_range c₀ (rd_mem hc)
        by_cases hfc : I.fits (c₀ - s.firstIndex)
        · rw [if_pos hfc]
          simp only [res_ok_bind, hsp, placeEntry_eq hwf.rows_nonneg hwf.cols_nonneg hs hf h1 h2]
        · rw [if_neg hfc]; rfl
    · rw [if_neg hfr]; rfl

theorem cooToDense_eq {zero : T} {dbg : Bool} {I : IntTy} {s : COO} (hwf : s.Wf) (hs : ShapeOk s.symmetry s.rows s.cols)
    (hf : s.rows * s.cols < 2 ^ 63) {sp : Dense} (hsp : sp.rows = s.rows) (hsp' : sp.cols = s.cols) :
    cooToDense zero dbg I s sp = CooToDense.convertValues zero dbg I s sp := by
  funext vals work
  have e : cooBody dbg I s sp vals = CooToDense.body dbg I s sp vals := by
    funext l w; exact cooBody_eq hwf hs hf hsp vals l w
  unfold cooToDense CooToDense.convertValues
  rw [workSize_eq (by rw [hsp]; exact hwf.rows_nonneg) (by rw [hsp']; exact hwf.cols_nonneg) (by rw [hsp, hsp']; exact hf), e]

/-- Twice the elements of a triangle. -/
theorem triangle_lt {n : Nat} (h : n * n < 2 ^ 63) : n * (n + 1) < 2 ^ 64 := by
  have : n ≤ n * n := Nat.le_mul_self n
  rw [Nat.mul_add, Nat.mul_one]
  omega

theorem small_of_square {n : Nat} (h : n * n < 2 ^ 63) : n < 2 ^ 62 := by
  apply Nat.lt_of_not_le
  intro hn
  have : 2 ^ 62 * 2 ^ 62 ≤ n * n := Nat.mul_le_mul hn hn
  have : (2 : Nat) ^ 63 ≤ 2 ^ 62 * 2 ^ 62 := by decide
  omega

theorem denseToCoo_eq {dbg : Bool} {I : IntTy} {d : Dense} {req : Option Int} (h0 : 0 ≤ d.rows) (h1 : 0 ≤ d.cols)
    (hf : d.rows * d.cols < 2 ^ 63) : denseToCoo dbg I d req = DenseToCoo.construct dbg I d req := by
  obtain ⟨rows, cols, sym⟩ := d
  obtain ⟨m, rfl⟩ := Int.eq_ofNat_of_zero_le h0
  obtain ⟨n, rfl⟩ := Int.eq_ofNat_of_zero_le h1
  have hf' : m * n < 2 ^ 63 := by dsimp only at hf; exact_mod_cast hf
  unfold denseToCoo DenseToCoo.construct
  cases sym with
  | unsymmetric => simp only [castSz_nat, res_ok_bind, mulSz_eq (show m * n < 2 ^ 64 by omega)]
  | upper =>
    dsimp only
    by_cases he : (m : Int) = n
    · have he' : m = n := by omega
      subst he'
      have hs := small_of_square hf'
      have hc : chk 64 ((m : Int) + 1) = .ok (((m + 1 : Nat)) : Int) := by
        refine chk_ok.2 ⟨⟨?_, ?_⟩, by push_cast; rfl⟩
        · have : (0 : Int) < 2 ^ (64 - 1) := Int.pow_pos (by decide)
          omega
        · have : ((m + 1 : Nat) : Int) < ((2 ^ 63 : Nat) : Int) := by exact_mod_cast (by omega : m + 1 < 2 ^ 63)
          push_cast at this
          exact this
      rw [if_neg (by simp), if_neg (by simp), hc]
      have e1 : ((m : Int) + 1) = ((m + 1 : Nat) : Int) := by push_cast; rfl
      rw [e1]
      simp only [castSz_nat, res_ok_bind, mulSz_eq (triangle_lt hf')]
    · rw [if_pos he, if_pos he]
  | _ => rfl

theorem denseToCsc_eq {dbg : Bool} {I J : IntTy} {d : Dense} (h0 : 0 ≤ d.rows) (h1 : 0 ≤ d.cols)
    (hf : d.rows * d.cols < 2 ^ 63) : denseToCsc dbg I J d = DenseToCsc.construct dbg I J d := by
  obtain ⟨rows, cols, sym⟩ := d
  obtain ⟨m, rfl⟩ := Int.eq_ofNat_of_zero_le h0
  obtain ⟨n, rfl⟩ := Int.eq_ofNat_of_zero_le h1
  have hf' : m * n < 2 ^ 63 := by dsimp only at hf; exact_mod_cast hf
  unfold denseToCsc DenseToCsc.construct
  cases sym with
  | unsymmetric => simp only [castSz_nat, res_ok_bind, mulSz_eq (show m * n < 2 ^ 64 by omega)]
  | upper =>
    dsimp only
    by_cases he : (m : Int) = n
    · have he' : m = n := by omega
      subst he'
      have hs := small_of_square hf'
      have ha : addSz m 1 = m + 1 := Nat.mod_eq_of_lt (by omega)
      rw [if_neg (by simp), if_neg (by simp)]
      simp only [castSz_nat, res_ok_bind, ha, mulSz_eq (triangle_lt hf')]
    · rw [if_pos he, if_pos he]
  | _ => rfl

theorem packBody_eq {dbg : Bool} {n : Nat} (hf : n * n < 2 ^ 63) (vals : List T) {c : Int} (hc : 0 ≤ c ∧ c < n)
    (s : Nat × List T) : packBody dbg n vals c s = DenseToCoo.packBody dbg n vals c s := by
  obtain ⟨b, rfl⟩ := Int.eq_ofNat_of_zero_le hc.1
  unfold packBody DenseToCoo.packBody
  have : b * n ≤ n * n := Nat.mul_le_mul_right _ (by omega)
  simp only [castSz_nat, res_ok_bind, mulSz_eq (show b * n < 2 ^ 64 by omega)]

theorem pack_eq {dbg : Bool} {rows cols : Int} (h0 : 0 ≤ rows) (he : rows = cols) (hf : rows * cols < 2 ^ 63) (vals : List T)
    (s : Nat × List T) :
    forRange 0 cols (packBody dbg rows vals) s = forRange 0 cols (DenseToCoo.packBody dbg rows vals) s := by
  subst he
  obtain ⟨n, rfl⟩ := Int.eq_ofNat_of_zero_le h0
  exact forRange_congr' (fun c st h1 h2 => packBody_eq (by exact_mod_cast hf) vals ⟨h1, h2⟩ st) s

theorem denseToCooValues_eq {dbg : Bool} {sp : COO} (h0 : 0 ≤ sp.rows) (h1 : 0 ≤ sp.cols)
    (hs : ShapeOk sp.symmetry sp.rows sp.cols) (hf : sp.rows * sp.cols < 2 ^ 63) :
    (denseToCooValues dbg sp : List T → List T → _) = DenseToCoo.convertValues dbg sp := by
  funext vals work
  unfold denseToCooValues DenseToCoo.convertValues
  rw [nnzFrom_eq h0 h1 hf, res_ok_bind]
  cases hsym : sp.symmetry with
  | upper => simp only [pack_eq h0 (hs.2 (by rw [hsym]; decide)) hf]
  | _ => rfl

theorem denseToCscValues_eq {dbg : Bool} {sp : CSC} (h0 : 0 ≤ sp.rows) (h1 : 0 ≤ sp.cols)
    (hs : ShapeOk sp.symmetry sp.rows sp.cols) (hf : sp.rows * sp.cols < 2 ^ 63) :
    (denseToCscValues dbg sp : List T → List T → _) = DenseToCsc.convertValues dbg sp := by
  funext vals work
  unfold denseToCscValues DenseToCsc.convertValues
  rw [nnzFrom_eq h0 h1 hf, res_ok_bind]
  cases hsym : sp.symmetry with
  | upper => simp only [pack_eq h0 (hs.2 (by rw [hsym]; decide)) hf]
  | _ => rfl

theorem denseToDense_eq {dbg : Bool} {sp : Dense} (h0 : 0 ≤ sp.rows) (h1 : 0 ≤ sp.cols)
    (hf : sp.rows * sp.cols < 2 ^ 63) :
    (denseToDense dbg sp : List T → List T → _) = DenseToDense.convertValues dbg sp := by
  funext vals work
  unfold denseToDense DenseToDense.convertValues
  rw [nnzFrom_eq h0 h1 hf, res_ok_bind]

theorem bind_congr_ok {α β : Type} {x : Res α} {f g : α → Res β} (h : ∀ a, x = .ok a → f a = g a) :
    (x >>= f) = x >>= g := by
  cases x with
  | error e => rfl
  | ok a => exact h a rfl

theorem coo_shape {dbg : Bool} {I : IntTy} {d : Dense} {req : Option Int} {sp : COO}
    (h : DenseToCoo.construct dbg I d req = .ok sp) :
    sp.rows = d.rows ∧ sp.cols = d.cols ∧ sp.symmetry = d.symmetry := by
  obtain ⟨rows, cols, sym⟩ := d
  unfold DenseToCoo.construct at h
  cases sym with
  | unsymmetric =>
    obtain ⟨_, -, h⟩ := res_bind_ok.1 h
    obtain ⟨_, -, h⟩ := res_bind_ok.1 h
    obtain ⟨_, -, h⟩ := res_bind_ok.1 h
    cases h; exact ⟨rfl, rfl, rfl⟩
  | upper =>
    dsimp only at h
    split at h
    · cases h
    · obtain ⟨_, -, h⟩ := res_bind_ok.1 h
      obtain ⟨_, -, h⟩ := res_bind_ok.1 h
      obtain ⟨_, -, h⟩ := res_bind_ok.1 h
      cases h; exact ⟨rfl, rfl, rfl⟩
  | _ => cases h

theorem csc_shape {dbg : Bool} {I J : IntTy} {d : Dense} {sp : CSC}
    (h : DenseToCsc.construct dbg I J d = .ok sp) :
    sp.rows = d.rows ∧ sp.cols = d.cols ∧ sp.symmetry = d.symmetry := by
  obtain ⟨rows, cols, sym⟩ := d
  unfold DenseToCsc.construct at h
  cases sym with
  | unsymmetric =>
    obtain ⟨_, -, h⟩ := res_bind_ok.1 h
    obtain ⟨_, -, h⟩ := res_bind_ok.1 h
    obtain ⟨_, -, h⟩ := res_bind_ok.1 h
    cases h; exact ⟨rfl, rfl, rfl⟩
  | upper =>
    dsimp only at h
    split at h
    · cases h
    · obtain ⟨_, -, h⟩ := res_bind_ok.1 h
      obtain ⟨_, -, h⟩ := res_bind_ok.1 h
      cases h; exact ⟨rfl, rfl, rfl⟩
  | _ => cases h

theorem csc_dense_shape {dbg : Bool} {s : CSC} {sp : Dense} (h : CscToDense.construct dbg s = .ok sp) :
    sp.rows = s.rows ∧ sp.cols = s.cols := by
  obtain ⟨_, -, h⟩ := res_bind_ok.1 h
  obtain ⟨_, -, h⟩ := res_bind_ok.1 h
  cases h; exact ⟨rfl, rfl⟩

theorem coo_dense_shape {dbg : Bool} {s : COO} {sp : Dense} (h : CooToDense.construct dbg s = .ok sp) :
    sp.rows = s.rows ∧ sp.cols = s.cols := by
  obtain ⟨_, -, h⟩ := res_bind_ok.1 h
  obtain ⟨_, -, h⟩ := res_bind_ok.1 h
  cases h; exact ⟨rfl, rfl⟩

theorem dense_dense_shape {d sp : Dense} (h : DenseToDense.construct d = .ok sp) : sp = d := by
  obtain ⟨_, -, h⟩ := res_bind_ok.1 h
  cases h; rfl

/-- **With fewer than 2^63 elements, the machine computes what the unbounded model computes**, for every valid matrix, every
target and every request: the same converter, with the same sizes and the same conversion of all values. So all claims on
conversions hold on the machine. -/
theorem convert_machine_partial (zero : T) (std : StdLib) (dbg : Bool) (p : Pattern) (tgt : Target) (hv : p.Valid)
    (hf : numRows p * numCols p < 2 ^ 63) : convert zero std dbg p tgt = Sparsity.convert zero std dbg p tgt := by
  cases p with
  | dense d =>
    obtain ⟨h0, h1, hs⟩ := hv
    simp only [numRows, numCols] at hf
    cases tgt with
    | dense =>
      refine bind_congr_ok fun sp hsp => ?_
      rw [dense_dense_shape hsp, nnzFrom_eq h0 h1 hf, denseToDense_eq h0 h1 hf]
    | coo I f =>
      simp only [convert, Sparsity.convert]
      rw [denseToCoo_eq h0 h1 hf]
      refine bind_congr_ok fun sp hsp => ?_
      obtain ⟨e1, e2, e3⟩ := coo_shape hsp
      rw [nnzFrom_eq (by rw [e1]; exact h0) (by rw [e2]; exact h1) (by rw [e1, e2]; exact hf),
        denseToCooValues_eq (by rw [e1]; exact h0) (by rw [e2]; exact h1) (by rw [e1, e2, e3]; exact hs)
          (by rw [e1, e2]; exact hf)]
    | csc I J o =>
      simp only [convert, Sparsity.convert]
      rw [denseToCsc_eq h0 h1 hf]
      refine bind_congr_ok fun sp hsp => ?_
      obtain ⟨e1, e2, e3⟩ := csc_shape hsp
      rw [nnzFrom_eq (by rw [e1]; exact h0) (by rw [e2]; exact h1) (by rw [e1, e2]; exact hf),
        denseToCscValues_eq (by rw [e1]; exact h0) (by rw [e2]; exact h1) (by rw [e1, e2, e3]; exact hs)
          (by rw [e1, e2]; exact hf)]
  | csc I' J' s =>
    obtain ⟨hwf, -, -, hs, -⟩ := hv
    simp only [numRows, numCols] at hf
    cases tgt with
    | dense =>
      refine bind_congr_ok fun sp hsp => ?_
      obtain ⟨e1, e2⟩ := csc_dense_shape hsp
      rw [workSize_eq (by rw [e1]; exact hwf.rows_nonneg) (by rw [e2]; exact hwf.cols_nonneg) (by rw [e1, e2]; exact hf),
        cscToDense_eq hwf hs hf e1 e2]
    | _ => rfl
  | coo I' s =>
    obtain ⟨hwf, -, -, hs, -⟩ := hv
    simp only [numRows, numCols] at hf
    cases tgt with
    | dense =>
      refine bind_congr_ok fun sp hsp => ?_
      obtain ⟨e1, e2⟩ := coo_dense_shape hsp
      rw [workSize_eq (by rw [e1]; exact hwf.rows_nonneg) (by rw [e2]; exact hwf.cols_nonneg) (by rw [e1, e2]; exact hf),
        cooToDense_eq hwf hs hf e1 e2]
    | _ => rfl

/-! ## Sizes that do not fit -/

/-- C129, full statement: on the machine, `convert_values_copy` gives the matrix, for every valid matrix and every supported
conversion. -/
def SizesFit : Prop :=
  ∀ (T : Type) (zero : T) (std : StdLib) (dbg : Bool) (p : Pattern) (tgt : Target), std.Ok → p.Valid → Supported dbg p tgt →
    ∃ c, convert zero std dbg p tgt = .ok c ∧ ∀ vals : List T, vals.length = p.count →
      ∃ out, convertValuesCopy zero c vals = .ok out ∧ out.length = c.sparsity.count ∧
        ∀ M, p.Denotes zero vals M → c.sparsity.Denotes zero out M

/-- C129 for matrices of fewer than 2^63 elements. -/
theorem sizes_fit_partial (zero : T) (std : StdLib) (hstd : std.Ok) (dbg : Bool) (p : Pattern) (tgt : Target) (hv : p.Valid)
    (hs : Supported dbg p tgt) (hf : numRows p * numCols p < 2 ^ 63) :
    ∃ c, convert zero std dbg p tgt = .ok c ∧ ∀ vals : List T, vals.length = p.count →
      ∃ out, convertValuesCopy zero c vals = .ok out ∧ out.length = c.sparsity.count ∧
        ∀ M, p.Denotes zero vals M → c.sparsity.Denotes zero out M := by
  rw [convert_machine_partial zero std dbg p tgt hv hf]
  exact convertValuesCopy_correct zero std hstd dbg p tgt hv hs

/-- **The conversions that do not multiply sizes are not affected.** -/
theorem convert_sparse (zero : T) (std : StdLib) (dbg : Bool) (p : Pattern) (tgt : Target) (h1 : isDense p = false)
    (h2 : tgt ≠ .dense) : convert zero std dbg p tgt = Sparsity.convert zero std dbg p tgt := by
  cases p with
  | dense d => cases h1
  | _ => cases tgt with
    | dense => exact absurd rfl h2
    | _ => rfl

theorem writeW_length {dbg : Bool} {rows r c : Int} {v : T} {work out : List T}
    (h : writeW dbg rows r c v work = .ok out) : out.length = work.length := by
  obtain ⟨_, -, h⟩ := res_bind_ok.1 h
  obtain ⟨_, -, h⟩ := res_bind_ok.1 h
  obtain ⟨_, -, h⟩ := res_bind_ok.1 h
  unfold wr at h
  split at h
  · cases h; exact List.length_set
  · cases h

theorem placeEntry_length {dbg : Bool} {sym : Symmetry} {rows r c : Int} {v : T} {work out : List T}
    (h : placeEntry dbg sym rows r c v work = .ok out) : out.length = work.length := by
  cases sym with
  | unsymmetric => exact writeW_length h
  | _ =>
    obtain ⟨w, h1, h2⟩ := res_bind_ok.1 h
    exact (writeW_length h2).trans (writeW_length h1)

/-- What holds of the state of a loop that ends. -/
theorem forRange_ok_inv {σ : Type} {body : Int → σ → Res σ} (P : Int → σ → Prop) {lo hi : Int} {s s' : σ} (h0 : P lo s)
    (hb : ∀ i s s', lo ≤ i → i < hi → P i s → body i s = .ok s' → P (i + 1) s') (h : forRange lo hi body s = .ok s') :
    P (max lo hi) s' := by
  have key : ∀ (n : Nat) (lo : Int) (s : σ), P lo s →
      (∀ i s s', lo ≤ i → i < lo + n → P i s → body i s = .ok s' → P (i + 1) s') →
      forLoop body lo n s = .ok s' → P (lo + n) s' := by
    intro n
    induction n with
    | zero => intro lo s h0 _ h; cases h; simpa using h0
    | succ n ih =>
      intro lo s h0 hb h
      obtain ⟨s₁, h1, h2⟩ := res_bind_ok.1 h
      have := ih (lo + 1) s₁ (hb lo s s₁ (by omega) (by omega) h0 h1)
        (fun i s s' h1 h2 hp => hb i s s' (by omega) (by omega) hp) h2
      rwa [show lo + 1 + (n : Int) = lo + ((n + 1 : Nat) : Int) by omega] at this
  have := key (hi - lo).toNat lo s h0 (fun i s s' h1 h2 => hb i s s' h1 (by omega)) h
  rwa [show lo + ((hi - lo).toNat : Int) = max lo hi by omega] at this

theorem cscToDense_length {zero : T} {dbg : Bool} {s : CSC} {sp : Dense} {vals work : List T} {o : Out T}
    (h : cscToDense zero dbg s sp vals work = .ok o) : o.loc = .work ∧ o.work.length = work.length := by
  obtain ⟨_, -, h⟩ := res_bind_ok.1 h
  obtain ⟨_, -, h⟩ := res_bind_ok.1 h
  obtain ⟨_, -, h⟩ := res_bind_ok.1 h
  obtain ⟨_, -, h⟩ := res_bind_ok.1 h
  obtain ⟨st, h1, h⟩ := res_bind_ok.1 h
  cases h
  refine ⟨rfl, ?_⟩
  refine forRange_ok_inv (fun _ st => st.2.length = work.length) (by simp) (fun c st st' _ _ hp hb => ?_) h1
  obtain ⟨_, -, hb⟩ := res_bind_ok.1 hb
  obtain ⟨_, -, hb⟩ := res_bind_ok.1 hb
  obtain ⟨_, -, hb⟩ := res_bind_ok.1 hb
  refine forRange_ok_inv (fun _ st => st.2.length = work.length) hp (fun i st st' _ _ hp hb => ?_) hb
  obtain ⟨_, -, hb⟩ := res_bind_ok.1 hb
  obtain ⟨_, -, hb⟩ := res_bind_ok.1 hb
  obtain ⟨_, -, hb⟩ := res_bind_ok.1 hb
  obtain ⟨_, -, hb⟩ := res_bind_ok.1 hb
  obtain ⟨_, h2, hb⟩ := res_bind_ok.1 hb
  cases hb
  exact (placeEntry_length h2).trans hp

theorem cooToDense_length {zero : T} {dbg : Bool} {I : IntTy} {s : COO} {sp : Dense} {vals work : List T} {o : Out T}
    (h : cooToDense zero dbg I s sp vals work = .ok o) : o.loc = .work ∧ o.work.length = work.length := by
  obtain ⟨_, -, h⟩ := res_bind_ok.1 h
  obtain ⟨_, -, h⟩ := res_bind_ok.1 h
  obtain ⟨_, -, h⟩ := res_bind_ok.1 h
  obtain ⟨_, -, h⟩ := res_bind_ok.1 h
  obtain ⟨st, h1, h⟩ := res_bind_ok.1 h
  cases h
  refine ⟨rfl, ?_⟩
  refine forRange_ok_inv (fun _ st => st.length = work.length) (by simp) (fun c st st' _ _ hp hb => ?_) h1
  obtain ⟨_, -, hb⟩ := res_bind_ok.1 hb
  obtain ⟨_, -, hb⟩ := res_bind_ok.1 hb
  obtain ⟨_, -, hb⟩ := res_bind_ok.1 hb
  obtain ⟨_, -, hb⟩ := res_bind_ok.1 hb
  obtain ⟨_, -, hb⟩ := res_bind_ok.1 hb
  obtain ⟨_, -, hb⟩ := res_bind_ok.1 hb
  exact (placeEntry_length hb).trans hp

theorem copy_length {zero : T} {c : AnyConv T} {n : Nat} (hw : c.workSize = .ok n)
    (hr : ∀ vals work o, c.run vals work = .ok o → o.loc = .work ∧ o.work.length = work.length) {vals out : List T}
    (h : convertValuesCopy zero c vals = .ok out) : out.length = n := by
  unfold convertValuesCopy at h
  rw [hw, res_ok_bind] at h
  obtain ⟨o, h1, h⟩ := res_bind_ok.1 h
  obtain ⟨h2, h3⟩ := hr _ _ _ h1
  cases h
  unfold Out.values
  rw [h2]
  simpa using h3

/-- **Sparse to dense, exactly**: on the machine, the work size is the number of elements modulo 2^64, and whatever
`convert_values_copy` returns has that many elements: the number of elements of the matrix if and only if that is below
2^64. -/
theorem sparse_to_dense_size (zero : T) (std : StdLib) (dbg : Bool) (p : Pattern) (hv : p.Valid) (hd : isDense p = false) :
    ∃ c, convert zero std dbg p .dense = .ok c ∧
      c.workSize = .ok ((numRows p * numCols p).toNat % 2 ^ 64) ∧
      (c.workSize = .ok (numRows p * numCols p).toNat ↔ numRows p * numCols p < 2 ^ 64) ∧
      ∀ vals out, convertValuesCopy zero c vals = .ok out → out.length = (numRows p * numCols p).toNat % 2 ^ 64 := by
  have hwork : ∀ sp : Dense, 0 ≤ sp.rows → 0 ≤ sp.cols →
      workSize dbg sp = .ok ((sp.rows * sp.cols).toNat % 2 ^ 64) ∧
      (workSize dbg sp = .ok (sp.rows * sp.cols).toNat ↔ sp.rows * sp.cols < 2 ^ 64) := by
    rintro ⟨rows, cols, sym⟩ h0 h1
    obtain ⟨m, rfl⟩ := Int.eq_ofNat_of_zero_le h0
    obtain ⟨n, rfl⟩ := Int.eq_ofNat_of_zero_le h1
    have e : ((m : Int) * n).toNat = m * n := by
      rw [← Int.natCast_mul, Int.toNat_natCast]
    have e1 : workSize dbg ⟨(m : Int), (n : Int), sym⟩ = .ok (m * n % 2 ^ 64) := by
      unfold workSize mulSz
      simp only [castSz_nat, res_ok_bind]
    dsimp only
    rw [e, e1]
    refine ⟨rfl, ?_⟩
    have e2 : ((m : Int) * n < 2 ^ 64) ↔ m * n < 2 ^ 64 := by
      rw [← Int.natCast_mul]
      exact_mod_cast Iff.rfl
    rw [e2]
    constructor
    · intro h
      have h : m * n % 2 ^ 64 = m * n := by injection h
      rw [← h]; exact Nat.mod_lt _ (by decide)
    · intro h; rw [Nat.mod_eq_of_lt h]
  cases p with
  | dense d => cases hd
  | csc I J s =>
    obtain ⟨hwf, -, hnd, hs, -⟩ := hv
    have hc : CscToDense.construct dbg s = .ok ⟨s.rows, s.cols, s.symmetry⟩ := by
      rw [CscToDense.construct, assertM_ok (checkUnique_of_nodup hwf hnd), res_ok_bind, checkSquare,
        if_neg (by intro ⟨h1, h2⟩; exact h2 (hs.2 h1))]
      rfl
    obtain ⟨h1, h2⟩ := hwork ⟨s.rows, s.cols, s.symmetry⟩ hwf.rows_nonneg hwf.cols_nonneg
    refine ⟨⟨.dense ⟨s.rows, s.cols, s.symmetry⟩, workSize dbg ⟨s.rows, s.cols, s.symmetry⟩, s.nnz dbg,
      cscToDense zero dbg s ⟨s.rows, s.cols, s.symmetry⟩⟩, ?_, h1, h2, fun vals out h => ?_⟩
    · simp only [convert, hc, res_ok_bind]
    · exact copy_length h1 (fun _ _ _ h => cscToDense_length h) h
  | coo I s =>
    obtain ⟨hwf, -, hnd, hs, -⟩ := hv
    have hc : CooToDense.construct dbg s = .ok ⟨s.rows, s.cols, s.symmetry⟩ := by
      have hzip : (s.rowIndices.zip s.colIndices).Nodup := by
        rw [COO.positions] at hnd
        exact List.Nodup.of_map _ hnd
      rw [CooToDense.construct, checkUniquenessTriplets, noAdjacentEqual_of_nodup hzip,
        assertM_ok rfl, res_ok_bind, checkSquare, if_neg (by intro ⟨h1, h2⟩; exact h2 (hs.2 h1))]
      rfl
    obtain ⟨h1, h2⟩ := hwork ⟨s.rows, s.cols, s.symmetry⟩ hwf.rows_nonneg hwf.cols_nonneg
    refine ⟨⟨.dense ⟨s.rows, s.cols, s.symmetry⟩, workSize dbg ⟨s.rows, s.cols, s.symmetry⟩, s.nnz dbg,
      cooToDense zero dbg I s ⟨s.rows, s.cols, s.symmetry⟩⟩, ?_, h1, h2, fun vals out h => ?_⟩
    · simp only [convert, hc, res_ok_bind]
    · exact copy_length h1 (fun _ _ _ h => cooToDense_length h) h

/-- **Dense matrices**: `nnz_from` is defined exactly if the number of elements fits in a `std::ptrdiff_t`. -/
theorem nnzFrom_iff {rows cols : Int} (h0 : 0 ≤ rows) (h1 : 0 ≤ cols) :
    nnzFrom rows cols = .ok (rows * cols) ↔ rows * cols < 2 ^ 63 := by
  refine ⟨fun h => ?_, nnzFrom_eq h0 h1⟩
  exact (chk_ok.1 h).1.2

theorem coo_body_ok {I : IntTy} {Δ c r : Int} {s s' : Nat × List Int × List Int} (h : DenseToCoo.body I Δ c r s = .ok s') :
    s'.1 = s.1 + 1 ∧ s'.2.1.length = s.2.1.length ∧ s.1 < s.2.1.length := by
  obtain ⟨_, -, h⟩ := res_bind_ok.1 h
  obtain ⟨rs, h1, h⟩ := res_bind_ok.1 h
  obtain ⟨_, -, h⟩ := res_bind_ok.1 h
  obtain ⟨_, -, h⟩ := res_bind_ok.1 h
  cases h
  unfold wr at h1
  split at h1
  · cases h1; exact ⟨rfl, List.length_set, by assumption⟩
  · cases h1

/-- The writes of a constructor from a dense matrix: all elements, each in the next place. -/
theorem dense_writes {σ : Type} {pos len : σ → Nat} {outer : Int → σ → Res σ} {inner : Int → Int → σ → Res σ} {m n : Nat}
    {pre : Int → σ → Res σ}
    (hpre : ∀ c s s', pre c s = .ok s' → pos s' = pos s ∧ len s' = len s)
    (hout : ∀ c s, outer c s = pre c s >>= forRange 0 m (inner c))
    (hin : ∀ c r s s', inner c r s = .ok s' → pos s' = pos s + 1 ∧ len s' = len s ∧ pos s < len s) {s s' : σ}
    (h0 : pos s = 0) (h : forRange 0 n outer s = .ok s') : m * n ≤ len s := by
  have hend := forRange_ok_inv (fun c t => (pos t : Int) = c * m ∧ len t = len s ∧ pos t ≤ len t)
    ⟨by simp [h0], rfl, by omega⟩ (fun c t t' h1 h2 hp hb => ?_) h
  · have e : max 0 (n : Int) = n := by omega
    rw [e] at hend
    obtain ⟨h1, h2, h3⟩ := hend
    have : pos s' = n * m := by exact_mod_cast h1
    rw [Nat.mul_comm]; omega
  · rw [hout] at hb
    obtain ⟨t₁, hb1, hb2⟩ := res_bind_ok.1 hb
    obtain ⟨e1, e2⟩ := hpre c t t₁ hb1
    obtain ⟨p1, p2, p3⟩ := hp
    have hrow := forRange_ok_inv (fun r u => (pos u : Int) = c * m + r ∧ len u = len s ∧ pos u ≤ len u)
      ⟨by rw [e1]; omega, by rw [e2]; exact p2, by rw [e1, e2]; exact p3⟩ (fun r u u' h1 h2 hp hb => ?_) hb2
    · have e : max 0 (m : Int) = m := by omega
      rw [e] at hrow
      refine ⟨?_, hrow.2.1, hrow.2.2⟩
      rw [hrow.1, Int.add_mul, Int.one_mul]
    · obtain ⟨q1, q2, q3⟩ := hin c r u u' hb
      obtain ⟨p1, p2, p3⟩ := hp
      exact ⟨by rw [q1]; push_cast; omega, by omega, by omega⟩

/-- **A dense matrix of 2^64 elements or more cannot be converted**: the index vectors have the size modulo 2^64, and the
constructor writes behind their end. -/
theorem dense_overflow (dbg : Bool) (I J : IntTy) (m n : Nat) (h : 2 ^ 64 ≤ m * n) (req : Option Int) :
    (∀ sp, denseToCoo dbg I ⟨m, n, .unsymmetric⟩ req ≠ .ok sp) ∧ ∀ sp, denseToCsc dbg I J ⟨m, n, .unsymmetric⟩ ≠ .ok sp := by
  have hlt : mulSz m n < 2 ^ 64 := Nat.mod_lt _ (by decide)
  constructor
  · intro sp hsp
    unfold denseToCoo at hsp
    simp only [castSz_nat, res_ok_bind] at hsp
    obtain ⟨s', h1, -⟩ := res_bind_ok.1 hsp
    have := dense_writes (σ := Nat × List Int × List Int) (pos := fun s => s.1) (len := fun s => s.2.1.length)
      (pre := fun _ s => .ok s) (m := m) (n := n) (fun c s s' h => by cases h; exact ⟨rfl, rfl⟩) (fun c s => rfl)
      (fun c r s s' h => coo_body_ok h) rfl h1
    simp at this
    omega
  · intro sp hsp
    unfold denseToCsc at hsp
    simp only [castSz_nat, res_ok_bind] at hsp
    obtain ⟨s', h1, -⟩ := res_bind_ok.1 hsp
    unfold DenseToCsc.indices at h1
    simp only [castSz_nat, res_ok_bind] at h1
    obtain ⟨s', h1, -⟩ := res_bind_ok.1 h1
    have := dense_writes (σ := Nat × List Int × List Int) (pos := fun s => s.1) (len := fun s => s.2.1.length)
      (pre := fun c s => do
        let c' ← castSz dbg c
        let outer ← wr s.2.2 c' (J.cast s.1)
        .ok (s.1, s.2.1, outer)) (inner := fun _ => DenseToCsc.innerBody I) (m := m) (n := n) (fun c s s' h => ?_)
      (fun c s => ?_) (fun c r s s' h => ?_) rfl h1
    · simp at this
      omega
    · obtain ⟨_, -, h⟩ := res_bind_ok.1 h
      obtain ⟨_, -, h⟩ := res_bind_ok.1 h
      cases h; exact ⟨rfl, rfl⟩
    · unfold DenseToCsc.outerBody
      rw [res_bind_assoc]
      refine bind_congr_ok fun a _ => ?_
      rw [res_bind_assoc]
      refine bind_congr_ok fun b _ => ?_
      rfl
    · obtain ⟨inner, h1, h⟩ := res_bind_ok.1 h
      cases h
      unfold wr at h1
      split at h1
      · cases h1; exact ⟨rfl, List.length_set, by assumption⟩
      · cases h1

end

/-- A sparse matrix of 2^32 × 2^32 elements, one of which is stored. -/
def large : COO :=
  { rows := 2 ^ 32, cols := 2 ^ 32, symmetry := .unsymmetric, rowIndices := [0], colIndices := [0], order := .unsorted,
    firstIndex := 0 }

theorem large_valid : (Pattern.coo .long large).Valid := by
  refine ⟨⟨by decide, by decide, rfl, ?_, ?_⟩, trivial, by decide, ⟨by decide, by decide⟩, ?_,
    ⟨by decide, by decide, by decide, by decide, by decide⟩, by decide⟩
  · intro r hr; simp [large] at hr; subst hr; decide
  · intro r hr; simp [large] at hr; subst hr; decide
  · intro p hp; trivial

/-- C129 is false: for that matrix the work size is 0, and the conversion to dense writes outside of its workspace, also in
builds with assertions. -/
theorem large_overrun (dbg : Bool) : ∃ c, convert (0 : Int) someStd dbg (.coo .long large) .dense = .ok c ∧
    c.workSize = .ok 0 ∧ convertValuesCopy 0 c [7] = .error .ub := by
  cases dbg <;> exact ⟨_, rfl, rfl, rfl⟩

theorem not_sizesFit : ¬ SizesFit := by
  intro h
  obtain ⟨c, h1, h2⟩ := h Int 0 someStd false (.coo .long large) .dense someStd_ok large_valid trivial
  obtain ⟨c', h1', -, h3⟩ := large_overrun false
  rw [h1] at h1'
  cases h1'
  obtain ⟨out, ho, -⟩ := h2 [7] rfl
  rw [h3] at ho
  cases ho

/-- A matrix the theorems apply to: 2^31 × 2^31 elements, one of them stored. -/
example : (Pattern.coo .long { large with rows := 2 ^ 31, cols := 2 ^ 31 }).Valid ∧
    numRows (.coo .long { large with rows := 2 ^ 31, cols := 2 ^ 31 }) *
      numCols (.coo .long { large with rows := 2 ^ 31, cols := 2 ^ 31 }) < 2 ^ 63 := by
  refine ⟨⟨⟨by decide, by decide, rfl, ?_, ?_⟩, trivial, by decide, ⟨by decide, by decide⟩, ?_,
    ⟨by decide, by decide, by decide, by decide, by decide⟩, by decide⟩, by decide⟩
  · intro r hr; simp [large] at hr; subst hr; decide
  · intro r hr; simp [large] at hr; subst hr; decide
  · intro p hp; trivial

end Guanaqo.Sparsity.Sizes
