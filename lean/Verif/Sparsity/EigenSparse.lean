import Verif.Sparsity.Spec
import Verif.Sparsity.Lemmas
import Verif.Sparsity.CscLemmas
import Mathlib.Data.List.Nodup

/-!
# Eigen sparse matrices (C90, C91)

`/repo/src/include/guanaqo/linalg/eigen/sparse.hpp`. Eigen's column-major sparse objects with direct access
(`SparseMatrix`, `Map`, blocks of columns) are modelled by their arrays; the casts to `Eigen::Index` (64 bit)
change nothing.
-/

namespace Guanaqo.Sparsity

/-! ## Eigen -/

/-- An Eigen object with direct access (`SparseCompressedBase`, column-major): `outer` are the `outerSize() + 1`
offsets at `outerIndexPtr()`, `inner` and `values` the arrays at `innerIndexPtr()` and `valuePtr()`, `nnz` the
array at `innerNonZeroPtr()` (`none` if compressed). For a block of columns, `outer` is a part of the offsets of
the whole matrix, and the other arrays are those of the whole matrix. -/
structure ESparse (T : Type) where
  rows : Int
  cols : Int
  outer : List Int
  inner : List Int
  values : List T
  nnz : Option (List Int)

variable {T : Type}

/-- Where the entries of a column begin and end. -/
def ESparse.first (e : ESparse T) (c : Nat) : Int := e.outer.getD c 0
def ESparse.last (e : ESparse T) (c : Nat) : Int :=
  match e.nnz with
  | none => e.outer.getD (c + 1) 0
  | some l => e.outer.getD c 0 + l.getD c 0

/-- The invariants of Eigen. -/
structure ESparse.Wf (e : ESparse T) : Prop where
  rows_nonneg : 0 ≤ e.rows
  cols_nonneg : 0 ≤ e.cols
  outer_length : (e.outer.length : Int) = e.cols + 1
  outer_first : 0 ≤ e.outer.getD 0 0
  outer_mono : ∀ c : Nat, (c : Int) < e.cols → e.outer.getD c 0 ≤ e.outer.getD (c + 1) 0
  outer_last : e.outer.getD e.cols.toNat 0 ≤ e.inner.length
  values_length : e.values.length = e.inner.length
  nnz_length : ∀ l, e.nnz = some l → (l.length : Int) = e.cols
  nnz_range : ∀ l, e.nnz = some l → ∀ c : Nat, (c : Int) < e.cols →
    0 ≤ l.getD c 0 ∧ e.outer.getD c 0 + l.getD c 0 ≤ e.outer.getD (c + 1) 0
  inner_range : ∀ c : Nat, (c : Int) < e.cols → ∀ r ∈ slice e.inner (e.first c).toNat (e.last c).toNat,
    0 ≤ r ∧ r < e.rows
  inner_sorted : ∀ c : Nat, (c : Int) < e.cols →
    (slice e.inner (e.first c).toNat (e.last c).toNat).Pairwise (· < ·)

/-- The entries of an Eigen object, as its inner iterators visit them. -/
def ESparse.entries (e : ESparse T) : List (Int × Int × T) :=
  (List.range e.cols.toNat).flatMap (fun c =>
    (slice (e.inner.zip e.values) (e.first c).toNat (e.last c).toNat).map (fun p => (p.1, (c : Int), p.2)))

/-- `SparseCompressedBase::nonZeros` (Eigen). -/
def ESparse.nonZeros (e : ESparse T) : Int :=
  match e.nnz with
  | none => e.outer.getD e.cols.toNat 0 - e.outer.getD 0 0
  | some l => l.sum

/-- `coeff(r, c)` (Eigen, `SparseCompressedBase`'s evaluator): a binary search in the column, whose indices it
assumes sorted. -/
def ESparse.coeff (std : StdLib) (zero : T) (e : ESparse T) (r : Int) (c : Nat) : T :=
  let col := slice (e.inner.zip e.values) (e.first c).toNat (e.last c).toNat
  let p := std.lowerBound (col.map (·.1)) r
  match col[p]? with
  | some x => if x.1 = r then x.2 else zero
  | none => zero

/-! ## The conversions -/

/-- `as_sparsity`, eigen/sparse.hpp:26-44: the inner indices are the first `nonZeros()` elements at
`innerIndexPtr()`. -/
def asSparsity (e : ESparse T) (sym : Symmetry) : CSC where
  rows := e.rows
  cols := e.cols
  symmetry := sym
  innerIdx := e.inner.take e.nonZeros.toNat
  outerPtr := e.outer
  order := .sortedRows

/-- `as_eigen`, eigen/sparse.hpp:9-24 (`nnz` with its assertions; no array of column sizes). -/
def asEigen (dbg : Bool) (s : CSC) (values : List T) : Res (ESparse T) := do
  let _ ← s.nnz dbg
  .ok { rows := s.rows, cols := s.cols, outer := s.outerPtr, inner := s.innerIdx, values := values, nnz := none }

/-! ## C90 -/

/-- The first column starts at the beginning of the arrays, and there are no gaps between columns. -/
def ESparse.Packed (e : ESparse T) : Prop :=
  e.outer.getD 0 0 = 0 ∧ ∀ c : Nat, (c : Int) < e.cols → e.last c = e.outer.getD (c + 1) 0

/-- C90: the pattern is valid, tells the truth about its order, has the right size, and denotes, with the first
`nonZeros()` values, the entries of the Eigen object. -/
def SparsityOf (e : ESparse T) (s : CSC) : Prop :=
  s.Wf ∧ s.OrderTrue ∧ s.rows = e.rows ∧ s.cols = e.cols ∧
  (∀ dbg, s.nnz dbg = .ok e.nonZeros) ∧
  s.entries (e.values.take e.nonZeros.toNat) = e.entries

theorem slice_take {α : Type} (l : List α) {a b n : Nat} (h : b ≤ n) : slice (l.take n) a b = slice l a b := by
  unfold slice
  rw [List.take_take, Nat.min_eq_left h]

theorem ESparse.Wf.mono {e : ESparse T} (h : e.Wf) {c : Nat} (hc : (c : Int) ≤ e.cols) {k : Nat} (hk : k ≤ c) :
    e.outer.getD k 0 ≤ e.outer.getD c 0 := by
  induction c with
  | zero => have : k = 0 := by omega
            subst this; exact Int.le_refl _
  | succ c ih =>
    by_cases hkc : k = c + 1
    · subst hkc; exact Int.le_refl _
    · have := ih (by omega) (by omega)
      have := h.outer_mono c (by omega)
      omega

/-- The sizes of the columns. -/
theorem sum_take_le {e : ESparse T} (h : e.Wf) {l : List Int} (hl : e.nnz = some l) (k : Nat) (hk : (k : Int) ≤ e.cols) :
    (l.take k).sum ≤ e.outer.getD k 0 - e.outer.getD 0 0 ∧
    ((l.take k).sum = e.outer.getD k 0 - e.outer.getD 0 0 →
      ∀ c : Nat, c < k → e.outer.getD c 0 + l.getD c 0 = e.outer.getD (c + 1) 0) := by
  induction k with
  | zero => simp
  | succ k ih =>
    have hlen := h.nnz_length l hl
    have hkl : k < l.length := by omega
    obtain ⟨h1, h2⟩ := ih (by omega)
    have h3 := h.nnz_range l hl k (by omega)
    have hs : (l.take (k + 1)).sum = (l.take k).sum + l.getD k 0 := by
      rw [List.take_succ_eq_append_getElem hkl, List.sum_append]
      simp [List.getD, hkl]
    rw [hs]
    refine ⟨by omega, ?_⟩
    intro heq c hc
    by_cases hck : c = k
    · subst hck; omega
    · exact h2 (by omega) c (by omega)

theorem sum_nonneg' {l : List Int} (h : ∀ x ∈ l, 0 ≤ x) : 0 ≤ l.sum := by
  induction l with
  | nil => exact Int.le_refl _
  | cons a l ih =>
    have h1 := h a (by simp)
    have h2 := ih (fun x hx => h x (by simp [hx]))
    rw [List.sum_cons]
    omega

theorem nonZeros_le {e : ESparse T} (h : e.Wf) :
    0 ≤ e.nonZeros ∧ e.nonZeros ≤ e.outer.getD e.cols.toNat 0 - e.outer.getD 0 0 := by
  have hc := h.cols_nonneg
  unfold ESparse.nonZeros
  cases hl : e.nnz with
  | none =>
    have := h.mono (c := e.cols.toNat) (by omega) (Nat.zero_le _)
    exact ⟨by simp only; omega, by simp only; omega⟩
  | some l =>
    simp only
    have hlen := h.nnz_length l hl
    have := (sum_take_le h hl e.cols.toNat (by omega)).1
    rw [List.take_of_length_le (by omega)] at this
    refine ⟨?_, this⟩
    apply sum_nonneg'
    intro x hx
    obtain ⟨c, hlt, rfl⟩ := List.getElem_of_mem hx
    have := (h.nnz_range l hl c (by omega)).1
    simpa [List.getD, hlt] using this

theorem packed_nonZeros {e : ESparse T} (h : e.Wf) :
    e.Packed ↔ e.outer.getD 0 0 = 0 ∧ e.nonZeros = e.outer.getD e.cols.toNat 0 := by
  have hc := h.cols_nonneg
  unfold ESparse.Packed ESparse.nonZeros ESparse.last
  cases hl : e.nnz with
  | none =>
    simp only
    constructor
    · rintro ⟨h0, -⟩; exact ⟨h0, by omega⟩
    · rintro ⟨h0, -⟩; exact ⟨h0, fun c _ => trivial⟩
  | some l =>
    have hlen := h.nnz_length l hl
    simp only
    constructor
    · rintro ⟨h0, hg⟩
      refine ⟨h0, ?_⟩
      have key : ∀ k : Nat, (k : Int) ≤ e.cols → (l.take k).sum = e.outer.getD k 0 := by
        intro k
        induction k with
        | zero => intro _; simp only [List.take_zero, List.sum_nil]; exact h0.symm
        | succ k ih =>
          intro hk
          have hkl : k < l.length := by omega
          rw [List.take_succ_eq_append_getElem hkl, List.sum_append, ih (by omega), ← hg k (by omega)]
          simp [List.getD, hkl]
      have := key e.cols.toNat (by omega)
      rwa [List.take_of_length_le (by omega)] at this
    · rintro ⟨h0, hs⟩
      refine ⟨h0, ?_⟩
      have h2 := (sum_take_le h hl e.cols.toNat (by omega)).2
      rw [List.take_of_length_le (by omega)] at h2
      intro c hc'
      exact h2 (by omega) c (by omega)

/-- C90, for every Eigen object: the pattern is valid if and only if the object is packed. -/
theorem as_sparsity_valid_iff (e : ESparse T) (h : e.Wf) (sym : Symmetry) :
    (asSparsity e sym).Wf ↔ e.Packed := by
  have hc := h.cols_nonneg
  obtain ⟨hz0, hz1⟩ := nonZeros_le h
  have hol := h.outer_last
  have hof := h.outer_first
  have hlen : (asSparsity e sym).innerIdx.length = e.nonZeros.toNat := by
    show (e.inner.take _).length = _
    rw [List.length_take]; omega
  rw [packed_nonZeros h]
  constructor
  · intro hw
    have h1 := hw.outer_first
    have h2 := hw.outer_last
    rw [hlen] at h2
    have h1' : e.outer.getD 0 0 = 0 := h1
    have h2' : e.outer.getD e.cols.toNat 0 = (e.nonZeros.toNat : Int) := h2
    exact ⟨h1', by omega⟩
  · rintro ⟨h0, hn⟩
    have hp : e.Packed := (packed_nonZeros h).2 ⟨h0, hn⟩
    refine ⟨h.rows_nonneg, hc, h.outer_length, h0, h.outer_mono, ?_, ?_⟩
    · rw [hlen]
      show e.outer.getD e.cols.toNat 0 = _
      omega
    · -- every stored row belongs to some column
      intro r hr
      have hr : r ∈ e.inner.take e.nonZeros.toNat := hr
      obtain ⟨i, hi, rfl⟩ := List.getElem_of_mem hr
      have hi' : i < e.nonZeros.toNat := by
        have : (e.inner.take e.nonZeros.toNat).length = e.nonZeros.toNat := hlen
        omega
      -- find its column
      have hcol : ∃ c : Nat, (c : Int) < e.cols ∧ e.outer.getD c 0 ≤ i ∧ (i : Int) < e.outer.getD (c + 1) 0 := by
        have key : ∀ k : Nat, (k : Int) ≤ e.cols → (i : Int) < e.outer.getD k 0 →
            ∃ c : Nat, c < k ∧ e.outer.getD c 0 ≤ i ∧ (i : Int) < e.outer.getD (c + 1) 0 := by
          intro k
          induction k with
          | zero => intro _ hlt; omega
          | succ k ih =>
            intro hk hlt
            by_cases hik : (i : Int) < e.outer.getD k 0
            · obtain ⟨c, h1, h2⟩ := ih (by omega) hik
              exact ⟨c, by omega, h2⟩
            · exact ⟨k, by omega, by omega, hlt⟩
        obtain ⟨c, h1, h2⟩ := key e.cols.toNat (by omega) (by omega)
        exact ⟨c, by omega, h2⟩
      obtain ⟨c, hcc, h1, h2⟩ := hcol
      refine h.inner_range c hcc _ ?_
      have hl := hp.2 c hcc
      rw [hl]
      have hge : 0 ≤ e.outer.getD c 0 := by
        have := h.mono (c := c) (by omega) (Nat.zero_le _); omega
      have hfirst : e.first c = e.outer.getD c 0 := rfl
      rw [hfirst]
      unfold slice
      rw [List.mem_iff_getElem]
      refine ⟨i - (e.outer.getD c 0).toNat, ?_, ?_⟩
      · rw [List.length_drop, List.length_take]
        have : i < e.inner.length := by omega
        omega
      · rw [List.getElem_drop, List.getElem_take, List.getElem_take]
        congr 1
        omega

/-- C90 for packed objects, that is, for whole compressed matrices, and for uncompressed ones that happen to have
no gaps. -/
theorem as_sparsity_correct_partial (e : ESparse T) (h : e.Wf) (hp : e.Packed) (sym : Symmetry) :
    SparsityOf e (asSparsity e sym) := by
  have hw := (as_sparsity_valid_iff e h sym).2 hp
  have hc := h.cols_nonneg
  obtain ⟨hz0, hz1⟩ := nonZeros_le h
  obtain ⟨h0, hn⟩ := (packed_nonZeros h).1 hp
  have hol := h.outer_last
  have hend : ∀ c : Nat, (c : Int) < e.cols → (e.outer.getD (c + 1) 0).toNat ≤ e.nonZeros.toNat := by
    intro c hc'
    have := h.mono (c := e.cols.toNat) (by omega) (k := c + 1) (by omega)
    omega
  refine ⟨hw, ?_, rfl, rfl, ?_, ?_⟩
  · show (asSparsity e sym).RowsSorted
    intro c hcc
    have hcc : (c : Int) < e.cols := hcc
    show (slice (e.inner.take e.nonZeros.toNat) (e.outer.getD c 0).toNat (e.outer.getD (c + 1) 0).toNat).Pairwise _
    rw [slice_take _ (hend c hcc), ← hp.2 c hcc]
    exact (h.inner_sorted c hcc).imp (fun hab => Int.le_of_lt hab)
  · intro dbg
    have hlen : (e.inner.take e.nonZeros.toNat).length = e.nonZeros.toNat := by
      rw [List.length_take]; omega
    unfold CSC.nnz
    have hne : e.outer.getLast? = some (e.outer.getD e.cols.toNat 0) := by
      have hl := h.outer_length
      rw [List.getLast?_eq_getElem?]
      have : e.outer.length - 1 = e.cols.toNat := by omega
      rw [this]
      simp [List.getD, show e.cols.toNat < e.outer.length by omega]
    have e1 : (asSparsity e sym).outerPtr = e.outer := rfl
    have e2 : (asSparsity e sym).innerIdx = e.inner.take e.nonZeros.toNat := rfl
    have e3 : (asSparsity e sym).cols = e.cols := rfl
    rw [e1, e2, e3, hne, hlen]
    have d1 : decide ((e.outer.length : Int) = e.cols + 1) = true := decide_eq_true h.outer_length
    have d2 : decide (e.outer.getD e.cols.toNat 0 = (e.nonZeros.toNat : Int)) = true :=
      decide_eq_true (by omega)
    simp only [d1, d2]
    have : ((e.nonZeros.toNat : Nat) : Int) = e.nonZeros := by omega
    rw [this]
    cases dbg <;> rfl
  · unfold CSC.entries ESparse.entries
    apply List.flatMap_congr
    intro c hc'
    have hcc : (c : Int) < e.cols := by
      have := List.mem_range.1 hc'
      have : c < e.cols.toNat := this
      omega
    congr 1
    show slice ((e.inner.take e.nonZeros.toNat).zip (e.values.take e.nonZeros.toNat)) (e.outer.getD c 0).toNat
      (e.outer.getD (c + 1) 0).toNat = _
    rw [show (e.inner.take e.nonZeros.toNat).zip (e.values.take e.nonZeros.toNat) =
        (e.inner.zip e.values).take e.nonZeros.toNat from List.take_zipWith.symm, slice_take _ (hend c hcc), ← hp.2 c hcc]
    rfl

/-- C90, full statement: for every Eigen object. -/
def AsSparsityCorrect (ok : ESparse Int → Prop) : Prop :=
  ∀ (e : ESparse Int) (sym : Symmetry), e.Wf → ok e → SparsityOf e (asSparsity e sym)

/-- Two columns of the matrix with the columns `(0: 5)`, `(1: 6)`, `(0: 7)`: the last two. -/
def exBlock : ESparse Int := ⟨2, 2, [1, 2, 3], [0, 1, 0], [5, 6, 7], none⟩

/-- A matrix with room for one more entry in its first column. -/
def exGap : ESparse Int := ⟨2, 2, [0, 2, 3], [0, 99, 1], [5, 0, 6], some [1, 1]⟩

/-- A compressed matrix. -/
def exWhole : ESparse Int := ⟨2, 2, [0, 2, 3], [0, 1, 1], [5, 6, 7], none⟩

theorem lt_two {c : Nat} (h : (c : Int) < 2) : c = 0 ∨ c = 1 := by omega

theorem exBlock_wf : exBlock.Wf where
  rows_nonneg := by decide
  cols_nonneg := by decide
  outer_length := by decide
  outer_first := by decide
  outer_mono := fun c hc => by rcases lt_two hc with rfl | rfl <;> decide
  outer_last := by decide
  values_length := by decide
  nnz_length := fun l hl => by cases hl
  nnz_range := fun l hl => by cases hl
  inner_range := fun c hc => by rcases lt_two hc with rfl | rfl <;> decide
  inner_sorted := fun c hc => by rcases lt_two hc with rfl | rfl <;> decide

theorem exGap_wf : exGap.Wf where
  rows_nonneg := by decide
  cols_nonneg := by decide
  outer_length := by decide
  outer_first := by decide
  outer_mono := fun c hc => by rcases lt_two hc with rfl | rfl <;> decide
  outer_last := by decide
  values_length := by decide
  nnz_length := fun l hl => by cases hl; rfl
  nnz_range := fun l hl c hc => by cases hl; rcases lt_two hc with rfl | rfl <;> decide
  inner_range := fun c hc => by rcases lt_two hc with rfl | rfl <;> decide
  inner_sorted := fun c hc => by rcases lt_two hc with rfl | rfl <;> decide

theorem exWhole_wf : exWhole.Wf where
  rows_nonneg := by decide
  cols_nonneg := by decide
  outer_length := by decide
  outer_first := by decide
  outer_mono := fun c hc => by rcases lt_two hc with rfl | rfl <;> decide
  outer_last := by decide
  values_length := by decide
  nnz_length := fun l hl => by cases hl
  nnz_range := fun l hl => by cases hl
  inner_range := fun c hc => by rcases lt_two hc with rfl | rfl <;> decide
  inner_sorted := fun c hc => by rcases lt_two hc with rfl | rfl <;> decide

/-- The full statement is false for blocks of columns, although they are compressed … -/
theorem not_as_sparsity_blocks : ¬ AsSparsityCorrect (fun e => e.nnz = none) := by
  intro h
  have hw := (h exBlock .unsymmetric exBlock_wf rfl).1
  have := ((as_sparsity_valid_iff _ exBlock_wf _).1 hw).1
  revert this
  decide

/-- … and for whole matrices that are not compressed. -/
theorem not_as_sparsity_uncompressed : ¬ AsSparsityCorrect (fun e => e.outer.getD 0 0 = 0) := by
  intro h
  have hw := (h exGap .unsymmetric exGap_wf rfl).1
  have := ((as_sparsity_valid_iff _ exGap_wf _).1 hw).2 0 (by decide)
  revert this
  decide

example : exWhole.Wf ∧ exWhole.Packed ∧ exWhole.entries = [(0, 0, 5), (1, 0, 6), (1, 1, 7)] ∧
    exBlock.entries = [(1, 0, 6), (0, 1, 7)] ∧ exGap.entries = [(0, 0, 5), (1, 1, 6)] := by
  refine ⟨exWhole_wf, ⟨by decide, fun c _ => rfl⟩, by decide, by decide, by decide⟩

/-! ## C91 -/

/-- No position is stored twice. -/
def CSC.Unique (s : CSC) : Prop := s.positions.Nodup

/-- The Eigen object has these entries: `coeff` finds exactly them, whatever the search of the standard library
does with ranges that are not sorted. -/
def HasEntries (e : ESparse T) (E : List (Int × Int × T)) : Prop :=
  ∀ std : StdLib, std.Ok → ∀ (zero : T) (r : Int) (c : Nat), 0 ≤ r → r < e.rows → (c : Int) < e.cols →
    (∀ v, (r, (c : Int), v) ∈ E → e.coeff std zero r c = v) ∧
    ((∀ v, (r, (c : Int), v) ∉ E) → e.coeff std zero r c = zero)

/-- The Eigen object is the matrix that the pattern and the values denote: stored entries, also those that are
implied by symmetry, and zero elsewhere. -/
def Denotes (e : ESparse T) (sym : Symmetry) (E : List (Int × Int × T)) : Prop :=
  ∀ std : StdLib, std.Ok → ∀ (zero : T) (r : Int) (c : Nat), 0 ≤ r → r < e.rows → (c : Int) < e.cols →
    (∀ v, Stored E sym r c v → e.coeff std zero r c = v) ∧
    ((∀ v, ¬ Stored E sym r c v) → e.coeff std zero r c = zero)

theorem mem_entries {s : CSC} {vals : List T} {r : Int} {c : Nat} (hc : (c : Int) < s.cols) {v : T} :
    (r, (c : Int), v) ∈ s.entries vals ↔
      (r, v) ∈ slice (s.innerIdx.zip vals) (s.start c) (s.start (c + 1)) := by
  unfold CSC.entries
  rw [List.mem_flatMap]
  constructor
  · rintro ⟨d, hd, hm⟩
    obtain ⟨p, hp, he⟩ := List.mem_map.1 hm
    obtain ⟨p1, p2⟩ := p
    simp only [Prod.mk.injEq] at he
    obtain ⟨rfl, hcd, rfl⟩ := he
    have : d = c := by exact_mod_cast hcd
    subst this
    exact hp
  · intro hm
    exact ⟨c, List.mem_range.2 (by omega), List.mem_map.2 ⟨_, hm, rfl⟩⟩

theorem lowerBound_sorted {lb : List Int → Int → Nat} (hlb : LowerBoundContract lb) {l : List Int}
    (hs : l.Pairwise (· < ·)) {i : Nat} (hi : i < l.length) : lb l l[i] = i := by
  rw [hlb l _ (hs.imp Int.le_of_lt)]
  induction l generalizing i with
  | nil => simp at hi
  | cons a l ih =>
    have h1 := List.pairwise_cons.1 hs
    cases i with
    | zero =>
      rw [List.getElem_cons_zero, List.countP_cons, List.countP_eq_zero.2]
      · simp
      · intro x hx; have := h1.1 x hx; simp; omega
    | succ i =>
      have hi' : i < l.length := by simpa using hi
      rw [List.getElem_cons_succ, List.countP_cons, ih h1.2 hi']
      have := h1.1 l[i] (List.getElem_mem hi')
      simp [this]

/-- C91 for sorted patterns without duplicates: the result is a valid Eigen object, and it has exactly the
entries of the pattern. -/
theorem as_eigen_entries_partial (dbg : Bool) (s : CSC) (hw : s.Wf) (hs : s.RowsSorted) (hu : s.Unique)
    (values : List T) (hv : values.length = s.innerIdx.length) :
    ∃ e, asEigen dbg s values = .ok e ∧ e.Wf ∧ e.rows = s.rows ∧ e.cols = s.cols ∧
      e.entries = s.entries values ∧ HasEntries e (s.entries values) := by
  have hc := hw.cols_nonneg
  have hol := hw.outer_length
  have hmono : ∀ c : Nat, (c : Int) ≤ s.cols → 0 ≤ s.outerPtr.getD c 0 := by
    intro c
    induction c with
    | zero => intro _; exact Int.le_of_eq hw.outer_first.symm
    | succ c ih =>
      intro hc'
      have := ih (by omega)
      have := hw.outer_mono c (by omega)
      omega
  have hstrict : ∀ c : Nat, (c : Int) < s.cols →
      (slice s.innerIdx (s.start c) (s.start (c + 1))).Pairwise (· < ·) := by
    intro c hc'
    have h1 := hs c hc'
    have h2 : (slice s.innerIdx (s.start c) (s.start (c + 1))).Nodup := by
      have h3 : (s.positions).Nodup := hu
      unfold CSC.positions at h3
      have h4 := (List.nodup_flatMap.1 h3).1 c (List.mem_range.2 (by omega))
      exact List.Nodup.of_map _ h4
    have h5 := List.pairwise_and_iff.2 ⟨h1, h2⟩
    exact h5.imp (fun hab => by omega)
  have hnnz : s.nnz dbg = .ok s.innerIdx.length := by
    unfold CSC.nnz
    have hne : s.outerPtr.getLast? = some (s.outerPtr.getD s.cols.toNat 0) := by
      rw [List.getLast?_eq_getElem?]
      have : s.outerPtr.length - 1 = s.cols.toNat := by omega
      rw [this]
      simp [List.getD, show s.cols.toNat < s.outerPtr.length by omega]
    rw [hne, hw.outer_last]
    have d1 : decide ((s.outerPtr.length : Int) = s.cols + 1) = true := decide_eq_true hol
    simp only [d1, decide_true]
    cases dbg <;> rfl
  refine ⟨⟨s.rows, s.cols, s.outerPtr, s.innerIdx, values, none⟩, ?_, ?_, rfl, rfl, rfl, ?_⟩
  · unfold asEigen; rw [hnnz]; rfl
  · exact {
      rows_nonneg := hw.rows_nonneg
      cols_nonneg := hc
      outer_length := hol
      outer_first := Int.le_of_eq hw.outer_first.symm
      outer_mono := hw.outer_mono
      outer_last := Int.le_of_eq hw.outer_last
      values_length := hv
      nnz_length := fun l hl => by cases hl
      nnz_range := fun l hl => by cases hl
      inner_range := fun c _ r hr =>
        hw.inner_range r (List.mem_of_mem_take (List.mem_of_mem_drop hr))
      inner_sorted := hstrict }
  · intro std hstd zero r c hr0 hr1 hcc
    have hcc : (c : Int) < s.cols := hcc
    have hkeys : (slice (s.innerIdx.zip values) (s.start c) (s.start (c + 1))).map (·.1) =
        slice s.innerIdx (s.start c) (s.start (c + 1)) := by
      rw [← slice_map]
      congr 1
      exact List.map_fst_zip (by omega)
    have hco : ∀ zero : T, (⟨s.rows, s.cols, s.outerPtr, s.innerIdx, values, none⟩ : ESparse T).coeff std zero r c =
        match (slice (s.innerIdx.zip values) (s.start c) (s.start (c + 1)))[
            std.lowerBound ((slice (s.innerIdx.zip values) (s.start c) (s.start (c + 1))).map (·.1)) r]? with
        | some x => if x.1 = r then x.2 else zero
        | none => zero := fun _ => rfl
    rw [hco]
    have hst := hstrict c hcc
    rw [← hkeys] at hst
    generalize hcol : slice (s.innerIdx.zip values) (s.start c) (s.start (c + 1)) = col at hst
    constructor
    · intro v hm
      rw [mem_entries hcc, hcol] at hm
      obtain ⟨i, hi, he⟩ := List.getElem_of_mem hm
      have h6 := lowerBound_sorted hstd.lowerBound hst (i := i) (by simpa using hi)
      rw [List.getElem_map, he] at h6
      simp only at h6
      rw [h6, List.getElem?_eq_getElem hi, he]
      simp
    · intro hno
      split
      · rename_i x hx
        split
        · rename_i hxr
          refine absurd ?_ (hno x.2)
          rw [mem_entries hcc, hcol, ← hxr]
          exact List.mem_of_getElem? hx
        · rfl
      · rfl

/-- C91 for sorted unsymmetric patterns without duplicates: the Eigen object is the matrix of the pattern. -/
theorem as_eigen_denotes_partial (dbg : Bool) (s : CSC) (hw : s.Wf) (hs : s.RowsSorted) (hu : s.Unique)
    (hsym : s.symmetry = .unsymmetric) (values : List T) (hv : values.length = s.innerIdx.length) :
    ∃ e, asEigen dbg s values = .ok e ∧ Denotes e s.symmetry (s.entries values) := by
  obtain ⟨e, he, -, -, -, -, hh⟩ := as_eigen_entries_partial dbg s hw hs hu values hv
  refine ⟨e, he, ?_⟩
  intro std hstd zero r c h1 h2 h3
  obtain ⟨ha, hb⟩ := hh std hstd zero r c h1 h2 h3
  unfold Stored
  rw [hsym]
  exact ⟨fun v hv => ha v (hv.resolve_right (fun h => h.1 rfl)),
    fun hno => hb (fun v hm => hno v (.inl hm))⟩

/-- C91, full statement. -/
def AsEigenCorrect (ok : CSC → Prop) : Prop :=
  ∀ (dbg : Bool) (s : CSC), s.Wf → s.OrderTrue → s.Unique → ok s → ∀ values : List Int,
    values.length = s.innerIdx.length →
    ∃ e, asEigen dbg s values = .ok e ∧ Denotes e s.symmetry (s.entries values)

def exSym : CSC := ⟨2, 2, .upper, [0, 0, 1], [0, 1, 3], .sortedRows⟩
def exUnsorted : CSC := ⟨2, 2, .unsymmetric, [1, 0], [0, 2, 2], .unsorted⟩

theorem exSym_wf : exSym.Wf where
  rows_nonneg := by decide
  cols_nonneg := by decide
  outer_length := by decide
  outer_first := by decide
  outer_mono := fun c hc => by rcases lt_two hc with rfl | rfl <;> decide
  outer_last := by decide
  inner_range := by decide

theorem exUnsorted_wf : exUnsorted.Wf where
  rows_nonneg := by decide
  cols_nonneg := by decide
  outer_length := by decide
  outer_first := by decide
  outer_mono := fun c hc => by rcases lt_two hc with rfl | rfl <;> decide
  outer_last := by decide
  inner_range := by decide

/-- The full statement is false for symmetric patterns (the other triangle is zero) … -/
theorem not_as_eigen_symmetric : ¬ AsEigenCorrect (fun s => s.RowsSorted) := by
  intro h
  have hs : exSym.RowsSorted := fun c hc => by rcases lt_two hc with rfl | rfl <;> decide
  obtain ⟨e, he, hd⟩ := h false exSym exSym_wf hs (by unfold CSC.Unique; decide) hs [5, 6, 7] (by decide)
  cases he
  have := (hd someStd someStd_ok 0 1 0 (by decide) (by decide) (by decide)).1 6 (.inr ⟨by decide, by decide⟩)
  revert this
  decide

/-- … and for patterns that are not sorted, in which Eigen's search does not find entries. -/
theorem not_as_eigen_unsorted : ¬ AsEigenCorrect (fun s => s.symmetry = .unsymmetric) := by
  intro h
  obtain ⟨e, he, hd⟩ := h false exUnsorted exUnsorted_wf trivial (by unfold CSC.Unique; decide) rfl [5, 6] (by decide)
  cases he
  have := (hd someStd someStd_ok 0 0 0 (by decide) (by decide) (by decide)).1 6 (.inl (by decide))
  revert this
  decide

/-- C90, C91: a pattern survives the round trip through Eigen, apart from its order flag. -/
theorem as_eigen_round_trip (dbg : Bool) (s : CSC) (hw : s.Wf) (values : List T) (e : ESparse T)
    (he : asEigen dbg s values = .ok e) :
    asSparsity e s.symmetry = { s with order := .sortedRows } := by
  unfold asEigen at he
  cases hn : s.nnz dbg with
  | error x => rw [hn] at he; cases he
  | ok n =>
    rw [hn] at he
    cases he
    unfold asSparsity ESparse.nonZeros
    simp only
    rw [hw.outer_first, hw.outer_last]
    have : ((s.innerIdx.length : Int) - 0).toNat = s.innerIdx.length := by omega
    rw [this, List.take_length]

example : exSym.Wf ∧ exSym.RowsSorted ∧ exSym.Unique :=
  ⟨exSym_wf, fun c hc => by rcases lt_two hc with rfl | rfl <;> decide, by unfold CSC.Unique; decide⟩

end Guanaqo.Sparsity
