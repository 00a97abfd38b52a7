import Verif.Sparsity.Model

/-!
# What sparsity patterns and value arrays denote

Independent of the conversions: well-formed patterns, the list of entries (row, column, value)
they stand for with zero-based indices, the order flags, and the dense matrix denoted by a list
of entries.
-/

namespace Guanaqo.Sparsity

/-- The part `[a, b)` of a list. -/
def slice {α : Type} (l : List α) (a b : Nat) : List α := (l.take b).drop a

/-- Start of column `c` in the inner arrays. -/
def CSC.start (s : CSC) (c : Nat) : Nat := (s.outerPtr.getD c 0).toNat

/-- A well-formed CSC pattern. -/
structure CSC.Wf (s : CSC) : Prop where
  rows_nonneg : 0 ≤ s.rows
  cols_nonneg : 0 ≤ s.cols
  outer_length : (s.outerPtr.length : Int) = s.cols + 1
  outer_first : s.outerPtr.getD 0 0 = 0
  outer_mono : ∀ c : Nat, (c : Int) < s.cols → s.outerPtr.getD c 0 ≤ s.outerPtr.getD (c + 1) 0
  outer_last : s.outerPtr.getD s.cols.toNat 0 = s.innerIdx.length
  inner_range : ∀ r ∈ s.innerIdx, 0 ≤ r ∧ r < s.rows

/-- Entries (row, column, value) of a CSC matrix, column by column. -/
def CSC.entries {T : Type} (s : CSC) (vals : List T) : List (Int × Int × T) :=
  (List.range s.cols.toNat).flatMap (fun c =>
    (slice (s.innerIdx.zip vals) (s.start c) (s.start (c + 1))).map
      (fun p => (p.1, (c : Int), p.2)))

/-- Positions of the stored entries. -/
def CSC.positions (s : CSC) : List (Int × Int) :=
  (List.range s.cols.toNat).flatMap (fun c =>
    (slice s.innerIdx (s.start c) (s.start (c + 1))).map (fun r => (r, (c : Int))))

/-- The rows of every column are in ascending order. -/
def CSC.RowsSorted (s : CSC) : Prop :=
  ∀ c : Nat, (c : Int) < s.cols →
    (slice s.innerIdx (s.start c) (s.start (c + 1))).Pairwise (· ≤ ·)

/-- The order flag is valid and tells the truth. -/
def CSC.OrderTrue (s : CSC) : Prop :=
  match s.order with
  | .unsorted => True
  | .sortedRows => s.RowsSorted
  | .invalid => False

/-- A well-formed COO pattern. -/
structure COO.Wf (s : COO) : Prop where
  rows_nonneg : 0 ≤ s.rows
  cols_nonneg : 0 ≤ s.cols
  same_length : s.rowIndices.length = s.colIndices.length
  row_range : ∀ r ∈ s.rowIndices, 0 ≤ r - s.firstIndex ∧ r - s.firstIndex < s.rows
  col_range : ∀ c ∈ s.colIndices, 0 ≤ c - s.firstIndex ∧ c - s.firstIndex < s.cols

/-- Entries (row, column, value) of a COO matrix with zero-based indices, in storage order. -/
def COO.entries {T : Type} (s : COO) (vals : List T) : List (Int × Int × T) :=
  (s.rowIndices.zip (s.colIndices.zip vals)).map
    (fun p => (p.1 - s.firstIndex, p.2.1 - s.firstIndex, p.2.2))

/-- Positions of the stored entries (zero-based). -/
def COO.positions (s : COO) : List (Int × Int) :=
  (s.rowIndices.zip s.colIndices).map (fun p => (p.1 - s.firstIndex, p.2 - s.firstIndex))

/-- `p` is not after `q` when ordered by column, then row. -/
def colRowLe (p q : Int × Int) : Prop := p.2 < q.2 ∨ (p.2 = q.2 ∧ p.1 ≤ q.1)
/-- `p` is not after `q` when ordered by row, then column. -/
def rowColLe (p q : Int × Int) : Prop := p.1 < q.1 ∨ (p.1 = q.1 ∧ p.2 ≤ q.2)

/-- The order flag is valid and tells the truth. -/
def COO.OrderTrue (s : COO) : Prop :=
  match s.order with
  | .unsorted => True
  | .sortedByColsAndRows => s.positions.Pairwise colRowLe
  | .sortedByColsOnly => s.positions.Pairwise (fun p q => p.2 ≤ q.2)
  | .sortedByRowsAndCols => s.positions.Pairwise rowColLe
  | .sortedByRowsOnly => s.positions.Pairwise (fun p q => p.1 ≤ q.1)
  | .invalid => False

/-- The index type `I` can hold all indices of an `rows × cols` matrix with index base `base`
(and one past the end). -/
structure FitsIdx (I : IntTy) (rows cols base : Int) : Prop where
  rows_fit : I.fits rows
  cols_fit : I.fits cols
  base_fit : I.fits base
  rows_base_fit : I.fits (rows + base)
  cols_base_fit : I.fits (cols + base)

/-- The symmetry is one of the enumerators, and symmetric matrices are square. -/
def ShapeOk (sym : Symmetry) (rows cols : Int) : Prop :=
  sym ≠ .invalid ∧ (sym ≠ .unsymmetric → rows = cols)

/-- The position belongs to the stored triangle. -/
def InTriangle (sym : Symmetry) (r c : Int) : Prop :=
  match sym with
  | .unsymmetric => True
  | .upper => r ≤ c
  | .lower => c ≤ r
  | .invalid => False

/-- Value `v` is stored for position `(r, c)`, directly or through the symmetry. -/
def Stored {T : Type} (E : List (Int × Int × T)) (sym : Symmetry) (r c : Int) (v : T) : Prop :=
  (r, c, v) ∈ E ∨ (sym ≠ .unsymmetric ∧ (c, r, v) ∈ E)

/-- Element `(r, c)` of a dense column-major array. -/
def denseAt {T : Type} (rows : Int) (M : List T) (r c : Int) : Option T :=
  M[(r + c * rows).toNat]?

/-- The dense column-major array `M` is the `rows × cols` matrix denoted by the entries `E`:
stored entries at their positions (mirrored for a symmetric matrix), `zero` elsewhere. -/
def DenseOf {T : Type} (zero : T) (rows cols : Int) (sym : Symmetry) (E : List (Int × Int × T))
    (M : List T) : Prop :=
  (M.length : Int) = rows * cols ∧
  ∀ r c : Int, 0 ≤ r → r < rows → 0 ≤ c → c < cols →
    (∀ v, Stored E sym r c v → denseAt rows M r c = some v) ∧
    ((∀ v, ¬ Stored E sym r c v) → denseAt rows M r c = some zero)

/-- The entries `E` list every position of the (stored triangle of the) dense matrix `M` exactly
once, with its value. -/
def EntriesOfDense {T : Type} (rows cols : Int) (sym : Symmetry) (M : List T)
    (E : List (Int × Int × T)) : Prop :=
  (E.map (fun e => (e.1, e.2.1))).Nodup ∧
  ∀ r c v, (r, c, v) ∈ E ↔
    (0 ≤ r ∧ r < rows ∧ 0 ≤ c ∧ c < cols ∧ InTriangle sym r c ∧ denseAt rows M r c = some v)

/-- A dense array that is symmetric if its sparsity says so. -/
def SymmetricIf {T : Type} (sym : Symmetry) (n : Int) (M : List T) : Prop :=
  sym ≠ .unsymmetric → ∀ r c : Int, 0 ≤ r → r < n → 0 ≤ c → c < n →
    denseAt n M r c = denseAt n M c r

/-- What `std::lower_bound` guarantees on a sorted range: the number of elements less than the
value. -/
def LowerBoundContract (lb : List Int → Int → Nat) : Prop :=
  ∀ (l : List Int) (v : Int), l.Pairwise (· ≤ ·) → lb l v = l.countP (fun x => decide (x < v))

/-- A standard library that keeps its promises. -/
structure StdLib.Ok (std : StdLib) : Prop where
  sort : SortContract std.sort
  lowerBound : LowerBoundContract std.lowerBound

/-- One such library: merge sort and linear search. -/
def someStd : StdLib where
  sort := someSort
  lowerBound := fun l v => l.countP (fun x => decide (x < v))

theorem someStd_ok : someStd.Ok := ⟨someSort_contract, fun _ _ _ => rfl⟩

end Guanaqo.Sparsity
