import Verif.Base
import Verif.Std.Sort

/-!
# Model of the sparsity patterns and their conversions

Files: `/repo/src/include/guanaqo/linalg/sparsity.hpp`, `sparse-ops.hpp` and
`sparsity-conversions.hpp`.

Spans and vectors are lists. A conversion is split as in the code: the constructor
(`convert_sparsity`) computes the new pattern, `convert_values` converts a value array.
`dbg` says whether `assert` is enabled (build without `NDEBUG`).

Simplifications. `length_t`/`index_t`/`size_t` (64 bit) are unbounded integers; `Sizes.lean` has the
arithmetic of the machine, which agrees as long as there are fewer than 2^63 elements (C129). A negative argument of `cast_sz` in a build
without assertions is reported as undefined behaviour (the code goes on with a huge unsigned
index). The three index types keep their width: casts wrap, overflowing additions are undefined
behaviour.
-/

namespace Guanaqo.Sparsity

/-- The index types of `SparsityVariant`, sparsity.hpp:97-108 (LP64). -/
inductive IntTy where
  | int | long | longlong
  deriving DecidableEq, Repr

def IntTy.bits : IntTy → Nat
  | .int => 32
  | .long => 64
  | .longlong => 64

/-- `x` is a value of the type. -/
def IntTy.fits (I : IntTy) (x : Int) : Prop :=
  -(2 ^ (I.bits - 1) : Nat) ≤ x ∧ x < (2 ^ (I.bits - 1) : Nat)

instance (I : IntTy) (x : Int) : Decidable (I.fits x) := inferInstanceAs (Decidable (_ ∧ _))

/-- `static_cast<I>(x)`: two's complement wrap-around. -/
def IntTy.cast (I : IntTy) (x : Int) : Int := x.bmod (2 ^ I.bits)

/-- `x + y` in the type (signed overflow is undefined). -/
def IntTy.add (I : IntTy) (x y : Int) : Res Int :=
  if I.fits (x + y) then .ok (x + y) else .error .ub

/-- `x - y` in the type (signed overflow is undefined). -/
def IntTy.sub (I : IntTy) (x y : Int) : Res Int :=
  if I.fits (x - y) then .ok (x - y) else .error .ub

/-- `assert(x)`, evaluated only when assertions are enabled. -/
def assertM (dbg : Bool) (x : Res Bool) : Res Unit :=
  if dbg then x >>= assertThat else .ok ()

/-- `cast_sz`, sparsity-conversions.hpp:23-26. -/
def castSz (dbg : Bool) (i : Int) : Res Nat :=
  if 0 ≤ i then .ok i.toNat else .error (if dbg then .assertFail else .ub)

/-- `span[i]` -/
def rd {α : Type} (l : List α) (i : Nat) : Res α :=
  match l[i]? with
  | some v => .ok v
  | none => .error .ub

/-- `span[i] = v` -/
def wr {α : Type} (l : List α) (i : Nat) (v : α) : Res (List α) :=
  if i < l.length then .ok (l.set i v) else .error .ub

/-- `Symmetry`, sparsity.hpp:13-17 (`invalid`: any other value of the `uint8_t`). -/
inductive Symmetry where
  | unsymmetric | upper | lower | invalid
  deriving DecidableEq, Repr

/-- `Dense`, sparsity.hpp:30-33. -/
structure Dense where
  rows : Int
  cols : Int
  symmetry : Symmetry
  deriving DecidableEq, Repr

/-- `SparseCSC::Order`, sparsity.hpp:44-49. -/
inductive CscOrder where
  | unsorted | sortedRows | invalid
  deriving DecidableEq, Repr

/-- `SparseCSC`, sparsity.hpp:37-50. -/
structure CSC where
  rows : Int
  cols : Int
  symmetry : Symmetry
  innerIdx : List Int
  outerPtr : List Int
  order : CscOrder
  deriving DecidableEq, Repr

/-- `SparseCSC::nnz`, sparsity.hpp:53-58. -/
def CSC.nnz (dbg : Bool) (s : CSC) : Res Int := do
  assertM dbg (.ok (decide ((s.outerPtr.length : Int) = s.cols + 1)))
  assertM dbg (match s.outerPtr.getLast? with
    | some b => .ok (decide (b = (s.innerIdx.length : Int)))
    | none => .error .ub)
  .ok s.innerIdx.length

/-- `SparseCOO::Order`, sparsity.hpp:69-84. -/
inductive CooOrder where
  | unsorted | sortedByColsAndRows | sortedByColsOnly | sortedByRowsAndCols | sortedByRowsOnly
  | invalid
  deriving DecidableEq, Repr

/-- `SparseCOO`, sparsity.hpp:62-86. -/
structure COO where
  rows : Int
  cols : Int
  symmetry : Symmetry
  rowIndices : List Int
  colIndices : List Int
  order : CooOrder
  firstIndex : Int
  deriving DecidableEq, Repr

/-- `SparseCOO::nnz`, sparsity.hpp:89-92. -/
def COO.nnz (dbg : Bool) (s : COO) : Res Int := do
  assertM dbg (.ok (decide (s.rowIndices.length = s.colIndices.length)))
  .ok s.rowIndices.length

/-! ## sparse-ops.hpp -/

/-- The sorting algorithm and the binary search of the standard library. -/
structure StdLib where
  sort : {α : Type} → (α → α → Bool) → List α → List α
  /-- `std::lower_bound(begin, end, v) - begin` -/
  lowerBound : List Int → Int → Nat

/-- `convert_triplets_to_ccs`, sparse-ops.hpp:10-32: first the inner indices. -/
def cvtRows (I : IntTy) (idx0 : Int) (rows : List Int) : Res (List Int) :=
  rows.mapM (fun r => I.sub (I.cast r) (I.cast idx0))

/-- … then the outer pointers, sparse-ops.hpp:25-31. State: `(cols_iter - begin(cols),
outer_ptr)`. -/
def ccsOuter (std : StdLib) (IFrom J : IntTy) (cols : List Int) (idx0 : Int)
    (outer : List Int) : Res (Nat × List Int) :=
  forRange 0 (IFrom.cast outer.length) (fun c s => do
    let v ← IFrom.add c idx0
    let it := s.1 + std.lowerBound (cols.drop s.1) v
    let o ← wr s.2 c.toNat (J.cast it)
    .ok (it, o)) (0, outer)

/-- `convert_triplets_to_ccs(rows, cols, inner_idx, outer_ptr, idx_0)`. -/
def convertTripletsToCcs (std : StdLib) (dbg : Bool) (IFrom I J : IntTy) (rows cols : List Int)
    (inner outer : List Int) (idx0 : Int) : Res (List Int × List Int) := do
  assertM dbg (.ok (decide (rows.length = inner.length)))
  let inner ← cvtRows I idx0 rows
  let (_, outer) ← ccsOuter std IFrom J cols idx0 outer
  .ok (inner, outer)

/-- A (row, column, payload) triplet. -/
abbrev Trip := Int × Int × Int

/-- Comparator of `sort_triplets`, sparse-ops.hpp:47-50: `tie(col, row) < tie(col, row)`. -/
def cmpColRow (a b : Trip) : Bool :=
  if a.2.1 < b.2.1 then true else if b.2.1 < a.2.1 then false else decide (a.1 < b.1)

/-- Comparator of `sort_triplets_col`, sparse-ops.hpp:58-60. -/
def cmpCol (a b : Trip) : Bool := decide (a.2.1 < b.2.1)

/-- Comparator of `sort_rows_csc`, sparse-ops.hpp:72-74. -/
def cmpRow (a b : Int × Int) : Bool := decide (a.1 < b.1)

/-- One column of `sort_rows_csc`, sparse-ops.hpp:77-82: sort the zipped subrange
`[inner_start, inner_end)`. -/
def sortColumn (std : StdLib) (outer : List Int) (c : Nat) (z : List (Int × Int)) :
    Res (List (Int × Int)) := do
  let st ← rd outer c
  let en ← rd outer (c + 1)
  if 0 ≤ st ∧ st ≤ en ∧ en ≤ z.length then
    .ok (z.take st.toNat ++ std.sort cmpRow ((z.take en.toNat).drop st.toNat) ++ z.drop en.toNat)
  else .error .ub

/-- `sort_rows_csc(outer_ptr, inner_idx, permutation)`, sparse-ops.hpp:66-84. -/
def sortRowsCsc (std : StdLib) (outer inner perm : List Int) : Res (List Int × List Int) := do
  let z ← (List.range (outer.length - 1)).foldlM (fun z c => sortColumn std outer c z)
    (inner.zip perm)
  .ok (z.map (·.1), z.map (·.2))

/-- `std::ranges::adjacent_find(l, equal_to{}) == end(l)` -/
def noAdjacentEqual {α : Type} [DecidableEq α] : List α → Bool
  | a :: b :: l => if a = b then false else noAdjacentEqual (b :: l)
  | _ => true

/-- `check_uniqueness_triplets(rows, cols)`, sparse-ops.hpp:89-93. -/
def checkUniquenessTriplets (rows cols : List Int) : Bool := noAdjacentEqual (rows.zip cols)

/-- `is_unique_col`, sparse-ops.hpp:103-110. -/
def isUniqueCol (inner : List Int) (st en : Int) : Res Bool :=
  if 0 ≤ st ∧ st ≤ en ∧ en ≤ inner.length then
    .ok (noAdjacentEqual ((inner.take en.toNat).drop st.toNat))
  else .error .ub

/-- `check_uniqueness_csc`, sparse-ops.hpp:99-113 (`transform_reduce` with `logical_and`). -/
def checkUniquenessCsc (outer inner : List Int) : Res Bool := do
  let us ← (outer.zip outer.tail).mapM (fun p => isUniqueCol inner p.1 p.2)
  .ok (us.foldl (· && ·) true)

/-! ## sparsity-conversions.hpp -/

/-- Which span `convert_values` returns, and the contents of the work span afterwards. -/
inductive Loc where
  | fromValues | work
  deriving DecidableEq, Repr

structure Out (T : Type) where
  loc : Loc
  work : List T
  deriving Repr

/-- The values the returned span holds. -/
def Out.values {T : Type} (o : Out T) (fromValues : List T) : List T :=
  match o.loc with
  | .fromValues => fromValues
  | .work => o.work

/-- `if (from.symmetry != Unsymmetric && from.rows != from.cols) throw std::invalid_argument`,
sparsity-conversions.hpp:49-50, 75-76, 145-146. -/
def checkSquare (sym : Symmetry) (rows cols : Int) : Res Unit :=
  if sym ≠ .unsymmetric ∧ rows ≠ cols then .error (.throw .invalidArgument) else .ok ()

namespace DenseToDense

/-- Constructor of `SparsityConverter<Dense, Dense>`, sparsity-conversions.hpp:48-51. -/
def construct (frm : Dense) : Res Dense := do
  checkSquare frm.symmetry frm.rows frm.cols
  .ok frm

/-- `convert_values`, sparsity-conversions.hpp:59-65. -/
def convertValues {T : Type} (dbg : Bool) (sp : Dense) (vals work : List T) : Res (Out T) := do
  let n ← castSz dbg (sp.rows * sp.cols)
  assertM dbg (.ok (decide (vals.length = n)))
  .ok ⟨.fromValues, work⟩

end DenseToDense

/-- `W(r, c) = v`, sparsity-conversions.hpp:100-102, 170-172. -/
def writeW {T : Type} (dbg : Bool) (rows : Int) (r c : Int) (v : T) (work : List T) :
    Res (List T) := do
  let r' ← castSz dbg r
  let c' ← castSz dbg c
  let n ← castSz dbg rows
  wr work (r' + c' * n) v

/-- The triangle checks of the `switch`, sparsity-conversions.hpp:109-128, 176-195. -/
def checkTriangle (sym : Symmetry) (r c : Int) : Res Unit :=
  match sym with
  | .unsymmetric => .ok ()
  | .upper => if r > c then .error (.throw .invalidArgument) else .ok ()
  | .lower => if r < c then .error (.throw .invalidArgument) else .ok ()
  | .invalid => .error (.throw .invalidArgument)

/-- The assignments of the `switch`, sparsity-conversions.hpp:110, 117, 125. -/
def placeEntry {T : Type} (dbg : Bool) (sym : Symmetry) (rows : Int) (r c : Int) (v : T)
    (work : List T) : Res (List T) :=
  match sym with
  | .unsymmetric => writeW dbg rows r c v work
  | _ => do
    let work ← writeW dbg rows r c v work
    writeW dbg rows c r v work

namespace CscToDense

/-- `convert_sparsity`, sparsity-conversions.hpp:73-82. -/
def construct (dbg : Bool) (frm : CSC) : Res Dense := do
  assertM dbg (checkUniquenessCsc frm.outerPtr frm.innerIdx)
  checkSquare frm.symmetry frm.rows frm.cols
  .ok { rows := frm.rows, cols := frm.cols, symmetry := frm.symmetry }

/-- `work_size`, sparsity-conversions.hpp:89-91. -/
def workSize (dbg : Bool) (sp : Dense) : Res Nat := do
  let r ← castSz dbg sp.rows
  let c ← castSz dbg sp.cols
  .ok (r * c)

/-- Body of the inner loop, sparsity-conversions.hpp:108-129. State: `(l, work)`. -/
def innerBody {T : Type} (dbg : Bool) (frm : CSC) (sp : Dense) (vals : List T) (c i : Int)
    (s : Nat × List T) : Res (Nat × List T) := do
  let i' ← castSz dbg i
  let r ← rd frm.innerIdx i'
  checkTriangle frm.symmetry r c
  let v ← rd vals s.1
  let w ← placeEntry dbg frm.symmetry sp.rows r c v s.2
  .ok (s.1 + 1, w)

/-- Body of the outer loop, sparsity-conversions.hpp:105-130. -/
def outerBody {T : Type} (dbg : Bool) (frm : CSC) (sp : Dense) (vals : List T) (c : Int)
    (s : Nat × List T) : Res (Nat × List T) := do
  let c' ← castSz dbg c
  let st ← rd frm.outerPtr c'
  let en ← rd frm.outerPtr (c' + 1)
  forRange st en (innerBody dbg frm sp vals c) s

/-- `convert_values`, sparsity-conversions.hpp:93-133. -/
def convertValues {T : Type} (zero : T) (dbg : Bool) (frm : CSC) (sp : Dense)
    (vals work : List T) : Res (Out T) := do
  let nnz ← frm.nnz dbg
  assertM dbg (.ok (decide (vals.length = nnz.toNat)))
  let n ← workSize dbg sp
  assertM dbg (.ok (decide (work.length = n)))
  let s ← forRange 0 frm.cols (outerBody dbg frm sp vals) (0, List.replicate work.length zero)
  .ok ⟨.work, s.2⟩

end CscToDense

namespace CooToDense

/-- `convert_sparsity`, sparsity-conversions.hpp:141-152. -/
def construct (dbg : Bool) (frm : COO) : Res Dense := do
  assertM dbg (.ok (checkUniquenessTriplets frm.rowIndices frm.colIndices))
  checkSquare frm.symmetry frm.rows frm.cols
  .ok { rows := frm.rows, cols := frm.cols, symmetry := frm.symmetry }

/-- Body of the loop, sparsity-conversions.hpp:174-195. -/
def body {T : Type} (dbg : Bool) (I : IntTy) (frm : COO) (sp : Dense) (vals : List T) (l : Int)
    (work : List T) : Res (List T) := do
  let r₀ ← rd frm.rowIndices l.toNat
  let r ← I.sub r₀ frm.firstIndex
  let c₀ ← rd frm.colIndices l.toNat
  let c ← I.sub c₀ frm.firstIndex
  checkTriangle frm.symmetry r c
  let v ← rd vals l.toNat
  placeEntry dbg frm.symmetry sp.rows r c v work

/-- `convert_values`, sparsity-conversions.hpp:163-198. -/
def convertValues {T : Type} (zero : T) (dbg : Bool) (I : IntTy) (frm : COO) (sp : Dense)
    (vals work : List T) : Res (Out T) := do
  let nnz ← frm.nnz dbg
  assertM dbg (.ok (decide (vals.length = nnz.toNat)))
  let n ← CscToDense.workSize dbg sp
  assertM dbg (.ok (decide (work.length = n)))
  let w ← forRange 0 nnz (body dbg I frm sp vals) (List.replicate work.length zero)
  .ok ⟨.work, w⟩

end CooToDense

namespace DenseToCoo

/-- Loop body, sparsity-conversions.hpp:224-226, 240-242. State: `(l, row_indices,
col_indices)`. -/
def body (I : IntTy) (Δ : Int) (c r : Int) (s : Nat × List Int × List Int) :
    Res (Nat × List Int × List Int) := do
  let x ← I.add (I.cast r) Δ
  let rs ← wr s.2.1 s.1 x
  let y ← I.add (I.cast c) Δ
  let cs ← wr s.2.2 s.1 y
  .ok (s.1 + 1, rs, cs)

/-- The nested loops, sparsity-conversions.hpp:218-228 (Unsymmetric: `hi = rows`) and 234-244
(Upper: `hi = c + 1`). `resize(nnz)` value-initialises to 0. -/
def indices (I : IntTy) (Δ : Int) (cols : Int) (hi : Int → Int) (nnz : Nat) :
    Res (Nat × List Int × List Int) :=
  forRange 0 cols (fun c s => forRange 0 (hi c) (body I Δ c) s)
    (0, List.replicate nnz 0, List.replicate nnz 0)

/-- `convert_sparsity`, sparsity-conversions.hpp:212-260. -/
def construct (dbg : Bool) (I : IntTy) (frm : Dense) (req : Option Int) : Res COO :=
  let Δ := req.getD 0
  let mk (s : Nat × List Int × List Int) : COO :=
    { rows := frm.rows, cols := frm.cols, symmetry := frm.symmetry,
      rowIndices := s.2.1, colIndices := s.2.2, order := .sortedByColsAndRows,
      firstIndex := req.getD 0 }
  match frm.symmetry with
  | .unsymmetric => do
    let r ← castSz dbg frm.rows
    let c ← castSz dbg frm.cols
    let s ← indices I Δ frm.cols (fun _ => frm.rows) (r * c)
    .ok (mk s)
  | .upper =>
    if frm.rows ≠ frm.cols then .error (.throw .invalidArgument)
    else do
      let r ← castSz dbg frm.rows
      let r1 ← castSz dbg (frm.rows + 1)
      let s ← indices I Δ frm.cols (fun c => c + 1) (r * r1 / 2)
      .ok (mk s)
  | .lower => .error (.throw .invalidArgument)
  | .invalid => .error (.throw .invalidArgument)

/-- `work_size`, sparsity-conversions.hpp:267-271, 701-705, given `sparsity.nnz()`. -/
def workSize (sym : Symmetry) (nnz : Int) : Nat :=
  if sym = .unsymmetric then 0 else nnz.toNat

/-- `copy_backward(from_values.subspan(off, cnt), t)` with `t` the end of the destination,
sparsity-conversions.hpp:284-290, 718-724. -/
def copyBackward {T : Type} (src : List T) (off cnt : Nat) (dst : List T) (t : Nat) :
    Res (List T) :=
  if off + cnt ≤ src.length ∧ cnt ≤ t ∧ t ≤ dst.length then
    .ok (dst.take (t - cnt) ++ (src.drop off).take cnt ++ dst.drop t)
  else .error .ub

/-- The column loop, sparsity-conversions.hpp:288-290, 722-724. State: `(t, work)`. -/
def packBody {T : Type} (dbg : Bool) (rows : Int) (vals : List T) (c : Int) (s : Nat × List T) :
    Res (Nat × List T) := do
  let c' ← castSz dbg c
  let n ← castSz dbg rows
  let t := s.1 + (c + 1).toNat
  let w ← copyBackward vals (c' * n) (c' + 1) s.2 t
  .ok (t, w)

/-- `convert_values`, sparsity-conversions.hpp:275-296. -/
def convertValues {T : Type} (dbg : Bool) (sp : COO) (vals work : List T) : Res (Out T) := do
  let n ← castSz dbg (sp.rows * sp.cols)
  assertM dbg (.ok (decide (vals.length = n)))
  let nnz ← sp.nnz dbg
  assertM dbg (.ok (decide (work.length = workSize sp.symmetry nnz)))
  match sp.symmetry with
  | .unsymmetric => .ok ⟨.fromValues, work⟩
  | .upper => do
    let s ← forRange 0 sp.cols (packBody dbg sp.rows vals) (0, work)
    .ok ⟨.work, s.2⟩
  | _ => .error (.throw .logicError)

end DenseToCoo

namespace CscToCoo

/-- Body of the inner loop, sparsity-conversions.hpp:316-319. -/
def innerBody (dbg : Bool) (I : IntTy) (Δ : Int) (frm : CSC) (c i : Int)
    (s : Nat × List Int × List Int) : Res (Nat × List Int × List Int) := do
  let i' ← castSz dbg i
  let r ← rd frm.innerIdx i'
  let x ← I.add (I.cast r) Δ
  let rs ← wr s.2.1 s.1 x
  let y ← I.add (I.cast c) Δ
  let cs ← wr s.2.2 s.1 y
  .ok (s.1 + 1, rs, cs)

/-- Body of the outer loop, sparsity-conversions.hpp:313-320. -/
def outerBody (dbg : Bool) (I : IntTy) (Δ : Int) (frm : CSC) (c : Int)
    (s : Nat × List Int × List Int) : Res (Nat × List Int × List Int) := do
  let c' ← castSz dbg c
  let st ← rd frm.outerPtr c'
  let en ← rd frm.outerPtr (c' + 1)
  forRange st en (innerBody dbg I Δ frm c) s

/-- `convert_sparsity`, sparsity-conversions.hpp:305-333. -/
def convertSparsity (dbg : Bool) (I : IntTy) (frm : CSC) (req : Option Int) : Res COO := do
  let Δ := req.getD 0
  let nnz ← frm.nnz dbg
  let n ← castSz dbg nnz
  let s ← forRange 0 frm.cols (outerBody dbg I Δ frm) (0, List.replicate n 0, List.replicate n 0)
  .ok { rows := frm.rows, cols := frm.cols, symmetry := frm.symmetry,
        rowIndices := s.2.1, colIndices := s.2.2,
        order := if frm.order = .sortedRows then .sortedByColsAndRows else .sortedByColsOnly,
        firstIndex := req.getD 0 }

/-- Constructor, sparsity-conversions.hpp:334-340. -/
def construct (dbg : Bool) (I : IntTy) (frm : CSC) (req : Option Int) : Res COO := do
  let sp ← convertSparsity dbg I frm req
  assertM dbg (.ok (checkUniquenessTriplets sp.rowIndices sp.colIndices))
  .ok sp

/-- `convert_values`, sparsity-conversions.hpp:347-353, 400-406: the values are returned
unchanged. -/
def convertValues {T : Type} (dbg : Bool) (sp : COO) (vals work : List T) : Res (Out T) := do
  let nnz ← sp.nnz dbg
  let n ← castSz dbg nnz
  assertM dbg (.ok (decide (vals.length = n)))
  .ok ⟨.fromValues, work⟩

end CscToCoo

namespace CooToCoo

/-- `cvt_idx` over an index array, sparsity-conversions.hpp:371-373. -/
def cvtIdx (I : IntTy) (Δ : Int) (l : List Int) : Res (List Int) :=
  l.mapM (fun i => I.add (I.cast i) Δ)

/-- `Δ`, sparsity-conversions.hpp:362-364. -/
def delta (ITo : IntTy) (frm : COO) (req : Option Int) : Res Int :=
  match req with
  | none => .ok 0
  | some f => ITo.sub f (ITo.cast frm.firstIndex)

/-- Shifted or converted indices, sparsity-conversions.hpp:370-384. -/
def shift (dbg : Bool) (ITo : IntTy) (frm : COO) (req : Option Int) (Δ : Int) : Res COO := do
  let nnz ← frm.nnz dbg
  let _ ← castSz dbg nnz
  let rs ← cvtIdx ITo Δ frm.rowIndices
  let cs ← cvtIdx ITo Δ frm.colIndices
  .ok { rows := frm.rows, cols := frm.cols, symmetry := frm.symmetry,
        rowIndices := rs, colIndices := cs, order := frm.order,
        firstIndex := req.getD (ITo.cast frm.firstIndex) }

/-- `convert_sparsity`, sparsity-conversions.hpp:361-385. -/
def convertSparsity (dbg : Bool) (IFrom ITo : IntTy) (frm : COO) (req : Option Int) :
    Res COO := do
  let Δ ← delta ITo frm req
  if IFrom = ITo ∧ Δ = 0 then .ok frm
  else shift dbg ITo frm req Δ

/-- Constructor, sparsity-conversions.hpp:386-392. -/
def construct (dbg : Bool) (IFrom ITo : IntTy) (frm : COO) (req : Option Int) : Res COO := do
  let sp ← convertSparsity dbg IFrom ITo frm req
  assertM dbg (.ok (checkUniquenessTriplets sp.rowIndices sp.colIndices))
  .ok sp

end CooToCoo

/-- The data members of the converters to CSC, sparsity-conversions.hpp:508-511, 615-618. -/
structure CscConv where
  innerIdx : List Int
  outerPtr : List Int
  permutation : List Int
  sparsity : CSC
  deriving Repr

/-- `convert_values` with a permutation, sparsity-conversions.hpp:516-527, 623-636: the loop. -/
def permBody {T : Type} (dbg : Bool) (perm : List Int) (vals : List T) (i : Int)
    (work : List T) : Res (List T) := do
  let p ← rd perm i.toNat
  let p' ← castSz dbg p
  let v ← rd vals p'
  wr work i.toNat v

def CscConv.convertValues {T : Type} (dbg : Bool) (cv : CscConv) (vals work : List T) :
    Res (Out T) := do
  let nnz ← cv.sparsity.nnz dbg
  let n ← castSz dbg nnz
  assertM dbg (.ok (decide (vals.length = n)))
  assertM dbg (.ok (decide (work.length = cv.permutation.length)))
  if cv.permutation = [] then .ok ⟨.fromValues, work⟩
  else do
    let w ← forRange 0 cv.permutation.length (permBody dbg cv.permutation vals) work
    .ok ⟨.work, w⟩

/-- `std::iota(begin, end, J{0})` -/
def iota (J : IntTy) (n : Nat) : List Int := (List.range n).map (fun k : Nat => J.cast k)

/-- `std::ranges::is_sorted` -/
def isSorted : List Int → Bool
  | a :: b :: l => if b < a then false else isSorted (b :: l)
  | _ => true

namespace CooToCsc

/-- Which sort is performed. -/
inductive SortKind where
  | none | colRow | col
  deriving DecidableEq, Repr

/-- The `switch`es on the order, sparsity-conversions.hpp:436-482 (C++23 zip available). -/
def chooseOrder (req : Option CscOrder) (o : CooOrder) : Res (CscOrder × SortKind) :=
  if req = some .sortedRows then
    match o with
    | .sortedByColsAndRows => .ok (.sortedRows, .none)
    | .unsorted | .sortedByColsOnly | .sortedByRowsAndCols | .sortedByRowsOnly =>
      .ok (.sortedRows, .colRow)
    | .invalid => .error (.throw .invalidArgument)
  else
    match o with
    | .sortedByColsAndRows => .ok (.sortedRows, .none)
    | .sortedByColsOnly => .ok (.unsorted, .none)
    | .unsorted | .sortedByRowsAndCols | .sortedByRowsOnly => .ok (.unsorted, .col)
    | .invalid => .error (.throw .invalidArgument)

/-- `prepare_sort` followed by the sort, sparsity-conversions.hpp:426-433 with 445-446 or
473-474: the sorted triplets (row, column, permutation); empty when no sort is needed. -/
def sortedTriplets (std : StdLib) (J : IntTy) (frm : COO) (k : SortKind) : List Trip :=
  let z := frm.rowIndices.zip (frm.colIndices.zip (iota J frm.rowIndices.length))
  match k with
  | .none => []
  | .colRow => std.sort cmpColRow z
  | .col => std.sort cmpCol z

/-- `convert_sparsity`, sparsity-conversions.hpp:422-501. -/
def convertSparsity (std : StdLib) (dbg : Bool) (IFrom ITo J : IntTy) (frm : COO)
    (req : Option CscOrder) : Res CscConv := do
  let (order, kind) ← chooseOrder req frm.order
  let nnz ← frm.nnz dbg
  let n ← castSz dbg nnz
  let z := sortedTriplets std J frm kind
  assertM dbg (.ok (decide (req = none ∨ req = some order)))
  let perm := z.map (·.2.2)
  let perm := if isSorted perm then [] else perm
  let cols ← castSz dbg frm.cols
  let rowIdx := if z.isEmpty then frm.rowIndices else z.map (·.1)
  let colIdx := if z.isEmpty then frm.colIndices else z.map (·.2.1)
  let (inner, outer) ← convertTripletsToCcs std dbg IFrom ITo J rowIdx colIdx
    (List.replicate n 0) (List.replicate (cols + 1) 0) frm.firstIndex
  .ok { innerIdx := inner, outerPtr := outer, permutation := perm,
        sparsity := { rows := frm.rows, cols := frm.cols, symmetry := frm.symmetry,
                      innerIdx := inner, outerPtr := outer, order := order } }

/-- Constructor, sparsity-conversions.hpp:502-505. -/
def construct (std : StdLib) (dbg : Bool) (IFrom ITo J : IntTy) (frm : COO)
    (req : Option CscOrder) : Res CscConv := do
  let cv ← convertSparsity std dbg IFrom ITo J frm req
  assertM dbg (checkUniquenessCsc cv.sparsity.outerPtr cv.sparsity.innerIdx)
  .ok cv

end CooToCsc

namespace CscToCsc

/-- `need_sorting` and the resulting order, sparsity-conversions.hpp:560-571. -/
def chooseOrder (req : Option CscOrder) (o : CscOrder) : Res (CscOrder × Bool) :=
  if req = some .sortedRows then
    match o with
    | .unsorted => .ok (.sortedRows, true)
    | .sortedRows => .ok (.sortedRows, false)
    | .invalid => .error (.throw .invalidArgument)
  else .ok (o, false)

/-- `convert_inner(); convert_outer(); sort_indices();` or the conversions only,
sparsity-conversions.hpp:541-559, 572-582. Returns the vectors `inner_idx`, `outer_ptr`,
`permutation`. -/
def convertIndices (std : StdLib) (IFrom JFrom ITo JTo : IntTy) (frm : CSC) (sort : Bool) :
    Res (List Int × List Int × List Int) :=
  if sort then do
    let inner := frm.innerIdx.map ITo.cast
    let outer := frm.outerPtr.map JTo.cast
    let (inner, perm) ← sortRowsCsc std outer inner (iota JTo frm.innerIdx.length)
    .ok (inner, outer, perm)
  else
    .ok (if IFrom = ITo then [] else frm.innerIdx.map ITo.cast,
         if JFrom = JTo then [] else frm.outerPtr.map JTo.cast, [])

/-- `convert_sparsity`, sparsity-conversions.hpp:537-610. -/
def convertSparsity (std : StdLib) (IFrom JFrom ITo JTo : IntTy) (frm : CSC)
    (req : Option CscOrder) : Res CscConv := do
  let (order, sort) ← chooseOrder req frm.order
  let (inner, outer, perm) ← convertIndices std IFrom JFrom ITo JTo frm sort
  let perm := if isSorted perm then [] else perm
  .ok { innerIdx := inner, outerPtr := outer, permutation := perm,
        sparsity :=
          { rows := frm.rows, cols := frm.cols, symmetry := frm.symmetry,
            innerIdx := if IFrom = ITo ∧ inner.isEmpty then frm.innerIdx else inner,
            outerPtr := if JFrom = JTo ∧ outer.isEmpty then frm.outerPtr else outer,
            order := order } }

/-- Constructor, sparsity-conversions.hpp:611-614. -/
def construct (std : StdLib) (dbg : Bool) (IFrom JFrom ITo JTo : IntTy) (frm : CSC)
    (req : Option CscOrder) : Res CscConv := do
  let cv ← convertSparsity std IFrom JFrom ITo JTo frm req
  assertM dbg (checkUniquenessCsc cv.sparsity.outerPtr cv.sparsity.innerIdx)
  .ok cv

end CscToCsc

namespace DenseToCsc

/-- Inner loop body, sparsity-conversions.hpp:657-658, 674-675. State: `(l, inner, outer)`. -/
def innerBody (I : IntTy) (r : Int) (s : Nat × List Int × List Int) :
    Res (Nat × List Int × List Int) := do
  let inner ← wr s.2.1 s.1 (I.cast r)
  .ok (s.1 + 1, inner, s.2.2)

/-- Outer loop body, sparsity-conversions.hpp:655-659, 672-676. -/
def outerBody (dbg : Bool) (I J : IntTy) (hi : Int → Int) (c : Int)
    (s : Nat × List Int × List Int) : Res (Nat × List Int × List Int) := do
  let c' ← castSz dbg c
  let outer ← wr s.2.2 c' (J.cast s.1)
  forRange 0 (hi c) (innerBody I) (s.1, s.2.1, outer)

/-- The loops and the last outer pointer, sparsity-conversions.hpp:650-661, 667-678. -/
def indices (dbg : Bool) (I J : IntTy) (cols : Int) (hi : Int → Int) (nnz : Nat) :
    Res (List Int × List Int) := do
  let n ← castSz dbg cols
  let s ← forRange 0 cols (outerBody dbg I J hi)
    (0, List.replicate nnz 0, List.replicate (n + 1) 0)
  let outer ← wr s.2.2 n (J.cast s.1)
  .ok (s.2.1, outer)

/-- `convert_sparsity`, sparsity-conversions.hpp:644-693. -/
def construct (dbg : Bool) (I J : IntTy) (frm : Dense) : Res CSC :=
  let mk (s : List Int × List Int) : CSC :=
    { rows := frm.rows, cols := frm.cols, symmetry := frm.symmetry,
      innerIdx := s.1, outerPtr := s.2, order := .sortedRows }
  match frm.symmetry with
  | .unsymmetric => do
    let r ← castSz dbg frm.rows
    let c ← castSz dbg frm.cols
    let s ← indices dbg I J frm.cols (fun _ => frm.rows) (r * c)
    .ok (mk s)
  | .upper =>
    if frm.rows ≠ frm.cols then .error (.throw .invalidArgument)
    else do
      let r ← castSz dbg frm.rows
      let s ← indices dbg I J frm.cols (fun c => c + 1) (r * (r + 1) / 2)
      .ok (mk s)
  | .lower => .error (.throw .invalidArgument)
  | .invalid => .error (.throw .invalidArgument)

/-- `convert_values`, sparsity-conversions.hpp:709-730 (the last branch, `assert(false); return
{};`, returns an empty span in a build without assertions; it is modelled as undefined there,
but is not reachable since the constructor throws). -/
def convertValues {T : Type} (dbg : Bool) (sp : CSC) (vals work : List T) : Res (Out T) := do
  let n ← castSz dbg (sp.rows * sp.cols)
  assertM dbg (.ok (decide (vals.length = n)))
  let nnz ← sp.nnz dbg
  assertM dbg (.ok (decide (work.length = DenseToCoo.workSize sp.symmetry nnz)))
  match sp.symmetry with
  | .unsymmetric => .ok ⟨.fromValues, work⟩
  | .upper => do
    let s ← forRange 0 sp.cols (DenseToCoo.packBody dbg sp.rows vals) (0, work)
    .ok ⟨.work, s.2⟩
  | _ => .error (if dbg then .assertFail else .ub)

end DenseToCsc

end Guanaqo.Sparsity
