import Verif.Sparsity.Model

/-!
# Model of `Sparsity` (any format) and `SparsityConverter<Sparsity, To>`

Files: `/repo/src/include/guanaqo/linalg/sparsity.hpp:96-157` and
`sparsity-conversions.hpp:733-829`.
-/

namespace Guanaqo.Sparsity

/-- `Sparsity` / `SparsityVariant`, sparsity.hpp:96-115. The index types are those of the
alternative (the variant has six of the nine CSC combinations; the model allows all nine). -/
inductive Pattern where
  | dense (d : Dense)
  | csc (I J : IntTy) (s : CSC)
  | coo (I : IntTy) (s : COO)
  deriving DecidableEq, Repr

/-- `is_dense`, sparsity.hpp:127-133. -/
def isDense : Pattern → Bool
  | .dense _ => true
  | _ => false

/-- `get_nnz`, sparsity.hpp:136-142. -/
def getNnz (dbg : Bool) : Pattern → Res Int
  | .dense d => .ok (d.rows * d.cols)
  | .csc _ _ s => s.nnz dbg
  | .coo _ s => s.nnz dbg

/-- `get_symmetry`, sparsity.hpp:145-147. -/
def getSymmetry : Pattern → Symmetry
  | .dense d => d.symmetry
  | .csc _ _ s => s.symmetry
  | .coo _ s => s.symmetry

/-- `num_rows`, sparsity.hpp:150-152. -/
def numRows : Pattern → Int
  | .dense d => d.rows
  | .csc _ _ s => s.rows
  | .coo _ s => s.rows

/-- `num_cols`, sparsity.hpp:155-157. -/
def numCols : Pattern → Int
  | .dense d => d.cols
  | .csc _ _ s => s.cols
  | .coo _ s => s.cols

/-- The target type `To` with the conversion request, sparsity-conversions.hpp:34-42, 202-206,
409-414. -/
inductive Target where
  | dense
  | coo (I : IntTy) (firstIndex : Option Int)
  | csc (I J : IntTy) (order : Option CscOrder)
  deriving DecidableEq, Repr

/-- A constructed converter: the members used through `std::visit`
(sparsity-conversions.hpp:756-779). -/
structure AnyConv (T : Type) where
  /-- `get_sparsity()` -/
  sparsity : Pattern
  /-- `work_size()` -/
  workSize : Res Nat
  /-- `nnz_from()` -/
  nnzFrom : Res Int
  /-- `convert_values(from_values, work)` -/
  run : List T → List T → Res (Out T)

/-- Constructor of `SparsityConverter<Sparsity, To>`, sparsity-conversions.hpp:754-755, 823-828:
select the converter by the alternative held. -/
def convert {T : Type} (zero : T) (std : StdLib) (dbg : Bool) : Pattern → Target → Res (AnyConv T)
  | .dense d, .dense => do
    let sp ← DenseToDense.construct d
    .ok ⟨.dense sp, .ok 0, .ok (sp.rows * sp.cols), DenseToDense.convertValues dbg sp⟩
  | .csc _ _ s, .dense => do
    let sp ← CscToDense.construct dbg s
    .ok ⟨.dense sp, CscToDense.workSize dbg sp, s.nnz dbg, CscToDense.convertValues zero dbg s sp⟩
  | .coo I s, .dense => do
    let sp ← CooToDense.construct dbg s
    .ok ⟨.dense sp, CscToDense.workSize dbg sp, s.nnz dbg, CooToDense.convertValues zero dbg I s sp⟩
  | .dense d, .coo I f => do
    let sp ← DenseToCoo.construct dbg I d f
    .ok ⟨.coo I sp, do let n ← sp.nnz dbg
                       .ok (DenseToCoo.workSize sp.symmetry n),
      .ok (sp.rows * sp.cols), DenseToCoo.convertValues dbg sp⟩
  | .csc _ _ s, .coo I f => do
    let sp ← CscToCoo.construct dbg I s f
    .ok ⟨.coo I sp, .ok 0, sp.nnz dbg, CscToCoo.convertValues dbg sp⟩
  | .coo I' s, .coo I f => do
    let sp ← CooToCoo.construct dbg I' I s f
    .ok ⟨.coo I sp, .ok 0, sp.nnz dbg, CscToCoo.convertValues dbg sp⟩
  | .dense d, .csc I J _ => do
    let sp ← DenseToCsc.construct dbg I J d
    .ok ⟨.csc I J sp, do let n ← sp.nnz dbg
                         .ok (DenseToCoo.workSize sp.symmetry n),
      .ok (sp.rows * sp.cols), DenseToCsc.convertValues dbg sp⟩
  | .csc I' J' s, .csc I J o => do
    let cv ← CscToCsc.construct std dbg I' J' I J s o
    .ok ⟨.csc I J cv.sparsity, .ok cv.permutation.length, cv.sparsity.nnz dbg, cv.convertValues dbg⟩
  | .coo I' s, .csc I J o => do
    let cv ← CooToCsc.construct std dbg I' I J s o
    .ok ⟨.csc I J cv.sparsity, .ok cv.permutation.length, cv.sparsity.nnz dbg, cv.convertValues dbg⟩

/-- `convert_values_into(result, evaluator, work)`, sparsity-conversions.hpp:785-812. The callback
is modelled by the values it writes into a span of the given length (it overwrites all of it).
Result: the contents of `result`, and the returned workspace vector. The comparison
`r.data() == result.data()` is modelled by which span was returned (two empty spans count as
different). -/
def convertValuesInto {T : Type} (dbg : Bool) (c : AnyConv T) (result : List T)
    (evaluator : Nat → List T) (work : List T) : Res (List T × List T) := do
  let nnz ← c.nnzFrom
  let evalSize ← castSz dbg nnz
  let ws ← c.workSize
  if ws = 0 ∧ evalSize ≤ result.length then do
    let result := evaluator evalSize ++ result.drop evalSize
    let o ← c.run result work
    assertM dbg (.ok (decide (o.loc = .fromValues)))
    .ok (result, o.work)
  else do
    let work := evaluator evalSize
    let o ← c.run work result
    assertM dbg (.ok (decide (o.loc = .work)))
    .ok (o.work, work)

/-- `convert_values_copy(from_values)`, sparsity-conversions.hpp:813-821. -/
def convertValuesCopy {T : Type} (zero : T) (c : AnyConv T) (vals : List T) : Res (List T) := do
  let ws ← c.workSize
  let o ← c.run vals (List.replicate ws zero)
  .ok (o.values vals)

end Guanaqo.Sparsity
