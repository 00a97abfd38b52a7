import Verif.Base

/-!
# Model of `guanaqo::MatrixView` (`/repo/src/include/guanaqo/mat-view.hpp`)

Pointers are integer addresses (in units of one element) into a flat memory
`Mem α`; an access to an address that is not allocated is undefined behaviour.
`index_type` is an unbounded integer. The view object itself is the plain record of
its five members; functions that write through the view return the new memory.
`T`, `I` and `S` of the template are not distinguished: element conversions
(`convertible_to<U, T>`) and the static/dynamic stride choice are not modelled, except
that operations constrained to a static inner stride of 1 have that as hypothesis in the
theorems.
-/

namespace Guanaqo.MatView

/-- `struct MatrixView` members, mat-view.hpp:39-43. -/
structure View where
  data : Int
  rows : Int
  cols : Int
  inner : Int
  outer : Int
  deriving DecidableEq, Repr

/-- `enum class Triangular`, mat-view.hpp:12-17. -/
inductive Triangular where
  | lower | strictlyLower | upper | strictlyUpper
  deriving DecidableEq, Repr

/-- `PlainMatrixView` with defaulted `outer_stride = inner_stride * rows`,
mat-view.hpp:46-53 and the converting constructor 55-57. -/
def View.withDefaultOuter (data rows cols inner : Int) : View :=
  { data, rows, cols, inner, outer := inner * rows }

/-- Address computed by `operator()`, mat-view.hpp:64 (`data[r*inner + c*outer]`). -/
def View.addr (v : View) (r c : Int) : Int := v.data + (r * v.inner + c * v.outer)

/-- `operator()(r, c)`, mat-view.hpp:61-65: the address of the referenced element, after
the two range asserts. -/
def View.at (v : View) (r c : Int) : Res Int := do
  assertThat (decide (0 ≤ r ∧ r < v.rows))
  assertThat (decide (0 ≤ c ∧ c < v.cols))
  return v.addr r c

/-- `empty()`, mat-view.hpp:74. -/
def View.empty (v : View) : Bool := decide (v.rows = 0 ∨ v.cols = 0)

/-- `top_rows(n)`, mat-view.hpp:76-85. -/
def View.topRows (v : View) (n : Int) : Res View := do
  assertThat (decide (0 ≤ n ∧ n ≤ v.rows))
  return { data := v.data, rows := n, cols := v.cols, inner := v.inner, outer := v.outer }

/-- `left_cols(n)`, mat-view.hpp:86-95. -/
def View.leftCols (v : View) (n : Int) : Res View := do
  assertThat (decide (0 ≤ n ∧ n ≤ v.cols))
  return { data := v.data, rows := v.rows, cols := n, inner := v.inner, outer := v.outer }

/-- `bottom_rows(n)`, mat-view.hpp:96-105. -/
def View.bottomRows (v : View) (n : Int) : Res View := do
  assertThat (decide (0 ≤ n ∧ n ≤ v.rows))
  return { data := v.data + v.inner * (v.rows - n), rows := n, cols := v.cols,
           inner := v.inner, outer := v.outer }

/-- `right_cols(n)`, mat-view.hpp:106-115. -/
def View.rightCols (v : View) (n : Int) : Res View := do
  assertThat (decide (0 ≤ n ∧ n ≤ v.cols))
  return { data := v.data + v.outer * (v.cols - n), rows := v.rows, cols := n,
           inner := v.inner, outer := v.outer }

/-- `middle_rows(r, n)`, mat-view.hpp:116-118. -/
def View.middleRows (v : View) (r n : Int) : Res View := do
  (← v.bottomRows (v.rows - r)).topRows n

/-- `middle_cols(c, n)`, mat-view.hpp:119-121. -/
def View.middleCols (v : View) (c n : Int) : Res View := do
  (← v.rightCols (v.cols - c)).leftCols n

/-- `top_left(nr, nc)`, mat-view.hpp:122-124. -/
def View.topLeft (v : View) (nr nc : Int) : Res View := do (← v.topRows nr).leftCols nc

/-- `top_right(nr, nc)`, mat-view.hpp:125-127. -/
def View.topRight (v : View) (nr nc : Int) : Res View := do (← v.topRows nr).rightCols nc

/-- `bottom_left(nr, nc)`, mat-view.hpp:128-130. -/
def View.bottomLeft (v : View) (nr nc : Int) : Res View := do (← v.bottomRows nr).leftCols nc

/-- `bottom_right(nr, nc)`, mat-view.hpp:131-133. -/
def View.bottomRight (v : View) (nr nc : Int) : Res View := do (← v.bottomRows nr).rightCols nc

/-- `block(r, c, nr, nc)`, mat-view.hpp:134-137. -/
def View.block (v : View) (r c nr nc : Int) : Res View := do
  (← v.middleRows r nr).middleCols c nc

/-- `as_column(span)`, mat-view.hpp:139-145 (default inner stride 1). -/
def View.asColumn (data size : Int) : View := View.withDefaultOuter data size 1 1

/-- Conversion to `MatrixView<const T, I, S>`, mat-view.hpp:147-155. -/
def View.toConst (v : View) : View :=
  { data := v.data, rows := v.rows, cols := v.cols, inner := v.inner, outer := v.outer }

/-- `reassign(other)`, mat-view.hpp:294-301: the new value of `*this`. -/
def View.reassign (_this other : View) : View :=
  { data := other.data, rows := other.rows, cols := other.cols, inner := other.inner,
    outer := other.outer }

variable {α : Type}

/-- A scalar argument passed by `const &`: a temporary, or a reference to a memory
location (possibly an element of the view itself). -/
inductive Arg (α : Type) where
  | temp (x : α)
  | ref (a : Int)

/-- Reading a `const value_type &` argument. -/
def Arg.eval (t : Arg α) (m : Mem α) : Res α :=
  match t with
  | .temp x => .ok x
  | .ref a => m.read a

/-- `std::fill_n(p, n, t)`: writes `n` elements from `p` on; nothing when `n ≤ 0`. -/
def fillN (p n : Int) (t : Arg α) (m : Mem α) : Res (Mem α) :=
  forRange 0 n (fun i m => do m.write (p + i) (← t.eval m)) m

/-- `set_constant(t)`, mat-view.hpp:157-165. -/
def View.setConstant (v : View) (t : Arg α) (m : Mem α) : Res (Mem α) :=
  if v.inner = 1 then
    forRange 0 v.cols (fun c m => fillN (v.data + c * v.outer) v.rows t m) m
  else
    forRange 0 v.cols (fun c m =>
      forRange 0 v.rows (fun r m => do m.write (← v.at r c) (← t.eval m)) m) m

/-- `set_constant(t, tr)`, mat-view.hpp:166-190 (requires a static inner stride of 1; the
`default:` branch for invalid enumerators is not representable here). -/
def View.setConstantTri (v : View) (t : Arg α) (tr : Triangular) (m : Mem α) : Res (Mem α) :=
  let n := max v.rows v.cols
  match tr with
  | .lower => forRange 0 n (fun c m => fillN (v.data + c + c * v.outer) (v.rows - c) t m) m
  | .strictlyLower =>
    forRange 0 (n - 1) (fun c m => fillN (v.data + c + 1 + c * v.outer) (v.rows - c - 1) t m) m
  | .upper => forRange 0 n (fun c m => fillN (v.data + c * v.outer) (1 + c) t m) m
  | .strictlyUpper => forRange 1 n (fun c m => fillN (v.data + c * v.outer) c t m) m

/-- `diagonal()`, mat-view.hpp:191-199. -/
def View.diagonal (v : View) : View :=
  View.withDefaultOuter v.data (max v.rows v.cols) 1 (v.outer + v.inner)

/-- `set_diagonal(t)`, mat-view.hpp:200-207; the loop state is (memory, `p`). -/
def View.setDiagonal (v : View) (t : Arg α) (m : Mem α) : Res (Mem α) := do
  let n := max v.rows v.cols
  let s ← forRange 0 n (fun _ (s : Mem α × Int) => do
    let m ← s.1.write s.2 (← t.eval s.1)
    return (m, s.2 + (v.outer + v.inner))) (m, v.data)
  return s.1

/-- `add_to_diagonal(t)`, mat-view.hpp:208-215. -/
def View.addToDiagonal [Add α] (v : View) (t : Arg α) (m : Mem α) : Res (Mem α) := do
  let n := max v.rows v.cols
  let s ← forRange 0 n (fun _ (s : Mem α × Int) => do
    let x ← s.1.read s.2
    let m ← s.1.write s.2 (x + (← t.eval s.1))
    return (m, s.2 + (v.outer + v.inner))) (m, v.data)
  return s.1

/-- `std::copy_n(src, n, dst)` (forward element order). -/
def copyN (src n dst : Int) (m : Mem α) : Res (Mem α) :=
  forRange 0 n (fun i m => do m.write (dst + i) (← m.read (src + i))) m

/-- Body of the column loop of `copy_values`, mat-view.hpp:222-232: state (memory, `src_`,
`dst_`) in the strided branch. -/
def copyColumn (srcInner dstInner rows src dst : Int) (m : Mem α) : Res (Mem α) :=
  if srcInner = 1 ∧ dstInner = 1 then copyN src rows dst m
  else do
    let s ← forRange 0 rows (fun _ (s : Mem α × Int × Int) => do
      let m ← s.1.write s.2.2 (← s.1.read s.2.1)
      return (m, s.2.1 + srcInner, s.2.2 + dstInner)) (m, src, dst)
    return s.1

/-- `copy_values(other)`, mat-view.hpp:216-236. Outer state: (memory, `src`, `dst`). -/
def View.copyValues (v other : View) (m : Mem α) : Res (Mem α) := do
  assertThat (decide (other.rows = v.rows))
  assertThat (decide (other.cols = v.cols))
  let s ← forRange 0 v.cols (fun _ (s : Mem α × Int × Int) => do
    let m ← copyColumn other.inner v.inner v.rows s.2.1 s.2.2 s.1
    return (m, s.2.1 + other.outer, s.2.2 + v.outer)) (m, other.data, v.data)
  return s.1

/-- Copy assignment `operator=(const MatrixView &)`, mat-view.hpp:238-242; `same` says
whether `this == &other` (same view object). -/
def View.assign (v other : View) (same : Bool) (m : Mem α) : Res (Mem α) :=
  if same then .ok m else v.copyValues other m

/-- Inner loop of `operator+=(MatrixView)`, mat-view.hpp:262-268. -/
def addColumn [Add α] (srcInner dstInner rows src dst : Int) (m : Mem α) : Res (Mem α) := do
  let s ← forRange 0 rows (fun _ (s : Mem α × Int × Int) => do
    let y ← s.1.read s.2.1
    let x ← s.1.read s.2.2
    let m ← s.1.write s.2.2 (x + y)
    return (m, s.2.1 + srcInner, s.2.2 + dstInner)) (m, src, dst)
  return s.1

/-- `operator+=(MatrixView)`, mat-view.hpp:256-273. -/
def View.addView [Add α] (v other : View) (m : Mem α) : Res (Mem α) := do
  assertThat (decide (other.rows = v.rows))
  assertThat (decide (other.cols = v.cols))
  let s ← forRange 0 v.cols (fun _ (s : Mem α × Int × Int) => do
    let m ← addColumn other.inner v.inner v.rows s.2.1 s.2.2 s.1
    return (m, s.2.1 + other.outer, s.2.2 + v.outer)) (m, other.data, v.data)
  return s.1

/-- Inner loop of `operator+=(const U &)`, mat-view.hpp:279-283. -/
def addScalarColumn [Add α] (dstInner rows dst : Int) (u : Arg α) (m : Mem α) :
    Res (Mem α) := do
  let s ← forRange 0 rows (fun _ (s : Mem α × Int) => do
    let x ← s.1.read s.2
    let m ← s.1.write s.2 (x + (← u.eval s.1))
    return (m, s.2 + dstInner)) (m, dst)
  return s.1

/-- `operator+=(const U &)`, mat-view.hpp:275-287. -/
def View.addScalar [Add α] (v : View) (u : Arg α) (m : Mem α) : Res (Mem α) := do
  let s ← forRange 0 v.cols (fun _ (s : Mem α × Int) => do
    let m ← addScalarColumn v.inner v.rows s.2 u s.1
    return (m, s.2 + v.outer)) (m, v.data)
  return s.1

/-- `generate(gen)`, mat-view.hpp:288-293; `gen` is a function on its own state. -/
def View.generate {σ : Type} (v : View) (gen : σ → α × σ) (g : σ) (m : Mem α) :
    Res (Mem α × σ) :=
  forRange 0 v.cols (fun c s =>
    forRange 0 v.rows (fun r (s : Mem α × σ) => do
      let (x, g) := gen s.2
      let m ← s.1.write (← v.at r c) x
      return (m, g)) s) (m, g)

end Guanaqo.MatView
