import Verif.MatView.Props

/-!
# Eigen interoperability (C23)

`/repo/src/include/guanaqo/eigen/view.hpp`, `eigen/span.hpp` and
`linalg/eigen/sparse.hpp`. Eigen itself is modelled by the address formula of its direct-access
objects; constness, deleted overloads for temporaries and index-type casts are not modelled.
-/

namespace Guanaqo.MatView

/-- An Eigen object with direct access to linear memory: `data()`, `rows()`, `cols()`,
`innerStride()`, `outerStride()` and `IsRowMajor` (Eigen gives row vectors `IsRowMajor`). -/
structure EigenObj where
  data : Int
  rows : Int
  cols : Int
  innerStride : Int
  outerStride : Int
  rowMajor : Bool
  /-- `Derived::InnerStrideAtCompileTime` (`none` when `Eigen::Dynamic`). -/
  staticInner : Option Int
  deriving DecidableEq, Repr

/-- Eigen's coefficient address: the inner stride separates coefficients of one column
(column-major) or of one row (row-major). -/
def EigenObj.addr (e : EigenObj) (r c : Int) : Int :=
  if e.rowMajor then e.data + r * e.outerStride + c * e.innerStride
  else e.data + r * e.innerStride + c * e.outerStride

/-- The compile-time inner stride, if any, is the run-time one (an Eigen invariant). -/
def EigenObj.Wf (e : EigenObj) : Prop := ∀ s, e.staticInner = some s → s = e.innerStride

/-- `as_view_impl`, eigen/view.hpp:17-44 (dynamic inner stride: lines 28-35, compile-time
inner stride: lines 37-43, whose inner stride is the compile-time constant). -/
def asView (e : EigenObj) : View :=
  match e.staticInner with
  | none => { data := e.data, rows := e.rows, cols := e.cols, inner := e.innerStride,
              outer := e.outerStride }
  | some s => { data := e.data, rows := e.rows, cols := e.cols, inner := s,
                outer := e.outerStride }

/-- `as_eigen(MatrixView)`, eigen/view.hpp:97-138. `static` says whether the inner stride is a
compile-time constant; the branches 113-117 (0 and -1: dynamic stride), 119-123 (unit stride),
125-129 (other constants) and 132-137 (dynamic). `Eigen::MatrixX` is column-major. -/
def asEigen (v : View) (static : Bool) : EigenObj :=
  if static then
    if v.inner = 0 ∨ v.inner = -1 then
      { data := v.data, rows := v.rows, cols := v.cols, innerStride := v.inner,
        outerStride := v.outer, rowMajor := false, staticInner := none }
    else if v.inner = 1 then
      { data := v.data, rows := v.rows, cols := v.cols, innerStride := 1,
        outerStride := v.outer, rowMajor := false, staticInner := some 1 }
    else
      { data := v.data, rows := v.rows, cols := v.cols, innerStride := v.inner,
        outerStride := v.outer, rowMajor := false, staticInner := some v.inner }
  else
    { data := v.data, rows := v.rows, cols := v.cols, innerStride := v.inner,
      outerStride := v.outer, rowMajor := false, staticInner := none }

/-- What it means that a view and an Eigen object denote the same elements. -/
def SameElements (v : View) (e : EigenObj) : Prop :=
  v.rows = e.rows ∧ v.cols = e.cols ∧
  ∀ r c, v.HasElem r c → v.data + r * v.inner + c * v.outer = e.addr r c

/-- C23. `as_eigen` denotes the same elements as its view, for every stride. -/
theorem asEigen_sameElements (v : View) (static : Bool) : SameElements v (asEigen v static) := by
  unfold asEigen SameElements
  split
  · split
    · exact ⟨rfl, rfl, fun r c _ => by simp [EigenObj.addr]⟩
    · split
      · rename_i h; exact ⟨rfl, rfl, fun r c _ => by simp [EigenObj.addr, h]⟩
      · exact ⟨rfl, rfl, fun r c _ => by simp [EigenObj.addr]⟩
  · exact ⟨rfl, rfl, fun r c _ => by simp [EigenObj.addr]⟩

/-- C23. The inner stride of the result is a compile-time constant exactly when that of the view is, except for the
values 0 and -1, which mean something else in Eigen. -/
theorem asEigen_static (v : View) (static : Bool) :
    (asEigen v static).staticInner =
      if static = true ∧ v.inner ≠ 0 ∧ v.inner ≠ -1 then some v.inner else none := by
  unfold asEigen
  cases static with
  | false => simp
  | true =>
    by_cases h : v.inner = 0 ∨ v.inner = -1
    · have h' : ¬ (true = true ∧ v.inner ≠ 0 ∧ v.inner ≠ -1) := by
        rintro ⟨-, h1, h2⟩; exact h.elim h1 h2
      rw [if_pos rfl, if_pos h, if_neg h']
    · have h' : true = true ∧ v.inner ≠ 0 ∧ v.inner ≠ -1 :=
        ⟨rfl, fun h1 => h (.inl h1), fun h1 => h (.inr h1)⟩
      rw [if_pos rfl, if_neg h, if_pos h']
      by_cases h1 : v.inner = 1
      · rw [if_pos h1, h1]
      · rw [if_neg h1]

/-- C23. `as_view` of a column-major Eigen object denotes the same elements. -/
theorem asView_sameElements_partial (e : EigenObj) (hw : e.Wf) (hcm : e.rowMajor = false) :
    SameElements (asView e) e := by
  unfold asView SameElements
  split
  · exact ⟨rfl, rfl, fun r c _ => by simp [EigenObj.addr, hcm]⟩
  · rename_i s hs
    have := hw s hs
    exact ⟨rfl, rfl, fun r c _ => by simp [EigenObj.addr, hcm, this]⟩

/-- C23. A view survives the round trip through Eigen unchanged. -/
theorem asView_asEigen (v : View) (static : Bool) : asView (asEigen v static) = v := by
  unfold asEigen
  split
  · split
    · rfl
    · split
      · rename_i h; simp [asView, ← h]
      · rfl
  · rfl

/-- C23, full statement: `as_view` denotes the same elements for every Eigen object. -/
def AsViewCorrect : Prop := ∀ e : EigenObj, e.Wf → SameElements (asView e) e

/-- C23. The full statement is false: the storage order is ignored, so for a row-major
object (for example `M.row(0)` of a 3×2 column-major matrix) the view addresses other
elements. -/
theorem not_asViewCorrect : ¬ AsViewCorrect := by
  intro h
  have h1 := (h ⟨0, 1, 2, 3, 1, true, none⟩ (by intro s hs; simp at hs)).2.2 0 1
    ⟨by decide, by decide, by decide, by decide⟩
  revert h1; decide

example : (⟨0, 3, 2, 1, 3, false, some 1⟩ : EigenObj).Wf := by intro s hs; simpa using hs.symm

/-- `as_span` of an Eigen column vector with unit compile-time inner stride,
eigen/span.hpp:19-50: (pointer, length); `size() = rows * cols`. -/
def asSpan (e : EigenObj) : Int × Int := (e.data, e.rows * e.cols)

/-- `as_eigen(std::span)`, eigen/span.hpp:54-64: a column vector map (outer stride equal to the
size). -/
def spanAsEigen (s : Int × Int) : EigenObj :=
  { data := s.1, rows := s.2, cols := 1, innerStride := 1, outerStride := s.2, rowMajor := false,
    staticInner := some 1 }

/-- C23. Spans of column vectors list the coefficients in order, and the conversions between
spans and column vectors are inverse to each other. -/
theorem asSpan_correct (e : EigenObj) (hc : e.cols = 1) (hi : e.innerStride = 1)
    (hcm : e.rowMajor = false) :
    (asSpan e).2 = e.rows ∧ (∀ i, (asSpan e).1 + i = e.addr i 0) ∧
    (∀ s, asSpan (spanAsEigen s) = s) ∧
    (∀ i, (spanAsEigen (asSpan e)).addr i 0 = e.addr i 0) ∧
    (∀ s, (spanAsEigen s).Wf) := by
  refine ⟨by simp [asSpan, hc], fun i => by simp [asSpan, EigenObj.addr, hcm, hi], ?_, ?_, fun s t ht => by
    simp only [spanAsEigen, Option.some.injEq] at ht ⊢; exact ht.symm⟩
  · intro s; simp [asSpan, spanAsEigen]
  · intro i; simp [asSpan, spanAsEigen, EigenObj.addr, hcm, hi]

example : (⟨5, 4, 1, 1, 4, false, some 1⟩ : EigenObj).cols = 1 ∧
    (⟨5, 4, 1, 1, 4, false, some 1⟩ : EigenObj).addr 2 0 = 7 := by decide

end Guanaqo.MatView
