import Verif.MatView.Checked2

/-! # Designated initializers, and `as_column` for any stride type (C130)

`Model.lean` has `as_column` of a view with unit inner stride. The stride type `S` of the template is a parameter: an integer type (dynamic
stride, default 1), or a default constructible type that is not constructible from `int`, such as `std::integral_constant<I, k>` (static stride,
default `k`). `as_column` leaves the inner stride to that default. -/

namespace Guanaqo.MatView

/-- The stride types that `default_stride` accepts, mat-view.hpp:19-31: an integral type, or a type with one value, that converts to `k`. -/
inductive StrideType where
  | dynamic
  | static (k : Int)
  deriving DecidableEq, Repr

/-- `default_stride<S>::value`, mat-view.hpp:22-31. -/
def StrideType.default : StrideType → Int
  | .dynamic => 1
  | .static k => k

/-- The values that a stride of the type can have. -/
def StrideType.Has : StrideType → Int → Prop
  | .dynamic, _ => True
  | .static k, s => s = k

/-- `PlainMatrixView` as written by the caller: each member may be left out of the designated initializer, mat-view.hpp:46-53. -/
structure Plain where
  data : Option Int := none
  rows : Option Int := none
  cols : Option Int := none
  inner : Option Int := none
  outer : Option Int := none

/-- The address of a null pointer. -/
def nullAddr : Int := 0

/-- Default member initializers, in the order of the members, and the constructor of `MatrixView`, mat-view.hpp:46-57. -/
def Plain.view (S : StrideType) (p : Plain) : View :=
  let data := p.data.getD nullAddr
  let rows := p.rows.getD 0
  let cols := p.cols.getD 1
  let inner := p.inner.getD S.default
  let outer := p.outer.getD (inner * rows)
  { data, rows, cols, inner, outer }

/-- `as_column(v)` for a stride type, mat-view.hpp:139-145: `.data`, `.rows` and `.cols` are given, `size` is that of the span (the conversion to
the index type is in `asColumnC`). -/
def asColumnS (S : StrideType) (data : Int) (size : Nat) : View :=
  Plain.view S { data := some data, rows := some size, cols := some 1 }

/-- With unit default stride it is the function of `Model.lean`. -/
theorem asColumnS_unit {S : StrideType} (h : S.default = 1) (data : Int) (size : Nat) :
    asColumnS S data size = View.asColumn data size := by
  simp [asColumnS, Plain.view, View.asColumn, View.withDefaultOuter, h]

/-- The members that the caller gives are those of the view. -/
theorem plain_given (S : StrideType) (d r c i o : Int) :
    Plain.view S { data := some d, rows := some r, cols := some c, inner := some i, outer := some o } = ⟨d, r, c, i, o⟩ := rfl

/-- The members that the caller leaves out: the data pointer is null, there are no rows but one column, the inner stride is the default of its type, and
the outer stride makes the columns adjacent. -/
theorem plain_defaults (S : StrideType) (p : Plain) :
    (p.data = none → (Plain.view S p).data = nullAddr) ∧ (p.rows = none → (Plain.view S p).rows = 0) ∧
    (p.cols = none → (Plain.view S p).cols = 1) ∧ (p.inner = none → (Plain.view S p).inner = S.default) ∧
    (p.outer = none → (Plain.view S p).outer = (Plain.view S p).inner * (Plain.view S p).rows) := by
  refine ⟨?_, ?_, ?_, ?_, ?_⟩ <;> intro h <;> simp [Plain.view, h]

/-- Two members given: a column of adjacent elements. -/
example : Plain.view .dynamic { data := some 100, rows := some 7 } = ⟨100, 7, 1, 1, 7⟩ := rfl

/-- A view made from `{}` is empty. -/
theorem plain_empty (S : StrideType) : (Plain.view S {}).empty = true := by
  simp [Plain.view, View.empty]

/-- The inner stride of a view made with no stride given is one that its type has. -/
theorem plain_has (S : StrideType) (p : Plain) (h : p.inner = none) : S.Has (Plain.view S p).inner := by
  cases S <;> simp [StrideType.Has, Plain.view, h, StrideType.default]

/-- What a user expects of `as_column`: the view is the span as a column. -/
def IsColumnOf (v : View) (data : Int) (size : Nat) : Prop :=
  v.rows = size ∧ v.cols = 1 ∧ ∀ i : Nat, i < size → v.addr i 0 = data + i

/-- All elements of the view are elements of the span. -/
def InSpan (v : View) (data : Int) (size : Nat) : Prop :=
  ∀ r c, v.HasElem r c → data ≤ v.addr r c ∧ v.addr r c < data + size

theorem asColumnS_addr (S : StrideType) (data : Int) (size : Nat) (i : Int) :
    (asColumnS S data size).addr i 0 = data + i * S.default := by
  simp [asColumnS, Plain.view, View.addr]

/-- **C130**, exactly: `as_column` is the column of the span's elements if and only if the default stride of the type is one, or there is
at most one element. -/
theorem asColumn_iff (S : StrideType) (data : Int) (size : Nat) :
    IsColumnOf (asColumnS S data size) data size ↔ S.default = 1 ∨ size ≤ 1 := by
  constructor
  · rintro ⟨_, _, h⟩
    by_cases hs : size ≤ 1
    · exact .inr hs
    · have := h 1 (by omega)
      rw [asColumnS_addr] at this
      left; push_cast at this; omega
  · intro h
    refine ⟨rfl, rfl, fun i hi => ?_⟩
    rw [asColumnS_addr]
    rcases h with h | h
    · rw [h]; omega
    · have : i = 0 := by omega
      subst this; simp

/-- **C130** as it holds: for every stride type with default one (all dynamic strides, and the default template argument). -/
theorem asColumn_partial (S : StrideType) (h : S.default = 1) (data : Int) (size : Nat) :
    IsColumnOf (asColumnS S data size) data size := (asColumn_iff S data size).2 (.inl h)

/-- Dynamic strides: no condition. -/
theorem asColumn_dynamic (data : Int) (size : Nat) : IsColumnOf (asColumnS .dynamic data size) data size :=
  asColumn_partial .dynamic rfl data size

/-- The elements of the view are elements of the span if and only if the stride is zero or one, or there is at most one element: with any
other static stride `as_column` is a view that reads and writes outside of the span. -/
theorem asColumn_inSpan_iff (S : StrideType) (data : Int) (size : Nat) :
    InSpan (asColumnS S data size) data size ↔ S.default = 0 ∨ S.default = 1 ∨ size ≤ 1 := by
  constructor
  · intro h
    by_cases hs : size ≤ 1
    · exact .inr (.inr hs)
    have h1 := h 1 0 (by simp only [asColumnS, Plain.view, View.HasElem, Option.getD]; omega)
    have h2 := h ((size : Int) - 1) 0 (by simp only [asColumnS, Plain.view, View.HasElem, Option.getD]; omega)
    rw [asColumnS_addr] at h1 h2
    by_cases hk : S.default ≤ 1
    · have : 0 ≤ S.default := by omega
      omega
    · exfalso
      have : ((size : Int) - 1) * 2 ≤ ((size : Int) - 1) * S.default := Int.mul_le_mul_of_nonneg_left (by omega) (by omega)
      omega
  · intro h r c hc
    obtain ⟨h1, h2, h3, h4⟩ := hc
    simp only [asColumnS, Plain.view, Option.getD] at h2 h4
    have : c = 0 := by omega
    subst this
    rw [asColumnS_addr]
    rcases h with h | h | h
    · rw [h]; simp; omega
    · rw [h]; omega
    · have : r = 0 := by omega
      subst this; simp; omega

/-- The full statement of C130. -/
def AsColumnAnyStride : Prop := ∀ (S : StrideType) (data : Int) (size : Nat), IsColumnOf (asColumnS S data size) data size

/-- It is false: `MatrixView<T, I, std::integral_constant<I, 2>>::as_column` of a span of two elements addresses the location after it. -/
theorem not_asColumnAnyStride : ¬ AsColumnAnyStride := by
  intro h
  have := (asColumn_iff (.static 2) 0 2).1 (h _ _ _)
  revert this; decide

/-- **C130**: `set_constant` on such a column writes the value to every element of the span, and to no other location. -/
theorem asColumn_write_partial {α : Type} (S : StrideType) (h : S.default = 1) (data : Int) (size : Nat) (x : α) (m : Mem α)
    (hm : ∀ i : Nat, i < size → ∃ y, m (data + i) = some y) :
    ∃ m', (asColumnS S data size).setConstant (.temp x) m = .ok m' ∧
      ∀ a, m' a = if data ≤ a ∧ a < data + size then some x else m a := by
  have hv : (asColumnS S data size).Backed m := by
    intro r c ⟨h1, h2, h3, h4⟩
    simp only [asColumnS, Plain.view, Option.getD] at h2 h4 ⊢
    have : c = 0 := by omega
    subst this
    obtain ⟨k, rfl⟩ := Int.eq_ofNat_of_zero_le h1
    rw [h]
    simpa using hm k (by omega)
  obtain ⟨m', h1, h2⟩ := setConstant_wrote hv (t := .temp x) (x := x) rfl
  refine ⟨m', h1, fun a => ?_⟩
  have hiff : (asColumnS S data size).IsElemAddr (fun _ _ => True) a ↔ data ≤ a ∧ a < data + size := by
    constructor
    · rintro ⟨r, c, ⟨h1, h2, h3, h4⟩, _, rfl⟩
      simp only [asColumnS, Plain.view, Option.getD, h] at h2 h4 ⊢
      have : c = 0 := by omega
      subst this; omega
    · rintro ⟨h1, h2⟩
      refine ⟨a - data, 0, ?_, trivial, ?_⟩
      · simp only [View.HasElem, asColumnS, Plain.view, Option.getD]; omega
      · simp only [asColumnS, Plain.view, Option.getD, h]; omega
  split
  · next hc => exact (h2 a).1 (hiff.2 hc)
  · next hc => exact (h2 a).2 (fun hh => hc (hiff.1 hh))

example : asColumnS (.static 2) 100 3 = ⟨100, 3, 1, 2, 6⟩ := by decide
example : (Plain.view .dynamic { data := some 7, rows := some 4, cols := some 3 }) = ⟨7, 4, 3, 1, 4⟩ := by decide
example : IsColumnOf (asColumnS (.static 1) 100 3) 100 3 := asColumn_partial _ rfl _ _
example : ∃ i : Nat, i < 3 ∧ ¬ (asColumnS (.static 2) 100 3).addr i 0 < 100 + 3 := ⟨2, by decide, by decide⟩

end Guanaqo.MatView
