import Verif.Sparsity.PropsChain

/-! # `linalg::MatrixView` (C138)

The view of values with a sparsity pattern (linalg/matrix-view.hpp). Spans are modelled by the values they refer to. -/

namespace Guanaqo.Sparsity

variable {T : Type}

/-- linalg/matrix-view.hpp:9-36: the two members. -/
structure LinalgView (T : Type) where
  values : List T
  sparsity : Pattern

/-- linalg/matrix-view.hpp:15, the default constructor (an empty span; `Dense{0, 0}` has `Symmetry::Unsymmetric`, sparsity.hpp:30-33). -/
def LinalgView.default : LinalgView T := ⟨[], .dense ⟨0, 0, .unsymmetric⟩⟩

/-- linalg/matrix-view.hpp:20-21, the general constructor. -/
def LinalgView.of (values : List T) (sparsity : Pattern) : LinalgView T := ⟨values, sparsity⟩

/-- linalg/matrix-view.hpp:27-29, the constructor of dense matrices; the symmetry has a default. -/
def LinalgView.dense (values : List T) (rows cols : Int) (symmetry : Symmetry := .unsymmetric) : LinalgView T :=
  .of values (.dense ⟨rows, cols, symmetry⟩)

/-- The view is a matrix: the pattern makes sense and there is one value for every stored entry. -/
def LinalgView.Ok (v : LinalgView T) : Prop := v.sparsity.Valid ∧ v.values.length = v.sparsity.count

/-- `x` is element `(r, c)` of the matrix that the view describes. -/
def LinalgView.Elem (zero : T) (v : LinalgView T) (r c : Int) (x : T) : Prop :=
  0 ≤ r ∧ r < numRows v.sparsity ∧ 0 ≤ c ∧ c < numCols v.sparsity ∧
  ∃ M, v.sparsity.Denotes zero v.values M ∧ denseAt (numRows v.sparsity) M r c = some x

/-- **C138**: the default view is a matrix with no rows, no columns and no values, and so is whatever it is converted to. -/
theorem default_view_empty (zero : T) (std : StdLib) (hstd : std.Ok) (dbg : Bool) :
    (LinalgView.default : LinalgView T).Ok ∧ (∀ r c x, ¬ (LinalgView.default : LinalgView T).Elem zero r c x) ∧
    ∀ (q : Pattern) (w : List T), Chain zero std dbg (LinalgView.default : LinalgView T).sparsity (LinalgView.default : LinalgView T).values q w →
      numRows q = 0 ∧ numCols q = 0 ∧ w = [] := by
  have hv : (LinalgView.default : LinalgView T).Ok := ⟨⟨le_refl _, le_refl _, by decide, by decide⟩, rfl⟩
  refine ⟨hv, fun r c x h => ?_, fun q w h => ?_⟩
  · obtain ⟨h1, h2, -⟩ := h
    have : r < 0 := h2
    omega
  · obtain ⟨h1, h2, h3, h4, h5, -⟩ := chain_preserves zero std hstd dbg hv.1 hv.2 ⟨rfl, fun h => absurd rfl h⟩ h
    have h4 : numRows q = 0 := h4
    have h5 : numCols q = 0 := h5
    refine ⟨h4, h5, List.length_eq_zero_iff.1 ?_⟩
    rw [h2]
    cases q with
    | dense d =>
      have : d.rows = 0 := h4
      simp [Pattern.count, this]
    | csc I J s =>
      have hwf : s.Wf := h1.1
      have hc : s.cols = 0 := h5
      have h6 := hwf.outer_last
      have h7 := hwf.outer_first
      rw [hc] at h6
      have h8 : (0 : Int).toNat = 0 := rfl
      rw [h8, h7] at h6
      show s.innerIdx.length = 0
      omega
    | coo I s =>
      have hwf : s.Wf := h1.1
      have hr : s.rows = 0 := h4
      show s.rowIndices.length = 0
      match hl : s.rowIndices with
      | [] => rfl
      | a :: l =>
        have := hwf.row_range a (by rw [hl]; exact List.mem_cons_self)
        omega

/-- **C138**: the view of values with dimensions (symmetric only if the values are) is the matrix with element `(r, c)` at position `r + c * rows`. -/
theorem dense_view_elements (zero : T) (values : List T) (rows cols : Int) (sym : Symmetry) (hr : 0 ≤ rows) (hc : 0 ≤ cols)
    (hl : (values.length : Int) = rows * cols) (hs : ShapeOk sym rows cols) (hsym : SymmetricIf sym rows values) :
    (LinalgView.dense values rows cols sym).Ok ∧
    (∀ r c x, (LinalgView.dense values rows cols sym).Elem zero r c x ↔
      0 ≤ r ∧ r < rows ∧ 0 ≤ c ∧ c < cols ∧ values[(r + c * rows).toNat]? = some x) := by
  refine ⟨⟨⟨hr, hc, hs⟩, ?_⟩, fun r c x => ?_⟩
  · show values.length = (rows * cols).toNat
    omega
  · constructor
    · rintro ⟨h1, h2, h3, h4, M, ⟨rfl, -⟩, h⟩
      exact ⟨h1, h2, h3, h4, h⟩
    · rintro ⟨h1, h2, h3, h4, h⟩
      exact ⟨h1, h2, h3, h4, values, ⟨rfl, hsym⟩, h⟩

/-- **C138**: every view that is a matrix stays the same matrix under any conversions; the values of a dense one come back. -/
theorem view_chain (zero : T) (std : StdLib) (hstd : std.Ok) (dbg : Bool) (v : LinalgView T) (hv : v.Ok) (q : Pattern) (w : List T)
    (h : Chain zero std dbg v.sparsity v.values q w) (r c : Int) (x : T) (hx : v.Elem zero r c x) :
    (LinalgView.of w q).Ok ∧ (LinalgView.of w q).Elem zero r c x := by
  obtain ⟨h1, h2, h3, h4, M, hM, hx⟩ := hx
  obtain ⟨g1, g2, g3, g4, g5, -⟩ := chain_preserves zero std hstd dbg hv.1 hv.2 hM h
  refine ⟨⟨g1, g2⟩, h1, ?_, h3, ?_, M, g3, ?_⟩
  · show r < numRows q
    rw [g4]; exact h2
  · show c < numCols q
    rw [g5]; exact h4
  · show denseAt (numRows q) M r c = some x
    rw [g4]; exact hx

/-- Non-vacuity: a 2 by 3 matrix. -/
example : (LinalgView.dense [1, 2, 3, 4, 5, 6] 2 3).Elem 0 1 2 6 :=
  ((dense_view_elements 0 [1, 2, 3, 4, 5, 6] 2 3 .unsymmetric (by decide) (by decide) (by decide) ⟨by decide, by decide⟩ (fun h => absurd rfl h)).2 1 2 6).2
    (by decide)

end Guanaqo.Sparsity
