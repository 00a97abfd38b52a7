import Verif.Sparsity.Requests
import Verif.Sparsity.MemoryInto
import Verif.Sparsity.Sizes
import Verif.Sparsity.Narrow

/-! # Concrete cases of the theorems of C01-C14, C75 and C131

Each example applies a theorem to concrete data, so that all its hypotheses are met. -/

namespace Guanaqo.Sparsity

/-! ## The matrices -/

theorem wCsc : exampleCsc.Wf := by
  refine ⟨by decide, by decide, by decide, by decide, ?_, by decide, by decide⟩
  intro c hc
  have : c < 3 := by simp [exampleCsc] at hc; omega
  have : c = 0 ∨ c = 1 ∨ c = 2 := by omega
  rcases this with rfl | rfl | rfl <;> decide

theorem wCscTri : ∀ p ∈ exampleCsc.positions, InTriangle exampleCsc.symmetry p.1 p.2 := by
  intro p hp
  have hp : p ∈ [((0 : Int), (0 : Int)), (2, 2), (0, 2)] := hp
  simp at hp
  rcases hp with rfl | rfl | rfl <;> simp [InTriangle, exampleCsc]

theorem wCscShape : ShapeOk exampleCsc.symmetry exampleCsc.rows exampleCsc.cols := ⟨by decide, by decide⟩
theorem wCscUnique : exampleCsc.positions.Nodup := by decide

theorem wCscValid : (Pattern.csc .int .int exampleCsc).Valid := ⟨wCsc, trivial, wCscUnique, wCscShape, wCscTri⟩

theorem wIdx : FitsIdx .int 3 3 1 := ⟨by decide, by decide, by decide, by decide, by decide⟩
theorem wIdx0 : FitsIdx .int 3 3 0 := ⟨by decide, by decide, by decide, by decide, by decide⟩

theorem wDense : DenseOk ⟨3, 3, .upper⟩ := ⟨by decide, by decide, .inr ⟨rfl, rfl⟩⟩
theorem wDenseValid : (Pattern.dense ⟨3, 3, .upper⟩).Valid := ⟨by decide, by decide, by decide, by decide⟩

/-- The upper triangle of this matrix is what is stored. -/
def wVals : List Int := [1, 2, 3, 2, 4, 5, 3, 5, 6]

/-! ## The converters -/

example := csc_to_dense (0 : Int) true exampleCsc wCsc wCscShape wCscUnique wCscTri [10, 20, 30] (List.replicate 9 7) rfl rfl
example := csc_to_coo (T := Int) true .int exampleCsc (some 1) wCsc wIdx (fun _ => wCscUnique) (by intro h; cases h)
example := csc_to_csc (T := Int) someStd someStd_ok true .int .int .long .int exampleCsc (some .sortedRows) wCsc trivial ⟨by decide, by decide⟩
  (fun _ => wCscUnique)
example := csc_to_csc_columns someStd true .int .int .long .int exampleCsc (some .unsorted) wCsc ⟨by decide, by decide⟩ rfl
example := dense_to_coo true .int ⟨3, 3, .upper⟩ (some 1) wDense wIdx wVals rfl
example := dense_to_csc true .int .int ⟨3, 3, .upper⟩ wDense (by decide) (by decide) wVals rfl
example := dense_to_sparse_refused true .int .int ⟨3, 3, .lower⟩ (some 1) (.inl rfl)
example := nonsquare_to_dense_refused true .upper 2 3 (by decide) (by decide)

/-! ## Any conversion -/

theorem wSup (dbg : Bool) : Supported dbg (.csc .int .int exampleCsc) (.csc .int .int (some .sortedRows)) :=
  ⟨by decide, wIdx0, by decide, .inr (.inl rfl)⟩
theorem wSupCoo (dbg : Bool) : Supported dbg (.dense ⟨3, 3, .upper⟩) (.coo .int (some 1)) := ⟨by decide, wIdx0, wIdx, by decide, by decide⟩

example := convert_faithful (0 : Int) someStd someStd_ok true _ _ wCscValid (wSup true)
example := convert_faithful (0 : Int) someStd someStd_ok true _ _ wDenseValid (wSupCoo true)
example := within_bounds_all_written (0 : Int) someStd someStd_ok true _ _ wCscValid (wSup true)
example := convertValuesCopy_correct (0 : Int) someStd someStd_ok true _ _ wCscValid (wSup true)
example := convertValuesInto_correct (0 : Int) someStd someStd_ok true _ _ wCscValid (wSup true)
example := requests_honoured_partial (0 : Int) someStd someStd_ok true _ _ _ _ wCscValid (wSup true)
example := requests_honoured_iff (0 : Int) someStd someStd_ok true (.csc .int .int exampleCsc) .int .int (some .sortedRows) wCscValid (by decide) (by decide)
  wIdx0 (by decide)
example := accessors_consistent (0 : Int) someStd someStd_ok true _ _ wDenseValid (wSupCoo true)
example := invalid_order_refused (0 : Int) someStd true .int .int .int { exampleCoo with order := .invalid } none rfl
example := invalid_order_refused_csc someStd true .int .int .int .int { exampleCsc with order := .invalid } rfl

/-- From CSC to COO and on to a dense matrix. -/
example : ∃ q w d w', Chain (0 : Int) someStd true (.csc .int .int exampleCsc) [10, 20, 30] q w ∧ q ≠ .csc .int .int exampleCsc ∧
    Chain (0 : Int) someStd true (.csc .int .int exampleCsc) [10, 20, 30] (.dense d) w' := by
  obtain ⟨M, hM⟩ : ∃ M, (Pattern.csc .int .int exampleCsc).Denotes (0 : Int) [10, 20, 30] M := by
    obtain ⟨-, o, -, -, -, -, h⟩ := csc_to_dense (0 : Int) true exampleCsc wCsc wCscShape wCscUnique wCscTri [10, 20, 30] (List.replicate 9 7) rfl rfl
    exact ⟨_, h.2⟩
  obtain ⟨q, w, h1, -, h2, -⟩ := chain_continues (0 : Int) someStd someStd_ok true wCscValid (v := [10, 20, 30]) rfl hM
    (q := .csc .int .int exampleCsc) (w := [10, 20, 30]) .refl (.coo .int (some 1))
    ⟨by decide, wIdx0, wIdx, by decide, by decide⟩
  obtain ⟨s, rfl⟩ := h2 _ _ rfl
  obtain ⟨q', w', h3, h4, -⟩ := chain_continues (0 : Int) someStd someStd_ok true wCscValid (v := [10, 20, 30]) rfl hM h1 .dense trivial
  obtain ⟨d, rfl⟩ := h4 rfl
  exact ⟨_, w, d, w', h1, (by intro h; cases h), h3⟩

end Guanaqo.Sparsity
