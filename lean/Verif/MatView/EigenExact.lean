import Verif.MatView.Eigen

/-!
# C23: exactly when `as_view` denotes the elements of the Eigen object
-/

namespace Guanaqo.MatView

/-- **C23**, exactly: `as_view` denotes the elements of the Eigen object if and only if the object is column-major, or
its two strides are equal, or it has no elements, or it has a single one. -/
theorem asView_sameElements_iff (e : EigenObj) (hw : e.Wf) :
    SameElements (asView e) e ↔ e.rowMajor = false ∨ e.innerStride = e.outerStride ∨ e.rows ≤ 0 ∨ e.cols ≤ 0 ∨
      (e.rows = 1 ∧ e.cols = 1) := by
  have hv : asView e = { data := e.data, rows := e.rows, cols := e.cols, inner := e.innerStride, outer := e.outerStride } := by
    unfold asView
    split
    · rfl
    · rename_i s hs
      rw [hw s hs]
  rw [hv]
  constructor
  · rintro ⟨-, -, h⟩
    by_cases hrm : e.rowMajor = false
    · exact .inl hrm
    have hrm' : e.rowMajor = true := by simpa using hrm
    by_cases h0 : e.rows ≤ 0
    · exact .inr (.inr (.inl h0))
    by_cases h1 : e.cols ≤ 0
    · exact .inr (.inr (.inr (.inl h1)))
    by_cases h2 : e.rows = 1
    · by_cases h3 : e.cols = 1
      · exact .inr (.inr (.inr (.inr ⟨h2, h3⟩)))
      · have := h 0 1 ⟨by decide, (by show (0:Int) < e.rows; omega), by decide, (by show (1:Int) < e.cols; omega)⟩
        simp only [EigenObj.addr, hrm', if_true] at this
        exact .inr (.inl (by omega))
    · have := h 1 0 ⟨by decide, (by show (1:Int) < e.rows; omega), by decide, (by show (0:Int) < e.cols; omega)⟩
      simp only [EigenObj.addr, hrm', if_true] at this
      exact .inr (.inl (by omega))
  · intro h
    refine ⟨rfl, rfl, fun r c hrc => ?_⟩
    obtain ⟨h1, h2, h3, h4⟩ := hrc
    dsimp only at h2 h4 ⊢
    rcases h with h | h | h | h | ⟨h, h'⟩
    · simp only [EigenObj.addr, h]; simp
    · simp only [EigenObj.addr, h]; split <;> rfl
    · omega
    · omega
    · have : r = 0 := by omega
      have : c = 0 := by omega
      subst r c
      simp [EigenObj.addr]

/-- Both cases: a row of a row-major matrix, and a strided row of a column-major one. -/
example : ¬ SameElements (asView ⟨0, 1, 2, 3, 1, true, none⟩) ⟨0, 1, 2, 3, 1, true, none⟩ ∧
    SameElements (asView ⟨0, 4, 5, 2, 2, true, none⟩) ⟨0, 4, 5, 2, 2, true, none⟩ := by
  constructor
  · rw [asView_sameElements_iff _ (by intro s hs; cases hs)]
    decide
  · rw [asView_sameElements_iff _ (by intro s hs; cases hs)]
    decide

end Guanaqo.MatView
