import Verif.MatView.CheckedExact
import Verif.MatView.Alias
import Verif.MatView.Eigen
import Verif.MatView.AsColumn

/-! # Concrete cases of the theorems of C16-C23, C74, C95, C96 and C130

Each example applies a theorem to concrete data, so that all its hypotheses are met. -/

namespace Guanaqo.MatView

/-- 4×5, every other element, columns of ten. -/
def wStrided : View := ⟨100, 4, 5, 2, 10⟩
/-- 2×3 with a gap between the columns. -/
def wGap : View := ⟨0, 2, 3, 1, 4⟩
/-- 3×3 with a gap. -/
def wSquare : View := ⟨0, 3, 3, 1, 4⟩
/-- 2×3 elsewhere, with other strides. -/
def wOther : View := ⟨100, 2, 3, 2, 5⟩
/-- A memory in which each location has its address. -/
def wMem : Mem Int := fun a => some a

theorem wBacked (v : View) : v.Backed wMem := fun _ _ _ => ⟨_, rfl⟩

theorem wHolds (v : View) : ∀ r c, v.HasElem r c → v.Holds wMem r c (v.data + r * v.inner + c * v.outer) := fun _ _ _ => rfl

theorem wGap_inj : wGap.Injective := valid_strides_injective wGap (.inl ⟨by decide, by decide⟩)

theorem wSquare_inj : wSquare.Injective := valid_strides_injective wSquare (.inl ⟨by decide, by decide⟩)

theorem wApart : NoCrossAlias wGap wOther := by
  rintro r c r' c' ⟨h1, h2, h3, h4⟩ ⟨h5, h6, h7, h8⟩ h
  simp only [wGap, wOther] at *
  omega

example := subviews_are_blocks wStrided 2 1 1 3 2 (by decide) (by decide)
example := nested_subviews wStrided _ [.block 1 1 3 3, .bottom 2, .right 2] (by decide) (by decide) rfl
example := empty_iff wStrided (by decide) (by decide)
/-- The argument is an element of the view. -/
example := setConstant_exact wStrided (.ref 124) 124 wMem (wBacked _) rfl
example := copyValues_elementwise wGap wOther _ wMem rfl rfl wGap_inj (wBacked _) (wHolds _) wApart
example := assign_elementwise wGap wOther _ wMem rfl rfl wGap_inj (wBacked _) (wHolds _) wApart false (by decide)
example := addView_elementwise wGap wOther _ _ wMem rfl rfl wGap_inj (wHolds _) (wHolds _) wApart
example := addScalar_elementwise wGap (.ref 50) 50 _ wMem wGap_inj (wHolds _) rfl (by
  rintro a h ⟨r, c, ⟨h1, h2, h3, h4⟩, -, e⟩
  cases h
  simp only [wGap] at *
  omega)
example := addScalar_separate_partial wGap (.temp 7) 7 _ wMem wGap_inj (wHolds _) rfl (by rintro a h; cases h)
/-- The scalar is the element (1, 0) of the view. -/
example := addScalar_alias wGap 1 0 1 _ wMem wGap_inj (wHolds _) ⟨by decide, by decide, by decide, by decide⟩ rfl
example := dimension_mismatch_refused wGap wSquare wMem (.inl (by decide))
example := setConstantTri_exact_partial wSquare .strictlyUpper (.temp 7) 7 wMem rfl (.inl rfl) (wBacked _) rfl
example := triShapeOk_of_square wSquare .lower rfl
example := setDiagonal_exact_partial wSquare (.temp 7) 7 wMem rfl (wBacked _) rfl
/-- The argument is an element beside the diagonal. -/
example := addToDiagonal_exact_partial wSquare (.ref 1) 1 _ wMem rfl wSquare_inj (fun i h => wHolds _ i i h) rfl (by
  rintro a h ⟨r, c, ⟨h1, h2, h3, h4⟩, rfl, e⟩
  cases h
  simp only [wSquare] at *
  omega)
example := diagonal_correct_partial wSquare rfl
example := diagonal_too_long wGap (by decide) (by decide) (by decide)
example := valid_strides_injective wStrided (.inl ⟨by decide, by decide⟩)
/-- A transposed view. -/
example := valid_strides_injective ⟨0, 2, 3, 3, 1⟩ (.inr ⟨by decide, by decide⟩)
example := default_stride_contiguous 100 4 3 (by decide) 7
example := generate_columnMajor wGap (fun n : Nat => ((n : Int), n + 1)) 3 wMem (by decide) (by decide) wGap_inj (wBacked _)
example := asView_sameElements_partial ⟨0, 3, 2, 1, 3, false, some 1⟩ (by intro s hs; simpa using hs.symm) rfl
example := asSpan_correct ⟨5, 4, 1, 1, 4, false, some 1⟩ rfl rfl rfl
example := asColumn_write_partial (.dynamic) rfl 10 4 (7 : Int) wMem (fun _ _ => ⟨_, rfl⟩)
example := plain_has .dynamic { data := some 100, rows := some 7 } rfl

/-! ## Memory of exactly the elements -/

open Classical in
/-- Only the elements of the view are in memory. -/
noncomputable def wOnly (v : View) : Mem Int := fun a => if v.IsElemAddr (fun _ _ => True) a then some 0 else none

theorem wOnly_iff (v : View) (a : Int) : (wOnly v a).isSome = true ↔ v.IsElemAddr (fun _ _ => True) a := by
  unfold wOnly
  by_cases h : v.IsElemAddr (fun _ _ => True) a <;> simp [h]

example := setConstantTri_inside_iff wGap .upper 7 (wOnly wGap) rfl (by decide) (by decide) (by decide) (wOnly_iff _)
example := setDiagonal_inside_iff wGap 7 (wOnly wGap) rfl (by decide) (by decide) (by decide) (wOnly_iff _)
example := addToDiagonal_inside_iff wGap 7 (wOnly wGap) rfl (by decide) (by decide) (by decide) (wOnly_iff _)

/-! ## Arrays and index types -/

theorem wGap_inside : wGap.Inside ⟨64, 0, 12⟩ := ⟨by decide, by decide, by decide, by decide, by decide, by decide, by decide, by decide, by decide, by
    rintro r c ⟨h1, h2, h3, h4⟩
    simp only [View.addr, wGap] at *
    omega⟩

theorem wSquare_inside : wSquare.Inside ⟨64, 0, 16⟩ := ⟨by decide, by decide, by decide, by decide, by decide, by decide, by decide, by decide, by decide, by
    rintro r c ⟨h1, h2, h3, h4⟩
    simp only [View.addr, wSquare] at *
    omega⟩

theorem wOther_inside : wOther.Inside ⟨64, 100, 120⟩ := ⟨by decide, by decide, by decide, by decide, by decide, by decide, by decide, by decide, by decide, by
    rintro r c ⟨h1, h2, h3, h4⟩
    simp only [View.addr, wOther] at *
    omega⟩

theorem wGap_roomy : wGap.Roomy ⟨64, 0, 12⟩ := roomy_of_columns wGap_inside rfl ⟨by decide, by decide⟩ (by decide) (by decide)

example := at_defined wGap_inside (r := 1) (c := 2) ⟨by decide, by decide, by decide, by decide⟩
example := at_ok_iff wGap_inside 1 2 9
example := bottomRows_defined wGap_inside (n := 1) (.inl ⟨by decide, by decide⟩)
example := rightCols_defined wGap_inside (n := 2) (.inl ⟨by decide, by decide⟩)
example := rightCols_zero_iff wGap_inside
example := block_defined wGap_inside (r := 1) (c := 1) (nr := 1) (nc := 2) (by decide) (by decide) (by decide) (by decide) (by decide) (by decide)
example := setConstant_defined wGap_inside ⟨by decide, by decide⟩ (.temp 7) wMem
example := setConstantTri_defined_partial wSquare_inside rfl rfl (.temp 7) .upper wMem
example := generate_defined wGap_inside (fun n : Nat => ((n : Int), n + 1)) 3 wMem
example := diagonal_value (E := ⟨64, 0, 16⟩) (v := wSquare) rfl
example := asColumn_defined_iff (E := ⟨64, 0, 12⟩) (by decide) 0 12 (by decide)
example := setDiagonal_defined_partial wSquare_inside rfl (by unfold Fits; decide) (by decide) (.temp 7) wMem
example := setDiagonal_needs (E := ⟨64, 0, 16⟩) (v := wSquare) (by decide) (setDiagonal_defined_partial wSquare_inside rfl (by unfold Fits; decide) (by decide) (.temp 7) wMem)
example := setDiagonal_undefined (E := ⟨64, 0, 9⟩) (v := ⟨0, 3, 3, 1, 3⟩) (by decide) rfl rfl rfl rfl (.temp 7) wMem
example := addToDiagonal_defined_partial wSquare_inside rfl (by unfold Fits; decide) (by decide) (.temp 7) wMem
example := addToDiagonal_needs (E := ⟨64, 0, 16⟩) (v := wSquare) (by decide) (addToDiagonal_defined_partial wSquare_inside rfl (by unfold Fits; decide) (by decide) (.temp 7) wMem)
example := addToDiagonal_undefined (E := ⟨64, 0, 9⟩) (v := ⟨0, 3, 3, 1, 3⟩) (by decide) rfl rfl rfl rfl (.temp 7) wMem
example := addScalar_defined_partial wGap_inside wGap_roomy ⟨by decide, by decide⟩ (.temp 7) wMem
example := copyValues_defined_partial wGap_inside wGap_inside wGap_roomy wGap_roomy ⟨by decide, by decide⟩ wMem
example := copyValues_needs (S := ⟨64, 0, 12⟩) (D := ⟨64, 0, 12⟩) (v := wGap) (other := wGap) (by decide)
  (copyValues_defined_partial wGap_inside wGap_inside wGap_roomy wGap_roomy ⟨by decide, by decide⟩ wMem)
example := addView_defined_partial wGap_inside wGap_inside wGap_roomy wGap_roomy ⟨by decide, by decide⟩ wMem
example := copyValues_defined_iff wGap_inside wOther_inside ⟨by decide, by decide⟩ rfl rfl wMem wGap_inj (wBacked _) (wBacked _) wApart
example := addView_defined_iff wGap_inside wOther_inside ⟨by decide, by decide⟩ rfl rfl wMem wGap_inj (wBacked _) (wBacked _) wApart
example := addScalar_defined_iff wGap_inside ⟨by decide, by decide⟩ wMem wGap_inj (wBacked _) (.temp 7) rfl (by rintro a h; cases h)
example := setDiagonal_defined_iff wSquare_inside rfl (by decide) wMem (wBacked _) (.temp 7) rfl
example := addToDiagonal_defined_iff wSquare_inside rfl (by decide) wMem wSquare_inj (wBacked _) (.temp 7) rfl (by rintro a h; cases h)
/-- The bottom row of a 2×3 matrix in an array of its own. -/
example := copy_bottomRows_undefined (S := ⟨64, 100, 120⟩) (D := ⟨64, 0, 6⟩) (A := ⟨0, 2, 3, 1, 2⟩) (n := 1) (other := wOther) rfl rfl rfl (by decide) (by decide) rfl wMem

end Guanaqo.MatView
