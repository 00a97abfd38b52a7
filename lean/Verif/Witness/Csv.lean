import Verif.Csv.Chunks
import Verif.Csv.FaultsReturns
import Verif.Csv.IntFields

/-! # Concrete cases of the theorems of C40-C44, C97, C118 and C119

Each example applies a theorem to concrete data, so that all its hypotheses are met. -/

namespace Guanaqo.Csv

open FromChars (Ty)
open MatView

theorem wInt : (fromCharsInt 32).Ok ',' := fromCharsInt_ok 32 ',' (by decide) (by decide)

def wLine : List Char := "12,-3,+4,".toList

/-! ## Rows -/

example := csv_read_row_empty (fromCharsInt 32) ',' true true 0 "\n7\n".toList (.inr ⟨_, rfl⟩)
example := csv_read_vector_empty (fromCharsInt 32) ',' true true "\n7\n".toList (.inr ⟨_, rfl⟩)
example := comments_skipped_partial (fromCharsInt 32) ',' wInt (by decide) true true 3 [" a".toList, "b".toList] (by decide) wLine "7\n".toList (by decide)
  (by decide) (by decide) (by decide +kernel)
example := csv_read_vector_exact (fromCharsInt 32) ',' wInt (by decide) true true [" a".toList] (by decide) wLine "\n7\n".toList (by decide)
  (by decide) (by decide) (.inr ⟨_, rfl⟩) (by decide +kernel)
example := fields_whole_partial (fromCharsInt 32) ',' wInt (by decide) true true 2 [" a".toList] (by decide)
  ("7,".toList ++ List.replicate 63 '0' ++ ['5']) ['\n'] (by decide) (by decide +kernel) (by decide) (.inr ⟨_, rfl⟩) (by decide +kernel) [7, 5] { rest := [] }
  (by decide +kernel)
/-- A field of 66 digits. -/
example := csv_read_row_chunked (fromCharsInt 32) ',' wInt true true 3 [" a".toList] (by decide) (List.replicate 64 '0' ++ "12,-7".toList) "\n7\n".toList
  (by decide) (by decide +kernel) (by decide) (.inr ⟨_, rfl⟩)
example := long_field_split (fromCharsInt 32) ',' wInt true true (List.replicate 64 '0') "12".toList "\n7".toList 0 12 (by decide) (by decide) (by decide +kernel)
  (by decide +kernel) (by decide +kernel) (by decide) (.inr ⟨_, rfl⟩)
example := comments_skipped_iff (fromCharsInt 32) ',' wInt true true 3 [" a".toList] (by decide) wLine "7\n".toList (by decide) (by decide)

/-! ## Without `std::from_chars` -/

theorem wPlain : PlainText "# a b\n+1,-32768\n32767,0\n".toList :=
  plainText_cons (L := "# a b".toList) (by decide +kernel) (fun h => absurd (by decide +kernel) h)
    (plainText_cons (L := "+1,-32768".toList) (by decide +kernel) (fun _ => plainLine_of (by decide +kernel) (by decide +kernel) (by decide +kernel))
    (plainText_cons (L := "32767,0".toList) (by decide +kernel) (fun _ => plainLine_of (by decide +kernel) (by decide +kernel) (by decide +kernel))
    (plainText_line (by decide +kernel) (fun _ => plain_nil))))

theorem wPlain_read : csvRead (fromCharsInt 64) true true ',' 2 2 { rest := "# a b\n+1,-32768\n32767,0\n".toList } =
    .ok ([[1, -32768], [32767, 0]], { rest := [] }) := by decide +kernel

example := fallback_same_partial .short true true ',' (by decide) wPlain 2 2 (by
  intro vs is' h
  rw [wPlain_read] at h
  cases h
  decide)
example := fallback_csv_read .short true true ',' wPlain 2 2 [[1, -32768], [32767, 0]] { rest := [] }
example := fallback_csv_read_row .short true true ',' wPlain 2 [1, -32768] { rest := "32767,0\n".toList }
example := fallback_csv_read_vector .short true true ',' wPlain [1, -32768] { rest := "32767,0\n".toList }
example := fallback_wraps .short true true ',' (by decide) wPlain 2 2 wPlain_read

theorem wRows : ∀ r ∈ [(⟨[], "1,2".toList⟩ : RowText), ⟨["c".toList], "3,-4".toList⟩], r.Ok ',' := by
  intro r hr
  simp only [List.mem_cons, List.not_mem_nil, or_false] at hr
  rcases hr with rfl | rfl <;> refine ⟨?_, ?_, ?_, ?_, ?_⟩ <;> decide +kernel

example := csvReadBy_exact (readSingle (fromCharsInt 32)) ',' (readSingle_ok wInt (by decide)) true true 2 _ wRows "rest".toList
example := csvReadRowBy_exact (readSingle (fromCharsInt 32)) ',' (readSingle_ok wInt (by decide)) true true 3 [" a".toList] (by decide) wLine "\n7\n".toList (by decide)
  (by decide) (by decide) (.inr ⟨_, rfl⟩) (by decide +kernel)
example := csvReadRowVectorBy_exact (readSingle (fromCharsInt 32)) ',' (readSingle_ok wInt (by decide)) true true [" a".toList] (by decide) wLine "\n7\n".toList (by decide)
  (by decide) (by decide) (.inr ⟨_, rfl⟩) (by decide +kernel)

/-! ## Into a view, with errors of the stream -/

/-- 2×2 with a gap between the columns. -/
def wView : View := ⟨10, 2, 2, 1, 3⟩

theorem wView_inj : wView.Injective := by
  rintro r c r' c' ⟨h1, h2, h3, h4⟩ ⟨h5, h6, h7, h8⟩ h
  simp only [wView] at *
  omega

theorem wView_backed : wView.Backed (fun _ => some (0 : Int)) := fun _ _ _ => ⟨0, rfl⟩

/-- An error of the stream at the third look-ahead. -/
def wFault : FStream := { is := { rest := "12,34\n5,6\n".toList }, plan := [none, none, some 2] }

example := csv_read_stores (readSingle (fromCharsInt 32)) true true ',' wView wFault rfl _ wView_inj wView_backed
example := csv_read_faults (readSingle (fromCharsInt 32)) true true ',' wView wFault rfl _ wView_inj wView_backed
example := csv_read_returns (readSingle (fromCharsInt 32)) true true ',' wView _ wView_inj wView_backed (is := { rest := "#x\n1,2\n3,4\n9".toList })
  (vss := [[1, 2], [3, 4]]) (is' := { rest := ['9'] }) rfl
example := csv_read_returns_std (fromCharsInt 32) true true ',' wView _ wView_inj wView_backed (is := { rest := "#x\n1,2\n3,4\n9".toList })
  (vss := [[1, 2], [3, 4]]) (is' := { rest := ['9'] }) rfl
example := csv_row_returns (readSingle (fromCharsInt 32)) true true ',' 10 2 (fun _ => some 0) (fun _ _ => ⟨0, rfl⟩) (is := { rest := "1,2\n3".toList })
  (vs := [1, 2]) (is' := { rest := ['3'] }) rfl
example := csv_vector_returns (readSingle (fromCharsInt 32)) true true ',' (is := { rest := "1,2\n3".toList }) (vs := [1, 2]) (is' := { rest := ['3'] }) rfl
example := csv_row_stores (readSingle (fromCharsInt 32)) true true ',' 10 2 wFault rfl (fun _ => some 0) (fun _ _ => ⟨0, rfl⟩)
example := csv_vector_faults (single := readSingle (fromCharsInt 32)) (fun _ _ _ h => readSingle_consumes wInt h) true true ',' wFault rfl

/-! ## Fields of integers -/

theorem wCSep : CIntSep ',' := by constructor <;> decide

example := c_int_read_iff .short wCSep true true 2 _ wRows "rest".toList
example := same_ints_partial .int (by decide) wCSep true true 2 _ wRows (by
  intro r hr
  simp only [List.mem_cons, List.not_mem_nil, or_false] at hr
  rcases hr with rfl | rfl
  · intro g hg
    have : g = "1".toList ∨ g = "2".toList := by revert hg; rw [show rowFields ',' "1,2".toList = ["1".toList, "2".toList] by decide +kernel]; simp
    rcases this with rfl | rfl <;> rw [← same_int_field_iff _ (by decide)] <;> decide +kernel
  · intro g hg
    have : g = "3".toList ∨ g = "-4".toList := by revert hg; rw [show rowFields ',' "3,-4".toList = ["3".toList, "-4".toList] by decide +kernel]; simp
    rcases this with rfl | rfl <;> rw [← same_int_field_iff _ (by decide)] <;> decide +kernel) "rest".toList

end Guanaqo.Csv
