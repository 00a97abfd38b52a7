import Verif.Assert.Rel
import Verif.Csv.Model
import Verif.Csv.Fallback
import Verif.Float.QuadStream

/-!
# Debug and release builds (C115): the CSV reader and the printing of numbers
-/

namespace Guanaqo.Assert

open Guanaqo.Csv

variable {F : Type}

/-- csv.tpp:64: the buffer never overflows. -/
theorem readChunk_dbg (eager : Bool) (rd : Reader) (is : IStream) : readChunk eager true rd is = readChunk eager false rd is := by
  unfold readChunk
  by_cases h1 : is.fail = true
  · simp [h1]
  · simp only [h1]
    by_cases h2 : rd.buf.length = bufmaxsize
    · simp [h2]
    · simp only [h2, if_false]
      by_cases h3 : (is.getBuf eager (bufmaxsize - rd.buf.length)).2.fail = true
      · simp [h3]
      · have hlen : rd.buf.length + (is.getBuf eager (bufmaxsize - rd.buf.length)).1.length ≤ bufmaxsize := by
          unfold IStream.getBuf at h3 ⊢
          by_cases hg : is.good = true
          · simp only [hg, if_true] at h3 ⊢
            have h4 : ((is.rest.takeWhile (· != '\n')).take (bufmaxsize - rd.buf.length)).length ≤ bufmaxsize - rd.buf.length :=
              List.length_take_le _ _
            have h5 : ((is.rest.takeWhile (· != '\n')).take (bufmaxsize - rd.buf.length)) ≠ [] := by
              intro h
              rw [h] at h3
              simp at h3
            have := List.length_pos_iff.2 h5
            omega
          · simp only [hg] at h3
            simp at h3
        simp [h3, Nat.not_lt.2 hlen]

theorem skipRest_dbg (eager : Bool) : ∀ (n : Nat) (rd : Reader) (is : IStream), skipRest eager true n rd is = skipRest eager false n rd is
  | 0, _, _ => rfl
  | n + 1, rd, is => by
    simp only [skipRest, readChunk_dbg]
    split
    · congr 1
      funext x
      exact skipRest_dbg eager n x.1 x.2
    · rfl

theorem skipLoop_dbg (eager : Bool) : ∀ (n : Nat) (rd : Reader) (is : IStream), skipLoop eager true n rd is = skipLoop eager false n rd is
  | 0, _, _ => rfl
  | n + 1, rd, is => by
    have ih := skipLoop_dbg eager n
    simp only [skipLoop, readChunk_dbg, skipRest_dbg, ih]

theorem skipComments_dbg (eager : Bool) {rd : Reader} (h : rd.buf = []) (is : IStream) :
    skipComments eager true rd is = skipComments eager false rd is := by
  unfold skipComments
  simp only [h, skipLoop_dbg]
  rfl

theorem read_dbg (fc : Parser F) (eager : Bool) (sep : Char) (rd : Reader) (is : IStream) :
    Csv.read fc eager true sep rd is = Csv.read fc eager false sep rd is := by
  unfold Csv.read fill
  simp only [readChunk_dbg]

theorem readN_dbg (fc : Parser F) (eager : Bool) (sep : Char) : ∀ (n : Nat) (rd : Reader) (is : IStream),
    readN fc eager true sep n rd is = readN fc eager false sep n rd is
  | 0, _, _ => rfl
  | n + 1, rd, is => by
    have ih := readN_dbg fc eager sep n
    simp only [readN, read_dbg, ih]

theorem readAll_dbg (fc : Parser F) (eager : Bool) (sep : Char) : ∀ (n : Nat) (rd : Reader) (is : IStream),
    readAll fc eager true sep n rd is = readAll fc eager false sep n rd is
  | 0, _, _ => rfl
  | n + 1, rd, is => by
    have ih := readAll_dbg fc eager sep n
    simp only [readAll, read_dbg, ih]

theorem readRowWith_dbg (fc : Parser F) (eager : Bool) (sep : Char) (n : Nat) {rd : Reader} (h : rd.buf = []) (is : IStream) :
    readRowWith fc eager true sep n rd is = readRowWith fc eager false sep n rd is := by
  unfold readRowWith
  simp only [skipComments_dbg eager h, readN_dbg]

/-- After a row the buffer is empty. -/
theorem readRowWith_empty {fc : Parser F} {eager dbg : Bool} {sep : Char} {n : Nat} {rd rd' : Reader} {is is' : IStream} {vs : List F}
    (h : readRowWith fc eager dbg sep n rd is = .ok (vs, rd', is')) : rd'.buf = [] := by
  unfold readRowWith at h
  obtain ⟨⟨rd1, is1⟩, _, h⟩ := res_bind_ok.1 h
  obtain ⟨⟨vs1, rd2, is2⟩, _, h⟩ := res_bind_ok.1 h
  obtain ⟨is3, h3, h⟩ := res_bind_ok.1 h
  cases h
  unfold nextLine at h3
  by_cases h0 : 0 < rd'.buf.length
  · rw [if_pos h0] at h3; cases h3
  · exact List.eq_nil_of_length_eq_zero (by omega)

theorem readRows_dbg (fc : Parser F) (eager : Bool) (sep : Char) (cols : Nat) : ∀ (rows : Nat) (rd : Reader) (is : IStream), rd.buf = [] →
    readRows fc eager true sep cols rows rd is = readRows fc eager false sep cols rows rd is
  | 0, _, _, _ => rfl
  | rows + 1, rd, is, h => by
    simp only [readRows, readRowWith_dbg fc eager sep cols h]
    cases hr : readRowWith fc eager false sep cols rd is with
    | error e => rfl
    | ok x =>
      obtain ⟨vs, rd', is'⟩ := x
      simp only [res_ok_bind, readRows_dbg fc eager sep cols rows rd' is' (readRowWith_empty hr)]

/-! No function of the release build reports a failing assertion. -/

theorem readChunk_release (eager : Bool) (rd : Reader) (is : IStream) : Le (readChunk eager false rd is) (readChunk eager false rd is) := by
  unfold readChunk throwCsv
  refine le_ite (le_throw _) (le_ite (le_ok _) ?_)
  dsimp only
  exact le_ite (le_throw _) (le_ok _)

theorem nextLine_le (rd : Reader) (is : IStream) : Le (nextLine rd is) (nextLine rd is) := by
  unfold nextLine throwCsv
  refine le_ite (le_throw _) (le_ite (le_ok _) ?_)
  dsimp only
  exact le_ite (le_throw _) (le_ok _)

theorem skipRest_release (eager : Bool) : ∀ (n : Nat) (rd : Reader) (is : IStream), Le (skipRest eager false n rd is) (skipRest eager false n rd is)
  | 0, _, _ => le_ub
  | n + 1, rd, is => by
    simp only [skipRest]
    exact le_ite (Le.bind (readChunk_release _ _ _) fun x => skipRest_release eager n x.1 x.2) (le_ok _)

theorem skipLoop_release (eager : Bool) : ∀ (n : Nat) (rd : Reader) (is : IStream), Le (skipLoop eager false n rd is) (skipLoop eager false n rd is)
  | 0, _, _ => le_ub
  | n + 1, rd, is => by
    simp only [skipLoop]
    refine le_ite (le_ok _) (Le.bind (readChunk_release _ _ _) fun x => ?_)
    split
    · exact Le.bind (skipRest_release _ _ _ _) fun y => Le.bind (nextLine_le _ _) fun z => skipLoop_release eager n _ _
    · exact le_ok _

theorem skipComments_release (eager : Bool) (rd : Reader) (is : IStream) : Le (skipComments eager false rd is) (skipComments eager false rd is) := by
  unfold skipComments
  simp only [Bool.false_and, Bool.false_eq_true, if_false]
  exact le_ite (le_ok _) (le_ite (le_ok _) (skipLoop_release _ _ _ _))

theorem read_release (fc : Parser F) (eager : Bool) (sep : Char) (rd : Reader) (is : IStream) :
    Le (Csv.read fc eager false sep rd is) (Csv.read fc eager false sep rd is) := by
  unfold Csv.read fill throwCsv
  refine Le.bind (le_ite (readChunk_release _ _ _) (le_ok _)) fun x => ?_
  obtain ⟨rd1, is1⟩ := x
  dsimp only
  cases readSingle fc rd1.buf with
  | none => exact le_throw _
  | some y =>
    obtain ⟨v, t⟩ := y
    cases t with
    | nil => exact le_ok _
    | cons c t => exact le_ite (le_throw _) (le_ok _)

theorem readN_release (fc : Parser F) (eager : Bool) (sep : Char) : ∀ (n : Nat) (rd : Reader) (is : IStream),
    Le (readN fc eager false sep n rd is) (readN fc eager false sep n rd is)
  | 0, _, _ => le_ok _
  | n + 1, rd, is => by
    simp only [readN]
    exact Le.bind (read_release _ _ _ _ _) fun x => Le.bind (readN_release fc eager sep n _ _) fun y => le_ok _

theorem readAll_release (fc : Parser F) (eager : Bool) (sep : Char) : ∀ (n : Nat) (rd : Reader) (is : IStream),
    Le (readAll fc eager false sep n rd is) (readAll fc eager false sep n rd is)
  | 0, _, _ => le_ub
  | n + 1, rd, is => by
    simp only [readAll]
    exact le_ite (le_ok _) (Le.bind (read_release _ _ _ _ _) fun x => Le.bind (readAll_release fc eager sep n _ _) fun y => le_ok _)

theorem readRowWith_release (fc : Parser F) (eager : Bool) (sep : Char) (n : Nat) (rd : Reader) (is : IStream) :
    Le (readRowWith fc eager false sep n rd is) (readRowWith fc eager false sep n rd is) := by
  unfold readRowWith
  exact Le.bind (skipComments_release _ _ _) fun x => Le.bind (readN_release _ _ _ _ _ _) fun y => Le.bind (nextLine_le _ _) fun z => le_ok _

theorem readRows_release (fc : Parser F) (eager : Bool) (sep : Char) (cols : Nat) : ∀ (rows : Nat) (rd : Reader) (is : IStream),
    Le (readRows fc eager false sep cols rows rd is) (readRows fc eager false sep cols rows rd is)
  | 0, _, _ => le_ok _
  | n + 1, rd, is => by
    simp only [readRows]
    exact Le.bind (readRowWith_release _ _ _ _ _ _) fun x => Le.bind (readRows_release fc eager sep cols n _ _) fun y => le_ok _

/-- C115: for any input stream, in any state, and any way of converting numbers, no assertion of the CSV reader fails, and both builds do the same. -/
theorem csv_assertions_hold (fc : Parser F) (eager : Bool) (sep : Char) (n rows cols : Nat) (is : IStream) (dbg : Bool) :
    (csvReadRow fc eager dbg sep n is = csvReadRow fc eager false sep n is ∧ csvReadRow fc eager dbg sep n is ≠ .error .assertFail) ∧
    (csvRead fc eager dbg sep rows cols is = csvRead fc eager false sep rows cols is ∧ csvRead fc eager dbg sep rows cols is ≠ .error .assertFail) ∧
    (csvReadRowVector fc eager dbg sep is = csvReadRowVector fc eager false sep is ∧
      csvReadRowVector fc eager dbg sep is ≠ .error .assertFail) := by
  have h1 : csvReadRow fc eager dbg sep n is = csvReadRow fc eager false sep n is := by
    cases dbg
    · rfl
    · unfold csvReadRow
      rw [readRowWith_dbg fc eager sep n rfl]
  have h2 : csvRead fc eager dbg sep rows cols is = csvRead fc eager false sep rows cols is := by
    cases dbg
    · rfl
    · exact readRows_dbg fc eager sep cols rows _ _ rfl
  have h3 : csvReadRowVector fc eager dbg sep is = csvReadRowVector fc eager false sep is := by
    cases dbg
    · rfl
    · unfold csvReadRowVector
      rw [skipComments_dbg eager rfl]
      simp only [readAll_dbg]
  refine ⟨⟨h1, ?_⟩, ⟨h2, ?_⟩, h3, ?_⟩
  · rw [h1]
    exact (Le.bind (readRowWith_release _ _ _ _ _ _) fun x => le_ok _ : Le (csvReadRow fc eager false sep n is) _).noAssert
  · rw [h2]
    exact (readRows_release _ _ _ _ _ _ _).noAssert
  · rw [h3]
    exact (Le.bind (skipComments_release _ _ _) fun x => Le.bind (readAll_release _ _ _ _ _ _) fun y => Le.bind (nextLine_le _ _) fun z => le_ok _ :
      Le (csvReadRowVector fc eager false sep is) _).noAssert

/-- A file of two rows after a comment. -/
example (dbg : Bool) : csvRead (fromCharsInt 32) true dbg ',' 2 2 { rest := "#c\n1,+2\n3,4\n".toList } = .ok ([[1, 2], [3, 4]], { rest := [] }) := by
  cases dbg <;> decide +kernel

/-- C115: the functions that print a number into a buffer: assertions only check. -/
theorem print_only_check {f : Float.Fmt} (sci : Float.Fl f → ℕ → Duration.Text) (dg : Float.Mag f → ℕ → ℕ × ℤ) (size : ℕ) (v : Float.Fl f) (prec : ℕ)
    (osPrecision : ℤ) :
    OnlyChecks (Float.snprintfVw sci true size v prec) (Float.snprintfVw sci false size v prec) ∧
    OnlyChecks (Float.ostreamQuad dg true osPrecision v) (Float.ostreamQuad dg false osPrecision v) := by
  constructor
  · apply Le.onlyChecks
    unfold Float.snprintfVw
    dsimp only
    refine le_ite (le_ok _) (le_stop ?_)
    simp only [Bool.false_eq_true, if_false]
    split <;> simp
  · apply Le.onlyChecks
    unfold Float.ostreamQuad
    dsimp only
    exact le_ite (le_ok _) (le_stop (by simp))

end Guanaqo.Assert
