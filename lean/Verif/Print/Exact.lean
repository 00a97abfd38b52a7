import Verif.Print.RoundTrip
import Verif.Print.Matlab
import Verif.Print.Python

/-!
# Exactly which matrices print as intended (C45, C46) and read back (C43)

The theorems with suffix `_partial` in `Layout`, `Matlab`, `Python` and `RoundTrip` have conditions on
the shape; here each condition is shown to be necessary as well.
-/

namespace Guanaqo.Print

open Guanaqo.Csv

/-- What `print_csv` writes for a matrix without rows that is not printed as a vector: only `end`. -/
theorem print_csv_no_rows {E : Type} (pe : PrintOpts → E → Text) (os : Text) (cols : Nat)
    (M : Nat → Nat → E) (opts : PrintOpts) (h : ¬ oneLine 0 cols opts) :
    printCsvImpl pe os 0 cols M opts = os ++ opts.end := by
  have h' : ¬ ((cols = 1 ∧ opts.column_vector_as_1d) ∨ (0 = 1 ∧ opts.row_vector_as_1d)) := h
  unfold printCsvImpl
  rw [if_neg h']
  rfl

/-- C45, exactly: the intended layout is printed if and only if the matrix has rows, or is printed on one
line, or the text that is left out (indentation and `start`) is empty. -/
theorem print_csv_layout_iff {E : Type} (pe : PrintOpts → E → Text) (os : Text) (rows cols : Nat)
    (M : Nat → Nat → E) (opts : PrintOpts) :
    printCsvImpl pe os rows cols M opts = os ++ layout pe rows cols M opts ↔
      rows ≠ 0 ∨ (cols = 1 ∧ opts.column_vector_as_1d = true) ∨ (opts.indent = 0 ∧ opts.start = []) := by
  by_cases h : rows ≠ 0 ∨ oneLine rows cols opts
  · refine ⟨fun _ => ?_, fun _ => print_csv_layout_partial pe os rows cols M opts h⟩
    rcases h with h | h | h
    · exact .inl h
    · exact .inr (.inl h)
    · exact .inl (by rw [h.1]; decide)
  · have h0 : rows = 0 := Classical.byContradiction fun e => h (.inl e)
    subst h0
    have h1 : ¬ oneLine 0 cols opts := fun e => h (.inr e)
    have h' : ¬ ((cols = 1 ∧ opts.column_vector_as_1d = true) ∨ (0 = 1 ∧ opts.row_vector_as_1d = true)) := h1
    rw [print_csv_no_rows pe os cols M opts h1]
    unfold layout
    simp only [if_neg h', if_true]
    rw [List.append_cancel_left_eq]
    constructor
    · intro e
      have := congrArg List.length e
      simp only [List.length_append, List.length_replicate] at this
      exact .inr (.inr ⟨by omega, List.eq_nil_of_length_eq_zero (by omega)⟩)
    · rintro (e | e | ⟨e1, e2⟩)
      · exact absurd rfl e
      · exact absurd (.inl e) h'
      · rw [e1, e2]; rfl

/-- C46 for MATLAB, exactly. -/
theorem matlab_denotes_iff (rows cols : Nat) (T : Nat → Nat → Text) (fin : Text)
    (hT : ∀ r < rows, ∀ c < cols, RealText (T r c))
    (hfin : ∀ c ∈ fin, c = ';' ∨ c = '\n' ∨ c = ' ') :
    (matlabRead (printMatlabImpl (fun _ t => t) [] rows cols T fin) = some (matlabMatrix rows cols T) ↔
      rows ≠ 0 ∨ cols = 1) ∧
    (¬ (rows ≠ 0 ∨ cols = 1) →
      printMatlabImpl (fun _ t => t) [] rows cols T fin = ']' :: fin ∧
      matlabRead (printMatlabImpl (fun _ t => t) [] rows cols T fin) = none) := by
  have bad : ¬ (rows ≠ 0 ∨ cols = 1) →
      printMatlabImpl (fun _ t => t) [] rows cols T fin = ']' :: fin ∧
      matlabRead (printMatlabImpl (fun _ t => t) [] rows cols T fin) = none := by
    intro h
    have h0 : rows = 0 := Classical.byContradiction fun e => h (.inl e)
    have h1 : cols ≠ 1 := fun e => h (.inr e)
    subst h0
    have e : printMatlabImpl (fun _ t => t) [] 0 cols T fin = ']' :: fin := by
      unfold printMatlabImpl
      rw [print_csv_no_rows _ _ _ _ _ (by unfold oneLine; simp [h1])]
      unfold matlabOpts
      rw [if_neg h1]
      rfl
    refine ⟨e, ?_⟩
    rw [e]
    rfl
  refine ⟨⟨fun h => ?_, fun h => matlab_denotes_partial rows cols T fin hT hfin h⟩, bad⟩
  refine Classical.byContradiction fun hn => ?_
  rw [(bad hn).2] at h
  cases h

/-- C46 for Python, exactly. -/
theorem python_denotes_iff (rows cols : Nat) (T : Nat → Nat → Text) (squeeze : Bool) (fin : Text)
    (hT : ∀ r < rows, ∀ c < cols, ElemText (T r c)) (hfin : ∀ c ∈ fin, c = ' ' ∨ c = '\n') :
    (pyRead (printPythonImpl (fun _ t => t) [] rows cols T fin squeeze) = some (pyMatrix squeeze rows cols T) ↔
      rows ≠ 0 ∨ (cols = 1 ∧ squeeze = true)) ∧
    (¬ (rows ≠ 0 ∨ (cols = 1 ∧ squeeze = true)) →
      printPythonImpl (fun _ t => t) [] rows cols T fin squeeze = ']' :: ']' :: fin ∧
      pyRead (printPythonImpl (fun _ t => t) [] rows cols T fin squeeze) = none) := by
  have bad : ¬ (rows ≠ 0 ∨ (cols = 1 ∧ squeeze = true)) →
      printPythonImpl (fun _ t => t) [] rows cols T fin squeeze = ']' :: ']' :: fin ∧
      pyRead (printPythonImpl (fun _ t => t) [] rows cols T fin squeeze) = none := by
    intro h
    have h0 : rows = 0 := Classical.byContradiction fun e => h (.inl e)
    have h1 : ¬ (cols = 1 ∧ squeeze = true) := fun e => h (.inr e)
    subst h0
    have e : printPythonImpl (fun _ t => t) [] 0 cols T fin squeeze = ']' :: ']' :: fin := by
      unfold printPythonImpl
      have ho : pythonOpts 0 cols squeeze = { delimiter := ", ".toList, line_start := " [".toList, line_end := "],\n".toList, start := "[[".toList, «end» := "]]".toList, column_vector_as_1d := false, row_vector_as_1d := false } := by
        unfold pythonOpts
        rw [if_neg (by simpa using h1)]
      rw [ho, print_csv_no_rows _ _ _ _ _ (by unfold oneLine; simp)]
      rfl
    refine ⟨e, ?_⟩
    rw [e]
    rfl
  refine ⟨⟨fun h => ?_, fun h => python_denotes_partial rows cols T squeeze fin hT hfin h⟩, bad⟩
  refine Classical.byContradiction fun hn => ?_
  rw [(bad hn).2] at h
  cases h

/-- C43, the other case: a column of several rows printed on one line makes `csv_read` throw. -/
theorem csv_column_throws {F : Type} (fc : Parser F) (pe : PrintOpts → F → Text) (sep : Char)
    (hok : fc.Ok sep) (hplus : sep ≠ '+') (hline : sep ≠ '\n') (eager dbg row1d : Bool) (rows : Nat)
    (M : Nat → Nat → F)
    (hread : ∀ r < rows, ReadsBack fc sep (pe (csvOpts sep true row1d) (M r 0)) (M r 0))
    (hrows : 2 ≤ rows) (more : List Char) :
    csvRead fc eager dbg sep rows 1
        { rest := printCsvImpl pe [] rows 1 M (csvOpts sep true row1d) ++ more } =
      .error (.throw .csvReadError) := by
  let texts : List Text := (List.range rows).map (fun (r : Nat) => pe (csvOpts sep true row1d) (M r 0))
  have hprop : ∀ t ∈ texts, ∃ v, ReadsBack fc sep t v := by
    intro t ht
    obtain ⟨r, hr, rfl⟩ := List.mem_map.1 ht
    exact ⟨_, hread r (List.mem_range.1 hr)⟩
  have hfields : rowFields sep (sepBy [sep] texts) = texts := by
    apply rowFields_sepBy
    · intro t ht; obtain ⟨v, hv⟩ := hprop t ht; exact hv.nosep
    · intro t ht; obtain ⟨v, hv⟩ := hprop t ht; exact hv.ne_nil hok
  have htext : printCsvImpl pe [] rows 1 M (csvOpts sep true row1d) = sepBy [sep] texts ++ ['\n'] := by
    rw [print_csv_layout_partial pe [] rows 1 M _ (.inl (by omega))]
    unfold layout
    simp only
    rw [if_pos (by simp [csvOpts]), flatten_rowsOf_col]
    simp [csvOpts, texts]
  have hOk : RowText.Ok sep ⟨[], sepBy [sep] texts⟩ := by
    refine ⟨by simp, ?_, ?_, ?_, fun _ => rfl⟩
    · intro h
      rcases mem_sepBy h with h | ⟨t, ht, h⟩
      · exact hline h.symm
      · obtain ⟨v, hv⟩ := hprop t ht
        exact hv.noline h
    · intro h
      obtain ⟨t, ht, h⟩ := head_sepBy
        (fun t ht => by obtain ⟨v, hv⟩ := hprop t ht; exact hv.ne_nil hok) _ h
      obtain ⟨v, hv⟩ := hprop t ht
      exact hv.nocomment h
    · intro f hf
      simp only at hf
      rw [hfields] at hf
      obtain ⟨v, hv⟩ := hprop f hf
      exact hv.short
  have h := readRow_state hok hplus eager dbg 1 ⟨[], sepBy [sep] texts⟩ hOk more (rd := {}) rfl
  have hs : rowSpec fc sep 1 (sepBy [sep] texts) = none := by
    unfold rowSpec
    rw [hfields, if_neg]
    simp only [texts, List.length_map, List.length_range]
    omega
  simp only [hs] at h
  rw [htext]
  obtain ⟨n, rfl⟩ : ∃ n, rows = n + 1 := ⟨rows - 1, by omega⟩
  unfold csvRead
  simp only [readRows]
  have e : sepBy [sep] texts ++ ['\n'] ++ more = commentText [] ++ sepBy [sep] texts ++ '\n' :: more := by
    simp [commentText]
  rw [e, h]
  rfl

/-- C43, exactly: the matrix comes back if and only if it is not a column of several rows that the options
print on one line. -/
theorem csv_round_trip_iff {F : Type} (fc : Parser F) (pe : PrintOpts → F → Text) (sep : Char)
    (hok : fc.Ok sep) (hplus : sep ≠ '+') (hline : sep ≠ '\n') (eager dbg : Bool)
    (col1d row1d : Bool) (rows cols : Nat) (M : Nat → Nat → F)
    (hread : ∀ r < rows, ∀ c < cols,
      ReadsBack fc sep (pe (csvOpts sep col1d row1d) (M r c)) (M r c)) (more : List Char) :
    (∃ is', csvRead fc eager dbg sep rows cols
        { rest := printCsvImpl pe [] rows cols M (csvOpts sep col1d row1d) ++ more } =
      .ok (rowsOf rows cols M, is')) ↔ ¬ (cols = 1 ∧ 2 ≤ rows ∧ col1d = true) := by
  constructor
  · rintro ⟨is', h⟩ ⟨rfl, h2, rfl⟩
    rw [csv_column_throws fc pe sep hok hplus hline eager dbg row1d rows M
      (fun r hr => hread r hr 0 (by decide)) h2 more] at h
    cases h
  · intro h
    by_cases h0 : rows = 0
    · subst h0
      exact ⟨_, rfl⟩
    · refine ⟨_, csv_round_trip_partial fc pe sep hok hplus hline eager dbg col1d row1d rows cols M hread h0 ?_ more⟩
      by_cases h1 : cols = 1
      · by_cases h2 : rows ≤ 1
        · exact .inr (.inl h2)
        · refine .inr (.inr ?_)
          cases hc : col1d with
          | false => rfl
          | true => exact absurd ⟨h1, by omega, hc⟩ h
      · exact .inl h1

/-- Both cases occur. -/
example : (∃ is', csvRead (fromCharsInt 32) true true ',' 2 2
      { rest := printCsvImpl printElemInt [] 2 2 (fun r c => (r : Int) - c) (csvOpts ',' true true) ++ [] } =
      .ok (rowsOf 2 2 (fun r c => (r : Int) - c), is')) ∧
    ¬ (∃ is', csvRead (fromCharsInt 32) true true ',' 2 1
      { rest := printCsvImpl printElemInt [] 2 1 (fun r c => (r : Int) - c) (csvOpts ',' true true) ++ [] } =
      .ok (rowsOf 2 1 (fun r c => (r : Int) - c), is')) := by
  constructor
  · rw [csv_round_trip_iff _ _ _ (fromCharsInt_ok 32 ',' (by decide) (by decide)) (by decide) (by decide)]
    · decide
    · intro r hr c hc
      exact int_readsBack 32 (by decide) ',' (by decide) (by decide) _ _ (by constructor <;> omega)
  · rw [csv_round_trip_iff _ _ _ (fromCharsInt_ok 32 ',' (by decide) (by decide)) (by decide) (by decide)]
    · decide
    · intro r hr c hc
      exact int_readsBack 32 (by decide) ',' (by decide) (by decide) _ _ (by constructor <;> omega)

end Guanaqo.Print
