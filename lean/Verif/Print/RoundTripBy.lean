import Verif.Print.RoundTrip
import Verif.Print.Exact
import Verif.Csv.IntFields
import Verif.Csv.ByExact

/-! # Reading what `print_csv` wrote, for any conversion (C123)

`csv_round_trip_partial` of `Verif/Print/RoundTrip.lean` for any `read_single` that consumes what it converts and stops at separators. -/

namespace Guanaqo.Print

open Guanaqo.Csv

/-- The text of an element reads back as the element. -/
structure ReadsBackBy {F : Type} (single : List Char → Option (F × List Char)) (sep : Char) (text : Text) (v : F) : Prop where
  value : numberOfBy single text = some v
  short : text.length ≤ 63
  nosep : sep ∉ text
  noline : '\n' ∉ text
  nocomment : text.head? ≠ some '#'

theorem ReadsBackBy.ne_nil {F : Type} {single : List Char → Option (F × List Char)} {sep : Char} {text : Text} {v : F}
    (hok : SingleOk single sep) (h : ReadsBackBy single sep text v) : text ≠ [] := by
  intro e
  have hv := h.value
  rw [e] at hv
  unfold numberOfBy at hv
  cases hs : single [] with
  | none => rw [hs] at hv; cases hv
  | some p =>
    obtain ⟨w, t⟩ := p
    obtain ⟨d, h1, h2⟩ := hok.consumes _ _ _ hs
    exact h1 (List.append_eq_nil_iff.1 h2.symm).1

/-- C43 and C123, for all matrices but column vectors with several rows printed as vectors: reading with `csv_read` what `print_csv`
wrote gives the same matrix, and what follows the text in the stream is left in place. -/
theorem csvBy_round_trip_partial {F : Type} (single : List Char → Option (F × List Char)) (pe : PrintOpts → F → Text) (sep : Char)
    (hok : SingleOk single sep) (hline : sep ≠ '\n') (eager dbg : Bool)
    (col1d row1d : Bool) (rows cols : Nat) (M : Nat → Nat → F)
    (hread : ∀ r < rows, ∀ c < cols,
      ReadsBackBy single sep (pe (csvOpts sep col1d row1d) (M r c)) (M r c))
    (hrows : rows ≠ 0) (hshape : cols ≠ 1 ∨ rows ≤ 1 ∨ col1d = false) (more : List Char) :
    csvReadBy single eager dbg sep rows cols
        { rest := printCsvImpl pe [] rows cols M (csvOpts sep col1d row1d) ++ more } =
      .ok (rowsOf rows cols M, { rest := more }) := by
  rw [print_csv_lines pe sep col1d row1d rows cols M hrows hshape]
  let texts (r : Nat) : List Text :=
    (List.range cols).map (fun (c : Nat) => pe (csvOpts sep col1d row1d) (M r c))
  let file : List RowText := (List.range rows).map (fun (r : Nat) => ⟨[], sepBy [sep] (texts r)⟩)
  have hprop : ∀ r < rows, ∀ t ∈ texts r, ∃ v, ReadsBackBy single sep t v := by
    intro r hr t ht
    obtain ⟨c, hc, rfl⟩ := List.mem_map.1 ht
    exact ⟨_, hread r hr c (List.mem_range.1 hc)⟩
  have hfields : ∀ r < rows, rowFields sep (sepBy [sep] (texts r)) = texts r := by
    intro r hr
    apply rowFields_sepBy
    · intro t ht; obtain ⟨v, hv⟩ := hprop r hr t ht; exact hv.nosep
    · intro t ht; obtain ⟨v, hv⟩ := hprop r hr t ht; exact hv.ne_nil hok
  have hOk : ∀ q ∈ file, q.Ok sep := by
    intro q hq
    obtain ⟨r, hr, rfl⟩ := List.mem_map.1 hq
    have hr := List.mem_range.1 hr
    refine ⟨by simp, ?_, ?_, ?_, fun _ => rfl⟩
    · intro h
      rcases mem_sepBy h with h | ⟨t, ht, h⟩
      · exact hline h.symm
      · obtain ⟨v, hv⟩ := hprop r hr t ht
        exact hv.noline h
    · intro h
      obtain ⟨t, ht, h⟩ := head_sepBy
        (fun t ht => by obtain ⟨v, hv⟩ := hprop r hr t ht; exact hv.ne_nil hok) _ h
      obtain ⟨v, hv⟩ := hprop r hr t ht
      exact hv.nocomment h
    · intro f hf
      rw [hfields r hr] at hf
      obtain ⟨v, hv⟩ := hprop r hr f hf
      exact hv.short
  have h := csvReadBy_exact single sep hok eager dbg cols file hOk more
  have hm : file.mapM (fun q => rowSpecBy single sep cols q.line) = some (rowsOf rows cols M) := by
    have : file.mapM (fun q => rowSpecBy single sep cols q.line) =
        (List.range rows).mapM (fun (r : Nat) => rowSpecBy single sep cols (sepBy [sep] (texts r))) := by
      show (List.map _ _).mapM _ = _
      rw [List.mapM_map]
      rfl
    rw [this]
    apply mapM_some
    intro r hr
    have hr := List.mem_range.1 hr
    unfold rowSpecBy
    rw [hfields r hr, if_pos (by simp [texts])]
    show (List.map _ _).mapM _ = _
    rw [List.mapM_map]
    apply mapM_some
    intro c hc
    exact (hread r hr c (List.mem_range.1 hc)).value
  rw [hm] at h
  have hlen : file.length = rows := by simp [file]
  have htext : fileText file = (rowsOf rows cols (fun r c => pe (csvOpts sep col1d row1d) (M r c))).flatMap
      (fun row => sepBy [sep] row ++ ['\n']) := by
    simp only [fileText, file, rowsOf, List.flatMap_map]
    rfl
  rw [hlen, htext] at h
  exact h

/-- C43 for any conversion: a column of several rows that the options print on one line is refused. -/
theorem csvBy_column_throws {F : Type} (single : List Char → Option (F × List Char)) (pe : PrintOpts → F → Text) (sep : Char)
    (hok : SingleOk single sep) (hline : sep ≠ '\n') (eager dbg row1d : Bool) (rows : Nat)
    (M : Nat → Nat → F)
    (hread : ∀ r < rows, ReadsBackBy single sep (pe (csvOpts sep true row1d) (M r 0)) (M r 0))
    (hrows : 2 ≤ rows) (more : List Char) :
    csvReadBy single eager dbg sep rows 1
        { rest := printCsvImpl pe [] rows 1 M (csvOpts sep true row1d) ++ more } =
      .error (.throw .csvReadError) := by
  let texts : List Text := (List.range rows).map (fun (r : Nat) => pe (csvOpts sep true row1d) (M r 0))
  have hprop : ∀ t ∈ texts, ∃ v, ReadsBackBy single sep t v := by
    intro t ht
    obtain ⟨r, hr, rfl⟩ := List.mem_map.1 ht
    exact ⟨_, hread r (List.mem_range.1 hr)⟩
  have hfields : rowFields sep (sepBy [sep] texts) = texts := by
    apply rowFields_sepBy
    · intro t ht; obtain ⟨v, hv⟩ := hprop t ht; exact hv.nosep
    · intro t ht; obtain ⟨v, hv⟩ := hprop t ht; exact hv.ne_nil hok
  have htext : printCsvImpl pe [] rows 1 M (csvOpts sep true row1d) = sepBy [sep] texts ++ ['\n'] := by
    rw [print_csv_layout_partial pe [] rows 1 M _ (.inl (by omega))]
    unfold layout
    simp only
    rw [if_pos (by simp [csvOpts]), flatten_rowsOf_col]
    simp [csvOpts, texts]
  have hOk : RowText.Ok sep ⟨[], sepBy [sep] texts⟩ := by
    refine ⟨by simp, ?_, ?_, ?_, fun _ => rfl⟩
    · intro h
      rcases mem_sepBy h with h | ⟨t, ht, h⟩
      · exact hline h.symm
      · obtain ⟨v, hv⟩ := hprop t ht
        exact hv.noline h
    · intro h
      obtain ⟨t, ht, h⟩ := head_sepBy
        (fun t ht => by obtain ⟨v, hv⟩ := hprop t ht; exact hv.ne_nil hok) _ h
      obtain ⟨v, hv⟩ := hprop t ht
      exact hv.nocomment h
    · intro f hf
      simp only at hf
      rw [hfields] at hf
      obtain ⟨v, hv⟩ := hprop f hf
      exact hv.short
  have h := readRowBy_state hok eager dbg 1 ⟨[], sepBy [sep] texts⟩ hOk more (rd := {}) rfl
  have hs : rowSpecBy single sep 1 (sepBy [sep] texts) = none := by
    unfold rowSpecBy
    rw [hfields, if_neg]
    simp only [texts, List.length_map, List.length_range]
    omega
  simp only [hs] at h
  rw [htext]
  obtain ⟨n, rfl⟩ : ∃ n, rows = n + 1 := ⟨rows - 1, by omega⟩
  unfold csvReadBy
  simp only [readRowsBy]
  have e : sepBy [sep] texts ++ ['\n'] ++ more = commentText [] ++ sepBy [sep] texts ++ '\n' :: more := by
    simp [commentText]
  rw [e, h]
  rfl

theorem ReadsBack.by {F : Type} {fc : Parser F} {sep : Char} {text : Text} {v : F} (h : ReadsBack fc sep text v) :
    ReadsBackBy (readSingle fc) sep text v := ⟨h.value, h.short, h.nosep, h.noline, h.nocomment⟩

/-- C97. An integer that fits its type reads back where `strtol` is used. -/
theorem int_readsBack_strtol (t : FromChars.Ty) (ht : t ∈ [FromChars.Ty.short, .int, .long, .llong]) (sep : Char) (hs : CIntSep sep)
    (opts : PrintOpts) (v : Int) (h : -(2 ^ (t.bits - 1) : Int) ≤ v ∧ v < (2 ^ (t.bits - 1) : Int)) :
    ReadsBackBy (strtolSingle t) sep (printElemInt opts v) v := by
  have hb : t.bits ≤ 64 := by
    simp only [List.mem_cons, List.not_mem_nil, or_false] at ht
    rcases ht with rfl | rfl | rfl | rfl <;> decide
  have hr := int_readsBack t.bits hb sep hs.digit hs.minus opts v h
  refine ⟨?_, hr.short, hr.nosep, hr.noline, hr.nocomment⟩
  obtain ⟨plus, minus, ds, h1, h2, h3, h4, h5, -⟩ := (std_int_field_iff t.bits _ v).1 hr.value
  have hp : plus = [] := by
    rcases h1 with h1 | rfl
    · exact h1
    · exfalso
      have := showInt_chars v '+' (by
        show '+' ∈ printElemInt opts v
        rw [h4]; simp)
      revert this; decide
  subst hp
  have hpow : (2 : Int) ^ (t.bits - 1) ≤ 2 ^ 63 := by
    exact_mod_cast Nat.pow_le_pow_right (by decide) (show t.bits - 1 ≤ 63 by omega)
  refine (c_int_field_iff t _ v).2 ⟨[], minus, ds, by simp, h2.imp id (fun h => .inr h), h3, h4, by omega, by omega, ?_⟩
  rw [← h5]
  unfold FromChars.Ty.cast
  simp only [List.mem_cons, List.not_mem_nil, or_false] at ht
  rcases ht with rfl | rfl | rfl | rfl
  all_goals
    simp only [FromChars.Ty.signed, FromChars.Ty.bits, if_true] at *
    rw [Int.bmod_eq_of_le] <;> omega

end Guanaqo.Print
