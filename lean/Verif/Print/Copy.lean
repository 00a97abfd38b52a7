import Verif.Print.Views
import Verif.Print.RoundTripBy
import Verif.Csv.FaultsReturns

/-!
# C120: writing a view with `print_csv` and reading it into another one with `csv_read`

The elements go from the memory of one view through the text to the memory of another one; strides and index types of the two views are
unrelated. Errors of the stream that is read are those of C119.
-/

namespace Guanaqo.Print

open MatView Csv

theorem rowsOf_flatten {E : Type} (cols : Nat) (M : Nat → Nat → E) : ∀ rows, (rowsOf rows cols M).flatten.length = rows * cols ∧
    ∀ r c, r < rows → c < cols → (rowsOf rows cols M).flatten[r * cols + c]? = some (M r c)
  | 0 => by simp [rowsOf]
  | rows + 1 => by
    obtain ⟨h1, h2⟩ := rowsOf_flatten cols M rows
    have e : (rowsOf (rows + 1) cols M).flatten = (rowsOf rows cols M).flatten ++ (List.range cols).map (fun (c : Nat) => M rows c) := by
      unfold rowsOf
      rw [List.range_succ, List.map_append, List.flatten_append]
      simp
    rw [e]
    refine ⟨by rw [List.length_append, h1, List.length_map, List.length_range, Nat.succ_mul], fun r c hr hc => ?_⟩
    by_cases h : r < rows
    · have : r * cols + c < rows * cols := by
        have := Nat.mul_le_mul_right cols (show r + 1 ≤ rows by omega)
        rw [Nat.succ_mul] at this; omega
      rw [List.getElem?_append_left (by omega)]
      exact h2 r c h hc
    · have hr' : r = rows := by omega
      subst hr'
      rw [List.getElem?_append_right (by omega), h1, Nat.add_sub_cancel_left, List.getElem?_map, List.getElem?_range hc]
      rfl

/-- The first elements of `v`, row by row, have become those of `f`, and nothing else has changed. -/
def BecomesUpTo (v : View) (f : Int → Int → F) (n : Nat) (m m' : Mem F) : Prop :=
  (∀ r c : Nat, v.HasElem r c → r * v.cols.toNat + c < n → v.Holds m' r c (f r c)) ∧
  ∀ a, (∀ r c : Nat, v.HasElem r c → r * v.cols.toNat + c < n → a ≠ v.data + r * v.inner + c * v.outer) → m' a = m a

/-- C120. What `print_csv` has written of the view `src`, followed by anything, is read into the view `dst` of the same size: `csv_read` leaves
the stream after the text, the elements of `dst` are those of `src`, and no other memory has changed. If errors occur on the stream that is
read, `csv_read` either does the same or throws `csv_read_error`, with the first elements copied and nothing else changed. -/
theorem csv_copy_partial {F : Type} (single : List Char → Option (F × List Char)) {el : Elem F} {text : F → Text} (hel : Prints el text) (sep : Char)
    (hok : SingleOk single sep) (hline : sep ≠ '\n') (eager dbg col1d row1d : Bool)
    (src dst : View) (hfit : FitsPtrdiff src) (hrows : dst.rows = src.rows) (hcols : dst.cols = src.cols) (hpos : 0 < src.rows)
    (hshape : src.cols ≠ 1 ∨ src.rows ≤ 1 ∨ col1d = false)
    (ms md : Mem F) (f : Int → Int → F) (hf : ∀ r c, src.HasElem r c → src.Holds ms r c (f r c)) (hi : dst.Injective) (hb : dst.Backed md)
    (hread : ∀ r c, src.HasElem r c → ReadsBackBy single sep (text (f r c)) (f r c)) (buf : Buf) (hbuf : buf.length = 64) (more : List Char) :
    ∃ t, printCsvView el ms buf [] src (csvOpts sep col1d row1d) = .ok t ∧
      (∃ md', csvReadInto single eager dbg sep dst (lift { rest := t ++ more }) md = (md', .ok (lift { rest := more })) ∧ dst.ElemsBecome f md md') ∧
      ∀ plan, (∃ md' s', csvReadInto single eager dbg sep dst { is := { rest := t ++ more }, plan } md = (md', .ok s') ∧
          s'.is = { rest := more } ∧ s'.hit = false ∧ dst.ElemsBecome f md md') ∨
        (∃ md' n, csvReadInto single eager dbg sep dst { is := { rest := t ++ more }, plan } md = (md', .error csvErr) ∧ BecomesUpTo dst f n md md') := by
  refine ⟨_, (print_view hel src hfit ms f hf buf hbuf [] (csvOpts sep col1d row1d) [] false).1, ?_⟩
  generalize ht : printCsvImpl (fun _ => text) [] src.rows.toNat src.cols.toNat (fun r c => f r c) (csvOpts sep col1d row1d) = t
  have hrt := csvBy_round_trip_partial single (fun _ => text) sep hok hline eager dbg col1d row1d src.rows.toNat src.cols.toNat (fun r c => f r c)
    (fun r hr c hc => hread r c ⟨by omega, by omega, by omega, by omega⟩) (by omega)
    (hshape.imp (fun h => by omega) (Or.imp (fun h => by omega) id)) more
  rw [ht, ← hrows, ← hcols] at hrt
  obtain ⟨hlen, hget⟩ := rowsOf_flatten dst.cols.toNat (fun r c => f r c) dst.rows.toNat
  have full : ∀ {md'}, Stored dst (rowsOf dst.rows.toNat dst.cols.toNat (fun r c => f r c)).flatten md md' → dst.ElemsBecome f md md' := by
    intro md' h
    refine ⟨fun r c hrc => ?_, fun a ha => h.2 a fun r c hrc _ e => ha ⟨r, c, hrc, trivial, e⟩⟩
    obtain ⟨h1, h2, h3, h4⟩ := hrc
    obtain ⟨r, rfl⟩ := Int.eq_ofNat_of_zero_le h1
    obtain ⟨c, rfl⟩ := Int.eq_ofNat_of_zero_le h3
    have hg := hget r c (by omega) (by omega)
    obtain ⟨hl, hg⟩ := List.getElem?_eq_some_iff.1 hg
    have := h.1 r c ⟨h1, h2, h3, h4⟩ hl
    rw [hg] at this
    exact this
  have part : ∀ {md' vals}, vals <+: (rowsOf dst.rows.toNat dst.cols.toNat (fun r c => f r c)).flatten → Stored dst vals md md' →
      BecomesUpTo dst f vals.length md md' := by
    intro md' vals hp h
    refine ⟨fun r c hrc hl => ?_, h.2⟩
    have h0 := h.1 r c hrc hl
    obtain ⟨h1, h2, h3, h4⟩ := hrc
    have hg := hget r c (by omega) (by omega)
    obtain ⟨hl', hg⟩ := List.getElem?_eq_some_iff.1 hg
    rw [hp.getElem hl, hg] at h0
    exact h0
  obtain ⟨md0, k1, k2⟩ := csv_read_returns single eager dbg sep dst md hi hb hrt
  refine ⟨⟨md0, k1, full k2⟩, fun plan => ?_⟩
  obtain ⟨h1, h2⟩ := csvReadInto_values single eager dbg sep dst { is := { rest := t ++ more }, plan } md hi hb
  have hsim := rowsF_sim single eager dbg sep dst.cols.toNat dst.rows.toNat {} { is := { rest := t ++ more }, plan } rfl rfl
  rw [calm_eq] at hsim
  have hcalm := rowsF_of_readRows single eager dbg sep _ hrt
  unfold SimRows at hsim
  cases hr : (rowsF single eager dbg sep dst.cols.toNat dst.rows.toNat {} { is := { rest := t ++ more }, plan }).2 with
  | error e =>
    rw [hr] at hsim
    dsimp only at hsim
    rw [hcalm] at hsim
    right
    refine ⟨_, _, Prod.ext rfl ?_, part hsim.2 h2⟩
    rw [h1, hr, hsim.1]
  | ok s' =>
    rw [hr] at hsim
    dsimp only at hsim
    rw [hcalm] at hsim
    obtain ⟨g1, g2, g3⟩ := hsim
    left
    rw [g2] at h2
    refine ⟨_, s', Prod.ext rfl (h1.trans hr), ?_, g1, full h2⟩
    have := congrArg FStream.is (Except.ok.inj g3)
    exact this.symm

/-- The integers that fit the type satisfy the hypotheses on reading back, with every layout of the two views (with `std::from_chars`). -/
theorem csv_copy_ints_partial (bits : Nat) (hb : bits ≤ 64) (eager dbg col1d row1d : Bool)
    (src dst : View) (hfit : FitsPtrdiff src) (hrows : dst.rows = src.rows) (hcols : dst.cols = src.cols) (hpos : 0 < src.rows)
    (hshape : src.cols ≠ 1 ∨ src.rows ≤ 1 ∨ col1d = false)
    (ms md : Mem Int) (f : Int → Int → Int) (hf : ∀ r c, src.HasElem r c → src.Holds ms r c (f r c)) (hi : dst.Injective) (hbk : dst.Backed md)
    (hrange : ∀ r c, src.HasElem r c → -(2 ^ (bits - 1) : Int) ≤ f r c ∧ f r c < (2 ^ (bits - 1) : Int)) (buf : Buf) (hbuf : buf.length = 64) :
    ∃ t, printCsvView intElem ms buf [] src (csvOpts ',' col1d row1d) = .ok t ∧
      ∃ md', csvReadInto (readSingle (fromCharsInt bits)) eager dbg ',' dst (lift { rest := t }) md = (md', .ok (lift { rest := [] })) ∧ dst.ElemsBecome f md md' := by
  obtain ⟨t, h1, h2, -⟩ := csv_copy_partial (readSingle (fromCharsInt bits)) (el := intElem) (text := printElemInt {}) (intElem_prints {}) ','
    (readSingle_ok (fromCharsInt_ok bits ',' (by decide) (by decide)) (by decide)) (by decide) eager dbg col1d row1d src dst hfit hrows hcols hpos hshape ms md f hf
    hi hbk (fun r c h => (int_readsBack bits hb ',' (by decide) (by decide) _ _ (hrange r c h)).by) buf hbuf []
  rw [List.append_nil] at h2
  exact ⟨t, h1, h2⟩

/-- The same where `strtol` is used (csv.tpp:107-131). -/
theorem csv_copy_ints_strtol_partial (ty : FromChars.Ty) (hty : ty ∈ [FromChars.Ty.short, .int, .long, .llong]) (eager dbg col1d row1d : Bool)
    (src dst : View) (hfit : FitsPtrdiff src) (hrows : dst.rows = src.rows) (hcols : dst.cols = src.cols) (hpos : 0 < src.rows)
    (hshape : src.cols ≠ 1 ∨ src.rows ≤ 1 ∨ col1d = false)
    (ms md : Mem Int) (f : Int → Int → Int) (hf : ∀ r c, src.HasElem r c → src.Holds ms r c (f r c)) (hi : dst.Injective) (hbk : dst.Backed md)
    (hrange : ∀ r c, src.HasElem r c → -(2 ^ (ty.bits - 1) : Int) ≤ f r c ∧ f r c < (2 ^ (ty.bits - 1) : Int)) (buf : Buf) (hbuf : buf.length = 64) :
    ∃ t, printCsvView intElem ms buf [] src (csvOpts ',' col1d row1d) = .ok t ∧
      ∃ md', csvReadInto (strtolSingle ty) eager dbg ',' dst (lift { rest := t }) md = (md', .ok (lift { rest := [] })) ∧ dst.ElemsBecome f md md' := by
  obtain ⟨t, h1, h2, -⟩ := csv_copy_partial (strtolSingle ty) (el := intElem) (text := printElemInt {}) (intElem_prints {}) ','
    (strtolSingle_ok ty cIntSep_examples.1) (by decide) eager dbg col1d row1d src dst hfit hrows hcols hpos hshape ms md f hf
    hi hbk (fun r c h => int_readsBack_strtol ty hty ',' cIntSep_examples.1 _ _ (hrange r c h)) buf hbuf []
  rw [List.append_nil] at h2
  exact ⟨t, h1, h2⟩

/-- The statement without the condition on the shape. -/
def CsvCopies : Prop := ∀ (src dst : View) (ms md : Mem Int) (f : Int → Int → Int), FitsPtrdiff src → dst.rows = src.rows → dst.cols = src.cols →
  0 < src.rows → (∀ r c, src.HasElem r c → src.Holds ms r c (f r c)) → dst.Injective → dst.Backed md → (∀ r c, src.HasElem r c → 0 ≤ f r c ∧ f r c < 100) →
  ∃ t, printCsvView intElem ms (List.replicate 64 ' ') [] src {} = .ok t ∧
    ∃ md', csvReadInto (readSingle (fromCharsInt 32)) true true ',' dst (lift { rest := t }) md = (md', .ok (lift { rest := [] })) ∧ dst.ElemsBecome f md md'

/-- It is false: a column vector is printed on one line by default (C43). -/
theorem not_csvCopies : ¬ CsvCopies := by
  intro h
  obtain ⟨t, h1, md', h2, -⟩ := h { data := 0, rows := 2, cols := 1, inner := 1, outer := 2 } { data := 0, rows := 2, cols := 1, inner := 1, outer := 2 }
    (fun _ => some 7) (fun _ => some 0) (fun _ _ => 7) (by unfold FitsPtrdiff Fits; decide) rfl rfl (by decide) (fun _ _ _ => rfl)
    (by rintro r c r' c' ⟨a1, a2, a3, a4⟩ ⟨b1, b2, b3, b4⟩ e; dsimp only at *; omega) (fun _ _ _ => ⟨_, rfl⟩) (fun _ _ _ => by decide)
  have e : printCsvView intElem (fun _ => some 7) (List.replicate 64 ' ') [] { data := 0, rows := 2, cols := 1, inner := 1, outer := 2 } {} =
      .ok "7,7\n".toList := by rfl
  rw [e] at h1
  cases h1
  have e2 : (csvReadInto (readSingle (fromCharsInt 32)) true true ',' { data := 0, rows := 2, cols := 1, inner := 1, outer := 2 } (lift { rest := "7,7\n".toList })
      (fun _ => some 0)).2 = .error csvErr := by rfl
  rw [h2] at e2
  cases e2

/-- C120, exactly: the copy succeeds unless the view is a column of several rows that the options print on one line; then `csv_read` throws. -/
theorem csv_copy_iff {F : Type} (single : List Char → Option (F × List Char)) {el : Elem F} {text : F → Text} (hel : Prints el text) (sep : Char)
    (hok : SingleOk single sep) (hline : sep ≠ '\n') (eager dbg col1d row1d : Bool)
    (src dst : View) (hfit : FitsPtrdiff src) (hrows : dst.rows = src.rows) (hcols : dst.cols = src.cols) (hpos : 0 < src.rows)
    (ms md : Mem F) (f : Int → Int → F) (hf : ∀ r c, src.HasElem r c → src.Holds ms r c (f r c)) (hi : dst.Injective) (hb : dst.Backed md)
    (hread : ∀ r c, src.HasElem r c → ReadsBackBy single sep (text (f r c)) (f r c)) (buf : Buf) (hbuf : buf.length = 64) :
    (∃ t, printCsvView el ms buf [] src (csvOpts sep col1d row1d) = .ok t ∧
      ∃ md' s', csvReadInto single eager dbg sep dst (lift { rest := t }) md = (md', .ok s') ∧ dst.ElemsBecome f md md') ↔
    ¬ (src.cols = 1 ∧ 2 ≤ src.rows ∧ col1d = true) := by
  constructor
  · rintro ⟨t, h1, md', s', h2, -⟩ ⟨c1, c2, rfl⟩
    rw [(print_view hel src hfit ms f hf buf hbuf [] (csvOpts sep true row1d) [] false).1] at h1
    cases h1
    have ht := csvBy_column_throws single (fun _ => text) sep hok hline eager dbg row1d src.rows.toNat (fun r c => f r c)
      (fun r hr => hread r 0 ⟨by omega, by omega, by omega, by omega⟩) (by omega) []
    rw [List.append_nil] at ht
    have c1' : src.cols.toNat = 1 := by omega
    rw [c1'] at h2
    generalize printCsvImpl (fun _ => text) [] src.rows.toNat 1 (fun r c => f r c) (csvOpts sep true row1d) = t at h2 ht
    obtain ⟨vals, m', res, k1, -, k2⟩ := csv_read_stores single eager dbg sep dst (lift { rest := t }) rfl md hi hb
    rw [h2] at k1
    cases k1
    rcases k2 with ⟨s', vss, -, k2, -⟩ | k2
    · rw [hrows, hcols, c1'] at k2
      exact absurd (ht.symm.trans k2) nofun
    · cases k2
  · intro h
    obtain ⟨t, h1, ⟨md', h2, h3⟩, -⟩ := csv_copy_partial single hel sep hok hline eager dbg col1d row1d src dst hfit hrows hcols hpos
      (by
        by_cases c1 : src.cols = 1
        · by_cases c2 : src.rows ≤ 1
          · exact .inr (.inl c2)
          · refine .inr (.inr ?_)
            cases hc : col1d with
            | false => rfl
            | true => exact absurd ⟨c1, by omega, hc⟩ h
        · exact .inl c1) ms md f hf hi hb hread buf hbuf []
    rw [List.append_nil] at h2
    exact ⟨t, h1, md', _, h2, h3⟩

/-- From a transposed view (rows 3 apart, columns 1 apart) into a contiguous one. -/
example : let src : View := { data := 0, rows := 2, cols := 3, inner := 3, outer := 1 }
    let dst : View := { data := 100, rows := 2, cols := 3, inner := 1, outer := 2 }
    FitsPtrdiff src ∧ dst.rows = src.rows ∧ dst.cols = src.cols ∧
    printCsvView intElem (fun a => some a) (List.replicate 64 ' ') [] src {} = .ok "0,1,2\n3,4,5\n".toList ∧
    (let m := (csvReadInto (readSingle (fromCharsInt 32)) true true ',' dst (lift { rest := "0,1,2\n3,4,5\n".toList }) (fun _ => some 0)).1
     [m 99, m 100, m 101, m 102, m 103, m 104, m 105, m 106] = [some 0, some 0, some 3, some 1, some 4, some 2, some 5, some 0]) := by
  refine ⟨by unfold FitsPtrdiff Fits; decide, rfl, rfl, rfl, rfl⟩

end Guanaqo.Print
