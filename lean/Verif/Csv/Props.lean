import Verif.Csv.Rows

/-!
# C40–C42, C44: reading rows and matrices
-/

namespace Guanaqo.Csv

variable {F : Type}

/-- C40, C42, C44. Reading a row of `n` numbers, after any number of comment lines: if the line has
exactly `n` fields (a trailing separator is allowed) and each denotes a number, exactly these numbers
are returned, in order, and the stream is left at the start of the next line; in every other case
`csv_read_error` is thrown. Fields may be up to 63 characters long; lines and comments have any
length, and the stream may end after the line or go on with anything. -/
theorem csv_read_row_exact (fc : Parser F) (sep : Char) (hok : fc.Ok sep) (hplus : sep ≠ '+')
    (eager dbg : Bool) (n : Nat) (comments : List (List Char)) (hc : ∀ c ∈ comments, '\n' ∉ c)
    (line tail : List Char) (hne : line ≠ []) (hnl : '\n' ∉ line) (hh : line.head? ≠ some '#')
    (ht : LineEnd tail) (hlen : ∀ f ∈ rowFields sep line, f.length ≤ 63) :
    match rowSpec fc sep n line with
    | some vs => ∃ is', csvReadRow fc eager dbg sep n { rest := commentText comments ++ line ++ tail }
        = .ok (vs, is') ∧ AfterLine tail is'
    | none => csvReadRow fc eager dbg sep n { rest := commentText comments ++ line ++ tail }
        = .error (.throw .csvReadError) := by
  obtain ⟨rd, is, h1, h2⟩ := skipComments_ok eager dbg comments hc hne hnl hh ht (rd := {}) rfl
  have h3 := readN_line hok hplus eager dbg n h2 hlen
  have hrow : csvReadRow fc eager dbg sep n { rest := commentText comments ++ line ++ tail } =
      (readN fc eager dbg sep n rd is >>= fun p => nextLine p.2.1 p.2.2 >>= fun is =>
        Except.ok (p.1, p.2.1, is)) >>= fun q => .ok (q.1, q.2.2) := by
    unfold csvReadRow readRowWith
    rw [h1]
    rfl
  cases hs : rowSpec fc sep n line with
  | none =>
    rw [hs] at h3
    simp only at h3 ⊢
    rw [hrow, h3]
    rfl
  | some vs =>
    rw [hs] at h3
    obtain ⟨rd', is', is'', k1, k2, k3, _⟩ := h3
    refine ⟨is'', ?_, k3⟩
    rw [hrow, k1]
    simp only [res_ok_bind]
    rw [k2]
    rfl

/-- C40, C44. An empty line (or the end of the input), without comments before it, is the row of no
numbers, and no other row. -/
theorem csv_read_row_empty (fc : Parser F) (sep : Char) (eager dbg : Bool) (n : Nat)
    (tail : List Char) (ht : LineEnd tail) :
    if n = 0 then ∃ is', csvReadRow fc eager dbg sep n { rest := tail } = .ok ([], is') ∧
      AfterLine tail is'
    else csvReadRow fc eager dbg sep n { rest := tail } = .error (.throw .csvReadError) := by
  cases n with
  | zero =>
    rw [if_pos rfl]
    rcases ht with rfl | ⟨more, rfl⟩
    · exact ⟨_, by cases eager <;> cases dbg <;> rfl, .inl ⟨rfl, rfl, rfl⟩⟩
    · exact ⟨{ rest := more }, by cases eager <;> cases dbg <;> rfl, .inr ⟨more, rfl, rfl⟩⟩
  | succ n =>
    rw [if_neg (by omega)]
    rcases ht with rfl | ⟨more, rfl⟩ <;> cases eager <;> cases dbg <;> rfl

/-- C42, full statement: comment lines before a row make no difference. -/
def CommentsSkipped : Prop :=
  ∀ (fc : Parser Int) (sep : Char), fc.Ok sep → sep ≠ '+' → ∀ (eager dbg : Bool) (n : Nat)
    (comments : List (List Char)), (∀ c ∈ comments, '\n' ∉ c) → ∀ (line more : List Char),
    '\n' ∉ line → line.head? ≠ some '#' →
    csvReadRow fc eager dbg sep n { rest := commentText comments ++ line ++ '\n' :: more } =
      csvReadRow fc eager dbg sep n { rest := line ++ '\n' :: more }

/-- C42, for rows that are not empty (with fields of at most 63 characters): comment lines before a
row make no difference. -/
theorem comments_skipped_partial (fc : Parser F) (sep : Char) (hok : fc.Ok sep) (hplus : sep ≠ '+')
    (eager dbg : Bool) (n : Nat) (comments : List (List Char)) (hc : ∀ c ∈ comments, '\n' ∉ c)
    (line more : List Char) (hne : line ≠ []) (hnl : '\n' ∉ line) (hh : line.head? ≠ some '#')
    (hlen : ∀ f ∈ rowFields sep line, f.length ≤ 63) :
    csvReadRow fc eager dbg sep n { rest := commentText comments ++ line ++ '\n' :: more } =
      csvReadRow fc eager dbg sep n { rest := line ++ '\n' :: more } := by
  have h1 := csv_read_row_exact fc sep hok hplus eager dbg n comments hc line ('\n' :: more) hne hnl
    hh (.inr ⟨_, rfl⟩) hlen
  have h2 := csv_read_row_exact fc sep hok hplus eager dbg n [] (by simp) line ('\n' :: more) hne hnl
    hh (.inr ⟨_, rfl⟩) hlen
  cases hs : rowSpec fc sep n line with
  | none =>
    rw [hs] at h1 h2
    simp only [commentText, List.flatMap_nil, List.nil_append] at h1 h2
    rw [show commentText comments = comments.flatMap (fun c => '#' :: c ++ ['\n']) from rfl]
    exact h1.trans h2.symm
  | some vs =>
    rw [hs] at h1 h2
    obtain ⟨i1, e1, a1⟩ := h1
    obtain ⟨i2, e2, a2⟩ := h2
    have : ∀ i, AfterLine ('\n' :: more) i → i = { rest := more } := by
      rintro i (⟨h, _⟩ | ⟨m, h, hi⟩)
      · cases h
      · cases h; exact hi
    rw [this i1 a1] at e1
    rw [this i2 a2] at e2
    simp only [commentText, List.flatMap_nil, List.nil_append] at e2
    exact e1.trans e2.symm

/-- C44. `csv_read_row_std_vector`: `done` recognises the end of the line. -/
theorem done_ok {rd : Reader} {is : IStream} {L tail : List Char} (h : OnLine rd is L tail) :
    ∃ is', done rd is = (L.isEmpty, is') ∧ OnLine rd is' L tail ∧ is'.rest = is.rest := by
  obtain ⟨⟨U, h1, h2, h3, h4, h5⟩, hnl, ht, hcap⟩ := h
  by_cases hU : U ++ tail = []
  · have he := h5 hU
    have hp : is.peek = (none, { is with fail := true }) := by
      simp [IStream.peek, IStream.good, he]
    refine ⟨{ is with fail := true }, ?_, ⟨⟨U, h1, h2, h3, fun hne => absurd hU hne, fun _ => he⟩,
      hnl, ht, hcap⟩, rfl⟩
    obtain ⟨rfl, rfl⟩ := List.append_eq_nil_iff.1 hU
    unfold done
    rw [hp]
    simp [he, h1]
  · have hg := h4 hU
    have hgood : is.eof = false ∧ is.fail = false := by simpa [IStream.good] using hg
    obtain ⟨c, r, hr⟩ := List.exists_cons_of_ne_nil hU
    have hp : is.peek = (some c, is) := by
      simp [IStream.peek, hg, h2, hr]
    refine ⟨is, ?_, ⟨⟨U, h1, h2, h3, h4, h5⟩, hnl, ht, hcap⟩, rfl⟩
    unfold done
    rw [hp]
    simp only [hgood.1, Bool.not_false, Bool.and_true, Prod.mk.injEq, and_true]
    cases U with
    | nil =>
      rcases ht with rfl | ⟨more, rfl⟩
      · exact absurd rfl hU
      · simp only [List.nil_append, List.cons.injEq] at hr
        simp [← hr.1, h1]
    | cons d U =>
      simp only [List.cons_append, List.cons.injEq] at hr
      have hd : c ≠ '\n' := by
        rw [← hr.1]
        intro e
        exact hnl (by rw [h1, e]; simp)
      cases hL : L with
      | nil => rw [hL] at h1; simp at h1
      | cons a L => simp [hd]

theorem readAll_line {fc : Parser F} {sep : Char} (hok : fc.Ok sep) (hp : sep ≠ '+')
    (eager dbg : Bool) (fuel : Nat) {rd : Reader} {is : IStream} {L tail : List Char}
    (h : OnLine rd is L tail) (hlen : ∀ f ∈ rowFields sep L, f.length ≤ 63)
    (hfuel : L.length < fuel) :
    match (rowFields sep L).mapM (numberOf fc) with
    | some vs => ∃ rd' is', readAll fc eager dbg sep fuel rd is = .ok (vs, rd', is') ∧
        OnLine rd' is' [] tail
    | none => readAll fc eager dbg sep fuel rd is = throwCsv := by
  induction fuel generalizing rd is L with
  | zero => omega
  | succ fuel ih =>
    rw [readAll]
    obtain ⟨is', d1, d2, _⟩ := done_ok h
    rw [d1]
    by_cases hL : L = []
    · subst hL
      rw [rowFields_nil]
      exact ⟨rd, is', rfl, d2⟩
    · have hemp : L.isEmpty = false := by cases L <;> simp_all
      rw [hemp]
      simp only [Bool.false_eq_true, if_false]
      have hstep : ∃ f rest, L = f ++ rest ∧ sep ∉ f ∧ (rest = [] ∨ ∃ L', rest = sep :: L') ∧
          rowFields sep L = f :: rowFields sep (rest.drop 1) ∧ (rest.drop 1).length < L.length := by
        rcases first_field sep L with h1 | ⟨f, L', h1, h2⟩
        · refine ⟨L, [], by simp, h1, .inl rfl, by rw [rowFields_single h1 hL]; simp [rowFields_nil],
            ?_⟩
          cases L with
          | nil => exact absurd rfl hL
          | cons a L => simp
        · refine ⟨f, sep :: L', h1, h2, .inr ⟨L', rfl⟩, by rw [h1, rowFields_cons h2]; simp, ?_⟩
          rw [h1]; simp; omega
      obtain ⟨f, rest, h1, h2, h3, hrf, hsh⟩ := hstep
      have hr := read_field hok hp eager dbg d2 h1 h2 h3 (hlen f (by rw [hrf]; simp))
      rw [hrf, List.mapM_cons]
      cases hv : numberOf fc f with
      | none =>
        rw [hv] at hr
        simp only at hr
        rw [hr]
        rfl
      | some v =>
        rw [hv] at hr
        obtain ⟨rd2, is2, k1, k2⟩ := hr
        rw [k1]
        simp only [res_ok_bind]
        have hih := ih k2 (fun g hg => hlen g (by rw [hrf]; exact List.mem_cons_of_mem _ hg)) (by omega)
        cases hvs : (rowFields sep (rest.drop 1)).mapM (numberOf fc) with
        | none =>
          rw [hvs] at hih
          simp only at hih
          rw [hih]
          rfl
        | some vs =>
          rw [hvs] at hih
          obtain ⟨rd3, is3, l1, l2⟩ := hih
          rw [l1]
          exact ⟨rd3, is3, rfl, l2⟩

/-- C44. `csv_read_row_std_vector` returns the numbers of all fields of the row, however many there
are, and throws `csv_read_error` if one of them is not a number. -/
theorem csv_read_vector_exact (fc : Parser F) (sep : Char) (hok : fc.Ok sep) (hplus : sep ≠ '+')
    (eager dbg : Bool) (comments : List (List Char)) (hc : ∀ c ∈ comments, '\n' ∉ c)
    (line tail : List Char) (hne : line ≠ []) (hnl : '\n' ∉ line) (hh : line.head? ≠ some '#')
    (ht : LineEnd tail) (hlen : ∀ f ∈ rowFields sep line, f.length ≤ 63) :
    match (rowFields sep line).mapM (numberOf fc) with
    | some vs => ∃ is', csvReadRowVector fc eager dbg sep
        { rest := commentText comments ++ line ++ tail } = .ok (vs, is') ∧ AfterLine tail is'
    | none => csvReadRowVector fc eager dbg sep { rest := commentText comments ++ line ++ tail }
        = .error (.throw .csvReadError) := by
  obtain ⟨rd, is, h1, h2⟩ := skipComments_ok eager dbg comments hc hne hnl hh ht (rd := {}) rfl
  have hfuel : line.length < rd.buf.length + is.rest.length + 1 := by
    obtain ⟨⟨U, e1, e2, _⟩, _⟩ := h2
    rw [e1, e2, List.length_append, List.length_append]; omega
  have h3 := readAll_line hok hplus eager dbg _ h2 hlen hfuel
  unfold csvReadRowVector
  rw [h1]
  simp only [res_ok_bind]
  cases hs : (rowFields sep line).mapM (numberOf fc) with
  | none =>
    rw [hs] at h3
    simp only at h3 ⊢
    rw [h3]
    rfl
  | some vs =>
    rw [hs] at h3
    obtain ⟨rd', is', k1, k2⟩ := h3
    rw [k1]
    simp only [res_ok_bind]
    obtain ⟨is'', l1, _, l3⟩ := nextLine_ok k2
    rw [l1]
    exact ⟨is'', rfl, l3⟩

/-- C44. An empty line, or the end of the input, is read as an empty vector. -/
theorem csv_read_vector_empty (fc : Parser F) (sep : Char) (eager dbg : Bool) (tail : List Char)
    (ht : LineEnd tail) :
    ∃ is', csvReadRowVector fc eager dbg sep { rest := tail } = .ok ([], is') ∧ AfterLine tail is' := by
  rcases ht with rfl | ⟨more, rfl⟩
  · exact ⟨_, by cases eager <;> cases dbg <;> rfl, .inl ⟨rfl, rfl, rfl⟩⟩
  · exact ⟨{ rest := more }, by cases eager <;> cases dbg <;> rfl, .inr ⟨more, rfl, rfl⟩⟩

/-! ## Matrices -/

/-- One row of a file: comment lines before it, and its line. -/
structure RowText where
  comments : List (List Char) := []
  line : List Char

/-- A row the reader supports: a line that is not empty, not a comment, with fields of at most 63
characters; or an empty line without comments before it. -/
def RowText.Ok (sep : Char) (r : RowText) : Prop :=
  (∀ c ∈ r.comments, '\n' ∉ c) ∧ '\n' ∉ r.line ∧ r.line.head? ≠ some '#' ∧
    (∀ f ∈ rowFields sep r.line, f.length ≤ 63) ∧ (r.line = [] → r.comments = [])

/-- The text of a file. -/
def fileText (rows : List RowText) : List Char :=
  rows.flatMap (fun r => commentText r.comments ++ r.line ++ ['\n'])

theorem readRow_state {fc : Parser F} {sep : Char} (hok : fc.Ok sep) (hplus : sep ≠ '+')
    (eager dbg : Bool) (n : Nat) (r : RowText) (hr : r.Ok sep) (more : List Char) {rd : Reader}
    (hb : rd.buf = []) :
    match rowSpec fc sep n r.line with
    | some vs => ∃ rd', readRowWith fc eager dbg sep n rd
        { rest := commentText r.comments ++ r.line ++ '\n' :: more } =
        .ok (vs, rd', { rest := more }) ∧ rd'.buf = []
    | none => readRowWith fc eager dbg sep n rd
        { rest := commentText r.comments ++ r.line ++ '\n' :: more } = throwCsv := by
  obtain ⟨hc, hnl, hh, hlen, hemp⟩ := hr
  by_cases hL : r.line = []
  · rw [hL, hemp hL]
    obtain ⟨b, k⟩ := rd
    simp only at hb
    subst hb
    have hsk : skipComments eager dbg { buf := [], keep := k } { rest := '\n' :: more } =
        .ok ({ buf := [], keep := k }, { rest := '\n' :: more }) := by
      cases dbg <;> rfl
    cases n with
    | zero =>
      have : rowSpec fc sep 0 [] = some [] := by simp [rowSpec, rowFields_nil]
      rw [this]
      refine ⟨{ buf := [], keep := k }, ?_, rfl⟩
      simp only [commentText, List.flatMap_nil, List.nil_append]
      rw [readRowWith, hsk]
      rfl
    | succ n =>
      have : rowSpec fc sep (n + 1) [] = none := by simp [rowSpec, rowFields_nil]
      rw [this]
      simp only [commentText, List.flatMap_nil, List.nil_append]
      rw [readRowWith, hsk]
      simp only [res_ok_bind, readN]
      have hread : read fc eager dbg sep { buf := [], keep := k } { rest := '\n' :: more } =
          throwCsv := by
        cases k with
        | true => cases dbg <;> cases eager <;> rfl
        | false =>
          have hn : readSingle fc [] = none := by
            cases hx : readSingle fc [] with
            | none => rfl
            | some p =>
              obtain ⟨d, hd, hs⟩ := readSingle_consumes hok (v := p.1) (t := p.2) hx
              exact absurd (List.append_eq_nil_iff.1 hs.symm).1 hd
          simp only [read, fill, Bool.false_eq_true, if_false, res_ok_bind, hn]
      rw [hread]
      rfl
  · obtain ⟨rd1, is1, h1, h2⟩ := skipComments_ok eager dbg r.comments hc hL hnl hh
      (.inr ⟨more, rfl⟩) hb
    have h3 := readN_line hok hplus eager dbg n h2 hlen
    have hrow : readRowWith fc eager dbg sep n rd
        { rest := commentText r.comments ++ r.line ++ '\n' :: more } =
        (readN fc eager dbg sep n rd1 is1 >>= fun p => nextLine p.2.1 p.2.2 >>= fun is =>
          Except.ok (p.1, p.2.1, is)) := by
      unfold readRowWith
      rw [h1]
      rfl
    cases hs : rowSpec fc sep n r.line with
    | none =>
      rw [hs] at h3
      simp only at h3 ⊢
      rw [hrow, h3]
    | some vs =>
      rw [hs] at h3
      obtain ⟨rd', is', is'', k1, k2, k3, k4⟩ := h3
      refine ⟨rd', ?_, k4⟩
      rw [hrow, k1]
      simp only [res_ok_bind]
      rw [k2]
      rcases k3 with ⟨k3, _⟩ | ⟨m, k3, k5⟩
      · cases k3
      · cases k3; rw [k5]; rfl

/-- C40, C44. `csv_read` into a matrix: if every row of the text has exactly `cols` fields and each
denotes a number, the matrix holds exactly these numbers and the stream is left after the last row
read; otherwise `csv_read_error` is thrown. -/
theorem csv_read_exact (fc : Parser F) (sep : Char) (hok : fc.Ok sep) (hplus : sep ≠ '+')
    (eager dbg : Bool) (cols : Nat) (rows : List RowText) (hrows : ∀ r ∈ rows, r.Ok sep)
    (more : List Char) :
    match rows.mapM (fun r => rowSpec fc sep cols r.line) with
    | some M => csvRead fc eager dbg sep rows.length cols { rest := fileText rows ++ more } =
        .ok (M, { rest := more })
    | none => csvRead fc eager dbg sep rows.length cols { rest := fileText rows ++ more } =
        .error (.throw .csvReadError) := by
  have key : ∀ (rows : List RowText), (∀ r ∈ rows, r.Ok sep) → ∀ rd : Reader, rd.buf = [] →
      match rows.mapM (fun r => rowSpec fc sep cols r.line) with
      | some M => readRows fc eager dbg sep cols rows.length rd { rest := fileText rows ++ more } =
          .ok (M, { rest := more })
      | none => readRows fc eager dbg sep cols rows.length rd { rest := fileText rows ++ more } =
          throwCsv := by
    intro rows
    induction rows with
    | nil => intro _ rd _; rfl
    | cons r rows ih =>
      intro hr rd hb
      have htext : fileText (r :: rows) ++ more =
          commentText r.comments ++ r.line ++ '\n' :: (fileText rows ++ more) := by
        simp [fileText]
      rw [htext, List.mapM_cons]
      have h1 := readRow_state hok hplus eager dbg cols r (hr r (by simp)) (fileText rows ++ more) hb
      simp only [List.length_cons, readRows]
      cases hs : rowSpec fc sep cols r.line with
      | none =>
        rw [hs] at h1
        simp only at h1
        rw [h1]
        rfl
      | some vs =>
        rw [hs] at h1
        obtain ⟨rd', k1, k2⟩ := h1
        rw [k1]
        simp only [res_ok_bind]
        have hih := ih (fun q hq => hr q (by simp [hq])) rd' k2
        cases hm : rows.mapM (fun r => rowSpec fc sep cols r.line) with
        | none =>
          rw [hm] at hih
          simp only at hih
          rw [hih]
          rfl
        | some M =>
          rw [hm] at hih
          simp only at hih
          rw [hih]
          rfl
  exact key rows hrows {} rfl

end Guanaqo.Csv
