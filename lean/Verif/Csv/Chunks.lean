import Verif.Csv.Long

/-!
# Exactly what the CSV reader makes of any line (C41, C42)

`csv_read_row_exact` and `fields_whole_partial` are about fields of at most 63 and 64 characters. Here
nothing is assumed of the lengths: `chunkRow` says what the reader returns for any line, without buffers and
streams, and from this follow what happens to fields that are longer, and exactly when comment lines
before a row make a difference.
-/

namespace Guanaqo.Csv

variable {F : Type}

/-- Reading `n` numbers from a line, 64 characters at a time: the next number is what the conversion finds
in the first 64 characters of the rest of the line. If it takes all of them, the next number starts right
after them; otherwise a separator must follow. After the last number the line must be at its end. -/
def chunkRow (fc : Parser F) (sep : Char) : Nat → List Char → Option (List F)
  | 0, L => if L = [] then some [] else none
  | n + 1, L =>
    match readSingle fc (L.take 64) with
    | none => none
    | some (v, []) => (chunkRow fc sep n (L.drop 64)).map (v :: ·)
    | some (v, c :: t) => if c = sep then (chunkRow fc sep n (t ++ L.drop 64)).map (v :: ·) else none

/-- The result of reading a row, as a statement on the outcome: these numbers, with the stream left after
the line, or an exception. -/
def RowResult (r : Res (List F × IStream)) (vs? : Option (List F)) (tail : List Char) : Prop :=
  match vs? with
  | some vs => ∃ is', r = .ok (vs, is') ∧ AfterLine tail is'
  | none => r = .error (.throw .csvReadError)

theorem readN_chunked {fc : Parser F} {sep : Char} (hok : fc.Ok sep) (eager dbg : Bool) (n : Nat)
    {rd : Reader} {is : IStream} {L tail : List Char} (h : OnLine rd is L tail) :
    match chunkRow fc sep n L with
    | some vs => ∃ rd' is' is'', readN fc eager dbg sep n rd is = .ok (vs, rd', is') ∧
        nextLine rd' is' = .ok is'' ∧ AfterLine tail is''
    | none => (readN fc eager dbg sep n rd is >>= fun p => nextLine p.2.1 p.2.2) = throwCsv := by
  induction n generalizing rd is L with
  | zero =>
    unfold chunkRow
    by_cases hL : L = []
    · subst hL
      obtain ⟨is', h1, _, h3⟩ := nextLine_ok h
      simp only [if_true]
      exact ⟨rd, is, is', rfl, h1, h3⟩
    · simp only [if_neg hL, readN, res_ok_bind]
      exact nextLine_throws h hL
  | succ n ih =>
    have hread := read_line fc eager dbg sep
      (fun s v t hs => (readSingle_consumes hok hs).imp (fun d hd => hd.2)) h
    have hrec : ∀ {v : F} {rd' : Reader} {is' : IStream} {L' : List Char},
        read fc eager dbg sep rd is = .ok (v, rd', is') → OnLine rd' is' L' tail →
        match (chunkRow fc sep n L').map (v :: ·) with
        | some vs => ∃ rd' is' is'', readN fc eager dbg sep (n + 1) rd is = .ok (vs, rd', is') ∧
            nextLine rd' is' = .ok is'' ∧ AfterLine tail is''
        | none => (readN fc eager dbg sep (n + 1) rd is >>= fun p => nextLine p.2.1 p.2.2) = throwCsv := by
      intro v rd' is' L' h1 h2
      have := ih h2
      cases hc : chunkRow fc sep n L' with
      | none =>
        rw [hc] at this
        simp only [Option.map_none] at this ⊢
        rw [readN, h1]
        simp only [res_ok_bind]
        cases hr : readN fc eager dbg sep n rd' is' with
        | error e => rw [hr] at this; exact this
        | ok p => rw [hr] at this; exact this
      | some vs =>
        rw [hc] at this
        simp only [Option.map_some] at this ⊢
        obtain ⟨r2, i2, i3, k1, k2, k3⟩ := this
        refine ⟨r2, i2, i3, ?_, k2, k3⟩
        rw [readN, h1]
        simp only [res_ok_bind]
        rw [k1]
        rfl
    unfold chunkRow
    cases hs : readSingle fc (L.take 64) with
    | none =>
      rw [hs] at hread
      simp only at hread ⊢
      rw [readN, hread]
      rfl
    | some p =>
      obtain ⟨v, t⟩ := p
      rw [hs] at hread
      cases t with
      | nil =>
        obtain ⟨rd', is', h1, h2⟩ := hread
        exact hrec h1 h2
      | cons c t =>
        simp only at hread ⊢
        by_cases hc : c = sep
        · rw [if_pos hc] at hread ⊢
          obtain ⟨rd', is', h1, h2⟩ := hread
          exact hrec h1 h2
        · rw [if_neg hc] at hread ⊢
          simp only
          rw [readN, hread]
          rfl

/-- C41, C42, exactly: what `csv_read_row` makes of any line that is not empty, after any comment lines. -/
theorem csv_read_row_chunked (fc : Parser F) (sep : Char) (hok : fc.Ok sep) (eager dbg : Bool) (n : Nat)
    (comments : List (List Char)) (hc : ∀ c ∈ comments, '\n' ∉ c)
    (line tail : List Char) (hne : line ≠ []) (hnl : '\n' ∉ line) (hh : line.head? ≠ some '#')
    (ht : LineEnd tail) :
    RowResult (csvReadRow fc eager dbg sep n { rest := commentText comments ++ line ++ tail })
      (chunkRow fc sep n line) tail := by
  obtain ⟨rd, is, h1, h2⟩ := skipComments_ok eager dbg comments hc hne hnl hh ht (rd := {}) rfl
  have h3 := readN_chunked hok eager dbg n h2
  have hrow : csvReadRow fc eager dbg sep n { rest := commentText comments ++ line ++ tail } =
      (readN fc eager dbg sep n rd is >>= fun p => nextLine p.2.1 p.2.2 >>= fun is =>
        Except.ok (p.1, p.2.1, is)) >>= fun q => .ok (q.1, q.2.2) := by
    unfold csvReadRow readRowWith
    rw [h1]
    rfl
  unfold RowResult
  cases hs : chunkRow fc sep n line with
  | none =>
    rw [hs] at h3
    simp only at h3 ⊢
    rw [hrow]
    cases hr : readN fc eager dbg sep n rd is with
    | error e =>
      rw [hr] at h3
      simp only [res_error_bind] at h3 ⊢
      cases h3
      rfl
    | ok p =>
      rw [hr] at h3
      simp only [res_ok_bind] at h3 ⊢
      rw [h3]
      rfl
  | some vs =>
    rw [hs] at h3
    obtain ⟨rd', is', is'', k1, k2, k3⟩ := h3
    refine ⟨is'', ?_, k3⟩
    rw [hrow, k1]
    simp only [res_ok_bind]
    rw [k2]
    rfl

theorem skipLoop_empty (eager dbg : Bool) (comments : List (List Char))
    (hc : ∀ c ∈ comments, '\n' ∉ c) {tail : List Char} (ht : LineEnd tail) (fuel : Nat)
    (hf : comments.length < fuel) {rd : Reader} (hb : rd.buf = []) :
    skipLoop eager dbg fuel rd { rest := commentText comments ++ tail } = throwCsv := by
  induction comments generalizing rd fuel with
  | nil =>
    obtain ⟨fuel, rfl⟩ : ∃ k, fuel = k + 1 := ⟨fuel - 1, by simp at hf; omega⟩
    rw [skipLoop]
    simp only [Bool.false_eq_true, if_false, commentText, List.flatMap_nil, List.nil_append]
    have : readChunk eager dbg rd { rest := tail } = throwCsv := by
      unfold readChunk
      rw [hb]
      rcases ht with rfl | ⟨more, rfl⟩ <;> simp [bufmaxsize, IStream.getBuf, IStream.good]
    rw [this]
    rfl
  | cons c comments ih =>
    obtain ⟨fuel, rfl⟩ : ∃ k, fuel = k + 1 := ⟨fuel - 1, by simp at hf; omega⟩
    rw [skipLoop]
    simp only [Bool.false_eq_true, if_false]
    have hcn : '\n' ∉ '#' :: c := by
      have := hc c (by simp)
      simp [this]
    have htext : commentText (c :: comments) ++ tail =
        ('#' :: c) ++ ('\n' :: (commentText comments ++ tail)) := by
      simp [commentText]
    rw [htext]
    obtain ⟨rd', is', k1, k2, k3, _⟩ := readChunk_ok eager dbg (rd := rd)
      (is := { rest := ('#' :: c) ++ ('\n' :: (commentText comments ++ tail)) })
      (U := '#' :: c) (tail := '\n' :: (commentText comments ++ tail)) (by simp)
      (by rw [hb]; simpa using hcn) (.inr ⟨_, rfl⟩) (by simp [hb]) (.inr (by simp [hb])) rfl rfl
    rw [hb, List.nil_append] at k2 k3
    rw [k1, res_ok_bind]
    simp only
    rw [k2]
    simp only [List.take_succ_cons]
    obtain ⟨rd2, is2, l1, l2⟩ := skipRest_ok eager dbg (is'.rest.length + 1) k3 (by omega)
    rw [l1, res_ok_bind]
    simp only
    obtain ⟨is3, m1, m2, m3⟩ := nextLine_ok l2
    rw [m1, res_ok_bind]
    rcases m3 with ⟨m3, _⟩ | ⟨more, m3, m4⟩
    · cases m3
    · cases m3
      rw [m4]
      exact ih (fun d hd => hc d (by simp [hd])) fuel (by simp at hf; omega) rfl

/-- C42: an empty line (or the end of the input) after a comment is rejected, also as a row of no numbers,
and by `csv_read_row_std_vector`. -/
theorem comment_then_empty (fc : Parser F) (sep : Char) (eager dbg : Bool) (n : Nat)
    (comments : List (List Char)) (hne : comments ≠ []) (hc : ∀ c ∈ comments, '\n' ∉ c) (tail : List Char) (ht : LineEnd tail) :
    csvReadRow fc eager dbg sep n { rest := commentText comments ++ tail } = .error (.throw .csvReadError) ∧
    csvReadRowVector fc eager dbg sep { rest := commentText comments ++ tail } = .error (.throw .csvReadError) := by
  have key : skipComments eager dbg {} { rest := commentText comments ++ tail } = throwCsv := by
    unfold skipComments
    simp only [List.length_nil, ne_eq, not_true_eq_false, decide_false, Bool.and_false,
      Bool.false_eq_true, if_false]
    obtain ⟨r, hr⟩ : ∃ r, commentText comments ++ tail = '#' :: r := by
      cases comments with
      | nil => exact absurd rfl hne
      | cons c cs => exact ⟨_, rfl⟩
    have hp : IStream.peek { rest := commentText comments ++ tail } =
        (some '#', { rest := commentText comments ++ tail }) := by
      rw [hr]; rfl
    rw [hp]
    simp only [Option.some.injEq, show ('#' : Char) ≠ '\n' by decide, if_false]
    refine skipLoop_empty eager dbg comments hc ht _ ?_ rfl
    have := commentText_length comments
    simp only [List.length_append]
    omega
  unfold csvReadRow readRowWith csvReadRowVector
  rw [key]
  exact ⟨rfl, rfl⟩

/-- C42, exactly: comment lines before a row make a difference if and only if there are some, the line after
them is empty, and the row of no numbers is asked for. -/
theorem comments_skipped_iff (fc : Parser F) (sep : Char) (hok : fc.Ok sep) (eager dbg : Bool) (n : Nat)
    (comments : List (List Char)) (hc : ∀ c ∈ comments, '\n' ∉ c) (line more : List Char)
    (hnl : '\n' ∉ line) (hh : line.head? ≠ some '#') :
    csvReadRow fc eager dbg sep n { rest := commentText comments ++ line ++ '\n' :: more } =
      csvReadRow fc eager dbg sep n { rest := line ++ '\n' :: more } ↔
    ¬ (comments ≠ [] ∧ line = [] ∧ n = 0) := by
  by_cases h0 : comments = []
  · subst h0
    simp [commentText]
  by_cases hne : line = []
  · subst hne
    have h1 := (comment_then_empty fc sep eager dbg n comments h0 hc ('\n' :: more) (.inr ⟨_, rfl⟩)).1
    have h2 := csv_read_row_empty fc sep eager dbg n ('\n' :: more) (.inr ⟨_, rfl⟩)
    rw [List.append_nil, h1, List.nil_append]
    by_cases hn : n = 0
    · rw [if_pos hn] at h2
      obtain ⟨is', h2, _⟩ := h2
      rw [h2]
      simp [h0, hn]
    · rw [if_neg hn] at h2
      rw [h2]
      simp [hn]
  · have h1 := csv_read_row_chunked fc sep hok eager dbg n comments hc line ('\n' :: more) hne hnl hh (.inr ⟨_, rfl⟩)
    have h2 := csv_read_row_chunked fc sep hok eager dbg n [] (by simp) line ('\n' :: more) hne hnl hh (.inr ⟨_, rfl⟩)
    simp only [hne, false_and, and_false, not_false_eq_true, iff_true]
    have e2 : commentText [] ++ line ++ '\n' :: more = line ++ '\n' :: more := by simp [commentText]
    rw [e2] at h2
    unfold RowResult at h1 h2
    cases hs : chunkRow fc sep n line with
    | none =>
      rw [hs] at h1 h2
      exact h1.trans h2.symm
    | some vs =>
      rw [hs] at h1 h2
      obtain ⟨i1, e1, a1⟩ := h1
      obtain ⟨i2, e2, a2⟩ := h2
      have : ∀ i, AfterLine ('\n' :: more) i → i = { rest := more } := by
        rintro i (⟨h, _⟩ | ⟨m, h, hi⟩)
        · cases h
        · cases h; exact hi
      rw [this i1 a1] at e1
      rw [this i2 a2] at e2
      exact e1.trans e2.symm

/-- C41: whenever the first 64 characters of a field are a number and the rest is one, too, the field is
read as two numbers, without any error. -/
theorem long_field_split (fc : Parser F) (sep : Char) (hok : fc.Ok sep) (eager dbg : Bool)
    (a b tail : List Char) (x y : F) (ha : a.length = 64) (hb : b.length ≤ 64) (hx : numberOf fc a = some x)
    (hy : numberOf fc b = some y) (hnl : '\n' ∉ a ++ b) (hh : a.head? ≠ some '#') (ht : LineEnd tail) :
    ∃ is', csvReadRow fc eager dbg sep 2 { rest := a ++ b ++ tail } = .ok ([x, y], is') ∧ AfterLine tail is' := by
  have hane : a ≠ [] := by intro e; rw [e] at ha; simp at ha
  have h := csv_read_row_chunked fc sep hok eager dbg 2 [] (by simp) (a ++ b) tail (by simp [hane]) hnl
    (by cases a with
        | nil => exact absurd rfl hane
        | cons c a => simpa using hh) ht
  have num : ∀ {f : List Char} {v : F}, numberOf fc f = some v → readSingle fc f = some (v, []) := by
    intro f v hv
    unfold numberOf at hv
    split at hv
    · rename_i heq; cases hv; exact heq
    · cases hv
  have hs : chunkRow fc sep 2 (a ++ b) = some [x, y] := by
    have t1 : (a ++ b).take 64 = a := by rw [← ha, List.take_left]
    have d1 : (a ++ b).drop 64 = b := by rw [← ha, List.drop_left]
    have t2 : b.take 64 = b := List.take_of_length_le hb
    have d2 : b.drop 64 = [] := List.drop_of_length_le hb
    simp only [chunkRow, t1, d1, num hx, t2, num hy, d2, if_true, Option.map_some]
  rw [hs] at h
  simpa [RowResult, commentText] using h

/-- The two cases of the comments theorem, and a field of 65 digits, in concrete terms. -/
example : csvReadRow (fromCharsInt 32) true true ',' 0 { rest := "#x\n\n".toList } = .error (.throw .csvReadError) ∧
    csvReadRow (fromCharsInt 32) true true ',' 0 { rest := "\n".toList } = .ok ([], { rest := [] }) ∧
    chunkRow (fromCharsInt 32) ',' 3 (List.replicate 64 '0' ++ "12,-7".toList) = some [0, 12, -7] := by
  decide +kernel

end Guanaqo.Csv
