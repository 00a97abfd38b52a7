import Verif.Csv.Fallback

/-!
# Rows of numbers, for any conversion

The theorems of `Verif/Csv/Rows.lean` and `Verif/Csv/Props.lean` for any `read_single` that consumes what it converts and stops at
separators: that of the other configuration (csv.tpp:84-96) and those with `strtol`, `strtof`, `strtod` and `strtold`
(csv.tpp:97-131).
-/

namespace Guanaqo.Csv

variable {F : Type}

/-- What is needed of `read_single`: it consumes a nonempty beginning of its input, and a separator ends its input. -/
structure SingleOk (single : List Char → Option (F × List Char)) (sep : Char) : Prop where
  consumes : ∀ s v t, single s = some (v, t) → ∃ d, d ≠ [] ∧ s = d ++ t
  stops : ∀ f r, sep ∉ f → single (f ++ sep :: r) = (single f).map (fun p => (p.1, p.2 ++ sep :: r))

theorem readSingle_ok {fc : Parser F} {sep : Char} (hok : fc.Ok sep) (hp : sep ≠ '+') : SingleOk (readSingle fc) sep :=
  ⟨fun _ _ _ h => readSingle_consumes hok h, fun _ _ h => readSingle_stops hok hp h⟩

/-- The number a field denotes: the conversion must accept the whole field. -/
def numberOfBy (single : List Char → Option (F × List Char)) (field : List Char) : Option F :=
  match single field with
  | some (v, []) => some v
  | _ => none

/-- The values of a line that must have exactly `n` fields. -/
def rowSpecBy (single : List Char → Option (F × List Char)) (sep : Char) (n : Nat) (line : List Char) : Option (List F) :=
  if (rowFields sep line).length = n then (rowFields sep line).mapM (numberOfBy single) else none

theorem numberOfBy_std (fc : Parser F) : numberOfBy (readSingle fc) = numberOf fc := rfl

theorem rowSpecBy_std (fc : Parser F) : rowSpecBy (readSingle fc) = rowSpec fc := rfl

/-- `read` in terms of the rest of the line only: it converts what it sees in a 64-character
window. -/
theorem readBy_line (single : List Char → Option (F × List Char)) (eager dbg : Bool) (sep : Char)
    (hsuf : ∀ s v t, single s = some (v, t) → ∃ d, s = d ++ t)
    {rd : Reader} {is : IStream} {L tail : List Char} (h : OnLine rd is L tail) :
    match single (L.take 64) with
    | none => readBy single eager dbg sep rd is = throwCsv
    | some (v, []) => ∃ rd' is', readBy single eager dbg sep rd is = .ok (v, rd', is') ∧
        OnLine rd' is' (L.drop 64) tail
    | some (v, c :: t) =>
        if c = sep then ∃ rd' is', readBy single eager dbg sep rd is = .ok (v, rd', is') ∧
          OnLine rd' is' (t ++ L.drop 64) tail
        else readBy single eager dbg sep rd is = throwCsv := by
  obtain ⟨rd', is', k1, k2, k3⟩ := window eager dbg h
  have hread : readBy single eager dbg sep rd is =
      (match single rd'.buf with
        | none => throwCsv
        | some (v, []) => .ok (v, { rd' with buf := [] }, is')
        | some (v, c :: tail) =>
          if c ≠ sep then throwCsv else .ok (v, { rd' with buf := tail }, is')) := by
    unfold readBy
    rw [k1]; rfl
  rw [k2] at hread
  split
  · rename_i heq
    rw [hread, heq]
  · rename_i v heq
    rw [heq] at hread
    refine ⟨_, _, hread, ?_⟩
    have := k3.dropBuf (d := L.take 64) (b := []) (by simp [k2])
    have e : L.drop (L.take 64).length = L.drop 64 := by
      rw [List.length_take]
      by_cases hle : 64 ≤ L.length
      · rw [Nat.min_eq_left hle]
      · rw [Nat.min_eq_right (by omega), List.drop_of_length_le (by omega),
          List.drop_of_length_le (by omega)]
    rwa [e] at this
  · rename_i v c t heq
    rw [heq] at hread
    simp only at hread
    obtain ⟨d, hd⟩ := hsuf _ _ _ heq
    split
    · rename_i hc
      rw [if_neg (by simpa using hc)] at hread
      refine ⟨_, _, hread, ?_⟩
      have := k3.dropBuf (d := d ++ [c]) (b := t) (by rw [k2, hd]; simp)
      have e : L.drop (d ++ [c]).length = t ++ L.drop 64 := by
        have e1 : L = (d ++ [c]) ++ (t ++ L.drop 64) := by
          conv_lhs => rw [← List.take_append_drop 64 L, hd]
          simp
        conv_lhs => rw [e1]
        rw [List.drop_left]
      rwa [e] at this
    · rename_i hc
      rw [hread, if_pos (by simpa using hc)]

/-- `read` takes one field, provided it is shorter than the buffer. -/
theorem readBy_field {single : List Char → Option (F × List Char)} {sep : Char} (hok : SingleOk single sep)
    (eager dbg : Bool) {rd : Reader} {is : IStream} {L tail : List Char}
    (h : OnLine rd is L tail) {f rest : List Char} (hL : L = f ++ rest) (hf : sep ∉ f)
    (hrest : rest = [] ∨ ∃ L', rest = sep :: L') (hlen : f.length ≤ 63) :
    match numberOfBy single f with
    | some v => ∃ rd' is', readBy single eager dbg sep rd is = .ok (v, rd', is') ∧
        OnLine rd' is' (rest.drop 1) tail
    | none => readBy single eager dbg sep rd is = throwCsv := by
  have hread := readBy_line single eager dbg sep
    (fun s v t hs => (hok.consumes _ _ _ hs).imp (fun d hd => hd.2)) h
  have hmem : ∀ v t, single f = some (v, t) → sep ∉ t := by
    intro v t ht hm
    obtain ⟨d, _, hd⟩ := hok.consumes _ _ _ ht
    exact hf (by rw [hd]; simp [hm])
  unfold numberOfBy
  rcases hrest with rfl | ⟨L', rfl⟩
  · rw [List.append_nil] at hL
    subst hL
    rw [List.take_of_length_le (by omega)] at hread
    cases hr : single L with
    | none => rw [hr] at hread; exact hread
    | some p =>
      obtain ⟨v, t⟩ := p
      rw [hr] at hread
      cases t with
      | nil =>
        simp only at hread ⊢
        rwa [List.drop_of_length_le (by omega : L.length ≤ 64)] at hread
      | cons c t =>
        simp only at hread ⊢
        have : c ≠ sep := fun e => hmem v (c :: t) hr (by simp [e])
        rwa [if_neg this] at hread
  · have htake : L.take 64 = f ++ sep :: L'.take (63 - f.length) := by
      rw [hL, List.take_append, List.take_of_length_le (by omega)]
      have : 64 - f.length = (63 - f.length) + 1 := by omega
      rw [this, List.take_succ_cons]
    have hdrop : L.drop 64 = L'.drop (63 - f.length) := by
      rw [hL, List.drop_append, List.drop_of_length_le (by omega), List.nil_append]
      have : 64 - f.length = (63 - f.length) + 1 := by omega
      rw [this, List.drop_succ_cons]
    rw [htake, hok.stops _ _ hf, hdrop] at hread
    cases hr : single f with
    | none => rw [hr] at hread; exact hread
    | some p =>
      obtain ⟨v, t⟩ := p
      rw [hr] at hread
      cases t with
      | nil =>
        simp only [Option.map_some, List.nil_append, if_true] at hread ⊢
        rw [List.take_append_drop] at hread
        simpa using hread
      | cons c t =>
        simp only [Option.map_some, List.cons_append] at hread ⊢
        have : c ≠ sep := fun e => hmem v (c :: t) hr (by simp [e])
        rwa [if_neg this] at hread

theorem numberOfBy_nil {single : List Char → Option (F × List Char)} {sep : Char} (hok : SingleOk single sep) : numberOfBy single [] = none := by
  unfold numberOfBy
  cases hr : single [] with
  | none => rfl
  | some p =>
    obtain ⟨d, hd, hs⟩ := hok.consumes _ p.1 p.2 hr
    exact absurd (List.append_eq_nil_iff.1 hs.symm).1 hd

theorem rowSpecBy_succ (single : List Char → Option (F × List Char)) (sep : Char) (n : Nat) {L f L' : List Char}
    (h : rowFields sep L = f :: rowFields sep L') :
    rowSpecBy single sep (n + 1) L = (numberOfBy single f).bind (fun v =>
      (rowSpecBy single sep n L').map (fun vs => v :: vs)) := by
  unfold rowSpecBy
  rw [h]
  simp only [List.length_cons, Nat.add_right_cancel_iff]
  split
  · rw [List.mapM_cons]
    cases numberOfBy single f with
    | none => rfl
    | some v =>
      cases List.mapM (numberOfBy single) (rowFields sep L') <;> rfl
  · cases numberOfBy single f <;> rfl

/-- Reading the fields of a line and going to the next line. -/
theorem readNBy_line {single : List Char → Option (F × List Char)} {sep : Char} (hok : SingleOk single sep)
    (eager dbg : Bool) (n : Nat) {rd : Reader} {is : IStream} {L tail : List Char}
    (h : OnLine rd is L tail) (hlen : ∀ f ∈ rowFields sep L, f.length ≤ 63) :
    match rowSpecBy single sep n L with
    | some vs => ∃ rd' is' is'', readNBy single eager dbg sep n rd is = .ok (vs, rd', is') ∧
        nextLine rd' is' = .ok is'' ∧ AfterLine tail is'' ∧ rd'.buf = []
    | none => (readNBy single eager dbg sep n rd is >>= fun p => nextLine p.2.1 p.2.2 >>= fun is =>
        Except.ok (p.1, p.2.1, is)) = throwCsv := by
  induction n generalizing rd is L with
  | zero =>
    by_cases hL : L = []
    · subst hL
      have hs : rowSpecBy single sep 0 [] = some [] := by simp [rowSpecBy, rowFields_nil]
      rw [hs]
      obtain ⟨is', h1, h2, h3⟩ := nextLine_ok h
      exact ⟨rd, is, is', rfl, h1, h3, h2⟩
    · have hne : (rowFields sep L).length ≠ 0 := by
        rcases first_field sep L with h1 | ⟨f, L', h1, h2⟩
        · rw [rowFields_single h1 hL]; simp
        · rw [h1, rowFields_cons h2]; simp
      have hs : rowSpecBy single sep 0 L = none := by simp only [rowSpecBy]; rw [if_neg hne]
      rw [hs]
      simp only [readNBy, res_ok_bind]
      rw [nextLine_throws h hL]
      rfl
  | succ n ih =>
    have hstep : ∃ f rest, L = f ++ rest ∧ sep ∉ f ∧ (rest = [] ∨ ∃ L', rest = sep :: L') ∧
        (L ≠ [] → rowFields sep L = f :: rowFields sep (rest.drop 1)) := by
      rcases first_field sep L with h1 | ⟨f, L', h1, h2⟩
      · exact ⟨L, [], by simp, h1, .inl rfl, fun hne => by
          rw [rowFields_single h1 hne]; simp [rowFields_nil]⟩
      · exact ⟨f, sep :: L', h1, h2, .inr ⟨L', rfl⟩, fun _ => by
          rw [h1, rowFields_cons h2]; simp⟩
    obtain ⟨f, rest, h1, h2, h3, h4⟩ := hstep
    by_cases hL : L = []
    · subst hL
      have hf : f = [] ∧ rest = [] := List.append_eq_nil_iff.1 h1.symm
      obtain ⟨rfl, rfl⟩ := hf
      have hs : rowSpecBy single sep (n + 1) [] = none := by simp [rowSpecBy, rowFields_nil]
      rw [hs]
      have := readBy_field hok eager dbg h h1 h2 h3 (by simp)
      rw [numberOfBy_nil hok] at this
      simp only at this ⊢
      rw [readNBy, this]
      rfl
    · have hrf := h4 hL
      have hfl : f.length ≤ 63 := hlen f (by rw [hrf]; simp)
      have hr := readBy_field hok eager dbg h h1 h2 h3 hfl
      rw [rowSpecBy_succ single sep n hrf]
      cases hv : numberOfBy single f with
      | none =>
        rw [hv] at hr
        simp only [Option.bind_none] at hr ⊢
        rw [readNBy, hr]
        rfl
      | some v =>
        rw [hv] at hr
        obtain ⟨rd', is', k1, k2⟩ := hr
        have hih := ih k2 (fun g hg => hlen g (by rw [hrf]; exact List.mem_cons_of_mem _ hg))
        simp only [Option.bind_some]
        cases hvs : rowSpecBy single sep n (rest.drop 1) with
        | none =>
          rw [hvs] at hih
          simp only [Option.map_none] at hih ⊢
          rw [readNBy, k1]
          simp only [res_ok_bind]
          cases hN : readNBy single eager dbg sep n rd' is' with
          | error e =>
            rw [hN] at hih
            exact hih
          | ok p =>
            rw [hN] at hih
            simp only [res_ok_bind] at hih ⊢
            cases hnl : nextLine p.2.1 p.2.2 with
            | error e => rw [hnl] at hih; exact hih
            | ok q => rw [hnl] at hih; cases hih
        | some vs =>
          rw [hvs] at hih
          simp only [Option.map_some] at hih ⊢
          obtain ⟨rd2, is2, is3, l1, l2, l3, l4⟩ := hih
          refine ⟨rd2, is2, is3, ?_, l2, l3, l4⟩
          rw [readNBy, k1]
          simp only [res_ok_bind]
          rw [l1]
          rfl

/-- Reading a row of `n` numbers, after any number of comment lines: if the line has
exactly `n` fields (a trailing separator is allowed) and each denotes a number, exactly these numbers
are returned, in order, and the stream is left at the start of the next line; in every other case
`csv_read_error` is thrown. Fields may be up to 63 characters long; lines and comments have any
length, and the stream may end after the line or go on with anything. -/
theorem csvReadRowBy_exact (single : List Char → Option (F × List Char)) (sep : Char) (hok : SingleOk single sep)
    (eager dbg : Bool) (n : Nat) (comments : List (List Char)) (hc : ∀ c ∈ comments, '\n' ∉ c)
    (line tail : List Char) (hne : line ≠ []) (hnl : '\n' ∉ line) (hh : line.head? ≠ some '#')
    (ht : LineEnd tail) (hlen : ∀ f ∈ rowFields sep line, f.length ≤ 63) :
    match rowSpecBy single sep n line with
    | some vs => ∃ is', csvReadRowBy single eager dbg sep n { rest := commentText comments ++ line ++ tail }
        = .ok (vs, is') ∧ AfterLine tail is'
    | none => csvReadRowBy single eager dbg sep n { rest := commentText comments ++ line ++ tail }
        = .error (.throw .csvReadError) := by
  obtain ⟨rd, is, h1, h2⟩ := skipComments_ok eager dbg comments hc hne hnl hh ht (rd := {}) rfl
  have h3 := readNBy_line hok eager dbg n h2 hlen
  have hrow : csvReadRowBy single eager dbg sep n { rest := commentText comments ++ line ++ tail } =
      (readNBy single eager dbg sep n rd is >>= fun p => nextLine p.2.1 p.2.2 >>= fun is =>
        Except.ok (p.1, p.2.1, is)) >>= fun q => .ok (q.1, q.2.2) := by
    unfold csvReadRowBy readRowWithBy
    rw [h1]
    rfl
  cases hs : rowSpecBy single sep n line with
  | none =>
    rw [hs] at h3
    simp only at h3 ⊢
    rw [hrow, h3]
    rfl
  | some vs =>
    rw [hs] at h3
    obtain ⟨rd', is', is'', k1, k2, k3, _⟩ := h3
    refine ⟨is'', ?_, k3⟩
    rw [hrow, k1]
    simp only [res_ok_bind]
    rw [k2]
    rfl

theorem readAllBy_line {single : List Char → Option (F × List Char)} {sep : Char} (hok : SingleOk single sep)
    (eager dbg : Bool) (fuel : Nat) {rd : Reader} {is : IStream} {L tail : List Char}
    (h : OnLine rd is L tail) (hlen : ∀ f ∈ rowFields sep L, f.length ≤ 63)
    (hfuel : L.length < fuel) :
    match (rowFields sep L).mapM (numberOfBy single) with
    | some vs => ∃ rd' is', readAllBy single eager dbg sep fuel rd is = .ok (vs, rd', is') ∧
        OnLine rd' is' [] tail
    | none => readAllBy single eager dbg sep fuel rd is = throwCsv := by
  induction fuel generalizing rd is L with
  | zero => omega
  | succ fuel ih =>
    rw [readAllBy]
    obtain ⟨is', d1, d2, _⟩ := done_ok h
    rw [d1]
    by_cases hL : L = []
    · subst hL
      rw [rowFields_nil]
      exact ⟨rd, is', rfl, d2⟩
    · have hemp : L.isEmpty = false := by cases L <;> simp_all
      rw [hemp]
      simp only [Bool.false_eq_true, if_false]
      have hstep : ∃ f rest, L = f ++ rest ∧ sep ∉ f ∧ (rest = [] ∨ ∃ L', rest = sep :: L') ∧
          rowFields sep L = f :: rowFields sep (rest.drop 1) ∧ (rest.drop 1).length < L.length := by
        rcases first_field sep L with h1 | ⟨f, L', h1, h2⟩
        · refine ⟨L, [], by simp, h1, .inl rfl, by rw [rowFields_single h1 hL]; simp [rowFields_nil],
            ?_⟩
          cases L with
          | nil => exact absurd rfl hL
          | cons a L => simp
        · refine ⟨f, sep :: L', h1, h2, .inr ⟨L', rfl⟩, by rw [h1, rowFields_cons h2]; simp, ?_⟩
          rw [h1]; simp; omega
      obtain ⟨f, rest, h1, h2, h3, hrf, hsh⟩ := hstep
      have hr := readBy_field hok eager dbg d2 h1 h2 h3 (hlen f (by rw [hrf]; simp))
      rw [hrf, List.mapM_cons]
      cases hv : numberOfBy single f with
      | none =>
        rw [hv] at hr
        simp only at hr
        rw [hr]
        rfl
      | some v =>
        rw [hv] at hr
        obtain ⟨rd2, is2, k1, k2⟩ := hr
        rw [k1]
        simp only [res_ok_bind]
        have hih := ih k2 (fun g hg => hlen g (by rw [hrf]; exact List.mem_cons_of_mem _ hg)) (by omega)
        cases hvs : (rowFields sep (rest.drop 1)).mapM (numberOfBy single) with
        | none =>
          rw [hvs] at hih
          simp only at hih
          rw [hih]
          rfl
        | some vs =>
          rw [hvs] at hih
          obtain ⟨rd3, is3, l1, l2⟩ := hih
          rw [l1]
          exact ⟨rd3, is3, rfl, l2⟩

/-- `csv_read_row_std_vector` returns the numbers of all fields of the row, however many there
are, and throws `csv_read_error` if one of them is not a number. -/
theorem csvReadRowVectorBy_exact (single : List Char → Option (F × List Char)) (sep : Char) (hok : SingleOk single sep)
    (eager dbg : Bool) (comments : List (List Char)) (hc : ∀ c ∈ comments, '\n' ∉ c)
    (line tail : List Char) (hne : line ≠ []) (hnl : '\n' ∉ line) (hh : line.head? ≠ some '#')
    (ht : LineEnd tail) (hlen : ∀ f ∈ rowFields sep line, f.length ≤ 63) :
    match (rowFields sep line).mapM (numberOfBy single) with
    | some vs => ∃ is', csvReadRowVectorBy single eager dbg sep
        { rest := commentText comments ++ line ++ tail } = .ok (vs, is') ∧ AfterLine tail is'
    | none => csvReadRowVectorBy single eager dbg sep { rest := commentText comments ++ line ++ tail }
        = .error (.throw .csvReadError) := by
  obtain ⟨rd, is, h1, h2⟩ := skipComments_ok eager dbg comments hc hne hnl hh ht (rd := {}) rfl
  have hfuel : line.length < rd.buf.length + is.rest.length + 1 := by
    obtain ⟨⟨U, e1, e2, _⟩, _⟩ := h2
    rw [e1, e2, List.length_append, List.length_append]; omega
  have h3 := readAllBy_line hok eager dbg _ h2 hlen hfuel
  unfold csvReadRowVectorBy
  rw [h1]
  simp only [res_ok_bind]
  cases hs : (rowFields sep line).mapM (numberOfBy single) with
  | none =>
    rw [hs] at h3
    simp only at h3 ⊢
    rw [h3]
    rfl
  | some vs =>
    rw [hs] at h3
    obtain ⟨rd', is', k1, k2⟩ := h3
    rw [k1]
    simp only [res_ok_bind]
    obtain ⟨is'', l1, _, l3⟩ := nextLine_ok k2
    rw [l1]
    exact ⟨is'', rfl, l3⟩

theorem readRowBy_state {single : List Char → Option (F × List Char)} {sep : Char} (hok : SingleOk single sep)
    (eager dbg : Bool) (n : Nat) (r : RowText) (hr : r.Ok sep) (more : List Char) {rd : Reader}
    (hb : rd.buf = []) :
    match rowSpecBy single sep n r.line with
    | some vs => ∃ rd', readRowWithBy single eager dbg sep n rd
        { rest := commentText r.comments ++ r.line ++ '\n' :: more } =
        .ok (vs, rd', { rest := more }) ∧ rd'.buf = []
    | none => readRowWithBy single eager dbg sep n rd
        { rest := commentText r.comments ++ r.line ++ '\n' :: more } = throwCsv := by
  obtain ⟨hc, hnl, hh, hlen, hemp⟩ := hr
  by_cases hL : r.line = []
  · rw [hL, hemp hL]
    obtain ⟨b, k⟩ := rd
    simp only at hb
    subst hb
    have hsk : skipComments eager dbg { buf := [], keep := k } { rest := '\n' :: more } =
        .ok ({ buf := [], keep := k }, { rest := '\n' :: more }) := by
      cases dbg <;> rfl
    cases n with
    | zero =>
      have : rowSpecBy single sep 0 [] = some [] := by simp [rowSpecBy, rowFields_nil]
      rw [this]
      refine ⟨{ buf := [], keep := k }, ?_, rfl⟩
      simp only [commentText, List.flatMap_nil, List.nil_append]
      rw [readRowWithBy, hsk]
      rfl
    | succ n =>
      have : rowSpecBy single sep (n + 1) [] = none := by simp [rowSpecBy, rowFields_nil]
      rw [this]
      simp only [commentText, List.flatMap_nil, List.nil_append]
      rw [readRowWithBy, hsk]
      simp only [res_ok_bind, readNBy]
      have hread : readBy single eager dbg sep { buf := [], keep := k } { rest := '\n' :: more } =
          throwCsv := by
        cases k with
        | true => cases dbg <;> cases eager <;> rfl
        | false =>
          have hn : single [] = none := by
            cases hx : single [] with
            | none => rfl
            | some p =>
              obtain ⟨d, hd, hs⟩ := hok.consumes _ p.1 p.2 hx
              exact absurd (List.append_eq_nil_iff.1 hs.symm).1 hd
          simp only [readBy, fill, Bool.false_eq_true, if_false, res_ok_bind, hn]
      rw [hread]
      rfl
  · obtain ⟨rd1, is1, h1, h2⟩ := skipComments_ok eager dbg r.comments hc hL hnl hh
      (.inr ⟨more, rfl⟩) hb
    have h3 := readNBy_line hok eager dbg n h2 hlen
    have hrow : readRowWithBy single eager dbg sep n rd
        { rest := commentText r.comments ++ r.line ++ '\n' :: more } =
        (readNBy single eager dbg sep n rd1 is1 >>= fun p => nextLine p.2.1 p.2.2 >>= fun is =>
          Except.ok (p.1, p.2.1, is)) := by
      unfold readRowWithBy
      rw [h1]
      rfl
    cases hs : rowSpecBy single sep n r.line with
    | none =>
      rw [hs] at h3
      simp only at h3 ⊢
      rw [hrow, h3]
    | some vs =>
      rw [hs] at h3
      obtain ⟨rd', is', is'', k1, k2, k3, k4⟩ := h3
      refine ⟨rd', ?_, k4⟩
      rw [hrow, k1]
      simp only [res_ok_bind]
      rw [k2]
      rcases k3 with ⟨k3, _⟩ | ⟨m, k3, k5⟩
      · cases k3
      · cases k3; rw [k5]; rfl

/-- `csv_read` into a matrix: if every row of the text has exactly `cols` fields and each
denotes a number, the matrix holds exactly these numbers and the stream is left after the last row
readBy; otherwise `csv_read_error` is thrown. -/
theorem csvReadBy_exact (single : List Char → Option (F × List Char)) (sep : Char) (hok : SingleOk single sep)
    (eager dbg : Bool) (cols : Nat) (rows : List RowText) (hrows : ∀ r ∈ rows, r.Ok sep)
    (more : List Char) :
    match rows.mapM (fun r => rowSpecBy single sep cols r.line) with
    | some M => csvReadBy single eager dbg sep rows.length cols { rest := fileText rows ++ more } =
        .ok (M, { rest := more })
    | none => csvReadBy single eager dbg sep rows.length cols { rest := fileText rows ++ more } =
        .error (.throw .csvReadError) := by
  have key : ∀ (rows : List RowText), (∀ r ∈ rows, r.Ok sep) → ∀ rd : Reader, rd.buf = [] →
      match rows.mapM (fun r => rowSpecBy single sep cols r.line) with
      | some M => readRowsBy single eager dbg sep cols rows.length rd { rest := fileText rows ++ more } =
          .ok (M, { rest := more })
      | none => readRowsBy single eager dbg sep cols rows.length rd { rest := fileText rows ++ more } =
          throwCsv := by
    intro rows
    induction rows with
    | nil => intro _ rd _; rfl
    | cons r rows ih =>
      intro hr rd hb
      have htext : fileText (r :: rows) ++ more =
          commentText r.comments ++ r.line ++ '\n' :: (fileText rows ++ more) := by
        simp [fileText]
      rw [htext, List.mapM_cons]
      have h1 := readRowBy_state hok eager dbg cols r (hr r (by simp)) (fileText rows ++ more) hb
      simp only [List.length_cons, readRowsBy]
      cases hs : rowSpecBy single sep cols r.line with
      | none =>
        rw [hs] at h1
        simp only at h1
        rw [h1]
        rfl
      | some vs =>
        rw [hs] at h1
        obtain ⟨rd', k1, k2⟩ := h1
        rw [k1]
        simp only [res_ok_bind]
        have hih := ih (fun q hq => hr q (by simp [hq])) rd' k2
        cases hm : rows.mapM (fun r => rowSpecBy single sep cols r.line) with
        | none =>
          rw [hm] at hih
          simp only at hih
          rw [hih]
          rfl
        | some M =>
          rw [hm] at hih
          simp only at hih
          rw [hih]
          rfl
  exact key rows hrows {} rfl

end Guanaqo.Csv
