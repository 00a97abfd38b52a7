import Verif.Csv.FaultsProps

/-!
# Input errors: single rows, and rows of unknown length (C118, C119)
-/

namespace Guanaqo.Csv

variable {F : Type}

/-- `read_single` consumes something (`readSingle_ok`, `strtolSingle_ok` and `strtodSingle_ok` show it for the two configurations). -/
def Consumes (single : Parser F) : Prop := ∀ s v t, single s = some (v, t) → ∃ d, d ≠ [] ∧ s = d ++ t

theorem Consumes.shrinks {single : Parser F} (hc : Consumes single) {buf t : List Char} {v : F} (h : single buf = some (v, t)) :
    t.length < buf.length := by
  obtain ⟨d, hd, e⟩ := hc _ _ _ h
  have := List.length_pos_iff.2 hd
  have e' := congrArg List.length e
  rw [List.length_append] at e'
  omega

/-- csv.tpp:84-96, the configuration with `std::from_chars`: `read_single` consumes something if `std::from_chars` does. -/
theorem Consumes.std {fc : Parser F} (hc : Consumes fc) : Consumes (readSingle fc) := by
  intro s v t h
  unfold readSingle at h
  split at h
  · next r =>
    obtain ⟨d, hd, e⟩ := hc _ _ _ h
    exact ⟨'+' :: d, by simp, by rw [e]; rfl⟩
  · exact hc _ _ _ h

theorem parseF_shrinks {single : Parser F} (hc : Consumes single) {sep : Char} {rd rd' : Reader} {s s' : FStream} {v : F}
    (h : parseF single sep rd s = .ok (v, rd', s')) : rd'.buf.length < rd.buf.length ∧ rd'.keep = rd.keep ∧ s' = s := by
  unfold parseF at h
  cases hr : single rd.buf with
  | none => rw [hr] at h; cases h
  | some p =>
    obtain ⟨w, t⟩ := p
    have hlt := hc.shrinks hr
    rw [hr] at h
    cases t with
    | nil => cases h; exact ⟨hlt, rfl, rfl⟩
    | cons c tail =>
      dsimp only at h
      split at h
      · cases h
      · cases h
        rw [List.length_cons] at hlt
        dsimp only
        exact ⟨by omega, rfl, rfl⟩

theorem parseF_error {single : Parser F} {sep : Char} {rd : Reader} {s : FStream} {e : Fault} (h : parseF single sep rd s = .error e) : e = csvErr := by
  rcases parseF_cases single sep rd.buf with h1 | ⟨v, b, h1⟩
  · rw [show parseF single sep rd s = _ from h1 rd.keep s] at h; cases h; rfl
  · rw [show parseF single sep rd s = _ from h1 rd.keep s] at h; cases h

theorem getBuf_measure (eager : Bool) (s : FStream) (n : Nat) :
    (s.getBuf eager n).1.length + (s.getBuf eager n).2.is.rest.length ≤ s.is.rest.length := by
  have htw : ∀ k, ((s.is.rest.takeWhile (· != '\n')).take k).length ≤ s.is.rest.length := fun k =>
    Nat.le_trans (List.length_take_le' _ _) (List.takeWhile_sublist _).length_le
  unfold FStream.getBuf
  by_cases hg : s.is.good = true
  · simp only [hg, if_true]
    cases hn : s.next with
    | none =>
      simp only [FStream.went, IStream.getBuf, hg, if_true, List.length_drop]
      have := htw n
      omega
    | some k =>
      simp only [FStream.broke, List.length_drop, List.take_take]
      have := htw (min k n)
      omega
  · simp [hg, IStream.getBuf]

theorem readChunkF_measure {eager dbg : Bool} {rd rd' : Reader} {s s' : FStream}
    (h : readChunkF eager dbg rd s = .ok (rd', s')) : rd'.buf.length + s'.is.rest.length ≤ rd.buf.length + s.is.rest.length := by
  unfold readChunkF at h
  split at h
  · cases h
  · split at h
    · cases h; exact Nat.le_refl _
    · dsimp only at h
      split at h
      · cases h
      · split at h
        · cases h
        · cases h
          have := getBuf_measure eager s (bufmaxsize - rd.buf.length)
          rw [peek_rest, List.length_append]
          omega

theorem readF_measure {single : Parser F} (hc : Consumes single) {eager dbg : Bool} {sep : Char} {rd rd' : Reader} {s s' : FStream} {v : F}
    (h : readF single eager dbg sep rd s = .ok (v, rd', s')) : rd'.buf.length + s'.is.rest.length < rd.buf.length + s.is.rest.length := by
  rw [readF_eq] at h
  obtain ⟨⟨rd1, s1⟩, h1, h2⟩ := res_bind_ok.1 h
  obtain ⟨g1, -, rfl⟩ := parseF_shrinks hc h2
  have : rd1.buf.length + s'.is.rest.length ≤ rd.buf.length + s.is.rest.length := by
    unfold fillF at h1
    split at h1
    · exact readChunkF_measure h1
    · cases h1; exact Nat.le_refl _
  dsimp only at g1
  omega

theorem doneF_broken (rd : Reader) {s : FStream} (h : Broken s) : (doneF rd s).1 = false ∧ Broken (doneF rd s).2 := by
  unfold doneF
  obtain ⟨h1, h2⟩ := h.peek
  refine ⟨?_, h1⟩
  simp [h2, h1.eof]

/-- With a broken stream the loop throws. -/
theorem readAllF_broken {single : Parser F} (hc : Consumes single) (eager dbg : Bool) (sep : Char) : ∀ (n : Nat) (rd : Reader) (s : FStream),
    Broken s → rd.buf.length < n → readAllF single eager dbg sep n rd s = .error csvErr
  | 0, _, _, _, hn => absurd hn (by omega)
  | n + 1, rd, s, h, hn => by
    simp only [readAllF]
    obtain ⟨h1, h2⟩ := doneF_broken rd h
    rw [if_neg (by rw [h1]; decide)]
    by_cases hk : rd.keep = true
    · rw [readF_broken single eager dbg sep h2 hk]; rfl
    · rw [readF_eq, fillF, if_neg hk]
      simp only [res_ok_bind]
      cases hp : parseF single sep rd (doneF rd s).2 with
      | error e => rw [parseF_error hp]; rfl
      | ok p =>
        obtain ⟨v, rd1, s1⟩ := p
        obtain ⟨g1, -, g3⟩ := parseF_shrinks hc hp
        simp only [res_ok_bind]
        rw [readAllF_broken hc eager dbg sep n rd1 s1 (by rw [g3]; exact h2) (by omega)]
        rfl

/-- The same values, or an exception. -/
def SimA (x y : Res (List F × Reader × FStream)) : Prop :=
  match x with
  | .ok (vs, rd, s) => s.hit = false ∧ y = .ok (vs, rd, s.calm)
  | .error e => e = csvErr

theorem readAllF_sim {single : Parser F} (hc : Consumes single) (eager dbg : Bool) (sep : Char) : ∀ (n : Nat) (rd : Reader) (s : FStream),
    s.hit = false → rd.buf.length + s.is.rest.length < n → SimA (readAllF single eager dbg sep n rd s) (readAllF single eager dbg sep n rd s.calm)
  | 0, _, _, _, hn => absurd hn (by omega)
  | n + 1, rd, s, h, hn => by
    rcases peek_sim h with ⟨k1, k2⟩ | ⟨k1, k2⟩
    · have hd : doneF rd s.calm = ((doneF rd s).1, (doneF rd s).2.calm) := by
        unfold doneF; rw [k2]; rfl
      have hh : (doneF rd s).2.hit = false := k1
      have hrest : (doneF rd s).2.is.rest = s.is.rest := peek_rest s
      simp only [readAllF, hd]
      generalize (doneF rd s).2 = s1 at hh hrest ⊢
      cases hdd : (doneF rd s).1 with
      | true => exact ⟨hh, rfl⟩
      | false =>
        simp only [Bool.false_eq_true, if_false]
        have hs := readF_sim single eager dbg sep rd hh
        cases hr : readF single eager dbg sep rd s1 with
        | error e => rw [hr] at hs; exact hs
        | ok p =>
          obtain ⟨v, rd2, s2⟩ := p
          have hm := readF_measure hc hr
          rw [hrest] at hm
          rw [hr] at hs
          rcases hs with ⟨g1, g2⟩ | ⟨g1, g2, -⟩
          · rw [g2]
            simp only [res_ok_bind]
            have ih := readAllF_sim hc eager dbg sep n rd2 s2 g1 (by omega)
            cases hr2 : readAllF single eager dbg sep n rd2 s2 with
            | error e => rw [hr2] at ih; exact ih
            | ok p2 =>
              obtain ⟨vs, rd3, s3⟩ := p2
              rw [hr2] at ih
              rw [ih.2]
              exact ⟨ih.1, rfl⟩
          · simp only [res_ok_bind]
            rw [readAllF_broken hc eager dbg sep n rd2 s2 g1 (by omega)]
            rfl
    · have hd : (doneF rd s).1 = false := by
        unfold doneF; simp [k2, k1.eof]
      have hb : Broken (doneF rd s).2 := k1
      simp only [readAllF, hd, Bool.false_eq_true, if_false]
      by_cases hk : rd.keep = true
      · rw [readF_broken single eager dbg sep hb hk]; rfl
      · rw [readF_eq, fillF, if_neg hk]
        simp only [res_ok_bind]
        cases hp : parseF single sep rd (doneF rd s).2 with
        | error e => exact parseF_error hp
        | ok p =>
          obtain ⟨v, rd1, s1⟩ := p
          obtain ⟨g1, -, g3⟩ := parseF_shrinks hc hp
          simp only [res_ok_bind]
          rw [readAllF_broken hc eager dbg sep n rd1 s1 (by rw [g3]; exact hb) (by omega)]
          rfl

theorem readAllF_lift (single : Parser F) (eager dbg : Bool) (sep : Char) : ∀ (n : Nat) (rd : Reader) (is : IStream),
    readAllF single eager dbg sep n rd (lift is) = readAllBy single eager dbg sep n rd is >>= fun p => .ok (p.1, p.2.1, lift p.2.2)
  | 0, _, _ => rfl
  | n + 1, rd, is => by
    have hd : doneF rd (lift is) = ((done rd is).1, lift (done rd is).2) := by
      unfold doneF done; rw [peek_lift]; rfl
    simp only [readAllF, readAllBy, hd]
    by_cases h : (done rd is).1 = true
    · rw [if_pos h, if_pos h]; rfl
    · rw [if_neg h, if_neg h, readF_lift]
      cases hr : readBy single eager dbg sep rd (done rd is).2 with
      | error e => rfl
      | ok p =>
        simp only [res_ok_bind]
        rw [readAllF_lift single eager dbg sep n]
        cases hr2 : readAllBy single eager dbg sep n p.2.1 p.2.2 with
        | error e => rfl
        | ok p2 => rfl

/-- C119. `csv_read_row_std_vector`: if it returns, no error has occurred, and the vector and the stream are those of C40; otherwise it throws
`csv_read_error`. -/
theorem csv_vector_faults {single : Parser F} (hc : Consumes single) (eager dbg : Bool) (sep : Char) (s : FStream) (hs : s.hit = false) :
    (∃ vs s', csvReadRowVectorF single eager dbg sep s = .ok (vs, s') ∧ s'.hit = false ∧ csvReadRowVectorBy single eager dbg sep s.is = .ok (vs, s'.is)) ∨
    csvReadRowVectorF single eager dbg sep s = .error csvErr := by
  unfold csvReadRowVectorF csvReadRowVectorBy
  have h1 := skipCommentsF_sim eager dbg (rd := {}) hs rfl
  have l1 := skipCommentsF_lift eager dbg {} s.is
  rw [← calm_eq] at l1
  cases hr : skipCommentsF eager dbg {} s with
  | error e => rw [hr] at h1; right; rw [h1]; rfl
  | ok p =>
    obtain ⟨rd1, s1⟩ := p
    rw [hr] at h1
    simp only [res_ok_bind]
    rcases h1 with ⟨g1, g2⟩ | ⟨g1, -⟩
    · rw [g2] at l1
      have q1 : skipComments eager dbg {} s.is = .ok (rd1, s1.is) := by
        obtain ⟨⟨rd1', is1⟩, q1, q2⟩ := res_bind_ok.1 l1.symm
        rw [q1]; cases q2; rfl
      rw [q1]
      simp only [res_ok_bind]
      have h2 := readAllF_sim hc eager dbg sep (rd1.buf.length + s1.is.rest.length + 1) rd1 s1 g1 (by omega)
      have l2 := readAllF_lift single eager dbg sep (rd1.buf.length + s1.is.rest.length + 1) rd1 s1.is
      rw [← calm_eq] at l2
      cases hr2 : readAllF single eager dbg sep (rd1.buf.length + s1.is.rest.length + 1) rd1 s1 with
      | error e => rw [hr2] at h2; right; rw [h2]; rfl
      | ok p2 =>
        obtain ⟨vs, rd2, s2⟩ := p2
        rw [hr2] at h2
        obtain ⟨i1, i2⟩ := h2
        rw [i2] at l2
        have q1 : readAllBy single eager dbg sep (rd1.buf.length + s1.is.rest.length + 1) rd1 s1.is = .ok (vs, rd2, s2.is) := by
          obtain ⟨⟨ws, rd2', is2⟩, q1, q2⟩ := res_bind_ok.1 l2.symm
          rw [q1]; cases q2; rfl
        rw [q1]
        simp only [res_ok_bind]
        have h3 := nextLineF_sim rd2 i1
        have l3 := nextLineF_lift rd2 s2.is
        rw [← calm_eq] at l3
        cases hr3 : nextLineF rd2 s2 with
        | error e => rw [hr3] at h3; right; rw [h3]; rfl
        | ok s3 =>
          rw [hr3] at h3
          left
          rw [h3.2] at l3
          have q1 : nextLine rd2 s2.is = .ok s3.is := by
            obtain ⟨is3, q1, q2⟩ := res_bind_ok.1 l3.symm
            rw [q1]; cases q2; rfl
          rw [q1]
          exact ⟨vs, s3, rfl, h3.1, rfl⟩
    · right
      rw [readAllF_broken hc eager dbg sep _ rd1 s1 g1 (by omega)]
      rfl

/-- C118, C119. `csv_read_row` into `n` elements at `data`: it assigns the first of them, and nothing else. If it returns, all have been
assigned, with the values of C40, and no error has occurred; otherwise it throws `csv_read_error`, and what it has assigned is the beginning of
what it would have assigned without errors. -/
theorem csv_row_stores (single : Parser F) (eager dbg : Bool) (sep : Char) (data : Int) (n : Nat) (s : FStream) (hs : s.hit = false) (m : Mem F)
    (hb : ∀ k < n, ∃ x, m (data + (k : Nat)) = some x) :
    ∃ vals m' res, csvReadRowInto single eager dbg sep data n s m = (m', res) ∧ vals.length ≤ n ∧
      (∀ (k : Nat) (h : k < vals.length), m' (data + k) = some vals[k]) ∧ (∀ a, (∀ k < vals.length, a ≠ data + (k : Nat)) → m' a = m a) ∧
      ((∃ s', res = .ok s' ∧ s'.hit = false ∧ csvReadRowBy single eager dbg sep n s.is = .ok (vals, s'.is)) ∨
       (res = .error csvErr ∧ ∃ vals0, vals <+: vals0 ∧
        ∀ (k : Nat) (h : k < vals0.length), (csvReadRowInto single eager dbg sep data n (lift s.is) m).1 (data + k) = some vals0[k])) := by
  have hp : Places (fun k => data + (k : Nat)) n m := ⟨fun i _ j _ e => by omega, hb⟩
  have key : ∀ s : FStream, (csvReadRowInto single eager dbg sep data n s m).1 = (rowInto single eager dbg sep (fun i => .ok (data + (i : Nat))) n {} s m).1 ∧
      (csvReadRowInto single eager dbg sep data n s m).2 = (rowF single eager dbg sep n {} s).2 >>= fun p => .ok p.2 := by
    intro s
    obtain ⟨h1, -⟩ := rowInto_eq single eager dbg sep (addr := fun k => data + (k : Nat)) (target := fun i => .ok (data + (i : Nat))) 0 n {} s m hp (by omega)
      (fun j _ => by rw [Nat.zero_add])
    unfold csvReadRowInto
    rw [← h1]
    rcases rowInto single eager dbg sep (fun i => .ok (data + (i : Nat))) n {} s m with ⟨m', e | x⟩
    · exact ⟨rfl, rfl⟩
    · exact ⟨rfl, rfl⟩
  have assigned : ∀ s : FStream, AssignedFrom (fun k => data + (k : Nat)) 0 (rowF single eager dbg sep n {} s).1 m (csvReadRowInto single eager dbg sep data n s m).1 := by
    intro s
    rw [(key s).1]
    exact (rowInto_eq single eager dbg sep (target := fun i => .ok (data + (i : Nat))) 0 n {} s m hp (by omega)
      (fun j _ => by rw [Nat.zero_add])).2
  refine ⟨(rowF single eager dbg sep n {} s).1, (csvReadRowInto single eager dbg sep data n s m).1, (csvReadRowInto single eager dbg sep data n s m).2, rfl, (rowF_length single eager dbg sep n {} s).1, fun k h => ?_, fun a ha => ?_, ?_⟩
  · have := (assigned s).1 k h
    simpa only [Nat.zero_add] using this
  · exact (assigned s).2 a fun j hj => by rw [Nat.zero_add]; exact ha j hj
  · have hsim := rowF_sim single eager dbg sep n (rd := {}) hs rfl
    have hres := (key s).2
    unfold SimRow at hsim
    cases hr : (rowF single eager dbg sep n {} s).2 with
    | error e =>
      rw [hr] at hsim hres
      right
      refine ⟨by show (csvReadRowInto single eager dbg sep data n s m).2 = _; rw [hres, hsim.1]; rfl, _, hsim.2, fun k h => ?_⟩
      have := (assigned s.calm).1 k h
      rw [← calm_eq]
      simpa only [Nat.zero_add] using this
    | ok x =>
      obtain ⟨rd', s'⟩ := x
      rw [hr] at hsim hres
      obtain ⟨g1, g2, g3, -⟩ := hsim
      left
      obtain ⟨i1, i2⟩ := rowF_lift single eager dbg sep n {} s.is _ rd' s'.calm (Prod.ext g2.symm g3)
      refine ⟨s', hres, g1, ?_⟩
      unfold csvReadRowBy
      rw [i1]
      rfl

/-! ### Cases -/

/-- An error of the look-ahead while the line is read into the buffer: nothing has been stored yet. -/
example : csvReadRowInto (readSingle (fromCharsInt 32)) true true ',' 10 2 { is := { rest := "12,34\n5".toList }, plan := [none, some 2] } (fun _ => some 0) =
    ((fun _ => some 0), .error csvErr) := by rfl

/-- An error of the look-ahead after all characters of the line: the row is complete, but the exception is thrown. -/
example : (csvReadRowInto (readSingle (fromCharsInt 32)) true true ',' 10 1 { is := { rest := "12\n5".toList }, plan := [none, none, some 0] } (fun _ => some 0)).2 =
    .error csvErr := by rfl

example : Consumes (fun s : List Char => match s with | c :: t => some (c, t) | [] => none) := by
  intro s v t h
  cases s with
  | nil => cases h
  | cons c s => cases h; exact ⟨[_], by simp, rfl⟩

/-- A view with two rows and two columns, and a gap between the columns; the input ends after the first row. -/
example : let r := csvReadInto (readSingle (fromCharsInt 32)) true true ',' { data := 10, rows := 2, cols := 2, inner := 1, outer := 3 } (lift { rest := "1,2\n".toList }) (fun _ => some 0)
    r.1 10 = some 1 ∧ r.1 11 = some 0 ∧ r.1 12 = some 0 ∧ r.1 13 = some 2 ∧ r.2 = .error csvErr := by
  refine ⟨rfl, rfl, rfl, rfl, rfl⟩

end Guanaqo.Csv
