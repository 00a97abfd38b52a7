import Verif.Csv.Faults
import Verif.Loops

/-!
# Input errors while reading CSV: proofs (C118, C119)
-/

namespace Guanaqo.Csv

variable {F : Type}

/-- The same stream, without errors to come. -/
def FStream.calm (s : FStream) : FStream := { is := s.is, plan := [], hit := false }

/-- After an input error. -/
structure Broken (s : FStream) : Prop where
  hit : s.hit = true
  fail : s.is.fail = true
  eof : s.is.eof = false

abbrev csvErr : Fault := .throw .csvReadError

/-! ### Operations of the stream -/

theorem Broken.good {s : FStream} (h : Broken s) : s.is.good = false := by simp [IStream.good, h.fail]

theorem broke_broken {s : FStream} (h : s.is.good = true) (r : List Char) : Broken (s.broke { s.is with rest := r }) := by
  simp only [IStream.good, Bool.and_eq_true, Bool.not_eq_true'] at h
  exact ⟨rfl, rfl, h.1⟩

theorem getBuf_sim (eager : Bool) {s : FStream} (h : s.hit = false) (n : Nat) :
    ((s.getBuf eager n).2.hit = false ∧ s.calm.getBuf eager n = ((s.getBuf eager n).1, (s.getBuf eager n).2.calm)) ∨
    Broken (s.getBuf eager n).2 := by
  unfold FStream.getBuf
  simp only [FStream.calm]
  by_cases hg : s.is.good = true
  · simp only [hg, if_true]
    cases hn : s.next with
    | none => left; simp [FStream.next, FStream.went, h]
    | some k => right; exact broke_broken hg _
  · left; simp [hg, h]

theorem peek_sim {s : FStream} (h : s.hit = false) :
    (s.peek.2.hit = false ∧ s.calm.peek = (s.peek.1, s.peek.2.calm)) ∨ (Broken s.peek.2 ∧ s.peek.1 = none) := by
  unfold FStream.peek
  simp only [FStream.calm]
  by_cases hg : s.is.good = true
  · simp only [hg, if_true]
    cases hn : s.next with
    | none => left; simp [FStream.next, FStream.went, h]
    | some k => right; exact ⟨broke_broken hg _, rfl⟩
  · left; simp [hg, h]

theorem get_sim {s : FStream} (h : s.hit = false) :
    (s.get.2.hit = false ∧ s.calm.get = (s.get.1, s.get.2.calm)) ∨ (Broken s.get.2 ∧ s.get.1 = none) := by
  unfold FStream.get
  simp only [FStream.calm]
  by_cases hg : s.is.good = true
  · simp only [hg, if_true]
    cases hn : s.next with
    | none => left; simp [FStream.next, FStream.went, h]
    | some k => right; exact ⟨broke_broken hg _, rfl⟩
  · left; simp [hg, h]

/-- Further operations leave the stream broken. -/
theorem Broken.peek {s : FStream} (h : Broken s) : Broken s.peek.2 ∧ s.peek.1 = none := by
  unfold FStream.peek
  rw [if_neg (by rw [h.good]; decide)]
  simp only [IStream.peek, h.good]
  exact ⟨⟨h.hit, rfl, h.eof⟩, rfl⟩

theorem Broken.get {s : FStream} (h : Broken s) : s.get.1 = none := by
  unfold FStream.get
  rw [if_neg (by rw [h.good]; decide)]
  simp only [IStream.get, h.good]
  rfl

/-! ### The functions of the reader on a broken stream -/

theorem readChunkF_broken (eager dbg : Bool) (rd : Reader) {s : FStream} (h : Broken s) : readChunkF eager dbg rd s = .error csvErr := by
  unfold readChunkF
  rw [if_pos h.fail]; rfl

theorem nextLineF_broken (rd : Reader) {s : FStream} (h : Broken s) : nextLineF rd s = .error csvErr := by
  unfold nextLineF
  split
  · rfl
  · rw [if_neg (by rw [h.eof]; decide)]
    simp only [h.get]
    rfl

/-- The assertion on the size of the buffer does not fail (csv.tpp:64), nor is there undefined behaviour. -/
theorem readChunkF_error {eager dbg : Bool} {rd : Reader} {s : FStream} {e : Fault} (h : readChunkF eager dbg rd s = .error e) : e = csvErr := by
  unfold readChunkF at h
  by_cases h1 : s.is.fail = true
  · rw [if_pos h1] at h; cases h; rfl
  · rw [if_neg h1] at h
    by_cases h2 : rd.buf.length = bufmaxsize
    · rw [if_pos h2] at h; cases h
    · rw [if_neg h2] at h
      dsimp only at h
      by_cases h3 : (s.getBuf eager (bufmaxsize - rd.buf.length)).2.is.fail = true
      · rw [if_pos h3] at h; cases h; rfl
      · rw [if_neg h3] at h
        have hlen : (rd.buf ++ (s.getBuf eager (bufmaxsize - rd.buf.length)).1).length ≤ bufmaxsize := by
          rw [List.length_append]
          unfold FStream.getBuf at h3 ⊢
          by_cases hg : s.is.good = true
          · simp only [hg, if_true] at h3 ⊢
            cases hn : s.next with
            | none =>
              simp only [hn, FStream.went, IStream.getBuf, hg, if_true] at h3 ⊢
              have h4 : ((s.is.rest.takeWhile (· != '\n')).take (bufmaxsize - rd.buf.length)).length ≤ bufmaxsize - rd.buf.length :=
                List.length_take_le _ _
              have h5 : ((s.is.rest.takeWhile (· != '\n')).take (bufmaxsize - rd.buf.length)) ≠ [] := by
                intro h0
                rw [h0] at h3
                simp at h3
              have := List.length_pos_iff.2 h5
              omega
            | some k => simp [hn, FStream.broke] at h3
          · simp only [hg, IStream.getBuf] at h3
            exact absurd rfl h3
        rw [if_neg (by rw [decide_eq_false (by omega)]; simp)] at h
        cases h

/-! ### Simulation -/

/-- What a function does, compared with what it does without errors: the same, or the stream is broken after it, with the same text in the
buffer, and more to be read; or it throws. -/
def SimR (x y : Res (Reader × FStream)) : Prop :=
  match x with
  | .ok (rd, s) => (s.hit = false ∧ y = .ok (rd, s.calm)) ∨ (Broken s ∧ rd.keep = true ∧ ∃ rd' s', y = .ok (rd', s') ∧ rd'.buf = rd.buf)
  | .error e => e = csvErr

/-- The same without the possibility to go on with a broken stream. -/
def SimN {A : Type} (x y : Res (A × FStream)) : Prop :=
  match x with
  | .ok (a, s) => s.hit = false ∧ y = .ok (a, s.calm)
  | .error e => e = csvErr

def SimL (x y : Res FStream) : Prop :=
  match x with
  | .ok s => s.hit = false ∧ y = .ok s.calm
  | .error e => e = csvErr

theorem readChunkF_sim (eager dbg : Bool) (rd : Reader) {s : FStream} (h : s.hit = false) :
    SimR (readChunkF eager dbg rd s) (readChunkF eager dbg rd s.calm) := by
  cases hx : readChunkF eager dbg rd s with
  | error e => exact readChunkF_error hx
  | ok x =>
  rw [← hx]
  revert hx
  unfold readChunkF
  have hc : s.calm.is = s.is := rfl
  rw [hc]
  by_cases h1 : s.is.fail = true
  · rw [if_pos h1, if_pos h1]; intro hx; cases hx
  · rw [if_neg h1, if_neg h1]
    by_cases h2 : rd.buf.length = bufmaxsize
    · rw [if_pos h2, if_pos h2]; exact fun _ => .inl ⟨h, rfl⟩
    · rw [if_neg h2, if_neg h2]
      rcases getBuf_sim eager h (bufmaxsize - rd.buf.length) with ⟨g1, g2⟩ | g
      · rw [g2]
        generalize s.getBuf eager (bufmaxsize - rd.buf.length) = gs at g1 ⊢
        obtain ⟨got, s1⟩ := gs
        dsimp only at g1 ⊢
        have hc1 : s1.calm.is = s1.is := rfl
        rw [hc1]
        by_cases h3 : s1.is.fail = true
        · rw [if_pos h3, if_pos h3]; intro hx; cases hx
        · rw [if_neg h3, if_neg h3]
          by_cases h4 : (dbg && decide (bufmaxsize < (rd.buf ++ got).length)) = true
          · rw [if_pos h4, if_pos h4]; intro hx; cases hx
          · rw [if_neg h4, if_neg h4]
            rcases peek_sim g1 with ⟨k1, k2⟩ | ⟨k1, k2⟩
            · rw [k2]
              exact fun _ => .inl ⟨k1, rfl⟩
            · refine fun _ => .inr ⟨k1, ?_, _, _, rfl, rfl⟩
              simp [k2, k1.eof]
      · dsimp only
        rw [if_pos g.fail]
        intro hx; cases hx

/-- `next_line`: the same, or it throws. -/
theorem nextLineF_sim (rd : Reader) {s : FStream} (h : s.hit = false) :
    SimL (nextLineF rd s) (nextLineF rd s.calm) := by
  unfold nextLineF
  have hc : s.calm.is = s.is := rfl
  rw [hc]
  by_cases h1 : 0 < rd.buf.length
  · rw [if_pos h1, if_pos h1]; rfl
  · rw [if_neg h1, if_neg h1]
    by_cases h2 : s.is.eof = true
    · rw [if_pos h2, if_pos h2]; exact ⟨h, rfl⟩
    · rw [if_neg h2, if_neg h2]
      rcases get_sim h with ⟨k1, k2⟩ | ⟨k1, k2⟩
      · rw [k2]
        dsimp only
        by_cases h3 : s.get.1 ≠ some '\n'
        · rw [if_pos h3, if_pos h3]; rfl
        · rw [if_neg h3, if_neg h3]; exact ⟨k1, rfl⟩
      · simp only [k2]
        rfl

theorem skipRestF_broken (eager dbg : Bool) {n : Nat} (hn : 0 < n) {rd : Reader} {s : FStream} (h : Broken s) (hk : rd.keep = true) :
    skipRestF eager dbg n rd s = .error csvErr := by
  cases n with
  | zero => omega
  | succ n =>
    simp only [skipRestF, hk, if_true, readChunkF_broken _ _ _ h, res_error_bind]

/-- An extraction that does not fail takes something. -/
theorem getBuf_shrinks (eager : Bool) (s : FStream) (n : Nat) (h : (s.getBuf eager n).2.is.fail = false) :
    (s.getBuf eager n).2.is.rest.length < s.is.rest.length := by
  unfold FStream.getBuf at h ⊢
  by_cases hg : s.is.good = true
  · simp only [hg, if_true] at h ⊢
    cases hn : s.next with
    | none =>
      simp only [hn, FStream.went, IStream.getBuf, hg, if_true] at h ⊢
      have hne : (s.is.rest.takeWhile (· != '\n')).take n ≠ [] := by
        intro h0; rw [h0] at h; simp at h
      have h1 := List.length_pos_iff.2 hne
      have h2 : ((s.is.rest.takeWhile (· != '\n')).take n).length ≤ s.is.rest.length :=
        Nat.le_trans (List.length_take_le' _ _) (List.takeWhile_sublist _).length_le
      rw [List.length_drop]
      omega
    | some k => simp only [hn, FStream.broke] at h; simp at h
  · simp only [hg, IStream.getBuf] at h
    simp at h

theorem peek_rest (s : FStream) : s.peek.2.is.rest = s.is.rest := by
  unfold FStream.peek
  by_cases hg : s.is.good = true
  · simp only [hg, if_true]
    cases hn : s.next with
    | none =>
      simp only [FStream.went, IStream.peek, hg, if_true]
      cases hr : s.is.rest <;> simp [hr]
    | some k => rfl
  · simp only [hg, IStream.peek]
    rfl

theorem get_rest (s : FStream) : s.get.2.is.rest.length ≤ s.is.rest.length := by
  unfold FStream.get
  by_cases hg : s.is.good = true
  · simp only [hg, if_true]
    cases hn : s.next with
    | none =>
      simp only [FStream.went, IStream.get, hg, if_true]
      cases hr : s.is.rest <;> simp
    | some k => exact Nat.le_refl _
  · simp only [hg, IStream.get]
    exact Nat.le_refl _

/-- Reading a chunk into a buffer with room takes something from the stream. -/
theorem readChunkF_shrinks {eager dbg : Bool} {rd rd' : Reader} {s s' : FStream} (hb : rd.buf.length < bufmaxsize)
    (h : readChunkF eager dbg rd s = .ok (rd', s')) : s'.is.rest.length < s.is.rest.length := by
  unfold readChunkF at h
  by_cases h1 : s.is.fail = true
  · rw [if_pos h1] at h; cases h
  · rw [if_neg h1, if_neg (by omega)] at h
    dsimp only at h
    by_cases h3 : (s.getBuf eager (bufmaxsize - rd.buf.length)).2.is.fail = true
    · rw [if_pos h3] at h; cases h
    · rw [if_neg h3] at h
      split at h
      · cases h
      · cases h
        rw [peek_rest]
        exact getBuf_shrinks _ _ _ (by simpa using h3)

theorem nextLineF_rest {rd : Reader} {s s' : FStream} (h : nextLineF rd s = .ok s') : s'.is.rest.length ≤ s.is.rest.length := by
  unfold nextLineF at h
  split at h
  · cases h
  · split at h
    · cases h; exact Nat.le_refl _
    · dsimp only at h
      split at h
      · cases h
      · cases h; exact get_rest _

theorem nextLineF_error {rd : Reader} {s : FStream} {e : Fault} (h : nextLineF rd s = .error e) : e = csvErr := by
  unfold nextLineF at h
  split at h
  · cases h; rfl
  · split at h
    · cases h
    · dsimp only at h
      split at h
      · cases h; rfl
      · cases h

/-- The rest of a comment is skipped as without errors, or an error is reported. -/
theorem skipRestF_sim (eager dbg : Bool) : ∀ (n : Nat) (rd : Reader) (s : FStream), s.hit = false → s.is.rest.length < n →
    SimN (skipRestF eager dbg n rd s) (skipRestF eager dbg n rd s.calm) ∧
      ∀ rd' s', skipRestF eager dbg n rd s = .ok (rd', s') → s'.is.rest.length ≤ s.is.rest.length
  | 0, _, _, _, hn => absurd hn (by omega)
  | n + 1, rd, s, h, hn => by
    simp only [skipRestF]
    by_cases hk : rd.keep = true
    · rw [if_pos hk, if_pos hk]
      have hs := readChunkF_sim eager dbg { rd with buf := [] } h
      cases hr : readChunkF eager dbg { rd with buf := [] } s with
      | error e => exact ⟨readChunkF_error hr, fun _ _ he => nomatch he⟩
      | ok p =>
        obtain ⟨rd1, s1⟩ := p
        have hlt := readChunkF_shrinks (by simp [bufmaxsize]) hr
        rw [hr] at hs
        rcases hs with ⟨g1, g2⟩ | ⟨g1, g2, -⟩
        · rw [g2]
          simp only [res_ok_bind]
          have ih := skipRestF_sim eager dbg n rd1 s1 g1 (by omega)
          exact ⟨ih.1, fun rd' s' he => by have := ih.2 rd' s' he; omega⟩
        · simp only [res_ok_bind]
          rw [skipRestF_broken eager dbg (by omega) g1 g2]
          exact ⟨rfl, fun _ _ he => nomatch he⟩
    · rw [if_neg hk, if_neg hk]
      exact ⟨⟨h, rfl⟩, fun rd' s' he => by cases he; exact Nat.le_refl _⟩

theorem skipLoopF_sim (eager dbg : Bool) : ∀ (n : Nat) (rd : Reader) (s : FStream), s.hit = false → rd.buf = [] → s.is.rest.length < n →
    SimR (skipLoopF eager dbg n rd s) (skipLoopF eager dbg n rd s.calm)
  | 0, _, _, _, _, hn => absurd hn (by omega)
  | n + 1, rd, s, h, hb, hn => by
    simp only [skipLoopF]
    have hc : s.calm.is = s.is := rfl
    rw [hc]
    by_cases he : s.is.eof = true
    · rw [if_pos he, if_pos he]; exact .inl ⟨h, rfl⟩
    · rw [if_neg he, if_neg he]
      have hs := readChunkF_sim eager dbg rd h
      cases hr : readChunkF eager dbg rd s with
      | error e => exact readChunkF_error hr
      | ok p =>
        obtain ⟨rd1, s1⟩ := p
        have hlt := readChunkF_shrinks (by simp [bufmaxsize, hb]) hr
        rw [hr] at hs
        rcases hs with ⟨g1, g2⟩ | ⟨g1, g2, rd2, s2, g3, g4⟩
        · rw [g2]
          simp only [res_ok_bind]
          split
          · next tail hbuf =>
            have ih := skipRestF_sim eager dbg (s1.is.rest.length + 1) rd1 s1 g1 (by omega)
            have hc1 : s1.calm.is = s1.is := rfl
            rw [hc1]
            cases hr2 : skipRestF eager dbg (s1.is.rest.length + 1) rd1 s1 with
            | error e => rw [hr2] at ih; exact ih.1
            | ok p2 =>
              obtain ⟨rd2, s2⟩ := p2
              rw [hr2] at ih
              obtain ⟨⟨i1, i2⟩, i3⟩ := ih
              have i3 := i3 rd2 s2 rfl
              rw [i2]
              simp only [res_ok_bind]
              have hn2 := nextLineF_sim ({ rd2 with buf := [] }) i1
              cases hr3 : nextLineF { rd2 with buf := [] } s2 with
              | error e => rw [hr3] at hn2; exact hn2
              | ok s3 =>
                rw [hr3] at hn2
                have h4 := nextLineF_rest hr3
                rw [hn2.2]
                simp only [res_ok_bind]
                exact skipLoopF_sim eager dbg n _ s3 hn2.1 rfl (by omega)
          · exact .inl ⟨g1, rfl⟩
        · rw [g3]
          simp only [res_ok_bind]
          split
          · next tail hbuf =>
            rw [skipRestF_broken eager dbg (by omega) g1 g2]
            rfl
          · next hbuf =>
            refine .inr ⟨g1, g2, rd2, s2, ?_, g4⟩
            split
            · next tail hbuf2 => exact absurd (g4 ▸ hbuf2) (hbuf tail)
            · rfl

theorem skipCommentsF_sim (eager dbg : Bool) {rd : Reader} {s : FStream} (h : s.hit = false) (hb : rd.buf = []) :
    SimR (skipCommentsF eager dbg rd s) (skipCommentsF eager dbg rd s.calm) := by
  unfold skipCommentsF
  have hc : s.calm.is = s.is := rfl
  have ha : ¬ (dbg && decide (rd.buf.length ≠ 0)) = true := by simp [hb]
  rw [hc, if_neg ha, if_neg ha]
  by_cases he : s.is.eof = true
  · rw [if_pos he, if_pos he]; exact .inl ⟨h, rfl⟩
  · rw [if_neg he, if_neg he]
    rcases peek_sim h with ⟨k1, k2⟩ | ⟨k1, k2⟩
    · rw [k2]
      dsimp only
      by_cases h3 : s.peek.1 = some '\n'
      · rw [if_pos h3, if_pos h3]; exact .inl ⟨k1, rfl⟩
      · rw [if_neg h3, if_neg h3]
        exact skipLoopF_sim eager dbg _ rd _ k1 hb (by omega)
    · dsimp only
      rw [if_neg (by rw [k2]; simp)]
      simp only [skipLoopF, k1.eof, readChunkF_broken _ _ _ k1, res_error_bind]
      rfl

end Guanaqo.Csv
