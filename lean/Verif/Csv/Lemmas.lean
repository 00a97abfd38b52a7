import Verif.Csv.Model
import Verif.Tactics

/-!
# The reader as a window on the current line
-/

namespace Guanaqo.Csv

/-- What follows a line: the end of the input, or a newline and more. -/
def LineEnd (tail : List Char) : Prop := tail = [] ∨ ∃ more, tail = '\n' :: more

theorem LineEnd.takeWhile {U tail : List Char} (hU : '\n' ∉ U) (ht : LineEnd tail) :
    (U ++ tail).takeWhile (· != '\n') = U := by
  rw [List.takeWhile_append_of_pos]
  · rcases ht with rfl | ⟨more, rfl⟩ <;> simp
  · intro a ha
    simp only [bne_iff_ne, ne_eq]
    rintro rfl; exact hU ha

/-- The reader is inside a line of which `L` has not been processed yet; `tail` follows the line. -/
structure OnLine (rd : Reader) (is : IStream) (L tail : List Char) : Prop where
  split : ∃ U, L = rd.buf ++ U ∧ is.rest = U ++ tail ∧ rd.keep = !U.isEmpty ∧
    (U ++ tail ≠ [] → is.good = true) ∧ (U ++ tail = [] → is.eof = true)
  noNl : '\n' ∉ L
  lineEnd : LineEnd tail
  cap : rd.buf.length ≤ 64

/-- `read_chunk` fills the window. -/
theorem readChunk_ok (eager dbg : Bool) {rd : Reader} {is : IStream} {U tail : List Char}
    (hU : U ≠ []) (hnl : '\n' ∉ rd.buf ++ U) (ht : LineEnd tail) (hcap : rd.buf.length ≤ 64)
    (hk : rd.keep = true ∨ rd.buf.length < 64) (hg : is.good = true) (hr : is.rest = U ++ tail) :
    ∃ rd' is', readChunk eager dbg rd is = .ok (rd', is') ∧ rd'.buf = (rd.buf ++ U).take 64 ∧
      OnLine rd' is' (rd.buf ++ U) tail ∧ is'.rest = (rd.buf ++ U).drop 64 ++ tail := by
  have hgood : is.eof = false ∧ is.fail = false := by
    simpa [IStream.good] using hg
  unfold readChunk
  rw [hgood.2, if_neg (by simp)]
  by_cases hfull : rd.buf.length = bufmaxsize
  · rw [if_pos hfull]
    have h64 : rd.buf.length = 64 := hfull
    refine ⟨rd, is, rfl, ?_, ⟨⟨U, rfl, hr, ?_, fun _ => hg, ?_⟩, hnl, ht, hcap⟩, ?_⟩
    · rw [List.take_append_of_le_length (by omega), List.take_of_length_le (by omega)]
    · have : rd.keep = true := hk.resolve_right (by omega)
      rw [this]; cases U <;> simp_all
    · intro h; exact absurd (List.append_eq_nil_iff.1 h).1 hU
    · rw [hr, ← h64, List.drop_left]
  · rw [if_neg hfull]
    have h64 : rd.buf.length < 64 := by
      have : rd.buf.length ≠ 64 := hfull
      omega
    have hUnl : '\n' ∉ U := fun h => hnl (by simp [h])
    have hget : is.getBuf eager (bufmaxsize - rd.buf.length) =
        (U.take (64 - rd.buf.length),
          { rest := U.drop (64 - rd.buf.length) ++ tail,
            eof := (U.drop (64 - rd.buf.length) ++ tail).isEmpty &&
              (eager || decide ((U.take (64 - rd.buf.length)).length < 64 - rd.buf.length)),
            fail := false }) := by
      unfold IStream.getBuf
      rw [if_pos hg, hr, LineEnd.takeWhile hUnl ht]
      have hd : (U ++ tail).drop (U.take (64 - rd.buf.length)).length =
          U.drop (64 - rd.buf.length) ++ tail := by
        rw [List.length_take]
        by_cases hle : 64 - rd.buf.length ≤ U.length
        · rw [Nat.min_eq_left hle, List.drop_append_of_le_length hle]
        · rw [Nat.min_eq_right (by omega), List.drop_left,
            List.drop_of_length_le (by omega : U.length ≤ 64 - rd.buf.length), List.nil_append]
      have hne : (U.take (64 - rd.buf.length)).isEmpty = false := by
        cases U with
        | nil => exact absurd rfl hU
        | cons a U =>
          obtain ⟨k, hk⟩ : ∃ k, 64 - rd.buf.length = k + 1 := ⟨63 - rd.buf.length, by omega⟩
          rw [hk]; rfl
      simp only [show bufmaxsize - rd.buf.length = 64 - rd.buf.length from rfl]
      rw [hd, hne]
    rw [hget]
    simp only [Bool.false_eq_true, if_false]
    have hbuf : rd.buf ++ U.take (64 - rd.buf.length) = (rd.buf ++ U).take 64 := by
      rw [List.take_append, List.take_of_length_le (by omega : rd.buf.length ≤ 64)]
    have hlen : ((rd.buf ++ U).take 64).length ≤ 64 := by rw [List.length_take]; omega
    have hdrop : U.drop (64 - rd.buf.length) = (rd.buf ++ U).drop 64 := by
      rw [List.drop_append, List.drop_of_length_le (by omega : rd.buf.length ≤ 64),
        List.nil_append]
    have hsplit : (rd.buf ++ U).take 64 ++ U.drop (64 - rd.buf.length) = rd.buf ++ U := by
      rw [hdrop, List.take_append_drop]
    rw [hbuf]
    have hassert : (dbg && decide (bufmaxsize < ((rd.buf ++ U).take 64).length)) = false := by
      rw [Bool.and_eq_false_iff]
      right
      simp only [decide_eq_false_iff_not]
      have : bufmaxsize = 64 := rfl
      omega
    rw [hassert]
    simp only [Bool.false_eq_true, if_false]
    have hdnl : '\n' ∉ U.drop (64 - rd.buf.length) := fun h => hUnl (List.mem_of_mem_drop h)
    rw [← hdrop]
    generalize U.drop (64 - rd.buf.length) = D at hsplit hdnl
    cases hD : D with
    | nil =>
      subst hD
      rcases ht with rfl | ⟨more, rfl⟩
      · -- end of input
        refine ⟨_, _, rfl, rfl, ⟨⟨[], by simpa using hsplit.symm, ?_, ?_, ?_, ?_⟩, hnl,
          .inl rfl, hlen⟩, ?_⟩
        · unfold IStream.peek; split <;> simp
        · unfold IStream.peek IStream.good
          simp only [List.append_nil, List.isEmpty_nil, Bool.true_and]
          generalize (eager || decide ((U.take (64 - rd.buf.length)).length < 64 - rd.buf.length)) = e
          cases e <;> simp
        · intro h; simp at h
        · intro _
          unfold IStream.peek IStream.good
          simp only [List.append_nil, List.isEmpty_nil, Bool.true_and]
          generalize (eager || decide ((U.take (64 - rd.buf.length)).length < 64 - rd.buf.length)) = e
          cases e <;> simp
        · unfold IStream.peek; split <;> simp
      · -- newline
        refine ⟨_, _, rfl, rfl, ⟨⟨[], by simpa using hsplit.symm, ?_, ?_, ?_, ?_⟩, hnl,
          .inr ⟨more, rfl⟩, hlen⟩, ?_⟩
        · simp [IStream.peek, IStream.good]
        · simp [IStream.peek, IStream.good]
        · intro _; simp [IStream.peek, IStream.good]
        · intro h; simp at h
        · simp [IStream.peek, IStream.good]
    | cons c D' =>
      subst hD
      have hc : c ≠ '\n' := fun e => hdnl (by simp [e])
      refine ⟨_, _, rfl, rfl, ⟨⟨c :: D', hsplit.symm, ?_, ?_, ?_, ?_⟩, hnl, ht, hlen⟩, ?_⟩
      · simp [IStream.peek, IStream.good]
      · simp [IStream.peek, IStream.good, hc]
      · intro _; simp [IStream.peek, IStream.good]
      · intro h; simp at h
      · simp [IStream.peek, IStream.good]

/-- The first thing `read` does: make the buffer hold (the first 64 characters of) the rest of the
line. -/
theorem window (eager dbg : Bool) {rd : Reader} {is : IStream} {L tail : List Char}
    (h : OnLine rd is L tail) :
    ∃ rd' is', fill eager dbg rd is = .ok (rd', is') ∧
      rd'.buf = L.take 64 ∧ OnLine rd' is' L tail := by
  unfold fill
  obtain ⟨⟨U, h1, h2, h3, h4, h5⟩, hnl, ht, hcap⟩ := h
  cases U with
  | nil =>
    rw [List.append_nil] at h1
    have hk : rd.keep = false := by rw [h3]; rfl
    rw [hk]
    refine ⟨rd, is, rfl, ?_, ⟨⟨[], by simpa using h1, h2, h3, h4, h5⟩, hnl, ht, hcap⟩⟩
    rw [h1, List.take_of_length_le hcap]
  | cons c U =>
    have hk : rd.keep = true := by rw [h3]; rfl
    obtain ⟨rd', is', k1, k2, k3, _⟩ := readChunk_ok eager dbg (U := c :: U) (by simp) (h1 ▸ hnl) ht
      hcap (.inl hk) (h4 (by simp)) h2
    rw [← h1] at k2 k3
    rw [hk, if_pos rfl]
    exact ⟨rd', is', k1, k2, k3⟩

/-- After the window has been filled, part of it may be dropped. -/
theorem OnLine.dropBuf {rd : Reader} {is : IStream} {L tail : List Char} (h : OnLine rd is L tail)
    {d b : List Char} (hb : rd.buf = d ++ b) :
    OnLine { rd with buf := b } is (L.drop d.length) tail := by
  obtain ⟨⟨U, h1, h2, h3, h4, h5⟩, hnl, ht, hcap⟩ := h
  refine ⟨⟨U, ?_, h2, h3, h4, h5⟩, fun hm => hnl (List.mem_of_mem_drop hm), ht, ?_⟩
  · rw [h1, hb, List.append_assoc, List.drop_left]
  · rw [hb, List.length_append] at hcap
    simp only
    omega

/-- `next_line` at the end of the line. -/
theorem nextLine_ok {rd : Reader} {is : IStream} {tail : List Char} (h : OnLine rd is [] tail) :
    ∃ is', nextLine rd is = .ok is' ∧ rd.buf = [] ∧
      ((tail = [] ∧ is'.rest = [] ∧ is'.eof = true) ∨
        ∃ more, tail = '\n' :: more ∧ is' = { rest := more }) := by
  obtain ⟨⟨U, h1, h2, h3, h4, h5⟩, _, ht, _⟩ := h
  have hb : rd.buf = [] ∧ U = [] := List.append_eq_nil_iff.1 h1.symm
  obtain ⟨hb, rfl⟩ := hb
  unfold nextLine
  rw [hb]
  simp only [List.length_nil, Nat.lt_irrefl, if_false]
  rcases ht with rfl | ⟨more, rfl⟩
  · rw [h5 rfl]
    exact ⟨is, rfl, trivial, .inl ⟨rfl, h2, h5 rfl⟩⟩
  · have hg := h4 (by simp)
    have hgood : is.eof = false ∧ is.fail = false := by simpa [IStream.good] using hg
    rw [hgood.1]
    refine ⟨{ rest := more }, ?_, trivial, .inr ⟨more, rfl, rfl⟩⟩
    obtain ⟨r, e, f⟩ := is
    simp only at h2 hgood
    obtain ⟨rfl, rfl⟩ := hgood
    subst h2
    rfl

/-- `next_line` before the end of the line. -/
theorem nextLine_throws {rd : Reader} {is : IStream} {L tail : List Char} (h : OnLine rd is L tail)
    (hL : L ≠ []) : nextLine rd is = throwCsv := by
  obtain ⟨⟨U, h1, h2, h3, h4, h5⟩, hnl, ht, _⟩ := h
  unfold nextLine
  by_cases hb : 0 < rd.buf.length
  · rw [if_pos hb]
  · rw [if_neg hb]
    have hb' : rd.buf = [] := List.length_eq_zero_iff.1 (by omega)
    rw [hb', List.nil_append] at h1
    subst h1
    cases L with
    | nil => exact absurd rfl hL
    | cons c L =>
      have hg := h4 (by simp)
      have hgood : is.eof = false ∧ is.fail = false := by simpa [IStream.good] using hg
      rw [hgood.1]
      have hc : c ≠ '\n' := fun e => hnl (by simp [e])
      simp only [Bool.false_eq_true, if_false]
      unfold IStream.get
      rw [if_pos hg, h2]
      simp [hc]

/-- `read` in terms of the rest of the line only: it converts what it sees in a 64-character
window. -/
theorem read_line {F : Type} (fromChars : Parser F) (eager dbg : Bool) (sep : Char)
    (hsuf : ∀ s v t, readSingle fromChars s = some (v, t) → ∃ d, s = d ++ t)
    {rd : Reader} {is : IStream} {L tail : List Char} (h : OnLine rd is L tail) :
    match readSingle fromChars (L.take 64) with
    | none => read fromChars eager dbg sep rd is = throwCsv
    | some (v, []) => ∃ rd' is', read fromChars eager dbg sep rd is = .ok (v, rd', is') ∧
        OnLine rd' is' (L.drop 64) tail
    | some (v, c :: t) =>
        if c = sep then ∃ rd' is', read fromChars eager dbg sep rd is = .ok (v, rd', is') ∧
          OnLine rd' is' (t ++ L.drop 64) tail
        else read fromChars eager dbg sep rd is = throwCsv := by
  obtain ⟨rd', is', k1, k2, k3⟩ := window eager dbg h
  have hread : read fromChars eager dbg sep rd is =
      (match readSingle fromChars rd'.buf with
        | none => throwCsv
        | some (v, []) => .ok (v, { rd' with buf := [] }, is')
        | some (v, c :: tail) =>
          if c ≠ sep then throwCsv else .ok (v, { rd' with buf := tail }, is')) := by
    unfold read
    rw [k1]; rfl
  rw [k2] at hread
  split
  · rename_i heq
    rw [hread, heq]
  · rename_i v heq
    rw [heq] at hread
    refine ⟨_, _, hread, ?_⟩
    have := k3.dropBuf (d := L.take 64) (b := []) (by simp [k2])
    have e : L.drop (L.take 64).length = L.drop 64 := by
      rw [List.length_take]
      by_cases hle : 64 ≤ L.length
      · rw [Nat.min_eq_left hle]
      · rw [Nat.min_eq_right (by omega), List.drop_of_length_le (by omega),
          List.drop_of_length_le (by omega)]
    rwa [e] at this
  · rename_i v c t heq
    rw [heq] at hread
    simp only at hread
    obtain ⟨d, hd⟩ := hsuf _ _ _ heq
    split
    · rename_i hc
      rw [if_neg (by simpa using hc)] at hread
      refine ⟨_, _, hread, ?_⟩
      have := k3.dropBuf (d := d ++ [c]) (b := t) (by rw [k2, hd]; simp)
      have e : L.drop (d ++ [c]).length = t ++ L.drop 64 := by
        have e1 : L = (d ++ [c]) ++ (t ++ L.drop 64) := by
          conv_lhs => rw [← List.take_append_drop 64 L, hd]
          simp
        conv_lhs => rw [e1]
        rw [List.drop_left]
      rwa [e] at this
    · rename_i hc
      rw [hread, if_pos (by simpa using hc)]

end Guanaqo.Csv
