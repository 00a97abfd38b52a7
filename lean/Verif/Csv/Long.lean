import Verif.Csv.Ints

/-!
# C41: long fields
-/

namespace Guanaqo.Csv

variable {F : Type}

/-- C41, full statement: whatever the lengths of its fields, a row is read as the numbers its fields
denote, or rejected. -/
def FieldsWhole : Prop :=
  ∀ (fc : Parser Int) (sep : Char), fc.Ok sep → sep ≠ '+' → ∀ (eager dbg : Bool) (n : Nat)
    (line tail : List Char), line ≠ [] → '\n' ∉ line → line.head? ≠ some '#' → LineEnd tail →
    ∀ vs is', csvReadRow fc eager dbg sep n { rest := line ++ tail } = .ok (vs, is') →
      rowSpec fc sep n line = some vs

/-- C41 is false: a number of 65 digits is silently read as two numbers. -/
theorem not_fieldsWhole : ¬ FieldsWhole := by
  intro h
  have hrun : csvReadRow (fromCharsInt 32) true true ',' 2
      { rest := List.replicate 64 '0' ++ ['5'] ++ ['\n'] } = .ok ([0, 5], { rest := [] }) := by
    decide +kernel
  have := h (fromCharsInt 32) ',' (fromCharsInt_ok 32 ',' (by decide) (by decide)) (by decide) true
    true 2 (List.replicate 64 '0' ++ ['5']) ['\n'] (by decide) (by decide) (by decide)
    (.inr ⟨[], rfl⟩) [0, 5] { rest := [] } hrun
  revert this
  decide +kernel

theorem split_first (sep : Char) {L : List Char} (hL : L ≠ []) :
    ∃ f rest, L = f ++ rest ∧ sep ∉ f ∧ (rest = [] ∨ ∃ L', rest = sep :: L') ∧
      rowFields sep L = f :: rowFields sep (rest.drop 1) := by
  rcases first_field sep L with h1 | ⟨f, L', h1, h2⟩
  · exact ⟨L, [], by simp, h1, .inl rfl, by rw [rowFields_single h1 hL]; simp [rowFields_nil]⟩
  · exact ⟨f, sep :: L', h1, h2, .inr ⟨L', rfl⟩, by rw [h1, rowFields_cons h2]; simp⟩

/-- A separator where a field should begin is not accepted. -/
theorem read_at_sep {fc : Parser F} {sep : Char} (hok : fc.Ok sep) (hp : sep ≠ '+')
    (eager dbg : Bool) (n : Nat) {rd rd' : Reader} {is is' is'' : IStream} {L tail : List Char}
    (h : OnLine rd is (sep :: L) tail) {vs : List F}
    (hN : readN fc eager dbg sep n rd is = .ok (vs, rd', is')) (hn : nextLine rd' is' = .ok is'') :
    False := by
  cases n with
  | zero =>
    cases hN
    rw [nextLine_throws h (by simp)] at hn
    cases hn
  | succ n =>
    have := read_field hok hp eager dbg h (f := []) (rest := sep :: L) rfl (by simp)
      (.inr ⟨L, rfl⟩) (by simp)
    rw [numberOf_nil hok] at this
    simp only at this
    rw [readN, this] at hN
    cases hN

theorem readN_sound {fc : Parser F} {sep : Char} (hok : fc.Ok sep) (hp : sep ≠ '+')
    (eager dbg : Bool) (n : Nat) {rd rd' : Reader} {is is' is'' : IStream} {L tail : List Char}
    (h : OnLine rd is L tail) (hlen : ∀ f ∈ rowFields sep L, f.length ≤ 64) {vs : List F}
    (hN : readN fc eager dbg sep n rd is = .ok (vs, rd', is')) (hn : nextLine rd' is' = .ok is'') :
    rowSpec fc sep n L = some vs ∧ AfterLine tail is'' := by
  induction n generalizing rd is L vs with
  | zero =>
    cases hN
    by_cases hL : L = []
    · subst hL
      obtain ⟨i, h1, _, h3⟩ := nextLine_ok h
      cases hn.symm.trans h1
      exact ⟨by simp [rowSpec, rowFields_nil], h3⟩
    · rw [nextLine_throws h hL] at hn
      cases hn
  | succ n ih =>
    by_cases hL : L = []
    · subst hL
      have := read_field hok hp eager dbg h (f := []) (rest := []) rfl (by simp) (.inl rfl) (by simp)
      rw [numberOf_nil hok] at this
      simp only at this
      rw [readN, this] at hN
      cases hN
    · obtain ⟨f, rest, h1, h2, h3, hrf⟩ := split_first sep hL
      have hfl : f.length ≤ 64 := hlen f (by rw [hrf]; simp)
      rw [readN, res_bind_ok] at hN
      obtain ⟨⟨v, rd1, is1⟩, r1, r2⟩ := hN
      rw [res_bind_ok] at r2
      obtain ⟨⟨ws, rd2, is2⟩, r3, r4⟩ := r2
      cases r4
      rw [rowSpec_succ fc sep n hrf]
      have hlen' : ∀ g ∈ rowFields sep (rest.drop 1), g.length ≤ 64 :=
        fun g hg => hlen g (by rw [hrf]; exact List.mem_cons_of_mem _ hg)
      by_cases h63 : f.length ≤ 63
      · have hr := read_field hok hp eager dbg h h1 h2 h3 h63
        cases hv : numberOf fc f with
        | none =>
          rw [hv] at hr
          cases r1.symm.trans hr
        | some v' =>
          rw [hv] at hr
          obtain ⟨rd3, is3, k1, k2⟩ := hr
          cases r1.symm.trans k1
          obtain ⟨e1, e2⟩ := ih k2 hlen' r3
          rw [e1]
          exact ⟨rfl, e2⟩
      · have h64 : f.length = 64 := by omega
        have hread := read_line fc eager dbg sep
          (fun s v t hs => (readSingle_consumes hok hs).imp (fun d hd => hd.2)) h
        have ht : L.take 64 = f := by rw [h1, ← h64, List.take_left]
        have hd : L.drop 64 = rest := by rw [h1, ← h64, List.drop_left]
        rw [ht, hd] at hread
        have hmem : ∀ v t, readSingle fc f = some (v, t) → sep ∉ t := by
          intro v t ht hm
          obtain ⟨d, _, hd⟩ := readSingle_consumes hok ht
          exact h2 (by rw [hd]; simp [hm])
        unfold numberOf
        cases hr : readSingle fc f with
        | none => rw [hr] at hread; cases r1.symm.trans hread
        | some p =>
          obtain ⟨w, t⟩ := p
          rw [hr] at hread
          cases t with
          | cons c t =>
            have : c ≠ sep := fun e => hmem w (c :: t) hr (by simp [e])
            simp only [if_neg this] at hread
            cases r1.symm.trans hread
          | nil =>
            simp only at hread ⊢
            obtain ⟨rd3, is3, k1, k2⟩ := hread
            cases r1.symm.trans k1
            rcases h3 with rfl | ⟨L', rfl⟩
            · obtain ⟨e1, e2⟩ := ih k2 hlen' r3
              rw [List.drop_nil, e1]
              exact ⟨rfl, e2⟩
            · exact (read_at_sep hok hp eager dbg n k2 r3 hn).elim

/-- C41 for fields of at most 64 characters: a row that is accepted is read as the numbers its fields
denote, and the stream is left after it. -/
theorem fields_whole_partial (fc : Parser F) (sep : Char) (hok : fc.Ok sep) (hplus : sep ≠ '+')
    (eager dbg : Bool) (n : Nat) (comments : List (List Char)) (hc : ∀ c ∈ comments, '\n' ∉ c)
    (line tail : List Char) (hne : line ≠ []) (hnl : '\n' ∉ line) (hh : line.head? ≠ some '#')
    (ht : LineEnd tail) (hlen : ∀ f ∈ rowFields sep line, f.length ≤ 64) (vs : List F) (is' : IStream)
    (h : csvReadRow fc eager dbg sep n { rest := commentText comments ++ line ++ tail } =
      .ok (vs, is')) :
    rowSpec fc sep n line = some vs ∧ AfterLine tail is' := by
  obtain ⟨rd, is, h1, h2⟩ := skipComments_ok eager dbg comments hc hne hnl hh ht (rd := {}) rfl
  unfold csvReadRow readRowWith at h
  rw [h1] at h
  simp only [res_ok_bind, res_bind_ok] at h
  obtain ⟨⟨ws, rd1, is1⟩, ⟨⟨us, rd2, is2⟩, r1, ⟨is3, r2, r3⟩⟩, r4⟩ := h
  cases r3
  cases r4
  exact readN_sound hok hplus eager dbg n h2 hlen r1 r2

/-- A field of 64 digits (the last of its row) is accepted, and read whole. -/
example : csvReadRow (fromCharsInt 32) true true ',' 2
    { rest := "7,".toList ++ List.replicate 63 '0' ++ ['5', '\n'] } = .ok ([7, 5], { rest := [] }) := by
  decide +kernel

end Guanaqo.Csv
