import Verif.Csv.Lemmas
import Verif.Csv.Spec

/-!
# Fields and rows
-/

namespace Guanaqo.Csv

variable {F : Type}

theorem readSingle_consumes {fc : Parser F} {sep : Char} (hok : fc.Ok sep) {s : List Char} {v : F}
    {t : List Char} (h : readSingle fc s = some (v, t)) : ∃ d, d ≠ [] ∧ s = d ++ t := by
  unfold readSingle at h
  split at h
  · obtain ⟨d, hd, hs⟩ := hok.consumes _ _ _ h
    exact ⟨'+' :: d, by simp, by simp [hs]⟩
  · exact hok.consumes _ _ _ h

theorem readSingle_stops {fc : Parser F} {sep : Char} (hok : fc.Ok sep) (hp : sep ≠ '+')
    {f r : List Char} (hf : sep ∉ f) :
    readSingle fc (f ++ sep :: r) = (readSingle fc f).map (fun p => (p.1, p.2 ++ sep :: r)) := by
  cases f with
  | nil =>
    have e1 : readSingle fc ([] ++ sep :: r) = fc ([] ++ sep :: r) := by
      unfold readSingle
      split
      · rename_i heq
        simp only [List.nil_append, List.cons.injEq] at heq
        exact absurd heq.1 hp
      · rfl
    rw [e1, hok.stops [] r (by simp)]
    rfl
  | cons c f =>
    by_cases hc : c = '+'
    · subst hc
      exact hok.stops f r (fun h => hf (by simp [h]))
    · have e1 : ∀ t, readSingle fc (c :: t) = fc (c :: t) := by
        intro t
        unfold readSingle
        split
        · rename_i heq
          simp only [List.cons.injEq] at heq
          exact absurd heq.1 hc
        · rfl
      rw [List.cons_append, e1, e1]
      exact hok.stops (c :: f) r hf

/-- A line is its first field, or its first field, a separator and the rest. -/
theorem first_field (sep : Char) (L : List Char) :
    (sep ∉ L) ∨ ∃ f L', L = f ++ sep :: L' ∧ sep ∉ f := by
  induction L with
  | nil => left; simp
  | cons c L ih =>
    by_cases hc : c = sep
    · exact .inr ⟨[], L, by simp [hc], by simp⟩
    · rcases ih with h | ⟨f, L', h1, h2⟩
      · left; simp [h, Ne.symm hc]
      · exact .inr ⟨c :: f, L', by simp [h1], by simp [h2, Ne.symm hc]⟩

theorem rowFields_nil (sep : Char) : rowFields sep [] = [] := by
  simp [rowFields]

theorem rowFields_single {sep : Char} {L : List Char} (h : sep ∉ L) (hne : L ≠ []) :
    rowFields sep L = [L] := by
  simp only [rowFields, List.splitOn_eq_singleton h]
  simp [hne]

theorem rowFields_cons {sep : Char} {f L : List Char} (h : sep ∉ f) :
    rowFields sep (f ++ sep :: L) = f :: rowFields sep L := by
  simp only [rowFields, List.splitOn_append_cons_self_of_not_mem h]
  obtain ⟨a, l, hl⟩ := List.exists_cons_of_ne_nil (List.splitOn_ne_nil sep L)
  rw [hl]
  rw [List.getLast?_cons_cons]
  split <;> simp

/-- `read` takes one field, provided it is shorter than the buffer. -/
theorem read_field {fc : Parser F} {sep : Char} (hok : fc.Ok sep) (hp : sep ≠ '+')
    (eager dbg : Bool) {rd : Reader} {is : IStream} {L tail : List Char}
    (h : OnLine rd is L tail) {f rest : List Char} (hL : L = f ++ rest) (hf : sep ∉ f)
    (hrest : rest = [] ∨ ∃ L', rest = sep :: L') (hlen : f.length ≤ 63) :
    match numberOf fc f with
    | some v => ∃ rd' is', read fc eager dbg sep rd is = .ok (v, rd', is') ∧
        OnLine rd' is' (rest.drop 1) tail
    | none => read fc eager dbg sep rd is = throwCsv := by
  have hread := read_line fc eager dbg sep
    (fun s v t hs => (readSingle_consumes hok hs).imp (fun d hd => hd.2)) h
  have hmem : ∀ v t, readSingle fc f = some (v, t) → sep ∉ t := by
    intro v t ht hm
    obtain ⟨d, _, hd⟩ := readSingle_consumes hok ht
    exact hf (by rw [hd]; simp [hm])
  unfold numberOf
  rcases hrest with rfl | ⟨L', rfl⟩
  · rw [List.append_nil] at hL
    subst hL
    rw [List.take_of_length_le (by omega)] at hread
    cases hr : readSingle fc L with
    | none => rw [hr] at hread; exact hread
    | some p =>
      obtain ⟨v, t⟩ := p
      rw [hr] at hread
      cases t with
      | nil =>
        simp only at hread ⊢
        rwa [List.drop_of_length_le (by omega : L.length ≤ 64)] at hread
      | cons c t =>
        simp only at hread ⊢
        have : c ≠ sep := fun e => hmem v (c :: t) hr (by simp [e])
        rwa [if_neg this] at hread
  · have htake : L.take 64 = f ++ sep :: L'.take (63 - f.length) := by
      rw [hL, List.take_append, List.take_of_length_le (by omega)]
      have : 64 - f.length = (63 - f.length) + 1 := by omega
      rw [this, List.take_succ_cons]
    have hdrop : L.drop 64 = L'.drop (63 - f.length) := by
      rw [hL, List.drop_append, List.drop_of_length_le (by omega), List.nil_append]
      have : 64 - f.length = (63 - f.length) + 1 := by omega
      rw [this, List.drop_succ_cons]
    rw [htake, readSingle_stops hok hp hf, hdrop] at hread
    cases hr : readSingle fc f with
    | none => rw [hr] at hread; exact hread
    | some p =>
      obtain ⟨v, t⟩ := p
      rw [hr] at hread
      cases t with
      | nil =>
        simp only [Option.map_some, List.nil_append, if_true] at hread ⊢
        rw [List.take_append_drop] at hread
        simpa using hread
      | cons c t =>
        simp only [Option.map_some, List.cons_append] at hread ⊢
        have : c ≠ sep := fun e => hmem v (c :: t) hr (by simp [e])
        rwa [if_neg this] at hread

theorem numberOf_nil {fc : Parser F} {sep : Char} (hok : fc.Ok sep) : numberOf fc [] = none := by
  unfold numberOf
  cases hr : readSingle fc [] with
  | none => rfl
  | some p =>
    obtain ⟨d, hd, hs⟩ := readSingle_consumes hok (v := p.1) (t := p.2) hr
    exact absurd (List.append_eq_nil_iff.1 hs.symm).1 hd

theorem rowSpec_succ (fc : Parser F) (sep : Char) (n : Nat) {L f L' : List Char}
    (h : rowFields sep L = f :: rowFields sep L') :
    rowSpec fc sep (n + 1) L = (numberOf fc f).bind (fun v =>
      (rowSpec fc sep n L').map (fun vs => v :: vs)) := by
  unfold rowSpec
  rw [h]
  simp only [List.length_cons, Nat.add_right_cancel_iff]
  split
  · rw [List.mapM_cons]
    cases numberOf fc f with
    | none => rfl
    | some v =>
      cases List.mapM (numberOf fc) (rowFields sep L') <;> rfl
  · cases numberOf fc f <;> rfl

/-- Reading the fields of a line and going to the next line. -/
theorem readN_line {fc : Parser F} {sep : Char} (hok : fc.Ok sep) (hp : sep ≠ '+')
    (eager dbg : Bool) (n : Nat) {rd : Reader} {is : IStream} {L tail : List Char}
    (h : OnLine rd is L tail) (hlen : ∀ f ∈ rowFields sep L, f.length ≤ 63) :
    match rowSpec fc sep n L with
    | some vs => ∃ rd' is' is'', readN fc eager dbg sep n rd is = .ok (vs, rd', is') ∧
        nextLine rd' is' = .ok is'' ∧ AfterLine tail is'' ∧ rd'.buf = []
    | none => (readN fc eager dbg sep n rd is >>= fun p => nextLine p.2.1 p.2.2 >>= fun is =>
        Except.ok (p.1, p.2.1, is)) = throwCsv := by
  induction n generalizing rd is L with
  | zero =>
    by_cases hL : L = []
    · subst hL
      have hs : rowSpec fc sep 0 [] = some [] := by simp [rowSpec, rowFields_nil]
      rw [hs]
      obtain ⟨is', h1, h2, h3⟩ := nextLine_ok h
      exact ⟨rd, is, is', rfl, h1, h3, h2⟩
    · have hne : (rowFields sep L).length ≠ 0 := by
        rcases first_field sep L with h1 | ⟨f, L', h1, h2⟩
        · rw [rowFields_single h1 hL]; simp
        · rw [h1, rowFields_cons h2]; simp
      have hs : rowSpec fc sep 0 L = none := by simp only [rowSpec]; rw [if_neg hne]
      rw [hs]
      simp only [readN, res_ok_bind]
      rw [nextLine_throws h hL]
      rfl
  | succ n ih =>
    have hstep : ∃ f rest, L = f ++ rest ∧ sep ∉ f ∧ (rest = [] ∨ ∃ L', rest = sep :: L') ∧
        (L ≠ [] → rowFields sep L = f :: rowFields sep (rest.drop 1)) := by
      rcases first_field sep L with h1 | ⟨f, L', h1, h2⟩
      · exact ⟨L, [], by simp, h1, .inl rfl, fun hne => by
          rw [rowFields_single h1 hne]; simp [rowFields_nil]⟩
      · exact ⟨f, sep :: L', h1, h2, .inr ⟨L', rfl⟩, fun _ => by
          rw [h1, rowFields_cons h2]; simp⟩
    obtain ⟨f, rest, h1, h2, h3, h4⟩ := hstep
    by_cases hL : L = []
    · subst hL
      have hf : f = [] ∧ rest = [] := List.append_eq_nil_iff.1 h1.symm
      obtain ⟨rfl, rfl⟩ := hf
      have hs : rowSpec fc sep (n + 1) [] = none := by simp [rowSpec, rowFields_nil]
      rw [hs]
      have := read_field hok hp eager dbg h h1 h2 h3 (by simp)
      rw [numberOf_nil hok] at this
      simp only at this ⊢
      rw [readN, this]
      rfl
    · have hrf := h4 hL
      have hfl : f.length ≤ 63 := hlen f (by rw [hrf]; simp)
      have hr := read_field hok hp eager dbg h h1 h2 h3 hfl
      rw [rowSpec_succ fc sep n hrf]
      cases hv : numberOf fc f with
      | none =>
        rw [hv] at hr
        simp only [Option.bind_none] at hr ⊢
        rw [readN, hr]
        rfl
      | some v =>
        rw [hv] at hr
        obtain ⟨rd', is', k1, k2⟩ := hr
        have hih := ih k2 (fun g hg => hlen g (by rw [hrf]; exact List.mem_cons_of_mem _ hg))
        simp only [Option.bind_some]
        cases hvs : rowSpec fc sep n (rest.drop 1) with
        | none =>
          rw [hvs] at hih
          simp only [Option.map_none] at hih ⊢
          rw [readN, k1]
          simp only [res_ok_bind]
          cases hN : readN fc eager dbg sep n rd' is' with
          | error e =>
            rw [hN] at hih
            exact hih
          | ok p =>
            rw [hN] at hih
            simp only [res_ok_bind] at hih ⊢
            cases hnl : nextLine p.2.1 p.2.2 with
            | error e => rw [hnl] at hih; exact hih
            | ok q => rw [hnl] at hih; cases hih
        | some vs =>
          rw [hvs] at hih
          simp only [Option.map_some] at hih ⊢
          obtain ⟨rd2, is2, is3, l1, l2, l3, l4⟩ := hih
          refine ⟨rd2, is2, is3, ?_, l2, l3, l4⟩
          rw [readN, k1]
          simp only [res_ok_bind]
          rw [l1]
          rfl

/-- The inner loop of `skip_comments` runs to the end of the line. -/
theorem skipRest_ok (eager dbg : Bool) (fuel : Nat) {rd : Reader} {is : IStream} {L tail : List Char}
    (h : OnLine rd is L tail) (hfuel : is.rest.length < fuel + tail.length) :
    ∃ rd' is', skipRest eager dbg fuel rd is = .ok (rd', is') ∧
      OnLine { rd' with buf := [] } is' [] tail := by
  induction fuel generalizing rd is L with
  | zero =>
    obtain ⟨⟨U, _, h2, _⟩, _⟩ := h
    rw [h2, List.length_append] at hfuel
    omega
  | succ fuel ih =>
    obtain ⟨⟨U, h1, h2, h3, h4, h5⟩, hnl, ht, hcap⟩ := h
    rw [skipRest]
    cases U with
    | nil =>
      have hk : rd.keep = false := by rw [h3]; rfl
      rw [hk]
      exact ⟨rd, is, rfl, ⟨⟨[], rfl, h2, h3, h4, h5⟩, by simp, ht, by simp⟩⟩
    | cons c U =>
      have hk : rd.keep = true := by rw [h3]; rfl
      rw [if_pos hk]
      have hnlU : '\n' ∉ c :: U := fun hm => hnl (by rw [h1]; exact List.mem_append_right _ hm)
      obtain ⟨rd', is', k1, k2, k3, k4⟩ := readChunk_ok eager dbg (rd := { rd with buf := [] })
        (U := c :: U) (by simp) (by simpa using hnlU) ht (by simp) (.inr (by simp)) (h4 (by simp)) h2
      rw [k1, res_ok_bind]
      refine ih k3 ?_
      rw [k4, List.length_append, List.length_drop]
      rw [h2, List.length_append] at hfuel
      simp only [List.nil_append, List.length_cons] at *
      omega

/-- The outer loop: any number of comment lines, then a line that is not empty and no comment. -/
theorem skipLoop_ok (eager dbg : Bool) (comments : List (List Char))
    (hc : ∀ c ∈ comments, '\n' ∉ c) {L tail : List Char} (hL : L ≠ []) (hnl : '\n' ∉ L)
    (hh : L.head? ≠ some '#') (ht : LineEnd tail) (fuel : Nat) (hf : comments.length < fuel)
    {rd : Reader} (hb : rd.buf = []) :
    ∃ rd' is', skipLoop eager dbg fuel rd { rest := commentText comments ++ L ++ tail } =
      .ok (rd', is') ∧ OnLine rd' is' L tail := by
  induction comments generalizing rd fuel with
  | nil =>
    obtain ⟨fuel, rfl⟩ : ∃ k, fuel = k + 1 := ⟨fuel - 1, by simp at hf; omega⟩
    rw [skipLoop]
    simp only [Bool.false_eq_true, if_false, commentText, List.flatMap_nil, List.nil_append]
    obtain ⟨rd', is', k1, k2, k3, _⟩ := readChunk_ok eager dbg (rd := rd)
      (is := { rest := L ++ tail }) (U := L) (tail := tail) hL (by rw [hb]; simpa using hnl) ht
      (by simp [hb]) (.inr (by simp [hb])) rfl rfl
    rw [hb, List.nil_append] at k2 k3
    rw [k1, res_ok_bind]
    refine ⟨rd', is', ?_, k3⟩
    simp only
    cases L with
    | nil => exact absurd rfl hL
    | cons c L =>
      have hc' : c ≠ '#' := by simpa using hh
      rw [k2]
      simp only [List.take_succ_cons]
      split
      · rename_i heq
        simp only [List.cons.injEq] at heq
        exact absurd heq.1 hc'
      · rfl
  | cons c comments ih =>
    obtain ⟨fuel, rfl⟩ : ∃ k, fuel = k + 1 := ⟨fuel - 1, by simp at hf; omega⟩
    rw [skipLoop]
    simp only [Bool.false_eq_true, if_false]
    have hcn : '\n' ∉ '#' :: c := by
      have := hc c (by simp)
      simp [this]
    have htext : commentText (c :: comments) ++ L ++ tail =
        ('#' :: c) ++ ('\n' :: (commentText comments ++ L ++ tail)) := by
      simp [commentText]
    rw [htext]
    obtain ⟨rd', is', k1, k2, k3, _⟩ := readChunk_ok eager dbg (rd := rd)
      (is := { rest := ('#' :: c) ++ ('\n' :: (commentText comments ++ L ++ tail)) })
      (U := '#' :: c) (tail := '\n' :: (commentText comments ++ L ++ tail)) (by simp)
      (by rw [hb]; simpa using hcn) (.inr ⟨_, rfl⟩) (by simp [hb]) (.inr (by simp [hb])) rfl rfl
    rw [hb, List.nil_append] at k2 k3
    rw [k1, res_ok_bind]
    simp only
    rw [k2]
    simp only [List.take_succ_cons]
    obtain ⟨rd2, is2, l1, l2⟩ := skipRest_ok eager dbg (is'.rest.length + 1) k3 (by omega)
    rw [l1, res_ok_bind]
    simp only
    obtain ⟨is3, m1, m2, m3⟩ := nextLine_ok l2
    rw [m1, res_ok_bind]
    rcases m3 with ⟨m3, _⟩ | ⟨more, m3, m4⟩
    · cases m3
    · cases m3
      rw [m4]
      exact ih (fun d hd => hc d (by simp [hd])) fuel (by simp at hf; omega) rfl

theorem commentText_length (comments : List (List Char)) :
    comments.length ≤ (commentText comments).length := by
  induction comments with
  | nil => simp
  | cons c cs ih =>
    simp only [commentText, List.flatMap_cons, List.length_append, List.length_cons] at *
    omega

/-- `skip_comments` before a row that is not empty. -/
theorem skipComments_ok (eager dbg : Bool) (comments : List (List Char))
    (hc : ∀ c ∈ comments, '\n' ∉ c) {L tail : List Char} (hL : L ≠ []) (hnl : '\n' ∉ L)
    (hh : L.head? ≠ some '#') (ht : LineEnd tail) {rd : Reader} (hb : rd.buf = []) :
    ∃ rd' is', skipComments eager dbg rd { rest := commentText comments ++ L ++ tail } =
      .ok (rd', is') ∧ OnLine rd' is' L tail := by
  unfold skipComments
  rw [hb]
  simp only [List.length_nil, ne_eq, not_true_eq_false, decide_false, Bool.and_false,
    Bool.false_eq_true, if_false]
  have hpeek : ∃ c r, commentText comments ++ L ++ tail = c :: r ∧ c ≠ '\n' := by
    cases comments with
    | nil =>
      cases L with
      | nil => exact absurd rfl hL
      | cons c L => exact ⟨c, L ++ tail, rfl, fun e => hnl (by simp [e])⟩
    | cons c cs => exact ⟨'#', _, rfl, by decide⟩
  obtain ⟨c, r, hr, hcn⟩ := hpeek
  have hp : IStream.peek { rest := commentText comments ++ L ++ tail } =
      (some c, { rest := commentText comments ++ L ++ tail }) := by
    rw [hr]; rfl
  rw [hp]
  simp only [Option.some.injEq, hcn, if_false]
  refine skipLoop_ok eager dbg comments hc hL hnl hh ht _ ?_ hb
  have := commentText_length comments
  simp only [List.length_append]
  omega

end Guanaqo.Csv
