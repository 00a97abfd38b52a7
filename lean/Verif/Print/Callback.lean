import Verif.Print.StreamFormat
import Verif.Streambuf.Overrun

/-!
# C128: printing to a `callback_streambuf`

`print.tpp` writing through a `std::ostream` to the stream buffer of `callback-streambuf.hpp`.
-/

namespace Guanaqo.Print.Stream

open Streambuf

/-- Characters of texts stand for bytes. -/
def byte (c : Char) : UInt8 := UInt8.ofNat c.toNat

def bytes (t : Text) : List UInt8 := t.map byte

/-- A `callback_streambuf` as a stream buffer. After undefined behaviour nothing more is said. -/
def callbackSink : Sink (Res SB) := ⟨fun s c =>
  match s with
  | .ok s =>
    match s.sputc (byte c) with
    | .ok s' => (.ok s', true)
    | .error e => (.error e, false)
  | .error e => (.error e, false)⟩

/-- The history of writing a text. -/
def puts (t : Text) : List Op := t.map fun c => .put (byte c)

theorem written_puts (t : Text) : written (puts t) = bytes t := by
  induction t with
  | nil => rfl
  | cons c t ih => rw [puts, List.map_cons, written_cons]; show byte c :: _ = _; unfold bytes; rw [List.map_cons]; congr 1

theorem feed_callback (s : SB) (t : Text) :
    (feed callbackSink (.ok s) t).1 = s.run (puts t) ∧
    ((feed callbackSink (.ok s) t).2.2 = true ↔ ∃ s', s.run (puts t) = .ok s') := by
  induction t generalizing s with
  | nil => exact ⟨rfl, fun _ => ⟨s, rfl⟩, fun _ => rfl⟩
  | cons c t ih =>
    have hrun : s.run (puts (c :: t)) = s.sputc (byte c) >>= fun s => s.run (puts t) := rfl
    rw [hrun]
    cases hs : s.sputc (byte c) with
    | ok s' =>
      rw [feed_true callbackSink (s := .ok s) (s' := .ok s') (c := c) (by simp only [callbackSink, hs])]
      exact ih s'
    | error e =>
      rw [feed_false callbackSink (s := .ok s) (s' := .error e) (c := c) (by simp only [callbackSink, hs])]
      refine ⟨rfl, ?_⟩
      constructor
      · intro h; cases h
      · rintro ⟨s', h⟩; cases h

/-- Undefined behaviour is the only error. -/
theorem run_error {s : SB} {ops : List Op} {e : Fault} (h : s.run ops = .error e) : e = .ub := by
  have hrem : ∀ r e, utf8Remainder r = .error e → e = .ub := by
    intro r e h
    cases r with
    | nil => cases h; rfl
    | cons a r =>
      obtain ⟨k, hk⟩ := remainder_total (r := a :: r) (by simp)
      rw [hk] at h; cases h
  have hsync : ∀ (s : SB) e, s.sync = .error e → e = .ub := by
    intro s e h
    unfold SB.sync at h
    split at h
    · cases hr : utf8Remainder (s.mem.take s.pptr).reverse with
      | error e' => rw [hr] at h; cases h; exact hrem _ _ hr
      | ok k => rw [hr] at h; cases h
    · cases h
  have hstore : ∀ (s : SB) c e, s.store c = .error e → e = .ub := by
    intro s c e h
    unfold SB.store at h
    split at h <;> cases h
    rfl
  have hexec : ∀ (s : SB) op e, s.exec op = .error e → e = .ub := by
    intro s op e h
    cases op with
    | flush => exact hsync s e h
    | put c =>
      simp only [SB.exec, SB.sputc] at h
      split at h
      · exact hstore s c e h
      · simp only [SB.overflow] at h
        cases hs : s.store c with
        | error e' => rw [hs] at h; cases h; exact hstore s c _ hs
        | ok s' => rw [hs] at h; exact hsync s' e h
  induction ops generalizing s with
  | nil => cases h
  | cons op ops ih =>
    rw [SB.run, List.foldlM_cons] at h
    cases hs : s.exec op with
    | error e' => rw [hs] at h; cases h; exact hexec s op _ hs
    | ok s' => rw [hs] at h; exact ih h

/-- Without a spare byte: a text fits exactly if the buffer is at least as long. -/
theorem puts_fit (size : Nat) (t : Text) (hu : Utf8 (bytes t)) :
    (∃ s, (SB.init size 0).run (puts t) = .ok s) ↔ t.length ≤ size := by
  rw [overrun_iff size (puts t) ⟨[], by rw [List.append_nil, written_puts]; exact hu⟩]
  have hno : Op.flush ∉ puts t := by
    intro h
    obtain ⟨c, -, h⟩ := List.mem_map.1 h
    cases h
  constructor
  · intro h
    have := h [] (puts t) [] (by simp) (.inl rfl) hno [] [] rfl ⟨[], rfl⟩ (.inl rfl)
    simpa [puts] using this
  · intro h before burst rest he hb hbu text tail hwr ht hi
    have hbefore : before = [] := by
      rcases hb with hb | hb
      · exact hb
      · exact absurd (by rw [he]; simp [List.mem_of_getLast? hb]) hno
    subst hbefore
    have : tail = [] := by
      have : text ++ tail = [] := hwr.symm
      exact (List.append_eq_nil_iff.1 this).2
    subst this
    have := congrArg List.length he
    simp only [puts, List.length_map, List.length_append, List.length_nil] at this
    simp only [List.length_nil]
    omega

/-- What `Prints` says of a `callback_streambuf`. -/
theorem callback_text {E : Type} {el : ElemS (Res SB) E} {ei : E → List Item} (hel : Inserts callbackSink el ei)
    (size spare : Nat) (rows cols : Nat) (M : Nat → Nat → E) (opts : PrintOpts) :
    let T := printCsvImpl (fun _ v => (ei v).flatMap (Item.render {})) [] rows cols M opts
    let os' := csvS callbackSink el { buf := .ok (SB.init size spare) } rows cols M opts
    os'.buf = (SB.init size spare).run (puts T) ∧
      (os'.good = true ↔ ∃ s, (SB.init size spare).run (puts T) = .ok s) := by
  dsimp only
  rw [csvS_items callbackSink ei hel]
  obtain ⟨t, l, e, ht⟩ := csvItems_head ei rows cols M opts
  have hT := flatMap_csv ei ({} : Format) rfl rows cols M opts []
  rw [List.nil_append, e] at hT
  have hr := renderAll_padded ({} : Format) t l
  rw [(padded_iff _ _ _).2 (Nat.zero_le _), show noWidth ({} : Format) = {} from rfl, hT] at hr
  rw [e, insertAll_spec callbackSink _ _ _ rfl]
  dsimp only
  rw [hr]
  exact feed_callback _ _

/-- **Everything that is printed reaches the callback**: printing a matrix of floating-point numbers to a new
`callback_streambuf`, which is then destroyed, passes exactly the text to the callback, in pieces that are UTF-8 texts,
provided that the text does not exceed the buffer or that there is a spare byte behind it. -/
theorem floats_callback {F : Type} (ff : FloatFormat F) (size spare rows cols : Nat) (M : Nat → Nat → F) (opts : PrintOpts)
    (hu : Utf8 (bytes (printCsvImpl (printElemFloat ff) [] rows cols M opts)))
    (hs : (printCsvImpl (printElemFloat ff) [] rows cols M opts).length ≤ size ∧ spare = 0 ∨ 3 ≤ size ∧ 1 ≤ spare) :
    let os' := csvS callbackSink (floatElemS callbackSink ff) { buf := .ok (SB.init size spare) } rows cols M opts
    ∃ s chunks, os'.buf = .ok s ∧ os'.good = true ∧ s.destroy = .ok chunks ∧
      chunks.flatten = bytes (printCsvImpl (printElemFloat ff) [] rows cols M opts) ∧ ∀ chunk ∈ chunks, Utf8 chunk := by
  obtain ⟨h1, h2⟩ := callback_text (floatElem_inserts callbackSink ff) size spare rows cols M opts
  dsimp only at h1 h2 ⊢
  rw [printCsv_pe (pe' := printElemFloat ff) (fun r c => floatItems_text ff {} (M r c) opts)] at h1 h2
  obtain ⟨s, hrun⟩ : ∃ s, (SB.init size spare).run (puts (printCsvImpl (printElemFloat ff) [] rows cols M opts)) = .ok s := by
    rcases hs with ⟨hs, rfl⟩ | ⟨hs, hs'⟩
    · exact (puts_fit size _ hu).2 hs
    · exact no_overrun_with_spare_partial size spare hs hs' _
  obtain ⟨chunks, h3, h4, h5⟩ := destroy_delivers size spare _ s (by rw [written_puts]; exact hu) hrun
  exact ⟨s, chunks, by rw [h1, hrun], h2.2 ⟨s, hrun⟩, h3, by rw [h4, written_puts], h5⟩

/-- **Exactly when printing overruns the buffer**: if the text is longer than the buffer. -/
theorem floats_overrun_iff {F : Type} (ff : FloatFormat F) (size rows cols : Nat) (M : Nat → Nat → F) (opts : PrintOpts)
    (hu : Utf8 (bytes (printCsvImpl (printElemFloat ff) [] rows cols M opts))) :
    (csvS callbackSink (floatElemS callbackSink ff) { buf := .ok (SB.init size 0) } rows cols M opts).buf = .error .ub ↔
      size < (printCsvImpl (printElemFloat ff) [] rows cols M opts).length := by
  obtain ⟨h1, -⟩ := callback_text (floatElem_inserts callbackSink ff) size 0 rows cols M opts
  rw [printCsv_pe (pe' := printElemFloat ff) (fun r c => floatItems_text ff {} (M r c) opts)] at h1
  rw [h1, ← Nat.not_le, ← puts_fit size _ hu]
  constructor
  · rintro h ⟨s, hs⟩; rw [hs] at h; cases h
  · intro h
    cases hr : (SB.init size 0).run (puts (printCsvImpl (printElemFloat ff) [] rows cols M opts)) with
    | ok s => exact absurd ⟨s, hr⟩ h
    | error e => rw [run_error hr]

/-- ASCII texts are UTF-8 texts. -/
theorem utf8_ascii {t : Text} (h : ∀ c ∈ t, c.toNat < 128) : Utf8 (bytes t) := by
  refine ⟨t, ?_⟩
  induction t with
  | nil => rfl
  | cons c t ih =>
    have hc := h c (by simp)
    have e : String.utf8EncodeChar c = [byte c] := by
      unfold String.utf8EncodeChar byte
      simp only [Char.toNat_val]
      rw [if_pos (by omega)]
    rw [List.flatMap_cons, e, ← ih fun c hc => h c (by simp [hc])]
    rfl

theorem foldl_all {α : Type} {p : Char → Prop} {h : Text → α → Text} (hh : ∀ os a, (∀ c ∈ os, p c) → ∀ c ∈ h os a, p c)
    (l : List α) (os : Text) (hos : ∀ c ∈ os, p c) : ∀ c ∈ l.foldl h os, p c := by
  induction l generalizing os with
  | nil => exact hos
  | cons a l ih => exact ih _ (hh os a hos)

/-- All characters of a printed matrix come from the options or the elements. -/
theorem printCsv_all {E : Type} {pe : PrintOpts → E → Text} {opts : PrintOpts} {M : Nat → Nat → E} {p : Char → Prop}
    (h1 : p opts.indent_char) (h2 : ∀ c ∈ opts.start ++ opts.line_start ++ opts.line_end ++ opts.end ++ opts.delimiter, p c)
    (h3 : ∀ i j, ∀ c ∈ pe opts (M i j), p c) (rows cols : Nat) : ∀ c ∈ printCsvImpl pe [] rows cols M opts, p c := by
  simp only [List.mem_append] at h2
  have happ : ∀ {a b : Text}, (∀ c ∈ a, p c) → (∀ c ∈ b, p c) → ∀ c ∈ a ++ b, p c := by
    intro a b ha hb c hc
    rcases List.mem_append.1 hc with hc | hc
    · exact ha c hc
    · exact hb c hc
  have hind : ∀ c ∈ List.replicate opts.indent opts.indent_char, p c := by
    intro c hc
    obtain ⟨-, rfl⟩ := List.mem_replicate.1 hc
    exact h1
  have hcols : ∀ (r : Nat) (more : Nat → Bool) (os : Text), (∀ c ∈ os, p c) →
      ∀ c ∈ printCols pe opts (M r) cols more os, p c := by
    intro r more os hos
    refine foldl_all (fun os a hos => ?_) _ os hos
    dsimp only
    split
    · exact happ (happ hos (h3 _ _)) fun c hc => h2 c (.inr hc)
    · exact happ hos (h3 _ _)
  unfold printCsvImpl
  dsimp only
  split
  · refine happ (foldl_all (fun os a hos => hcols _ _ _ hos) _ _ ?_) fun c hc => h2 c (.inl (.inr hc))
    exact happ (happ (by simp) hind) fun c hc => h2 c (.inl (.inl (.inl (.inl hc))))
  · refine happ (foldl_all (fun os a hos => ?_) _ _ (by simp)) fun c hc => h2 c (.inl (.inr hc))
    have : ∀ c ∈ printCols pe opts (M a) cols (fun c => decide (c ≠ cols - 1))
        (os ++ List.replicate opts.indent opts.indent_char ++ if a = 0 then opts.start else opts.line_start), p c := by
      refine hcols _ _ _ (happ (happ hos hind) ?_)
      split
      · exact fun c hc => h2 c (.inl (.inl (.inl (.inl hc))))
      · exact fun c hc => h2 c (.inl (.inl (.inl (.inr hc))))
    split
    · exact happ this fun c hc => h2 c (.inl (.inl (.inr hc)))
    · exact this

/-- The text that bytes stand for. -/
def chars (l : List UInt8) : Text := l.map fun b => Char.ofNat b.toNat

theorem chars_bytes {t : Text} (h : ∀ c ∈ t, c.toNat < 128) : chars (bytes t) = t := by
  unfold chars bytes
  rw [List.map_map]
  refine (List.map_congr_left fun c hc => ?_).trans (List.map_id t)
  show Char.ofNat (byte c).toNat = c
  unfold byte
  rw [UInt8.toNat_ofNat_of_lt' (by have := h c hc; exact Nat.lt_trans this (by decide))]
  exact Char.ofNat_toNat c

/-- The texts of integer matrices are ASCII texts. -/
theorem int_text_ascii (col1d row1d : Bool) (rows cols : Nat) (M : Nat → Nat → Int) :
    ∀ c ∈ printCsvImpl printElemInt [] rows cols M (csvOpts ',' col1d row1d), c.toNat < 128 := by
  refine printCsv_all (p := fun c => c.toNat < 128) (show ' '.toNat < 128 by decide) ?_ ?_ rows cols
  · intro c hc
    simp [csvOpts] at hc
    rcases hc with rfl | rfl <;> decide
  · intro i j c hc
    rcases showInt_chars _ c hc with h | rfl
    · have : c.toNat ≤ 57 := by
        simp only [Char.isDigit, Bool.and_eq_true, decide_eq_true_eq] at h
        exact h.2
      omega
    · decide

/-- **From matrix to matrix through the callback**: a matrix of integers is printed to a stream with a `callback_streambuf`, in
a stream without special format, and the stream buffer is destroyed: what the callback has received, read with `csv_read`,
gives the same matrix, whatever follows it. -/
theorem ints_callback_read_partial (bits : Nat) (hb : bits ≤ 64) (eager dbg col1d row1d : Bool)
    (size spare rows cols : Nat) (M : Nat → Nat → Int) (hM : ∀ r c, InRange true bits (M r c))
    (hrows : rows ≠ 0) (hshape : cols ≠ 1 ∨ rows ≤ 1 ∨ col1d = false)
    (hs : (printCsvImpl printElemInt [] rows cols M (csvOpts ',' col1d row1d)).length ≤ size ∧ spare = 0 ∨
      3 ≤ size ∧ 1 ≤ spare) (more : List Char) :
    let os' := csvS callbackSink (intElemS callbackSink true bits) { buf := .ok (SB.init size spare) } rows cols M
      (csvOpts ',' col1d row1d)
    ∃ s chunks, os'.buf = .ok s ∧ os'.good = true ∧ s.destroy = .ok chunks ∧
      Csv.csvRead (Csv.fromCharsInt bits) eager dbg ',' rows cols { rest := chars chunks.flatten ++ more } =
        .ok (rowsOf rows cols M, { rest := more }) := by
  obtain ⟨h1, h2⟩ := callback_text (intElem_inserts callbackSink true bits) size spare rows cols M (csvOpts ',' col1d row1d)
  dsimp only at h1 h2 ⊢
  have hplain : Plain {} true bits := ⟨rfl, rfl, fun ⟨k, g, hg, _⟩ => by cases hg⟩
  have hpe : ∀ r c, (intItems true bits (M r c)).flatMap (Item.render {}) = printElemInt (csvOpts ',' col1d row1d) (M r c) :=
    fun r c => (intItems_text {} true bits (M r c)).trans (plain_text hplain (hM r c))
  rw [printCsv_pe (pe' := printElemInt) hpe] at h1 h2
  have hasc := int_text_ascii col1d row1d rows cols M
  have hu := utf8_ascii hasc
  obtain ⟨s, hrun⟩ : ∃ s, (SB.init size spare).run (puts (printCsvImpl printElemInt [] rows cols M (csvOpts ',' col1d row1d)))
      = .ok s := by
    rcases hs with ⟨hs, rfl⟩ | ⟨hs, hs'⟩
    · exact (puts_fit size _ hu).2 hs
    · exact no_overrun_with_spare_partial size spare hs hs' _
  obtain ⟨chunks, h3, h4, h5⟩ := destroy_delivers size spare _ s (by rw [written_puts]; exact hu) hrun
  refine ⟨s, chunks, by rw [h1, hrun], h2.2 ⟨s, hrun⟩, h3, ?_⟩
  rw [h4, written_puts, chars_bytes hasc]
  exact csv_round_trip_int_partial bits hb eager dbg col1d row1d rows cols M
    (fun r _ c _ => by have := hM r c; simpa [InRange] using this) hrows hshape more

/-- A matrix of 2 × 3 integers through a buffer of 64 bytes. -/
example : ∃ s chunks, (csvS callbackSink (intElemS callbackSink true 32) { buf := .ok (SB.init 64 0) } 2 3
      (fun r c => 10 * r - c) (csvOpts ',' true true)).buf = .ok s ∧ s.destroy = .ok chunks ∧
    chars chunks.flatten = "0,-1,-2\n10,9,8\n".toList := by
  refine ⟨_, _, rfl, rfl, ?_⟩
  decide +kernel

end Guanaqo.Print.Stream
