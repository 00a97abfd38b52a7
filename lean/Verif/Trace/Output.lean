import Verif.Trace.Line
import Verif.Print.StreamFormat

/-! # Writing a trace to a stream (C139): trace.hpp:108-118

`operator<<` of a record and `write_column_headings` on a stream with any format, state and stream buffer, and files made of them. -/

namespace Guanaqo.Trace

open Guanaqo.Print (Text showNat showInt)
open Guanaqo.Print.Stream

variable {σ : Type} (S : Sink σ)

/-- trace.hpp:108-112: `operator<<(std::ostream &, const Log &)`. `std::quoted` inserts the quoted text as one string; instance and flop count are
`int64_t`, the times have a signed 64-bit representation, and the thread is a `size_t`. -/
def lineS (l : Log) (os : OStream σ) : OStream σ :=
  let os := (os.str S (quoted l.name.toList)).str S [',']
  let os := (os.num S true 64 l.inst).str S [',']
  let os := (os.num S true 64 l.start).str S [',']
  let os := (os.num S true 64 l.duration).str S [',']
  let os := (os.num S false 64 l.tid).str S [',']
  os.num S true 64 l.flop

/-- trace.hpp:115-118: `write_column_headings`. -/
def headingsS (os : OStream σ) : OStream σ :=
  let os := (os.str S "name".toList).str S [',']
  let os := (os.str S "instance".toList).str S [',']
  let os := (os.str S "start_time".toList).str S [',']
  let os := (os.str S "duration".toList).str S [',']
  let os := (os.str S "thread_id".toList).str S [',']
  os.str S "flop_count".toList

/-- What a user writes: the headings and one line for each record. -/
def fileS (logs : List Log) (os : OStream σ) : OStream σ :=
  logs.foldl (fun os l => (lineS S l os).str S ['\n']) ((headingsS S os).str S ['\n'])

/-- The text of that file. -/
def file (logs : List Log) : Text := headings ++ '\n' :: logs.flatMap fun l => line l.name.toList l ++ ['\n']

/-- The numbers of a record are in the range of their types. -/
def Log.InRange (l : Log) : Prop :=
  Print.Stream.InRange true 64 l.inst ∧ Print.Stream.InRange true 64 l.start ∧ Print.Stream.InRange true 64 l.duration ∧
    Print.Stream.InRange false 64 l.tid ∧ Print.Stream.InRange true 64 l.flop

/-! ## As insertions -/

def lineItems (l : Log) : List Item :=
  [.text (quoted l.name.toList), .text [','], .num true 64 l.inst, .text [','], .num true 64 l.start, .text [','],
    .num true 64 l.duration, .text [','], .num false 64 l.tid, .text [','], .num true 64 l.flop]

def headingsItems : List Item :=
  [.text "name".toList, .text [','], .text "instance".toList, .text [','], .text "start_time".toList, .text [','],
    .text "duration".toList, .text [','], .text "thread_id".toList, .text [','], .text "flop_count".toList]

def fileItems (logs : List Log) : List Item :=
  headingsItems ++ .text ['\n'] :: logs.flatMap fun l => lineItems l ++ [.text ['\n']]

theorem lineS_items (l : Log) (os : OStream σ) : lineS S l os = insertAll S (lineItems l) os := rfl

theorem headingsS_items (os : OStream σ) : headingsS S os = insertAll S headingsItems os := rfl

theorem fileS_items (logs : List Log) (os : OStream σ) : fileS S logs os = insertAll S (fileItems logs) os := by
  unfold fileS fileItems
  have e : (headingsS S os).str S ['\n'] = insertAll S (headingsItems ++ [.text ['\n']]) os := rfl
  rw [e]
  have key : ∀ (logs : List Log) (l₀ : List Item), logs.foldl (fun os l => (lineS S l os).str S ['\n']) (insertAll S l₀ os) =
      insertAll S (l₀ ++ logs.flatMap fun l => lineItems l ++ [.text ['\n']]) os := by
    intro logs
    induction logs with
    | nil => intro l₀; simp
    | cons l logs ih =>
      intro l₀
      have e : (lineS S l (insertAll S l₀ os)).str S ['\n'] = insertAll S (l₀ ++ (lineItems l ++ [.text ['\n']])) os := by
        rw [insertAll_append, lineS_items, insertAll_append]; rfl
      rw [List.foldl_cons, e, ih, List.flatMap_cons, List.append_assoc]
  rw [key, List.append_assoc]; rfl

/-- The text of a record with the integers in the format of the stream. -/
def lineIn (f : Format) (l : Log) : Text :=
  quoted l.name.toList ++ [','] ++ numText (noWidth f) true 64 l.inst ++ [','] ++ numText (noWidth f) true 64 l.start ++ [','] ++
    numText (noWidth f) true 64 l.duration ++ [','] ++ numText (noWidth f) false 64 l.tid ++ [','] ++ numText (noWidth f) true 64 l.flop

theorem renderText (f : Format) (t : Text) : Item.render (noWidth f) (.text t) = t := render_text (f := noWidth f) rfl t

theorem flatMap_line (f : Format) (l : Log) : (lineItems l).flatMap (Item.render (noWidth f)) = lineIn f l := by
  simp only [lineItems, lineIn, List.flatMap_cons, List.flatMap_nil, Item.render, List.append_assoc, List.append_nil]
  have : ∀ t : Text, pad (noWidth f) [] t = t := renderText f
  simp only [this]

theorem flatMap_headings (f : Format) : headingsItems.flatMap (Item.render (noWidth f)) = headings := by
  simp only [headingsItems, List.flatMap_cons, List.flatMap_nil, renderText]
  decide +kernel

theorem flatMap_file (f : Format) (logs : List Log) : (fileItems logs).flatMap (Item.render (noWidth f)) =
    headings ++ '\n' :: logs.flatMap fun l => lineIn f l ++ ['\n'] := by
  unfold fileItems
  rw [List.flatMap_append, flatMap_headings, List.flatMap_cons, renderText]
  congr 1
  rw [List.cons_append, List.nil_append]
  congr 1
  induction logs with
  | nil => rfl
  | cons l logs ih =>
    rw [List.flatMap_cons, List.flatMap_append, List.flatMap_append, ih, flatMap_line, List.flatMap_cons, List.flatMap_cons, renderText]
    rfl

theorem prints_items (t : Text) (l : List Item) (os : OStream σ) (h : os.good = true) :
    Prints S os (insertAll S (.text t :: l) os) t.length ((Item.text t :: l).flatMap (Item.render (noWidth os.fmt))) := by
  obtain ⟨⟨h1, h2⟩, h3⟩ := insertAll_wrote S t l os h
  exact ⟨h1, h2, h3⟩

/-! ## C139 -/

/-- **C139**: what a line, the headings and a file are on any good stream, whatever its format and stream buffer: the text up to where the
buffer refuses a character, with the integers in the format of the stream, and the first string (the quoted name, "name") padded to its width. -/
theorem trace_stream (os : OStream σ) (h : os.good = true) :
    (∀ l, Prints S os (lineS S l os) (quoted l.name.toList).length (lineIn os.fmt l)) ∧ Prints S os (headingsS S os) 4 headings ∧
      ∀ logs, Prints S os (fileS S logs os) 4 (headings ++ '\n' :: logs.flatMap fun l => lineIn os.fmt l ++ ['\n']) := by
  refine ⟨fun l => ?_, ?_, fun logs => ?_⟩
  · rw [lineS_items, ← flatMap_line]; exact prints_items S _ _ os h
  · rw [headingsS_items, ← flatMap_headings os.fmt]; exact prints_items S _ _ os h
  · rw [fileS_items, ← flatMap_file]; exact prints_items S _ _ os h

/-- Nothing is written to a stream that is not good. -/
theorem trace_bad_stream (os : OStream σ) (h : os.good = false) :
    (∀ l, lineS S l os = os) ∧ headingsS S os = os ∧ ∀ logs, fileS S logs os = os :=
  ⟨fun l => by rw [lineS_items, insertAll_bad S _ h], by rw [headingsS_items, insertAll_bad S _ h],
    fun logs => by rw [fileS_items, insertAll_bad S _ h]⟩

/-- In plain formats the integers look as usual. -/
theorem lineIn_plain {f : Format} (h1 : Plain f true 64) (h2 : Plain f false 64) {l : Log} (hl : l.InRange) :
    lineIn f l = line l.name.toList l := by
  obtain ⟨a, b, c, d, e⟩ := hl
  unfold lineIn line
  rw [plain_text h1 a, plain_text h1 b, plain_text h1 c, plain_text h2 d, plain_text h1 e]
  rfl

theorem numText_ne_nil (f : Format) (signed : Bool) (bits : Nat) (x : Int) : 1 ≤ (numText (noWidth f) signed bits x).length := by
  have key : ∀ ds : Text, ds ≠ [] → 1 ≤ (group f ds).length := fun ds h =>
    Nat.le_trans (List.length_pos_iff.2 h) (group_length f ds)
  have hd : ∀ b n, Nat.toDigits b n ≠ [] := fun b n => Nat.toDigits_ne_nil
  rw [numText_noWidth, List.length_append]
  unfold numParts
  cases f.base with
  | other =>
    have := key _ (hd 10 x.natAbs)
    dsimp only; omega
  | oct =>
    have := key _ (hd 8 (x % 2 ^ bits).toNat)
    dsimp only; rw [List.length_append]; omega
  | hex =>
    have hu : toUpper f (Nat.toDigits 16 (x % 2 ^ bits).toNat) ≠ [] := by
      unfold toUpper
      split
      · simp
      · exact hd 16 _
    have := key _ hu
    dsimp only; omega

/-- A one-character prefix of texts of at least one character each. -/
theorem five_zeros {a b c d e : Text} (ha : 1 ≤ a.length) (hb : 1 ≤ b.length) (hc : 1 ≤ c.length) (hd : 1 ≤ d.length) (he : 1 ≤ e.length)
    (h : a ++ [','] ++ b ++ [','] ++ c ++ [','] ++ d ++ [','] ++ e = "0,0,0,0,0".toList) :
    a = ['0'] ∧ b = ['0'] ∧ c = ['0'] ∧ d = ['0'] ∧ e = ['0'] := by
  have hl := congrArg List.length h
  simp only [List.length_append, List.length_cons, List.length_nil] at hl
  have hz : ("0,0,0,0,0".toList).length = 9 := by decide +kernel
  rw [hz] at hl
  have one : ∀ t : Text, 1 ≤ t.length → t.length ≤ 1 → ∃ x, t = [x] := fun t h1 h2 => List.length_eq_one_iff.1 (by omega)
  obtain ⟨a, rfl⟩ := one a ha (by omega)
  obtain ⟨b, rfl⟩ := one b hb (by omega)
  obtain ⟨c, rfl⟩ := one c hc (by omega)
  obtain ⟨d, rfl⟩ := one d hd (by omega)
  obtain ⟨e, rfl⟩ := one e he (by omega)
  have hs : "0,0,0,0,0".toList = ['0', ',', '0', ',', '0', ',', '0', ',', '0'] := by decide +kernel
  rw [hs] at h
  simp only [List.cons_append, List.nil_append, List.cons.injEq, and_true, true_and] at h
  simp [h]

theorem showInt_zero : showInt 0 = ['0'] := by decide +kernel

theorem showNat_zero : showNat 0 = ['0'] := by decide +kernel

/-- A text that is padded and yet the same: its width is no larger than its first string. -/
theorem padded_quotes {f : Format} {T T' : Text} (hT : ∃ r, T' = '0' :: r) (h : padded f 2 ('"' :: '"' :: ',' :: T) = '"' :: '"' :: ',' :: T') :
    f.width ≤ 2 := by
  obtain ⟨r, rfl⟩ := hT
  refine Classical.byContradiction fun hw => ?_
  obtain ⟨n, hn⟩ : ∃ n, f.width - 2 = n + 1 := ⟨f.width - 3, by omega⟩
  unfold padded at h
  rw [hn] at h
  split at h
  · cases n with
    | zero => simp at h
    | succ n => simp [List.replicate_succ] at h; exact absurd (h.1.symm.trans h.2.1) (by decide)
  · cases n with
    | zero => simp at h
    | succ n =>
      cases n with
      | zero => simp [List.replicate_succ] at h
      | succ n =>
        simp only [List.replicate_succ, List.cons_append, List.cons.injEq] at h
        exact absurd (h.1.symm.trans h.2.2.1) (by decide)

/-- **C139**, exactly: if the stream buffer accepts everything, all records are written as usual if and only if the width of the stream is at most
two (the quotes), and its format is decimal, without plus signs and without grouping of the digits of 64-bit numbers. -/
theorem trace_format_iff (hS : ∀ s c, (S.put s c).2 = true) (os : OStream σ) (h : os.good = true) :
    (∀ l : Log, l.InRange → (lineS S l os).out = os.out ++ line l.name.toList l) ↔
      os.fmt.width ≤ 2 ∧ Plain os.fmt true 64 ∧ Plain os.fmt false 64 := by
  have hacc : ∀ (t : Text) (s : σ), accepts S s t = t.length := by
    intro t
    induction t with
    | nil => intro s; rfl
    | cons c t ih => intro s; simp only [accepts, hS, if_true, ih, List.length_cons]
  have hout : ∀ l, (lineS S l os).out = os.out ++ padded os.fmt (quoted l.name.toList).length (lineIn os.fmt l) := by
    intro l
    rw [((trace_stream S os h).1 l).1, hacc, List.take_length]
  constructor
  · intro H
    have H : ∀ l : Log, l.InRange → padded os.fmt (quoted l.name.toList).length (lineIn os.fmt l) = line l.name.toList l := by
      intro l hl
      have := H l hl
      rw [hout] at this
      exact List.append_cancel_left this
    have hz : ∀ s, Print.Stream.InRange s 64 0 := fun s => inRange_small (by decide) (by decide) (by decide)
    have hq : quoted "".toList = ['"', '"'] := by decide +kernel
    have h0 : (quoted (({} : Log).name).toList) = ['"', '"'] := hq
    have hw : os.fmt.width ≤ 2 := by
      have := H {} ⟨hz _, hz _, hz _, hz _, hz _⟩
      unfold lineIn line at this
      rw [h0] at this
      simp only [List.cons_append, List.nil_append, List.length_cons, List.length_nil, List.append_assoc, showInt_zero, showNat_zero] at this
      exact padded_quotes ⟨_, rfl⟩ this
    have H' : ∀ (i s d : Int) (t : Nat) (fl : Int), Print.Stream.InRange true 64 i → Print.Stream.InRange true 64 s →
        Print.Stream.InRange true 64 d → Print.Stream.InRange false 64 t → Print.Stream.InRange true 64 fl →
        numText (noWidth os.fmt) true 64 i ++ [','] ++ numText (noWidth os.fmt) true 64 s ++ [','] ++ numText (noWidth os.fmt) true 64 d ++
          [','] ++ numText (noWidth os.fmt) false 64 t ++ [','] ++ numText (noWidth os.fmt) true 64 fl =
        showInt i ++ [','] ++ showInt s ++ [','] ++ showInt d ++ [','] ++ showNat t ++ [','] ++ showInt fl := by
      intro i s d t fl a b c e g
      have := H { name := "", inst := i, start := s, duration := d, tid := t, flop := fl } ⟨a, b, c, e, g⟩
      dsimp only at this
      rw [hq, (padded_iff _ _ _).2 (by simpa using hw)] at this
      unfold lineIn line at this
      dsimp only at this
      rw [hq] at this
      simp only [List.append_assoc] at this ⊢
      exact List.append_cancel_left (List.append_cancel_left this)
    have hzero := H' 0 0 0 0 0 (hz _) (hz _) (hz _) (hz _) (hz _)
    rw [showInt_zero, showNat_zero] at hzero
    obtain ⟨z1, -, -, z4, -⟩ := five_zeros (numText_ne_nil _ _ _ _) (numText_ne_nil _ _ _ _) (numText_ne_nil _ _ _ _) (numText_ne_nil _ _ _ _)
      (numText_ne_nil _ _ _ _) (hzero.trans (by decide +kernel))
    refine ⟨hw, (plain_iff _ _ _ (by decide)).1 fun x hx => ?_, (plain_iff _ _ _ (by decide)).1 fun x hx => ?_⟩
    · have := H' x 0 0 0 0 hx (hz _) (hz _) (hz _) (hz _)
      rw [z1, z4, showInt_zero, showNat_zero] at this
      simp only [List.append_assoc] at this
      exact List.append_cancel_right this
    · obtain ⟨n, rfl⟩ : ∃ n : Nat, x = n := Int.eq_ofNat_of_zero_le (by
        unfold Print.Stream.InRange at hx; simp only [Bool.false_eq_true, if_false] at hx; exact hx.1)
      have := H' 0 0 0 n 0 (hz _) (hz _) (hz _) hx (hz _)
      rw [z1, showInt_zero] at this
      simp only [List.append_assoc, List.cons_append, List.nil_append, List.cons.injEq, true_and] at this
      exact List.append_cancel_right this
  · rintro ⟨hw, h1, h2⟩ l hl
    rw [hout, (padded_iff _ _ _).2, lineIn_plain h1 h2 hl]
    have : 2 ≤ (quoted l.name.toList).length := by unfold quoted; simp
    omega

/-- **C139**: a file determines all records in it, in order, whatever characters are in the names. -/
theorem file_injective {a b : List Log} (h : file a = file b) : a = b := by
  have nonl : ∀ (n : Nat), '\n' ∉ showNat n := by
    intro n hc
    exact absurd (Nat.isDigit_of_mem_toDigits (b := 10) (n := n) (by decide) (by decide) hc) (by decide)
  have nonlI : ∀ (x : Int), '\n' ∉ showInt x := by
    intro x hc
    cases x with
    | ofNat n => exact nonl n hc
    | negSucc n =>
      rcases List.mem_cons.1 hc with h | h
      · cases h
      · exact nonl (n + 1) h
  have last : ∀ {a b r s : Text}, '\n' ∉ a → '\n' ∉ b → a ++ '\n' :: r = b ++ '\n' :: s → a = b ∧ r = s := by
    intro a
    induction a with
    | nil =>
      intro b r s _ hb h
      cases b with
      | nil => simpa using h
      | cons c b => simp at h; exact absurd List.mem_cons_self (h.1 ▸ hb)
    | cons x a ih =>
      intro b r s ha hb h
      cases b with
      | nil => simp at h; exact absurd h.1 (fun e => ha (by simp [e]))
      | cons c b =>
        simp only [List.cons_append, List.cons.injEq] at h
        obtain ⟨rfl, h⟩ := h
        obtain ⟨rfl, rfl⟩ := ih (fun hc => ha (by simp [hc])) (fun hc => hb (by simp [hc])) h
        exact ⟨rfl, rfl⟩
  have h : (a.flatMap fun l => line l.name.toList l ++ ['\n']) = b.flatMap fun l => line l.name.toList l ++ ['\n'] :=
    (List.cons.inj (List.append_cancel_left h)).2
  induction a generalizing b with
  | nil =>
    cases b with
    | nil => rfl
    | cons l b => simp at h
  | cons l a ih =>
    cases b with
    | nil => simp at h
    | cons l' b =>
      rw [List.flatMap_cons, List.flatMap_cons] at h
      have eline : ∀ (n : List Char) (l : Log) (r : Text), (line n l ++ ['\n']) ++ r = quoted n ++ ',' :: (showInt l.inst ++ ',' ::
          (showInt l.start ++ ',' :: (showInt l.duration ++ ',' :: (showNat l.tid ++ ',' :: (showInt l.flop ++ '\n' :: r))))) := by
        intro n l r; simp [line]
      rw [eline, eline] at h
      have h0 := congrArg unquote h
      rw [quoted_round_trip, quoted_round_trip] at h0
      simp only [Option.some.injEq, Prod.mk.injEq, List.cons.injEq, true_and] at h0
      obtain ⟨h1, h2⟩ := h0
      obtain ⟨a1, h2⟩ := field_unique (showInt_no_comma _) (showInt_no_comma _) h2
      obtain ⟨a2, h2⟩ := field_unique (showInt_no_comma _) (showInt_no_comma _) h2
      obtain ⟨a3, h2⟩ := field_unique (showInt_no_comma _) (showInt_no_comma _) h2
      obtain ⟨a4, h2⟩ := field_unique (showNat_no_comma _) (showNat_no_comma _) h2
      obtain ⟨a5, h2⟩ := last (nonlI _) (nonlI _) h2
      have el : l = l' := by
        obtain ⟨n, i, s, d, t, f⟩ := l
        obtain ⟨n', i', s', d', t', f'⟩ := l'
        dsimp only at *
        rw [String.ext_iff.2 h1, showInt_inj a1, showInt_inj a2, showInt_inj a3, showNat_inj a4, showInt_inj a5]
      rw [el, ih (show file a = file b by unfold file; rw [h2]) h2]

/-- The full statement of **C139**: on every good stream with a buffer that accepts everything, a record is written as in the default format. -/
def AnyFormat : Prop := ∀ (fmt : Format) (l : Log), l.InRange →
  (lineS (σ := Unit) ⟨fun s _ => (s, true)⟩ l { fmt := fmt, buf := () }).out = line l.name.toList l

/-- False: after `std::hex`, say. -/
theorem not_anyFormat : ¬ AnyFormat := by
  intro h
  have := (trace_format_iff (σ := Unit) ⟨fun s _ => (s, true)⟩ (fun _ _ => rfl) { fmt := { base := .hex }, buf := () } rfl).1
    (fun l hl => h { base := .hex } l hl)
  exact absurd this.2.1.1 (by decide)

/-- With the default format, and a buffer that accepts everything, a file is its text, and good. -/
theorem file_default_partial (hS : ∀ s c, (S.put s c).2 = true) (os : OStream σ) (h : os.good = true) (hf : os.fmt = {}) (logs : List Log)
    (hl : ∀ l ∈ logs, l.InRange) : (fileS S logs os).out = os.out ++ file logs ∧ (fileS S logs os).good = true := by
  have hacc : ∀ (t : Text) (s : σ), accepts S s t = t.length := by
    intro t
    induction t with
    | nil => intro s; rfl
    | cons c t ih => intro s; simp only [accepts, hS, if_true, ih, List.length_cons]
  have hp : ∀ s, Plain os.fmt s 64 := by
    intro s; rw [hf]
    refine ⟨rfl, rfl, ?_⟩
    rintro ⟨k, g, hg, _⟩
    cases hg
  obtain ⟨h1, h2, _⟩ := (trace_stream S os h).2.2 logs
  have e : (headings ++ '\n' :: logs.flatMap fun l => lineIn os.fmt l ++ ['\n']) = file logs := by
    unfold file
    have e' : (logs.flatMap fun l => lineIn os.fmt l ++ ['\n']) = logs.flatMap fun l => line l.name.toList l ++ ['\n'] :=
      by rw [List.flatMap_def, List.flatMap_def, List.map_congr_left fun l hm => by rw [lineIn_plain (hp true) (hp false) (hl l hm)]]
    rw [e']
  rw [e, (padded_iff _ _ _).2 (by rw [hf]; exact Nat.zero_le _)] at h1 h2
  rw [hacc, List.take_length] at h1
  exact ⟨h1, h2.2 (hacc _ _)⟩

/-- A stream into a text. -/
def intoText : Sink Unit := ⟨fun s _ => (s, true)⟩

example : String.ofList (fileS intoText [{ name := "a,\"b\"", inst := -1, start := 5, duration := 7, tid := 3, flop := 12 }] { buf := () }).out =
    "name,instance,start_time,duration,thread_id,flop_count\n\"a,\\\"b\\\"\",-1,5,7,3,12\n" := by decide +kernel

/-- `os << std::setw(8) << std::hex << log`. -/
example : String.ofList (lineS intoText { name := "f", inst := -1, start := 255 } { fmt := { width := 8, base := .hex }, buf := () }).out =
    "     \"f\",ffffffffffffffff,ff,0,0,0" := by decide +kernel

end Guanaqo.Trace
