import Verif.Csv.Ints
import Verif.Misc.FromChars

/-! # Reading integers without `std::from_chars` (C97)

The configuration of `csv.tpp` for standard libraries without `__cpp_lib_to_chars` (csv.tpp:97-131), for the integer types it
supports: `short`, `int`, `long` and `long long`, with 64 bits for `long`. The C library's `strtol` is the model of
`Verif/Misc/FromChars.lean`. The functions that call `read_single` are those of `Verif/Csv/Model.lean` with the conversion as a
parameter (`readBy`, …); `readBy_std` and its relatives show that with the conversion of the other configuration they are the same
functions. -/

namespace Guanaqo.Csv

open FromChars (Ty isSpace scan signedVal)

/-! ## The model -/

/-- csv.tpp:107-131: `read_single` with `strtoll(str, &end, 10)`, `strtol(…)` and, for `int` and `short`, a cast. The text ends at
the first NUL character (the code puts one after the buffer). `errno` is set if the number does not fit `long`. -/
def strtolSingle (t : Ty) (buf : List Char) : Option (Int × List Char) :=
  match scan 10 (buf.takeWhile (· != '\x00')) with
  | none => none
  | some (neg, v, k) =>
    if -2 ^ 63 ≤ signedVal neg v ∧ signedVal neg v < 2 ^ 63 then some (t.cast (signedVal neg v), buf.drop k) else none

section By
variable {F : Type} (single : List Char → Option (F × List Char)) (eager dbg : Bool) (sep : Char)

/-- csv.tpp:26-46, `read`, for any `read_single`. -/
def readBy (rd : Reader) (is : IStream) : Res (F × Reader × IStream) := do
  let (rd, is) ← fill eager dbg rd is
  match single rd.buf with
  | none => throwCsv
  | some (v, []) => .ok (v, { rd with buf := [] }, is)
  | some (v, c :: tail) => if c ≠ sep then throwCsv else .ok (v, { rd with buf := tail }, is)

/-- csv.tpp:160-161, 172-173. -/
def readNBy : Nat → Reader → IStream → Res (List F × Reader × IStream)
  | 0, rd, is => .ok ([], rd, is)
  | n + 1, rd, is => do
    let (v, rd, is) ← readBy single eager dbg sep rd is
    let (vs, rd, is) ← readNBy n rd is
    .ok (v :: vs, rd, is)

/-- csv.tpp:159-162 and 171-174. -/
def readRowWithBy (n : Nat) (rd : Reader) (is : IStream) : Res (List F × Reader × IStream) := do
  let (rd, is) ← skipComments eager dbg rd is
  let (vs, rd, is) ← readNBy single eager dbg sep n rd is
  let is ← nextLine rd is
  .ok (vs, rd, is)

/-- csv.tpp:155-163, `csv_read_row`. -/
def csvReadRowBy (n : Nat) (is : IStream) : Res (List F × IStream) := do
  let (vs, _, is) ← readRowWithBy single eager dbg sep n {} is
  .ok (vs, is)

/-- csv.tpp:170-175. -/
def readRowsBy (cols : Nat) : Nat → Reader → IStream → Res (List (List F) × IStream)
  | 0, _, is => .ok ([], is)
  | rows + 1, rd, is => do
    let (vs, rd, is) ← readRowWithBy single eager dbg sep cols rd is
    let (vss, is) ← readRowsBy cols rows rd is
    .ok (vs :: vss, is)

/-- csv.tpp:165-176, `csv_read`. -/
def csvReadBy (rows cols : Nat) (is : IStream) : Res (List (List F) × IStream) :=
  readRowsBy single eager dbg sep cols rows {} is

/-- csv.tpp:184-185. -/
def readAllBy : Nat → Reader → IStream → Res (List F × Reader × IStream)
  | 0, _, _ => .error .ub
  | fuel + 1, rd, is =>
    let (d, is) := done rd is
    if d then .ok ([], rd, is)
    else do
      let (v, rd, is) ← readBy single eager dbg sep rd is
      let (vs, rd, is) ← readAllBy fuel rd is
      .ok (v :: vs, rd, is)

/-- csv.tpp:178-188, `csv_read_row_std_vector`. -/
def csvReadRowVectorBy (is : IStream) : Res (List F × IStream) := do
  let (rd, is) ← skipComments eager dbg {} is
  let (vs, rd, is) ← readAllBy single eager dbg sep (rd.buf.length + is.rest.length + 1) rd is
  let is ← nextLine rd is
  .ok (vs, is)

end By

section Std
variable {F : Type} (fc : Parser F) (eager dbg : Bool) (sep : Char)

theorem readBy_std : readBy (readSingle fc) eager dbg sep = read fc eager dbg sep := rfl

theorem readNBy_std (n : Nat) : ∀ rd is, readNBy (readSingle fc) eager dbg sep n rd is = readN fc eager dbg sep n rd is := by
  induction n with
  | zero => intro rd is; rfl
  | succ n ih => intro rd is; simp only [readNBy, readN, readBy_std, ih]

theorem readRowWithBy_std (n : Nat) : readRowWithBy (readSingle fc) eager dbg sep n = readRowWith fc eager dbg sep n := by
  funext rd is
  simp only [readRowWithBy, readRowWith, readNBy_std]

theorem csvReadRowBy_std (n : Nat) : csvReadRowBy (readSingle fc) eager dbg sep n = csvReadRow fc eager dbg sep n := by
  funext is
  simp only [csvReadRowBy, csvReadRow, readRowWithBy_std]

theorem csvReadBy_std (rows cols : Nat) : csvReadBy (readSingle fc) eager dbg sep rows cols = csvRead fc eager dbg sep rows cols := by
  funext is
  have : ∀ rows rd is, readRowsBy (readSingle fc) eager dbg sep cols rows rd is = readRows fc eager dbg sep cols rows rd is := by
    intro rows
    induction rows with
    | zero => intro rd is; rfl
    | succ n ih => intro rd is; simp only [readRowsBy, readRows, readRowWithBy_std, ih]
  exact this rows {} is

theorem csvReadRowVectorBy_std : csvReadRowVectorBy (readSingle fc) eager dbg sep = csvReadRowVector fc eager dbg sep := by
  funext is
  have : ∀ fuel rd is, readAllBy (readSingle fc) eager dbg sep fuel rd is = readAll fc eager dbg sep fuel rd is := by
    intro fuel
    induction fuel with
    | zero => intro rd is; rfl
    | succ n ih => intro rd is; simp only [readAllBy, readAll, readBy_std, ih]
  simp only [csvReadRowVectorBy, csvReadRowVector, this]

end Std

/-! ## Specification -/

/-- A line without blanks, NUL characters and `+-`. -/
structure PlainLine (line : List Char) : Prop where
  noBlank : ∀ c ∈ line, isSpace c = false
  noNul : '\x00' ∉ line
  noPlusMinus : ∀ a b, line ≠ a ++ '+' :: '-' :: b

/-- Every line of the text, other than comments, is plain. -/
def PlainText (text : List Char) : Prop := ∀ pre line post, text = pre ++ line ++ post → (pre = [] ∨ ∃ p, pre = p ++ ['\n']) →
  '\n' ∉ line → LineEnd post → line.head? ≠ some '#' → PlainLine line

/-- C97, in full: without `std::from_chars`, the same numbers are read, and the same inputs are rejected. -/
def SameNumbers : Prop := ∀ (t : Ty), t ∈ [Ty.short, .int, .long, .llong] → ∀ (eager dbg : Bool) (sep : Char) (rows cols : Nat)
  (text : List Char) (x : List (List Int) × IStream),
  csvReadBy (strtolSingle t) eager dbg sep rows cols { rest := text } = .ok x ↔
    csvRead (fromCharsInt t.bits) eager dbg sep rows cols { rest := text } = .ok x

/-! ## The conversions -/

theorem PlainLine.infix {line a b c : List Char} (h : PlainLine line) (e : line = a ++ b ++ c) : PlainLine b where
  noBlank x hx := h.noBlank x (by rw [e]; simp [hx])
  noNul hx := h.noNul (by rw [e]; simp [hx])
  noPlusMinus p q he := h.noPlusMinus (a ++ p) (q ++ c) (by rw [e, he]; simp)

theorem plain_nil : PlainLine [] := ⟨by simp, by simp, by simp⟩

theorem isDig_iff (c : Char) : FromChars.isDig 10 c = (digitVal c).isSome := by
  unfold FromChars.isDig FromChars.digitVal digitVal
  by_cases h : '0' ≤ c ∧ c ≤ '9'
  · rw [if_pos h, if_pos h]
    have h9 := h.2
    have : c.toNat ≤ '9'.toNat := h9
    have e9 : '9'.toNat = 57 := by decide
    have e0 : '0'.toNat = 48 := by decide
    simp only [Option.isSome_some, decide_eq_true_eq]
    omega
  · rw [if_neg h, if_neg h]
    simp only [Option.isSome_none, decide_eq_false_iff_not]
    repeat' split
    all_goals omega

theorem value_eq (ds : List Char) (h : ∀ c ∈ ds, (digitVal c).isSome) : FromChars.valueOf 10 ds = digitsVal ds := by
  unfold FromChars.valueOf digitsVal
  have key : ∀ c, (digitVal c).isSome → FromChars.digitVal c = (digitVal c).getD 0 := by
    intro c hc
    unfold digitVal at hc ⊢
    unfold FromChars.digitVal
    split at hc
    · rename_i h; rw [if_pos h, if_pos h]; rfl
    · cases hc
  have all : ∀ z : Nat, ds.foldl (fun v c => v * 10 + FromChars.digitVal c) z = ds.foldl (fun acc c => acc * 10 + (digitVal c).getD 0) z := by
    induction ds with
    | nil => intro z; rfl
    | cons c ds ih =>
      intro z
      simp only [List.foldl_cons]
      rw [key c (h c (by simp))]
      exact ih (fun c hc => h c (by simp [hc])) _
  exact all 0

theorem mem_takeWhile {p : Char → Bool} {l : List Char} {c : Char} (h : c ∈ l.takeWhile p) : p c = true :=
  (FromChars.takeWhile_decomp p l).2.1 c h

theorem takeWhile_id {p : Char → Bool} {l : List Char} (h : ∀ c ∈ l, p c = true) : l.takeWhile p = l := by
  induction l with
  | nil => rfl
  | cons a l ih => simp [h a (by simp), ih (fun c hc => h c (by simp [hc]))]

theorem drop_takeWhile (p : Char → Bool) (l : List Char) : l.drop (l.takeWhile p).length = l.dropWhile p := by
  induction l with
  | nil => rfl
  | cons a l ih =>
    by_cases h : p a = true
    · simp [h, ih]
    · simp [h]

/-- The scan of a text without blanks, after the sign. -/
theorem scan_plain {buf : List Char} (h : PlainLine buf) : scan 10 buf =
    (if ((buf.drop (FromChars.signLen buf)).takeWhile (fun c => (digitVal c).isSome)).isEmpty then none
     else some (buf.head? == some '-', digitsVal ((buf.drop (FromChars.signLen buf)).takeWhile (fun c => (digitVal c).isSome)),
       FromChars.signLen buf + ((buf.drop (FromChars.signLen buf)).takeWhile (fun c => (digitVal c).isSome)).length)) := by
  have hws : buf.takeWhile isSpace = [] := by
    cases buf with
    | nil => rfl
    | cons c l => simp [h.noBlank c (by simp)]
  have hpl : ∀ l, FromChars.prefixLen 10 l = 0 := by
    intro l
    rw [FromChars.prefixLen.eq_def]
    split <;> simp
  have hf : FromChars.isDig 10 = fun c => (digitVal c).isSome := by funext c; exact isDig_iff c
  unfold FromChars.scan
  simp only [hws, List.length_nil, List.drop_zero, hpl, hf, Nat.zero_add, Nat.add_zero]
  generalize hd : (buf.drop (FromChars.signLen buf)).takeWhile (fun c => (digitVal c).isSome) = ds
  have hv : FromChars.valueOf 10 ds = digitsVal ds := by
    apply value_eq
    rw [← hd]
    intro c hc
    simpa using mem_takeWhile hc
  rw [hv]
  by_cases he : ds = [] <;> simp [he]

/-- On plain texts `strtol` is `from_chars` for 64 bits, and a cast. -/
theorem strtol_plain (t : Ty) {buf : List Char} (h : PlainLine buf) :
    strtolSingle t buf = (readSingle (fromCharsInt 64) buf).map (fun p => (t.cast p.1, p.2)) := by
  have h0 : buf.takeWhile (· != '\x00') = buf := by
    apply takeWhile_id
    intro c hc
    simp only [bne_iff_ne, ne_eq]
    rintro rfl; exact h.noNul hc
  have hgen : ∀ (neg : Bool) (body : List Char) (sg : Nat), buf.drop sg = body → FromChars.signLen buf = sg →
      (buf.head? == some '-') = neg →
      strtolSingle t buf = (fromDigits 64 neg body).map (fun p => (t.cast p.1, p.2)) := by
    intro neg body sg hb hs hn
    unfold strtolSingle
    rw [h0, scan_plain h, hs, hb, hn]
    unfold fromDigits
    dsimp only
    rw [← drop_takeWhile, ← hb, List.drop_drop]
    generalize (buf.drop sg).takeWhile (fun c => (digitVal c).isSome) = ds
    by_cases he : ds.isEmpty = true
    · simp [he]
    · simp only [he, Bool.false_eq_true, if_false]
      have : signedVal neg (digitsVal ds) = (if neg = true then -(digitsVal ds : Int) else digitsVal ds) := rfl
      rw [this]
      have e63 : (2 : Int) ^ (64 - 1) = 2 ^ 63 := by norm_num
      rw [e63]
      generalize (if neg = true then -(digitsVal ds : Int) else digitsVal ds) = x
      by_cases hx : -2 ^ 63 ≤ x ∧ x < 2 ^ 63
      · rw [if_pos hx, if_pos hx]; rfl
      · rw [if_neg hx, if_neg hx]; rfl
  cases buf with
  | nil => exact hgen false [] 0 rfl rfl rfl
  | cons c r =>
    by_cases hp : c = '+'
    · subst hp
      have hr : r.head? ≠ some '-' := by
        cases r with
        | nil => simp
        | cons d r =>
          simp only [List.head?_cons, ne_eq, Option.some.injEq]
          rintro rfl
          exact h.noPlusMinus [] r rfl
      rw [show readSingle (fromCharsInt 64) ('+' :: r) = fromCharsInt 64 r from rfl, fromCharsInt_plain 64 hr]
      exact hgen false r 1 rfl rfl rfl
    · have hs : readSingle (fromCharsInt 64) (c :: r) = fromCharsInt 64 (c :: r) := by
        unfold readSingle
        split
        · rename_i heq; cases heq; exact absurd rfl hp
        · rfl
      rw [hs]
      by_cases hm : c = '-'
      · subst hm
        rw [fromCharsInt_minus]
        exact hgen true r 1 rfl rfl rfl
      · rw [fromCharsInt_plain 64 (by simpa using hm)]
        refine hgen false (c :: r) 0 rfl ?_ (by simpa using hm)
        rw [FromChars.signLen.eq_def]
        split
        · rename_i heq; cases heq; exact absurd rfl hp
        · rename_i heq; cases heq; exact absurd rfl hm
        · rfl

/-- `from_chars` for a type is `from_chars` for 64 bits, if the number fits the type. -/
theorem fromChars_narrow (t : Ty) (ht : t ∈ [Ty.short, .int, .long, .llong]) (buf : List Char) :
    readSingle (fromCharsInt t.bits) buf = (readSingle (fromCharsInt 64) buf).bind
      (fun p => if t.Fits p.1 then some p else none) := by
  have hb : t.signed = true ∧ t.bits ≤ 64 := by
    simp only [List.mem_cons, List.not_mem_nil, or_false] at ht
    rcases ht with rfl | rfl | rfl | rfl <;> decide
  have key : ∀ neg body, fromDigits t.bits neg body = (fromDigits 64 neg body).bind (fun p => if t.Fits p.1 then some p else none) := by
    intro neg body
    unfold fromDigits
    dsimp only
    generalize (body.takeWhile (fun c => (digitVal c).isSome)) = ds
    generalize (if neg = true then -(digitsVal ds : Int) else digitsVal ds) = x
    have hfit : t.Fits x ↔ (-(2 ^ (t.bits - 1) : Int) ≤ x ∧ x < (2 ^ (t.bits - 1) : Int)) := by
      unfold FromChars.Ty.Fits
      rw [if_pos hb.1]
    have hpow : (2 ^ (t.bits - 1) : Int) ≤ 2 ^ (64 - 1) := pow_le_pow_right₀ (by norm_num) (by omega)
    by_cases he : ds.isEmpty = true
    · simp [he]
    · simp only [he, Bool.false_eq_true, if_false]
      by_cases h1 : t.Fits x
      · have h2 := hfit.1 h1
        rw [if_pos h2, if_pos ⟨by omega, by omega⟩]
        simp [h1]
      · rw [if_neg (fun h => h1 (hfit.2 h))]
        split
        · simp [h1]
        · rfl
  have key2 : ∀ s, fromCharsInt t.bits s = (fromCharsInt 64 s).bind (fun p => if t.Fits p.1 then some p else none) := by
    intro s
    cases s with
    | nil => exact key false []
    | cons c r =>
      by_cases hm : c = '-'
      · subst hm; exact key true r
      · rw [fromCharsInt_plain _ (by simpa using hm), fromCharsInt_plain _ (by simpa using hm)]
        exact key false _
  unfold readSingle
  split <;> exact key2 _

/-! ## The whole reader -/

/-- The line that the reader is on, as far as it is not processed. -/
def lineOf (rd : Reader) (is : IStream) : List Char := rd.buf ++ is.rest.takeWhile (· != '\n')

/-- What comes after that line. -/
def afterOf (is : IStream) : List Char := is.rest.dropWhile (· != '\n')

/-- The end of the stream is only reported at the end. -/
def EofOk (is : IStream) : Prop := is.eof = true → is.rest = []

theorem peek_state {is is' : IStream} {c : Option Char} (h : is.peek = (c, is')) (he : EofOk is) :
    is'.rest = is.rest ∧ EofOk is' ∧ (is.good = true → c = is.rest.head?) := by
  unfold IStream.peek at h
  split at h
  · rename_i hg
    split at h
    · rename_i hr
      cases h; exact ⟨rfl, fun _ => hr, fun _ => by simp [hr]⟩
    · rename_i hr
      cases h; exact ⟨rfl, he, fun _ => by simp [hr]⟩
  · rename_i hg
    cases h; exact ⟨rfl, he, fun h => absurd h hg⟩

theorem readChunk_line {eager dbg : Bool} {rd rd' : Reader} {is is' : IStream} (h : readChunk eager dbg rd is = .ok (rd', is'))
    (he : EofOk is) : lineOf rd' is' = lineOf rd is ∧ afterOf is' = afterOf is ∧ EofOk is' ∧
      (rd.buf.length ≠ bufmaxsize → rd'.buf ≠ [] ∧ (rd'.keep = false → is'.rest.takeWhile (· != '\n') = [])) := by
  unfold readChunk at h
  split at h
  · cases h
  split at h
  · rename_i hl
    cases h; exact ⟨rfl, rfl, he, fun h => absurd hl h⟩
  rename_i hlen
  dsimp only at h
  generalize hg : is.getBuf eager (bufmaxsize - rd.buf.length) = g at h
  obtain ⟨got, is1⟩ := g
  dsimp only at h
  split at h
  · cases h
  rename_i hnf
  generalize hp : is1.peek = q at h
  obtain ⟨c, is2⟩ := q
  dsimp only at h
  split at h
  · cases h
  cases h
  have hg' : is.good = true := by
    by_contra hb
    simp only [IStream.getBuf, hb, if_false] at hg
    cases hg
    exact hnf rfl
  unfold IStream.getBuf at hg
  rw [if_pos hg'] at hg
  dsimp only at hg
  cases hg
  -- the characters that were read begin the line
  obtain ⟨L, hL⟩ : ∃ L, is.rest.takeWhile (· != '\n') = L := ⟨_, rfl⟩
  obtain ⟨A, hA⟩ : ∃ A, is.rest.dropWhile (· != '\n') = A := ⟨_, rfl⟩
  have hrest : is.rest = L ++ A := by rw [← hL, ← hA, List.takeWhile_append_dropWhile]
  obtain ⟨n, hn⟩ : ∃ n, bufmaxsize - rd.buf.length = n := ⟨_, rfl⟩
  rw [hL, hn] at hp hnf ⊢
  have hdrop : is.rest.drop (L.take n).length = L.drop (L.take n).length ++ A := by
    rw [hrest, List.drop_append_of_le_length (by simp)]
  have hdd : L.drop (L.take n).length = L.drop n := by
    rw [List.length_take]
    by_cases hnl : n ≤ L.length
    · rw [Nat.min_eq_left hnl]
    · rw [Nat.min_eq_right (by omega), List.drop_eq_nil_of_le (le_refl _), List.drop_eq_nil_of_le (by omega)]
  have hLall : ∀ c ∈ L, (c != '\n') = true := by
    intro c hc; rw [← hL] at hc; exact mem_takeWhile (p := fun c => c != '\n') hc
  have hAhead : ∀ c r, A = c :: r → (c != '\n') = false := by
    intro c r hAc
    have := List.head?_dropWhile_not (fun c : Char => c != '\n') is.rest
    rw [hA, hAc] at this
    simpa using this
  have htw : ∀ U : List Char, (∀ c ∈ U, (c != '\n') = true) → (U ++ A).takeWhile (· != '\n') = U ∧ (U ++ A).dropWhile (· != '\n') = A := by
    intro U hU
    rw [List.takeWhile_append_of_pos hU, List.dropWhile_append_of_pos hU]
    cases A with
    | nil => simp
    | cons c r => simp [hAhead c r rfl]
  have hstate := peek_state hp (by
    intro hq
    simp only [Bool.and_eq_true, List.isEmpty_iff] at hq
    exact hq.1)
  obtain ⟨s1, s2, s3⟩ := hstate
  dsimp only at s1
  rw [hdrop, hdd] at s1
  have hU := htw (L.drop n) (fun c hc => hLall c (List.mem_of_mem_drop hc))
  refine ⟨?_, ?_, s2, fun _ => ⟨fun hq => ?_, fun hk => ?_⟩⟩
  · unfold lineOf
    dsimp only
    rw [s1, hU.1, hL, List.append_assoc, List.take_append_drop]
  · unfold afterOf
    rw [s1, hU.2, hA]
  · apply hnf
    have := (List.append_eq_nil_iff.1 hq).2
    simp [this]
  · rw [s1, hU.1]
    simp only [Bool.and_eq_false_iff, decide_eq_false_iff_not, ne_eq, not_not, Bool.not_eq_false'] at hk
    rcases hk with hk | hk
    · -- the next character is a newline
      subst hk
      unfold IStream.peek at hp
      split at hp
      · split at hp
        · cases hp
        · rename_i c r hr
          simp only [Prod.mk.injEq, Option.some.injEq] at hp
          obtain ⟨rfl, -⟩ := hp
          dsimp only at hr
          rw [hdrop, hdd] at hr
          cases hx : L.drop n with
          | nil => rfl
          | cons a b =>
            rw [hx] at hr
            simp only [List.cons_append, List.cons.injEq] at hr
            have := hLall a (List.mem_of_mem_drop (by rw [hx]; simp))
            rw [hr.1] at this
            simp at this
      · cases hp
    · have := s2 hk
      rw [s1] at this
      exact (List.append_eq_nil_iff.1 this).1

theorem skipRest_line {eager dbg : Bool} (fuel : Nat) : ∀ {rd rd' : Reader} {is is' : IStream},
    skipRest eager dbg fuel rd is = .ok (rd', is') → EofOk is → (rd.keep = false → is.rest.takeWhile (· != '\n') = []) →
    afterOf is' = afterOf is ∧ EofOk is' ∧ is'.rest.takeWhile (· != '\n') = [] := by
  induction fuel with
  | zero => intro rd rd' is is' h; cases h
  | succ fuel ih =>
    intro rd rd' is is' h he hk
    rw [skipRest] at h
    split at h
    · obtain ⟨⟨rd1, is1⟩, h1, h2⟩ := res_bind_ok.1 h
      obtain ⟨a, b, c, d⟩ := readChunk_line h1 he
      obtain ⟨p, q, r⟩ := ih h2 c (d (by change (0 : Nat) ≠ 64; decide)).2
      exact ⟨p.trans b, q, r⟩
    · rename_i hkeep
      cases h
      exact ⟨rfl, he, hk (by simpa using hkeep)⟩

theorem nextLine_line {rd : Reader} {is is' : IStream} (h : nextLine rd is = .ok is') (he : EofOk is) :
    EofOk is' ∧ (is.rest = [] ∧ is'.rest = [] ∨ is.rest = '\n' :: is'.rest) := by
  unfold nextLine at h
  split at h
  · cases h
  split at h
  · rename_i hq
    cases h
    exact ⟨he, Or.inl ⟨he hq, he hq⟩⟩
  · rename_i hq
    generalize hg : is.get = g at h
    obtain ⟨c, is1⟩ := g
    dsimp only at h
    split at h
    · cases h
    · rename_i hc
      cases h
      simp only [ne_eq, not_not] at hc
      subst hc
      unfold IStream.get at hg
      split at hg
      · split at hg
        · cases hg
        · rename_i c r hr
          simp only [Prod.mk.injEq, Option.some.injEq] at hg
          obtain ⟨rfl, rfl⟩ := hg
          exact ⟨fun h => absurd h (by simpa using hq), Or.inr hr⟩
      · cases hg

theorem PlainText.next {text L more : List Char} (h : PlainText text) (e : text = L ++ '\n' :: more) : PlainText more := by
  intro pre line post e' hp hl hpost hh
  refine h (L ++ '\n' :: pre) line post (by rw [e, e']; simp) (Or.inr ?_) hl hpost hh
  rcases hp with rfl | ⟨p, rfl⟩
  · exact ⟨L, rfl⟩
  · exact ⟨L ++ '\n' :: p, by simp⟩

theorem after_end (is : IStream) : LineEnd (afterOf is) := by
  cases h : afterOf is with
  | nil => exact Or.inl rfl
  | cons c r =>
    have := List.head?_dropWhile_not (fun c : Char => c != '\n') is.rest
    unfold afterOf at h
    rw [h] at this
    right
    exact ⟨r, by simpa using this⟩

theorem line_after (is : IStream) : is.rest = is.rest.takeWhile (· != '\n') ++ afterOf is :=
  (List.takeWhile_append_dropWhile ..).symm

theorem line_noNl (is : IStream) : '\n' ∉ is.rest.takeWhile (· != '\n') := by
  intro h
  have := mem_takeWhile (p := fun c => c != '\n') h
  simp at this

/-- The reader is on a plain line, and plain lines and comments follow. -/
structure LineOk (rd : Reader) (is : IStream) : Prop where
  line : PlainLine (lineOf rd is)
  after : ∀ more, afterOf is = '\n' :: more → PlainText more
  eof : EofOk is

theorem skipLoop_line {eager dbg : Bool} (fuel : Nat) : ∀ {rd rd' : Reader} {is is' : IStream},
    skipLoop eager dbg fuel rd is = .ok (rd', is') → rd.buf = [] → EofOk is → PlainText is.rest → LineOk rd' is' := by
  induction fuel with
  | zero => intro rd rd' is is' h; cases h
  | succ fuel ih =>
    intro rd rd' is is' h hbuf he hpl
    rw [skipLoop] at h
    split at h
    · rename_i hq
      cases h
      have hr := he hq
      refine ⟨?_, ?_, he⟩
      · unfold lineOf; rw [hbuf, hr]; exact plain_nil
      · intro more hm; unfold afterOf at hm; rw [hr] at hm; cases hm
    · obtain ⟨⟨rd1, is1⟩, h1, h2⟩ := res_bind_ok.1 h
      obtain ⟨a, b, c, d⟩ := readChunk_line h1 he
      have hd := d (by rw [hbuf]; decide)
      dsimp only at h2
      split at h2
      · obtain ⟨⟨rd2, is2⟩, h3, h4⟩ := res_bind_ok.1 h2
        obtain ⟨p, q, r⟩ := skipRest_line _ h3 c hd.2
        obtain ⟨is3, h5, h6⟩ := res_bind_ok.1 h4
        obtain ⟨u, w⟩ := nextLine_line h5 q
        refine ih h6 rfl u ?_
        have hrest : is2.rest = afterOf is := by
          rw [line_after is2, r, List.nil_append, p, b]
        rcases w with ⟨-, w⟩ | w
        · rw [w]
          intro pre line post e _ _ _ _
          have e' := e.symm
          simp only [List.append_eq_nil_iff] at e'
          rw [e'.1.2]; exact plain_nil
        · refine hpl.next (L := is.rest.takeWhile (· != '\n')) ?_
          rw [← w, hrest]; exact line_after is
      · rename_i hne
        cases h2
        have hl : lineOf rd' is' = is.rest.takeWhile (· != '\n') := by
          rw [a]; unfold lineOf; rw [hbuf]; rfl
        refine ⟨?_, ?_, c⟩
        · rw [hl]
          refine hpl [] _ (afterOf is) (by rw [List.nil_append]; exact line_after is) (Or.inl rfl) (line_noNl is) (after_end is) ?_
          rw [← hl]
          unfold lineOf
          cases hb : rd'.buf with
          | nil => exact absurd hb hd.1
          | cons x y =>
            simp only [List.cons_append, List.head?_cons, ne_eq, Option.some.injEq]
            rintro rfl
            exact hne y hb
        · intro more hm
          refine hpl.next (L := is.rest.takeWhile (· != '\n')) ?_
          rw [← hm, b]; exact line_after is

theorem skipComments_line {eager dbg : Bool} {rd rd' : Reader} {is is' : IStream}
    (h : skipComments eager dbg rd is = .ok (rd', is')) (hbuf : rd.buf = []) (he : EofOk is) (hpl : PlainText is.rest) :
    LineOk rd' is' := by
  unfold skipComments at h
  split at h
  · cases h
  split at h
  · rename_i hq
    cases h
    have hr := he hq
    refine ⟨?_, ?_, he⟩
    · unfold lineOf; rw [hbuf, hr]; exact plain_nil
    · intro more hm; unfold afterOf at hm; rw [hr] at hm; cases hm
  · rename_i hq
    generalize hp : is.peek = g at h
    obtain ⟨c, is1⟩ := g
    dsimp only at h
    obtain ⟨s1, s2, s3⟩ := peek_state hp he
    split at h
    · rename_i hc
      cases h
      subst hc
      have hnl : ∃ more, is.rest = '\n' :: more := by
        unfold IStream.peek at hp
        split at hp
        · split at hp
          · cases hp
          · rename_i c r hr
            simp only [Prod.mk.injEq, Option.some.injEq] at hp
            exact ⟨r, by rw [hr, hp.1]⟩
        · cases hp
      obtain ⟨more, hm⟩ := hnl
      refine ⟨?_, ?_, s2⟩
      · unfold lineOf; rw [hbuf, s1, hm]; exact plain_nil
      · intro m hm'
        refine hpl.next (L := []) ?_
        unfold afterOf at hm'
        rw [s1, hm] at hm'
        rw [hm]
        simpa using hm'
    · exact skipLoop_line _ h hbuf s2 (by rw [s1]; exact hpl)

section Related
variable {V W : Type} {s1 : List Char → Option (V × List Char)} {s2 : List Char → Option (W × List Char)} {g : V → Option W}
  (hs : ∀ b, PlainLine b → s2 b = (s1 b).bind (fun p => (g p.1).map (fun w => (w, p.2))))
  (hc : ∀ b v t, s1 b = some (v, t) → ∃ d, b = d ++ t) (eager dbg : Bool) (sep : Char)
include hs hc

theorem readBy_rel {rd : Reader} {is : IStream} (hok : LineOk rd is) :
    (∀ w rd' is', readBy s2 eager dbg sep rd is = .ok (w, rd', is') ↔
      ∃ v, readBy s1 eager dbg sep rd is = .ok (v, rd', is') ∧ g v = some w) ∧
    (∀ v rd' is', readBy s1 eager dbg sep rd is = .ok (v, rd', is') → LineOk rd' is') := by
  unfold readBy
  cases hf : fill eager dbg rd is with
  | error e => constructor <;> intros <;> simp_all
  | ok p =>
    obtain ⟨rd1, is1⟩ := p
    have hok1 : LineOk rd1 is1 := by
      unfold fill at hf
      split at hf
      · obtain ⟨a, b, c, -⟩ := readChunk_line hf hok.eof
        exact ⟨by rw [a]; exact hok.line, by rw [b]; exact hok.after, c⟩
      · cases hf; exact hok
    simp only [res_ok_bind]
    have hbuf : PlainLine rd1.buf := hok1.line.infix (a := []) (c := is1.rest.takeWhile (· != '\n')) rfl
    rw [hs _ hbuf]
    have htail : ∀ v d, s1 rd1.buf = some (v, d) → ∀ t, (d = t ∨ ∃ c, d = c :: t) → LineOk { rd1 with buf := t } is1 := by
      intro v d hd t ht
      obtain ⟨x, hx⟩ := hc _ _ _ hd
      refine ⟨?_, hok1.after, hok1.eof⟩
      have hl := hok1.line
      unfold lineOf at hl ⊢
      rw [hx] at hl
      rcases ht with rfl | ⟨c, rfl⟩
      · exact hl.infix (a := x) (c := []) (by simp)
      · exact hl.infix (a := x ++ [c]) (c := []) (by simp)
    cases h1 : s1 rd1.buf with
    | none => constructor <;> intros <;> simp_all [throwCsv]
    | some q =>
      obtain ⟨v, d⟩ := q
      constructor
      · intro w rd' is'
        cases hg : g v with
        | none =>
          cases d with
          | nil => simp [throwCsv, hg]
          | cons c t =>
            by_cases hcs : c = sep <;> simp [throwCsv, hcs, hg]
        | some w0 =>
          cases d with
          | nil => simp [hg]; tauto
          | cons c t =>
            by_cases hcs : c = sep
            · simp [hcs, hg]; tauto
            · simp [throwCsv, hcs, hg]
      · intro v' rd' is' h
        cases d with
        | nil =>
          simp only [Except.ok.injEq, Prod.mk.injEq] at h
          obtain ⟨-, rfl, rfl⟩ := h
          exact htail v [] h1 [] (Or.inl rfl)
        | cons c t =>
          dsimp only at h
          split at h
          · cases h
          · simp only [Except.ok.injEq, Prod.mk.injEq] at h
            obtain ⟨-, rfl, rfl⟩ := h
            exact htail v _ h1 t (Or.inr ⟨c, rfl⟩)

theorem readNBy_rel (n : Nat) : ∀ {rd : Reader} {is : IStream}, LineOk rd is →
    (∀ ws rd' is', readNBy s2 eager dbg sep n rd is = .ok (ws, rd', is') ↔
      ∃ vs, readNBy s1 eager dbg sep n rd is = .ok (vs, rd', is') ∧ List.Forall₂ (fun v w => g v = some w) vs ws) ∧
    (∀ vs rd' is', readNBy s1 eager dbg sep n rd is = .ok (vs, rd', is') → LineOk rd' is') := by
  induction n with
  | zero =>
    intro rd is hok
    constructor
    · intro ws rd' is'
      simp only [readNBy, Except.ok.injEq, Prod.mk.injEq]
      constructor
      · rintro ⟨rfl, rfl, rfl⟩; exact ⟨[], ⟨rfl, rfl, rfl⟩, .nil⟩
      · rintro ⟨vs, ⟨rfl, rfl, rfl⟩, h⟩; cases h; exact ⟨rfl, rfl, rfl⟩
    · intro vs rd' is' h
      simp only [readNBy, Except.ok.injEq, Prod.mk.injEq] at h
      obtain ⟨-, rfl, rfl⟩ := h
      exact hok
  | succ n ih =>
    intro rd is hok
    obtain ⟨r1, r2⟩ := readBy_rel hs hc eager dbg sep hok
    constructor
    · intro ws rd' is'
      simp only [readNBy, res_bind_ok, Prod.exists, Except.ok.injEq, Prod.mk.injEq]
      constructor
      · rintro ⟨w, rd1, is1, h1, ws', rd2, is2, h2, rfl, rfl, rfl⟩
        obtain ⟨v, h3, h4⟩ := (r1 _ _ _).1 h1
        obtain ⟨vs, h5, h6⟩ := ((ih (r2 _ _ _ h3)).1 _ _ _).1 h2
        exact ⟨v :: vs, ⟨v, rd1, is1, h3, vs, _, _, h5, rfl, rfl, rfl⟩, .cons h4 h6⟩
      · rintro ⟨_, ⟨v, rd1, is1, h3, vs, rd2, is2, h5, rfl, rfl, rfl⟩, h⟩
        cases h with
        | cons h4 h6 =>
          exact ⟨_, rd1, is1, (r1 _ _ _).2 ⟨v, h3, h4⟩, _, _, _, ((ih (r2 _ _ _ h3)).1 _ _ _).2 ⟨vs, h5, h6⟩, rfl, rfl, rfl⟩
    · intro vs rd' is' h
      simp only [readNBy, res_bind_ok, Prod.exists, Except.ok.injEq, Prod.mk.injEq] at h
      obtain ⟨v, rd1, is1, h3, vs, rd2, is2, h5, rfl, rfl, rfl⟩ := h
      exact (ih (r2 _ _ _ h3)).2 _ _ _ h5

theorem readRowWithBy_rel (n : Nat) {rd : Reader} {is : IStream} (hbuf : rd.buf = []) (he : EofOk is) (hpl : PlainText is.rest) :
    (∀ ws rd' is', readRowWithBy s2 eager dbg sep n rd is = .ok (ws, rd', is') ↔
      ∃ vs, readRowWithBy s1 eager dbg sep n rd is = .ok (vs, rd', is') ∧ List.Forall₂ (fun v w => g v = some w) vs ws) ∧
    (∀ vs rd' is', readRowWithBy s1 eager dbg sep n rd is = .ok (vs, rd', is') → rd'.buf = [] ∧ EofOk is' ∧ PlainText is'.rest) := by
  constructor
  · intro ws rd' is'
    simp only [readRowWithBy, res_bind_ok, Prod.exists, Except.ok.injEq, Prod.mk.injEq]
    constructor
    · rintro ⟨rd1, is1, h1, ws', rd2, is2, h2, is3, h3, rfl, rfl, rfl⟩
      obtain ⟨vs, h5, h6⟩ := ((readNBy_rel hs hc eager dbg sep n (skipComments_line h1 hbuf he hpl)).1 _ _ _).1 h2
      exact ⟨vs, ⟨rd1, is1, h1, vs, _, _, h5, _, h3, rfl, rfl, rfl⟩, h6⟩
    · rintro ⟨_, ⟨rd1, is1, h1, vs, rd2, is2, h5, is3, h3, rfl, rfl, rfl⟩, h6⟩
      exact ⟨rd1, is1, h1, _, _, _, ((readNBy_rel hs hc eager dbg sep n (skipComments_line h1 hbuf he hpl)).1 _ _ _).2 ⟨_, h5, h6⟩,
        _, h3, rfl, rfl, rfl⟩
  · intro vs rd' is' h
    simp only [readRowWithBy, res_bind_ok, Prod.exists, Except.ok.injEq, Prod.mk.injEq] at h
    obtain ⟨rd1, is1, h1, vs', rd2, is2, h5, is3, h3, rfl, rfl, rfl⟩ := h
    have hl := (readNBy_rel hs hc eager dbg sep n (skipComments_line h1 hbuf he hpl)).2 _ _ _ h5
    obtain ⟨u, w⟩ := nextLine_line h3 hl.eof
    refine ⟨?_, u, ?_⟩
    · unfold nextLine at h3
      split at h3
      · cases h3
      · rename_i hq
        exact List.length_eq_zero_iff.1 (by omega)
    · rcases w with ⟨-, w⟩ | w
      · rw [w]
        intro pre line post e _ _ _ _
        have e' := e.symm
        simp only [List.append_eq_nil_iff] at e'
        rw [e'.1.2]; exact plain_nil
      · refine hl.after _ ?_
        unfold afterOf; rw [w]; rfl

theorem csvReadRowBy_rel (n : Nat) {text : List Char} (hpl : PlainText text) (ws : List W) (is' : IStream) :
    csvReadRowBy s2 eager dbg sep n { rest := text } = .ok (ws, is') ↔
      ∃ vs, csvReadRowBy s1 eager dbg sep n { rest := text } = .ok (vs, is') ∧ List.Forall₂ (fun v w => g v = some w) vs ws := by
  have r := (readRowWithBy_rel hs hc eager dbg sep n (rd := {}) (is := { rest := text }) rfl (fun h => by cases h) hpl).1
  simp only [csvReadRowBy, res_bind_ok, Prod.exists, Except.ok.injEq, Prod.mk.injEq]
  constructor
  · rintro ⟨ws', rd', is1, h, rfl, rfl⟩
    obtain ⟨vs, h1, h2⟩ := (r _ _ _).1 h
    exact ⟨vs, ⟨vs, rd', _, h1, rfl, rfl⟩, h2⟩
  · rintro ⟨_, ⟨vs, rd', is1, h, rfl, rfl⟩, h2⟩
    exact ⟨ws, rd', _, (r _ _ _).2 ⟨_, h, h2⟩, rfl, rfl⟩

theorem csvReadBy_rel (rows cols : Nat) {text : List Char} (hpl : PlainText text) (ws : List (List W)) (is' : IStream) :
    csvReadBy s2 eager dbg sep rows cols { rest := text } = .ok (ws, is') ↔
      ∃ vs, csvReadBy s1 eager dbg sep rows cols { rest := text } = .ok (vs, is') ∧
        List.Forall₂ (List.Forall₂ (fun v w => g v = some w)) vs ws := by
  have key : ∀ (rows : Nat) (rd : Reader) (is : IStream) (ws : List (List W)) (is' : IStream), rd.buf = [] → EofOk is → PlainText is.rest →
      (readRowsBy s2 eager dbg sep cols rows rd is = .ok (ws, is') ↔ ∃ vs, readRowsBy s1 eager dbg sep cols rows rd is = .ok (vs, is') ∧
        List.Forall₂ (List.Forall₂ (fun v w => g v = some w)) vs ws) := by
    intro rows
    induction rows with
    | zero =>
      intro rd is ws is' hb he hp
      simp only [readRowsBy, Except.ok.injEq, Prod.mk.injEq]
      constructor
      · rintro ⟨rfl, rfl⟩; exact ⟨[], ⟨rfl, rfl⟩, .nil⟩
      · rintro ⟨vs, ⟨rfl, rfl⟩, h⟩; cases h; exact ⟨rfl, rfl⟩
    | succ rows ih =>
      intro rd is ws is' hb he hp
      obtain ⟨r1, r2⟩ := readRowWithBy_rel hs hc eager dbg sep cols hb he hp
      simp only [readRowsBy, res_bind_ok, Prod.exists, Except.ok.injEq, Prod.mk.injEq]
      constructor
      · rintro ⟨w, rd1, is1, h1, ws', is2, h2, rfl, rfl⟩
        obtain ⟨v, h3, h4⟩ := (r1 _ _ _).1 h1
        obtain ⟨k1, k2, k3⟩ := r2 _ _ _ h3
        obtain ⟨vs, h5, h6⟩ := (ih _ _ _ _ k1 k2 k3).1 h2
        exact ⟨v :: vs, ⟨v, rd1, is1, h3, vs, _, h5, rfl, rfl⟩, .cons h4 h6⟩
      · rintro ⟨_, ⟨v, rd1, is1, h3, vs, is2, h5, rfl, rfl⟩, h⟩
        obtain ⟨k1, k2, k3⟩ := r2 _ _ _ h3
        cases h with
        | cons h4 h6 =>
          exact ⟨_, rd1, is1, (r1 _ _ _).2 ⟨v, h3, h4⟩, _, _, (ih _ _ _ _ k1 k2 k3).2 ⟨vs, h5, h6⟩, rfl, rfl⟩
  exact key rows {} _ ws is' rfl (fun h => by cases h) hpl

theorem csvReadRowVectorBy_rel {text : List Char} (hpl : PlainText text) (ws : List W) (is' : IStream) :
    csvReadRowVectorBy s2 eager dbg sep { rest := text } = .ok (ws, is') ↔
      ∃ vs, csvReadRowVectorBy s1 eager dbg sep { rest := text } = .ok (vs, is') ∧ List.Forall₂ (fun v w => g v = some w) vs ws := by
  have hdone : ∀ rd is, LineOk rd is → ∀ d is1, done rd is = (d, is1) → LineOk rd is1 := by
    intro rd is hok d is1 h
    unfold done at h
    generalize hp : is.peek = q at h
    obtain ⟨c, is2⟩ := q
    dsimp only at h
    cases h
    obtain ⟨s1, s2, -⟩ := peek_state hp hok.eof
    refine ⟨?_, ?_, s2⟩
    · have := hok.line; unfold lineOf at this ⊢; rw [s1]; exact this
    · have := hok.after; unfold afterOf at this ⊢; rw [s1]; exact this
  have key : ∀ (fuel : Nat) (rd : Reader) (is : IStream) (ws : List W) (rd' : Reader) (is' : IStream), LineOk rd is →
      (readAllBy s2 eager dbg sep fuel rd is = .ok (ws, rd', is') ↔ ∃ vs, readAllBy s1 eager dbg sep fuel rd is = .ok (vs, rd', is') ∧
        List.Forall₂ (fun v w => g v = some w) vs ws) := by
    intro fuel
    induction fuel with
    | zero => intro rd is ws rd' is' _; simp [readAllBy]
    | succ fuel ih =>
      intro rd is ws rd' is' hok
      simp only [readAllBy]
      generalize hd : done rd is = q
      obtain ⟨d, is1⟩ := q
      have hok1 := hdone _ _ hok _ _ hd
      dsimp only
      cases d with
      | true =>
        simp only [if_true, Except.ok.injEq, Prod.mk.injEq]
        constructor
        · rintro ⟨rfl, rfl, rfl⟩; exact ⟨[], ⟨rfl, rfl, rfl⟩, .nil⟩
        · rintro ⟨vs, ⟨rfl, rfl, rfl⟩, h⟩; cases h; exact ⟨rfl, rfl, rfl⟩
      | false =>
        obtain ⟨r1, r2⟩ := readBy_rel hs hc eager dbg sep hok1
        simp only [Bool.false_eq_true, if_false, res_bind_ok, Prod.exists, Except.ok.injEq, Prod.mk.injEq]
        constructor
        · rintro ⟨w, rd1, is1, h1, ws', rd2, is2, h2, rfl, rfl, rfl⟩
          obtain ⟨v, h3, h4⟩ := (r1 _ _ _).1 h1
          obtain ⟨vs, h5, h6⟩ := (ih _ _ _ _ _ (r2 _ _ _ h3)).1 h2
          exact ⟨v :: vs, ⟨v, rd1, is1, h3, vs, _, _, h5, rfl, rfl, rfl⟩, .cons h4 h6⟩
        · rintro ⟨_, ⟨v, rd1, is1, h3, vs, rd2, is2, h5, rfl, rfl, rfl⟩, h⟩
          cases h with
          | cons h4 h6 =>
            exact ⟨_, rd1, is1, (r1 _ _ _).2 ⟨v, h3, h4⟩, _, _, _, (ih _ _ _ _ _ (r2 _ _ _ h3)).2 ⟨vs, h5, h6⟩, rfl, rfl, rfl⟩
  simp only [csvReadRowVectorBy, res_bind_ok, Prod.exists, Except.ok.injEq, Prod.mk.injEq]
  constructor
  · rintro ⟨rd1, is1, h1, ws', rd2, is2, h2, is3, h3, rfl, rfl⟩
    obtain ⟨vs, h5, h6⟩ := (key _ _ _ _ _ _ (skipComments_line h1 rfl (fun h => by cases h) hpl)).1 h2
    exact ⟨vs, ⟨rd1, is1, h1, vs, _, _, h5, _, h3, rfl, rfl⟩, h6⟩
  · rintro ⟨_, ⟨rd1, is1, h1, vs, rd2, is2, h5, is3, h3, rfl, rfl⟩, h6⟩
    exact ⟨rd1, is1, h1, _, _, _, (key _ _ _ _ _ _ (skipComments_line h1 rfl (fun h => by cases h) hpl)).2 ⟨_, h5, h6⟩, _, h3, rfl, rfl⟩

end Related

/-! ## C97 -/

theorem cast_of_fits (t : Ty) (ht : t ∈ [Ty.short, .int, .long, .llong]) {x : Int} (hx : t.Fits x) : t.cast x = x := by
  simp only [List.mem_cons, List.not_mem_nil, or_false] at ht
  unfold FromChars.Ty.Fits at hx
  unfold FromChars.Ty.cast
  rcases ht with rfl | rfl | rfl | rfl <;>
    simp only [FromChars.Ty.signed, FromChars.Ty.bits, if_true] at hx ⊢ <;>
    exact Int.bmod_eq_of_le (by omega) (by omega)

theorem fits_cast (t : Ty) (ht : t ∈ [Ty.short, .int, .long, .llong]) (x : Int) : t.Fits (t.cast x) := by
  simp only [List.mem_cons, List.not_mem_nil, or_false] at ht
  unfold FromChars.Ty.Fits FromChars.Ty.cast
  rcases ht with rfl | rfl | rfl | rfl <;>
    simp only [FromChars.Ty.signed, FromChars.Ty.bits, if_true]
  · have h1 := Int.le_bmod (x := x) (m := 2 ^ 16) (by norm_num)
    have h2 := Int.bmod_lt (x := x) (m := 2 ^ 16) (by norm_num)
    omega
  · have h1 := Int.le_bmod (x := x) (m := 2 ^ 32) (by norm_num)
    have h2 := Int.bmod_lt (x := x) (m := 2 ^ 32) (by norm_num)
    omega
  · have h1 := Int.le_bmod (x := x) (m := 2 ^ 64) (by norm_num)
    have h2 := Int.bmod_lt (x := x) (m := 2 ^ 64) (by norm_num)
    omega
  · have h1 := Int.le_bmod (x := x) (m := 2 ^ 64) (by norm_num)
    have h2 := Int.bmod_lt (x := x) (m := 2 ^ 64) (by norm_num)
    omega

/-- Lists related element by element by a relation that is a function on a subset. -/
theorem forall₂_fun {α β : Type} {R : α → β → Prop} {f : α → β} {P : α → Prop} (hR : ∀ v w, R v w ↔ w = f v ∧ P v) :
    ∀ (vs : List α) (ws : List β), List.Forall₂ R vs ws ↔ ws = vs.map f ∧ ∀ v ∈ vs, P v := by
  intro vs
  induction vs with
  | nil =>
    intro ws
    constructor
    · intro h; cases h; exact ⟨rfl, by simp⟩
    · rintro ⟨rfl, -⟩; exact .nil
  | cons v vs ih =>
    intro ws
    constructor
    · intro h
      cases h with
      | cons h1 h2 =>
        obtain ⟨rfl, a⟩ := (hR _ _).1 h1
        obtain ⟨rfl, b⟩ := (ih _).1 h2
        exact ⟨rfl, by simpa using ⟨a, b⟩⟩
    · rintro ⟨rfl, h⟩
      have h1 := h v (by simp)
      exact .cons ((hR _ _).2 ⟨rfl, h1⟩) ((ih _).2 ⟨rfl, fun x hx => h x (by simp [hx])⟩)

theorem forall₂_map {α β : Type} (f : α → β) (vs : List α) (ws : List β) :
    List.Forall₂ (fun v w => some (f v) = some w) vs ws ↔ ws = vs.map f := by
  rw [forall₂_fun (f := f) (P := fun _ => True) (by intro v w; simp [eq_comm])]
  simp

theorem forall₂_map2 {α β : Type} (f : α → β) (vs : List (List α)) (ws : List (List β)) :
    List.Forall₂ (List.Forall₂ (fun v w => some (f v) = some w)) vs ws ↔ ws = vs.map (List.map f) := by
  rw [forall₂_fun (f := List.map f) (P := fun _ => True) (by intro v w; rw [forall₂_map]; simp)]
  simp

theorem forall₂_filter (P : Int → Prop) [DecidablePred P] (vs ws : List Int) :
    List.Forall₂ (fun v w => (if P v then some v else none) = some w) vs ws ↔ ws = vs ∧ ∀ v ∈ vs, P v := by
  rw [forall₂_fun (f := id) (P := P) (by
    intro v w
    by_cases h : P v
    · simp [h, eq_comm]
    · simp [h])]
  simp

theorem forall₂_filter2 (P : Int → Prop) [DecidablePred P] (vs ws : List (List Int)) :
    List.Forall₂ (List.Forall₂ (fun v w => (if P v then some v else none) = some w)) vs ws ↔ ws = vs ∧ ∀ l ∈ vs, ∀ v ∈ l, P v := by
  rw [forall₂_fun (f := id) (P := fun l => ∀ v ∈ l, P v) (by intro v w; rw [forall₂_filter]; simp)]
  simp

theorem std_consumes (bits : Nat) (b : List Char) (v : Int) (t : List Char) (h : readSingle (fromCharsInt bits) b = some (v, t)) :
    ∃ d, b = d ++ t := by
  have hok := fromCharsInt_ok bits ',' (by decide) (by decide)
  unfold readSingle at h
  split at h
  · obtain ⟨d, -, hd⟩ := hok.consumes _ _ _ h
    exact ⟨'+' :: d, by rw [hd]; rfl⟩
  · obtain ⟨d, -, hd⟩ := hok.consumes _ _ _ h
    exact ⟨d, hd⟩

theorem strtol_rel (t : Ty) (b : List Char) (h : PlainLine b) : strtolSingle t b =
    (readSingle (fromCharsInt 64) b).bind (fun p => (some (t.cast p.1)).map (fun w => (w, p.2))) := by
  rw [strtol_plain t h]
  cases readSingle (fromCharsInt 64) b <;> rfl

theorem narrow_rel (t : Ty) (ht : t ∈ [Ty.short, .int, .long, .llong]) (b : List Char) : readSingle (fromCharsInt t.bits) b =
    (readSingle (fromCharsInt 64) b).bind (fun p => ((fun v => if t.Fits v then some v else none) p.1).map (fun w => (w, p.2))) := by
  rw [fromChars_narrow t ht]
  cases readSingle (fromCharsInt 64) b with
  | none => rfl
  | some p =>
    obtain ⟨v, r⟩ := p
    simp only [Option.bind_some]
    by_cases h : t.Fits v
    · rw [if_pos h, if_pos h]; rfl
    · rw [if_neg h, if_neg h]; rfl

variable (t : Ty) (eager dbg : Bool) (sep : Char) {text : List Char}

/-- C97. On plain texts: the numbers that are read are those of `long`, each cast to the type; `csv_read` fails exactly when it
fails for `long` with `from_chars`. -/
theorem fallback_csv_read (hpl : PlainText text) (rows cols : Nat) (ws : List (List Int)) (is' : IStream) :
    csvReadBy (strtolSingle t) eager dbg sep rows cols { rest := text } = .ok (ws, is') ↔
      ∃ vs, csvRead (fromCharsInt 64) eager dbg sep rows cols { rest := text } = .ok (vs, is') ∧ ws = vs.map (List.map t.cast) := by
  rw [csvReadBy_rel (g := fun v => some (t.cast v)) (strtol_rel t) (std_consumes 64) eager dbg sep rows cols hpl, csvReadBy_std]
  simp only [forall₂_map2]

/-- The same for `csv_read_row`. -/
theorem fallback_csv_read_row (hpl : PlainText text) (n : Nat) (ws : List Int) (is' : IStream) :
    csvReadRowBy (strtolSingle t) eager dbg sep n { rest := text } = .ok (ws, is') ↔
      ∃ vs, csvReadRow (fromCharsInt 64) eager dbg sep n { rest := text } = .ok (vs, is') ∧ ws = vs.map t.cast := by
  rw [csvReadRowBy_rel (g := fun v => some (t.cast v)) (strtol_rel t) (std_consumes 64) eager dbg sep n hpl, csvReadRowBy_std]
  simp only [forall₂_map]

/-- The same for `csv_read_row_std_vector`. -/
theorem fallback_csv_read_vector (hpl : PlainText text) (ws : List Int) (is' : IStream) :
    csvReadRowVectorBy (strtolSingle t) eager dbg sep { rest := text } = .ok (ws, is') ↔
      ∃ vs, csvReadRowVector (fromCharsInt 64) eager dbg sep { rest := text } = .ok (vs, is') ∧ ws = vs.map t.cast := by
  rw [csvReadRowVectorBy_rel (g := fun v => some (t.cast v)) (strtol_rel t) (std_consumes 64) eager dbg sep hpl, csvReadRowVectorBy_std]
  simp only [forall₂_map]

/-- `from_chars` for the type: that for `long`, if all numbers fit. -/
theorem narrow_csv_read (ht : t ∈ [Ty.short, .int, .long, .llong]) (hpl : PlainText text) (rows cols : Nat) (ws : List (List Int))
    (is' : IStream) : csvRead (fromCharsInt t.bits) eager dbg sep rows cols { rest := text } = .ok (ws, is') ↔
      ∃ vs, csvRead (fromCharsInt 64) eager dbg sep rows cols { rest := text } = .ok (vs, is') ∧ ws = vs ∧ ∀ l ∈ vs, ∀ v ∈ l, t.Fits v := by
  rw [← csvReadBy_std, csvReadBy_rel (g := fun v => if t.Fits v then some v else none) (fun b _ => narrow_rel t ht b) (std_consumes 64) eager
    dbg sep rows cols hpl, csvReadBy_std]
  simp only [forall₂_filter2]

/-- C97. On plain texts the two configurations read the same numbers and accept the same texts, if (and only if, see below) the
numbers in the text that fit `long` also fit the type. Missing: blanks, NUL characters, `+-`, and numbers that do not fit. -/
theorem fallback_same_partial (ht : t ∈ [Ty.short, .int, .long, .llong]) (hpl : PlainText text) (rows cols : Nat)
    (hfit : ∀ vs is', csvRead (fromCharsInt 64) eager dbg sep rows cols { rest := text } = .ok (vs, is') → ∀ l ∈ vs, ∀ v ∈ l, t.Fits v)
    (x : List (List Int) × IStream) :
    csvReadBy (strtolSingle t) eager dbg sep rows cols { rest := text } = .ok x ↔
      csvRead (fromCharsInt t.bits) eager dbg sep rows cols { rest := text } = .ok x := by
  obtain ⟨ws, is'⟩ := x
  rw [fallback_csv_read t eager dbg sep hpl, narrow_csv_read t eager dbg sep ht hpl]
  constructor
  · rintro ⟨vs, h, rfl⟩
    refine ⟨vs, h, ?_, hfit vs _ h⟩
    have := hfit vs _ h
    conv_rhs => rw [← List.map_id vs]
    refine List.map_congr_left fun l hl => ?_
    conv_rhs => rw [show id l = l.map id by simp]
    exact List.map_congr_left fun v hv => cast_of_fits t ht (this l hl v hv)
  · rintro ⟨vs, h, rfl, hf⟩
    refine ⟨_, h, ?_⟩
    conv_lhs => rw [← List.map_id ws]
    refine List.map_congr_left fun l hl => ?_
    conv_lhs => rw [show id l = l.map id by simp]
    exact (List.map_congr_left fun v hv => cast_of_fits t ht (hf l hl v hv)).symm

/-- Numbers that do not fit: one configuration refuses the text, the other one reads other numbers. -/
theorem fallback_wraps (ht : t ∈ [Ty.short, .int, .long, .llong]) (hpl : PlainText text) (rows cols : Nat)
    {vs : List (List Int)} {is' : IStream} (h : csvRead (fromCharsInt 64) eager dbg sep rows cols { rest := text } = .ok (vs, is'))
    (hbad : ∃ l ∈ vs, ∃ v ∈ l, ¬ t.Fits v) :
    (∀ x, csvRead (fromCharsInt t.bits) eager dbg sep rows cols { rest := text } ≠ .ok x) ∧
    ∃ ws, csvReadBy (strtolSingle t) eager dbg sep rows cols { rest := text } = .ok (ws, is') ∧ ws ≠ vs := by
  constructor
  · rintro ⟨ws, is2⟩ hw
    rw [narrow_csv_read t eager dbg sep ht hpl] at hw
    obtain ⟨vs', h1, rfl, h2⟩ := hw
    rw [h] at h1
    cases h1
    obtain ⟨l, hl, v, hv, hn⟩ := hbad
    exact hn (h2 l hl v hv)
  · refine ⟨vs.map (List.map t.cast), (fallback_csv_read t eager dbg sep hpl rows cols _ _).2 ⟨vs, h, rfl⟩, fun e => ?_⟩
    obtain ⟨l, hl, v, hv, hn⟩ := hbad
    have h2 : ∀ l ∈ vs.map (List.map t.cast), ∀ v ∈ l, t.Fits v := by
      intro l hl v hv
      obtain ⟨l', -, rfl⟩ := List.mem_map.1 hl
      obtain ⟨v', -, rfl⟩ := List.mem_map.1 hv
      exact fits_cast t ht v'
    rw [e] at h2
    exact hn (h2 l hl v hv)

/-- False in general: 70000 is read as 4464 for `short`. -/
theorem not_sameNumbers : ¬ SameNumbers := by
  intro h
  have := (h .short (by decide) true true ',' 1 1 "70000".toList ([[4464]], { rest := [], eof := true, fail := true })).1 (by decide +kernel)
  exact absurd this (by decide +kernel)

/-- Blanks before a number are accepted, and a blank separator is skipped with them, so empty fields are too; `+-5` is refused. -/
theorem fallback_blanks :
    csvReadBy (strtolSingle .long) true true ',' 1 2 { rest := "1, 5".toList } = .ok ([[1, 5]], { rest := [], eof := true, fail := true }) ∧
    csvRead (fromCharsInt 64) true true ',' 1 2 { rest := "1, 5".toList } = throwCsv ∧
    csvReadBy (strtolSingle .long) true true '\t' 1 2 { rest := "1\t\t5".toList } = .ok ([[1, 5]], { rest := [], eof := true, fail := true }) ∧
    csvRead (fromCharsInt 64) true true '\t' 1 2 { rest := "1\t\t5".toList } = throwCsv ∧
    csvReadBy (strtolSingle .long) true true ',' 1 1 { rest := "+-5".toList } = throwCsv ∧
    csvRead (fromCharsInt 64) true true ',' 1 1 { rest := "+-5".toList } = .ok ([[-5]], { rest := [], eof := true, fail := true }) := by
  decide +kernel

theorem plainText_line {L : List Char} (hn : '\n' ∉ L) (hL : L.head? ≠ some '#' → PlainLine L) : PlainText L := by
  intro pre line post e hp hl hpost hh
  have h1 : pre = [] := by
    rcases hp with rfl | ⟨p, rfl⟩
    · rfl
    · exact absurd (by rw [e]; simp) hn
  have h2 : post = [] := by
    rcases hpost with rfl | ⟨p, rfl⟩
    · rfl
    · exact absurd (by rw [e]; simp) hn
  subst h1; subst h2
  rw [List.nil_append, List.append_nil] at e
  rw [← e]; exact hL (by rw [e]; exact hh)

theorem plainText_cons {L more : List Char} (hn : '\n' ∉ L) (hL : L.head? ≠ some '#' → PlainLine L) (hm : PlainText more) :
    PlainText (L ++ '\n' :: more) := by
  intro pre line post e hp hl hpost hh
  rcases hp with rfl | ⟨p, rfl⟩
  · rw [List.nil_append] at e
    have : line = L := by
      have := congrArg (List.takeWhile (· != '\n')) e
      rw [LineEnd.takeWhile hn (Or.inr ⟨more, rfl⟩), LineEnd.takeWhile hl hpost] at this
      exact this.symm
    subst this; exact hL hh
  · have e' : L ++ '\n' :: more = p ++ '\n' :: (line ++ post) := by rw [e]; simp
    rcases List.append_eq_append_iff.1 e' with ⟨a, h1, h2⟩ | ⟨a, h1, h2⟩
    · cases a with
      | nil =>
        simp only [List.nil_append, List.cons.injEq, true_and] at h2
        exact hm [] line post (by rw [h2]; rfl) (Or.inl rfl) hl hpost hh
      | cons x a =>
        simp only [List.cons_append, List.cons.injEq] at h2
        obtain ⟨rfl, h2⟩ := h2
        exact hm (a ++ ['\n']) line post (by rw [h2]; simp) (Or.inr ⟨a, rfl⟩) hl hpost hh
    · cases a with
      | nil =>
        simp only [List.nil_append, List.cons.injEq, true_and] at h2
        exact hm [] line post (by rw [← h2]; rfl) (Or.inl rfl) hl hpost hh
      | cons x a =>
        simp only [List.cons_append, List.cons.injEq] at h2
        exact absurd (by rw [h1, ← h2.1]; simp) hn

theorem plainLine_of {line : List Char} (h1 : ∀ c ∈ line, isSpace c = false) (h2 : '\x00' ∉ line) (h3 : ¬ ['+', '-'] <:+: line) :
    PlainLine line := ⟨h1, h2, fun a b e => h3 ⟨a, b, by rw [e]; simp⟩⟩

/-- The hypotheses hold for a file with a comment (with blanks in it), signs, and the smallest and largest numbers. -/
example : PlainText "# a b\n+1,-32768\n32767,0\n".toList ∧
    csvRead (fromCharsInt 64) true true ',' 2 2 { rest := "# a b\n+1,-32768\n32767,0\n".toList } =
      .ok ([[1, -32768], [32767, 0]], { rest := [] }) ∧ (∀ l ∈ [[1, -32768], [32767, 0]], ∀ v ∈ l, Ty.short.Fits v) := by
  refine ⟨?_, by decide +kernel, by decide⟩
  exact plainText_cons (L := "# a b".toList) (by decide +kernel) (fun h => absurd (by decide +kernel) h)
    (plainText_cons (L := "+1,-32768".toList) (by decide +kernel) (fun _ => plainLine_of (by decide +kernel) (by decide +kernel) (by decide +kernel))
    (plainText_cons (L := "32767,0".toList) (by decide +kernel) (fun _ => plainLine_of (by decide +kernel) (by decide +kernel) (by decide +kernel))
    (plainText_line (by decide +kernel) (fun _ => plain_nil))))

end Guanaqo.Csv
