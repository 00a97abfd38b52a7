import Verif.Print.Layout
import Verif.Csv.Ints

/-!
# C43: reading with `csv_read` what `print_csv` wrote
-/

namespace Guanaqo.Print

open Guanaqo.Csv

/-- The options of `print_csv` that matter here: the defaults with a separator character, and the
vector options free. -/
def csvOpts (sep : Char) (col1d row1d : Bool) : PrintOpts :=
  { delimiter := [sep], column_vector_as_1d := col1d, row_vector_as_1d := row1d }

/-- The text of an element reads back as the element. -/
structure ReadsBack {F : Type} (fc : Parser F) (sep : Char) (text : Text) (v : F) : Prop where
  value : numberOf fc text = some v
  short : text.length ≤ 63
  nosep : sep ∉ text
  noline : '\n' ∉ text
  nocomment : text.head? ≠ some '#'

theorem ReadsBack.ne_nil {F : Type} {fc : Parser F} {sep : Char} {text : Text} {v : F}
    (hok : fc.Ok sep) (h : ReadsBack fc sep text v) : text ≠ [] := by
  intro e
  have := h.value
  rw [e, numberOf_nil hok] at this
  cases this

theorem rowFields_sepBy {sep : Char} {l : List Text} (hs : ∀ t ∈ l, sep ∉ t) (hne : ∀ t ∈ l, t ≠ []) :
    rowFields sep (sepBy [sep] l) = l := by
  by_cases hl : l = []
  · subst hl; exact rowFields_nil sep
  · unfold rowFields sepBy
    simp only [List.splitOn_intercalate sep hs hl]
    rw [if_neg]
    intro h
    exact hne [] (List.mem_of_getLast? h) rfl

theorem mapM_some {α β : Type} (f : α → Option β) (g : α → β) (l : List α)
    (h : ∀ a ∈ l, f a = some (g a)) : l.mapM f = some (l.map g) := by
  induction l with
  | nil => rfl
  | cons a l ih =>
    rw [List.mapM_cons, h a (by simp), ih (fun b hb => h b (by simp [hb]))]
    rfl

theorem mem_sepBy {sep : Char} {l : List Text} {c : Char} (h : c ∈ sepBy [sep] l) :
    c = sep ∨ ∃ t ∈ l, c ∈ t := by
  induction l with
  | nil => simp [sepBy] at h
  | cons a l ih =>
    cases l with
    | nil => simp only [sepBy, List.intercalate_singleton] at h; exact .inr ⟨a, by simp, h⟩
    | cons b l =>
      rw [sepBy, List.intercalate_cons_cons, ← sepBy] at h
      simp only [List.mem_append, List.mem_singleton] at h
      rcases h with (h | h) | h
      · exact .inr ⟨a, by simp, h⟩
      · exact .inl h
      · rcases ih h with h | ⟨t, ht, hc⟩
        · exact .inl h
        · exact .inr ⟨t, by simp [ht], hc⟩

theorem head_sepBy {sep : Char} {l : List Text} (hne : ∀ t ∈ l, t ≠ []) (c : Char)
    (h : (sepBy [sep] l).head? = some c) : ∃ t ∈ l, t.head? = some c := by
  cases l with
  | nil => simp [sepBy] at h
  | cons a l =>
    refine ⟨a, by simp, ?_⟩
    have ha := hne a (by simp)
    cases l with
    | nil => simpa [sepBy] using h
    | cons b l =>
      rw [sepBy, List.intercalate_cons_cons] at h
      cases a with
      | nil => exact absurd rfl ha
      | cons x a => simpa using h

/-- The text of a matrix is one line for each row. -/
theorem print_csv_lines {E : Type} (pe : PrintOpts → E → Text) (sep : Char) (col1d row1d : Bool)
    (rows cols : Nat) (M : Nat → Nat → E) (hr : rows ≠ 0)
    (hshape : cols ≠ 1 ∨ rows ≤ 1 ∨ col1d = false) :
    printCsvImpl pe [] rows cols M (csvOpts sep col1d row1d) =
      ((rowsOf rows cols (fun r c => pe (csvOpts sep col1d row1d) (M r c))).flatMap
        (fun row => sepBy [sep] row ++ ['\n'])) := by
  rw [print_csv_layout_partial pe [] rows cols M _ (.inl hr), List.nil_append]
  unfold layout
  simp only
  split
  · rename_i h
    have h1 : rows = 1 := by
      rcases h with ⟨h1, h2⟩ | ⟨h1, _⟩
      · have : col1d = true := h2
        rcases hshape with h3 | h3 | h3
        · exact absurd h1 h3
        · omega
        · rw [h3] at this; cases this
      · exact h1
    subst h1
    simp [csvOpts, rowsOf]
  · have : (rowsOf rows cols (fun r c => pe (csvOpts sep col1d row1d) (M r c))).mapIdx (fun r row =>
        List.replicate (csvOpts sep col1d row1d).indent (csvOpts sep col1d row1d).indent_char ++
          (if r = 0 then (csvOpts sep col1d row1d).start else (csvOpts sep col1d row1d).line_start) ++
          sepBy (csvOpts sep col1d row1d).delimiter row) =
        (rowsOf rows cols (fun r c => pe (csvOpts sep col1d row1d) (M r c))).map (sepBy [sep]) := by
      apply List.ext_getElem
      · simp
      · intro i h1 h2
        simp [csvOpts]
    rw [this]
    have hne : rowsOf rows cols (fun r c => pe (csvOpts sep col1d row1d) (M r c)) ≠ [] := by
      intro e
      have := congrArg List.length e
      simp [rowsOf] at this
      exact hr this
    revert hne
    generalize rowsOf rows cols (fun r c => pe (csvOpts sep col1d row1d) (M r c)) = L
    intro hne
    obtain ⟨l, x, rfl⟩ : ∃ l x, L = l ++ [x] :=
      ⟨L.dropLast, L.getLast hne, (List.dropLast_concat_getLast hne).symm⟩
    rw [List.map_append, List.map_singleton, sepBy_snoc, List.flatMap_append, List.flatMap_map]
    simp [csvOpts]

/-- C43, full statement: reading with `csv_read` what `print_csv` wrote gives the same matrix. -/
def RoundTrip : Prop :=
  ∀ (fc : Parser Int) (pe : PrintOpts → Int → Text) (eager dbg : Bool) (rows cols : Nat)
    (M : Nat → Nat → Int), fc.Ok ',' →
    (∀ opts, ∀ r < rows, ∀ c < cols, ReadsBack fc ',' (pe opts (M r c)) (M r c)) →
    ∃ is', csvRead fc eager dbg ',' rows cols { rest := printCsvImpl pe [] rows cols M {} } =
      .ok (rowsOf rows cols M, is')

/-- C43, for all matrices but column vectors with several rows printed as vectors: reading with
`csv_read` what `print_csv` wrote gives the same matrix, and what follows the text in the stream is
left in place. -/
theorem csv_round_trip_partial {F : Type} (fc : Parser F) (pe : PrintOpts → F → Text) (sep : Char)
    (hok : fc.Ok sep) (hplus : sep ≠ '+') (hline : sep ≠ '\n') (eager dbg : Bool)
    (col1d row1d : Bool) (rows cols : Nat) (M : Nat → Nat → F)
    (hread : ∀ r < rows, ∀ c < cols,
      ReadsBack fc sep (pe (csvOpts sep col1d row1d) (M r c)) (M r c))
    (hrows : rows ≠ 0) (hshape : cols ≠ 1 ∨ rows ≤ 1 ∨ col1d = false) (more : List Char) :
    csvRead fc eager dbg sep rows cols
        { rest := printCsvImpl pe [] rows cols M (csvOpts sep col1d row1d) ++ more } =
      .ok (rowsOf rows cols M, { rest := more }) := by
  rw [print_csv_lines pe sep col1d row1d rows cols M hrows hshape]
  let texts (r : Nat) : List Text :=
    (List.range cols).map (fun (c : Nat) => pe (csvOpts sep col1d row1d) (M r c))
  let file : List RowText := (List.range rows).map (fun (r : Nat) => ⟨[], sepBy [sep] (texts r)⟩)
  have hprop : ∀ r < rows, ∀ t ∈ texts r, ∃ v, ReadsBack fc sep t v := by
    intro r hr t ht
    obtain ⟨c, hc, rfl⟩ := List.mem_map.1 ht
    exact ⟨_, hread r hr c (List.mem_range.1 hc)⟩
  have hfields : ∀ r < rows, rowFields sep (sepBy [sep] (texts r)) = texts r := by
    intro r hr
    apply rowFields_sepBy
    · intro t ht; obtain ⟨v, hv⟩ := hprop r hr t ht; exact hv.nosep
    · intro t ht; obtain ⟨v, hv⟩ := hprop r hr t ht; exact hv.ne_nil hok
  have hOk : ∀ q ∈ file, q.Ok sep := by
    intro q hq
    obtain ⟨r, hr, rfl⟩ := List.mem_map.1 hq
    have hr := List.mem_range.1 hr
    refine ⟨by simp, ?_, ?_, ?_, fun _ => rfl⟩
    · intro h
      rcases mem_sepBy h with h | ⟨t, ht, h⟩
      · exact hline h.symm
      · obtain ⟨v, hv⟩ := hprop r hr t ht
        exact hv.noline h
    · intro h
      obtain ⟨t, ht, h⟩ := head_sepBy
        (fun t ht => by obtain ⟨v, hv⟩ := hprop r hr t ht; exact hv.ne_nil hok) _ h
      obtain ⟨v, hv⟩ := hprop r hr t ht
      exact hv.nocomment h
    · intro f hf
      rw [hfields r hr] at hf
      obtain ⟨v, hv⟩ := hprop r hr f hf
      exact hv.short
  have h := csv_read_exact fc sep hok hplus eager dbg cols file hOk more
  have hm : file.mapM (fun q => rowSpec fc sep cols q.line) = some (rowsOf rows cols M) := by
    have : file.mapM (fun q => rowSpec fc sep cols q.line) =
        (List.range rows).mapM (fun (r : Nat) => rowSpec fc sep cols (sepBy [sep] (texts r))) := by
      show (List.map _ _).mapM _ = _
      rw [List.mapM_map]
      rfl
    rw [this]
    apply mapM_some
    intro r hr
    have hr := List.mem_range.1 hr
    unfold rowSpec
    rw [hfields r hr, if_pos (by simp [texts])]
    show (List.map _ _).mapM _ = _
    rw [List.mapM_map]
    apply mapM_some
    intro c hc
    exact (hread r hr c (List.mem_range.1 hc)).value
  rw [hm] at h
  have hlen : file.length = rows := by simp [file]
  have htext : fileText file = (rowsOf rows cols (fun r c => pe (csvOpts sep col1d row1d) (M r c))).flatMap
      (fun row => sepBy [sep] row ++ ['\n']) := by
    simp only [fileText, file, rowsOf, List.flatMap_map]
    rfl
  rw [hlen, htext] at h
  exact h

/-! ## Integers -/

theorem digitVal_digit {c : Char} (h : c.isDigit = true) : digitVal c = some (c.toNat - '0'.toNat) := by
  have : '0' ≤ c ∧ c ≤ '9' := by
    simp only [Char.isDigit, Bool.and_eq_true, decide_eq_true_eq] at h
    exact ⟨h.1, h.2⟩
  simp [digitVal, this]

theorem digitsVal_showNat (n : Nat) : digitsVal (showNat n) = n := by
  have h : ∀ (l : List Char), (∀ c ∈ l, c.isDigit = true) → ∀ a,
      l.foldl (fun acc c => acc * 10 + (digitVal c).getD 0) a = Nat.ofDigitChars 10 l a := by
    intro l
    induction l with
    | nil => intro _ a; simp
    | cons c l ih =>
      intro hl a
      rw [List.foldl_cons, ih (fun d hd => hl d (by simp [hd])), Nat.ofDigitChars_cons,
        digitVal_digit (hl c (by simp)), Nat.mul_comm a 10]
      rfl
  rw [digitsVal, h (showNat n) (fun c hc => Nat.isDigit_of_mem_toDigits (by decide) (by decide) hc) 0]
  exact Nat.ofDigitChars_ten_toDigits

theorem showNat_digits (n : Nat) : ∀ c ∈ showNat n, (digitVal c).isSome = true := by
  intro c hc
  rw [digitVal_digit (Nat.isDigit_of_mem_toDigits (by decide) (by decide) hc)]
  rfl

theorem takeWhile_all {α : Type} {p : α → Bool} {l : List α} (h : ∀ a ∈ l, p a = true) :
    l.takeWhile p = l := by
  induction l with
  | nil => rfl
  | cons a l ih => rw [List.takeWhile_cons, h a (by simp), if_pos rfl, ih (fun b hb => h b (by simp [hb]))]

theorem dropWhile_all {α : Type} {p : α → Bool} {l : List α} (h : ∀ a ∈ l, p a = true) :
    l.dropWhile p = [] := by
  induction l with
  | nil => rfl
  | cons a l ih => rw [List.dropWhile_cons, h a (by simp), if_pos rfl, ih (fun b hb => h b (by simp [hb]))]

theorem fromDigits_showNat (bits : Nat) (neg : Bool) (n : Nat)
    (h : -(2 ^ (bits - 1) : Int) ≤ (if neg then -(n : Int) else n) ∧
      (if neg then -(n : Int) else n) < (2 ^ (bits - 1) : Int)) :
    fromDigits bits neg (showNat n) = some (if neg then -(n : Int) else n, []) := by
  unfold fromDigits
  dsimp only
  have h1 : (showNat n).takeWhile (fun c => (digitVal c).isSome) = showNat n :=
    takeWhile_all (showNat_digits n)
  have h2 : (showNat n).dropWhile (fun c => (digitVal c).isSome) = [] :=
    dropWhile_all (showNat_digits n)
  rw [h1, h2, digitsVal_showNat]
  have h3 : (showNat n).isEmpty = false := by
    cases hs : showNat n with
    | nil => exact absurd hs Nat.toDigits_ne_nil
    | cons a l => rfl
  rw [h3, if_neg (by simp), if_pos h]

theorem showNat_head (n : Nat) : ∃ c t, showNat n = c :: t ∧ c.isDigit = true := by
  cases hs : showNat n with
  | nil => exact absurd hs Nat.toDigits_ne_nil
  | cons c t =>
    refine ⟨c, t, rfl, Nat.isDigit_of_mem_toDigits (b := 10) (n := n) (by decide) (by decide) ?_⟩
    rw [show Nat.toDigits 10 n = c :: t from hs]; simp

theorem fromCharsInt_showInt (bits : Nat) (v : Int)
    (h : -(2 ^ (bits - 1) : Int) ≤ v ∧ v < (2 ^ (bits - 1) : Int)) :
    fromCharsInt bits (showInt v) = some (v, []) := by
  cases v with
  | ofNat n =>
    obtain ⟨c, t, hc, hd⟩ := showNat_head n
    rw [fromCharsInt_plain]
    · exact fromDigits_showNat bits false n h
    · rw [showInt, hc]
      simp only [List.head?_cons, ne_eq, Option.some.injEq]
      rintro rfl
      exact absurd hd (by decide)
  | negSucc n =>
    rw [showInt, fromCharsInt_minus]
    exact fromDigits_showNat bits true (n + 1) h

theorem length_showNat (n : Nat) (h : n < 10 ^ 62) : (showNat n).length ≤ 62 :=
  (Nat.length_toDigits_le_iff (by decide) (by decide)).2 h

theorem showInt_chars (v : Int) (c : Char) (hc : c ∈ showInt v) : c.isDigit = true ∨ c = '-' := by
  cases v with
  | ofNat n => exact .inl (Nat.isDigit_of_mem_toDigits (by decide) (by decide) hc)
  | negSucc n =>
    rw [showInt, List.mem_cons] at hc
    rcases hc with h | h
    · exact .inr h
    · exact .inl (Nat.isDigit_of_mem_toDigits (by decide) (by decide) h)

/-- The printed text of an integer of at most 64 bits reads back as the integer. -/
theorem int_readsBack (bits : Nat) (hb : bits ≤ 64) (sep : Char) (hs : digitVal sep = none)
    (hm : sep ≠ '-') (opts : PrintOpts) (v : Int)
    (h : -(2 ^ (bits - 1) : Int) ≤ v ∧ v < (2 ^ (bits - 1) : Int)) :
    ReadsBack (fromCharsInt bits) sep (printElemInt opts v) v := by
  have hchars : ∀ c, c ∈ printElemInt opts v → c.isDigit = true ∨ c = '-' := showInt_chars v
  have hpow : (2 : Int) ^ (bits - 1) ≤ 2 ^ 63 := by
    exact_mod_cast Nat.pow_le_pow_right (by decide) (show bits - 1 ≤ 63 by omega)
  refine ⟨?_, ?_, ?_, ?_, ?_⟩
  · have hread : readSingle (fromCharsInt bits) (printElemInt opts v) =
        fromCharsInt bits (showInt v) := by
      unfold readSingle printElemInt
      split
      · rename_i r heq
        have := hchars '+' (by unfold printElemInt; rw [heq]; simp)
        exact absurd this (by decide)
      · rfl
    unfold numberOf
    rw [hread, fromCharsInt_showInt bits v h]
  · have e63 : (2 : Int) ^ 63 ≤ (10 ^ 62 - 1 : Nat) := by norm_num
    have hn : v.natAbs < 10 ^ 62 := by
      have h1 := h.1; have h2 := h.2
      omega
    unfold printElemInt
    cases v with
    | ofNat n => exact Nat.le_succ_of_le (length_showNat n hn)
    | negSucc n =>
      have := length_showNat (n + 1) (by simpa using hn)
      rw [showInt, List.length_cons]; omega
  · intro hc
    rcases hchars _ hc with h1 | h1
    · rw [digitVal_digit h1] at hs; cases hs
    · exact hm h1
  · intro hc
    rcases hchars _ hc with h1 | h1 <;> revert h1 <;> decide
  · intro hc
    have := hchars '#' (List.mem_of_mem_head? hc)
    revert this; decide

/-- C43 for the integer types `csv_read` supports: what `print_csv` wrote reads back. -/
theorem csv_round_trip_int_partial (bits : Nat) (hb : bits ≤ 64) (eager dbg : Bool)
    (col1d row1d : Bool) (rows cols : Nat) (M : Nat → Nat → Int)
    (hM : ∀ r < rows, ∀ c < cols,
      -(2 ^ (bits - 1) : Int) ≤ M r c ∧ M r c < (2 ^ (bits - 1) : Int))
    (hrows : rows ≠ 0) (hshape : cols ≠ 1 ∨ rows ≤ 1 ∨ col1d = false) (more : List Char) :
    csvRead (fromCharsInt bits) eager dbg ',' rows cols
        { rest := printCsvImpl printElemInt [] rows cols M (csvOpts ',' col1d row1d) ++ more } =
      .ok (rowsOf rows cols M, { rest := more }) :=
  csv_round_trip_partial (fromCharsInt bits) printElemInt ','
    (fromCharsInt_ok bits ',' (by decide) (by decide)) (by decide) (by decide) eager dbg
    col1d row1d rows cols M
    (fun r hr c hc => int_readsBack bits hb ',' (by decide) (by decide) _ _ (hM r hr c hc)) hrows hshape
    more

/-- C43 is false as stated: a column vector with two rows is printed on one line by default, and
`csv_read` into a 2 × 1 matrix throws. -/
theorem not_roundTrip : ¬ RoundTrip := by
  intro h
  obtain ⟨is', h⟩ := h (fromCharsInt 32) printElemInt true true 2 1 (fun r _ => r)
    (fromCharsInt_ok 32 ',' (by decide) (by decide))
    (fun opts r hr c hc => int_readsBack 32 (by decide) ',' (by decide) (by decide) opts _
      (by constructor <;> omega))
  have : csvRead (fromCharsInt 32) true true ',' 2 1
      { rest := printCsvImpl printElemInt [] 2 1 (fun r _ => (r : Int)) {} } =
      .error (.throw .csvReadError) := by decide +kernel
  rw [this] at h
  cases h

/-- C43, the case above in general: any column vector of several rows (of values that read back)
printed with the default options makes `csv_read` into that shape throw. -/
example : csvRead (fromCharsInt 32) true true ',' 3 1
      { rest := printCsvImpl printElemInt [] 3 1 (fun r _ => (r : Int)) (csvOpts ',' false true) } =
      .ok ([[0], [1], [2]], { rest := [] }) := by
  have := csv_round_trip_int_partial 32 (by decide) true true false true 3 1 (fun r _ => r)
    (fun r hr c hc => by constructor <;> omega) (by decide) (by simp) []
  rw [List.append_nil] at this
  exact this

end Guanaqo.Print
