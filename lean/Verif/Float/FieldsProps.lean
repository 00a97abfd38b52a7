import Verif.Float.Fields
import Verif.Float.Snprintf
import Verif.Print.RoundTripBy

/-! # Floating-point rows in the two configurations (C123) -/

namespace Guanaqo.Float

open Guanaqo.Duration (Text isDigit minusText Decimal lower)
open Guanaqo.FromChars (isSpace)
open Guanaqo.Csv (rowFields RowText fileText commentText LineEnd AfterLine)

/-! ## Specification -/

/-- A sign, or none. -/
def IsSign (sg : Text) : Prop := sg = [] ∨ sg = ['+'] ∨ sg = ['-']

/-- The fields on which the two configurations agree. -/
structure PortableField {f : Fmt} (conv rnd : ℚ → Option (Mag f)) (field : Text) : Prop where
  /-- blanks before a number are accepted by `strtod` only -/
  blank : ∀ c r, field = c :: r → isSpace c = true → ¬ ∃ v, CField conv field v
  /-- `+-` before a number is accepted with `std::from_chars` only -/
  plusMinus : ∀ r, field = '+' :: '-' :: r → ¬ ∃ v, StdField rnd field v
  /-- hexadecimal numbers are accepted by `strtod` only -/
  hex : ∀ sg z l, IsSign sg → z = 'x' ∨ z = 'X' → HexLit.Form l → field = sg ++ '0' :: z :: l.text → conv l.abs = none
  /-- decimal numbers must be converted to the same number, or refused by both -/
  value : ∀ sg (n : Decimal), IsSign sg → n.Form → n.neg = false → field = sg ++ n.text → conv n.abs = rnd n.abs

/-- What is assumed of `strtod` (`f` the format of the type): zero and values that are at least the smallest normal number are rounded
correctly. (For smaller values `errno` may be set, as glibc does unless they are exact.) -/
def RoundsNormal {f : Fmt} (conv : ℚ → Option (Mag f)) : Prop :=
  ∀ (q : ℚ) (x : Mag f), q = 0 ∨ (2 : ℚ) ^ (f.emin + f.p - 1) ≤ q → q < ((2 : ℚ) ^ f.p - 1 / 2) * 2 ^ f.emax →
    (∀ y : Mag f, y.val ≠ x.val → |q - x.val| < |q - y.val|) → conv q = some x

/-- C123, in full: without `std::from_chars`, the same files give the same matrices, and the same files are refused. -/
def SameFloats : Prop :=
  ∀ (f : Fmt) (max_digits10 : ℕ), f.Ok max_digits10 → ∀ rnd conv : ℚ → Option (Mag f), Rounds rnd → RoundsNormal conv →
    (∀ q, q = 0 ∨ (2 : ℚ) ^ (f.emin + f.p - 1) ≤ q → conv q = rnd q) → ∀ (sep : Char), CSepOk sep →
    ∀ (eager dbg : Bool) (cols : ℕ) (rows : List RowText), (∀ r ∈ rows, r.Ok sep) → ∀ more : List Char,
    Csv.csvReadBy (strtodSingle conv) eager dbg sep rows.length cols { rest := fileText rows ++ more } =
      Csv.csvRead (fromChars rnd) eager dbg sep rows.length cols { rest := fileText rows ++ more }

/-! ## Fields -/

section
variable {f : Fmt} {conv rnd cv : ℚ → Option (Mag f)}

theorem word_dec {neg : Bool} {n : Decimal} (h1 : n.Form) (h2 : n.neg = false) {v : Fl f} (h : Word cv neg n.text v) :
    ∃ x, cv n.abs = some x ∧ v = .fin neg x := by
  have := (word_std cv neg n.text v).2 h
  rw [decimal_not_special h1 h2, decimal_whole.2 ⟨n, h1, h2, rfl, rfl⟩] at this
  dsimp only at this
  cases hc : cv n.abs with
  | none => rw [hc] at this; cases this
  | some x => rw [hc] at this; cases this; exact ⟨x, rfl, rfl⟩

theorem dec_starts {n : Decimal} (h1 : n.Form) (h2 : n.neg = false) : Duration.StartsNumber n.text :=
  .inl ⟨n, [], h1, h2, (List.append_nil _).symm⟩

theorem hex_starts (z : Char) (r : Text) : Duration.StartsNumber ('0' :: z :: r) :=
  .inl ⟨{ ip := ['0'] }, z :: r, ⟨by decide, by simp [Decimal.frac], by simp, by intro c sg ds h; cases h⟩, rfl, rfl⟩

theorem sign_unique {sg sg' w w' : Text} (h : IsSign sg) (h' : IsSign sg') (hw : Duration.StartsNumber w) (hw' : Duration.StartsNumber w')
    (e : sg ++ w = sg' ++ w') : sg = sg' ∧ w = w' := by
  have k : ∀ {u u' : Text}, Duration.StartsNumber u → u = '+' :: u' ∨ u = '-' :: u' → False := by
    intro u u' hu he
    rcases he with he | he
    · exact (Duration.starts_head hu he).2.1 rfl
    · exact (Duration.starts_head hu he).2.2 rfl
  rcases h with rfl | rfl | rfl <;> rcases h' with rfl | rfl | rfl
  · exact ⟨rfl, e⟩
  · exact (k hw (.inl e)).elim
  · exact (k hw (.inr e)).elim
  · exact (k hw' (.inl e.symm)).elim
  · exact ⟨rfl, by simpa using e⟩
  · simp at e
  · exact (k hw' (.inr e.symm)).elim
  · simp at e
  · exact ⟨rfl, by simpa using e⟩

/-- A sign and a number, where `std::from_chars` is used. -/
theorem std_field_sign {sg w : Text} (hsg : IsSign sg) (hw : Duration.StartsNumber w) (v : Fl f) :
    StdField rnd (sg ++ w) v ↔ Word rnd (decide (sg = ['-'])) w v := by
  constructor
  · rintro ⟨plus, neg, w', hp, e, h⟩
    have hw' := word_head (.inl h)
    have key : ∀ sg', IsSign sg' → sg ++ w = sg' ++ w' → decide (sg' = ['-']) = neg → Word rnd (decide (sg = ['-'])) w v := by
      intro sg' h' e' hn
      obtain ⟨rfl, rfl⟩ := sign_unique hsg h' hw hw' e'
      rw [hn]; exact h
    rcases hp with rfl | rfl <;> cases neg
    · exact key [] (.inl rfl) e rfl
    · exact key ['-'] (.inr (.inr rfl)) e rfl
    · exact key ['+'] (.inr (.inl rfl)) e rfl
    · exfalso
      rcases hsg with rfl | rfl | rfl
      · exact (Duration.starts_head hw e).2.1 rfl
      · exact (Duration.starts_head hw (c := '-') (r := w') (by simpa [minusText] using e)).2.2 rfl
      · simp at e
  · intro h
    rcases hsg with rfl | rfl | rfl
    · exact ⟨[], false, w, .inl rfl, rfl, h⟩
    · exact ⟨['+'], false, w, .inr rfl, rfl, h⟩
    · exact ⟨[], true, w, .inl rfl, rfl, h⟩

/-- A sign and a number, where `strtod` is used. -/
theorem c_field_sign {sg w : Text} (hsg : IsSign sg) (hw : Duration.StartsNumber w) (v : Fl f) :
    CField conv (sg ++ w) v ↔ Word conv (decide (sg = ['-'])) w v ∨ HexWord conv (decide (sg = ['-'])) w v := by
  constructor
  · rintro ⟨ws, sg', w', h1, h2, e, h⟩
    cases ws with
    | nil =>
      obtain ⟨rfl, rfl⟩ := sign_unique hsg h2 hw (word_head h) e
      exact h
    | cons c ws =>
      exfalso
      have hc := h1 c (by simp)
      rcases hsg with rfl | rfl | rfl
      · have := (Duration.starts_head hw e).1
        rw [hc] at this; cases this
      · simp only [List.cons_append, List.cons.injEq] at e
        rw [← e.1] at hc; revert hc; decide
      · simp only [List.cons_append, List.cons.injEq] at e
        rw [← e.1] at hc; revert hc; decide
  · intro h
    exact ⟨[], sg, w, by simp, hsg, rfl, h⟩

theorem word_not_hex {neg : Bool} {z : Char} {r : Text} (hz : z = 'x' ∨ z = 'X') (v : Fl f) : ¬ Word cv neg ('0' :: z :: r) v := by
  intro h
  have := (word_std cv neg _ v).2 h
  rw [hex_not_special] at this
  dsimp only at this
  cases hd : Duration.scanDecimal ('0' :: z :: r) with
  | none => rw [hd] at this; cases this
  | some p =>
    obtain ⟨q, rest⟩ := p
    rw [hd] at this
    dsimp only at this
    cases hc : cv q with
    | none => rw [hc] at this; cases this
    | some x =>
      rw [hc] at this
      cases this
      obtain ⟨n, n1, n2, n3, _⟩ := decimal_whole.1 hd
      have := decimal_chars n1 z (by rw [← n3]; simp)
      rcases hz with rfl | rfl <;> exact absurd this (by decide)

theorem dec_not_hex {neg : Bool} {n : Decimal} (h : n.Form) (v : Fl f) : ¬ HexWord cv neg n.text v := by
  intro hx
  generalize hw : n.text = w at hx
  cases hx with
  | mk z l x hz _ _ =>
    have := decimal_chars h z (by rw [hw]; simp)
    rcases hz with rfl | rfl <;> exact absurd this (by decide)

/-- C123, exactly: the two configurations give the same number for a field, or both refuse it, iff it is portable. -/
theorem same_field_iff (field : Text) :
    Csv.numberOfBy (strtodSingle conv) field = Csv.numberOf (fromChars rnd) field ↔ PortableField conv rnd field := by
  have hext : Csv.numberOfBy (strtodSingle conv) field = Csv.numberOf (fromChars rnd) field ↔ ∀ v, CField conv field v ↔ StdField rnd field v := by
    constructor
    · intro h v
      rw [← c_field_iff, ← std_field_iff, h]
    · intro h
      apply Option.ext
      intro v
      rw [c_field_iff, std_field_iff]
      exact h v
  rw [hext]
  constructor
  · intro h
    refine ⟨?_, ?_, ?_, ?_⟩
    · rintro c r rfl hc ⟨v, hv⟩
      obtain ⟨plus, neg, w, hp, e, hw⟩ := (h v).1 hv
      rcases hp with rfl | rfl
      · cases neg
        · have := (Duration.starts_head (word_head (.inl hw)) e.symm).1
          rw [hc] at this; cases this
        · cases e; revert hc; decide
      · cases e; revert hc; decide
    · rintro r rfl ⟨v, hv⟩
      obtain ⟨ws, sg, w, h1, h2, e, hw⟩ := (h v).2 hv
      cases ws with
      | cons c ws =>
        have hc := h1 c (by simp)
        rw [← (List.cons.inj e).1] at hc
        revert hc; decide
      | nil =>
        rcases h2 with rfl | rfl | rfl
        · exact (Duration.starts_head (word_head hw) e.symm).2.1 rfl
        · simp only [List.nil_append, List.cons_append, List.cons.injEq, true_and] at e
          exact (Duration.starts_head (word_head hw) e.symm).2.2 rfl
        · simp at e
    · rintro sg z l hsg hz hl rfl
      cases hc : conv l.abs with
      | none => rfl
      | some x =>
        exfalso
        have := (h (.fin (decide (sg = ['-'])) x)).1 ((c_field_sign hsg (hex_starts z l.text) _).2 (.inr (.mk z l x hz hl hc)))
        exact word_not_hex hz _ ((std_field_sign hsg (hex_starts z l.text) _).1 this)
    · rintro sg n hsg h1 h2 rfl
      apply Option.ext
      intro x
      have hv := h (.fin (decide (sg = ['-'])) x)
      rw [c_field_sign hsg (dec_starts h1 h2), std_field_sign hsg (dec_starts h1 h2)] at hv
      constructor
      · intro hc
        obtain ⟨y, hy, e⟩ := word_dec h1 h2 (hv.1 (.inl (.dec n x h1 h2 hc)))
        cases e; exact hy
      · intro hc
        rcases hv.2 (.dec n x h1 h2 hc) with hw | hw
        · obtain ⟨y, hy, e⟩ := word_dec h1 h2 hw
          cases e; exact hy
        · exact absurd hw (dec_not_hex h1 _)
  · intro h v
    have key : ∀ {sg w : Text}, IsSign sg → field = sg ++ w → ∀ {c1 c2 : ℚ → Option (Mag f)},
        (∀ n : Decimal, n.Form → n.neg = false → field = sg ++ n.text → c1 n.abs = c2 n.abs) →
        Word c1 (decide (sg = ['-'])) w v → Word c2 (decide (sg = ['-'])) w v := by
      rintro sg w hsg e c1 c2 hc hw
      cases hw with
      | dec n x h1 h2 h3 => exact .dec n x h1 h2 (by rw [← hc n h1 h2 e]; exact h3)
      | inf _ h1 => exact .inf w h1
      | nan _ h1 => exact .nan w h1
      | nanSeq u ds h1 h2 => exact .nanSeq u ds h1 h2
    constructor
    · intro hv
      obtain ⟨ws, sg, w, h1, h2, e, hw⟩ := hv
      cases ws with
      | cons c ws => exact absurd ⟨v, ⟨_, sg, w, h1, h2, e, hw⟩⟩ (h.blank c _ e (h1 c (by simp)))
      | nil =>
        rw [List.nil_append] at e
        have hst := word_head hw
        rcases hw with hw | hw
        · have := key h2 e (c2 := rnd) (fun n n1 n2 n3 => h.value sg n h2 n1 n2 n3) hw
          rw [e]
          exact (std_field_sign h2 hst v).2 this
        · cases hw with
          | mk z l x hz hl hc =>
            have := h.hex sg z l h2 hz hl e
            rw [hc] at this; cases this
    · intro hv
      have hv' := hv
      obtain ⟨plus, neg, w, hp, e, hw⟩ := hv
      have hst := word_head (.inl hw)
      have fin : ∀ sg, IsSign sg → field = sg ++ w → decide (sg = ['-']) = neg → CField conv field v := by
        rintro sg hsg e' rfl
        have := key hsg e' (c2 := conv) (fun n n1 n2 n3 => (h.value sg n hsg n1 n2 n3).symm) hw
        rw [e']
        exact (c_field_sign hsg hst v).2 (.inl this)
      rcases hp with rfl | rfl <;> cases neg
      · exact fin [] (.inl rfl) e rfl
      · exact fin ['-'] (.inr (.inr rfl)) e rfl
      · exact fin ['+'] (.inr (.inl rfl)) e rfl
      · exact absurd ⟨v, hv'⟩ (h.plusMinus w e)

/-- A simple sufficient condition: no blanks, no `+-`, no `x`, and no value below the smallest normal number but zero. -/
theorem portable_of {field : Text} (hconv : ∀ q, q = 0 ∨ (2 : ℚ) ^ (f.emin + f.p - 1) ≤ q → conv q = rnd q)
    (hb : ∀ c ∈ field, isSpace c = false ∧ c ≠ 'x' ∧ c ≠ 'X') (hpm : ∀ r, field ≠ '+' :: '-' :: r)
    (hn : ∀ sg (n : Decimal), IsSign sg → n.Form → n.neg = false → field = sg ++ n.text → n.abs = 0 ∨ (2 : ℚ) ^ (f.emin + f.p - 1) ≤ n.abs) :
    PortableField conv rnd field where
  blank := by
    intro c r e hc
    have := (hb c (by rw [e]; simp)).1
    rw [hc] at this; cases this
  plusMinus := fun r e => absurd e (hpm r)
  hex := by
    intro sg z l _ hz _ e
    exfalso
    have := (hb z (by rw [e]; simp)).2
    rcases hz with rfl | rfl
    · exact this.1 rfl
    · exact this.2 rfl
  value := fun sg n h1 h2 h3 h4 => hconv _ (hn sg n h1 h2 h3 h4)

/-! ## Rows -/

theorem mapM_some_iff {α β : Type} (g : α → Option β) : ∀ (l : List α) (r : List β), l.mapM g = some r ↔ List.Forall₂ (fun a b => g a = some b) l r
  | [], r => by
    rw [List.mapM_nil]
    constructor
    · intro h; cases h; exact .nil
    · intro h; cases h; rfl
  | a :: l, r => by
    rw [List.mapM_cons]
    constructor
    · intro h
      cases ha : g a with
      | none => rw [ha] at h; cases h
      | some b =>
        rw [ha] at h
        cases hl : l.mapM g with
        | none => rw [hl] at h; cases h
        | some bs => rw [hl] at h; cases h; exact .cons ha ((mapM_some_iff g l bs).1 hl)
    · intro h
      cases h with
      | cons ha hl => rw [ha, (mapM_some_iff g l _).2 hl]; rfl

/-- C123. `csv_read_row` where `strtod` is used: the row is read iff it has `n` fields that are numbers for `strtod`; if not,
`csv_read_error`. -/
theorem c_row_iff (conv : ℚ → Option (Mag f)) {sep : Char} (hs : CSepOk sep) (eager dbg : Bool) (n : ℕ) (comments : List (List Char))
    (hc : ∀ c ∈ comments, '\n' ∉ c) (line tail : List Char) (hne : line ≠ []) (hnl : '\n' ∉ line) (hh : line.head? ≠ some '#')
    (ht : LineEnd tail) (hlen : ∀ g ∈ rowFields sep line, g.length ≤ 63) :
    (∀ vs, (∃ is', Csv.csvReadRowBy (strtodSingle conv) eager dbg sep n { rest := commentText comments ++ line ++ tail } = .ok (vs, is')) ↔
      vs.length = n ∧ List.Forall₂ (CField conv) (rowFields sep line) vs) ∧
    ((¬ ∃ vs : List (Fl f), vs.length = n ∧ List.Forall₂ (CField conv) (rowFields sep line) vs) →
      Csv.csvReadRowBy (strtodSingle conv) eager dbg sep n { rest := commentText comments ++ line ++ tail } = .error (.throw .csvReadError)) := by
  have h := Csv.csvReadRowBy_exact (strtodSingle conv) sep (strtodSingle_ok conv hs) eager dbg n comments hc line tail hne hnl hh ht hlen
  have hspec : ∀ vs, Csv.rowSpecBy (strtodSingle conv) sep n line = some vs ↔ vs.length = n ∧ List.Forall₂ (CField conv) (rowFields sep line) vs := by
    intro vs
    have hf : List.Forall₂ (CField conv) (rowFields sep line) vs ↔ (rowFields sep line).mapM (Csv.numberOfBy (strtodSingle conv)) = some vs := by
      rw [mapM_some_iff]
      have : CField conv = fun a b => Csv.numberOfBy (strtodSingle conv) a = some b := by
        funext a b; exact propext (c_field_iff conv a b).symm
      rw [this]
    unfold Csv.rowSpecBy
    constructor
    · intro e
      split at e
      · rename_i hl
        have := hf.2 e
        exact ⟨by rw [← this.length_eq, hl], this⟩
      · cases e
    · rintro ⟨h1, h2⟩
      rw [if_pos (by rw [h2.length_eq, h1])]
      exact hf.1 h2
  cases hsp : Csv.rowSpecBy (strtodSingle conv) sep n line with
  | none =>
    rw [hsp] at h
    refine ⟨fun vs => ?_, fun _ => h⟩
    rw [← hspec, hsp]
    constructor
    · rintro ⟨is', e⟩; rw [h] at e; cases e
    · intro e; cases e
  | some ws =>
    rw [hsp] at h
    obtain ⟨is', h1, _⟩ := h
    refine ⟨fun vs => ?_, fun hno => absurd ⟨ws, (hspec ws).1 hsp⟩ hno⟩
    rw [← hspec, hsp, h1]
    constructor
    · rintro ⟨is'', e⟩; cases e; rfl
    · intro e; cases e; exact ⟨_, rfl⟩

/-- C123. `csv_read` where `strtod` is used: the matrix of the numbers in the file, or `csv_read_error`. -/
theorem c_read_iff (conv : ℚ → Option (Mag f)) {sep : Char} (hs : CSepOk sep) (eager dbg : Bool) (cols : ℕ) (rows : List RowText)
    (hrows : ∀ r ∈ rows, r.Ok sep) (more : List Char) :
    (∀ M : List (List (Fl f)), List.Forall₂ (fun r vs => vs.length = cols ∧ List.Forall₂ (CField conv) (rowFields sep r.line) vs) rows M →
      Csv.csvReadBy (strtodSingle conv) eager dbg sep rows.length cols { rest := fileText rows ++ more } = .ok (M, { rest := more })) ∧
    ((¬ ∃ M : List (List (Fl f)), List.Forall₂ (fun r vs => vs.length = cols ∧ List.Forall₂ (CField conv) (rowFields sep r.line) vs) rows M) →
      Csv.csvReadBy (strtodSingle conv) eager dbg sep rows.length cols { rest := fileText rows ++ more } = .error (.throw .csvReadError)) := by
  have h := Csv.csvReadBy_exact (strtodSingle conv) sep (strtodSingle_ok conv hs) eager dbg cols rows hrows more
  have hspec : ∀ line vs, Csv.rowSpecBy (strtodSingle conv) sep cols line = some vs ↔ vs.length = cols ∧ List.Forall₂ (CField conv) (rowFields sep line) vs := by
    intro line vs
    have hf : List.Forall₂ (CField conv) (rowFields sep line) vs ↔ (rowFields sep line).mapM (Csv.numberOfBy (strtodSingle conv)) = some vs := by
      rw [mapM_some_iff]
      have : CField conv = fun a b => Csv.numberOfBy (strtodSingle conv) a = some b := by
        funext a b; exact propext (c_field_iff conv a b).symm
      rw [this]
    unfold Csv.rowSpecBy
    constructor
    · intro e
      split at e
      · rename_i hl
        have := hf.2 e
        exact ⟨by rw [← this.length_eq, hl], this⟩
      · cases e
    · rintro ⟨h1, h2⟩
      rw [if_pos (by rw [h2.length_eq, h1])]
      exact hf.1 h2
  have hM : ∀ M, rows.mapM (fun r => Csv.rowSpecBy (strtodSingle conv) sep cols r.line) = some M ↔
      List.Forall₂ (fun (r : RowText) vs => vs.length = cols ∧ List.Forall₂ (CField conv) (rowFields sep r.line) vs) rows M := by
    intro M
    rw [mapM_some_iff]
    have : (fun (r : RowText) (vs : List (Fl f)) => vs.length = cols ∧ List.Forall₂ (CField conv) (rowFields sep r.line) vs) =
        fun r vs => Csv.rowSpecBy (strtodSingle conv) sep cols r.line = some vs := by
      funext r vs; exact propext (hspec r.line vs).symm
    rw [this]
  constructor
  · intro M hm
    rw [(hM M).2 hm] at h
    exact h
  · intro hno
    cases e : rows.mapM (fun r => Csv.rowSpecBy (strtodSingle conv) sep cols r.line) with
    | none => rw [e] at h; exact h
    | some M => exact absurd ⟨M, (hM M).1 e⟩ hno

/-- C123, for files of portable fields: both configurations give the same. Missing: the other fields, for which this is false (a row
with just one of them is refused in one configuration only, or gives another number). -/
theorem same_floats_partial (conv rnd : ℚ → Option (Mag f)) {sep : Char} (hs : CSepOk sep) (eager dbg : Bool) (cols : ℕ) (rows : List RowText)
    (hrows : ∀ r ∈ rows, r.Ok sep) (hp : ∀ r ∈ rows, ∀ g ∈ rowFields sep r.line, PortableField conv rnd g) (more : List Char) :
    Csv.csvReadBy (strtodSingle conv) eager dbg sep rows.length cols { rest := fileText rows ++ more } =
      Csv.csvRead (fromChars rnd) eager dbg sep rows.length cols { rest := fileText rows ++ more } := by
  have h1 := Csv.csvReadBy_exact (strtodSingle conv) sep (strtodSingle_ok conv hs) eager dbg cols rows hrows more
  have h2 := Csv.csv_read_exact (fromChars rnd) sep (fromChars_ok hs.toSepOk rnd) hs.plus eager dbg cols rows hrows more
  have hcongr : ∀ {α β : Type} (l : List α) (g g' : α → Option β), (∀ a ∈ l, g a = g' a) → l.mapM g = l.mapM g' := by
    intro α β l g g' h
    induction l with
    | nil => rfl
    | cons a l ih =>
      rw [List.mapM_cons, List.mapM_cons, h a (by simp), ih (fun b hb => h b (by simp [hb]))]
  have he : rows.mapM (fun r => Csv.rowSpecBy (strtodSingle conv) sep cols r.line) = rows.mapM (fun r => Csv.rowSpec (fromChars rnd) sep cols r.line) := by
    apply hcongr
    intro r hr
    unfold Csv.rowSpecBy Csv.rowSpec
    split
    · exact hcongr _ _ _ fun g hg => (same_field_iff g).2 (hp r hr g hg)
    · rfl
  rw [he] at h1
  cases e : rows.mapM (fun r => Csv.rowSpec (fromChars rnd) sep cols r.line) with
  | none => rw [e] at h1 h2; rw [h1, h2]
  | some M => rw [e] at h1 h2; rw [h1, h2]

/-- C123, exactly, for a file of one number: the two configurations agree iff the field is portable. -/
theorem same_float_file_iff (conv rnd : ℚ → Option (Mag f)) {sep : Char} (hs : CSepOk sep) (eager dbg : Bool) (field : List Char)
    (hne : field ≠ []) (hsep : sep ∉ field) (hnl : '\n' ∉ field) (hh : field.head? ≠ some '#') (hlen : field.length ≤ 63) (more : List Char) :
    Csv.csvReadBy (strtodSingle conv) eager dbg sep 1 1 { rest := field ++ '\n' :: more } =
      Csv.csvRead (fromChars rnd) eager dbg sep 1 1 { rest := field ++ '\n' :: more } ↔ PortableField conv rnd field := by
  have hfields : rowFields sep field = [field] := by
    have := Print.rowFields_sepBy (sep := sep) (l := [field]) (by simpa using hsep) (by simpa using hne)
    simpa [Print.sepBy] using this
  have hok : ∀ r ∈ [({ line := field } : RowText)], r.Ok sep := by
    intro r hr
    rw [List.mem_singleton.1 hr]
    refine ⟨by simp, hnl, hh, ?_, fun _ => rfl⟩
    intro g hg
    rw [hfields] at hg
    rw [List.mem_singleton.1 hg]; exact hlen
  have h1 := Csv.csvReadBy_exact (strtodSingle conv) sep (strtodSingle_ok conv hs) eager dbg 1 [{ line := field }] hok more
  have h2 := Csv.csv_read_exact (fromChars rnd) sep (fromChars_ok hs.toSepOk rnd) hs.plus eager dbg 1 [{ line := field }] hok more
  have htext : fileText [({ line := field } : RowText)] ++ more = field ++ '\n' :: more := by simp [fileText, commentText]
  rw [htext] at h1 h2
  have e1 : [({ line := field } : RowText)].mapM (fun r => Csv.rowSpecBy (strtodSingle conv) sep 1 r.line) =
      (Csv.numberOfBy (strtodSingle conv) field).map fun v => [[v]] := by
    rw [List.mapM_cons, List.mapM_nil]
    unfold Csv.rowSpecBy
    simp only [hfields, List.length_singleton, if_true, List.mapM_cons, List.mapM_nil]
    cases Csv.numberOfBy (strtodSingle conv) field <;> rfl
  have e2 : [({ line := field } : RowText)].mapM (fun r => Csv.rowSpec (fromChars rnd) sep 1 r.line) =
      (Csv.numberOf (fromChars rnd) field).map fun v => [[v]] := by
    rw [List.mapM_cons, List.mapM_nil]
    unfold Csv.rowSpec
    simp only [hfields, List.length_singleton, if_true, List.mapM_cons, List.mapM_nil]
    cases Csv.numberOf (fromChars rnd) field <;> rfl
  rw [e1] at h1
  rw [e2] at h2
  rw [← same_field_iff]
  have hl : [({ line := field } : RowText)].length = 1 := rfl
  rw [hl] at h1 h2
  cases a : Csv.numberOfBy (strtodSingle conv) field <;> cases b : Csv.numberOf (fromChars rnd) field <;>
    rw [a] at h1 <;> rw [b] at h2 <;> dsimp only [Option.map_none, Option.map_some] at h1 h2 <;> rw [h1, h2]
  · simp
  · simp
  · simp
  · simp

end

/-! ## Round trips -/

section
variable {f : Fmt}

/-- What the two versions of `print_elem` (with `std::to_chars`, and with `snprintf`) have in common. -/
structure Prints (pe : Print.PrintOpts → Fl f → Text) (max_digits10 : ℕ) : Prop where
  fin : ∀ opts neg x, ∃ (d : ℕ) (e : ℤ), pe opts (.fin neg x) = (if neg then ['-'] else ['+']) ++ sciText max_digits10 d e ∧
    d < 10 ^ (max_digits10 + 1) ∧ e.natAbs < 10 ^ 5 ∧ d * (10 : ℚ) ^ (e - max_digits10) < ((2 : ℚ) ^ f.p - 1 / 2) * 2 ^ f.emax ∧
    (∀ y : Mag f, y.val ≠ x.val → |d * (10 : ℚ) ^ (e - max_digits10) - x.val| < |d * (10 : ℚ) ^ (e - max_digits10) - y.val|) ∧
    (x.val = 0 → d = 0)
  inf : ∀ opts neg, pe opts (.inf neg) = (if neg then ['-'] else ['+']) ++ "inf".toList
  nan : ∀ opts neg, ∃ sg, IsSign sg ∧ pe opts (.nan neg) = sg ++ "nan".toList ∧ decide (sg = ['-']) = neg

/-- `writes_fin` with what is known of the digits. -/
theorem writes_near {sci : Fl f → ℕ → Text} (hw : Writes sci) {max_digits10 : ℕ} (hf : f.Ok max_digits10) (neg : Bool) (x : Mag f) :
    ∃ (d : ℕ) (e : ℤ), sci (.fin neg x) max_digits10 = (if neg then ['-'] else []) ++ sciText max_digits10 d e ∧
    d < 10 ^ (max_digits10 + 1) ∧ e.natAbs < 10 ^ 5 ∧ d * (10 : ℚ) ^ (e - max_digits10) < ((2 : ℚ) ^ f.p - 1 / 2) * 2 ^ f.emax ∧
    (∀ y : Mag f, y.val ≠ x.val → |d * (10 : ℚ) ^ (e - max_digits10) - x.val| < |d * (10 : ℚ) ^ (e - max_digits10) - y.val|) ∧
    (x.val = 0 → d = 0) := by
  by_cases h0 : x.val = 0
  · refine ⟨0, 0, hw.zero neg x _ h0, by positivity, by decide, ?_, ?_, fun _ => rfl⟩
    · have := zpow_pos' f.emax
      have h2 : (1 : ℚ) ≤ 2 ^ f.p := one_le_pow₀ (by norm_num)
      simp only [Nat.cast_zero, zero_mul]
      nlinarith
    · intro y hy
      rw [h0] at hy ⊢
      simpa using hy
  · obtain ⟨d, e, k, h1, h2, h3, hk, _, h4⟩ := hw.fin neg x max_digits10 h0
    have herr := relative_error hk h4
    obtain ⟨b1, b2⟩ := nearest_back hf.p max_digits10 hf.digits x _ herr
    obtain ⟨c1, c2⟩ := exponent_range x h0 max_digits10 d e h2 h3 herr
    refine ⟨d, e, h1, h3, ?_, b1, b2, fun h => absurd h h0⟩
    have := hf.lo
    have := hf.hi
    norm_num at *
    omega

theorem to_chars_prints {sci : Fl f → ℕ → Text} (hw : Writes sci) {max_digits10 : ℕ} (hf : f.Ok max_digits10) :
    Prints (Print.printElemFloat (fmt sci max_digits10)) max_digits10 where
  fin := by
    intro opts neg x
    obtain ⟨d, e, h1, h2, h3, h4⟩ := writes_near hw hf neg x
    refine ⟨d, e, ?_, h2, h3, h4⟩
    show (Print.floatToStr (fmt sci max_digits10) (.fin neg x) max_digits10).getD [] = _
    rw [float_to_str_formats_partial hw max_digits10 max_digits10 hf hf.max, h1]
    cases neg <;> rfl
  inf := by
    intro opts neg
    show (Print.floatToStr (fmt sci max_digits10) (.inf neg) max_digits10).getD [] = _
    rw [float_to_str_formats_partial hw max_digits10 max_digits10 hf hf.max, hw.inf]
    cases neg <;> rfl
  nan := by
    intro opts neg
    refine ⟨if neg then ['-'] else [], ?_, ?_, ?_⟩
    · cases neg
      · exact .inl rfl
      · exact .inr (.inr rfl)
    · show (Print.floatToStr (fmt sci max_digits10) (.nan neg) max_digits10).getD [] = _
      rw [float_to_str_formats_partial hw max_digits10 max_digits10 hf hf.max, hw.nan]
      cases neg <;> rfl
    · cases neg <;> rfl

theorem snprintf_prints {sci : Fl f → ℕ → Text} (hw : Writes sci) {max_digits10 : ℕ} (hf : f.Ok max_digits10) (h51 : max_digits10 ≤ 51) :
    Prints (printElemSnprintf sci max_digits10) max_digits10 := by
  have hm : max_digits10 ≠ 0 := by
    intro h
    have := hf.digits
    rw [h] at this
    have : 0 < 2 ^ f.p := Nat.pow_pos (by decide)
    omega
  have ht : ∀ opts (v : Fl f), printElemSnprintf sci max_digits10 opts v = (if v.neg then [] else ['+']) ++ sci v max_digits10 := by
    intro opts v
    have := snprintf_fits hw hf true v h51
    unfold floatToStrSnprintf at this
    unfold printElemSnprintf
    rw [this]
    exact printfText_pos v hm
  constructor
  · intro opts neg x
    obtain ⟨d, e, h1, h2, h3, h4⟩ := writes_near hw hf neg x
    refine ⟨d, e, ?_, h2, h3, h4⟩
    rw [ht, h1]
    cases neg <;> rfl
  · intro opts neg
    rw [ht, hw.inf]
    cases neg <;> rfl
  · intro opts neg
    refine ⟨if neg then ['-'] else ['+'], ?_, ?_, ?_⟩
    · cases neg
      · exact .inr (.inl rfl)
      · exact .inr (.inr rfl)
    · rw [ht, hw.nan]
      cases neg <;> rfl
    · cases neg <;> rfl

/-- Numbers that `strtod` reads without setting `errno` wherever the library sets it for underflow: all but the subnormal ones and the
smallest normal one. -/
def NoUnderflow : Fl f → Prop
  | .fin _ x => x.val = 0 ∨ (2 : ℚ) ^ (f.emin + f.p - 1) < x.val
  | _ => True

/-- The smallest normal number. -/
def minNormal (hp : 1 ≤ f.p) (hr : f.emin ≤ f.emax) : Mag f where
  m := 2 ^ (f.p - 1)
  e := f.emin
  lt := Nat.pow_lt_pow_right (by decide) (by omega)
  lo := Int.le_refl _
  hi := hr
  normal := .inr rfl

theorem minNormal_val (hp : 1 ≤ f.p) (hr : f.emin ≤ f.emax) : (minNormal hp hr).val = (2 : ℚ) ^ (f.emin + f.p - 1) := by
  show ((2 ^ (f.p - 1) : ℕ) : ℚ) * 2 ^ f.emin = _
  rw [Nat.cast_pow, Nat.cast_ofNat, ← zpow_natCast, ← zpow_add₀ (by norm_num)]
  congr 1
  omega

theorem conv_text {conv : ℚ → Option (Mag f)} (hcv : RoundsNormal conv) (hp : 1 ≤ f.p) {q : ℚ} {x : Mag f}
    (hx : x.val = 0 ∧ q = 0 ∨ (2 : ℚ) ^ (f.emin + f.p - 1) < x.val)
    (hq : q < ((2 : ℚ) ^ f.p - 1 / 2) * 2 ^ f.emax) (hn : ∀ y : Mag f, y.val ≠ x.val → |q - x.val| < |q - y.val|) : conv q = some x := by
  apply hcv q x ?_ hq hn
  rcases hx with ⟨_, h⟩ | h
  · exact .inl h
  · right
    have hr : f.emin ≤ f.emax := le_trans x.lo x.hi
    have hy := minNormal_val hp hr
    have h1 := hn (minNormal hp hr) (by rw [hy]; exact ne_of_lt h)
    rw [hy] at h1
    by_contra hlt
    push Not at hlt
    rw [abs_of_neg (by linarith), abs_of_neg (by linarith)] at h1
    linarith

theorem special_chars {sep : Char} (hs : SepOk sep) : sep ∉ "inf".toList ∧ sep ∉ "nan".toList := by
  have h := hs.special
  have h1 : ∀ c ∈ "inf".toList, lower c ∈ "infty".toList := by decide
  have h2 : ∀ c ∈ "nan".toList, lower c ∈ "nan".toList := by decide
  exact ⟨fun hc => h.1 (h1 _ hc), fun hc => h.2 (h2 _ hc)⟩

/-- A printed number reads back where `strtod` is used. -/
theorem prints_readsBack {conv : ℚ → Option (Mag f)} (hcv : RoundsNormal conv) {pe : Print.PrintOpts → Fl f → Text} {max_digits10 : ℕ}
    (hpe : Prints pe max_digits10) (hp : 1 ≤ f.p) (hmax : max_digits10 ≤ 53) {sep : Char} (hs : SepOk sep) (opts : Print.PrintOpts) (v : Fl f) (hv : NoUnderflow v) :
    Print.ReadsBackBy (strtodSingle conv) sep (pe opts v) v := by
  have hsp := special_chars hs
  have hsign : ∀ {sg : Text}, IsSign sg → sg.length ≤ 1 ∧ sep ∉ sg ∧ '\n' ∉ sg ∧ '#' ∉ sg := by
    rintro sg (rfl | rfl | rfl)
    · simp
    · simpa using hs.plus
    · simpa using hs.minus
  have hif : ∀ neg : Bool, IsSign (if neg then ['-'] else ['+']) ∧ decide ((if neg then ['-'] else ['+']) = ['-']) = neg := by
    intro neg
    cases neg
    · exact ⟨.inr (.inl rfl), rfl⟩
    · exact ⟨.inr (.inr rfl), rfl⟩
  have build : ∀ (sg w : Text) (v : Fl f), IsSign sg → Word conv (decide (sg = ['-'])) w v → w.length ≤ 62 → sep ∉ w → '\n' ∉ w → '#' ∉ w →
      Print.ReadsBackBy (strtodSingle conv) sep (sg ++ w) v := by
    intro sg w v h1 h2 h3 h4 h5 h6
    obtain ⟨k1, k2, k3, k4⟩ := hsign h1
    refine ⟨(c_field_iff conv _ v).2 ⟨[], sg, w, by simp, h1, rfl, .inl h2⟩, ?_, ?_, ?_, ?_⟩
    · rw [List.length_append]; omega
    · rw [List.mem_append]; exact not_or.2 ⟨k2, h4⟩
    · rw [List.mem_append]; exact not_or.2 ⟨k3, h5⟩
    · intro hc
      have := List.mem_of_mem_head? hc
      rcases List.mem_append.1 this with h | h
      · exact k4 h
      · exact h6 h
  cases v with
  | inf neg =>
    rw [hpe.inf]
    obtain ⟨h1, h2⟩ := hif neg
    exact build _ _ _ h1 (by rw [h2]; exact .inf _ (.inl (by decide))) (by decide) hsp.1 (by decide) (by decide)
  | nan neg =>
    obtain ⟨sg, h1, h2, h3⟩ := hpe.nan opts neg
    rw [h2]
    exact build _ _ _ h1 (by rw [h3]; exact .nan _ (by decide)) (by decide) hsp.2 (by decide) (by decide)
  | fin neg x =>
    obtain ⟨d, e, h1, h2, h3, h4, h5, h6⟩ := hpe.fin opts neg x
    rw [h1]
    have hconv := conv_text hcv hp (q := d * (10 : ℚ) ^ (e - max_digits10)) (x := x) (by
      rcases hv with hv | hv
      · left; exact ⟨hv, by rw [h6 hv]; simp⟩
      · exact .inr hv) h4 h5
    obtain ⟨k1, k2⟩ := hif neg
    have hch : ∀ c, isDigit c = false → c ∉ ".e+-".toList → c ∉ sciText max_digits10 d e := by
      intro c c1 c2 hc
      rcases sciText_chars c hc with h | h
      · rw [c1] at h; cases h
      · apply c2
        rcases h with rfl | rfl | rfl | rfl <;> decide
    refine build _ _ _ k1 ?_ ?_ ?_ ?_ ?_
    · rw [k2]
      have ht := sciDec_text false max_digits10 d e
      have := Word.dec (cv := conv) (neg := neg) (sciDec false max_digits10 d e) x (sciDec_form h2) rfl (by rw [sciDec_abs h2]; exact hconv)
      rw [ht] at this
      exact this
    · have := sciText_length h2 h3; omega
    · apply hch sep hs.digit
      simp [hs.point, hs.e, hs.plus, hs.minus]
    · exact hch _ (by decide) (by decide)
    · exact hch _ (by decide) (by decide)

/-- C123. A matrix written by `print_csv` (in either configuration) and read by `csv_read` with `strtod` is the same matrix. Missing: the
subnormal numbers and the smallest normal one, for which the library may set `errno`, and the shapes that C43 excludes. -/
theorem c_round_trip_partial {conv : ℚ → Option (Mag f)} (hcv : RoundsNormal conv) {pe : Print.PrintOpts → Fl f → Text} {max_digits10 : ℕ}
    (hpe : Prints pe max_digits10) (hf : f.Ok max_digits10) {sep : Char} (hs : CSepOk sep) (hline : sep ≠ '\n') (eager dbg col1d row1d : Bool) (rows cols : ℕ)
    (M : ℕ → ℕ → Fl f) (hM : ∀ r < rows, ∀ c < cols, NoUnderflow (M r c)) (hrows : rows ≠ 0) (hshape : cols ≠ 1 ∨ rows ≤ 1 ∨ col1d = false) (more : List Char) :
    Csv.csvReadBy (strtodSingle conv) eager dbg sep rows cols
        { rest := Print.printCsvImpl pe [] rows cols M (Print.csvOpts sep col1d row1d) ++ more } =
      .ok (Print.rowsOf rows cols M, { rest := more }) :=
  Print.csvBy_round_trip_partial _ pe sep (strtodSingle_ok conv hs) hline eager dbg col1d row1d rows cols M
    (fun r hr c hc => prints_readsBack hcv hpe hf.p hf.max hs.toSepOk _ _ (hM r hr c hc)) hrows hshape more

end

/-! ## The differences -/

section
variable {f : Fmt}

open Classical in
/-- A `strtod` that sets `errno` for all values below the smallest normal number (but zero). -/
noncomputable def strictConv (f : Fmt) (q : ℚ) : Option (Mag f) :=
  if q = 0 ∨ (2 : ℚ) ^ (f.emin + f.p - 1) ≤ q then nearest f q else none

theorem strictConv_rounds (hp : 1 ≤ f.p) : RoundsNormal (strictConv f) := by
  intro q x h1 h2 h3
  unfold strictConv
  rw [if_pos h1]
  exact nearest_rounds hp q x h2 h3

theorem nearest_roundsNormal (hp : 1 ≤ f.p) : RoundsNormal (nearest f) := fun q x _ h2 h3 => nearest_rounds hp q x h2 h3

/-- Where blanks come first: accepted with `strtod` (if the rest is), refused with `std::from_chars`. -/
theorem blank_fields (conv rnd : ℚ → Option (Mag f)) (c : Char) (field : Text) (hc : isSpace c = true) (v : Fl f) :
    (CField conv (c :: field) v ↔ CField conv field v) ∧ ¬ StdField rnd (c :: field) v := by
  refine ⟨⟨?_, ?_⟩, ?_⟩
  · rintro ⟨ws, sg, w, h1, h2, e, h3⟩
    cases ws with
    | nil =>
      exfalso
      rcases h2 with rfl | rfl | rfl
      · have := (Duration.starts_head (word_head h3) e.symm).1
        rw [hc] at this; cases this
      · rw [(List.cons.inj e).1] at hc; revert hc; decide
      · rw [(List.cons.inj e).1] at hc; revert hc; decide
    | cons c' ws =>
      exact ⟨ws, sg, w, fun x hx => h1 x (by simp [hx]), h2, (List.cons.inj e).2, h3⟩
  · rintro ⟨ws, sg, w, h1, h2, rfl, h3⟩
    refine ⟨c :: ws, sg, w, ?_, h2, rfl, h3⟩
    intro x hx
    rcases List.mem_cons.1 hx with rfl | hx
    · exact hc
    · exact h1 x hx
  · rintro ⟨plus, neg, w, hp, e, hw⟩
    rcases hp with rfl | rfl
    · cases neg
      · have := (Duration.starts_head (word_head (.inl hw)) e.symm).1
        rw [hc] at this; cases this
      · rw [(List.cons.inj e).1] at hc; revert hc; decide
    · rw [(List.cons.inj e).1] at hc; revert hc; decide

/-- `+-`: refused with `strtod`; the minus sign counts with `std::from_chars`. -/
theorem plus_minus_fields (conv rnd : ℚ → Option (Mag f)) (field : Text) (v : Fl f) :
    ¬ CField conv ('+' :: '-' :: field) v ∧ (StdField rnd ('+' :: '-' :: field) v ↔ Word rnd true field v) := by
  refine ⟨?_, ?_, ?_⟩
  · rintro ⟨ws, sg, w, h1, h2, e, h3⟩
    cases ws with
    | cons c ws =>
      have hc := h1 c (by simp)
      rw [← (List.cons.inj e).1] at hc
      revert hc; decide
    | nil =>
      rcases h2 with rfl | rfl | rfl
      · exact (Duration.starts_head (word_head h3) e.symm).2.1 rfl
      · simp only [List.nil_append, List.cons_append, List.cons.injEq, true_and] at e
        exact (Duration.starts_head (word_head h3) e.symm).2.2 rfl
      · simp at e
  · rintro ⟨plus, neg, w, hp, e, hw⟩
    rcases hp with rfl | rfl
    · cases neg
      · exact absurd rfl (Duration.starts_head (word_head (.inl hw)) e.symm).2.1
      · simp [minusText] at e
    · cases neg
      · exact absurd rfl (Duration.starts_head (word_head (.inl hw)) (c := '-') (r := field) (by simpa [minusText] using e.symm)).2.2
      · simp only [minusText, List.cons_append, List.nil_append, List.cons.injEq, true_and, if_true] at e
        rw [e]; exact hw
  · intro h
    exact ⟨['+'], true, field, .inr rfl, rfl, h⟩

/-- Hexadecimal numbers: with `strtod` only. -/
theorem hex_fields (conv rnd : ℚ → Option (Mag f)) {sg : Text} (hsg : IsSign sg) {z : Char} (hz : z = 'x' ∨ z = 'X') {l : HexLit} (hl : l.Form)
    (v : Fl f) :
    (CField conv (sg ++ '0' :: z :: l.text) v ↔ ∃ x, conv l.abs = some x ∧ v = .fin (decide (sg = ['-'])) x) ∧
    ¬ StdField rnd (sg ++ '0' :: z :: l.text) v := by
  rw [c_field_sign hsg (hex_starts z l.text), std_field_sign hsg (hex_starts z l.text)]
  refine ⟨⟨?_, ?_⟩, word_not_hex hz v⟩
  · rintro (h | h)
    · exact absurd h (word_not_hex hz v)
    · generalize hw : '0' :: z :: l.text = w at h
      cases h with
      | mk z' l' x _ hl' hc =>
        simp only [List.cons.injEq, true_and] at hw
        have h1 := hex_whole.2 ⟨l, hl, rfl, rfl⟩
        have h2 := hex_whole.2 ⟨l', hl', rfl, rfl⟩
        rw [hw.2, h2] at h1
        simp only [Option.some.injEq, Prod.mk.injEq, and_true] at h1
        rw [h1] at hc
        exact ⟨x, hc, rfl⟩
  · rintro ⟨x, hx, rfl⟩
    exact .inr (.mk z l x hz hl hx)

/-- Decimal numbers: both configurations give what their conversions give. -/
theorem decimal_fields (conv rnd : ℚ → Option (Mag f)) {sg : Text} (hsg : IsSign sg) {n : Decimal} (h1 : n.Form) (h2 : n.neg = false) (v : Fl f) :
    (CField conv (sg ++ n.text) v ↔ ∃ x, conv n.abs = some x ∧ v = .fin (decide (sg = ['-'])) x) ∧
    (StdField rnd (sg ++ n.text) v ↔ ∃ x, rnd n.abs = some x ∧ v = .fin (decide (sg = ['-'])) x) := by
  rw [c_field_sign hsg (dec_starts h1 h2), std_field_sign hsg (dec_starts h1 h2)]
  refine ⟨⟨?_, ?_⟩, word_dec h1 h2, ?_⟩
  · rintro (h | h)
    · exact word_dec h1 h2 h
    · exact absurd h (dec_not_hex h1 v)
  · rintro ⟨x, hx, rfl⟩; exact .inl (.dec n x h1 h2 hx)
  · rintro ⟨x, hx, rfl⟩; exact .dec n x h1 h2 hx

/-- The number one. -/
def oneMag (hp : 1 ≤ f.p) (hlo : f.emin ≤ 1 - (f.p : ℤ)) (hhi : 1 - (f.p : ℤ) ≤ f.emax) : Mag f where
  m := 2 ^ (f.p - 1)
  e := 1 - f.p
  lt := Nat.pow_lt_pow_right (by decide) (by omega)
  lo := hlo
  hi := hhi
  normal := .inl (Nat.le_refl _)

theorem oneMag_val (hp : 1 ≤ f.p) (hlo : f.emin ≤ 1 - (f.p : ℤ)) (hhi : 1 - (f.p : ℤ) ≤ f.emax) : (oneMag hp hlo hhi).val = 1 := by
  show ((2 ^ (f.p - 1) : ℕ) : ℚ) * 2 ^ (1 - (f.p : ℤ)) = _
  rw [Nat.cast_pow, Nat.cast_ofNat, ← zpow_natCast, ← zpow_add₀ (by norm_num)]
  have : ((f.p - 1 : ℕ) : ℤ) + (1 - (f.p : ℤ)) = 0 := by omega
  rw [this, zpow_zero]

/-- One is read as one. -/
theorem conv_one {conv : ℚ → Option (Mag f)} (hcv : RoundsNormal conv) (hp : 1 ≤ f.p) (hlo : f.emin ≤ 1 - (f.p : ℤ)) (hhi : 1 - (f.p : ℤ) ≤ f.emax) :
    conv 1 = some (oneMag hp hlo hhi) := by
  apply hcv
  · right
    have : f.emin + f.p - 1 ≤ 0 := by omega
    calc (2 : ℚ) ^ (f.emin + f.p - 1) ≤ 2 ^ (0 : ℤ) := zpow_le_zpow_right₀ (by norm_num) this
      _ = 1 := zpow_zero _
  · have h1 : (2 : ℚ) ^ (1 - (f.p : ℤ)) ≤ 2 ^ f.emax := zpow_le_zpow_right₀ (by norm_num) hhi
    have h2 : (2 : ℚ) ^ (1 - (f.p : ℤ)) = 2 / 2 ^ f.p := by
      rw [zpow_sub₀ (by norm_num), zpow_one, zpow_natCast]
    have h3 : (2 : ℚ) ≤ 2 ^ f.p := by
      calc (2 : ℚ) = 2 ^ 1 := by norm_num
        _ ≤ 2 ^ f.p := pow_le_pow_right₀ (by norm_num) hp
    have h4 : ((2 : ℚ) ^ f.p - 1 / 2) * (2 / 2 ^ f.p) = 2 - 1 / 2 ^ f.p := by field_simp
    have h5 : (1 : ℚ) / 2 ^ f.p ≤ 1 / 2 := one_div_le_one_div_of_le (by norm_num) h3
    have h6 : ((2 : ℚ) ^ f.p - 1 / 2) * 2 ^ (1 - (f.p : ℤ)) ≤ ((2 : ℚ) ^ f.p - 1 / 2) * 2 ^ f.emax :=
      mul_le_mul_of_nonneg_left h1 (by linarith)
    rw [h2, h4] at h6
    linarith
  · intro y hy
    rw [oneMag_val] at hy ⊢
    simp only [sub_self, abs_zero]
    exact abs_pos.2 (sub_ne_zero.2 (Ne.symm hy))

end

theorem one_abs : (Decimal.abs { ip := ['1'] } : ℚ) = 1 := by
  simp [Decimal.abs, Decimal.frac, Duration.expVal, Duration.digitsVal]

/-- C123 is false: a blank before a number is accepted by `strtod` only. -/
theorem not_sameFloats : ¬ SameFloats := by
  intro h
  have hp : 1 ≤ binary64.p := by decide
  have hlo : binary64.emin ≤ 1 - (binary64.p : ℤ) := by decide
  have hhi : 1 - (binary64.p : ℤ) ≤ binary64.emax := by decide
  have hn := nearest_rounds hp
  have hc := nearest_roundsNormal hp
  have hfile := h binary64 17 formats_ok.2.2.2.1 _ _ hn hc (fun _ _ => rfl) ',' cSepOk_examples.1 true true 1 [{ line := " 1".toList }] (by
    intro r hr
    rw [List.mem_singleton.1 hr]
    refine ⟨by simp, by decide, by decide, ?_, fun _ => rfl⟩
    decide +kernel) []
  have htext : fileText [({ line := " 1".toList } : RowText)] ++ [] = " 1".toList ++ '\n' :: [] := by rfl
  rw [htext] at hfile
  have hport := (same_float_file_iff (nearest binary64) (nearest binary64) cSepOk_examples.1 true true " 1".toList (by decide) (by decide) (by decide)
    (by decide) (by decide) []).1 hfile
  refine hport.blank ' ' ['1'] rfl (by decide) ⟨.fin false (oneMag hp hlo hhi), ?_⟩
  have hform : Decimal.Form { ip := ['1'] } := ⟨by decide, by simp [Decimal.frac], by simp, by intro c sg ds h; cases h⟩
  refine ((blank_fields (nearest binary64) (nearest binary64) ' ' ['1'] (by decide) _).1).2 ?_
  have := ((decimal_fields (nearest binary64) (nearest binary64) (sg := []) (.inl rfl) (n := { ip := ['1'] }) hform rfl
    (.fin false (oneMag hp hlo hhi))).1).2 ⟨_, by rw [one_abs]; exact conv_one hc hp hlo hhi, rfl⟩
  exact this

/-- Where the library sets `errno` for underflow, a printed subnormal number cannot be read: whatever literal with the value of a
subnormal number is in a file, the file is refused. -/
theorem subnormal_refused {f : Fmt} {sg : Text} (hsg : IsSign sg) {n : Decimal} (h1 : n.Form) (h2 : n.neg = false) (h3 : 0 < n.abs)
    (h4 : n.abs < (2 : ℚ) ^ (f.emin + f.p - 1)) (v : Fl f) : ¬ CField (strictConv f) (sg ++ n.text) v := by
  rw [(decimal_fields (strictConv f) (strictConv f) hsg h1 h2 v).1]
  rintro ⟨x, hx, _⟩
  unfold strictConv at hx
  rw [if_neg] at hx
  · cases hx
  · rintro (h | h)
    · exact absurd h (ne_of_gt h3)
    · exact absurd h4 (not_lt.2 h)

/-- Non-vacuity: `double` matrices without subnormal numbers, printed in either configuration. -/
example (M : ℕ → ℕ → Fl binary64) (hM : ∀ r < 3, ∀ c < 4, NoUnderflow (M r c)) :
    Csv.csvReadBy (strtodSingle (strictConv binary64)) true true ',' 3 4
        { rest := Print.printCsvImpl (printElemSnprintf (sciOf binary64) 17) [] 3 4 M (Print.csvOpts ',' true true) ++ [] } =
      .ok (Print.rowsOf 3 4 M, { rest := [] }) :=
  c_round_trip_partial (strictConv_rounds (by decide)) (snprintf_prints (sciOf_writes _) formats_ok.2.2.2.1 (by decide)) formats_ok.2.2.2.1
    cSepOk_examples.1 (by decide) true true true true 3 4 M hM (by decide) (by decide) []

example : NoUnderflow (.inf true : Fl binary64) ∧ NoUnderflow (.nan false : Fl binary64) ∧
    NoUnderflow (.fin true (oneMag (by decide) (by decide) (by decide)) : Fl binary64) := by
  refine ⟨trivial, trivial, .inr ?_⟩
  rw [oneMag_val]
  calc (2 : ℚ) ^ (binary64.emin + binary64.p - 1) < 2 ^ (0 : ℤ) := zpow_lt_zpow_right₀ (by norm_num) (by decide)
    _ = 1 := zpow_zero _

end Guanaqo.Float
