import Verif.Float.Snprintf

/-! # Quadruple precision in CSV files (C98)

`csv_read` for `__float128` converts through `long double` (csv.tpp:143-153); `print_csv` writes all digits (print.cpp:16-22, 66-72). The
format of `long double` is a parameter `ld` (that of x86 is `x87`). -/

namespace Guanaqo.Float

open Guanaqo.Duration (Text scanSpecial scanDecimal minusSign)
open Guanaqo.Print (PrintOpts ReadsBack csvOpts)

/-! ## Reading -/

/-- csv.tpp:143-153: `CSVReader<__float128>::read_single` converts with `CSVReader<long double>::read_single` and casts the result. -/
def quadSingle {ld : Fmt} (h : ld.Sub binary128) (rnd : ℚ → Option (Mag ld)) (buf : Text) : Option (Fl binary128 × Text) :=
  (Csv.readSingle (fromChars rnd) buf).map fun p => (castUp h p.1, p.2)

/-- The same, as a conversion that the functions of `Verif/Csv/Model.lean` can call. -/
def fromCharsQuad {ld : Fmt} (h : ld.Sub binary128) (rnd : ℚ → Option (Mag ld)) : Csv.Parser (Fl binary128) := fun s =>
  (fromChars rnd s).map fun p => (castUp h p.1, p.2)

theorem quadSingle_eq {ld : Fmt} (h : ld.Sub binary128) (rnd : ℚ → Option (Mag ld)) (buf : Text) :
    Csv.readSingle (fromCharsQuad h rnd) buf = quadSingle h rnd buf := by
  unfold quadSingle Csv.readSingle
  split <;> rfl

theorem fromCharsQuad_ok {ld : Fmt} (h : ld.Sub binary128) (rnd : ℚ → Option (Mag ld)) {sep : Char} (hs : SepOk sep) :
    (fromCharsQuad h rnd).Ok sep where
  consumes := by
    intro s v t he
    unfold fromCharsQuad at he
    cases hf : fromChars rnd s with
    | none => rw [hf] at he; cases he
    | some p =>
      rw [hf] at he
      simp only [Option.map_some, Option.some.injEq, Prod.mk.injEq] at he
      obtain ⟨-, rfl⟩ := he
      exact (fromChars_ok hs rnd).consumes s p.1 p.2 hf
  stops := by
    intro f r hr
    unfold fromCharsQuad
    rw [(fromChars_ok hs rnd).stops f r hr]
    cases fromChars rnd f <;> rfl

/-! ## Writing -/

/-- print.cpp:66-72 and print.tpp:20-23: an element of a matrix, printed with `%+-#.*Qe` (buffer of 64 characters, `max_digits10 = 36`). -/
def printElemQuad (sci : Fl binary128 → ℕ → Text) : PrintOpts → Fl binary128 → Text := printElemSnprintf sci 36

/-! ## Specification -/

/-- A number of `long double`. -/
def Representable (ld : Fmt) : Fl binary128 → Prop
  | .fin _ x => ∃ y : Mag ld, y.val = x.val
  | _ => True

/-- C98, in full: what `print_csv` wrote reads back, for matrices of every shape that C43 grants. -/
def QuadRoundTrip (ld : Fmt) (h : ld.Sub binary128) : Prop :=
  ∀ (rnd : ℚ → Option (Mag ld)) (sci : Fl binary128 → ℕ → Text), Rounds rnd → Writes sci → ∀ (eager dbg : Bool) (rows cols : ℕ) (M : ℕ → ℕ → Fl binary128),
    rows ≠ 0 → (cols ≠ 1 ∨ rows ≤ 1) →
    Csv.csvRead (fromCharsQuad h rnd) eager dbg ',' rows cols
      { rest := Print.printCsvImpl (printElemQuad sci) [] rows cols M (csvOpts ',' true true) } = .ok (Print.rowsOf rows cols M, { rest := [] })

/-! ## C98 -/

section
variable {ld : Fmt} (hsub : ld.Sub binary128) {rnd : ℚ → Option (Mag ld)} {sci : Fl binary128 → ℕ → Text}

theorem castUp_neg (v : Fl ld) : (castUp hsub v).neg = v.neg := by cases v <;> rfl

theorem cast_of_representable (v : Fl binary128) (h : Representable ld v) : ∃ w : Fl ld, castUp hsub w = v := by
  cases v with
  | inf n => exact ⟨.inf n, rfl⟩
  | nan n => exact ⟨.nan n, rfl⟩
  | fin n x =>
    obtain ⟨y, hy⟩ := h
    refine ⟨.fin n y, ?_⟩
    have : widen hsub y = x := mag_unique (by decide) _ _ (by rw [widen_val, hy])
    simp [castUp, this]

theorem representable_cast (w : Fl ld) : Representable ld (castUp hsub w) := by
  cases w with
  | fin n y => exact ⟨y, (widen_val hsub y).symm⟩
  | inf n => trivial
  | nan n => trivial

/-- Whatever is read is a number of `long double`. -/
theorem quad_read_representable {buf : Text} {v : Fl binary128} {r : Text} (h : quadSingle hsub rnd buf = some (v, r)) : Representable ld v := by
  unfold quadSingle at h
  cases hf : Csv.readSingle (fromChars rnd) buf with
  | none => rw [hf] at h; cases h
  | some p =>
    rw [hf] at h
    simp only [Option.map_some, Option.some.injEq, Prod.mk.injEq] at h
    obtain ⟨rfl, -⟩ := h
    exact representable_cast hsub p.1

/-- Every number that the functions of the CSV reader return was returned by `read_single`. -/
theorem csvRead_all {F : Type} {fc : Csv.Parser F} {P : F → Prop} (hP : ∀ b v r, Csv.readSingle fc b = some (v, r) → P v) (eager dbg : Bool)
    (sep : Char) (rows cols : ℕ) (is is' : Csv.IStream) (vs : List (List F)) (h : Csv.csvRead fc eager dbg sep rows cols is = .ok (vs, is')) :
    ∀ l ∈ vs, ∀ v ∈ l, P v := by
  have hread : ∀ rd is v rd' is', Csv.read fc eager dbg sep rd is = .ok (v, rd', is') → P v := by
    intro rd is v rd' is' h
    unfold Csv.read at h
    obtain ⟨⟨rd1, is1⟩, -, h2⟩ := res_bind_ok.1 h
    dsimp only at h2
    split at h2
    · cases h2
    · rename_i v' hs
      simp only [Except.ok.injEq, Prod.mk.injEq] at h2
      obtain ⟨rfl, -, -⟩ := h2
      exact hP _ _ _ hs
    · rename_i v' c t hs
      split at h2
      · cases h2
      · simp only [Except.ok.injEq, Prod.mk.injEq] at h2
        obtain ⟨rfl, -, -⟩ := h2
        exact hP _ _ _ hs
  have hN : ∀ n rd is vs rd' is', Csv.readN fc eager dbg sep n rd is = .ok (vs, rd', is') → ∀ v ∈ vs, P v := by
    intro n
    induction n with
    | zero =>
      intro rd is vs rd' is' h
      simp only [Csv.readN, Except.ok.injEq, Prod.mk.injEq] at h
      obtain ⟨rfl, -, -⟩ := h
      simp
    | succ n ih =>
      intro rd is vs rd' is' h
      simp only [Csv.readN, res_bind_ok, Prod.exists, Except.ok.injEq, Prod.mk.injEq] at h
      obtain ⟨v, rd1, is1, h1, ws, rd2, is2, h2, rfl, -, -⟩ := h
      intro x hx
      rcases List.mem_cons.1 hx with rfl | hx
      · exact hread _ _ _ _ _ h1
      · exact ih _ _ _ _ _ h2 x hx
  have hR : ∀ rows rd is vs is', Csv.readRows fc eager dbg sep cols rows rd is = .ok (vs, is') → ∀ l ∈ vs, ∀ v ∈ l, P v := by
    intro rows
    induction rows with
    | zero =>
      intro rd is vs is' h
      simp only [Csv.readRows, Except.ok.injEq, Prod.mk.injEq] at h
      obtain ⟨rfl, -⟩ := h
      simp
    | succ n ih =>
      intro rd is vs is' h
      simp only [Csv.readRows, Csv.readRowWith, res_bind_ok, Prod.exists, Except.ok.injEq, Prod.mk.injEq] at h
      obtain ⟨v, rd1, is1, ⟨_, _, _, ws, _, _, h1, _, _, rfl, _, _⟩, wss, is2, h2, rfl, -⟩ := h
      intro x hx
      rcases List.mem_cons.1 hx with rfl | hx
      · exact hN _ _ _ _ _ _ h1
      · exact ih _ _ _ _ h2 x hx
  exact hR rows {} is vs is' h

/-- Whatever the text: the numbers that `csv_read` returns are numbers of `long double`. -/
theorem quad_csv_read_representable (eager dbg : Bool) (sep : Char) (rows cols : ℕ) (is is' : Csv.IStream) (vs : List (List (Fl binary128)))
    (h : Csv.csvRead (fromCharsQuad hsub rnd) eager dbg sep rows cols is = .ok (vs, is')) : ∀ l ∈ vs, ∀ v ∈ l, Representable ld v :=
  csvRead_all (fun b v r hb => quad_read_representable hsub (by rw [← quadSingle_eq]; exact hb)) eager dbg sep rows cols is is' vs h

theorem readsBack_quad {sep : Char} {text : Text} {w : Fl ld} (h : ReadsBack (fromChars rnd) sep text w) :
    ReadsBack (fromCharsQuad hsub rnd) sep text (castUp hsub w) where
  value := by
    have := h.value
    unfold Csv.numberOf at this ⊢
    rw [quadSingle_eq]
    unfold quadSingle
    cases hf : Csv.readSingle (fromChars rnd) text with
    | none => rw [hf] at this; cases this
    | some p =>
      obtain ⟨v, r⟩ := p
      rw [hf] at this
      cases r with
      | nil =>
        simp only [Option.some.injEq] at this
        subst this; rfl
      | cons c r => cases this
  short := h.short
  nosep := h.nosep
  noline := h.noline
  nocomment := h.nocomment

/-- The text of an element that is a number of `long double` is read back exactly. -/
theorem quad_readsBack (hr : Rounds rnd) (hw : Writes sci) {sep : Char} (hs : SepOk sep) (opts : PrintOpts) (v : Fl binary128)
    (hv : Representable ld v) : ReadsBack (fromCharsQuad hsub rnd) sep (printElemQuad sci opts v) v := by
  obtain ⟨w, rfl⟩ := cast_of_representable hsub v hv
  have hdig : (2 : ℕ) ^ ld.p < 10 ^ 36 := by
    have h1 : (2 : ℕ) ^ ld.p ≤ 2 ^ 113 := Nat.pow_le_pow_right (by decide) hsub.p
    have h2 : (2 : ℕ) ^ 113 < 10 ^ 36 := by decide
    omega
  have hlo : -(10 ^ 5 : ℤ) + 2 ≤ ld.emin := by
    have h1 := hsub.lo
    have h2 : (-16494 : ℤ) ≤ ld.emin := h1
    norm_num; omega
  have hhi : ld.p + ld.emax < (10 ^ 5 : ℤ) := by
    have h1 : ld.p + ld.emax ≤ (113 : ℕ) + (16271 : ℤ) := hsub.hi
    have h2 : ((113 : ℕ) : ℤ) = 113 := rfl
    rw [h2] at h1; norm_num; omega
  have hb := snprintf_readsBack (sci := fun (v : Fl ld) prec => sci (castUp hsub v) prec) hr (writes_narrow hsub hw)
    ⟨hsub.pos, hdig, (by decide), hlo, hhi⟩ hs opts w
  have hl : printElemQuad sci opts (castUp hsub w) = printElemSnprintf (fun (v : Fl ld) prec => sci (castUp hsub v) prec) 36 opts w := by
    have : printfText sci (castUp hsub w) 36 = printfText (fun (v : Fl ld) prec => sci (castUp hsub v) prec) w 36 := by
      cases w <;> rfl
    unfold printElemQuad printElemSnprintf snprintfVw
    simp only [this]
  rw [hl]
  exact readsBack_quad hsub hb

/-- C98. A matrix of quadruple precision reads back exactly, if its elements are numbers of `long double`. -/
theorem quad_round_trip_partial (hr : Rounds rnd) (hw : Writes sci) {sep : Char} (hs : SepOk sep) (hline : sep ≠ '\n') (eager dbg col1d row1d : Bool)
    (rows cols : ℕ) (M : ℕ → ℕ → Fl binary128) (hrows : rows ≠ 0) (hshape : cols ≠ 1 ∨ rows ≤ 1 ∨ col1d = false)
    (hM : ∀ r < rows, ∀ c < cols, Representable ld (M r c)) (more : List Char) :
    Csv.csvRead (fromCharsQuad hsub rnd) eager dbg sep rows cols
        { rest := Print.printCsvImpl (printElemQuad sci) [] rows cols M (csvOpts sep col1d row1d) ++ more } =
      .ok (Print.rowsOf rows cols M, { rest := more }) :=
  Print.csv_round_trip_partial (fromCharsQuad hsub rnd) _ sep (fromCharsQuad_ok hsub rnd hs) hs.plus hline eager dbg col1d row1d rows cols M
    (fun r hr' c hc => quad_readsBack hsub hr hw hs _ _ (hM r hr' c hc)) hrows hshape more

/-- C98. Sharp: a matrix with any other element does not read back, however it is written. -/
theorem quad_lost (eager dbg : Bool) (sep : Char) (rows cols : ℕ) (M : ℕ → ℕ → Fl binary128) (is is' : Csv.IStream)
    {r c : ℕ} (hr : r < rows) (hc : c < cols) (h : ¬ Representable ld (M r c)) :
    Csv.csvRead (fromCharsQuad hsub rnd) eager dbg sep rows cols is ≠ .ok (Print.rowsOf rows cols M, is') := by
  intro he
  refine h (quad_csv_read_representable hsub eager dbg sep rows cols is is' _ he ((List.range cols).map (fun c => M r c)) ?_ _ ?_)
  · exact List.mem_map.2 ⟨r, List.mem_range.2 hr, rfl⟩
  · exact List.mem_map.2 ⟨c, List.mem_range.2 hc, rfl⟩

end

/-- `2 ^ 64 + 1`: 65 bits. -/
def big : Mag binary128 where
  m := (2 ^ 64 + 1) * 2 ^ 48
  e := -48
  lt := by decide
  lo := by decide
  hi := by decide
  normal := .inl (by decide)

theorem big_val : big.val = 2 ^ 64 + 1 := by
  unfold Mag.val big
  norm_num

theorem big_lost : ¬ Representable x87 (.fin false big) := by
  rintro ⟨y, hy⟩
  rw [big_val] at hy
  have hlt := y.lt
  unfold Mag.val at hy
  by_cases he : 1 ≤ y.e
  · obtain ⟨k, hk⟩ : ∃ k : ℕ, y.e = k + 1 := ⟨(y.e - 1).toNat, by omega⟩
    rw [hk, zpow_add₀ (by norm_num), zpow_natCast, zpow_one] at hy
    have : y.m * 2 ^ k * 2 = 2 ^ 64 + 1 := by
      have : ((y.m * 2 ^ k * 2 : ℕ) : ℚ) = ((2 ^ 64 + 1 : ℕ) : ℚ) := by push_cast; norm_num at hy ⊢; linarith
      exact_mod_cast this
    omega
  · obtain ⟨k, hk⟩ : ∃ k : ℕ, y.e = -(k : ℤ) := ⟨(-y.e).toNat, by omega⟩
    rw [hk, zpow_neg, zpow_natCast] at hy
    have h2 : (0 : ℚ) < 2 ^ k := by positivity
    have h3 : (1 : ℚ) ≤ 2 ^ k := one_le_pow₀ (by norm_num)
    have h4 : (y.m : ℚ) = (2 ^ 64 + 1) * 2 ^ k := by
      rw [← hy]; field_simp
    have h5 : (y.m : ℚ) < 2 ^ 64 := by exact_mod_cast hlt
    nlinarith

/-- False with the `long double` of x86: `2 ^ 64 + 1` does not read back. -/
theorem not_quadRoundTrip : ¬ QuadRoundTrip x87 x87_sub := fun h =>
  quad_lost x87_sub true true ',' 1 1 (fun _ _ => .fin false big) _ _ (r := 0) (c := 0) (by decide) (by decide) big_lost
    (h (nearest x87) (sciOf binary128) (nearest_rounds (by decide)) (sciOf_writes _) true true 1 1 (fun _ _ => .fin false big) (by decide) (by decide))

/-- Non-vacuity: every matrix of `double` values, with the conversions of `Verif/Float/RoundTrip.lean`. -/
example (M : ℕ → ℕ → Fl x87) :
    Csv.csvRead (fromCharsQuad x87_sub (nearest x87)) true true ',' 3 4
        { rest := Print.printCsvImpl (printElemQuad (sciOf binary128)) [] 3 4 (fun r c => castUp x87_sub (M r c)) (csvOpts ',' true true) ++ [] } =
      .ok (Print.rowsOf 3 4 (fun r c => castUp x87_sub (M r c)), { rest := [] }) :=
  quad_round_trip_partial x87_sub (nearest_rounds (by decide)) (sciOf_writes _) sepOk_examples.1 (by decide) true true true true 3 4 _
    (by decide) (by decide) (fun _ _ _ _ => representable_cast x87_sub _) []

end Guanaqo.Float
