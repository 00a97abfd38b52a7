import Verif.Float.FieldsProps
import Verif.Print.Copy

/-!
# C120 for floating-point numbers

Saving a matrix of floating-point numbers with `print_csv` and loading it with `csv_read`, from memory to memory, in the configuration with
`std::from_chars` and in that with `strtod`.
-/

namespace Guanaqo.Float

open MatView Csv Print

variable {f : Fmt}

/-- All numbers fit the buffer of `print_elem`. -/
theorem elem_fits {sci : Fl f → ℕ → Text} (hw : Writes sci) {max_digits10 : ℕ} (hf : f.Ok max_digits10) (v : Fl f) :
    (floatToStrVw (fmt sci max_digits10) 64 v (fmt sci max_digits10).max_digits10).isSome := by
  have h := to_chars_prints hw hf
  have key : ∀ {t : Text}, printElemFloat (fmt sci max_digits10) {} v = t → t ≠ [] →
      (floatToStrVw (fmt sci max_digits10) 64 v (fmt sci max_digits10).max_digits10).isSome := by
    intro t ht hne
    unfold printElemFloat at ht
    cases hx : floatToStrVw (fmt sci max_digits10) 64 v (fmt sci max_digits10).max_digits10 with
    | none => rw [hx] at ht; exact absurd ht.symm hne
    | some _ => rfl
  cases v with
  | inf neg => exact key (h.inf {} neg) (by simp)
  | nan neg =>
    obtain ⟨sg, -, h2, -⟩ := h.nan {} neg
    exact key h2 (by simp)
  | fin neg x =>
    obtain ⟨d, e, h1, -⟩ := h.fin {} neg x
    refine key h1 ?_
    cases neg <;> simp

/-- C120 for floating-point numbers with `std::from_chars`: the copy is exact, bit for bit (but for the payloads of NaNs). -/
theorem csv_copy_floats_partial {max_digits10 : ℕ} (hfo : f.Ok max_digits10) {rnd : ℚ → Option (Mag f)} (hr : Rounds rnd)
    {sci : Fl f → ℕ → Text} (hw : Writes sci) (junk : Nat → Char) {sep : Char} (hs : SepOk sep) (hline : sep ≠ '\n') (eager dbg col1d row1d : Bool)
    (src dst : View) (hfit : FitsPtrdiff src) (hrows : dst.rows = src.rows) (hcols : dst.cols = src.cols) (hpos : 0 < src.rows)
    (hshape : src.cols ≠ 1 ∨ src.rows ≤ 1 ∨ col1d = false)
    (ms md : Mem (Fl f)) (M : Int → Int → Fl f) (hM : ∀ r c, src.HasElem r c → src.Holds ms r c (M r c)) (hi : dst.Injective) (hb : dst.Backed md)
    (buf : Buf) (hbuf : buf.length = 64) (more : List Char) :
    ∃ t, printCsvView (floatElem (fmt sci max_digits10) junk) ms buf [] src (csvOpts sep col1d row1d) = .ok t ∧
      ∃ md', csvReadInto (readSingle (fromChars rnd)) eager dbg sep dst (lift { rest := t ++ more }) md = (md', .ok (lift { rest := more })) ∧
        dst.ElemsBecome M md md' := by
  obtain ⟨t, h1, h2, -⟩ := csv_copy_partial (readSingle (fromChars rnd))
    (floatElem_prints (fmt sci max_digits10) junk {} (elem_fits hw hfo)) sep (readSingle_ok (fromChars_ok hs rnd) hs.plus) hline eager dbg col1d row1d
    src dst hfit hrows hcols hpos hshape ms md M hM hi hb
    (fun r c _ => (float_readsBack hr hw hfo.p max_digits10 hfo.digits hfo.max hfo.lo hfo.hi hs _ _).by) buf hbuf more
  exact ⟨t, h1, h2⟩

/-- C120 for floating-point numbers where `strtod` is used to read. Missing, besides the shapes of C43: the subnormal numbers and the smallest
normal one, for which the library may report underflow (C123). -/
theorem csv_copy_floats_strtod_partial {max_digits10 : ℕ} (hfo : f.Ok max_digits10) {conv : ℚ → Option (Mag f)} (hcv : RoundsNormal conv)
    {sci : Fl f → ℕ → Text} (hw : Writes sci) (junk : Nat → Char) {sep : Char} (hs : CSepOk sep) (hline : sep ≠ '\n') (eager dbg col1d row1d : Bool)
    (src dst : View) (hfit : FitsPtrdiff src) (hrows : dst.rows = src.rows) (hcols : dst.cols = src.cols) (hpos : 0 < src.rows)
    (hshape : src.cols ≠ 1 ∨ src.rows ≤ 1 ∨ col1d = false)
    (ms md : Mem (Fl f)) (M : Int → Int → Fl f) (hM : ∀ r c, src.HasElem r c → src.Holds ms r c (M r c)) (hi : dst.Injective) (hb : dst.Backed md)
    (hn : ∀ r c, src.HasElem r c → NoUnderflow (M r c)) (buf : Buf) (hbuf : buf.length = 64) (more : List Char) :
    ∃ t, printCsvView (floatElem (fmt sci max_digits10) junk) ms buf [] src (csvOpts sep col1d row1d) = .ok t ∧
      ∃ md', csvReadInto (strtodSingle conv) eager dbg sep dst (lift { rest := t ++ more }) md = (md', .ok (lift { rest := more })) ∧
        dst.ElemsBecome M md md' := by
  obtain ⟨t, h1, h2, -⟩ := csv_copy_partial (strtodSingle conv)
    (floatElem_prints (fmt sci max_digits10) junk {} (elem_fits hw hfo)) sep (strtodSingle_ok conv hs) hline eager dbg col1d row1d
    src dst hfit hrows hcols hpos hshape ms md M hM hi hb
    (fun r c h => prints_readsBack hcv (to_chars_prints hw hfo) hfo.p hfo.max hs.toSepOk _ _ (hn r c h)) buf hbuf more
  exact ⟨t, h1, h2⟩

/-- The hypotheses hold for `double`, with conversions that exist. -/
example : Fmt.Ok binary64 17 ∧ Rounds (nearest binary64) ∧ RoundsNormal (strictConv binary64) ∧ Writes (sciOf binary64) ∧ SepOk ',' ∧ CSepOk ',' ∧
    NoUnderflow (.inf true : Fl binary64) := by
  refine ⟨by constructor <;> decide, nearest_rounds (by decide), strictConv_rounds (by decide), ?_, cSepOk_examples.1.toSepOk, cSepOk_examples.1, trivial⟩
  exact sciOf_writes _

end Guanaqo.Float
