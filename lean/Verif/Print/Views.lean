import Verif.Print.Layout
import Verif.MatView.Props
import Verif.MatView.Sharp
import Verif.Ints
import Verif.Float.Fits
import Mathlib.Tactic.NormNum

/-!
# C114: printing views: what is read from memory, and the shared conversion buffer

`src/include/guanaqo/print.hpp:59-138` (the overloads for `MatrixView` and `std::span`) and
`src/include/guanaqo/implementation/print.tpp:20-114` again, this time with the memory the view points
into and with the buffer of 64 characters that all conversions of one call share. `Verif/Print/Model.lean`
abstracts from both: there a matrix is a function, and an element is a text.
-/

namespace Guanaqo.Print

open MatView

/-! ## The conversion buffer -/

/-- `std::array<char, 64> buf` (print.tpp:43): its contents are whatever earlier conversions left. -/
abbrev Buf := List Char

/-- `std::to_chars(buf + i, …)` and `*begin++ = '+'`: characters are replaced from position `i` on. -/
def Buf.put (buf : Buf) (i : Nat) (t : Text) : Buf := buf.take i ++ t ++ buf.drop (i + t.length)

/-- print.cpp:28-46, `float_to_str_vw_impl` with its effect on the buffer: the new buffer, and the length
of the returned view (it starts at the beginning of the buffer). `junk` stands for the unspecified
characters that `std::to_chars` leaves if the text does not fit. -/
def vwInto {F : Type} (ff : FloatFormat F) (junk : Nat → Char) (buf : Buf) (value : F) (precision : Nat) :
    Buf × Nat :=
  let pre : Text := if !ff.signbit value && !ff.isnan value then ['+'] else []
  let buf := buf.put 0 pre
  let digits := ff.sci value precision
  if digits.length ≤ buf.length - pre.length then (buf.put pre.length digits, pre.length + digits.length)
  else (pre ++ (List.range (buf.length - pre.length)).map junk, buf.length)

/-- `os << view`, where the view is the first `len` characters of the buffer. -/
def emit (os : Text) (v : Buf × Nat) : Text := os ++ v.1.take v.2

/-- An overload of `print_elem`: the stream and the buffer it is passed, and what it makes of them. -/
abbrev Elem (E : Type) := E → Text × Buf → Text × Buf

/-- print.tpp:20-23. -/
def floatElem {F : Type} (ff : FloatFormat F) (junk : Nat → Char) : Elem F := fun value s =>
  let v := vwInto ff junk s.2 value ff.max_digits10
  (emit s.1 v, v.1)

/-- print.tpp:25-28: the buffer is not used. -/
def intElem : Elem Int := fun value s => (s.1 ++ showInt value, s.2)

/-- print.tpp:30-34. The left operand of `<<` is evaluated before the right one (C++17), so the real part
has been written when the imaginary part is converted into the same buffer. -/
def complexElem {F : Type} (ff : FloatFormat F) (junk : Nat → Char) : Elem (F × F) := fun value s =>
  let re := vwInto ff junk s.2 value.1 ff.max_digits10
  let os := emit s.1 re
  let os := os ++ " + ".toList
  let im := vwInto ff junk re.1 value.2 ff.max_digits10
  let os := emit os im
  (os ++ ['j'], im.1)

/-- What print.tpp:30-34 would do if the two conversions were evaluated before anything is written (as
compilers could before C++17, and as a call `print(vw(re), vw(im))` may): both views then show the buffer
as the second conversion left it. -/
def complexElemEager {F : Type} (ff : FloatFormat F) (junk : Nat → Char) : Elem (F × F) := fun value s =>
  let re := vwInto ff junk s.2 value.1 ff.max_digits10
  let im := vwInto ff junk re.1 value.2 ff.max_digits10
  (emit (emit s.1 (im.1, re.2) ++ " + ".toList) im ++ ['j'], im.1)

/-! ## Printing from memory -/

/-- print.tpp:48-52 and 58-62: the loop over the columns of row `r`. -/
def colsM {E : Type} (el : Elem E) (opts : PrintOpts) (v : View) (m : Mem E) (r : Int) (more : Int → Bool)
    (s : Text × Buf) : Res (Text × Buf) :=
  forRange 0 v.cols (fun c s => do
    let x ← m.read (← v.at r c)
    let s := el x s
    return (if more c then s.1 ++ opts.delimiter else s.1, s.2)) s

/-- print.tpp:38-68, `print_csv_impl`. -/
def csvImplM {E : Type} (el : Elem E) (v : View) (m : Mem E) (opts : PrintOpts) (s : Text × Buf) :
    Res (Text × Buf) :=
  let indent := List.replicate opts.indent opts.indent_char
  if (v.cols = 1 ∧ opts.column_vector_as_1d) ∨ (v.rows = 1 ∧ opts.row_vector_as_1d) then do
    let s ← forRange 0 v.rows (fun r s =>
      colsM el opts v m r (fun c => decide (r ≠ v.rows - 1) || decide (c ≠ v.cols - 1)) s)
      (s.1 ++ indent ++ opts.start, s.2)
    return (s.1 ++ opts.end, s.2)
  else do
    let s ← forRange 0 v.rows (fun r s => do
      let s ← colsM el opts v m r (fun c => decide (c ≠ v.cols - 1))
        (s.1 ++ indent ++ (if r = 0 then opts.start else opts.line_start), s.2)
      return (if r ≠ v.rows - 1 then s.1 ++ opts.line_end else s.1, s.2)) s
    return (s.1 ++ opts.end, s.2)

/-- print.tpp:70-90, `print_matlab_impl`. -/
def matlabImplM {E : Type} (el : Elem E) (v : View) (m : Mem E) (fin : Text) (s : Text × Buf) :
    Res (Text × Buf) := do
  let s ← csvImplM el v m (matlabOpts v.cols.toNat) s
  return (s.1 ++ fin, s.2)

/-- print.tpp:92-114, `print_python_impl`. -/
def pythonImplM {E : Type} (el : Elem E) (v : View) (m : Mem E) (fin : Text) (squeeze : Bool)
    (s : Text × Buf) : Res (Text × Buf) := do
  let s ← csvImplM el v m (pythonOpts v.rows.toNat v.cols.toNat squeeze) s
  return (s.1 ++ fin, s.2)

/-- `static_cast<ptrdiff_t>(x)` for an integer of any type (64-bit `ptrdiff_t`). -/
def toPtrdiff (x : Int) : Int := Int.bmod x (2 ^ 64)

/-- The `PrintMatrixView` made of a view, print.hpp:76-82 (and 103-109, 130-136). -/
def ofView (v : View) : View :=
  { data := v.data, rows := toPtrdiff v.rows, cols := toPtrdiff v.cols, inner := toPtrdiff v.inner,
    outer := toPtrdiff v.outer }

/-- The `PrintMatrixView` made of a span, print.hpp:64-67 (and 91-94, 118-121): the other members have the
defaults of `PlainMatrixView`, mat-view.hpp:46-53. -/
def ofSpan (data : Int) (size : Nat) : View := View.withDefaultOuter data (toPtrdiff size) 1 1

section
variable {E : Type} (el : Elem E) (m : Mem E)

/-- print.hpp:59-69. Each call has its own buffer; its initial contents do not matter, see the theorems. -/
def printCsvSpan (buf : Buf) (os : Text) (data : Int) (size : Nat) (opts : PrintOpts) : Res Text := do
  return (← csvImplM el (ofSpan data size) m opts (os, buf)).1

/-- print.hpp:71-84. -/
def printCsvView (buf : Buf) (os : Text) (v : View) (opts : PrintOpts) : Res Text := do
  return (← csvImplM el (ofView v) m opts (os, buf)).1

/-- print.hpp:86-96. -/
def printMatlabSpan (buf : Buf) (os : Text) (data : Int) (size : Nat) (fin : Text) : Res Text := do
  return (← matlabImplM el (ofSpan data size) m fin (os, buf)).1

/-- print.hpp:98-111. -/
def printMatlabView (buf : Buf) (os : Text) (v : View) (fin : Text) : Res Text := do
  return (← matlabImplM el (ofView v) m fin (os, buf)).1

/-- print.hpp:113-123. -/
def printPythonSpan (buf : Buf) (os : Text) (data : Int) (size : Nat) (fin : Text) (squeeze : Bool) :
    Res Text := do
  return (← pythonImplM el (ofSpan data size) m fin squeeze (os, buf)).1

/-- print.hpp:125-138. -/
def printPythonView (buf : Buf) (os : Text) (v : View) (fin : Text) (squeeze : Bool) : Res Text := do
  return (← pythonImplM el (ofView v) m fin squeeze (os, buf)).1

end

/-! ## The buffer does not show -/

/-- The element printer writes exactly the text `text v`, whatever is in the buffer. -/
def Prints {E : Type} (el : Elem E) (text : E → Text) : Prop :=
  ∀ v os buf, buf.length = 64 → ∃ buf', el v (os, buf) = (os ++ text v, buf') ∧ buf'.length = 64

theorem put_length {buf : Buf} {i : Nat} {t : Text} (h : i + t.length ≤ buf.length) :
    (buf.put i t).length = buf.length := by
  unfold Buf.put
  simp only [List.length_append, List.length_take, List.length_drop]
  omega

theorem put_take {buf : Buf} {i : Nat} {t : Text} (h : i + t.length ≤ buf.length) :
    (buf.put i t).take (i + t.length) = buf.take i ++ t := by
  have h1 : (buf.take i ++ t).length = i + t.length := by
    simp only [List.length_append, List.length_take]; omega
  unfold Buf.put
  rw [← h1, List.take_left]

/-- C114. The view returned by `float_to_str_vw` shows the text of the number and nothing of what was in
the buffer before. -/
theorem vwInto_text {F : Type} (ff : FloatFormat F) (junk : Nat → Char) (buf : Buf) (v : F) (p : Nat)
    {t : Text} (hb : buf.length = 64) (h : floatToStrVw ff 64 v p = some t) :
    ∃ buf', vwInto ff junk buf v p = (buf', t.length) ∧ buf'.take t.length = t ∧ buf'.length = 64 := by
  unfold floatToStrVw at h
  unfold vwInto
  simp only at h ⊢
  generalize hpre : (if (!ff.signbit v && !ff.isnan v) = true then ['+'] else []) = pre at h ⊢
  have hl : pre.length ≤ 1 := by subst hpre; split <;> simp
  split at h
  case isFalse => cases h
  case isTrue hd =>
    cases h
    have hp0 : (buf.put 0 pre).length = 64 := by rw [put_length (by omega), hb]
    rw [hp0, if_pos hd]
    refine ⟨_, by rw [List.length_append], ?_, ?_⟩
    · rw [List.length_append, put_take (by omega)]
      congr 1
      have := put_take (buf := buf) (i := 0) (t := pre) (by omega)
      simpa using this
    · rw [put_length (by omega), hp0]

/-- C114. Numbers. -/
theorem floatElem_prints {F : Type} (ff : FloatFormat F) (junk : Nat → Char) (opts : PrintOpts)
    (hfit : ∀ v, (floatToStrVw ff 64 v ff.max_digits10).isSome) :
    Prints (floatElem ff junk) (printElemFloat ff opts) := by
  intro v os buf hb
  obtain ⟨t, ht⟩ := Option.isSome_iff_exists.1 (hfit v)
  obtain ⟨b', h1, h2, h3⟩ := vwInto_text ff junk buf v _ hb ht
  refine ⟨b', ?_, h3⟩
  simp only [floatElem, h1, emit, h2, printElemFloat, ht, Option.getD_some]

/-- C114. Integers. -/
theorem intElem_prints (opts : PrintOpts) : Prints intElem (printElemInt opts) :=
  fun _ _ buf hb => ⟨buf, rfl, hb⟩

/-- C114. Complex numbers: although both parts are converted in the same buffer, both are written. -/
theorem complexElem_prints {F : Type} (ff : FloatFormat F) (junk : Nat → Char) (opts : PrintOpts)
    (hfit : ∀ v, (floatToStrVw ff 64 v ff.max_digits10).isSome) :
    Prints (complexElem ff junk) (printElemComplex ff opts) := by
  intro v os buf hb
  obtain ⟨t, ht⟩ := Option.isSome_iff_exists.1 (hfit v.1)
  obtain ⟨b, h1, h2, h3⟩ := vwInto_text ff junk buf v.1 _ hb ht
  obtain ⟨t', ht'⟩ := Option.isSome_iff_exists.1 (hfit v.2)
  obtain ⟨b', h1', h2', h3'⟩ := vwInto_text ff junk b v.2 _ h3 ht'
  refine ⟨b', ?_, h3'⟩
  simp only [complexElem, h1, emit, h2, h1', h2', printElemComplex, ht, ht', Option.getD_some,
    List.append_assoc]

/-- The order matters: with both conversions done first, the imaginary part is written twice whenever the
two texts have the same length. -/
theorem complexElemEager_text {F : Type} (ff : FloatFormat F) (junk : Nat → Char) (re im : F) (os : Text)
    (buf : Buf) (hb : buf.length = 64) {t u : Text} (ht : floatToStrVw ff 64 re ff.max_digits10 = some t)
    (hu : floatToStrVw ff 64 im ff.max_digits10 = some u) (hl : t.length = u.length) :
    (complexElemEager ff junk (re, im) (os, buf)).1 = os ++ u ++ " + ".toList ++ u ++ ['j'] := by
  obtain ⟨b, h1, h2, h3⟩ := vwInto_text ff junk buf re _ hb ht
  obtain ⟨b', h1', h2', h3'⟩ := vwInto_text ff junk b im _ h3 hu
  simp only [complexElemEager, h1, h1', emit, hl, h2']

/-! ## What is written -/

theorem read_at {E : Type} {v : View} {m : Mem E} {r c : Int} {x : E} (h : v.HasElem r c)
    (hx : v.Holds m r c x) : (v.at r c >>= fun p => m.read p) = .ok x := by
  rw [(at_correct v r c).1 h, res_ok_bind]
  exact read_ok hx

theorem colsM_ok {E : Type} {el : Elem E} {text : E → Text} (hel : Prints el text) (opts : PrintOpts)
    {v : View} {m : Mem E} {f : Int → Int → E} {r : Int}
    (hf : ∀ c, 0 ≤ c → c < v.cols → v.HasElem r c ∧ v.Holds m r c (f r c)) (more : Int → Bool) (more' : Nat → Bool)
    (hmore : ∀ c : Nat, (c : Int) < v.cols → more c = more' c) (os : Text) (buf : Buf) (hb : buf.length = 64) :
    ∃ buf', colsM el opts v m r more (os, buf) =
        .ok (printCols (fun _ => text) opts (fun c : Nat => f r c) v.cols.toNat more' os, buf') ∧ buf'.length = 64 := by
  obtain ⟨s', h1, h2, h3⟩ := forRange_inv (lo := 0) (hi := v.cols) (s := (os, buf))
    (body := fun c s => do
      let x ← m.read (← v.at r c)
      let s := el x s
      return (if more c then s.1 ++ opts.delimiter else s.1, s.2))
    (fun c s => s.1 = printCols (fun _ => text) opts (fun c : Nat => f r c) c.toNat more' os ∧ s.2.length = 64)
    ⟨rfl, hb⟩
    (by
      rintro c ⟨o, b⟩ h0 hc ⟨ho, hbl⟩
      simp only at ho hbl
      obtain ⟨he, hx⟩ := hf c h0 hc
      obtain ⟨b', e1, e2⟩ := hel (f r c) o b hbl
      have hread := read_at he hx
      refine ⟨(if more c then o ++ text (f r c) ++ opts.delimiter else o ++ text (f r c), b'), ?_, ?_, e2⟩
      · rw [← res_bind_assoc, hread, res_ok_bind]
        simp only [e1]
        rfl
      · obtain ⟨k, rfl⟩ := Int.eq_ofNat_of_zero_le h0
        have e3 : ((k : Int) + 1).toNat = k + 1 := by omega
        have e4 : ((k : Int)).toNat = k := by omega
        simp only [e3]
        unfold printCols
        rw [List.range_succ, List.foldl_append]
        rw [e4] at ho
        simp only [List.foldl_cons, List.foldl_nil]
        unfold printCols at ho
        rw [← ho, hmore k hc])
  refine ⟨s'.2, ?_, h3⟩
  have : (max 0 v.cols).toNat = v.cols.toNat := by omega
  rw [this] at h2
  rw [← h2]
  exact h1

/-- C114, at the level of `print_csv_impl`: the text is that of the matrix of the elements in memory. -/
theorem csvImplM_ok {E : Type} {el : Elem E} {text : E → Text} (hel : Prints el text) (v : View)
    (m : Mem E) (f : Int → Int → E) (hf : ∀ r c, v.HasElem r c → v.Holds m r c (f r c)) (opts : PrintOpts)
    (os : Text) (buf : Buf) (hb : buf.length = 64) :
    ∃ buf', csvImplM el v m opts (os, buf) =
      .ok (printCsvImpl (fun _ => text) os v.rows.toNat v.cols.toNat (fun r c => f r c) opts, buf') ∧
      buf'.length = 64 := by
  have hrow : ∀ r, 0 ≤ r → r < v.rows → ∀ c, 0 ≤ c → c < v.cols → v.HasElem r c ∧ v.Holds m r c (f r c) :=
    fun r h0 h1 c h2 h3 => ⟨⟨h0, h1, h2, h3⟩, hf r c ⟨h0, h1, h2, h3⟩⟩
  have e1 : (v.cols.toNat = 1) ↔ v.cols = 1 := by omega
  have e2 : (v.rows.toNat = 1) ↔ v.rows = 1 := by omega
  have hmax : (max 0 v.rows).toNat = v.rows.toNat := by omega
  unfold csvImplM printCsvImpl
  simp only [e1, e2]
  by_cases hc : (v.cols = 1 ∧ opts.column_vector_as_1d) ∨ (v.rows = 1 ∧ opts.row_vector_as_1d)
  · rw [if_pos hc, if_pos hc]
    obtain ⟨s', h1, h2, h3⟩ := forRange_inv (lo := 0) (hi := v.rows)
      (s := (os ++ List.replicate opts.indent opts.indent_char ++ opts.start, buf))
      (body := fun r s =>
        colsM el opts v m r (fun c => decide (r ≠ v.rows - 1) || decide (c ≠ v.cols - 1)) s)
      (fun r s => s.1 = (List.range r.toNat).foldl (fun os (r : Nat) =>
          printCols (fun _ => text) opts (fun c : Nat => f r c) v.cols.toNat
            (fun c => decide (r ≠ v.rows.toNat - 1) || decide (c ≠ v.cols.toNat - 1)) os)
          (os ++ List.replicate opts.indent opts.indent_char ++ opts.start) ∧ s.2.length = 64)
      ⟨rfl, hb⟩
      (by
        rintro r ⟨o, b⟩ h0 hr ⟨ho, hbl⟩
        simp only at ho hbl
        obtain ⟨k, rfl⟩ := Int.eq_ofNat_of_zero_le h0
        obtain ⟨b', g1, g2⟩ := colsM_ok hel opts (hrow k h0 hr)
          (fun c => decide ((k : Int) ≠ v.rows - 1) || decide (c ≠ v.cols - 1))
          (fun c => decide (k ≠ v.rows.toNat - 1) || decide (c ≠ v.cols.toNat - 1))
          (by
            intro c hc
            have a1 : ((k : Int) ≠ v.rows - 1) ↔ (k ≠ v.rows.toNat - 1) := by omega
            have a2 : ((c : Int) ≠ v.cols - 1) ↔ (c ≠ v.cols.toNat - 1) := by omega
            simp only [a1, a2]) o b hbl
        refine ⟨_, g1, ?_, g2⟩
        have e3 : ((k : Int) + 1).toNat = k + 1 := by omega
        simp only [e3]
        rw [List.range_succ, List.foldl_append]
        simp only [List.foldl_cons, List.foldl_nil]
        rw [show ((k : Int)).toNat = k by omega] at ho
        rw [← ho])
    rw [hmax] at h2
    refine ⟨s'.2, ?_, h3⟩
    rw [h1, res_ok_bind, h2]
    rfl
  · rw [if_neg hc, if_neg hc]
    obtain ⟨s', h1, h2, h3⟩ := forRange_inv (lo := 0) (hi := v.rows) (s := (os, buf))
      (body := fun r s => do
        let s ← colsM el opts v m r (fun c => decide (c ≠ v.cols - 1))
          (s.1 ++ List.replicate opts.indent opts.indent_char ++ (if r = 0 then opts.start else opts.line_start), s.2)
        return (if r ≠ v.rows - 1 then s.1 ++ opts.line_end else s.1, s.2))
      (fun r s => s.1 = (List.range r.toNat).foldl (fun os (r : Nat) =>
          let os := os ++ List.replicate opts.indent opts.indent_char ++ (if r = 0 then opts.start else opts.line_start)
          let os := printCols (fun _ => text) opts (fun c : Nat => f r c) v.cols.toNat (fun c => decide (c ≠ v.cols.toNat - 1)) os
          if r ≠ v.rows.toNat - 1 then os ++ opts.line_end else os) os ∧ s.2.length = 64)
      ⟨rfl, hb⟩
      (by
        rintro r ⟨o, b⟩ h0 hr ⟨ho, hbl⟩
        simp only at ho hbl
        obtain ⟨k, rfl⟩ := Int.eq_ofNat_of_zero_le h0
        obtain ⟨b', g1, g2⟩ := colsM_ok hel opts (hrow k h0 hr)
          (fun c => decide (c ≠ v.cols - 1)) (fun c => decide (c ≠ v.cols.toNat - 1))
          (by
            intro c hc
            have a2 : ((c : Int) ≠ v.cols - 1) ↔ (c ≠ v.cols.toNat - 1) := by omega
            simp only [a2])
          (o ++ List.replicate opts.indent opts.indent_char ++ (if (k : Int) = 0 then opts.start else opts.line_start)) b hbl
        refine ⟨_, by rw [g1, res_ok_bind]; rfl, ?_, g2⟩
        have e3 : ((k : Int) + 1).toNat = k + 1 := by omega
        have a1 : ((k : Int) ≠ v.rows - 1) ↔ (k ≠ v.rows.toNat - 1) := by omega
        have a0 : ((k : Int) = 0) ↔ k = 0 := by omega
        simp only [e3, a1, a0]
        rw [List.range_succ, List.foldl_append]
        simp only [List.foldl_cons, List.foldl_nil]
        rw [show ((k : Int)).toNat = k by omega] at ho
        rw [← ho])
    rw [hmax] at h2
    refine ⟨s'.2, ?_, h3⟩
    rw [h1, res_ok_bind, h2]
    rfl

/-! ## Which memory is read -/

theorem colsM_needs {E : Type} {el : Elem E} {opts : PrintOpts} {v : View} {m : Mem E} {r : Int}
    {more : Int → Bool} {s s' : Text × Buf} (h : colsM el opts v m r more s = .ok s') {c : Int} (h0 : 0 ≤ c)
    (hc : c < v.cols) : ∃ x, m (v.data + r * v.inner + c * v.outer) = some x := by
  obtain ⟨_, h2⟩ := forRange_visits (fun _ => True) (fun _ _ _ _ _ => trivial) trivial h
  obtain ⟨t, t', _, h3⟩ := h2 c h0 hc
  rw [res_bind_ok] at h3
  obtain ⟨p, h4, h5⟩ := h3
  rw [res_bind_ok] at h5
  obtain ⟨x, h6, _⟩ := h5
  have hp : p = v.data + r * v.inner + c * v.outer := by
    by_cases he : v.HasElem r c
    · rw [(at_correct v r c).1 he] at h4; cases h4; rfl
    · rw [(at_correct v r c).2 he] at h4; cases h4
  subst hp
  unfold Mem.read at h6
  split at h6
  · exact ⟨_, by assumption⟩
  · cases h6

/-- Every element is read: if one of them is not in allocated memory, the behaviour is undefined. -/
theorem csvImplM_needs {E : Type} {el : Elem E} {v : View} {m : Mem E} {opts : PrintOpts}
    {s s' : Text × Buf} (h : csvImplM el v m opts s = .ok s') : v.Backed m := by
  rintro r c ⟨h0, h1, h2, h3⟩
  unfold csvImplM at h
  simp only at h
  by_cases hc : (v.cols = 1 ∧ opts.column_vector_as_1d) ∨ (v.rows = 1 ∧ opts.row_vector_as_1d)
  · rw [if_pos hc, res_bind_ok] at h
    obtain ⟨t, g1, _⟩ := h
    obtain ⟨_, g2⟩ := forRange_visits (fun _ => True) (fun _ _ _ _ _ => trivial) trivial g1
    obtain ⟨u, u', _, g3⟩ := g2 r h0 h1
    exact colsM_needs g3 h2 h3
  · rw [if_neg hc, res_bind_ok] at h
    obtain ⟨t, g1, _⟩ := h
    obtain ⟨_, g2⟩ := forRange_visits (fun _ => True) (fun _ _ _ _ _ => trivial) trivial g1
    obtain ⟨u, u', _, g3⟩ := g2 r h0 h1
    rw [res_bind_ok] at g3
    obtain ⟨w, g4, _⟩ := g3
    exact colsM_needs g4 h2 h3

/-! ## The overloads -/

theorem toPtrdiff_eq {x : Int} (h : Fits 64 x) : toPtrdiff x = x := by
  unfold Fits at h
  unfold toPtrdiff
  norm_num at h
  rw [Int.bmod_eq_of_le] <;> omega

/-- All members of the view are representable in `ptrdiff_t`. -/
def FitsPtrdiff (v : View) : Prop :=
  Fits 64 v.rows ∧ Fits 64 v.cols ∧ Fits 64 v.inner ∧ Fits 64 v.outer

theorem ofView_eq {v : View} (h : FitsPtrdiff v) : ofView v = v := by
  unfold ofView
  rw [toPtrdiff_eq h.1, toPtrdiff_eq h.2.1, toPtrdiff_eq h.2.2.1, toPtrdiff_eq h.2.2.2]

theorem ofSpan_eq (data : Int) {size : Nat} (h : size < 2 ^ 63) :
    ofSpan data size = { data, rows := size, cols := 1, inner := 1, outer := size } := by
  unfold ofSpan View.withDefaultOuter
  rw [toPtrdiff_eq, Int.one_mul]
  unfold Fits
  norm_num
  norm_num at h
  omega

/-- C114. `print_csv`, `print_matlab` and `print_python` of a view write the text of the matrix whose
elements the view refers to (C45, C46 and C76 say what that text is), whatever the index type, the strides
and the initial contents of the conversion buffer. -/
theorem print_view {E : Type} {el : Elem E} {text : E → Text} (hel : Prints el text) (v : View)
    (hv : FitsPtrdiff v) (m : Mem E) (f : Int → Int → E) (hf : ∀ r c, v.HasElem r c → v.Holds m r c (f r c))
    (buf : Buf) (hb : buf.length = 64) (os : Text) (opts : PrintOpts) (fin : Text) (squeeze : Bool) :
    printCsvView el m buf os v opts =
      .ok (printCsvImpl (fun _ => text) os v.rows.toNat v.cols.toNat (fun r c => f r c) opts) ∧
    printMatlabView el m buf os v fin =
      .ok (printMatlabImpl (fun _ => text) os v.rows.toNat v.cols.toNat (fun r c => f r c) fin) ∧
    printPythonView el m buf os v fin squeeze =
      .ok (printPythonImpl (fun _ => text) os v.rows.toNat v.cols.toNat (fun r c => f r c) fin squeeze) := by
  have key := fun opts => csvImplM_ok hel v m f hf opts os buf hb
  unfold printCsvView printMatlabView printPythonView matlabImplM pythonImplM
  rw [ofView_eq hv]
  refine ⟨?_, ?_, ?_⟩
  · obtain ⟨b, h, _⟩ := key opts
    rw [h]; rfl
  · obtain ⟨b, h, _⟩ := key (matlabOpts v.cols.toNat)
    rw [h]; rfl
  · obtain ⟨b, h, _⟩ := key (pythonOpts v.rows.toNat v.cols.toNat squeeze)
    rw [h]; rfl

/-- C114. A span is printed as the column vector of its elements. -/
theorem print_span {E : Type} {el : Elem E} {text : E → Text} (hel : Prints el text) (data : Int)
    (xs : List E) (hs : xs.length < 2 ^ 63) (m : Mem E)
    (hm : ∀ k (h : k < xs.length), m (data + k) = some xs[k])
    (buf : Buf) (hb : buf.length = 64) (os : Text) (opts : PrintOpts) (fin : Text) (squeeze : Bool)
    (col : Nat → Nat → E) (hcol : ∀ r (h : r < xs.length), col r 0 = xs[r]) :
    printCsvSpan el m buf os data xs.length opts =
      .ok (printCsvImpl (fun _ => text) os xs.length 1 col opts) ∧
    printMatlabSpan el m buf os data xs.length fin =
      .ok (printMatlabImpl (fun _ => text) os xs.length 1 col fin) ∧
    printPythonSpan el m buf os data xs.length fin squeeze =
      .ok (printPythonImpl (fun _ => text) os xs.length 1 col fin squeeze) := by
  have key : ∀ opts, ∃ buf', csvImplM el (ofSpan data xs.length) m opts (os, buf) =
      .ok (printCsvImpl (fun _ => text) os xs.length 1 col opts, buf') := by
    intro opts
    rw [ofSpan_eq data hs]
    obtain ⟨b, h, _⟩ := csvImplM_ok hel
      { data, rows := xs.length, cols := 1, inner := 1, outer := xs.length } m
      (fun r c => col r.toNat c.toNat)
      (by
        rintro r c ⟨h0, h1, h2, h3⟩
        simp only at h1 h3
        obtain ⟨k, rfl⟩ := Int.eq_ofNat_of_zero_le h0
        obtain rfl : c = 0 := by omega
        unfold View.Holds
        simp only
        have := hm k (by omega)
        rw [show data + (k : Int) * 1 + 0 * (xs.length : Int) = data + k by omega, this,
          show ((k : Int)).toNat = k by omega, show (0 : Int).toNat = 0 by rfl, hcol k (by omega)])
      opts os buf hb
    exact ⟨b, h⟩
  unfold printCsvSpan printMatlabSpan printPythonSpan matlabImplM pythonImplM
  refine ⟨?_, ?_, ?_⟩
  · obtain ⟨b, h⟩ := key opts
    rw [h]; rfl
  · obtain ⟨b, h⟩ := key (matlabOpts 1)
    rw [ofSpan_eq data hs] at h ⊢
    simp only at h ⊢
    rw [show ((1 : Int)).toNat = 1 by rfl, h]; rfl
  · obtain ⟨b, h⟩ := key (pythonOpts xs.length 1 squeeze)
    rw [ofSpan_eq data hs] at h ⊢
    simp only at h ⊢
    rw [show ((1 : Int)).toNat = 1 by rfl, show ((xs.length : Int)).toNat = xs.length by omega, h]; rfl

/-- C114. Printing reads every element of the view and no other memory: it is defined exactly if every
element lies in allocated memory, and changing memory elsewhere does not change the text. -/
theorem print_reads {E : Type} [Inhabited E] {el : Elem E} {text : E → Text} (hel : Prints el text) (v : View)
    (hv : FitsPtrdiff v) (m : Mem E) (buf : Buf) (hb : buf.length = 64) (os : Text) (opts : PrintOpts) :
    ((∃ t, printCsvView el m buf os v opts = .ok t) ↔ v.Backed m) ∧
    (∀ m' : Mem E, (∀ a, v.IsElemAddr (fun _ _ => True) a → m' a = m a) → v.Backed m → ∀ buf', buf'.length = 64 →
      printCsvView el m' buf' os v opts = printCsvView el m buf os v opts) := by
  have pick : v.Backed m → ∀ r c, v.HasElem r c →
      v.Holds m r c ((m (v.data + r * v.inner + c * v.outer)).getD default) := by
    intro h r c hrc
    obtain ⟨x, hx⟩ := h r c hrc
    unfold View.Holds
    rw [hx]; rfl
  refine ⟨⟨?_, fun h => ⟨_, (print_view hel v hv m _ (pick h) buf hb os opts [] true).1⟩⟩, ?_⟩
  · rintro ⟨t, h⟩
    unfold printCsvView at h
    rw [ofView_eq hv, res_bind_ok] at h
    obtain ⟨s, h1, _⟩ := h
    exact csvImplM_needs h1
  · intro m' hm' h buf' hb'
    rw [(print_view hel v hv m _ (pick h) buf hb os opts [] true).1,
      (print_view hel v hv m' _ (fun r c hrc => by
        have := pick h r c hrc
        unfold View.Holds at this ⊢
        rw [hm' _ ⟨r, c, hrc, trivial, rfl⟩]
        exact this) buf' hb' os opts [] true).1]

/-- C114. Printing a sub-view, however it was obtained, prints the corresponding block of the matrix. -/
theorem print_subview {E : Type} {el : Elem E} {text : E → Text} (hel : Prints el text) (v w : View)
    (ops : List SubOp) (hr : 0 ≤ v.rows) (hc : 0 ≤ v.cols) (hw : applyChain v ops = .ok w) (hfw : FitsPtrdiff w)
    (m : Mem E) (f : Int → Int → E) (hf : ∀ r c, v.HasElem r c → v.Holds m r c (f r c))
    (buf : Buf) (hb : buf.length = 64) (os : Text) (opts : PrintOpts) :
    ∃ r c, IsSubview v w r c w.rows w.cols ∧ printCsvView el m buf os w opts =
      .ok (printCsvImpl (fun _ => text) os w.rows.toNat w.cols.toNat (fun i j => f (r + i) (c + j)) opts) := by
  obtain ⟨r, c, nr, nc, h⟩ := nested_subviews v w ops hr hc hw
  obtain ⟨h1, h2, h3, h4⟩ := id h
  refine ⟨r, c, by rw [h1, h2]; exact h, ?_⟩
  refine (print_view hel w hfw m (fun i j => f (r + i) (c + j)) (fun i j hij => ?_) buf hb os opts [] true).1
  have := hf _ _ (h4 i j hij)
  unfold View.Holds at this ⊢
  rw [h3 i j]
  exact this

/-- C114. After `dst.copy_values(src)` the two views print the same, whatever their strides. -/
theorem print_after_copy {E : Type} {el : Elem E} {text : E → Text} (hel : Prints el text) (dst src : View)
    (hd : FitsPtrdiff dst) (hs : FitsPtrdiff src) (m : Mem E) (f : Int → Int → E)
    (hrows : src.rows = dst.rows) (hcols : src.cols = dst.cols) (hinj : dst.Injective) (hb : dst.Backed m)
    (hsrc : ∀ r c, src.HasElem r c → src.Holds m r c (f r c)) (hal : NoCrossAlias dst src)
    (buf buf' : Buf) (hbuf : buf.length = 64) (hbuf' : buf'.length = 64) (os : Text) (opts : PrintOpts) :
    ∃ m' t, dst.copyValues src m = .ok m' ∧ printCsvView el m buf os src opts = .ok t ∧
      printCsvView el m' buf' os dst opts = .ok t := by
  obtain ⟨m', h1, h2⟩ := copyValues_elementwise dst src f m hrows hcols hinj hb hsrc hal
  refine ⟨m', _, h1, (print_view hel src hs m f hsrc buf hbuf os opts [] true).1, ?_⟩
  rw [(print_view hel dst hd m' f h2.1 buf' hbuf' os opts [] true).1, hrows, hcols]

/-- C114. For the floating-point formats of C++ with at most 55 digits, nothing is assumed of the element
printer: every number fits in the buffer. -/
theorem double_elem_prints {sci : Float.Fl Float.binary64 → ℕ → Text} (hw : Float.Writes sci) (junk : Nat → Char)
    (opts : PrintOpts) :
    Prints (floatElem (Float.fmt sci 17) junk) (printElemFloat (Float.fmt sci 17) opts) ∧
    Prints (complexElem (Float.fmt sci 17) junk) (printElemComplex (Float.fmt sci 17) opts) := by
  have h : ∀ v, (floatToStrVw (Float.fmt sci 17) 64 v (Float.fmt sci 17).max_digits10).isSome := by
    intro v
    have := ((Float.float_to_str_thresholds (prec := 17) (by decide)).2.2.2.1 sci 17 hw).2 (by decide) v
    have e : floatToStrVw (Float.fmt sci 17) 64 v (Float.fmt sci 17).max_digits10 = floatToStr (Float.fmt sci 17) v 17 := rfl
    rw [e, this]; rfl
  exact ⟨floatElem_prints _ _ _ h, complexElem_prints _ _ _ h⟩

/-! ## A concrete case -/

/-- A 2×2 block with inner stride 2 and outer stride 5 of a memory that also holds other numbers. -/
example : printCsvView intElem (fun a => if 0 ≤ a ∧ a < 20 then some (a * a - 10) else none)
    (List.replicate 64 'x') "> ".toList { data := 3, rows := 2, cols := 2, inner := 2, outer := 5 } {} =
    .ok "> -1,54\n15,90\n".toList := by decide +kernel

/-- The same memory, but the second column is not allocated. -/
example : printCsvView intElem (fun a => if 0 ≤ a ∧ a < 7 then some (a * a - 10) else none)
    (List.replicate 64 'x') "> ".toList { data := 3, rows := 2, cols := 2, inner := 2, outer := 5 } {} =
    .error .ub := by decide +kernel

/-- A number whose digits are its decimal digits, as a format for examples. -/
def toyFormat : FloatFormat Nat :=
  { signbit := fun _ => false, isnan := fun _ => false, sci := fun n _ => showNat n, max_digits10 := 2 }

/-- The buffer is reused, but does not show; with the other evaluation order it does. -/
example : complexElem toyFormat (fun _ => '?') (12345, 67) ([], List.replicate 64 'x') =
      ("+12345 + +67j".toList, "+67345".toList ++ List.replicate 58 'x') ∧
    (complexElemEager toyFormat (fun _ => '?') (12345, 67) ([], List.replicate 64 'x')).1 = "+67345 + +67j".toList := by
  decide +kernel

example : printPythonSpan intElem (fun a => some a) (List.replicate 64 'x') [] 7 3 ['\n'] true =
    .ok "[7, 8, 9]\n".toList := by decide +kernel

end Guanaqo.Print
