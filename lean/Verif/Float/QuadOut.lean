import Verif.Float.QuadStream
import Verif.Print.StreamFormat
import Verif.Float.FieldsProps

/-! # Quadruple precision on a `std::ostream`: width, flags, failing streams (C142)

`operator<<` for `__float128` again (quadmath-print.cpp:10-18), this time on the streams of C126 and C127: with a width, a fill character,
flags, a state and a stream buffer that may refuse characters. -/

namespace Guanaqo.Float

open Guanaqo.Duration (Text scanDecimal)
open Guanaqo.Print.Stream

variable {σ : Type} (S : Sink σ) {f : Fmt}

/-! ## The model -/

/-- quadmath-print.cpp:10-18, `os << v` for a stream of the precision `osPrecision` (the other members of the format are in `OStream`): the text is made,
then inserted as a string. -/
def quadOut (dg : Mag f → ℕ → ℕ × ℤ) (dbg : Bool) (osPrecision : ℤ) (v : Fl f) (os : OStream σ) : Res (OStream σ) := do
  let buf ← ostreamQuad dg dbg osPrecision v
  pure (os.str S buf)

/-- `os << v₁ << sep << v₂ << sep …`: several numbers, each one followed by a string. -/
def quadsOut (dg : Mag f → ℕ → ℕ × ℤ) (dbg : Bool) (osPrecision : ℤ) (sep : Text) (vs : List (Fl f)) (os : OStream σ) : Res (OStream σ) :=
  vs.foldlM (fun os v => do
    let os ← quadOut S dg dbg osPrecision v os
    pure (os.str S sep)) os

/-! ## Specification -/

/-- The text of a number with `P` significant digits: a decimal number with an error of at most half a unit of the last digit, with its sign; infinities and NaNs by name. -/
def QuadText (P : ℕ) (v : Fl f) (text : Text) : Prop :=
  match v with
  | .fin neg x => ∃ t q, text = (if neg then ['-'] else []) ++ t ∧ scanDecimal t = some (q, []) ∧ (x.val = 0 → q = 0) ∧
      ∀ k : ℤ, (10 : ℚ) ^ k ≤ x.val → x.val < (10 : ℚ) ^ (k + 1) → |q - x.val| ≤ (10 : ℚ) ^ (k - ((P : ℤ) - 1)) / 2
  | .inf neg => text = (if neg then "-inf" else "inf").toList
  | .nan neg => text = (if neg then "-nan" else "nan").toList

/-! ## C142 -/

theorem str_prints (os : OStream σ) (h : os.good = true) (t : Text) : Print.Stream.Prints S os (os.str S t) t.length t := by
  obtain ⟨⟨h1, h2⟩, h3⟩ := insertAll_wrote S t [] os h
  have e : insertAll S [.text t] os = os.str S t := rfl
  have e2 : [Item.text t].flatMap (Item.render (noWidth os.fmt)) = t := by
    rw [List.flatMap_cons, render_text _ rfl]; simp
  rw [e, e2] at h1 h2
  rw [e] at h3
  exact ⟨h1, h2, h3⟩

/-- The text that is written, in full up to 119 digits. -/
theorem quad_text {dg : Mag binary128 → ℕ → ℕ × ℤ} (hw : WritesDigits dg) (dbg : Bool) {P : ℕ} (hP : 1 ≤ P) (hP' : P ≤ 119) (v : Fl binary128) :
    ∃ text, ostreamQuad dg dbg P v = .ok text ∧ QuadText P v text := by
  have hb : Int.bmod (P : ℤ) (2 ^ 32) = P := Int.bmod_eq_of_le (by omega) (by omega)
  cases v with
  | fin neg x =>
    obtain ⟨t, q, h1, h2, h3, h4⟩ := quad_precision_partial hw dbg hP hP' neg x
    exact ⟨_, h1, t, q, rfl, h2, h3, h4⟩
  | inf neg => cases neg <;> exact ⟨_, rfl, rfl⟩
  | nan neg => cases neg <;> exact ⟨_, rfl, rfl⟩

/-- C142. On a good stream the number, with as many digits as the precision says, is written like any string: padded to the width, which is then zero, as far as the stream
buffer accepts it. -/
theorem quad_out_prints {dg : Mag binary128 → ℕ → ℕ × ℤ} (hw : WritesDigits dg) (dbg : Bool) {P : ℕ} (hP : 1 ≤ P) (hP' : P ≤ 119) (v : Fl binary128)
    (os : OStream σ) (h : os.good = true) :
    ∃ text os', quadOut S dg dbg P v os = .ok os' ∧ QuadText P v text ∧ Print.Stream.Prints S os os' text.length text := by
  obtain ⟨text, h1, h2⟩ := quad_text hw dbg hP hP' v
  refine ⟨text, os.str S text, ?_, h2, str_prints S os h text⟩
  unfold quadOut
  rw [h1]; rfl

/-- C142. A stream that has failed is left alone. -/
theorem quad_out_bad {dg : Mag binary128 → ℕ → ℕ × ℤ} (hw : WritesDigits dg) (dbg : Bool) {P : ℕ} (hP : 1 ≤ P) (hP' : P ≤ 119) (v : Fl binary128)
    (os : OStream σ) (h : os.good = false) : quadOut S dg dbg P v os = .ok os := by
  obtain ⟨text, h1, -⟩ := quad_text hw dbg hP hP' v
  unfold quadOut
  rw [h1]
  show Except.ok _ = _
  have e : os.str S text = insertAll S [.text text] os := rfl
  rw [e, insertAll_bad S _ h]

/-- C142. The flags of the stream (base, sign, upper case) and its locale do not matter: streams of the same precision, width, fill character and alignment get the same
characters. -/
theorem quad_out_flags (dg : Mag f → ℕ → ℕ × ℤ) (dbg : Bool) (p : ℤ) (v : Fl f) {os₁ os₂ os₁' : OStream σ} (hw : os₁.fmt.width = os₂.fmt.width)
    (hf : os₁.fmt.fill = os₂.fmt.fill) (ha : os₁.fmt.adjust = os₂.fmt.adjust) (hg : os₁.good = os₂.good) (hb : os₁.buf = os₂.buf) (ho : os₁.out = os₂.out)
    (h : quadOut S dg dbg p v os₁ = .ok os₁') :
    ∃ os₂', quadOut S dg dbg p v os₂ = .ok os₂' ∧ os₁'.out = os₂'.out ∧ os₁'.good = os₂'.good ∧ os₁'.buf = os₂'.buf := by
  unfold quadOut at h ⊢
  cases ht : ostreamQuad dg dbg p v with
  | error e => rw [ht] at h; cases h
  | ok text =>
    rw [ht] at h
    have h' : Except.ok (os₁.str S text) = Except.ok (ε := Fault) os₁' := h
    refine ⟨os₂.str S text, rfl, ?_⟩
    rw [← Except.ok.inj h']
    have hp : pad os₁.fmt [] text = pad os₂.fmt [] text := by
      unfold pad
      rw [hw, hf, ha]
    unfold OStream.str OStream.insert
    dsimp only
    rw [hg, hb, ho, hp]
    by_cases hgood : os₂.good = true
    · simp only [hgood, if_true, and_self]
    · simp only [hgood]
      exact ⟨ho, hg.trans (by simp [hgood]), hb⟩

/-- The separator is none of the characters of a number. -/
theorem sep_not_in {dg : Mag f → ℕ → ℕ × ℤ} {sep : Char} (hs : SepOk sep) (p : ℤ) (v : Fl f) : sep ∉ gPrint dg p v := by
  have hd : ∀ n d, sep ∉ digits n d := fun n d h => by
    have := digits_isDigit n d sep h
    rw [hs.digit] at this; cases this
  have h0 : sep ≠ '0' := fun h => by have := hs.digit; rw [h] at this; revert this; decide
  have hsign : ∀ neg : Bool, sep ∉ (if neg = true then ['-'] else []) := fun neg => by
    cases neg
    · simp
    · simpa using hs.minus
  have hsp := special_chars hs
  have hg : ∀ P d X, sep ∉ gText P d X := by
    intro P d X
    have ht : ∀ n, sep ∉ (digits P d).take n := fun n h => hd P d (List.mem_of_mem_take h)
    have hdr : ∀ n, sep ∉ (digits P d).drop n := fun n h => hd P d (List.mem_of_mem_drop h)
    have he : sep ∉ expDigits X := by
      unfold expDigits
      simp only [List.mem_cons, not_or]
      refine ⟨?_, hd _ _⟩
      split
      · exact hs.minus
      · exact hs.plus
    unfold gText
    split
    · split
      · simp only [List.mem_append, List.mem_cons, not_or]
        exact ⟨ht _, hs.point, hdr _⟩
      · simp only [List.mem_append, List.mem_cons, List.mem_replicate, not_or, not_and]
        exact ⟨h0, hs.point, fun _ => h0, hd _ _⟩
    · simp only [List.mem_append, List.mem_cons, not_or]
      exact ⟨⟨ht _, hs.point, hdr _⟩, hs.e, he⟩
  cases v with
  | fin neg x =>
    simp only [gPrint, List.mem_append, not_or]
    exact ⟨hsign neg, hg _ _ _⟩
  | inf neg =>
    simp only [gPrint, List.mem_append, not_or]
    exact ⟨hsign neg, hsp.1⟩
  | nan neg =>
    simp only [gPrint, List.mem_append, not_or]
    exact ⟨hsign neg, hsp.2⟩

/-! ## Reading back what was written -/

/-- Reading a text of numbers each of which is followed by the separator: one after the other gives the values, and nothing is left. -/
def Decodes {F : Type} (fc : Csv.Parser F) (sep : Char) : Text → List F → Prop
  | t, [] => t = []
  | t, v :: vs => ∃ t', fc t = some (v, sep :: t') ∧ Decodes fc sep t' vs

/-- Only one list of values can be read. -/
theorem decodes_unique {F : Type} {fc : Csv.Parser F} {sep : Char} (hnil : fc [] = none) {t : Text} {vs ws : List F}
    (h1 : Decodes fc sep t vs) (h2 : Decodes fc sep t ws) : vs = ws := by
  induction vs generalizing t ws with
  | nil =>
    cases ws with
    | nil => rfl
    | cons w ws =>
      obtain ⟨t', h, -⟩ := h2
      rw [show t = [] from h1, hnil] at h; cases h
  | cons v vs ih =>
    obtain ⟨t', h, h'⟩ := h1
    cases ws with
    | nil => rw [show t = [] from h2, hnil] at h; cases h
    | cons w ws =>
      obtain ⟨t'', k, k'⟩ := h2
      rw [h] at k
      have e := Option.some.inj k
      have e1 : v = w := congrArg Prod.fst e
      have e2 : t' = t'' := (List.cons.inj (congrArg Prod.snd e)).2
      subst e1; subst e2
      rw [ih h' k']

theorem str_bad {os : OStream σ} (h : os.good = false) (t : Text) : os.str S t = os := by
  have e : os.str S t = insertAll S [.text t] os := rfl
  rw [e, insertAll_bad S _ h]

/-- A string in a stream without width that is good afterwards. -/
theorem str_good {os : OStream σ} {t : Text} (hw : os.fmt.width = 0) (h : (os.str S t).good = true) :
    os.good = true ∧ (os.str S t).out = os.out ++ t ∧ (os.str S t).fmt.width = 0 := by
  cases hg : os.good with
  | false => rw [str_bad S hg] at h; rw [hg] at h; cases h
  | true =>
    obtain ⟨h1, h2, h3⟩ := str_prints S os hg t
    rw [(padded_iff _ _ _).2 (by omega)] at h1 h2
    rw [h2.1 h, List.take_length] at h1
    exact ⟨rfl, h1, by rw [h3]⟩

theorem quadsOut_cons (dg : Mag f → ℕ → ℕ × ℤ) (dbg : Bool) (p : ℤ) (sep : Text) (v : Fl f) (vs : List (Fl f)) (os : OStream σ) {text : Text}
    (h : ostreamQuad dg dbg p v = .ok text) :
    quadsOut S dg dbg p sep (v :: vs) os = quadsOut S dg dbg p sep vs ((os.str S text).str S sep) := by
  unfold quadsOut quadOut
  rw [List.foldlM_cons, h]
  rfl

/-- The stream fails only once. -/
theorem quadsOut_bad (dg : Mag f → ℕ → ℕ × ℤ) (dbg : Bool) (p : ℤ) (sep : Text) (vs : List (Fl f)) {os os' : OStream σ} (hb : os.good = false)
    (h : quadsOut S dg dbg p sep vs os = .ok os') : os' = os := by
  induction vs with
  | nil => exact (Except.ok.inj h).symm
  | cons v vs ih =>
    cases ht : ostreamQuad dg dbg p v with
    | error e =>
      unfold quadsOut quadOut at h
      rw [List.foldlM_cons, ht] at h
      cases h
    | ok text =>
      rw [quadsOut_cons S dg dbg p sep v vs os ht, str_bad S hb, str_bad S hb] at h
      exact ih h

/-- C142. Numbers streamed one after the other, with enough digits and a separator, to a stream without a width: if the stream is good afterwards, reading what was written gives
exactly the same numbers. -/
theorem quads_read_back {dg : Mag f → ℕ → ℕ × ℤ} (hw : WritesDigits dg) (hlo : -(10 ^ 5 : ℤ) + 2 ≤ f.emin) (hhi : f.p + f.emax < (10 ^ 5 : ℤ)) (hp : 1 ≤ f.p)
    {rnd : ℚ → Option (Mag f)} (hr : Rounds rnd) (dbg : Bool) {P : ℕ} (hP : 2 ^ f.p < 10 ^ (P - 1)) (hP' : P ≤ 118) {sep : Char} (hs : SepOk sep)
    (vs : List (Fl f)) (os : OStream σ) (hwidth : os.fmt.width = 0) :
    ∃ os', quadsOut S dg dbg P [sep] vs os = .ok os' ∧
      (os.good = true → os'.good = true → ∃ T, os'.out = os.out ++ T ∧ Decodes (fromChars rnd) sep T vs) := by
  have hP1 : 1 ≤ P := by
    by_contra h
    have : P = 0 := by omega
    subst this
    have : 1 ≤ 2 ^ f.p := Nat.one_le_two_pow
    simp only [Nat.zero_sub, pow_zero] at hP
    omega
  induction vs generalizing os with
  | nil => exact ⟨os, rfl, fun _ _ => ⟨[], by simp, rfl⟩⟩
  | cons v vs ih =>
    have h1 := ostream_complete hw hlo hhi dbg hP1 hP' v
    obtain ⟨text, h2, h3⟩ := ostream_reads_back hw hlo hhi hp hr dbg hP hP' v
    have ht : text = gPrint dg P v := Except.ok.inj (h2.symm.trans h1)
    have hmem : sep ∉ text := by rw [ht]; exact sep_not_in hs _ _
    have hstop := (fromChars_ok hs rnd).stops text
    have hwid : ∀ (os : OStream σ) t, os.fmt.width = 0 → (os.str S t).fmt.width = 0 := by
      intro os t h
      cases hg : os.good with
      | false => rw [str_bad S hg]; exact h
      | true => rw [(str_prints S os hg t).2.2]
    obtain ⟨os', h4, h5⟩ := ih ((os.str S text).str S [sep]) (hwid _ _ (hwid _ _ hwidth))
    refine ⟨os', by rw [quadsOut_cons S dg dbg P [sep] v vs os h2]; exact h4, fun hg hg' => ?_⟩
    have hmid : ((os.str S text).str S [sep]).good = true := by
      cases hm : ((os.str S text).str S [sep]).good with
      | true => rfl
      | false =>
        rw [quadsOut_bad S dg dbg P [sep] vs hm h4, hm] at hg'
        cases hg'
    obtain ⟨T, e1, e2⟩ := h5 hmid hg'
    obtain ⟨k1, k2, -⟩ := str_good S (hwid _ _ hwidth) hmid
    obtain ⟨-, k3, -⟩ := str_good S hwidth k1
    refine ⟨text ++ sep :: T, by rw [e1, k2, k3]; simp, T, ?_, e2⟩
    rw [hstop T hmem, h3]
    rfl

/-- Non-vacuity: three numbers on a string stream, one after the other. -/
example : ∃ os', quadsOut unlimited (digitsOf binary128) true (36 : ℕ) [','] [.fin true big, .inf false, .fin false big] { buf := () } = .ok os' ∧
    (({ buf := () } : OStream Unit).good = true → os'.good = true → ∃ T, os'.out = [] ++ T ∧
      Decodes (fromChars (nearest binary128)) ',' T [.fin true big, .inf false, .fin false big]) :=
  quads_read_back unlimited (digitsOf_writes _) (by decide) (by decide) (by decide) (nearest_rounds (by decide)) true (P := 36) (by decide) (by decide)
    ⟨by decide, by decide, by decide, by decide, by decide, by decide, by decide, by decide⟩ _ _ rfl

/-- Non-vacuity: `os << std::setw(6) << infinity` in a stream with room for four characters. -/
example : ∃ os', quadOut (σ := ℕ) ⟨fun n _ => (n - 1, decide (0 < n))⟩ (digitsOf binary128) true 6 (.inf true) { buf := 4, fmt := { width := 6, fill := '*' } } = .ok os' ∧
    os'.out = "**-i".toList ∧ os'.good = false := ⟨_, rfl, by decide, by decide⟩

end Guanaqo.Float
