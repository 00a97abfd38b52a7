import Verif.Print.StreamProps

/-!
# C126, C127: the theorems
-/

namespace Guanaqo.Print.Stream

variable {σ : Type} (S : Sink σ)

/-- A printer that was to write `T`, whose first `k` characters are the first string inserted, to a stream of any format: it
writes `T` with the first string padded, as far as the stream buffer accepts it; the stream is good exactly if it accepted
everything. The width is then zero, and nothing else of the format has changed. -/
def Prints (os os' : OStream σ) (k : Nat) (T : Text) : Prop :=
  os'.out = os.out ++ (padded os.fmt k T).take (accepts S os.buf (padded os.fmt k T)) ∧
  (os'.good = true ↔ accepts S os.buf (padded os.fmt k T) = (padded os.fmt k T).length) ∧
  os'.fmt = { os.fmt with width := 0 }

section
variable {E : Type} {el : ElemS σ E} {ei : E → List Item} (hel : Inserts S el ei) {pe : PrintOpts → E → Text}
  (os : OStream σ) (h : os.good = true) (rows cols : Nat) (M : Nat → Nat → E)
  (hpe : ∀ opts r c, (ei (M r c)).flatMap (Item.render (noWidth os.fmt)) = pe opts (M r c))
include hel h hpe

theorem prints_all :
    (∀ opts, Prints S os (csvS S el os rows cols M opts) (firstLen rows cols opts) (printCsvImpl pe [] rows cols M opts)) ∧
    (∀ fin, Prints S os (matlabS S el os rows cols M fin) (firstLen rows cols (matlabOpts cols))
      (printMatlabImpl pe [] rows cols M fin)) ∧
    (∀ fin sq, Prints S os (pythonS S el os rows cols M fin sq) (firstLen rows cols (pythonOpts rows cols sq))
      (printPythonImpl pe [] rows cols M fin sq)) := by
  refine ⟨fun opts => ?_, fun fin => ?_, fun fin sq => ?_⟩
  · obtain ⟨⟨h1, h2⟩, h3⟩ := csv_wrote S hel os h rows cols M opts
    rw [printCsv_pe (pe' := pe) (fun r c => hpe opts r c)] at h1 h2
    exact ⟨h1, h2, h3⟩
  · obtain ⟨⟨h1, h2⟩, h3⟩ := csv_end_wrote S hel os h rows cols M (matlabOpts cols) fin
    rw [printCsv_pe (pe' := pe) (fun r c => hpe _ r c)] at h1 h2
    exact ⟨h1, h2, h3⟩
  · obtain ⟨⟨h1, h2⟩, h3⟩ := csv_end_wrote S hel os h rows cols M (pythonOpts rows cols sq) fin
    rw [printCsv_pe (pe' := pe) (fun r c => hpe _ r c)] at h1 h2
    exact ⟨h1, h2, h3⟩

end

/-- **Floating-point matrices** in a stream of any format and state of its buffer: only the width of the stream shows, in the
first string. -/
theorem floats_stream {F : Type} (ff : FloatFormat F) (os : OStream σ) (h : os.good = true) (rows cols : Nat)
    (M : Nat → Nat → F) :
    (∀ opts, Prints S os (csvS S (floatElemS S ff) os rows cols M opts) (firstLen rows cols opts)
      (printCsvImpl (printElemFloat ff) [] rows cols M opts)) ∧
    (∀ fin, Prints S os (matlabS S (floatElemS S ff) os rows cols M fin) (firstLen rows cols (matlabOpts cols))
      (printMatlabImpl (printElemFloat ff) [] rows cols M fin)) ∧
    (∀ fin sq, Prints S os (pythonS S (floatElemS S ff) os rows cols M fin sq) (firstLen rows cols (pythonOpts rows cols sq))
      (printPythonImpl (printElemFloat ff) [] rows cols M fin sq)) :=
  prints_all S (floatElem_inserts S ff) os h rows cols M fun opts _ _ => floatItems_text ff os.fmt _ opts

/-- **Complex matrices**: the same. -/
theorem complex_stream {F : Type} (ff : FloatFormat F) (os : OStream σ) (h : os.good = true) (rows cols : Nat)
    (M : Nat → Nat → F × F) :
    (∀ opts, Prints S os (csvS S (complexElemS S ff) os rows cols M opts) (firstLen rows cols opts)
      (printCsvImpl (printElemComplex ff) [] rows cols M opts)) ∧
    (∀ fin, Prints S os (matlabS S (complexElemS S ff) os rows cols M fin) (firstLen rows cols (matlabOpts cols))
      (printMatlabImpl (printElemComplex ff) [] rows cols M fin)) ∧
    (∀ fin sq, Prints S os (pythonS S (complexElemS S ff) os rows cols M fin sq)
      (firstLen rows cols (pythonOpts rows cols sq)) (printPythonImpl (printElemComplex ff) [] rows cols M fin sq)) :=
  prints_all S (complexElem_inserts S ff) os h rows cols M fun opts _ _ => complexItems_text ff os.fmt _ opts

/-- **Matrices of characters**: the same. -/
theorem chars_stream (os : OStream σ) (h : os.good = true) (rows cols : Nat) (M : Nat → Nat → Char) :
    (∀ opts, Prints S os (csvS S (charElemS S) os rows cols M opts) (firstLen rows cols opts)
      (printCsvImpl (fun _ v => [v]) [] rows cols M opts)) ∧
    (∀ fin, Prints S os (matlabS S (charElemS S) os rows cols M fin) (firstLen rows cols (matlabOpts cols))
      (printMatlabImpl (fun _ v => [v]) [] rows cols M fin)) ∧
    (∀ fin sq, Prints S os (pythonS S (charElemS S) os rows cols M fin sq) (firstLen rows cols (pythonOpts rows cols sq))
      (printPythonImpl (fun _ v => [v]) [] rows cols M fin sq)) :=
  prints_all S (charElem_inserts S) os h rows cols M fun _ _ _ => charItems_text os.fmt _

/-- **Integer matrices**: the elements are formatted with the flags and the locale of the stream as well. -/
theorem ints_stream (signed : Bool) (bits : Nat) (os : OStream σ) (h : os.good = true) (rows cols : Nat)
    (M : Nat → Nat → Int) :
    (∀ opts, Prints S os (csvS S (intElemS S signed bits) os rows cols M opts) (firstLen rows cols opts)
      (printCsvImpl (fun _ => numText (noWidth os.fmt) signed bits) [] rows cols M opts)) ∧
    (∀ fin, Prints S os (matlabS S (intElemS S signed bits) os rows cols M fin) (firstLen rows cols (matlabOpts cols))
      (printMatlabImpl (fun _ => numText (noWidth os.fmt) signed bits) [] rows cols M fin)) ∧
    (∀ fin sq, Prints S os (pythonS S (intElemS S signed bits) os rows cols M fin sq)
      (firstLen rows cols (pythonOpts rows cols sq))
      (printPythonImpl (fun _ => numText (noWidth os.fmt) signed bits) [] rows cols M fin sq)) :=
  prints_all S (intElem_inserts S signed bits) os h rows cols M fun _ _ _ => intItems_text os.fmt signed bits _

/-- **A stream that has failed before** is left alone. -/
theorem bad_stream {E : Type} {el : ElemS σ E} {ei : E → List Item} (hel : Inserts S el ei) (os : OStream σ)
    (h : os.good = false) (rows cols : Nat) (M : Nat → Nat → E) :
    (∀ opts, csvS S el os rows cols M opts = os) ∧ (∀ fin, matlabS S el os rows cols M fin = os) ∧
      ∀ fin sq, pythonS S el os rows cols M fin sq = os := by
  have key : ∀ opts, csvS S el os rows cols M opts = os := fun opts => by
    rw [csvS_items S ei hel, insertAll_bad S _ h]
  have hs : ∀ t, os.str S t = os := fun t => by unfold OStream.str OStream.insert; rw [if_neg (by simp [h])]
  refine ⟨key, fun fin => ?_, fun fin sq => ?_⟩
  · unfold matlabS; rw [key, hs]
  · unfold pythonS; rw [key, hs]

/-! ## When the format does not matter -/

theorem padded_length (f : Format) (k : Nat) (T : Text) : (padded f k T).length = (f.width - k) + T.length := by
  unfold padded
  split
  · have := congrArg List.length (List.take_append_drop k T)
    simp only [List.length_append, List.length_replicate] at this ⊢
    omega
  · simp

/-- The padding shows exactly if the width exceeds the length of the first string. -/
theorem padded_iff (f : Format) (k : Nat) (T : Text) : padded f k T = T ↔ f.width ≤ k := by
  constructor
  · intro h
    have := padded_length f k T
    rw [h] at this
    omega
  · intro h
    unfold padded
    rw [Nat.sub_eq_zero_of_le h]
    split <;> simp

theorem groupRev_length (sep : Char) (fuel : Nat) (g : List Nat) (ds : Text) :
    ds.length ≤ (groupRev sep fuel g ds).length := by
  induction fuel generalizing g ds with
  | zero => exact Nat.le_refl _
  | succ fuel ih =>
    cases g with
    | nil => exact Nat.le_refl _
    | cons k g =>
      simp only [groupRev]
      split
      · exact Nat.le_refl _
      · rename_i hk
        have := ih (if g = [] then [k] else g) (ds.drop k)
        simp only [List.length_append, List.length_cons, List.length_take, List.length_drop] at this ⊢
        omega

/-- Grouping changes a number of `n` digits. -/
def Groups (f : Format) (n : Nat) : Prop := ∃ k g, f.grouping = k :: g ∧ 0 < k ∧ k < 127 ∧ k < n

theorem group_length (f : Format) (ds : Text) : ds.length ≤ (group f ds).length := by
  unfold group
  have := groupRev_length f.sep ds.length f.grouping ds.reverse
  simpa using this

theorem group_iff (f : Format) (ds : Text) : group f ds = ds ↔ ¬ Groups f ds.length := by
  constructor
  · rintro h ⟨k, g, hg, h0, h1, h2⟩
    have hl := congrArg List.length h
    unfold group at hl
    rw [hg, List.length_reverse] at hl
    obtain ⟨n, hn⟩ : ∃ n, ds.length = n + 1 := ⟨ds.length - 1, by omega⟩
    have := groupRev_length f.sep n (if g = [] then [k] else g) (ds.reverse.drop k)
    rw [hn] at hl
    simp only [groupRev] at hl
    rw [if_neg (by simp only [List.length_reverse]; omega)] at hl
    simp only [List.length_append, List.length_cons, List.length_take, List.length_drop, List.length_reverse] at this hl
    omega
  · intro h
    unfold group
    have : groupRev f.sep ds.length f.grouping ds.reverse = ds.reverse := by
      cases hn : ds.length with
      | zero => rfl
      | succ n =>
        cases hg : f.grouping with
        | nil => rfl
        | cons k g =>
          simp only [groupRev]
          rw [if_pos]
          by_contra hcon
          rw [List.length_reverse] at hcon
          exact h ⟨k, g, hg, by omega, by omega, by omega⟩
    rw [this, List.reverse_reverse]

/-- The values of an integer type. -/
def InRange (signed : Bool) (bits : Nat) (x : Int) : Prop :=
  if signed then -2 ^ (bits - 1) ≤ x ∧ x < 2 ^ (bits - 1) else 0 ≤ x ∧ x < 2 ^ bits

/-- The largest number of decimal digits of a value of the type. -/
def maxDigits (signed : Bool) (bits : Nat) : Nat :=
  (Nat.toDigits 10 (if signed then 2 ^ (bits - 1) else 2 ^ bits - 1)).length

/-- A format in which integers of the type look as usual: decimal, no plus sign, no grouping. -/
def Plain (f : Format) (signed : Bool) (bits : Nat) : Prop :=
  f.base = .other ∧ (f.showpos && signed) = false ∧ ¬ Groups f (maxDigits signed bits)

theorem numText_noWidth (f : Format) (signed : Bool) (bits : Nat) (x : Int) :
    numText (noWidth f) signed bits x = (numParts f signed bits x).1 ++ (numParts f signed bits x).2 := by
  have e : numParts (noWidth f) signed bits x = numParts f signed bits x := rfl
  unfold numText pad
  rw [e]
  simp only [noWidth, Nat.zero_sub, List.replicate_zero, List.append_nil, List.nil_append]
  cases f.adjust <;> simp

theorem showInt_eq (x : Int) : showInt x = (if x < 0 then ['-'] else []) ++ Nat.toDigits 10 x.natAbs := by
  cases x with
  | ofNat n => rw [if_neg (by simp only [Int.ofNat_eq_natCast]; omega)]; rfl
  | negSucc n => rw [if_pos (Int.negSucc_lt_zero n)]; rfl

theorem toDigits_length_mono {a b : Nat} (h : a ≤ b) : (Nat.toDigits 10 a).length ≤ (Nat.toDigits 10 b).length := by
  apply Nat.le_of_not_lt
  intro hlt
  have hb : (Nat.toDigits 10 b).length ≠ 0 := by
    have := @Nat.toDigits_ne_nil b 10
    intro h0; exact this (List.length_eq_zero_iff.1 h0)
  have h2 : b < 10 ^ (Nat.toDigits 10 b).length := (Nat.length_toDigits_le_iff (by decide) (by omega)).1 (Nat.le_refl _)
  have h1 : (Nat.toDigits 10 a).length ≤ (Nat.toDigits 10 b).length :=
    (Nat.length_toDigits_le_iff (by decide) (by omega)).2 (by omega)
  omega

theorem groups_mono {f : Format} {m n : Nat} (h : m ≤ n) (hg : Groups f m) : Groups f n := by
  obtain ⟨k, g, h1, h2, h3, h4⟩ := hg
  exact ⟨k, g, h1, h2, h3, by omega⟩

theorem natAbs_le {signed : Bool} {bits : Nat} {x : Int} (h : InRange signed bits x) :
    x.natAbs ≤ if signed then 2 ^ (bits - 1) else 2 ^ bits - 1 := by
  unfold InRange at h
  cases signed with
  | true =>
    simp only [if_true] at h ⊢
    have e : ((2 ^ (bits - 1) : Nat) : Int) = 2 ^ (bits - 1) := by norm_cast
    omega
  | false =>
    simp only [Bool.false_eq_true, if_false] at h ⊢
    have e : ((2 ^ bits : Nat) : Int) = 2 ^ bits := by norm_cast
    omega

/-- **In a plain format integers look as usual.** -/
theorem plain_text {f : Format} {signed : Bool} {bits : Nat} (hp : Plain f signed bits) {x : Int}
    (hx : InRange signed bits x) : numText (noWidth f) signed bits x = showInt x := by
  obtain ⟨h1, h2, h3⟩ := hp
  rw [numText_noWidth, showInt_eq]
  unfold numParts
  rw [h1]
  dsimp only
  rw [h2, (group_iff f _).2 fun hg => h3 (groups_mono (toDigits_length_mono (natAbs_le hx)) hg)]
  simp

theorem inRange_small {signed : Bool} {bits : Nat} (hb : 8 ≤ bits) {x : Int} (h0 : 0 ≤ x) (h1 : x < 128) :
    InRange signed bits x := by
  have e1 : (2 : Int) ^ 7 ≤ 2 ^ (bits - 1) := by
    have := Nat.pow_le_pow_right (n := 2) (by decide) (show 7 ≤ bits - 1 by omega)
    exact_mod_cast this
  have e2 : (2 : Int) ^ 7 ≤ 2 ^ bits := by
    have := Nat.pow_le_pow_right (n := 2) (by decide) (show 7 ≤ bits by omega)
    exact_mod_cast this
  unfold InRange
  split <;> constructor <;> omega

theorem mod_small {bits : Nat} (hb : 8 ≤ bits) {x : Int} (h0 : 0 ≤ x) (h1 : x < 128) : x % 2 ^ bits = x := by
  have e2 : (2 : Int) ^ 7 ≤ 2 ^ bits := by
    have := Nat.pow_le_pow_right (n := 2) (by decide) (show 7 ≤ bits by omega)
    exact_mod_cast this
  exact Int.emod_eq_of_lt h0 (by omega)

/-- The largest magnitude has the most digits. -/
theorem exists_maxDigits (signed : Bool) (bits : Nat) :
    ∃ x, InRange signed bits x ∧ (Nat.toDigits 10 x.natAbs).length = maxDigits signed bits := by
  cases signed with
  | true =>
    refine ⟨-2 ^ (bits - 1), ?_, ?_⟩
    · unfold InRange
      have : (0 : Int) < 2 ^ (bits - 1) := Int.pow_pos (by decide)
      simp only [if_true]; constructor <;> omega
    · unfold maxDigits
      have e : ((2 ^ (bits - 1) : Nat) : Int) = 2 ^ (bits - 1) := by norm_cast
      rw [← e, Int.natAbs_neg, Int.natAbs_natCast]; rfl
  | false =>
    refine ⟨((2 ^ bits - 1 : Nat) : Int), ?_, ?_⟩
    · unfold InRange
      have e : ((2 ^ bits : Nat) : Int) = 2 ^ bits := by norm_cast
      have : 0 < 2 ^ bits := Nat.pow_pos (by decide)
      simp only [Bool.false_eq_true, if_false]; constructor <;> omega
    · unfold maxDigits
      rw [Int.natAbs_natCast]; rfl

/-- **Exactly the plain formats** show all integers as usual. -/
theorem plain_iff (f : Format) (signed : Bool) (bits : Nat) (hb : 8 ≤ bits) :
    (∀ x, InRange signed bits x → numText (noWidth f) signed bits x = showInt x) ↔ Plain f signed bits := by
  refine ⟨fun h => ?_, fun hp x hx => plain_text hp hx⟩
  have hbase : f.base = .other := by
    cases hf : f.base with
    | other => rfl
    | oct =>
      exfalso
      have := congrArg List.length (h 8 (inRange_small hb (by decide) (by decide)))
      rw [numText_noWidth] at this
      have hl := group_length f (Nat.toDigits 8 8)
      unfold numParts at this
      rw [hf] at this
      simp only [mod_small hb (show (0 : Int) ≤ 8 by decide) (by decide), List.length_append] at this
      have e1 : (showInt 8).length = 1 := by decide +kernel
      have e2 : (Nat.toDigits 8 8).length = 2 := by decide +kernel
      have e3 : (8 : Int).toNat = 8 := rfl
      rw [e3] at this
      omega
    | hex =>
      exfalso
      have h16 := h 16 (inRange_small hb (by decide) (by decide))
      rw [numText_noWidth] at h16
      have hl := group_length f (toUpper f (Nat.toDigits 16 16))
      have e0 : toUpper f (Nat.toDigits 16 16) = ['1', '0'] := by
        unfold toUpper; cases f.uppercase <;> decide +kernel
      unfold numParts at h16
      rw [hf] at h16
      simp only [mod_small hb (show (0 : Int) ≤ 16 by decide) (by decide)] at h16
      have e3 : (16 : Int).toNat = 16 := rfl
      have e4 : showInt 16 = ['1', '6'] := by decide +kernel
      rw [e3, e0, e4] at h16
      rw [e0] at hl
      have h2 := congrArg List.length h16
      simp only [List.length_append, List.length_cons, List.length_nil] at h2 hl
      by_cases hg : Groups f 2
      · have hne : group f ['1', '0'] ≠ ['1', '0'] := fun he => (group_iff f _).1 he hg
        have hgl : 2 < (group f ['1', '0']).length := by
          obtain ⟨k, g, hk, h0, h1, h2⟩ := hg
          have : k = 1 := by omega
          subst this
          unfold group
          rw [hk]
          have := groupRev_length f.sep 1 (if g = [] then [1] else g) ['1']
          simp [groupRev] at this ⊢
          omega
        omega
      · rw [(group_iff f ['1', '0']).2 hg] at h16
        have : (if (f.showbase && decide ((16 : Nat) ≠ 0)) = true then toUpper f ['0', 'x'] else []) = [] := by
          apply List.length_eq_zero_iff.1
          rw [(group_iff f ['1', '0']).2 hg] at h2
          simp only [List.length_cons, List.length_nil] at h2
          omega
        rw [this] at h16
        exact absurd h16 (by decide)
  have hpos : (f.showpos && signed) = false := by
    cases hsp : (f.showpos && signed) with
    | false => rfl
    | true =>
      exfalso
      have := congrArg List.length (h 0 (inRange_small hb (by decide) (by decide)))
      rw [numText_noWidth] at this
      unfold numParts at this
      rw [hbase] at this
      dsimp only at this
      have hl := group_length f (Nat.toDigits 10 (Int.natAbs 0))
      rw [hsp, if_neg (by decide), if_pos rfl] at this
      have e1 : (showInt 0).length = 1 := by decide +kernel
      have e2 : (Nat.toDigits 10 (Int.natAbs 0)).length = 1 := by decide +kernel
      simp only [List.length_append, List.length_cons, List.length_nil] at this
      omega
  refine ⟨hbase, hpos, fun hg => ?_⟩
  obtain ⟨x, hx, hd⟩ := exists_maxDigits signed bits
  have := h x hx
  rw [numText_noWidth, showInt_eq] at this
  unfold numParts at this
  rw [hbase] at this
  dsimp only at this
  rw [hpos] at this
  have h2 : group f (Nat.toDigits 10 x.natAbs) = Nat.toDigits 10 x.natAbs := by
    apply List.append_cancel_left (as := if x < 0 then ['-'] else [])
    simpa using this
  rw [group_iff, hd] at h2
  exact h2 hg

/-! ## Streams that never fail -/

/-- A stream buffer that accepts everything, such as that of a `std::ostringstream`. -/
def unlimited : Sink Unit := ⟨fun _ _ => ((), true)⟩

theorem accepts_unlimited (s : Unit) (t : Text) : accepts unlimited s t = t.length := by
  induction t with
  | nil => rfl
  | cons c t ih => simp [accepts, unlimited]; exact ih

theorem prints_unlimited {os os' : OStream Unit} {k : Nat} {T : Text} (h : Prints unlimited os os' k T) :
    os'.out = os.out ++ padded os.fmt k T ∧ os'.good = true ∧ os'.fmt = { os.fmt with width := 0 } := by
  obtain ⟨h1, h2, h3⟩ := h
  rw [accepts_unlimited, List.take_length] at h1
  exact ⟨h1, h2.2 (accepts_unlimited _ _), h3⟩

/-- C126, full statement: whatever the format of a good stream, the same is written, and the format is left as it was. -/
def FormatIgnored : Prop :=
  (∀ (F : Type) (ff : FloatFormat F) (os : OStream Unit) (rows cols : Nat) (M : Nat → Nat → F) (opts : PrintOpts),
    os.good = true →
    (csvS unlimited (floatElemS unlimited ff) os rows cols M opts).out =
        os.out ++ printCsvImpl (printElemFloat ff) [] rows cols M opts ∧
      (csvS unlimited (floatElemS unlimited ff) os rows cols M opts).fmt = os.fmt) ∧
  ∀ (signed : Bool) (bits : Nat) (os : OStream Unit) (rows cols : Nat) (M : Nat → Nat → Int) (opts : PrintOpts),
    os.good = true → 8 ≤ bits → (∀ r c, InRange signed bits (M r c)) →
    (csvS unlimited (intElemS unlimited signed bits) os rows cols M opts).out =
        os.out ++ printCsvImpl printElemInt [] rows cols M opts ∧
      (csvS unlimited (intElemS unlimited signed bits) os rows cols M opts).fmt = os.fmt

/-- C126 for streams without width, and integers in plain formats. -/
theorem format_ignored_partial :
    (∀ (F : Type) (ff : FloatFormat F) (os : OStream Unit) (rows cols : Nat) (M : Nat → Nat → F) (opts : PrintOpts),
      os.good = true → os.fmt.width = 0 →
      (csvS unlimited (floatElemS unlimited ff) os rows cols M opts).out =
          os.out ++ printCsvImpl (printElemFloat ff) [] rows cols M opts ∧
        (csvS unlimited (floatElemS unlimited ff) os rows cols M opts).fmt = os.fmt) ∧
    ∀ (signed : Bool) (bits : Nat) (os : OStream Unit) (rows cols : Nat) (M : Nat → Nat → Int) (opts : PrintOpts),
      os.good = true → os.fmt.width = 0 → Plain os.fmt signed bits → (∀ r c, InRange signed bits (M r c)) →
      (csvS unlimited (intElemS unlimited signed bits) os rows cols M opts).out =
          os.out ++ printCsvImpl printElemInt [] rows cols M opts ∧
        (csvS unlimited (intElemS unlimited signed bits) os rows cols M opts).fmt = os.fmt := by
  have hw : ∀ f : Format, f.width = 0 → { f with width := 0 } = f := by
    rintro ⟨⟩ h; cases h; rfl
  refine ⟨fun F ff os rows cols M opts hg h0 => ?_, fun signed bits os rows cols M opts hg h0 hp hM => ?_⟩
  · obtain ⟨h1, -, h3⟩ := prints_unlimited ((floats_stream unlimited ff os hg rows cols M).1 opts)
    rw [h1, h3, hw _ h0, (padded_iff _ _ _).2 (by omega)]
    exact ⟨rfl, rfl⟩
  · obtain ⟨h1, -, h3⟩ := prints_unlimited ((ints_stream unlimited signed bits os hg rows cols M).1 opts)
    rw [h1, h3, hw _ h0, (padded_iff _ _ _).2 (by omega),
      printCsv_pe (pe' := printElemInt) fun r c => plain_text hp (hM r c)]
    exact ⟨rfl, rfl⟩

/-- **Exactly when a floating-point matrix is not disturbed by the format of the stream**: if the width does not exceed the
first string that is inserted. -/
theorem float_format_iff {F : Type} (ff : FloatFormat F) (os : OStream Unit) (hg : os.good = true) (rows cols : Nat)
    (M : Nat → Nat → F) (opts : PrintOpts) :
    (csvS unlimited (floatElemS unlimited ff) os rows cols M opts).out =
      os.out ++ printCsvImpl (printElemFloat ff) [] rows cols M opts ↔ os.fmt.width ≤ firstLen rows cols opts := by
  obtain ⟨h1, -⟩ := prints_unlimited ((floats_stream unlimited ff os hg rows cols M).1 opts)
  rw [h1, ← padded_iff _ _ (printCsvImpl (printElemFloat ff) [] rows cols M opts), List.append_cancel_left_eq]

theorem printCsv_single {E : Type} (pe : PrintOpts → E → Text) (x : E) :
    printCsvImpl pe [] 1 1 (fun _ _ => x) {} = pe {} x ++ ['\n'] := by
  simp [printCsvImpl, printCols, List.range_succ]

/-- **Exactly the formats that leave all integer matrices undisturbed**: no width, decimal, no plus sign, no grouping of the
digits. -/
theorem int_format_iff (f : Format) (signed : Bool) (bits : Nat) (hb : 8 ≤ bits) :
    (∀ (rows cols : Nat) (M : Nat → Nat → Int) (opts : PrintOpts), (∀ r c, InRange signed bits (M r c)) →
      (csvS unlimited (intElemS unlimited signed bits) { fmt := f, buf := () } rows cols M opts).out =
        printCsvImpl printElemInt [] rows cols M opts) ↔ f.width = 0 ∧ Plain f signed bits := by
  constructor
  · intro h
    have key : ∀ x, InRange signed bits x →
        padded f 0 (numText (noWidth f) signed bits x ++ ['\n']) = showInt x ++ ['\n'] := by
      intro x hx
      have h1 := h 1 1 (fun _ _ => x) {} fun _ _ => hx
      obtain ⟨h2, -⟩ := prints_unlimited
        ((ints_stream unlimited signed bits { fmt := f, buf := () } rfl 1 1 fun _ _ => x).1 {})
      rw [h2, printCsv_single, printCsv_single] at h1
      exact h1
    have hw : f.width = 0 := by
      have := congrArg List.length (key 0 (inRange_small hb (by decide) (by decide)))
      rw [padded_length, numText_noWidth, List.length_append, List.length_append, List.length_append] at this
      have e1 : (showInt 0).length = 1 := by decide +kernel
      have e2 : 1 ≤ (numParts f signed bits 0).2.length := by
        unfold numParts
        cases f.base with
        | other =>
          have := group_length f (Nat.toDigits 10 (Int.natAbs 0))
          have e : (Nat.toDigits 10 (Int.natAbs 0)).length = 1 := by decide +kernel
          dsimp only; omega
        | oct =>
          have := group_length f (Nat.toDigits 8 ((0 : Int) % 2 ^ bits).toNat)
          have e : (Nat.toDigits 8 ((0 : Int) % 2 ^ bits).toNat).length = 1 := by
            rw [Int.zero_emod]; decide +kernel
          dsimp only; rw [List.length_append]; omega
        | hex =>
          have := group_length f (toUpper f (Nat.toDigits 16 ((0 : Int) % 2 ^ bits).toNat))
          have e : (toUpper f (Nat.toDigits 16 ((0 : Int) % 2 ^ bits).toNat)).length = 1 := by
            rw [Int.zero_emod]; unfold toUpper; cases f.uppercase <;> decide +kernel
          dsimp only; omega
      rw [e1] at this
      omega
    refine ⟨hw, (plain_iff f signed bits hb).1 fun x hx => ?_⟩
    have := key x hx
    rw [(padded_iff f 0 _).2 (by omega)] at this
    exact List.append_cancel_right this
  · rintro ⟨hw, hp⟩ rows cols M opts hM
    exact (format_ignored_partial.2 signed bits { fmt := f, buf := () } rows cols M opts rfl hw hp hM).1

/-- C126 is false: with `std::setw(4)`, four blanks come before a number. -/
theorem not_formatIgnored : ¬ FormatIgnored := by
  intro h
  have := (h.2 true 32 { fmt := { width := 4 }, buf := () } 1 1 (fun _ _ => 7) {} rfl (by decide)
    (fun _ _ => by unfold InRange; decide)).1
  revert this
  decide +kernel

/-- The formats that disturb integers: `std::hex`, `std::showpos`, a locale with thousands separators, and a width (which pads
the indentation, an empty string). -/
theorem disturbed_examples :
    (csvS unlimited (intElemS unlimited true 32) { fmt := { base := .hex }, buf := () } 1 2 (fun _ c => -1 + 256 * c) {}).out =
      "ffffffff,ff\n".toList ∧
    (csvS unlimited (intElemS unlimited true 32) { fmt := { showpos := true }, buf := () } 1 2 (fun _ c => -1 + 256 * c) {}).out =
      "-1,+255\n".toList ∧
    (csvS unlimited (intElemS unlimited true 32) { fmt := { grouping := [3] }, buf := () } 1 2
      (fun _ c => 1234567 * (c + 1)) {}).out = "1,234,567,2,469,134\n".toList ∧
    (csvS unlimited (intElemS unlimited true 32) { fmt := { width := 6, fill := '*' }, buf := () } 1 2 (fun _ c => c) {}).out =
      "******0,1\n".toList := by
  decide +kernel

/-! ## Stream buffers that fail -/

/-- **What a failing stream buffer has received is the beginning of the text** (with the default format; all others:
`floats_stream`, `ints_stream`, ...). -/
theorem csv_prefix {F : Type} (ff : FloatFormat F) (s : σ) (rows cols : Nat) (M : Nat → Nat → F) (opts : PrintOpts) :
    let T := printCsvImpl (printElemFloat ff) [] rows cols M opts
    let os' := csvS S (floatElemS S ff) { buf := s } rows cols M opts
    os'.out = T.take (accepts S s T) ∧ (os'.good = true ↔ os'.out = T) := by
  obtain ⟨h1, h2, -⟩ := (floats_stream S ff { buf := s } rfl rows cols M).1 opts
  dsimp only at h1 h2 ⊢
  have e : padded ({} : Format) (firstLen rows cols opts) (printCsvImpl (printElemFloat ff) [] rows cols M opts) =
      printCsvImpl (printElemFloat ff) [] rows cols M opts := (padded_iff _ _ _).2 (Nat.zero_le _)
  rw [e, List.nil_append] at h1
  rw [e] at h2
  refine ⟨h1, h2.trans ?_⟩
  rw [h1]
  constructor
  · intro h; rw [h, List.take_length]
  · intro h
    have := congrArg List.length h
    rw [List.length_take] at this
    have := accepts_le S s (printCsvImpl (printElemFloat ff) [] rows cols M opts)
    omega

/-- A stream buffer with room for a number of characters. -/
def room : Sink Nat := ⟨fun n _ => (n - 1, decide (0 < n))⟩

example : (csvS room (intElemS room true 32) { buf := 7 } 2 2 (fun r c => 10 * r + c) {}).out = "0,1\n10,".toList ∧
    (csvS room (intElemS room true 32) { buf := 7 } 2 2 (fun r c => 10 * r + c) {}).good = false := by decide +kernel

end Guanaqo.Print.Stream
