import Verif.Print.StreamItems
import Verif.Print.Elems
import Verif.Streambuf.Props

/-!
# C126, C127: printing to a stream of any format, and to stream buffers that fail
-/

namespace Guanaqo.Print.Stream

variable {σ : Type} (S : Sink σ)

/-! ## Specification -/

/-- How many of the characters of a text a stream buffer accepts, one after the other. -/
def accepts : σ → Text → Nat
  | _, [] => 0
  | s, c :: t => if (S.put s c).2 then accepts (S.put s c).1 t + 1 else 0

/-- The text was written as far as the stream buffer accepts it; the stream is good if it was accepted completely. -/
def Wrote (os os' : OStream σ) (T : Text) : Prop :=
  os'.out = os.out ++ T.take (accepts S os.buf T) ∧ (os'.good = true ↔ accepts S os.buf T = T.length)

/-- The text `T` with its first `k` characters padded to the width of the stream. -/
def padded (f : Format) (k : Nat) (T : Text) : Text :=
  if f.adjust = .left then T.take k ++ List.replicate (f.width - k) f.fill ++ T.drop k
  else List.replicate (f.width - k) f.fill ++ T

/-- The length of the first string that `print_csv` inserts: the indentation, or the end if there is no line. -/
def firstLen (rows cols : Nat) (opts : PrintOpts) : Nat :=
  if (cols = 1 ∧ opts.column_vector_as_1d) ∨ (rows = 1 ∧ opts.row_vector_as_1d) ∨ rows ≠ 0 then opts.indent
  else opts.end.length

/-! ## Insertions -/

theorem feed_accepts (s : σ) (t : Text) :
    (feed S s t).2.1 = t.take (accepts S s t) ∧ ((feed S s t).2.2 = true ↔ accepts S s t = t.length) := by
  induction t generalizing s with
  | nil => simp [feed, accepts]
  | cons c t ih =>
    obtain ⟨s', ok, hp⟩ : ∃ s' ok, S.put s c = (s', ok) := ⟨_, _, rfl⟩
    cases ok with
    | false => rw [feed_false S hp]; simp [accepts, hp]
    | true =>
      rw [feed_true S hp]
      simp [accepts, hp, ih s']

theorem accepts_le (s : σ) (t : Text) : accepts S s t ≤ t.length := by
  induction t generalizing s with
  | nil => simp [accepts]
  | cons c t ih =>
    simp only [accepts]
    split
    · have := ih (S.put s c).1; simp; omega
    · simp

theorem renderAll_padded (f : Format) (t : Text) (l : List Item) :
    renderAll f (.text t :: l) = padded f t.length ((Item.text t :: l).flatMap (Item.render (noWidth f))) := by
  rw [List.flatMap_cons, render_text _ rfl]
  unfold renderAll padded Item.render pad
  simp only [List.length_nil, Nat.zero_add, List.nil_append]
  cases f.adjust with
  | left => simp [List.append_assoc]
  | internal => simp [List.append_assoc]
  | right => simp [List.append_assoc]

theorem insertAll_wrote (t : Text) (l : List Item) (os : OStream σ) (h : os.good = true) :
    Wrote S os (insertAll S (.text t :: l) os)
      (padded os.fmt t.length ((Item.text t :: l).flatMap (Item.render (noWidth os.fmt)))) ∧
    (insertAll S (.text t :: l) os).fmt = noWidth os.fmt := by
  rw [insertAll_spec S _ _ _ h, ← renderAll_padded]
  obtain ⟨h1, h2⟩ := feed_accepts S os.buf (renderAll os.fmt (.text t :: l))
  exact ⟨⟨by rw [h1], h2⟩, rfl⟩

theorem csvItems_head {E : Type} (ei : E → List Item) (rows cols : Nat) (M : Nat → Nat → E) (opts : PrintOpts) :
    ∃ t l, csvItems ei rows cols M opts = .text t :: l ∧ t.length = firstLen rows cols opts := by
  unfold csvItems firstLen
  dsimp only
  split
  · rename_i h
    refine ⟨_, _, rfl, ?_⟩
    rw [if_pos (h.imp_right .inl)]; simp
  · rename_i h
    cases rows with
    | zero =>
      refine ⟨_, [], rfl, ?_⟩
      rw [if_neg]
      rintro (h' | h' | h')
      · exact h (.inl h')
      · exact h (.inr h')
      · exact h' rfl
    | succ n =>
      rw [List.range_succ_eq_map, List.flatMap_cons, List.cons_append, List.cons_append]
      refine ⟨_, _, rfl, ?_⟩
      rw [if_pos (.inr (.inr (by omega)))]; simp

/-! ## Printing in general -/

section
variable {E : Type} {el : ElemS σ E} {ei : E → List Item} (hel : Inserts S el ei) (os : OStream σ) (h : os.good = true)
  (rows cols : Nat) (M : Nat → Nat → E)
include hel h

theorem csv_wrote (opts : PrintOpts) :
    Wrote S os (csvS S el os rows cols M opts) (padded os.fmt (firstLen rows cols opts)
      (printCsvImpl (fun _ v => (ei v).flatMap (Item.render (noWidth os.fmt))) [] rows cols M opts)) ∧
    (csvS S el os rows cols M opts).fmt = noWidth os.fmt := by
  rw [csvS_items S ei hel, ← flatMap_csv ei _ rfl, List.nil_append]
  obtain ⟨t, l, e, ht⟩ := csvItems_head ei rows cols M opts
  rw [e, ← ht]
  exact insertAll_wrote S t l os h

theorem csv_end_wrote (opts : PrintOpts) (fin : Text) :
    Wrote S os ((csvS S el os rows cols M opts).str S fin) (padded os.fmt (firstLen rows cols opts)
      (printCsvImpl (fun _ v => (ei v).flatMap (Item.render (noWidth os.fmt))) [] rows cols M opts ++ fin)) ∧
    ((csvS S el os rows cols M opts).str S fin).fmt = noWidth os.fmt := by
  have e0 : (csvS S el os rows cols M opts).str S fin = insertAll S (csvItems ei rows cols M opts ++ [.text fin]) os := by
    rw [insertAll_append, ← csvS_items S ei hel]; rfl
  rw [e0, ← flatMap_csv ei _ rfl, List.nil_append]
  obtain ⟨t, l, e, ht⟩ := csvItems_head ei rows cols M opts
  have e2 : (csvItems ei rows cols M opts).flatMap (Item.render (noWidth os.fmt)) ++ fin =
      (csvItems ei rows cols M opts ++ [Item.text fin]).flatMap (Item.render (noWidth os.fmt)) := by
    rw [List.flatMap_append]; simp [render_text _ (show (noWidth os.fmt).width = 0 from rfl)]
  rw [e2, e, ← ht, List.cons_append]
  exact insertAll_wrote S t _ os h

end

/-! ## The elements -/

theorem floatItems_text {F : Type} (ff : FloatFormat F) (f : Format) (v : F) (opts : PrintOpts) :
    (floatItems ff v).flatMap (Item.render (noWidth f)) = printElemFloat ff opts v := by
  simp [floatItems, render_text _ (show (noWidth f).width = 0 from rfl), printElemFloat]

theorem charItems_text (f : Format) (v : Char) : (charItems v).flatMap (Item.render (noWidth f)) = [v] := by
  simp [charItems, render_text _ (show (noWidth f).width = 0 from rfl)]

theorem complexItems_text {F : Type} (ff : FloatFormat F) (f : Format) (v : F × F) (opts : PrintOpts) :
    (complexItems ff v).flatMap (Item.render (noWidth f)) = printElemComplex ff opts v := by
  simp [complexItems, render_text _ (show (noWidth f).width = 0 from rfl), printElemComplex]

theorem intItems_text (f : Format) (signed : Bool) (bits : Nat) (v : Int) :
    (intItems signed bits v).flatMap (Item.render (noWidth f)) = numText (noWidth f) signed bits v := by
  simp [intItems, Item.render]

theorem printCsv_pe {E : Type} {pe pe' : PrintOpts → E → Text} {opts : PrintOpts} {M : Nat → Nat → E}
    (h : ∀ r c, pe opts (M r c) = pe' opts (M r c)) (os : Text) (rows cols : Nat) :
    printCsvImpl pe os rows cols M opts = printCsvImpl pe' os rows cols M opts := by
  have key : ∀ pe : PrintOpts → E → Text, printCsvImpl pe os rows cols M opts =
      printCsvImpl (fun _ t => t) os rows cols (fun r c => pe opts (M r c)) opts := fun _ => rfl
  rw [key pe, key pe']
  congr 1
  funext r c
  exact h r c

end Guanaqo.Print.Stream
