import Verif.Print.Stream

/-!
# Printing as a sequence of formatted insertions
-/

namespace Guanaqo.Print.Stream

/-- What is inserted with one `<<`. -/
inductive Item where
  | text (t : Text)
  | num (signed : Bool) (bits : Nat) (x : Int)
  deriving DecidableEq

/-- The characters that one `<<` writes. -/
def Item.render (f : Format) : Item → Text
  | .text t => pad f [] t
  | .num s b x => numText f s b x

variable {σ : Type} (S : Sink σ)

def insertAll (l : List Item) (os : OStream σ) : OStream σ := l.foldl (fun os i => os.insert S fun f => i.render f) os

/-- The format after an insertion. -/
def noWidth (f : Format) : Format := { f with width := 0 }

/-- The characters that a sequence of insertions writes. -/
def renderAll (f : Format) : List Item → Text
  | [] => []
  | i :: l => i.render f ++ l.flatMap fun j => j.render (noWidth f)

theorem feed_true {s s' : σ} {c : Char} (h : S.put s c = (s', true)) (t : Text) :
    feed S s (c :: t) = ((feed S s' t).1, c :: (feed S s' t).2.1, (feed S s' t).2.2) := by
  rw [feed, h]

theorem feed_false {s s' : σ} {c : Char} (h : S.put s c = (s', false)) (t : Text) :
    feed S s (c :: t) = (s', [], false) := by
  rw [feed, h]

theorem feed_append (s : σ) (a b : Text) :
    feed S s (a ++ b) = if (feed S s a).2.2 then
      ((feed S (feed S s a).1 b).1, (feed S s a).2.1 ++ (feed S (feed S s a).1 b).2.1, (feed S (feed S s a).1 b).2.2)
      else feed S s a := by
  induction a generalizing s with
  | nil => simp [feed]
  | cons c t ih =>
    obtain ⟨s', ok, hp⟩ : ∃ s' ok, S.put s c = (s', ok) := ⟨_, _, rfl⟩
    rw [List.cons_append]
    cases ok with
    | false => rw [feed_false S hp, feed_false S hp]; simp
    | true =>
      rw [feed_true S hp, feed_true S hp, ih s']
      dsimp only
      split <;> simp

theorem insertAll_bad (l : List Item) {os : OStream σ} (h : os.good = false) : insertAll S l os = os := by
  induction l with
  | nil => rfl
  | cons i l ih =>
    show insertAll S l (os.insert S _) = os
    have : os.insert S (fun f => i.render f) = os := by unfold OStream.insert; rw [if_neg (by simp [h])]
    rw [this]; exact ih

theorem noWidth_noWidth (f : Format) : noWidth (noWidth f) = noWidth f := rfl

theorem renderAll_noWidth (f : Format) (l : List Item) :
    renderAll (noWidth f) l = l.flatMap fun j => j.render (noWidth f) := by
  cases l <;> simp [renderAll, noWidth_noWidth]

/-- A sequence of insertions into a good stream. -/
theorem insertAll_spec (i : Item) (l : List Item) (os : OStream σ) (h : os.good = true) :
    insertAll S (i :: l) os =
      { fmt := noWidth os.fmt
        good := (feed S os.buf (renderAll os.fmt (i :: l))).2.2
        buf := (feed S os.buf (renderAll os.fmt (i :: l))).1
        out := os.out ++ (feed S os.buf (renderAll os.fmt (i :: l))).2.1 } := by
  induction l generalizing i os with
  | nil =>
    show os.insert S (fun f => i.render f) = _
    unfold OStream.insert
    rw [if_pos h]
    simp [renderAll, noWidth]
  | cons j l ih =>
    have e : insertAll S (i :: j :: l) os = insertAll S (j :: l) (os.insert S fun f => i.render f) := rfl
    have hi : os.insert S (fun f => i.render f) =
        ⟨noWidth os.fmt, (feed S os.buf (i.render os.fmt)).2.2, (feed S os.buf (i.render os.fmt)).1,
          os.out ++ (feed S os.buf (i.render os.fmt)).2.1⟩ := by
      unfold OStream.insert; rw [if_pos h]; rfl
    have hr : renderAll os.fmt (i :: j :: l) = i.render os.fmt ++ renderAll (noWidth os.fmt) (j :: l) := by
      rw [renderAll_noWidth]; rfl
    rw [e, hi, hr, feed_append]
    cases hg : (feed S os.buf (i.render os.fmt)).2.2 with
    | false => rw [insertAll_bad S _ rfl]; simp [hg]
    | true => rw [ih j _ rfl]; simp [noWidth_noWidth, List.append_assoc]

theorem insertAll_append (a b : List Item) (os : OStream σ) :
    insertAll S (a ++ b) os = insertAll S b (insertAll S a os) := by
  unfold insertAll; rw [List.foldl_append]

theorem insertAll_flatMap {α : Type} (g : α → List Item) (l : List α) (os : OStream σ) :
    insertAll S (l.flatMap g) os = l.foldl (fun os a => insertAll S (g a) os) os := by
  induction l generalizing os with
  | nil => rfl
  | cons a l ih => rw [List.flatMap_cons, insertAll_append, ih]; rfl

/-! ## Items of the elements -/

def floatItems {F : Type} (ff : FloatFormat F) (v : F) : List Item :=
  [.text ((floatToStrVw ff 64 v ff.max_digits10).getD [])]

def intItems (signed : Bool) (bits : Nat) (v : Int) : List Item := [.num signed bits v]

def charItems (v : Char) : List Item := [.text [v]]

def complexItems {F : Type} (ff : FloatFormat F) (v : F × F) : List Item :=
  [.text ((floatToStrVw ff 64 v.1 ff.max_digits10).getD []), .text " + ".toList,
    .text ((floatToStrVw ff 64 v.2 ff.max_digits10).getD []), .text ['j']]

/-- An overload of `print_elem` inserts items. -/
def Inserts {E : Type} (el : ElemS σ E) (ei : E → List Item) : Prop := ∀ v os, el v os = insertAll S (ei v) os

theorem floatElem_inserts {F : Type} (ff : FloatFormat F) : Inserts S (floatElemS S ff) (floatItems ff) := fun _ _ => rfl
theorem intElem_inserts (signed : Bool) (bits : Nat) : Inserts S (intElemS S signed bits) (intItems signed bits) :=
  fun _ _ => rfl
theorem charElem_inserts : Inserts S (charElemS S) charItems := fun _ _ => rfl
theorem complexElem_inserts {F : Type} (ff : FloatFormat F) : Inserts S (complexElemS S ff) (complexItems ff) :=
  fun _ _ => rfl

/-! ## Items of the printers -/

section
variable {E : Type} (ei : E → List Item)

def colItems (opts : PrintOpts) (row : Nat → E) (cols : Nat) (more : Nat → Bool) : List Item :=
  (List.range cols).flatMap fun (c : Nat) => ei (row c) ++ if more c then [.text opts.delimiter] else []

def csvItems (rows cols : Nat) (M : Nat → Nat → E) (opts : PrintOpts) : List Item :=
  let indent := List.replicate opts.indent opts.indent_char
  if (cols = 1 ∧ opts.column_vector_as_1d) ∨ (rows = 1 ∧ opts.row_vector_as_1d) then
    .text indent :: .text opts.start :: ((List.range rows).flatMap (fun (r : Nat) =>
      colItems ei opts (M r) cols (fun c => decide (r ≠ rows - 1) || decide (c ≠ cols - 1))) ++ [.text opts.end])
  else
    (List.range rows).flatMap (fun (r : Nat) =>
      .text indent :: .text (if r = 0 then opts.start else opts.line_start) ::
        (colItems ei opts (M r) cols (fun c => decide (c ≠ cols - 1)) ++
          if r ≠ rows - 1 then [.text opts.line_end] else [])) ++ [.text opts.end]

theorem colsS_items {el : ElemS σ E} (hel : Inserts S el ei) (opts : PrintOpts) (row : Nat → E) (cols : Nat)
    (more : Nat → Bool) (os : OStream σ) : colsS S el opts row cols more os = insertAll S (colItems ei opts row cols more) os := by
  unfold colsS colItems
  rw [insertAll_flatMap]
  congr 1
  funext os c
  rw [insertAll_append, ← hel]
  split <;> rfl

theorem csvS_items {el : ElemS σ E} (hel : Inserts S el ei) (rows cols : Nat) (M : Nat → Nat → E) (opts : PrintOpts)
    (os : OStream σ) : csvS S el os rows cols M opts = insertAll S (csvItems ei rows cols M opts) os := by
  unfold csvS csvItems
  dsimp only
  split
  · show _ = insertAll S _ (((os.str S _).str S _))
    rw [insertAll_append, insertAll_flatMap]
    simp only [colsS_items S ei hel]
    rfl
  · rw [insertAll_append, insertAll_flatMap]
    show OStream.str S _ _ = OStream.str S _ _
    congr 2
    funext os r
    show _ = insertAll S _ ((os.str S _).str S _)
    rw [insertAll_append, colsS_items S ei hel]
    split <;> rfl

/-- The items in a stream without width: the text of the printers of `Verif.Print.Model`. -/
theorem flatMap_cols (f : Format) (hf : f.width = 0) (opts : PrintOpts) (row : Nat → E) (cols : Nat) (more : Nat → Bool)
    (os : Text) :
    os ++ (colItems ei opts row cols more).flatMap (Item.render f) =
      printCols (fun _ v => (ei v).flatMap (Item.render f)) opts row cols more os := by
  unfold colItems printCols
  generalize List.range cols = l
  induction l generalizing os with
  | nil => simp
  | cons c l ih =>
    rw [List.flatMap_cons, List.flatMap_append, ← List.append_assoc, ih, List.foldl_cons]
    congr 1
    rw [List.flatMap_append]
    split <;> simp [Item.render, pad, hf]
    cases f.adjust <;> rfl

theorem render_text (f : Format) (hf : f.width = 0) (t : Text) : (Item.text t).render f = t := by
  simp [Item.render, pad, hf]
  cases f.adjust <;> rfl

theorem foldl_app {α : Type} (h : Text → α → Text) (g : α → Text) (e : ∀ os a, os ++ g a = h os a) (l : List α) (os : Text) :
    os ++ l.flatMap g = l.foldl h os := by
  induction l generalizing os with
  | nil => simp
  | cons a l ih => rw [List.flatMap_cons, ← List.append_assoc, ih, e]; rfl

theorem flatMap_flatMap' {α β γ : Type} (l : List α) (g : α → List β) (h : β → List γ) :
    (l.flatMap g).flatMap h = l.flatMap fun a => (g a).flatMap h := by
  induction l with
  | nil => rfl
  | cons a l ih => simp [List.flatMap_cons, List.flatMap_append, ih]

theorem flatMap_csv (f : Format) (hf : f.width = 0) (rows cols : Nat) (M : Nat → Nat → E) (opts : PrintOpts) (os : Text) :
    os ++ (csvItems ei rows cols M opts).flatMap (Item.render f) =
      printCsvImpl (fun _ v => (ei v).flatMap (Item.render f)) os rows cols M opts := by
  unfold csvItems printCsvImpl
  dsimp only
  split
  · rw [List.flatMap_cons, List.flatMap_cons, List.flatMap_append, flatMap_flatMap', render_text f hf, render_text f hf]
    simp only [List.flatMap_cons, List.flatMap_nil, render_text f hf, List.append_nil]
    rw [← List.append_assoc, ← List.append_assoc, ← List.append_assoc]
    congr 1
    apply foldl_app
    intro os r
    exact flatMap_cols ei f hf _ _ _ _ os
  · rw [List.flatMap_append, flatMap_flatMap']
    simp only [List.flatMap_cons, List.flatMap_nil, render_text f hf, List.append_nil, List.flatMap_append]
    rw [← List.append_assoc]
    congr 1
    apply foldl_app
    intro os r
    rw [← List.append_assoc, ← List.append_assoc, ← List.append_assoc, flatMap_cols ei f hf]
    by_cases hr : r ≠ rows - 1
    · rw [if_pos hr, if_pos hr]; simp [render_text f hf]
    · rw [if_neg hr, if_neg hr]; simp

end

end Guanaqo.Print.Stream
