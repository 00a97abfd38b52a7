import Verif.Print.Spec

/-!
# C45: the layout of printed matrices
-/

namespace Guanaqo.Print

theorem sepBy_snoc (sep : Text) (l : List Text) (x : Text) :
    sepBy sep (l ++ [x]) = l.flatMap (· ++ sep) ++ x := by
  induction l with
  | nil => simp [sepBy]
  | cons a l ih =>
    cases l with
    | nil => simp [sepBy, List.intercalate_cons_cons]
    | cons b l =>
      rw [List.cons_append, List.cons_append, sepBy, List.intercalate_cons_cons, ← List.cons_append,
        ← sepBy, ih]
      simp

theorem foldl_all_sep (f : Nat → Text) (sep : Text) (n : Nat) (os : Text) :
    (List.range n).foldl (fun os (c : Nat) => os ++ f c ++ sep) os =
      os ++ ((List.range n).map f).flatMap (· ++ sep) := by
  induction n with
  | zero => simp
  | succ n ih =>
    rw [List.range_succ, List.foldl_append, ih]
    simp [List.flatMap_append]

theorem foldl_congr_mem {α σ : Type} {f g : σ → α → σ} {l : List α}
    (h : ∀ a ∈ l, ∀ s, f s a = g s a) (s : σ) : l.foldl f s = l.foldl g s := by
  induction l generalizing s with
  | nil => rfl
  | cons a l ih =>
    rw [List.foldl_cons, List.foldl_cons, h a (by simp)]
    exact ih (fun b hb => h b (by simp [hb])) _

/-- A loop that writes pieces with a separator after all but the last. -/
theorem foldl_sep (f : Nat → Text) (sep : Text) (n : Nat) (os : Text) :
    (List.range n).foldl (fun os (c : Nat) =>
        if c ≠ n - 1 then os ++ f c ++ sep else os ++ f c) os =
      os ++ sepBy sep ((List.range n).map f) := by
  cases n with
  | zero => simp [sepBy]
  | succ n =>
    rw [List.range_succ, List.foldl_append, List.map_append, List.map_singleton, sepBy_snoc]
    have : (List.range n).foldl (fun os (c : Nat) =>
        if c ≠ n + 1 - 1 then os ++ f c ++ sep else os ++ f c) os =
        (List.range n).foldl (fun os (c : Nat) => os ++ f c ++ sep) os := by
      apply foldl_congr_mem
      intro c hc s
      have := List.mem_range.1 hc
      rw [if_pos (by omega)]
    rw [this, foldl_all_sep]
    simp

section
variable {E : Type} (pe : PrintOpts → E → Text)

theorem printCols_line (opts : PrintOpts) (row : Nat → E) (cols : Nat) (os : Text) :
    printCols pe opts row cols (fun c => decide (c ≠ cols - 1)) os =
      os ++ sepBy opts.delimiter ((List.range cols).map (fun (c : Nat) => pe opts (row c))) := by
  rw [← foldl_sep]
  unfold printCols
  apply foldl_congr_mem
  intro c _ s
  simp only [decide_eq_true_eq]

/-- Every element is followed by a delimiter, in rows that are not the last one. -/
theorem printCols_all (opts : PrintOpts) (row : Nat → E) (cols : Nat) (more : Nat → Bool)
    (hm : ∀ c < cols, more c = true) (os : Text) :
    printCols pe opts row cols more os = os ++
      ((List.range cols).map (fun (c : Nat) => pe opts (row c))).flatMap (· ++ opts.delimiter) := by
  rw [← foldl_all_sep]
  unfold printCols
  apply foldl_congr_mem
  intro c hc s
  rw [if_pos (hm c (List.mem_range.1 hc))]

/-- Whether the matrix is printed on one line. -/
def oneLine (rows cols : Nat) (opts : PrintOpts) : Prop :=
  (cols = 1 ∧ opts.column_vector_as_1d = true) ∨ (rows = 1 ∧ opts.row_vector_as_1d = true)

/-- C45, the layout `print_csv` is meant to produce: a vector (if the options say so) is printed on
one line; a matrix has one line for each row. Every line is indented, begins with `line_start` (the
first with `start`) and its elements are separated by the delimiter; the lines are separated by
`line_end`, and `end` closes the text. A matrix without rows is `start` and `end`. -/
def layout (rows cols : Nat) (M : Nat → Nat → E) (opts : PrintOpts) : Text :=
  let indent := List.replicate opts.indent opts.indent_char
  let elems := rowsOf rows cols (fun r c => pe opts (M r c))
  if (cols = 1 ∧ opts.column_vector_as_1d = true) ∨ (rows = 1 ∧ opts.row_vector_as_1d = true) then
    indent ++ opts.start ++ sepBy opts.delimiter elems.flatten ++ opts.end
  else if rows = 0 then indent ++ opts.start ++ opts.end
  else
    sepBy opts.line_end (elems.mapIdx fun r row =>
      indent ++ (if r = 0 then opts.start else opts.line_start) ++ sepBy opts.delimiter row) ++
      opts.end

/-- C45, full statement. -/
def LayoutCorrect : Prop :=
  ∀ (pe : PrintOpts → Nat → Text) (os : Text) (rows cols : Nat) (M : Nat → Nat → Nat)
    (opts : PrintOpts), printCsvImpl pe os rows cols M opts = os ++ layout pe rows cols M opts

theorem flatten_rowsOf_col {F : Type} (rows : Nat) (M : Nat → Nat → F) :
    (rowsOf rows 1 M).flatten = (List.range rows).map (fun (r : Nat) => M r 0) := by
  unfold rowsOf
  have : (fun (r : Nat) => (List.range 1).map fun (c : Nat) => M r c) = fun (r : Nat) => [M r 0] := by
    funext r; rfl
  rw [this]
  induction List.range rows with
  | nil => rfl
  | cons a l ih => simp only [List.map_cons, List.flatten_cons, ih]; rfl

theorem printCsv_oneLine (os : Text) (rows cols : Nat) (M : Nat → Nat → E) (opts : PrintOpts)
    (h : oneLine rows cols opts) :
    printCsvImpl pe os rows cols M opts = os ++ layout pe rows cols M opts := by
  have h' : (cols = 1 ∧ opts.column_vector_as_1d) ∨ (rows = 1 ∧ opts.row_vector_as_1d) := h
  unfold printCsvImpl layout
  simp only [if_pos h']
  have key : ∀ os : Text, (List.range rows).foldl (fun os (r : Nat) =>
      printCols pe opts (M r) cols (fun c => decide (r ≠ rows - 1) || decide (c ≠ cols - 1)) os) os =
      os ++ sepBy opts.delimiter (rowsOf rows cols (fun r c => pe opts (M r c))).flatten := by
    intro os
    rcases h with ⟨rfl, _⟩ | ⟨rfl, _⟩
    · rw [flatten_rowsOf_col, ← foldl_sep]
      apply foldl_congr_mem
      intro r _ s
      unfold printCols
      simp
    · have : (fun (os : Text) (r : Nat) =>
          printCols pe opts (M r) cols (fun c => decide (r ≠ 1 - 1) || decide (c ≠ cols - 1)) os) =
          fun os r => printCols pe opts (M r) cols
            (fun c => decide (r ≠ 1 - 1) || decide (c ≠ cols - 1)) os := rfl
      simp only [List.range_one, List.foldl_cons, List.foldl_nil]
      have hmore : (fun c => decide (0 ≠ 1 - 1) || decide (c ≠ cols - 1)) =
          fun c : Nat => decide (c ≠ cols - 1) := by
        funext c; simp
      rw [hmore, printCols_line]
      simp [rowsOf]
  rw [key]
  simp

/-- C45 for every shape, except that a matrix without rows must be one the printer treats as a
vector: `print_csv_impl` writes exactly the intended layout after what was already written. -/
theorem print_csv_layout_partial (os : Text) (rows cols : Nat) (M : Nat → Nat → E)
    (opts : PrintOpts) (hrows : rows ≠ 0 ∨ oneLine rows cols opts) :
    printCsvImpl pe os rows cols M opts = os ++ layout pe rows cols M opts := by
  by_cases h : oneLine rows cols opts
  · exact printCsv_oneLine pe os rows cols M opts h
  · have hr : rows ≠ 0 := by
      rcases hrows with h1 | h1
      · exact h1
      · exact absurd h1 h
    have h' : ¬ ((cols = 1 ∧ opts.column_vector_as_1d) ∨ (rows = 1 ∧ opts.row_vector_as_1d)) := h
    unfold printCsvImpl layout
    simp only [if_neg h', if_neg hr]
    rw [← List.append_assoc]
    congr 1
    have hm : (rowsOf rows cols (fun r c => pe opts (M r c))).mapIdx (fun r row =>
        List.replicate opts.indent opts.indent_char ++
          (if r = 0 then opts.start else opts.line_start) ++ sepBy opts.delimiter row) =
        (List.range rows).map (fun (r : Nat) => List.replicate opts.indent opts.indent_char ++
          (if r = 0 then opts.start else opts.line_start) ++
          sepBy opts.delimiter ((List.range cols).map (fun (c : Nat) => pe opts (M r c)))) := by
      apply List.ext_getElem
      · simp [rowsOf]
      · intro i h1 h2
        simp [rowsOf]
    rw [hm, ← foldl_sep]
    apply foldl_congr_mem
    intro r _ s
    simp only [printCols_line, List.append_assoc]

/-- C45 is false as stated: a matrix without rows is printed without its `start` text. -/
theorem not_layoutCorrect : ¬ LayoutCorrect := by
  intro h
  have := h (fun _ _ => []) [] 0 2 (fun _ _ => 0) { start := ['['], «end» := [']'] }
  revert this
  decide +kernel

end

/-- A 2 × 3 matrix with the default options, and a column vector. -/
example : printCsvImpl printElemInt [] 2 3 (fun r c => (3 * r + c : Nat) - 2) {} =
      "-2,-1,0\n1,2,3\n".toList ∧
    printCsvImpl printElemInt [] 3 1 (fun r _ => (r : Int)) {} = "0,1,2\n".toList := by
  constructor <;> decide +kernel

end Guanaqo.Print
