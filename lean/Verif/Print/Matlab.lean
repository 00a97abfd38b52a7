import Verif.Print.Python

/-!
# C46: `print_matlab` prints a literal that denotes the matrix
-/

namespace Guanaqo.Print

/-- The text of an element of a MATLAB matrix: not empty, no blanks and no structural characters. -/
def RealText (t : Text) : Prop := t ≠ [] ∧ ∀ c ∈ t, structural c = false ∧ c ≠ ' '

theorem m_elem_chars (e : Text) (he : ∀ c ∈ e, structural c = false ∧ c ≠ ' ') (s : MState) :
    e.foldlM MParse.step (.inside s) = some (.inside { s with atom := s.atom ++ e }) := by
  induction e generalizing s with
  | nil => simp
  | cons c e ih =>
    obtain ⟨hs, hb⟩ := he c (by simp)
    obtain ⟨h1, h2, h3, h4, h5⟩ := structural_false hs
    rw [List.foldlM_cons]
    have : MParse.step (.inside s) c = some (.inside { s with atom := s.atom ++ [c] }) := by
      simp [MParse.step, h1, h2, h3, h4, h5, hb]
    rw [this]
    simp only [Option.bind_eq_bind, Option.bind_some]
    rw [ih (fun d hd => he d (by simp [hd]))]
    simp

theorem endElem_atom (R : List (List Text)) (row : List Text) {e : Text} (he : e ≠ []) :
    MState.endElem ⟨R, row, e⟩ = ⟨R, row ++ [e], []⟩ := by
  simp [MState.endElem, he]

theorem endRow_atom (R : List (List Text)) (row : List Text) {e : Text} (he : e ≠ []) :
    MState.endRow ⟨R, row, e⟩ = ⟨R ++ [row ++ [e]], [], []⟩ := by
  simp [MState.endRow, endElem_atom R row he]

/-- Reading the elements of a row: the last one is still being read. -/
theorem m_row (elems : List Text) (hne : elems ≠ []) (he : ∀ e ∈ elems, RealText e)
    (R : List (List Text)) (row : List Text) :
    ∃ init last, elems = init ++ [last] ∧ last ≠ [] ∧
      (sepBy " ".toList elems).foldlM MParse.step (.inside ⟨R, row, []⟩) =
        some (.inside ⟨R, row ++ init, last⟩) := by
  induction elems generalizing row with
  | nil => exact absurd rfl hne
  | cons e elems ih =>
    cases elems with
    | nil =>
      refine ⟨[], e, rfl, (he e (by simp)).1, ?_⟩
      rw [sepBy, List.intercalate_singleton, m_elem_chars e (he e (by simp)).2]
      simp
    | cons e' elems =>
      obtain ⟨init, last, h1, h2, h3⟩ := ih (by simp) (fun d hd => he d (by simp [hd])) (row ++ [e])
      refine ⟨e :: init, last, by rw [h1]; rfl, h2, ?_⟩
      rw [sepBy, List.intercalate_cons_cons, ← sepBy, List.append_assoc, List.foldlM_append,
        m_elem_chars e (he e (by simp)).2]
      simp only [Option.bind_eq_bind, Option.bind_some, List.nil_append]
      rw [List.foldlM_append]
      have : " ".toList.foldlM MParse.step (.inside ⟨R, row, e⟩) =
          some (.inside ⟨R, row ++ [e], []⟩) := by
        show (some (MParse.inside (MState.endElem ⟨R, row, e⟩)) : Option MParse) = _
        rw [endElem_atom R row (he e (by simp)).1]
      rw [this]
      simp only [Option.bind_eq_bind, Option.bind_some]
      rw [h3]
      simp

/-- Reading rows after the first, and the closing bracket. -/
theorem m_rows (sepr : Text) (hsep : sepr = ";\n ".toList ∨ sepr = "; ".toList)
    (rest : List (List Text)) (hne : ∀ row ∈ rest, row ≠ []) (he : ∀ row ∈ rest, ∀ e ∈ row, RealText e)
    (R : List (List Text)) (row : List Text) {last : Text} (hl : last ≠ []) :
    (rest.flatMap (fun row => sepr ++ sepBy " ".toList row) ++ [']']).foldlM MParse.step
        (.inside ⟨R, row, last⟩) = some (.after (R ++ [row ++ [last]] ++ rest)) := by
  induction rest generalizing R row last with
  | nil =>
    show (some (MParse.after (MState.endRow ⟨R, row, last⟩).rows) : Option MParse) = _
    rw [endRow_atom R row hl]
    simp
  | cons row' rest ih =>
    rw [List.flatMap_cons, List.append_assoc, List.append_assoc, List.foldlM_append]
    have : sepr.foldlM MParse.step (.inside ⟨R, row, last⟩) =
        some (.inside ⟨R ++ [row ++ [last]], [], []⟩) := by
      rcases hsep with rfl | rfl
      · show (some (MParse.inside (MState.endElem (MState.endRow (MState.endRow ⟨R, row, last⟩)))) :
          Option MParse) = _
        rw [endRow_atom R row hl]
        rfl
      · show (some (MParse.inside (MState.endElem (MState.endRow ⟨R, row, last⟩))) :
          Option MParse) = _
        rw [endRow_atom R row hl]
        rfl
    rw [this]
    simp only [Option.bind_eq_bind, Option.bind_some]
    obtain ⟨init, l, h1, h2, h3⟩ := m_row row' (hne row' (by simp)) (he row' (by simp))
      (R ++ [row ++ [last]]) []
    rw [List.foldlM_append, h3]
    simp only [Option.bind_eq_bind, Option.bind_some]
    rw [ih (fun r hr => hne r (by simp [hr])) (fun r hr => he r (by simp [hr])) _ _ h2]
    simp [h1]

theorem m_end (rows : List (List Text)) (fin : Text) (hfin : ∀ c ∈ fin, c = ';' ∨ c = '\n' ∨ c = ' ') :
    fin.foldlM MParse.step (.after rows) = some (.after rows) := by
  induction fin with
  | nil => rfl
  | cons c fin ih =>
    rw [List.foldlM_cons]
    have : MParse.step (.after rows) c = some (.after rows) := by
      simp [MParse.step, hfin c (by simp)]
    rw [this]
    exact ih (fun d hd => hfin d (by simp [hd]))

theorem matlabRead_of {t fin : Text} {rows : List (List Text)}
    (hfin : ∀ c ∈ fin, c = ';' ∨ c = '\n' ∨ c = ' ')
    (h : t.foldlM MParse.step .before = some (.after rows)) : matlabRead (t ++ fin) = some rows := by
  unfold matlabRead
  rw [List.foldlM_append, h]
  simp only [Option.bind_eq_bind, Option.bind_some]
  rw [m_end rows fin hfin]
  rfl

/-- The matrix a MATLAB literal should denote (in MATLAB, a matrix without elements has no rows). -/
def matlabMatrix (rows cols : Nat) (T : Nat → Nat → Text) : List (List Text) :=
  if cols = 0 then [] else rowsOf rows cols T

/-- C46, full statement for MATLAB. -/
def MatlabDenotes : Prop :=
  ∀ (rows cols : Nat) (T : Nat → Nat → Text) (fin : Text),
    (∀ r < rows, ∀ c < cols, RealText (T r c)) → (∀ c ∈ fin, c = ';' ∨ c = '\n' ∨ c = ' ') →
    matlabRead (printMatlabImpl (fun _ t => t) [] rows cols T fin) = some (matlabMatrix rows cols T)

/-- Rows without elements. -/
theorem m_empty_rows (n : Nat) :
    (List.replicate n (";\n ".toList)).flatten.foldlM MParse.step (.inside {}) =
      some (.inside {}) := by
  induction n with
  | zero => rfl
  | succ n ih =>
    rw [List.replicate_succ, List.flatten_cons, List.foldlM_append]
    show (some (MParse.inside {}) : Option MParse) >>= _ = _
    simp only [Option.bind_eq_bind, Option.bind_some]
    exact ih

theorem sepBy_singletons (sep : Text) (row : Text) (rest : List Text) :
    sepBy sep (row :: rest) =
      sepBy " ".toList [row] ++
        (rest.map (fun t => [t])).flatMap (fun row => sep ++ sepBy " ".toList row) := by
  rw [sepBy_cons, List.flatMap_map]
  simp [sepBy]

/-- C46 for MATLAB, for all matrices of real numbers with at least one row (and for empty column
vectors): the printed text is a MATLAB literal that denotes the matrix. -/
theorem matlab_denotes_partial (rows cols : Nat) (T : Nat → Nat → Text) (fin : Text)
    (hT : ∀ r < rows, ∀ c < cols, RealText (T r c))
    (hfin : ∀ c ∈ fin, c = ';' ∨ c = '\n' ∨ c = ' ') (hrows : rows ≠ 0 ∨ cols = 1) :
    matlabRead (printMatlabImpl (fun _ t => t) [] rows cols T fin) =
      some (matlabMatrix rows cols T) := by
  have hE : ∀ row ∈ rowsOf rows cols T, ∀ e ∈ row, RealText e := by
    intro row hrow e he
    obtain ⟨r, hr, rfl⟩ := List.mem_map.1 hrow
    obtain ⟨c, hc, rfl⟩ := List.mem_map.1 he
    exact hT r (List.mem_range.1 hr) c (List.mem_range.1 hc)
  unfold printMatlabImpl matlabMatrix
  apply matlabRead_of hfin
  by_cases h1 : cols = 1
  · subst h1
    have ho : matlabOpts 1 = { delimiter := "; ".toList, start := "[".toList, «end» := "]".toList } :=
      rfl
    have h1d : oneLine rows 1 (matlabOpts 1) := .inl ⟨rfl, rfl⟩
    rw [print_csv_layout_partial _ [] rows 1 T _ (.inr h1d), List.nil_append, if_neg (by decide)]
    have hl : layout (fun _ t => t) rows 1 T (matlabOpts 1) =
        ['['] ++ (sepBy "; ".toList ((List.range rows).map (fun (r : Nat) => T r 0)) ++ [']']) := by
      unfold layout
      simp only
      rw [if_pos (.inl ⟨trivial, by rw [ho]⟩), ho, flatten_rowsOf_col]
      simp
    have hR : rowsOf rows 1 T = ((List.range rows).map (fun (r : Nat) => T r 0)).map (fun t => [t]) := by
      simp [rowsOf]
    rw [hl, List.foldlM_append]
    show (some (MParse.inside {}) : Option MParse) >>= _ = _
    simp only [Option.bind_eq_bind, Option.bind_some]
    rw [hR]
    rw [hR] at hE
    generalize (List.range rows).map (fun (r : Nat) => T r 0) = col at hE ⊢
    cases col with
    | nil => rfl
    | cons e col =>
      obtain ⟨init, last, k1, k2, k3⟩ := m_row [e] (by simp) (hE [e] (by simp)) [] []
      rw [sepBy_singletons, List.append_assoc, List.foldlM_append, k3]
      simp only [Option.bind_eq_bind, Option.bind_some, List.nil_append]
      rw [m_rows _ (.inr rfl) _ (by simp)
        (fun r hr => hE r (by simp only [List.map_cons, List.mem_cons]; exact .inr hr)) [] init k2]
      simp [← k1]
  · have hr : rows ≠ 0 := by
      rcases hrows with h | h
      · exact h
      · exact absurd h h1
    have ho : matlabOpts cols =
        { delimiter := " ".toList, line_start := " ".toList, line_end := ";\n".toList,
          start := "[".toList, «end» := "]".toList } := by
      unfold matlabOpts; rw [if_neg h1]
    rw [print_csv_layout_partial _ [] rows cols T _ (.inl hr), List.nil_append]
    obtain ⟨row, rest, hR⟩ : ∃ row rest, rowsOf rows cols T = row :: rest := by
      cases h : rowsOf rows cols T with
      | nil =>
        have := congrArg List.length h
        simp [rowsOf] at this
        exact absurd this hr
      | cons a l => exact ⟨a, l, rfl⟩
    have hlen : (row :: rest).length = rows := by rw [← hR]; simp [rowsOf]
    have hl : layout (fun _ t => t) rows cols T (matlabOpts cols) =
        "[".toList ++ (sepBy " ".toList row ++
          (rest.flatMap (fun row => ";\n ".toList ++ sepBy " ".toList row) ++ [']'])) := by
      have hlr := layout_rows ";\n".toList "[".toList " ".toList " ".toList row rest
      unfold layout
      simp only
      rw [ho]
      simp only [h1, false_or, and_true, List.replicate_zero]
      by_cases hr1 : rows = 1
      · have : rest = [] := by
          rw [hr1] at hlen
          cases rest with
          | nil => rfl
          | cons a l => simp at hlen
        rw [if_pos hr1, hR, this]
        simp
      · rw [if_neg hr1, if_neg hr, hR, hlr]
        simp
    rw [hl, List.foldlM_append]
    show (some (MParse.inside {}) : Option MParse) >>= _ = _
    simp only [Option.bind_eq_bind, Option.bind_some]
    by_cases h0 : cols = 0
    · rw [if_pos h0]
      have hall : ∀ r ∈ row :: rest, r = [] := by
        intro r hr'
        rw [← hR] at hr'
        obtain ⟨i, _, rfl⟩ := List.mem_map.1 hr'
        simp [h0]
      have hrest : rest.flatMap (fun row => ";\n ".toList ++ sepBy " ".toList row) =
          (List.replicate rest.length (";\n ".toList)).flatten := by
        have hrest' : ∀ r ∈ rest, r = [] := fun r hr' => hall r (by simp [hr'])
        clear hl hlen hR hall
        induction rest with
        | nil => rfl
        | cons a l ih =>
          rw [List.flatMap_cons, hrest' a (by simp), ih (fun r hr' => hrest' r (by simp [hr']))]
          simp [sepBy, List.replicate_succ]
      rw [hall row (by simp), hrest]
      show List.foldlM MParse.step (MParse.inside {}) (_ ++ [']']) = _
      rw [List.foldlM_append, m_empty_rows]
      rfl
    · rw [if_neg h0]
      have hne : ∀ r ∈ row :: rest, r ≠ [] := by
        intro r hr' e
        rw [← hR] at hr'
        obtain ⟨i, _, rfl⟩ := List.mem_map.1 hr'
        have := congrArg List.length e
        simp at this
        exact h0 this
      rw [hR] at hE
      obtain ⟨init, last, k1, k2, k3⟩ := m_row row (hne row (by simp)) (hE row (by simp)) [] []
      rw [List.foldlM_append, k3]
      simp only [Option.bind_eq_bind, Option.bind_some, List.nil_append]
      rw [m_rows _ (.inl rfl) rest (fun r hr' => hne r (by simp [hr']))
        (fun r hr' => hE r (by simp [hr'])) [] init k2, hR]
      simp [← k1]

/-- C46 is false as stated: a matrix without rows is printed as `]`, which is no literal. -/
theorem not_matlabDenotes : ¬ MatlabDenotes := by
  intro h
  have := h 0 2 (fun _ _ => []) [';', '\n'] (by intro r hr; omega) (by decide)
  have h2 : matlabRead (printMatlabImpl (fun _ t => t) [] 0 2 (fun _ _ => []) [';', '\n']) = none :=
    rfl
  rw [h2] at this
  cases this

/-- A 2 × 2 matrix and a column vector; the hypotheses hold for digits with a sign. -/
example : printMatlabImpl printElemInt [] 2 2 (fun r c => (r : Int) - c) =
      "[0 -1;\n 1 0];\n".toList ∧
    printMatlabImpl printElemInt [] 3 1 (fun r _ => (r : Int)) = "[0; 1; 2];\n".toList ∧
    RealText "-12".toList := by
  refine ⟨?_, ?_, ?_, ?_⟩ <;> decide +kernel

end Guanaqo.Print
