import Verif.Print.Layout

/-!
# C46: `print_python` prints a literal that denotes the matrix
-/

namespace Guanaqo.Print

theorem structural_false {c : Char} (h : structural c = false) :
    c ≠ '[' ∧ c ≠ ']' ∧ c ≠ ',' ∧ c ≠ ';' ∧ c ≠ '\n' := by
  simp only [structural, Bool.or_eq_false_iff, beq_eq_false_iff_ne] at h
  exact ⟨h.1.1.1.1.1, h.1.1.1.1.2, h.1.1.1.2, h.1.1.2, h.1.2⟩

/-- Reading the characters of an element. -/
theorem py_elem_chars (e : Text) (he : ∀ c ∈ e, structural c = false) (s : PyState) :
    e.foldlM PyState.step s = some { s with atom := s.atom ++ noBlanks e } := by
  induction e generalizing s with
  | nil => simp [noBlanks]
  | cons c e ih =>
    obtain ⟨h1, h2, h3, h4, h5⟩ := structural_false (he c (by simp))
    have ih' := ih (fun d hd => he d (by simp [hd]))
    rw [List.foldlM_cons]
    by_cases hb : c = ' '
    · have : PyState.step s c = some s := by simp [PyState.step, hb]
      rw [this]
      simp only [Option.bind_eq_bind, Option.bind_some]
      rw [ih']
      simp [noBlanks, hb]
    · have : PyState.step s c = some { s with atom := s.atom ++ [c] } := by
        simp [PyState.step, h1, h2, h3, h5, hb]
      rw [this]
      simp only [Option.bind_eq_bind, Option.bind_some]
      rw [ih']
      simp [noBlanks, hb]

theorem noBlanks_ne_nil {e : Text} (he : ElemText e) : noBlanks e ≠ [] := by
  obtain ⟨⟨c, hc, hb⟩, _⟩ := he
  exact List.ne_nil_of_mem (List.mem_filter.2 ⟨hc, by simpa using hb⟩)

theorem py_flush_num {stack : List (List Py)} {top : List Py} {a : Text} (ha : a ≠ []) :
    PyState.flush ⟨top :: stack, a, false⟩ = some ⟨(top ++ [.num a]) :: stack, [], true⟩ := by
  cases a with
  | nil => exact absurd rfl ha
  | cons c a => rfl

/-- The number an element denotes for Python. -/
def pyNum (e : Text) : Py := .num (noBlanks e)

/-- Reading the elements of a list up to the closing bracket. -/
theorem py_list (elems : List Text) (he : ∀ e ∈ elems, ElemText e) (top next : List Py)
    (below : List (List Py)) (htop : elems = [] → top = []) :
    (sepBy ", ".toList elems ++ [']']).foldlM PyState.step ⟨top :: next :: below, [], false⟩ =
      some ⟨(next ++ [.list (top ++ elems.map pyNum)]) :: below, [], true⟩ := by
  induction elems generalizing top with
  | nil => rw [htop rfl]; rfl
  | cons e elems ih =>
    cases elems with
    | nil =>
      rw [sepBy, List.intercalate_singleton, List.foldlM_append, py_elem_chars e (he e (by simp)).2]
      simp only [Option.bind_eq_bind, Option.bind_some, List.nil_append, List.foldlM_cons,
        List.foldlM_nil]
      have : PyState.step ⟨top :: next :: below, noBlanks e, false⟩ ']' =
          some ⟨(next ++ [.list (top ++ [pyNum e])]) :: below, [], true⟩ := by
        simp only [PyState.step]
        rw [py_flush_num (noBlanks_ne_nil (he e (by simp)))]
        rfl
      rw [this]
      rfl
    | cons e' elems =>
      rw [sepBy, List.intercalate_cons_cons, ← sepBy, List.append_assoc, List.append_assoc,
        List.foldlM_append, py_elem_chars e (he e (by simp)).2]
      simp only [Option.bind_eq_bind, Option.bind_some, List.nil_append]
      rw [List.foldlM_append]
      have : ", ".toList.foldlM PyState.step ⟨top :: next :: below, noBlanks e, false⟩ =
          some ⟨(top ++ [pyNum e]) :: next :: below, [], false⟩ := by
        have h1 : PyState.step ⟨top :: next :: below, noBlanks e, false⟩ ',' =
            some ⟨(top ++ [pyNum e]) :: next :: below, [], false⟩ := by
          simp only [PyState.step]
          rw [py_flush_num (noBlanks_ne_nil (he e (by simp)))]
          rfl
        show List.foldlM PyState.step _ [',', ' '] = _
        rw [List.foldlM_cons, h1]
        rfl
      rw [this]
      simp only [Option.bind_eq_bind, Option.bind_some]
      rw [ih (fun d hd => he d (by simp [hd])) (top ++ [pyNum e]) (by simp)]
      simp

/-- Reading the rows after the first. -/
theorem py_rows (rest : List (List Text)) (he : ∀ row ∈ rest, ∀ e ∈ row, ElemText e)
    (top next : List Py) (below : List (List Py)) :
    (rest.flatMap (fun row => ",\n [".toList ++ sepBy ", ".toList row ++ [']']) ++ [']']).foldlM
        PyState.step ⟨top :: next :: below, [], true⟩ =
      some ⟨(next ++ [.list (top ++ rest.map (fun row => .list (row.map pyNum)))]) :: below, [],
        true⟩ := by
  induction rest generalizing top with
  | nil => simp; rfl
  | cons row rest ih =>
    rw [List.flatMap_cons, List.append_assoc, List.append_assoc, List.append_assoc, List.foldlM_append]
    have : ",\n [".toList.foldlM PyState.step ⟨top :: next :: below, [], true⟩ =
        some ⟨[] :: top :: next :: below, [], false⟩ := rfl
    rw [this]
    simp only [Option.bind_eq_bind, Option.bind_some]
    rw [← List.append_assoc, List.foldlM_append, py_list row (he row (by simp)) [] top (next :: below)
      (fun _ => rfl)]
    simp only [Option.bind_eq_bind, Option.bind_some, List.nil_append]
    rw [ih (fun r hr => he r (by simp [hr]))]
    simp

theorem sepBy_cons (sep x : Text) (xs : List Text) :
    sepBy sep (x :: xs) = x ++ xs.flatMap (fun y => sep ++ y) := by
  induction xs generalizing x with
  | nil => simp [sepBy]
  | cons y xs ih =>
    rw [sepBy, List.intercalate_cons_cons, ← sepBy, ih]
    simp

/-- The layout of a matrix in several lines, first row apart. -/
theorem layout_rows (line_end first cont delim : Text) (row : List Text) (rest : List (List Text)) :
    sepBy line_end ((row :: rest).mapIdx fun r row =>
        ([] : Text) ++ (if r = 0 then first else cont) ++ sepBy delim row) =
      first ++ sepBy delim row ++
        rest.flatMap (fun row => line_end ++ cont ++ sepBy delim row) := by
  rw [List.mapIdx_cons, sepBy_cons]
  have : rest.mapIdx (fun r row => ([] : Text) ++ (if r + 1 = 0 then first else cont) ++
      sepBy delim row) = rest.map (fun row => cont ++ sepBy delim row) := by
    apply List.ext_getElem
    · simp
    · intro i h1 h2
      simp
  rw [this, List.flatMap_map]
  simp

theorem py_end {v : Py} (fin : Text) (hfin : ∀ c ∈ fin, c = ' ' ∨ c = '\n') :
    fin.foldlM PyState.step ⟨[[v]], [], true⟩ = some ⟨[[v]], [], true⟩ := by
  induction fin with
  | nil => rfl
  | cons c fin ih =>
    rw [List.foldlM_cons]
    have : PyState.step ⟨[[v]], [], true⟩ c = some ⟨[[v]], [], true⟩ := by
      simp [PyState.step, hfin c (by simp)]
    rw [this]
    exact ih (fun d hd => hfin d (by simp [hd]))

theorem pyRead_of {t fin : Text} {v : Py} (hfin : ∀ c ∈ fin, c = ' ' ∨ c = '\n')
    (h : t.foldlM PyState.step {} = some ⟨[[v]], [], true⟩) : pyRead (t ++ fin) = some v := by
  unfold pyRead
  rw [List.foldlM_append, h]
  simp only [Option.bind_eq_bind, Option.bind_some]
  rw [py_end fin hfin]
  rfl

/-- The Python value a matrix (given by the texts of its elements) should print as: a list of rows,
or a flat list for row and column vectors if `squeeze` is set. -/
def pyMatrix (squeeze : Bool) (rows cols : Nat) (T : Nat → Nat → Text) : Py :=
  if squeeze = true ∧ (rows = 1 ∨ cols = 1) then .list ((rowsOf rows cols T).flatten.map pyNum)
  else .list ((rowsOf rows cols T).map fun row => .list (row.map pyNum))

/-- C46, full statement for Python. -/
def PythonDenotes : Prop :=
  ∀ (rows cols : Nat) (T : Nat → Nat → Text) (squeeze : Bool) (fin : Text),
    (∀ r < rows, ∀ c < cols, ElemText (T r c)) → (∀ c ∈ fin, c = ' ' ∨ c = '\n') →
    pyRead (printPythonImpl (fun _ t => t) [] rows cols T fin squeeze) =
      some (pyMatrix squeeze rows cols T)

theorem rowsOf_elems {T : Nat → Nat → Text} {rows cols : Nat}
    (h : ∀ r < rows, ∀ c < cols, ElemText (T r c)) :
    ∀ row ∈ rowsOf rows cols T, ∀ e ∈ row, ElemText e := by
  intro row hrow e he
  obtain ⟨r, hr, rfl⟩ := List.mem_map.1 hrow
  obtain ⟨c, hc, rfl⟩ := List.mem_map.1 he
  exact h r (List.mem_range.1 hr) c (List.mem_range.1 hc)

/-- C46 for Python, for all matrices with at least one row (and for empty vectors): the printed text
is a Python literal, and its value is the matrix. -/
theorem python_denotes_partial (rows cols : Nat) (T : Nat → Nat → Text) (squeeze : Bool) (fin : Text)
    (hT : ∀ r < rows, ∀ c < cols, ElemText (T r c)) (hfin : ∀ c ∈ fin, c = ' ' ∨ c = '\n')
    (hrows : rows ≠ 0 ∨ (cols = 1 ∧ squeeze = true)) :
    pyRead (printPythonImpl (fun _ t => t) [] rows cols T fin squeeze) =
      some (pyMatrix squeeze rows cols T) := by
  have hE := rowsOf_elems hT
  unfold printPythonImpl pyMatrix
  apply pyRead_of hfin
  by_cases hv : (cols = 1 ∧ squeeze = true) ∨ (rows = 1 ∧ squeeze = true)
  · have ho : pythonOpts rows cols squeeze =
        { delimiter := ", ".toList, start := "[".toList, «end» := "]".toList } := by
      unfold pythonOpts; rw [if_pos hv]
    have hs : squeeze = true ∧ (rows = 1 ∨ cols = 1) := by
      rcases hv with ⟨h1, h2⟩ | ⟨h1, h2⟩
      · exact ⟨h2, .inr h1⟩
      · exact ⟨h2, .inl h1⟩
    have h1d : oneLine rows cols (pythonOpts rows cols squeeze) := by
      rw [ho]
      rcases hs.2 with h | h
      · exact .inr ⟨h, rfl⟩
      · exact .inl ⟨h, rfl⟩
    rw [print_csv_layout_partial _ [] rows cols T _ (.inr h1d), List.nil_append, if_pos hs]
    have hl : layout (fun _ t => t) rows cols T (pythonOpts rows cols squeeze) =
        ['['] ++ (sepBy ", ".toList (rowsOf rows cols T).flatten ++ [']']) := by
      unfold layout
      simp only
      have h1d' : (cols = 1 ∧ (pythonOpts rows cols squeeze).column_vector_as_1d = true) ∨
          (rows = 1 ∧ (pythonOpts rows cols squeeze).row_vector_as_1d = true) := h1d
      rw [if_pos h1d', ho]
      simp
    rw [hl, List.foldlM_append]
    show (some ⟨[[], []], [], false⟩ : Option PyState) >>= _ = _
    simp only [Option.bind_eq_bind, Option.bind_some]
    rw [py_list _ _ [] [] [] (fun _ => rfl)]
    · rfl
    · intro e he
      obtain ⟨row, hr, he⟩ := List.mem_flatten.1 he
      exact hE row hr e he
  · have ho : pythonOpts rows cols squeeze =
        { delimiter := ", ".toList, line_start := " [".toList, line_end := "],\n".toList,
          start := "[[".toList, «end» := "]]".toList, column_vector_as_1d := false,
          row_vector_as_1d := false } := by
      unfold pythonOpts; rw [if_neg hv]
    have hr : rows ≠ 0 := by
      rcases hrows with h | h
      · exact h
      · exact absurd (.inl h) hv
    have hs : ¬ (squeeze = true ∧ (rows = 1 ∨ cols = 1)) := by
      rintro ⟨h1, h2 | h2⟩
      · exact hv (.inr ⟨h2, h1⟩)
      · exact hv (.inl ⟨h2, h1⟩)
    rw [print_csv_layout_partial _ [] rows cols T _ (.inl hr), List.nil_append, if_neg hs]
    obtain ⟨row, rest, hR⟩ : ∃ row rest, rowsOf rows cols T = row :: rest := by
      cases h : rowsOf rows cols T with
      | nil =>
        have := congrArg List.length h
        simp [rowsOf] at this
        exact absurd this hr
      | cons a l => exact ⟨a, l, rfl⟩
    have hl : layout (fun _ t => t) rows cols T (pythonOpts rows cols squeeze) =
        "[[".toList ++ ((sepBy ", ".toList row ++ [']']) ++
          (rest.flatMap (fun row => ",\n [".toList ++ sepBy ", ".toList row ++ [']']) ++ [']'])) := by
      have hlr := layout_rows "],\n".toList "[[".toList " [".toList ", ".toList row rest
      have hshift : ∀ (l : List (List Text)),
          l.flatMap (fun row => "],\n".toList ++ " [".toList ++ sepBy ", ".toList row) ++ [']'] =
          [']'] ++ l.flatMap (fun row => ",\n [".toList ++ sepBy ", ".toList row ++ [']']) := by
        intro l
        induction l with
        | nil => rfl
        | cons a l ih =>
          rw [List.flatMap_cons, List.flatMap_cons, List.append_assoc, ih]
          simp
      unfold layout
      simp only
      rw [ho]
      simp only [Bool.false_eq_true, and_false, or_self, if_false, if_neg hr, List.replicate_zero]
      rw [hR, hlr]
      have : "]]".toList = [']'] ++ [']'] := rfl
      rw [this, List.append_assoc, ← List.append_assoc _ [']'] [']'], hshift]
      simp
    rw [hl, List.foldlM_append]
    show (some ⟨[[], [], []], [], false⟩ : Option PyState) >>= _ = _
    simp only [Option.bind_eq_bind, Option.bind_some]
    rw [List.foldlM_append, py_list row (hE row (by simp [hR])) [] [] [[]] (fun _ => rfl)]
    simp only [Option.bind_eq_bind, Option.bind_some, List.nil_append]
    rw [py_rows rest (fun r hr' => hE r (by simp [hR, hr'])), hR]
    simp

/-- C46 for Python with the default arguments of `print_python`: row and column vectors are flat lists, and the text ends with a line feed. -/
theorem python_default_denotes_partial (rows cols : Nat) (T : Nat → Nat → Text) (hT : ∀ r < rows, ∀ c < cols, ElemText (T r c)) (hrows : rows ≠ 0 ∨ cols = 1) :
    pyRead (printPythonImpl (fun _ t => t) [] rows cols T) =
      some (if rows = 1 ∨ cols = 1 then .list ((rowsOf rows cols T).flatten.map pyNum) else pyMatrix false rows cols T) ∧
    (printPythonImpl (fun _ t => t) [] rows cols T).getLast? = some '\n' := by
  constructor
  · rw [python_denotes_partial rows cols T _ _ hT (by decide) (hrows.imp_right fun h => ⟨h, rfl⟩)]
    by_cases h : rows = 1 ∨ cols = 1
    · rw [if_pos h]; unfold pyMatrix; rw [if_pos ⟨rfl, h⟩]
    · rw [if_neg h]; unfold pyMatrix; rw [if_neg (by simp [h]), if_neg (by simp)]
  · unfold printPythonImpl
    simp

/-- C46 is false as stated: a matrix without rows is printed as `]]`, which is no literal. -/
theorem not_pythonDenotes : ¬ PythonDenotes := by
  intro h
  have := h 0 2 (fun _ _ => []) true ['\n'] (by intro r hr; omega) (by simp)
  have h2 : pyRead (printPythonImpl (fun _ t => t) [] 0 2 (fun _ _ => []) ['\n'] true) = none := rfl
  rw [h2] at this
  cases this

/-- A 2 × 2 matrix; the hypotheses hold for the digits. -/
example : printPythonImpl printElemInt [] 2 2 (fun r c => (r : Int) - c) =
    "[[0, -1],\n [1, 0]]\n".toList := by decide +kernel

example : ElemText "-1.5 + 2j".toList := ⟨⟨'-', by decide, by decide⟩, by decide⟩

end Guanaqo.Print
