/-! # `enumerate`, `iter_range_adapter`, lookup tables, dynamic-loading flags -/

namespace Guanaqo.Ranges

/-! ## Specification: what an iterator yields -/

/-- The operations that a range-based `for` loop uses: is the iterator at the end, `*it`, `++it`. `none` is undefined
behaviour. -/
structure Iter (It α : Type) where
  atEnd : It → Bool
  deref : It → Option α
  next : It → Option It

/-- The loop started at `it` visits exactly the elements `xs`, and ends. -/
inductive Yields {It α : Type} (I : Iter It α) : It → List α → Prop
  | nil {it : It} (h : I.atEnd it = true) : Yields I it []
  | cons {it it' : It} {x : α} {xs : List α} (h : I.atEnd it = false) (hx : I.deref it = some x) (hn : I.next it = some it')
      (ht : Yields I it' xs) : Yields I it (x :: xs)

/-- The loop started at `it` visits `xs` first (and may go on, possibly forever), and is then at `it'`. -/
inductive Visits {It α : Type} (I : Iter It α) : It → List α → It → Prop
  | nil {it : It} : Visits I it [] it
  | cons {it it' it'' : It} {x : α} {xs : List α} (h : I.atEnd it = false) (hx : I.deref it = some x) (hn : I.next it = some it')
      (ht : Visits I it' xs it'') : Visits I it (x :: xs) it''

/-- What a loop visits is unique. -/
theorem Yields.unique {It α : Type} {I : Iter It α} {it : It} {xs : List α} (h : Yields I it xs) :
    ∀ {ys : List α}, Yields I it ys → ys = xs := by
  induction h with
  | nil h => intro ys h'; cases h' with
    | nil => rfl
    | cons h'' => rw [h] at h''; cases h''
  | cons h hx hn _ ih => intro ys h'; cases h' with
    | nil h'' => rw [h] at h''; cases h''
    | cons _ hx' hn' ht' =>
      rw [hx] at hx'; rw [hn] at hn'; cases hx'; cases hn'
      rw [ih ht']

/-! ## `enumerate` (enumerate.hpp) -/

/-- enumerate.hpp:24-31: `iter_t`, with its two members. -/
structure EnumIt (It : Type) where
  index : Int := 0
  it : It

/-- enumerate.hpp:36-54: comparison with the sentinel (lines 36-37, 39-40), pre-increment (lines 42-46) and dereference
(line 53). The index has the difference type of the range, of `w` bits: incrementing the largest value is undefined.
Not modelled: post-increment (lines 47-51), which is declared const although it increments `*this`; using it does not
compile. -/
def enumIter {It α : Type} (w : Nat) (I : Iter It α) : Iter (EnumIt It) (Int × α) where
  atEnd e := I.atEnd e.it
  deref e := (I.deref e.it).map fun x => (e.index, x)
  next e := (I.next e.it).bind fun it' => if e.index + 1 < 2 ^ (w - 1) then some ⟨e.index + 1, it'⟩ else none

/-- enumerate.hpp:56-58: `begin()`. -/
def enumBegin {It : Type} (begin : It) : EnumIt It := { it := begin }

/-- The elements with their positions. -/
def positions {α : Type} (k : Int) : List α → List (Int × α)
  | [] => []
  | x :: xs => (k, x) :: positions (k + 1) xs

theorem positions_get {α : Type} : ∀ (xs : List α) (k : Int) (i : Nat),
    (positions k xs)[i]? = xs[i]?.map fun x => (k + i, x) := by
  intro xs
  induction xs with
  | nil => intro k i; simp [positions]
  | cons x xs ih =>
    intro k i
    cases i with
    | zero => simp [positions]
    | succ i =>
      simp only [positions, List.getElem?_cons_succ, ih]
      congr 1; funext y; congr 1; simp; omega

theorem enum_from {It α : Type} {w : Nat} {I : Iter It α} {it : It} {xs : List α} (h : Yields I it xs) :
    ∀ (k : Int), k + xs.length < 2 ^ (w - 1) → Yields (enumIter w I) ⟨k, it⟩ (positions k xs) := by
  induction h with
  | nil h => intro k _; exact .nil h
  | cons h hx hn ht ih =>
    intro k hk
    simp only [List.length_cons, Int.natCast_add, Int.natCast_one] at hk
    refine .cons h ?_ ?_ (ih (k + 1) (by omega))
    · simp only [enumIter, hx, Option.map]
    · simp only [enumIter, hn, Option.bind]
      rw [if_pos (by omega)]

/-- C71. If the loop over the range visits `xs`, the loop over `enumerate(range)` visits the elements of `xs` in the same
order, element `i` with the index `i`, and ends (if the length fits the difference type of the range). -/
theorem enumerate_exact {It α : Type} (w : Nat) (I : Iter It α) (begin : It) (xs : List α) (h : Yields I begin xs)
    (hw : (xs.length : Int) < 2 ^ (w - 1)) :
    ∃ ys, Yields (enumIter w I) (enumBegin begin) ys ∧ ys.length = xs.length ∧
      ∀ i : Nat, ys[i]? = xs[i]?.map fun x => ((i : Int), x) := by
  refine ⟨positions 0 xs, enum_from h 0 (by omega), ?_, ?_⟩
  · have : ∀ k, (positions k xs).length = xs.length := by
      clear h hw
      induction xs with
      | nil => intro k; rfl
      | cons x xs ih => intro k; simp [positions, ih]
    exact this 0
  · intro i; rw [positions_get]; simp

theorem enum_too_long {It α : Type} {w : Nat} {I : Iter It α} {it : It} {xs : List α} (h : Yields I it xs) :
    ∀ (k : Int), k < 2 ^ (w - 1) → 2 ^ (w - 1) ≤ k + xs.length → ∀ ys, ¬ Yields (enumIter w I) ⟨k, it⟩ ys := by
  induction h with
  | nil h => intro k h1 h2; simp only [List.length_nil] at h2; exfalso; omega
  | @cons it it1 x xs h hx hn ht ih =>
    intro k h1 h2 ys hy
    simp only [List.length_cons, Int.natCast_add, Int.natCast_one] at h2
    cases hy with
    | nil h' => simp only [enumIter] at h'; rw [h] at h'; cases h'
    | cons _ _ hn' ht' =>
      simp only [enumIter, hn, Option.bind] at hn'
      split at hn'
      · cases hn'
        exact ih (k + 1) (by omega) (by omega) _ ht'
      · cases hn'

/-- C71: the bound of `enumerate_exact` is sharp. Over a longer range the loop over `enumerate(range)` is undefined: it increments an index
that is the largest value of its type. -/
theorem enumerate_iff {It α : Type} (w : Nat) (I : Iter It α) (begin : It) (xs : List α) (h : Yields I begin xs) :
    (∃ ys, Yields (enumIter w I) (enumBegin begin) ys) ↔ (xs.length : Int) < 2 ^ (w - 1) := by
  constructor
  · rintro ⟨ys, hy⟩
    refine Classical.byContradiction fun hc => ?_
    have : (0 : Int) < 2 ^ (w - 1) := Int.pow_pos (by omega)
    exact enum_too_long h 0 this (by omega) ys hy
  · intro hw
    obtain ⟨ys, hy, _⟩ := enumerate_exact w I begin xs h hw
    exact ⟨ys, hy⟩

/-- C71 for a loop that does not reach the end (an infinite range, or a `break`). -/
theorem enumerate_prefix {It α : Type} (w : Nat) (I : Iter It α) {it it' : It} {xs : List α} (h : Visits I it xs it') :
    ∀ (k : Int), k + xs.length < 2 ^ (w - 1) →
    Visits (enumIter w I) ⟨k, it⟩ (positions k xs) ⟨k + xs.length, it'⟩ := by
  induction h with
  | nil => intro k _; simpa [positions] using Visits.nil
  | @cons it it1 it2 x xs h hx hn ht ih =>
    intro k hk
    simp only [List.length_cons, Int.natCast_add, Int.natCast_one] at hk
    have := ih (k + 1) (by omega)
    rw [show k + ((x :: xs).length : Nat) = k + 1 + (xs.length : Nat) by simp; omega]
    refine .cons h ?_ ?_ this
    · simp only [enumIter, hx, Option.map]
    · simp only [enumIter, hn, Option.bind]
      rw [if_pos (by omega)]

/-- The iterators of a vector: positions. -/
def vecIter {α : Type} (xs : List α) : Iter Nat α where
  atEnd i := i == xs.length
  deref i := xs[i]?
  next i := if i < xs.length then some (i + 1) else none

theorem vec_yields {α : Type} (xs : List α) : ∀ (n i : Nat), i + n = xs.length → Yields (vecIter xs) i (xs.drop i) := by
  intro n
  induction n with
  | zero => intro i hi; rw [show xs.drop i = [] by simp; omega]; exact .nil (by simp [vecIter]; omega)
  | succ n ih =>
    intro i hi
    rw [List.drop_eq_getElem_cons (by omega)]
    exact .cons (by simp [vecIter]; omega) (by simp [vecIter]) (by simp [vecIter]; omega) (ih (i + 1) (by omega))

example : ∃ ys, Yields (enumIter 64 (vecIter ["a", "b", "c"])) (enumBegin 0) ys ∧ ys.length = 3 ∧
    ∀ i : Nat, ys[i]? = (["a", "b", "c"] : List String)[i]?.map fun x => ((i : Int), x) :=
  enumerate_exact 64 _ 0 _ (vec_yields ["a", "b", "c"] 3 0 rfl) (by decide)

/-! ## `iter_range_adapter` (iter-adapter.hpp) -/

/-- A cursor: `explicit operator bool`, `operator++`. -/
structure Cursor (C : Type) where
  valid : C → Bool
  advance : C → Option C

/-- iter-adapter.hpp:23-33 and 39: the iterator is (derives from) the cursor, its comparison with the sentinel is the
negation of the conversion to `bool`, and it dereferences to itself. -/
def adapterIter {C : Type} (I : Cursor C) : Iter C C where
  atEnd c := !I.valid c
  deref c := some c
  next c := I.advance c

/-- The states a cursor goes through while it is valid, as in `for (; c; ++c)`. -/
inductive States {C : Type} (I : Cursor C) : C → List C → Prop
  | nil {c : C} (h : I.valid c = false) : States I c []
  | cons {c c' : C} {cs : List C} (h : I.valid c = true) (hn : I.advance c = some c') (ht : States I c' cs) : States I c (c :: cs)

/-- C84. A loop over the adapter visits exactly the states that `for (; it; ++it)` goes through. -/
theorem adapter_exact {C : Type} (I : Cursor C) (c : C) (cs : List C) : Yields (adapterIter I) c cs ↔ States I c cs := by
  constructor
  · intro h
    induction h with
    | nil h => exact .nil (by simpa [adapterIter] using h)
    | @cons it it' x xs h hx hn ht ih =>
      have : x = it := by simpa [adapterIter] using hx.symm
      subst this
      exact .cons (by simpa [adapterIter] using h) hn ih
  · intro h
    induction h with
    | nil h => exact .nil (by simp [adapterIter, h])
    | cons h hn ht ih => exact .cons (by simp [adapterIter, h]) rfl hn ih

/-- A cursor over the entries of one column of a sparse matrix: `(position, end)`. -/
def spanCursor : Cursor (Nat × Nat) where
  valid c := c.1 < c.2
  advance c := if c.1 < c.2 then some (c.1 + 1, c.2) else none

example : Yields (adapterIter spanCursor) (3, 5) [(3, 5), (4, 5)] :=
  (adapter_exact _ _ _).2 (.cons rfl rfl (.cons rfl rfl (.nil rfl)))

/-! ## Lookup tables (lut.hpp) -/

/-- A pack expansion `f(integral_constant<I, Is>())...` in the braces of an array: the calls are made from left to right.
The state `σ` stands for whatever `f` refers to. -/
def expand {σ β : Type} (f : Nat → σ → β × σ) : List Nat → σ → List β × σ
  | [], s => ([], s)
  | i :: is, s =>
    let r := f i s
    let rs := expand f is r.2
    (r.1 :: rs.1, rs.2)

/-- `std::make_integer_sequence<I, n>`. -/
def indexSequence (n : Nat) : List Nat := List.range n

/-- lut.hpp:79-86: `make_1d_lut`. -/
def make1dLut {σ β : Type} (n : Nat) (f : Nat → σ → β × σ) (s : σ) : List β × σ := expand f (indexSequence n) s

/-- lut.hpp:51-70: `make_2d_lut`; `make_row` (lines 55-63) is called for each row (lines 66-68). -/
def make2dLut {σ β : Type} (rows cols : Nat) (f : Nat → Nat → σ → β × σ) (s : σ) : List (List β) × σ :=
  let makeRow (r : Nat) : σ → List β × σ := expand (f r) (indexSequence cols)
  expand makeRow (indexSequence rows) s

theorem expand_pure {σ β : Type} (g : Nat → β) (h : Nat → σ → σ) : ∀ (is : List Nat) (s : σ),
    expand (fun i s => (g i, h i s)) is s = (is.map g, is.foldl (fun s i => h i s) s) := by
  intro is
  induction is with
  | nil => intro s; rfl
  | cons i is ih => intro s; simp [expand, ih]

/-- C73, one dimension: the table has `n` entries, entry `i` is `f(i)`, and `f` is called exactly once for each index, in
increasing order (the state here is the list of calls). -/
theorem lut_1d {β : Type} (n : Nat) (f : Nat → β) :
    let r := make1dLut n (fun i calls => (f i, calls ++ [i])) []
    r.1.length = n ∧ (∀ i, i < n → r.1[i]? = some (f i)) ∧ r.2 = List.range n := by
  have h : make1dLut n (fun i (calls : List Nat) => (f i, calls ++ [i])) [] = ((List.range n).map f, List.range n) := by
    unfold make1dLut indexSequence
    rw [expand_pure f (fun i calls => calls ++ [i])]
    have : ∀ (is : List Nat) (s : List Nat), is.foldl (fun s i => s ++ [i]) s = s ++ is := by
      intro is
      induction is with
      | nil => simp
      | cons i is ih => intro s; simp [ih]
    rw [this]; simp
  simp only [h]
  refine ⟨by simp, fun i hi => by simp [hi], trivial⟩

/-- C73, two dimensions: the table has `rows` rows of `cols` entries, entry `(i, j)` is `f(i, j)`, and `f` is called exactly
once for each pair, row by row. -/
theorem lut_2d {β : Type} (rows cols : Nat) (f : Nat → Nat → β) :
    let r := make2dLut rows cols (fun i j calls => (f i j, calls ++ [(i, j)])) []
    r.1.length = rows ∧
    (∀ i, i < rows → ∃ row, r.1[i]? = some row ∧ row.length = cols ∧ ∀ j, j < cols → row[j]? = some (f i j)) ∧
    r.2 = (List.range rows).flatMap fun i => (List.range cols).map fun j => (i, j) := by
  have h : make2dLut rows cols (fun i j (calls : List (Nat × Nat)) => (f i j, calls ++ [(i, j)])) [] =
      ((List.range rows).map fun i => (List.range cols).map (f i),
        (List.range rows).flatMap fun i => (List.range cols).map fun j => (i, j)) := by
    unfold make2dLut indexSequence
    have h1 : ∀ (i : Nat) (is : List Nat) (s : List (Nat × Nat)),
        is.foldl (fun s j => s ++ [(i, j)]) s = s ++ is.map fun j => (i, j) := by
      intro i is
      induction is with
      | nil => simp
      | cons j is ih => intro s; simp [ih]
    have h2 : (fun r => expand (fun j (calls : List (Nat × Nat)) => (f r j, calls ++ [(r, j)])) (List.range cols)) =
        fun r s => ((List.range cols).map (f r), s ++ (List.range cols).map fun j => (r, j)) := by
      funext r s
      rw [expand_pure (f r) (fun j calls => calls ++ [(r, j)]), h1]
    dsimp only
    rw [h2, expand_pure (fun i => (List.range cols).map (f i)) (fun r s => s ++ (List.range cols).map fun j => (r, j))]
    have h3 : ∀ (is : List Nat) (s : List (Nat × Nat)),
        is.foldl (fun s i => s ++ (List.range cols).map fun j => (i, j)) s =
          s ++ is.flatMap fun i => (List.range cols).map fun j => (i, j) := by
      intro is
      induction is with
      | nil => simp
      | cons i is ih => intro s; simp [ih]
    rw [h3]; simp
  simp only [h]
  refine ⟨by simp, fun i hi => ⟨_, by simp [hi]; rfl, by simp, fun j hj => by simp [hj]⟩, trivial⟩

example : (make2dLut 2 3 (fun i j s => (10 * i + j, s)) ()).1 = [[0, 1, 2], [10, 11, 12]] := rfl

/-! ## Dynamic-loading flags (dl-flags.hpp, src/dl-flags.cpp) -/

/-- dl-flags.hpp:8-16, with the default values. -/
structure Flags where
  global : Bool := false
  lazy : Bool := false
  nodelete : Bool := true
  deepbind : Bool := true
deriving DecidableEq

/-- The constants of a platform with `dlopen`; `deepbind = none` if `RTLD_DEEPBIND` is not defined. -/
structure Platform where
  global : Nat
  scopeLocal : Nat
  lazy : Nat
  now : Nat
  nodelete : Nat
  deepbind : Option Nat

/-- src/dl-flags.cpp:9-21: the conversion to `int` (not on Windows, where it is 0). -/
def Flags.toInt (P : Platform) (f : Flags) : Nat :=
  (if f.global then P.global else P.scopeLocal) |||
  (if f.lazy then P.lazy else P.now) |||
  (if f.nodelete then P.nodelete else 0) |||
  (match P.deepbind with
    | some d => if f.deepbind then d else 0
    | none => 0) |||
  0

/-- The bits of different options do not overlap, and the alternatives of each option are different. -/
structure Platform.Separate (P : Platform) (d : Nat) : Prop where
  scope : P.global ≠ P.scopeLocal
  binding : P.lazy ≠ P.now
  nodelete : P.nodelete ≠ 0
  deepbind : d ≠ 0
  h1 : (P.global ||| P.scopeLocal) &&& (P.lazy ||| P.now) = 0
  h2 : (P.global ||| P.scopeLocal) &&& P.nodelete = 0
  h3 : (P.global ||| P.scopeLocal) &&& d = 0
  h4 : (P.lazy ||| P.now) &&& P.nodelete = 0
  h5 : (P.lazy ||| P.now) &&& d = 0
  h6 : P.nodelete &&& d = 0

/-- One bit of the result. -/
theorem flag_bits (fg fl fn fd g l z n d e : Bool) (h1 : ((g || l) && (z || n)) = false) (h2 : ((g || l) && d) = false)
    (h3 : ((g || l) && e) = false) (h4 : ((z || n) && d) = false) (h5 : ((z || n) && e) = false) (h6 : (d && e) = false) :
    let r := (((if fg then g else l) || if fl then z else n) || if fn then d else false) || if fd then e else false
    ((g || l) && r) = (if fg then g else l) ∧ ((z || n) && r) = (if fl then z else n) ∧
    (d && r) = (if fn then d else false) ∧ (e && r) = (if fd then e else false) ∧
    (r && (((((g || l) || z) || n) || d) || e)) = r := by
  cases g <;> cases l <;> cases z <;> cases n <;> cases d <;> cases e <;> first
    | (exfalso; first | exact absurd h1 (by decide) | exact absurd h2 (by decide) | exact absurd h3 (by decide) |
        exact absurd h4 (by decide) | exact absurd h5 (by decide) | exact absurd h6 (by decide))
    | (clear h1 h2 h3 h4 h5 h6; revert fg fl fn fd; decide)

/-- C72. On platforms with all flags: each member can be read off the result, in the bits of its own constants: the bits of
the scope constants are `RTLD_GLOBAL` or `RTLD_LOCAL`, those of the binding constants `RTLD_LAZY` or `RTLD_NOW`, as the
members say, and so on; and there are no other bits. -/
theorem flags_exact (P : Platform) (d : Nat) (hd : P.deepbind = some d) (hP : P.Separate d) (f : Flags) :
    (P.global ||| P.scopeLocal) &&& f.toInt P = (if f.global then P.global else P.scopeLocal) ∧
    (P.lazy ||| P.now) &&& f.toInt P = (if f.lazy then P.lazy else P.now) ∧
    P.nodelete &&& f.toInt P = (if f.nodelete then P.nodelete else 0) ∧
    d &&& f.toInt P = (if f.deepbind then d else 0) ∧
    f.toInt P &&& (P.global ||| P.scopeLocal ||| P.lazy ||| P.now ||| P.nodelete ||| d) = f.toInt P := by
  -- bit by bit
  have hb : ∀ {x y : Nat}, x &&& y = 0 → ∀ i, (x.testBit i && y.testBit i) = false := by
    intro x y h i
    rw [← Nat.testBit_and, h, Nat.zero_testBit]
  have g1 := fun i => hb hP.h1 i
  have g2 := fun i => hb hP.h2 i
  have g3 := fun i => hb hP.h3 i
  have g4 := fun i => hb hP.h4 i
  have g5 := fun i => hb hP.h5 i
  have g6 := fun i => hb hP.h6 i
  simp only [Nat.testBit_or] at g1 g2 g3 g4 g5
  unfold Flags.toInt
  rw [hd]
  have tb : ∀ (c : Bool) (x y i : Nat), (if c = true then x else y).testBit i = (if c = true then x.testBit i else y.testBit i) := by
    intro c x y i; split <;> rfl
  have key : ∀ i, _ := fun i => flag_bits f.global f.lazy f.nodelete f.deepbind (P.global.testBit i) (P.scopeLocal.testBit i)
    (P.lazy.testBit i) (P.now.testBit i) (P.nodelete.testBit i) (d.testBit i) (g1 i) (g2 i) (g3 i) (g4 i) (g5 i) (g6 i)
  refine ⟨?_, ?_, ?_, ?_, ?_⟩ <;>
  · apply Nat.eq_of_testBit_eq
    intro i
    obtain ⟨k1, k2, k3, k4, k5⟩ := key i
    simp only [Nat.testBit_or, Nat.testBit_and, Nat.zero_testBit, tb, Bool.or_false]
    first | exact k1 | exact k2 | exact k3 | exact k4 | exact k5

/-- C72. Different flags convert to different integers. -/
theorem flags_injective (P : Platform) (d : Nat) (hd : P.deepbind = some d) (hP : P.Separate d) (f g : Flags)
    (h : f.toInt P = g.toInt P) : f = g := by
  obtain ⟨a1, a2, a3, a4, -⟩ := flags_exact P d hd hP f
  obtain ⟨b1, b2, b3, b4, -⟩ := flags_exact P d hd hP g
  rw [h] at a1 a2 a3 a4
  have e1 := a1.symm.trans b1
  have e2 := a2.symm.trans b2
  have e3 := a3.symm.trans b3
  have e4 := a4.symm.trans b4
  have n1 := hP.scope; have n2 := hP.binding; have n3 := hP.nodelete; have n4 := hP.deepbind
  obtain ⟨fg, fl, fn, fd⟩ := f
  obtain ⟨gg, gl, gn, gd⟩ := g
  dsimp only at e1 e2 e3 e4
  have c1 : fg = gg := by
    cases fg <;> cases gg <;> first | rfl | exact absurd e1 n1 | exact absurd e1.symm n1
  have c2 : fl = gl := by
    cases fl <;> cases gl <;> first | rfl | exact absurd e2 n2 | exact absurd e2.symm n2
  have c3 : fn = gn := by
    cases fn <;> cases gn <;> first | rfl | exact absurd e3 n3 | exact absurd e3.symm n3
  have c4 : fd = gd := by
    cases fd <;> cases gd <;> first | rfl | exact absurd e4 n4 | exact absurd e4.symm n4
  rw [c1, c2, c3, c4]

/-- The GNU C library on Linux. -/
def glibc : Platform := ⟨0x100, 0, 1, 2, 0x1000, some 8⟩

theorem glibc_separate : glibc.Separate 8 := by constructor <;> decide

/-- The defaults: local, now, nodelete, deepbind. -/
example : ({} : Flags).toInt glibc = 0x100a := by decide

end Guanaqo.Ranges
