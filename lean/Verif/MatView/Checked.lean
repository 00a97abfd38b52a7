import Verif.MatView.Sharp
import Verif.Ints
import Mathlib.Tactic.Linarith

/-! # `MatrixView` with checked index and pointer arithmetic (C95, C96)

`Model.lean` computes offsets in unbounded integers and forms any pointer. In the program offsets are computed in the index type `I`, of `w`
bits, where overflow is undefined; and forming a pointer that is neither in the array nor one past its end is undefined, even if it is not
used. Here are the same functions with both checks. The theorems say when the checks succeed; the function is then the one of `Model.lean`, so
that the other theorems about views apply. `I` has at least the 32 bits of `int` (smaller types are promoted); pointer differences fit `I`'s
range or not according to the size of the array. -/

namespace Guanaqo.MatView

variable {α : Type}

/-- Where a view lives: the width of its index type, and the array `[lo, hi)` that its pointers point into. -/
structure Env where
  w : Nat
  lo : Int
  hi : Int

/-- A result of the index type. -/
def Env.idx (E : Env) (x : Int) : Res Int := chk E.w x

/-- Pointers that may be formed: to an element of the array, or one past the end. -/
def Env.Ptr (E : Env) (p : Int) : Prop := E.lo ≤ p ∧ p ≤ E.hi

instance (E : Env) (p : Int) : Decidable (E.Ptr p) := inferInstanceAs (Decidable (_ ∧ _))

/-- `p + d` on pointers. -/
def Env.padd (E : Env) (p d : Int) : Res Int := if E.Ptr (p + d) then .ok (p + d) else .error .ub

/-! ## The functions, checked -/

/-- mat-view.hpp:46-57: the default outer stride, `inner_stride * rows`. -/
def View.withDefaultOuterC (E : Env) (data rows cols inner : Int) : Res View := do
  let o ← E.idx (inner * rows)
  return { data, rows, cols, inner, outer := o }

/-- mat-view.hpp:61-65: `data[r * inner_stride + c * outer_stride]`. -/
def View.atC (E : Env) (v : View) (r c : Int) : Res Int := do
  assertThat (decide (0 ≤ r ∧ r < v.rows))
  assertThat (decide (0 ≤ c ∧ c < v.cols))
  let a ← E.idx (r * v.inner)
  let b ← E.idx (c * v.outer)
  let o ← E.idx (a + b)
  E.padd v.data o

/-- mat-view.hpp:96-105. -/
def View.bottomRowsC (E : Env) (v : View) (n : Int) : Res View := do
  assertThat (decide (0 ≤ n ∧ n ≤ v.rows))
  let k ← E.idx (v.rows - n)
  let o ← E.idx (v.inner * k)
  let p ← E.padd v.data o
  return { data := p, rows := n, cols := v.cols, inner := v.inner, outer := v.outer }

/-- mat-view.hpp:106-115. -/
def View.rightColsC (E : Env) (v : View) (n : Int) : Res View := do
  assertThat (decide (0 ≤ n ∧ n ≤ v.cols))
  let k ← E.idx (v.cols - n)
  let o ← E.idx (v.outer * k)
  let p ← E.padd v.data o
  return { data := p, rows := v.rows, cols := n, inner := v.inner, outer := v.outer }

/-- mat-view.hpp:116-118. -/
def View.middleRowsC (E : Env) (v : View) (r n : Int) : Res View := do
  let k ← E.idx (v.rows - r)
  (← v.bottomRowsC E k).topRows n

/-- mat-view.hpp:119-121. -/
def View.middleColsC (E : Env) (v : View) (c n : Int) : Res View := do
  let k ← E.idx (v.cols - c)
  (← v.rightColsC E k).leftCols n

/-- mat-view.hpp:125-127. -/
def View.topRightC (E : Env) (v : View) (nr nc : Int) : Res View := do (← v.topRows nr).rightColsC E nc
/-- mat-view.hpp:128-130. -/
def View.bottomLeftC (E : Env) (v : View) (nr nc : Int) : Res View := do (← v.bottomRowsC E nr).leftCols nc
/-- mat-view.hpp:131-133. -/
def View.bottomRightC (E : Env) (v : View) (nr nc : Int) : Res View := do (← v.bottomRowsC E nr).rightColsC E nc
/-- mat-view.hpp:134-137. -/
def View.blockC (E : Env) (v : View) (r c nr nc : Int) : Res View := do (← v.middleRowsC E r nr).middleColsC E c nc

/-- `std::fill_n(p, n, t)`, which forms the pointers `p + 1` to `p + n`. -/
def fillNC (E : Env) (p n : Int) (t : Arg α) (m : Mem α) : Res (Mem α) := do
  let _ ← E.padd p (max n 0)
  fillN p n t m

/-- mat-view.hpp:157-165. -/
def View.setConstantC (E : Env) (v : View) (t : Arg α) (m : Mem α) : Res (Mem α) :=
  if v.inner = 1 then
    forRange 0 v.cols (fun c m => do
      let o ← E.idx (c * v.outer)
      let p ← E.padd v.data o
      fillNC E p v.rows t m) m
  else
    forRange 0 v.cols (fun c m =>
      forRange 0 v.rows (fun r m => do m.write (← v.atC E r c) (← t.eval m)) m) m

/-- mat-view.hpp:166-190. -/
def View.setConstantTriC (E : Env) (v : View) (t : Arg α) (tr : Triangular) (m : Mem α) : Res (Mem α) :=
  let n := max v.rows v.cols
  match tr with
  | .lower => forRange 0 n (fun c m => do
      let p ← E.padd v.data c
      let o ← E.idx (c * v.outer)
      let q ← E.padd p o
      let k ← E.idx (v.rows - c)
      fillNC E q k t m) m
  | .strictlyLower => forRange 0 (n - 1) (fun c m => do
      let p ← E.padd v.data c
      let p' ← E.padd p 1
      let o ← E.idx (c * v.outer)
      let q ← E.padd p' o
      let k ← E.idx (v.rows - c)
      let k' ← E.idx (k - 1)
      fillNC E q k' t m) m
  | .upper => forRange 0 n (fun c m => do
      let o ← E.idx (c * v.outer)
      let q ← E.padd v.data o
      let k ← E.idx (1 + c)
      fillNC E q k t m) m
  | .strictlyUpper => forRange 1 n (fun c m => do
      let o ← E.idx (c * v.outer)
      let q ← E.padd v.data o
      fillNC E q c t m) m

/-- mat-view.hpp:191-199. -/
def View.diagonalC (E : Env) (v : View) : Res View := do
  let s ← E.idx (v.outer + v.inner)
  View.withDefaultOuterC E v.data (max v.rows v.cols) 1 s

/-- mat-view.hpp:200-207. -/
def View.setDiagonalC (E : Env) (v : View) (t : Arg α) (m : Mem α) : Res (Mem α) := do
  let n := max v.rows v.cols
  let s ← forRange 0 n (fun _ (s : Mem α × Int) => do
    let m ← s.1.write s.2 (← t.eval s.1)
    let d ← E.idx (v.outer + v.inner)
    let p ← E.padd s.2 d
    return (m, p)) (m, v.data)
  return s.1

/-- mat-view.hpp:208-215. -/
def View.addToDiagonalC [Add α] (E : Env) (v : View) (t : Arg α) (m : Mem α) : Res (Mem α) := do
  let n := max v.rows v.cols
  let s ← forRange 0 n (fun _ (s : Mem α × Int) => do
    let x ← s.1.read s.2
    let m ← s.1.write s.2 (x + (← t.eval s.1))
    let d ← E.idx (v.outer + v.inner)
    let p ← E.padd s.2 d
    return (m, p)) (m, v.data)
  return s.1

/-- mat-view.hpp:222-232, and `std::copy_n`, which advances both pointers by `n`. `S` is where the source lives, `D` the destination. -/
def copyColumnC (S D : Env) (srcInner dstInner rows src dst : Int) (m : Mem α) : Res (Mem α) :=
  if srcInner = 1 ∧ dstInner = 1 then do
    let _ ← S.padd src (max rows 0)
    let _ ← D.padd dst (max rows 0)
    copyN src rows dst m
  else do
    let s ← forRange 0 rows (fun _ (s : Mem α × Int × Int) => do
      let m ← s.1.write s.2.2 (← s.1.read s.2.1)
      let p ← S.padd s.2.1 srcInner
      let q ← D.padd s.2.2 dstInner
      return (m, p, q)) (m, src, dst)
    return s.1

/-- mat-view.hpp:216-236. -/
def View.copyValuesC (S D : Env) (v other : View) (m : Mem α) : Res (Mem α) := do
  assertThat (decide (other.rows = v.rows))
  assertThat (decide (other.cols = v.cols))
  let s ← forRange 0 v.cols (fun _ (s : Mem α × Int × Int) => do
    let m ← copyColumnC S D other.inner v.inner v.rows s.2.1 s.2.2 s.1
    let p ← S.padd s.2.1 other.outer
    let q ← D.padd s.2.2 v.outer
    return (m, p, q)) (m, other.data, v.data)
  return s.1

/-- mat-view.hpp:262-268. -/
def addColumnC [Add α] (S D : Env) (srcInner dstInner rows src dst : Int) (m : Mem α) : Res (Mem α) := do
  let s ← forRange 0 rows (fun _ (s : Mem α × Int × Int) => do
    let y ← s.1.read s.2.1
    let x ← s.1.read s.2.2
    let m ← s.1.write s.2.2 (x + y)
    let p ← S.padd s.2.1 srcInner
    let q ← D.padd s.2.2 dstInner
    return (m, p, q)) (m, src, dst)
  return s.1

/-- mat-view.hpp:256-273. -/
def View.addViewC [Add α] (S D : Env) (v other : View) (m : Mem α) : Res (Mem α) := do
  assertThat (decide (other.rows = v.rows))
  assertThat (decide (other.cols = v.cols))
  let s ← forRange 0 v.cols (fun _ (s : Mem α × Int × Int) => do
    let m ← addColumnC S D other.inner v.inner v.rows s.2.1 s.2.2 s.1
    let p ← S.padd s.2.1 other.outer
    let q ← D.padd s.2.2 v.outer
    return (m, p, q)) (m, other.data, v.data)
  return s.1

/-- mat-view.hpp:279-283. -/
def addScalarColumnC [Add α] (E : Env) (dstInner rows dst : Int) (u : Arg α) (m : Mem α) : Res (Mem α) := do
  let s ← forRange 0 rows (fun _ (s : Mem α × Int) => do
    let x ← s.1.read s.2
    let m ← s.1.write s.2 (x + (← u.eval s.1))
    let p ← E.padd s.2 dstInner
    return (m, p)) (m, dst)
  return s.1

/-- mat-view.hpp:275-287. -/
def View.addScalarC [Add α] (E : Env) (v : View) (u : Arg α) (m : Mem α) : Res (Mem α) := do
  let s ← forRange 0 v.cols (fun _ (s : Mem α × Int) => do
    let m ← addScalarColumnC E v.inner v.rows s.2 u s.1
    let p ← E.padd s.2 v.outer
    return (m, p)) (m, v.data)
  return s.1

/-- mat-view.hpp:288-293. -/
def View.generateC {σ : Type} (E : Env) (v : View) (gen : σ → α × σ) (g : σ) (m : Mem α) : Res (Mem α × σ) :=
  forRange 0 v.cols (fun c s =>
    forRange 0 v.rows (fun r (s : Mem α × σ) => do
      let (x, g) := gen s.2
      let m ← s.1.write (← v.atC E r c) x
      return (m, g)) s) (m, g)

/-- mat-view.hpp:139-145: `static_cast<index_type>(v.size())` is modular. -/
def View.asColumnC (E : Env) (data : Int) (size : Nat) : Res View :=
  View.withDefaultOuterC E data (Int.bmod size (2 ^ E.w)) 1 1

/-! ## Conditions -/

/-- The view lies in its array: all elements are elements of the array, `data` points into it, and the members have values of the index type.
The length of the array fits the index type. -/
structure View.Inside (E : Env) (v : View) : Prop where
  width : 8 ≤ E.w
  size : E.hi - E.lo < 2 ^ (E.w - 1)
  data : E.Ptr v.data
  rows0 : 0 ≤ v.rows
  cols0 : 0 ≤ v.cols
  rowsF : Fits E.w v.rows
  colsF : Fits E.w v.cols
  innerF : Fits E.w v.inner
  outerF : Fits E.w v.outer
  elems : ∀ r c, v.HasElem r c → E.lo ≤ v.addr r c ∧ v.addr r c < E.hi

/-- The view has an element. -/
def View.Nonempty (v : View) : Prop := 0 < v.rows ∧ 0 < v.cols

/-- The ends of the loops over columns and rows that advance pointers: one column (row) past the last is still in the array or one past its end. -/
structure View.Roomy (E : Env) (v : View) : Prop where
  lastCol : E.Ptr (v.data + v.cols * v.outer)
  lastRow : ∀ c, 0 ≤ c → c < v.cols → E.Ptr (v.data + c * v.outer + v.rows * v.inner)

/-! ## Lemmas -/

theorem idx_ok {E : Env} {x : Int} (h : Fits E.w x) : E.idx x = .ok x := chk_ok.2 ⟨h, rfl⟩
theorem padd_ok {E : Env} {p d : Int} (h : E.Ptr (p + d)) : E.padd p d = .ok (p + d) := if_pos h
theorem padd_ok_iff {E : Env} {p d q : Int} : E.padd p d = .ok q ↔ E.Ptr (p + d) ∧ q = p + d := by
  unfold Env.padd
  split
  · rename_i h; constructor
    · intro e; cases e; exact ⟨h, rfl⟩
    · rintro ⟨_, rfl⟩; rfl
  · rename_i h; constructor
    · intro e; cases e
    · rintro ⟨h', _⟩; exact absurd h' h

/-- Differences of pointers into the array fit the index type. -/
theorem View.Inside.diff {E : Env} {v : View} (h : v.Inside E) {p q : Int} (hp : E.Ptr p) (hq : E.Ptr q) : Fits E.w (p - q) := by
  have := h.size
  unfold Fits; unfold Env.Ptr at hp hq; omega

theorem View.Inside.small {E : Env} {v : View} (h : v.Inside E) {x : Int} (h1 : -128 ≤ x) (h2 : x < 128) : Fits E.w x := fits_small h.width h1 h2

theorem View.Inside.elemPtr {E : Env} {v : View} (h : v.Inside E) {r c : Int} (hrc : v.HasElem r c) : E.Ptr (v.addr r c) := by
  have := h.elems r c hrc; exact ⟨this.1, by omega⟩

theorem View.Inside.rowOff {E : Env} {v : View} (h : v.Inside E) {r : Int} (hr : v.HasElem r 0) : Fits E.w (r * v.inner) := by
  have := h.diff (h.elemPtr hr) h.data
  simp only [View.addr, Int.zero_mul, Int.add_zero] at this
  rwa [show v.data + r * v.inner - v.data = r * v.inner by ring] at this

theorem View.Inside.colOff {E : Env} {v : View} (h : v.Inside E) {c : Int} (hc : v.HasElem 0 c) : Fits E.w (c * v.outer) := by
  have := h.diff (h.elemPtr hc) h.data
  simp only [View.addr, Int.zero_mul, Int.zero_add] at this
  rwa [show v.data + c * v.outer - v.data = c * v.outer by ring] at this

/-- C95, C96: access to an element is defined, and is to the right address. -/
theorem at_defined {E : Env} {v : View} (h : v.Inside E) {r c : Int} (hrc : v.HasElem r c) : v.atC E r c = .ok (v.addr r c) := by
  have hrc' := hrc
  obtain ⟨h1, h2, h3, h4⟩ := hrc'
  have f3 : Fits E.w (r * v.inner + c * v.outer) := by
    have := h.diff (h.elemPtr hrc) h.data
    simp only [View.addr] at this
    rwa [show v.data + (r * v.inner + c * v.outer) - v.data = r * v.inner + c * v.outer by ring] at this
  simp only [View.atC]
  rw [assertThat_true (by simp; omega), assertThat_true (by simp; omega)]
  simp only [bind, Except.bind]
  rw [idx_ok (h.rowOff ⟨h1, h2, by omega, by omega⟩)]; simp only
  rw [idx_ok (h.colOff ⟨by omega, by omega, h3, h4⟩)]; simp only
  rw [idx_ok f3]; simp only
  rw [padd_ok (h.elemPtr hrc)]
  rfl

/-- C95, C96: exactly the accesses to elements of the view pass the checks. -/
theorem at_ok_iff {E : Env} {v : View} (h : v.Inside E) (r c p : Int) : v.atC E r c = .ok p ↔ v.HasElem r c ∧ p = v.addr r c := by
  constructor
  · intro hp
    have he : v.HasElem r c := by
      by_cases h1 : 0 ≤ r ∧ r < v.rows
      · by_cases h2 : 0 ≤ c ∧ c < v.cols
        · exact ⟨h1.1, h1.2, h2.1, h2.2⟩
        · simp [View.atC, assertThat, h1, h2, bind, Except.bind] at hp
      · simp [View.atC, assertThat, h1, bind, Except.bind] at hp
    rw [at_defined h he] at hp
    exact ⟨he, (Except.ok.inj hp).symm⟩
  · rintro ⟨he, rfl⟩
    exact at_defined h he

/-- Two loops are equal if their bodies are, in the states that occur. -/
theorem forLoop_congr {σ : Type} {f g : Int → σ → Res σ} (P : Int → σ → Prop) :
    ∀ (n : Nat) (lo : Int) (s : σ), P lo s → (∀ i s, lo ≤ i → i < lo + n → P i s → f i s = g i s) →
      (∀ i s s', lo ≤ i → i < lo + n → P i s → g i s = .ok s' → P (i + 1) s') → forLoop f lo n s = forLoop g lo n s := by
  intro n
  induction n with
  | zero => intro lo s _ _ _; rfl
  | succ n ih =>
    intro lo s hs he hp
    simp only [forLoop]
    rw [he lo s (by omega) (by omega) hs]
    cases hg : g lo s with
    | error e => rfl
    | ok t =>
      simp only [bind, Except.bind]
      exact ih (lo + 1) t (hp lo s t (by omega) (by omega) hs hg) (fun i s h1 h2 => he i s (by omega) (by omega))
        (fun i s s' h1 h2 => hp i s s' (by omega) (by omega))

theorem forRange_congr {σ : Type} {f g : Int → σ → Res σ} (P : Int → σ → Prop) {lo hi : Int} {s : σ} (h0 : P lo s)
    (he : ∀ i s, lo ≤ i → i < hi → P i s → f i s = g i s)
    (hp : ∀ i s s', lo ≤ i → i < hi → P i s → g i s = .ok s' → P (i + 1) s') : forRange lo hi f s = forRange lo hi g s :=
  forLoop_congr P _ lo s h0 (fun i s h1 h2 => he i s h1 (by omega)) (fun i s s' h1 h2 => hp i s s' h1 (by omega))

theorem forRange_congr' {σ : Type} {f g : Int → σ → Res σ} {lo hi : Int} {s : σ} (he : ∀ i s, lo ≤ i → i < hi → f i s = g i s) :
    forRange lo hi f s = forRange lo hi g s :=
  forRange_congr (fun _ _ => True) trivial (fun i s h1 h2 _ => he i s h1 h2) (fun _ _ _ _ _ _ _ => trivial)

/-! ## Subviews -/

theorem assert_bind {β : Type} {p : Prop} [Decidable p] (f : Unit → Res β) :
    (assertThat (decide p) >>= f) = if p then f () else .error .assertFail := by
  by_cases h : p
  · rw [assertThat_true (by simpa using h), if_pos h]; rfl
  · rw [assertThat_false (by simpa using h), if_neg h]; rfl

/-- C95, C96: `bottom_rows(n)` is defined if the result has an element, or if it is the whole view. -/
theorem bottomRows_defined {E : Env} {v : View} (h : v.Inside E) {n : Int} (hn : (0 < n ∧ 0 < v.cols) ∨ n = v.rows ∨ (v.inner = 1 ∧ v.Nonempty)) :
    v.bottomRowsC E n = v.bottomRows n := by
  simp only [View.bottomRowsC, View.bottomRows, assert_bind]
  by_cases hb : 0 ≤ n ∧ n ≤ v.rows
  · rw [if_pos hb, if_pos hb]
    have f1 : Fits E.w (v.rows - n) := fits_of_le (by omega) (by omega) h.rowsF
    have p1 : E.Ptr (v.data + v.inner * (v.rows - n)) := by
      rcases hn with ⟨h1, h2⟩ | rfl | ⟨h1, h2, h3⟩
      · have := h.elemPtr (r := v.rows - n) (c := 0) ⟨by omega, by omega, by omega, by omega⟩
        simpa [View.addr, Int.mul_comm] using this
      · simpa using h.data
      · have := h.elems (v.rows - 1) 0 ⟨by omega, by omega, by omega, by omega⟩
        have h0 := h.data
        simp only [View.addr, h1, Int.zero_mul, Int.mul_one, Int.add_zero] at this
        unfold Env.Ptr at h0 ⊢
        rw [h1]; omega
    have f2 : Fits E.w (v.inner * (v.rows - n)) := by
      have := h.diff p1 h.data
      rwa [show v.data + v.inner * (v.rows - n) - v.data = v.inner * (v.rows - n) by ring] at this
    simp only [idx_ok f1, bind, Except.bind, idx_ok f2, padd_ok p1]
  · rw [if_neg hb, if_neg hb]

/-- C95, C96: `right_cols(n)` is defined if the result has an element, or if it is the whole view. -/
theorem rightCols_defined {E : Env} {v : View} (h : v.Inside E) {n : Int} (hn : (0 < n ∧ 0 < v.rows) ∨ n = v.cols) :
    v.rightColsC E n = v.rightCols n := by
  simp only [View.rightColsC, View.rightCols, assert_bind]
  by_cases hb : 0 ≤ n ∧ n ≤ v.cols
  · rw [if_pos hb, if_pos hb]
    have f1 : Fits E.w (v.cols - n) := fits_of_le (by omega) (by omega) h.colsF
    have p1 : E.Ptr (v.data + v.outer * (v.cols - n)) := by
      rcases hn with ⟨h1, h2⟩ | rfl
      · have := h.elemPtr (r := 0) (c := v.cols - n) ⟨by omega, by omega, by omega, by omega⟩
        simpa [View.addr, Int.mul_comm] using this
      · simpa using h.data
    have f2 : Fits E.w (v.outer * (v.cols - n)) := by
      have := h.diff p1 h.data
      rwa [show v.data + v.outer * (v.cols - n) - v.data = v.outer * (v.cols - n) by ring] at this
    simp only [idx_ok f1, bind, Except.bind, idx_ok f2, padd_ok p1]
  · rw [if_neg hb, if_neg hb]

/-- The empty `right_cols(0)` is defined exactly if the pointer past the last column may be formed. -/
theorem rightCols_zero_iff {E : Env} {v : View} (h : v.Inside E) :
    (∃ u, v.rightColsC E 0 = .ok u) ↔ Fits E.w (v.outer * v.cols) ∧ E.Ptr (v.data + v.outer * v.cols) := by
  have hc := h.cols0
  simp only [View.rightColsC, assert_bind]
  rw [if_pos ⟨Int.le_refl 0, hc⟩]
  simp only [Int.sub_zero, idx_ok h.colsF, bind, Except.bind]
  constructor
  · rintro ⟨u, hu⟩
    by_cases hf : Fits E.w (v.outer * v.cols)
    · refine ⟨hf, ?_⟩
      rw [idx_ok hf] at hu
      simp only at hu
      by_cases hp : E.Ptr (v.data + v.outer * v.cols)
      · exact hp
      · rw [show E.padd v.data (v.outer * v.cols) = .error .ub from if_neg hp] at hu; cases hu
    · rw [show E.idx (v.outer * v.cols) = .error .ub from if_neg hf] at hu; cases hu
  · rintro ⟨h1, h2⟩
    simp only [idx_ok h1, padd_ok h2]
    exact ⟨_, rfl⟩

/-- A part of a view that lies in the array lies in the array. -/
theorem topRows_inside {E : Env} {v u : View} (h : v.Inside E) {n : Int} (hu : v.topRows n = .ok u) : u.Inside E := by
  simp only [View.topRows, assert_bind] at hu
  split at hu
  · rename_i hb
    cases hu
    exact ⟨h.width, h.size, h.data, hb.1, h.cols0, fits_of_le hb.1 hb.2 h.rowsF, h.colsF, h.innerF, h.outerF,
      fun r c ⟨a1, a2, a3, a4⟩ => h.elems r c ⟨a1, Int.lt_of_lt_of_le a2 hb.2, a3, a4⟩⟩
  · cases hu

theorem leftCols_inside {E : Env} {v u : View} (h : v.Inside E) {n : Int} (hu : v.leftCols n = .ok u) : u.Inside E := by
  simp only [View.leftCols, assert_bind] at hu
  split at hu
  · rename_i hb
    cases hu
    exact ⟨h.width, h.size, h.data, h.rows0, hb.1, h.rowsF, fits_of_le hb.1 hb.2 h.colsF, h.innerF, h.outerF,
      fun r c ⟨a1, a2, a3, a4⟩ => h.elems r c ⟨a1, a2, a3, Int.lt_of_lt_of_le a4 hb.2⟩⟩
  · cases hu

theorem bottomRows_inside {E : Env} {v u : View} (h : v.Inside E) {n : Int} (hu : v.bottomRowsC E n = .ok u) : u.Inside E := by
  simp only [View.bottomRowsC, assert_bind] at hu
  split at hu
  · rename_i hb
    simp only [res_bind_ok, Env.idx, chk_ok, padd_ok_iff] at hu
    obtain ⟨k, ⟨_, rfl⟩, o, ⟨_, rfl⟩, p, ⟨hp, rfl⟩, hu⟩ := hu
    cases hu
    refine ⟨h.width, h.size, hp, hb.1, h.cols0, fits_of_le hb.1 hb.2 h.rowsF, h.colsF, h.innerF, h.outerF, ?_⟩
    rintro r c ⟨a1, a2, a3, a4⟩
    simp only at a2 a4
    have := h.elems (r + (v.rows - n)) c ⟨by omega, by omega, a3, a4⟩
    simp only [View.addr] at this ⊢
    rwa [show v.data + v.inner * (v.rows - n) + (r * v.inner + c * v.outer) = v.data + ((r + (v.rows - n)) * v.inner + c * v.outer) by ring]
  · cases hu

theorem rightCols_inside {E : Env} {v u : View} (h : v.Inside E) {n : Int} (hu : v.rightColsC E n = .ok u) : u.Inside E := by
  simp only [View.rightColsC, assert_bind] at hu
  split at hu
  · rename_i hb
    simp only [res_bind_ok, Env.idx, chk_ok, padd_ok_iff] at hu
    obtain ⟨k, ⟨_, rfl⟩, o, ⟨_, rfl⟩, p, ⟨hp, rfl⟩, hu⟩ := hu
    cases hu
    refine ⟨h.width, h.size, hp, h.rows0, hb.1, h.rowsF, fits_of_le hb.1 hb.2 h.colsF, h.innerF, h.outerF, ?_⟩
    rintro r c ⟨a1, a2, a3, a4⟩
    simp only at a2 a4
    have := h.elems r (c + (v.cols - n)) ⟨a1, a2, by omega, by omega⟩
    simp only [View.addr] at this ⊢
    rwa [show v.data + v.outer * (v.cols - n) + (r * v.inner + c * v.outer) = v.data + (r * v.inner + (c + (v.cols - n)) * v.outer) by ring]
  · cases hu

/-- C95, C96: `block` (and so the other two-sided parts) is defined if it has an element, and lies in the array again. -/
theorem block_defined {E : Env} {v : View} (h : v.Inside E) {r c nr nc : Int} (h1 : 0 ≤ r) (h2 : 0 < nr) (h3 : r + nr ≤ v.rows) (h4 : 0 ≤ c)
    (h5 : 0 < nc) (h6 : c + nc ≤ v.cols) :
    ∃ u, v.blockC E r c nr nc = .ok u ∧ v.block r c nr nc = .ok u ∧ u.Inside E := by
  have fr : Fits E.w (v.rows - r) := fits_of_le (by omega) (by omega) h.rowsF
  have e1 : v.bottomRowsC E (v.rows - r) = v.bottomRows (v.rows - r) := bottomRows_defined h (.inl ⟨by omega, by omega⟩)
  have e2 : v.bottomRows (v.rows - r) = .ok ⟨v.data + v.inner * (v.rows - (v.rows - r)), v.rows - r, v.cols, v.inner, v.outer⟩ := by
    simp only [View.bottomRows, assert_bind]; rw [if_pos ⟨by omega, by omega⟩]; rfl
  have i1 := bottomRows_inside h (e1.trans e2)
  obtain ⟨v1, hv1⟩ : ∃ v1 : View, (⟨v.data + v.inner * (v.rows - (v.rows - r)), v.rows - r, v.cols, v.inner, v.outer⟩ : View) = v1 := ⟨_, rfl⟩
  have c1 : v1.rows = v.rows - r ∧ v1.cols = v.cols := by rw [← hv1]; exact ⟨rfl, rfl⟩
  rw [hv1] at e2 i1
  have e3 : v1.topRows nr = .ok ⟨v1.data, nr, v1.cols, v1.inner, v1.outer⟩ := by
    simp only [View.topRows, assert_bind]; rw [if_pos ⟨by omega, by omega⟩]; rfl
  have i2 := topRows_inside i1 e3
  obtain ⟨v2, hv2⟩ : ∃ v2 : View, (⟨v1.data, nr, v1.cols, v1.inner, v1.outer⟩ : View) = v2 := ⟨_, rfl⟩
  have c2 : v2.rows = nr ∧ v2.cols = v.cols := by rw [← hv2]; exact ⟨rfl, c1.2⟩
  rw [hv2] at e3 i2
  have fc : Fits E.w (v2.cols - c) := fits_of_le (by omega) (by omega) i2.colsF
  have e4 : v2.rightColsC E (v2.cols - c) = v2.rightCols (v2.cols - c) := rightCols_defined i2 (.inl ⟨by omega, by omega⟩)
  have e5 : v2.rightCols (v2.cols - c) = .ok ⟨v2.data + v2.outer * (v2.cols - (v2.cols - c)), v2.rows, v2.cols - c, v2.inner, v2.outer⟩ := by
    simp only [View.rightCols, assert_bind]; rw [if_pos ⟨by omega, by omega⟩]; rfl
  have i3 := rightCols_inside i2 (e4.trans e5)
  obtain ⟨v3, hv3⟩ : ∃ v3 : View, (⟨v2.data + v2.outer * (v2.cols - (v2.cols - c)), v2.rows, v2.cols - c, v2.inner, v2.outer⟩ : View) = v3 := ⟨_, rfl⟩
  have c3 : v3.cols = v2.cols - c := by rw [← hv3]
  rw [hv3] at e5 i3
  have e6 : v3.leftCols nc = .ok ⟨v3.data, v3.rows, nc, v3.inner, v3.outer⟩ := by
    simp only [View.leftCols, assert_bind]; rw [if_pos ⟨by omega, by omega⟩]; rfl
  refine ⟨_, ?_, ?_, leftCols_inside i3 e6⟩
  · simp only [View.blockC, View.middleRowsC, View.middleColsC, bind, Except.bind, idx_ok fr, e1, e2, e3, idx_ok fc, e4, e5, e6]
  · simp only [View.block, View.middleRows, View.middleCols, bind, Except.bind, e2, e3, e5, e6]

end Guanaqo.MatView
