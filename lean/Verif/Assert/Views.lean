import Verif.Assert.Rel
import Verif.MatView.Checked2

/-! # Debug and release builds of the views (C115)

The operations on views that contain assertions, with a parameter `dbg` for `NDEBUG`, and the arithmetic of `MatView/Checked.lean`. With
assertions they are the functions the other theorems are about (`views_debug`). -/

namespace Guanaqo.MatView

variable {α : Type}

/-- `assert(b)` (mat-view.hpp:62-63, 77, 87, 97, 107, 218-219, 258-259) in a build with (`dbg`) or without assertions. -/
def assertD (dbg : Bool) (b : Bool) : Res Unit := if dbg then assertThat b else .ok ()

/-- mat-view.hpp:61-65. -/
def View.atD (dbg : Bool) (E : Env) (v : View) (r c : Int) : Res Int := do
  assertD dbg (decide (0 ≤ r ∧ r < v.rows))
  assertD dbg (decide (0 ≤ c ∧ c < v.cols))
  let a ← E.idx (r * v.inner)
  let b ← E.idx (c * v.outer)
  let o ← E.idx (a + b)
  E.padd v.data o

/-- mat-view.hpp:76-85. -/
def View.topRowsD (dbg : Bool) (v : View) (n : Int) : Res View := do
  assertD dbg (decide (0 ≤ n ∧ n ≤ v.rows))
  return { data := v.data, rows := n, cols := v.cols, inner := v.inner, outer := v.outer }

/-- mat-view.hpp:86-95. -/
def View.leftColsD (dbg : Bool) (v : View) (n : Int) : Res View := do
  assertD dbg (decide (0 ≤ n ∧ n ≤ v.cols))
  return { data := v.data, rows := v.rows, cols := n, inner := v.inner, outer := v.outer }

/-- mat-view.hpp:96-105. -/
def View.bottomRowsD (dbg : Bool) (E : Env) (v : View) (n : Int) : Res View := do
  assertD dbg (decide (0 ≤ n ∧ n ≤ v.rows))
  let k ← E.idx (v.rows - n)
  let o ← E.idx (v.inner * k)
  let p ← E.padd v.data o
  return { data := p, rows := n, cols := v.cols, inner := v.inner, outer := v.outer }

/-- mat-view.hpp:106-115. -/
def View.rightColsD (dbg : Bool) (E : Env) (v : View) (n : Int) : Res View := do
  assertD dbg (decide (0 ≤ n ∧ n ≤ v.cols))
  let k ← E.idx (v.cols - n)
  let o ← E.idx (v.outer * k)
  let p ← E.padd v.data o
  return { data := p, rows := v.rows, cols := n, inner := v.inner, outer := v.outer }

/-- mat-view.hpp:116-118. -/
def View.middleRowsD (dbg : Bool) (E : Env) (v : View) (r n : Int) : Res View := do
  let k ← E.idx (v.rows - r)
  (← v.bottomRowsD dbg E k).topRowsD dbg n

/-- mat-view.hpp:119-121. -/
def View.middleColsD (dbg : Bool) (E : Env) (v : View) (c n : Int) : Res View := do
  let k ← E.idx (v.cols - c)
  (← v.rightColsD dbg E k).leftColsD dbg n

/-- mat-view.hpp:122-124. -/
def View.topLeftD (dbg : Bool) (v : View) (nr nc : Int) : Res View := do (← v.topRowsD dbg nr).leftColsD dbg nc
/-- mat-view.hpp:125-127. -/
def View.topRightD (dbg : Bool) (E : Env) (v : View) (nr nc : Int) : Res View := do (← v.topRowsD dbg nr).rightColsD dbg E nc
/-- mat-view.hpp:128-130. -/
def View.bottomLeftD (dbg : Bool) (E : Env) (v : View) (nr nc : Int) : Res View := do (← v.bottomRowsD dbg E nr).leftColsD dbg nc
/-- mat-view.hpp:131-133. -/
def View.bottomRightD (dbg : Bool) (E : Env) (v : View) (nr nc : Int) : Res View := do
  (← v.bottomRowsD dbg E nr).rightColsD dbg E nc
/-- mat-view.hpp:134-137. -/
def View.blockD (dbg : Bool) (E : Env) (v : View) (r c nr nc : Int) : Res View := do
  (← v.middleRowsD dbg E r nr).middleColsD dbg E c nc

/-- mat-view.hpp:157-165. -/
def View.setConstantD (dbg : Bool) (E : Env) (v : View) (t : Arg α) (m : Mem α) : Res (Mem α) :=
  if v.inner = 1 then
    forRange 0 v.cols (fun c m => do
      let o ← E.idx (c * v.outer)
      let p ← E.padd v.data o
      fillNC E p v.rows t m) m
  else
    forRange 0 v.cols (fun c m =>
      forRange 0 v.rows (fun r m => do m.write (← v.atD dbg E r c) (← t.eval m)) m) m

/-- mat-view.hpp:216-236. -/
def View.copyValuesD (dbg : Bool) (S D : Env) (v other : View) (m : Mem α) : Res (Mem α) := do
  assertD dbg (decide (other.rows = v.rows))
  assertD dbg (decide (other.cols = v.cols))
  let s ← forRange 0 v.cols (fun _ (s : Mem α × Int × Int) => do
    let m ← copyColumnC S D other.inner v.inner v.rows s.2.1 s.2.2 s.1
    let p ← S.padd s.2.1 other.outer
    let q ← D.padd s.2.2 v.outer
    return (m, p, q)) (m, other.data, v.data)
  return s.1

/-- mat-view.hpp:256-273. -/
def View.addViewD [Add α] (dbg : Bool) (S D : Env) (v other : View) (m : Mem α) : Res (Mem α) := do
  assertD dbg (decide (other.rows = v.rows))
  assertD dbg (decide (other.cols = v.cols))
  let s ← forRange 0 v.cols (fun _ (s : Mem α × Int × Int) => do
    let m ← addColumnC S D other.inner v.inner v.rows s.2.1 s.2.2 s.1
    let p ← S.padd s.2.1 other.outer
    let q ← D.padd s.2.2 v.outer
    return (m, p, q)) (m, other.data, v.data)
  return s.1

/-- mat-view.hpp:288-293. -/
def View.generateD {σ : Type} (dbg : Bool) (E : Env) (v : View) (gen : σ → α × σ) (g : σ) (m : Mem α) : Res (Mem α × σ) :=
  forRange 0 v.cols (fun c s =>
    forRange 0 v.rows (fun r (s : Mem α × σ) => do
      let (x, g) := gen s.2
      let m ← s.1.write (← v.atD dbg E r c) x
      return (m, g)) s) (m, g)

/-- With assertions these are the functions of `Model.lean` and `Checked.lean`. -/
theorem views_debug [Add α] (E S D : Env) (v other : View) (r c nr nc : Int) (t : Arg α) (m : Mem α) {σ : Type} (gen : σ → α × σ) (g : σ) :
    v.atD true E r c = v.atC E r c ∧
    v.topRowsD true nr = v.topRows nr ∧ v.leftColsD true nc = v.leftCols nc ∧
    v.bottomRowsD true E nr = v.bottomRowsC E nr ∧ v.rightColsD true E nc = v.rightColsC E nc ∧
    v.middleRowsD true E r nr = v.middleRowsC E r nr ∧ v.middleColsD true E c nc = v.middleColsC E c nc ∧
    v.topLeftD true nr nc = v.topLeft nr nc ∧ v.topRightD true E nr nc = v.topRightC E nr nc ∧
    v.bottomLeftD true E nr nc = v.bottomLeftC E nr nc ∧ v.bottomRightD true E nr nc = v.bottomRightC E nr nc ∧
    v.blockD true E r c nr nc = v.blockC E r c nr nc ∧
    v.setConstantD true E t m = v.setConstantC E t m ∧ v.copyValuesD true S D other m = v.copyValuesC S D other m ∧
    v.addViewD true S D other m = v.addViewC S D other m ∧ v.generateD true E gen g m = v.generateC E gen g m :=
  ⟨rfl, rfl, rfl, rfl, rfl, rfl, rfl, rfl, rfl, rfl, rfl, rfl, rfl, rfl, rfl, rfl⟩

section Relation
open Assert

theorem le_assertD (b : Bool) : Le (assertD true b) (assertD false b) := by
  cases b
  · exact le_stop (by simp [assertD])
  · exact le_ok _

theorem le_idx (E : Env) (x : Int) : Le (E.idx x) (E.idx x) := by
  refine Le.refl ?_
  unfold Env.idx chk
  split <;> simp

theorem le_padd (E : Env) (p d : Int) : Le (E.padd p d) (E.padd p d) := le_ite (le_ok _) le_ub

theorem le_read (m : Mem α) (a : Int) : Le (m.read a) (m.read a) := by
  refine Le.refl ?_
  unfold Mem.read
  split <;> simp

theorem le_write (m : Mem α) (a : Int) (x : α) : Le (m.write a x) (m.write a x) := by
  refine Le.refl ?_
  unfold Mem.write
  split <;> simp

theorem le_eval (t : Arg α) (m : Mem α) : Le (t.eval m) (t.eval m) := by
  cases t
  · exact le_ok _
  · exact le_read _ _

theorem le_at (E : Env) (v : View) (r c : Int) : Le (v.atD true E r c) (v.atD false E r c) :=
  Le.seq (le_assertD _) <| Le.seq (le_assertD _) <| Le.bind (le_idx _ _) fun _ => Le.bind (le_idx _ _) fun _ =>
    Le.bind (le_idx _ _) fun _ => le_padd _ _ _

theorem le_topRows (v : View) (n : Int) : Le (v.topRowsD true n) (v.topRowsD false n) := Le.seq (le_assertD _) (le_ok _)
theorem le_leftCols (v : View) (n : Int) : Le (v.leftColsD true n) (v.leftColsD false n) := Le.seq (le_assertD _) (le_ok _)

theorem le_bottomRows (E : Env) (v : View) (n : Int) : Le (v.bottomRowsD true E n) (v.bottomRowsD false E n) :=
  Le.seq (le_assertD _) <| Le.bind (le_idx _ _) fun _ => Le.bind (le_idx _ _) fun _ => Le.bind (le_padd _ _ _) fun _ => le_ok _

theorem le_rightCols (E : Env) (v : View) (n : Int) : Le (v.rightColsD true E n) (v.rightColsD false E n) :=
  Le.seq (le_assertD _) <| Le.bind (le_idx _ _) fun _ => Le.bind (le_idx _ _) fun _ => Le.bind (le_padd _ _ _) fun _ => le_ok _

theorem le_middleRows (E : Env) (v : View) (r n : Int) : Le (v.middleRowsD true E r n) (v.middleRowsD false E r n) :=
  Le.bind (le_idx _ _) fun _ => Le.bind (le_bottomRows _ _ _) fun _ => le_topRows _ _

theorem le_middleCols (E : Env) (v : View) (c n : Int) : Le (v.middleColsD true E c n) (v.middleColsD false E c n) :=
  Le.bind (le_idx _ _) fun _ => Le.bind (le_rightCols _ _ _) fun _ => le_leftCols _ _

theorem le_fillNC (E : Env) (p n : Int) (t : Arg α) (m : Mem α) : Le (fillNC E p n t m) (fillNC E p n t m) :=
  Le.bind (le_padd _ _ _) fun _ => le_forRange (fun _ _ => Le.bind (le_eval _ _) fun _ => le_write _ _ _) _ _ _

theorem le_setConstant (E : Env) (v : View) (t : Arg α) (m : Mem α) : Le (v.setConstantD true E t m) (v.setConstantD false E t m) :=
  le_ite (le_forRange (fun _ _ => Le.bind (le_idx _ _) fun _ => Le.bind (le_padd _ _ _) fun _ => le_fillNC _ _ _ _ _) _ _ _)
    (le_forRange (fun _ _ => le_forRange (fun _ _ => Le.bind (le_at _ _ _ _) fun _ => Le.bind (le_eval _ _) fun _ => le_write _ _ _) _ _ _) _ _ _)

theorem le_copyColumn (S D : Env) (si di rows src dst : Int) (m : Mem α) :
    Le (copyColumnC S D si di rows src dst m) (copyColumnC S D si di rows src dst m) := by
  unfold copyColumnC
  split
  · exact Le.bind (le_padd _ _ _) fun _ => Le.bind (le_padd _ _ _) fun _ =>
      le_forRange (fun _ _ => Le.bind (le_read _ _) fun _ => le_write _ _ _) _ _ _
  · exact Le.bind (le_forRange (fun _ _ => Le.bind (le_read _ _) fun _ => Le.bind (le_write _ _ _) fun _ =>
      Le.bind (le_padd _ _ _) fun _ => Le.bind (le_padd _ _ _) fun _ => le_ok _) _ _ _) fun _ => le_ok _

theorem le_addColumn [Add α] (S D : Env) (si di rows src dst : Int) (m : Mem α) :
    Le (addColumnC S D si di rows src dst m) (addColumnC S D si di rows src dst m) :=
  Le.bind (le_forRange (fun _ _ => Le.bind (le_read _ _) fun _ => Le.bind (le_read _ _) fun _ => Le.bind (le_write _ _ _) fun _ =>
    Le.bind (le_padd _ _ _) fun _ => Le.bind (le_padd _ _ _) fun _ => le_ok _) _ _ _) fun _ => le_ok _

end Relation

/-- **C115**, views: what an operation on a view returns or does in the debug build, it returns or does in the release build. -/
theorem views_only_check [Add α] (E S D : Env) (v other : View) (r c nr nc : Int) (t : Arg α) (m : Mem α) {σ : Type} (gen : σ → α × σ)
    (g : σ) :
    OnlyChecks (v.atD true E r c) (v.atD false E r c) ∧
    OnlyChecks (v.topRowsD true nr) (v.topRowsD false nr) ∧ OnlyChecks (v.leftColsD true nc) (v.leftColsD false nc) ∧
    OnlyChecks (v.bottomRowsD true E nr) (v.bottomRowsD false E nr) ∧ OnlyChecks (v.rightColsD true E nc) (v.rightColsD false E nc) ∧
    OnlyChecks (v.middleRowsD true E r nr) (v.middleRowsD false E r nr) ∧
    OnlyChecks (v.middleColsD true E c nc) (v.middleColsD false E c nc) ∧
    OnlyChecks (v.topLeftD true nr nc) (v.topLeftD false nr nc) ∧ OnlyChecks (v.topRightD true E nr nc) (v.topRightD false E nr nc) ∧
    OnlyChecks (v.bottomLeftD true E nr nc) (v.bottomLeftD false E nr nc) ∧
    OnlyChecks (v.bottomRightD true E nr nc) (v.bottomRightD false E nr nc) ∧
    OnlyChecks (v.blockD true E r c nr nc) (v.blockD false E r c nr nc) ∧
    OnlyChecks (v.setConstantD true E t m) (v.setConstantD false E t m) ∧
    OnlyChecks (v.copyValuesD true S D other m) (v.copyValuesD false S D other m) ∧
    OnlyChecks (v.addViewD true S D other m) (v.addViewD false S D other m) ∧
    OnlyChecks (v.generateD true E gen g m) (v.generateD false E gen g m) := by
  open Assert in
  refine ⟨(le_at _ _ _ _).onlyChecks, (le_topRows _ _).onlyChecks, (le_leftCols _ _).onlyChecks, (le_bottomRows _ _ _).onlyChecks,
    (le_rightCols _ _ _).onlyChecks, (le_middleRows _ _ _ _).onlyChecks, (le_middleCols _ _ _ _).onlyChecks,
    (Le.bind (le_topRows _ _) fun _ => le_leftCols _ _).onlyChecks, (Le.bind (le_topRows _ _) fun _ => le_rightCols _ _ _).onlyChecks,
    (Le.bind (le_bottomRows _ _ _) fun _ => le_leftCols _ _).onlyChecks,
    (Le.bind (le_bottomRows _ _ _) fun _ => le_rightCols _ _ _).onlyChecks,
    (Le.bind (le_middleRows _ _ _ _) fun _ => le_middleCols _ _ _ _).onlyChecks, (le_setConstant _ _ _ _).onlyChecks, ?_, ?_, ?_⟩
  · exact (Le.seq (le_assertD _) <| Le.seq (le_assertD _) <| Le.bind (le_forRange (fun _ _ => Le.bind (le_copyColumn _ _ _ _ _ _ _ _) fun _ =>
      Le.bind (le_padd _ _ _) fun _ => Le.bind (le_padd _ _ _) fun _ => le_ok _) _ _ _) fun _ => le_ok _).onlyChecks
  · exact (Le.seq (le_assertD _) <| Le.seq (le_assertD _) <| Le.bind (le_forRange (fun _ _ => Le.bind (le_addColumn _ _ _ _ _ _ _ _) fun _ =>
      Le.bind (le_padd _ _ _) fun _ => Le.bind (le_padd _ _ _) fun _ => le_ok _) _ _ _) fun _ => le_ok _).onlyChecks
  · exact (le_forRange (fun _ _ => le_forRange (fun _ _ => Le.bind (le_at _ _ _ _) fun _ => Le.bind (le_write _ _ _) fun _ => le_ok _) _ _ _)
      _ _ _).onlyChecks

/-! ## The assertions inside the loops never fail -/

theorem atD_inside (E : Env) (v : View) {r c : Int} (h : v.HasElem r c) : v.atD true E r c = v.atD false E r c := by
  obtain ⟨h1, h2, h3, h4⟩ := h
  unfold View.atD assertD
  rw [decide_eq_true (show 0 ≤ r ∧ r < v.rows from ⟨h1, h2⟩), decide_eq_true (show 0 ≤ c ∧ c < v.cols from ⟨h3, h4⟩)]
  rfl

/-- **C115**, views: filling a view and generating its values never fail an assertion; the two builds do exactly the same, whatever the view. -/
theorem view_loops_assertions_hold (E : Env) (v : View) (t : Arg α) (m : Mem α) {σ : Type} (gen : σ → α × σ) (g : σ) :
    v.setConstantD true E t m = v.setConstantD false E t m ∧ v.generateD true E gen g m = v.generateD false E gen g m := by
  constructor
  · unfold View.setConstantD
    split
    · rfl
    · exact forRange_congr' fun c m h1 h2 => forRange_congr' fun r m h3 h4 => by rw [atD_inside E v ⟨h3, h4, h1, h2⟩]
  · exact forRange_congr' fun c m h1 h2 => forRange_congr' fun r m h3 h4 => by rw [atD_inside E v ⟨h3, h4, h1, h2⟩]

/-! ## What the release build does where the debug build stops -/

/-- **C115**, views: without assertions, copying from or adding a view that is larger in both directions uses its top left corner. -/
theorem release_larger_operand [Add α] (S D : Env) (v other u : View) (hu : other.topLeft v.rows v.cols = .ok u) (m : Mem α) :
    v.copyValuesD false S D other m = v.copyValuesC S D u m ∧ v.addViewD false S D other m = v.addViewC S D u m := by
  have hu' : u = { data := other.data, rows := v.rows, cols := v.cols, inner := other.inner, outer := other.outer } := by
    unfold View.topLeft View.topRows View.leftCols at hu
    dsimp only [bind, Except.bind, pure, Except.pure, assertThat] at hu
    split at hu
    · cases hu
    · rename_i x hx
      split at hx
      · cases hx
      · cases hx
        dsimp only at hu
        split at hu
        · cases hu
        · exact (Except.ok.inj hu).symm
  subst hu'
  constructor
  · unfold View.copyValuesC View.copyValuesD
    dsimp only
    rw [decide_eq_true rfl, decide_eq_true rfl]
    rfl
  · unfold View.addViewC View.addViewD
    dsimp only
    rw [decide_eq_true rfl, decide_eq_true rfl]
    rfl

/-- A 3 by 2 view in an array of 6 elements, and a 2 by 1 view in the same array. -/
def exEnv : Env := { w := 64, lo := 0, hi := 6 }
def exBig : View := { data := 0, rows := 3, cols := 2, inner := 1, outer := 3 }
def exSmall : View := { data := 1, rows := 2, cols := 1, inner := 1, outer := 3 }

/-- The difference: row 3 of a view of three rows is the first element of the next column in the release build. -/
example : exBig.atD true exEnv 3 0 = .error .assertFail ∧ exBig.atD false exEnv 3 0 = .ok 3 := by decide +kernel

example : exSmall.copyValuesD (α := Int) true exEnv exEnv exBig (fun _ => none) = .error .assertFail ∧
    exBig.topLeft exSmall.rows exSmall.cols = .ok { data := 0, rows := 2, cols := 1, inner := 1, outer := 3 } := ⟨rfl, rfl⟩

example : exBig.rightColsD true exEnv 3 = .error .assertFail ∧ exBig.rightColsD false exEnv 3 = .error .ub ∧
    exBig.topRowsD false 5 = .ok { data := 0, rows := 5, cols := 2, inner := 1, outer := 3 } := by decide +kernel

end Guanaqo.MatView
