import Verif.Blas.Flops
import Verif.Blas.Batch
import Verif.Loops
import Verif.Ints
import Mathlib.Tactic.Ring
import Mathlib.Tactic.Linarith

/-! # Integer arithmetic of the BLAS layer in the index type (C94)

`Flops.lean` has the numbers of operations in unbounded integers. The code computes them in the index type of the views, of `w` bits (`long
long` by default, `int` with the CMake option `GUANAQO_BLAS_INDEX_TYPE`), where overflow is undefined. Here are the same expressions with every
intermediate result checked. -/

namespace Guanaqo.Blas

open Guanaqo.MatView (View)

/-! ## Arithmetic of `w` bits -/

/-- Expressions of the index type, in the form in which they are written. -/
inductive IExpr where
  | lit (x : Int)
  | mul (a b : IExpr)
  | add (a b : IExpr)
  | sub (a b : IExpr)
  | div (a b : IExpr)

/-- The value in unbounded integers (division truncates). -/
def IExpr.eval : IExpr → Int
  | .lit x => x
  | .mul a b => a.eval * b.eval
  | .add a b => a.eval + b.eval
  | .sub a b => a.eval - b.eval
  | .div a b => a.eval.tdiv b.eval

/-- What the program does: every operation is in `w` bits; division by zero is undefined too. -/
def IExpr.run (w : Nat) : IExpr → Res Int
  | .lit x => chk w x
  | .mul a b => do let x ← a.run w; let y ← b.run w; chk w (x * y)
  | .add a b => do let x ← a.run w; let y ← b.run w; chk w (x + y)
  | .sub a b => do let x ← a.run w; let y ← b.run w; chk w (x - y)
  | .div a b => do
    let x ← a.run w
    let y ← b.run w
    if y = 0 then .error .ub else chk w (x.tdiv y)

/-- The intermediate results fit, and there is no division by zero. -/
def IExpr.Safe (w : Nat) : IExpr → Prop
  | .lit x => Fits w x
  | .mul a b => a.Safe w ∧ b.Safe w ∧ Fits w (a.eval * b.eval)
  | .add a b => a.Safe w ∧ b.Safe w ∧ Fits w (a.eval + b.eval)
  | .sub a b => a.Safe w ∧ b.Safe w ∧ Fits w (a.eval - b.eval)
  | .div a b => a.Safe w ∧ b.Safe w ∧ b.eval ≠ 0 ∧ Fits w (a.eval.tdiv b.eval)

/-- An expression is evaluated without undefined behaviour exactly if its intermediate results fit, and the value is then right. -/
theorem run_ok_iff (w : Nat) (e : IExpr) (v : Int) : e.run w = .ok v ↔ e.Safe w ∧ v = e.eval := by
  induction e generalizing v with
  | lit x => simp only [IExpr.run, IExpr.Safe, IExpr.eval, chk_ok]
  | mul a b iha ihb | add a b iha ihb | sub a b iha ihb =>
    simp only [IExpr.run, IExpr.Safe, IExpr.eval, res_bind_ok, iha, ihb, chk_ok]
    constructor
    · rintro ⟨x, ⟨h1, rfl⟩, y, ⟨h2, rfl⟩, h3, rfl⟩; exact ⟨⟨h1, h2, h3⟩, rfl⟩
    · rintro ⟨⟨h1, h2, h3⟩, rfl⟩; exact ⟨_, ⟨h1, rfl⟩, _, ⟨h2, rfl⟩, h3, rfl⟩
  | div a b iha ihb =>
    simp only [IExpr.run, IExpr.Safe, IExpr.eval, res_bind_ok, iha, ihb]
    constructor
    · rintro ⟨x, ⟨h1, rfl⟩, y, ⟨h2, rfl⟩, h3⟩
      split at h3
      · cases h3
      · rename_i h0
        obtain ⟨h4, rfl⟩ := chk_ok.1 h3
        exact ⟨⟨h1, h2, h0, h4⟩, rfl⟩
    · rintro ⟨⟨h1, h2, h0, h3⟩, rfl⟩
      exact ⟨_, ⟨h1, rfl⟩, _, ⟨h2, rfl⟩, by rw [if_neg h0]; exact chk_ok.2 ⟨h3, rfl⟩⟩

/-! ## The expressions of the source -/

/-- hl-blas-interface.hpp:31, 44. -/
def gemvE (A : View) : IExpr := .mul (.lit A.rows) (.lit A.cols)
/-- hl-blas-interface.hpp:56, 95 (`k = A.cols`), 69, 82 (`k = A.rows`). -/
def gemmE (C : View) (k : Int) : IExpr := .mul (.mul (.lit C.rows) (.lit C.cols)) (.lit k)
/-- hl-blas-interface.hpp:109, 123, 137, 151, 206, 217, 228, 239, 250, 260: `n * (n + 1) * k / 2`. -/
def triE (n k : Int) : IExpr := .div (.mul (.mul (.lit n) (.add (.lit n) (.lit 1))) (.lit k)) (.lit 2)
/-- hl-blas-interface.hpp:163, 174, 185, 196: `n * (n + 1) / 2`. -/
def triVecE (n : Int) : IExpr := .div (.mul (.lit n) (.add (.lit n) (.lit 1))) (.lit 2)
/-- hl-blas-interface.hpp:270-271, 282-283, 294-295, 306-307: `n * (n + 1) * k / 2 + n`. -/
def trsmE (n k : Int) : IExpr := .add (triE n k) (.lit n)
/-- hl-blas-interface.hpp:328-330. -/
def potrfE (n : Int) : IExpr :=
  .add
    (.add
      (.div (.mul (.mul (.sub (.lit n) (.lit 1)) (.lit n)) (.add (.lit n) (.lit 1))) (.lit 6))
      (.div (.mul (.sub (.lit n) (.lit 1)) (.lit n)) (.lit 2)))
    (.mul (.lit 2) (.lit n))
/-- hl-blas-interface.hpp:340-342. -/
def lauumE (n : Int) : IExpr :=
  .add
    (.add
      (.div (.mul (.mul (.sub (.lit n) (.lit 2)) (.sub (.lit n) (.lit 1))) (.lit n)) (.lit 6))
      (.div (.mul (.sub (.lit n) (.lit 1)) (.add (.lit n) (.lit 2))) (.lit 2)))
    (.lit n)
/-- hl-blas-interface.hpp:352-354. -/
def trtriE (n : Int) : IExpr :=
  .add
    (.add
      (.div (.mul (.mul (.sub (.lit n) (.lit 2)) (.sub (.lit n) (.lit 1))) (.lit n)) (.lit 6))
      (.div (.mul (.sub (.lit n) (.lit 1)) (.lit n)) (.lit 2)))
    (.lit n)

/-- The expressions are those of `Flops.lean`, which are compared with the textbook algorithms there (C69). -/
theorem exprs_are_traces (A B C : View) :
    (gemvE A).eval = (traceGemv A).2 ∧ (gemmE C A.cols).eval = (traceGemmN A C).2 ∧ (gemmE C A.rows).eval = (traceGemmT A C).2 ∧
    (triE C.rows A.cols).eval = (traceGemmtN A C).2 ∧ (triE C.rows A.rows).eval = (traceGemmtT A C).2 ∧
    (triVecE A.rows).eval = (traceTrmv A).2 ∧ (triVecE A.rows).eval = (traceTrsv A).2 ∧
    (triE A.rows B.cols).eval = (traceTrmmL A B).2 ∧ (triE A.rows B.rows).eval = (traceTrmmR A B).2 ∧
    (triE C.rows A.cols).eval = (traceSyrkN A C).2 ∧ (triE C.rows A.rows).eval = (traceSyrkT A C).2 ∧
    (trsmE A.rows B.cols).eval = (traceTrsmL A B).2 ∧ (trsmE A.rows B.rows).eval = (traceTrsmR A B).2 ∧
    (potrfE A.rows).eval = (tracePotrf A).2 ∧ (lauumE A.rows).eval = (traceLauum A).2 ∧ (trtriE A.rows).eval = (traceTrtri A).2 :=
  ⟨rfl, rfl, rfl, rfl, rfl, rfl, rfl, rfl, rfl, rfl, rfl, rfl, rfl, rfl, rfl, rfl⟩

/-! ## Exactly when they overflow -/

/-- The program evaluates the expression without undefined behaviour. -/
def Defined (w : Nat) (e : IExpr) : Prop := ∃ v, e.run w = .ok v

theorem defined_iff (w : Nat) (e : IExpr) : Defined w e ↔ e.Safe w := by
  constructor
  · rintro ⟨v, h⟩; exact ((run_ok_iff w e v).1 h).1
  · intro h; exact ⟨_, (run_ok_iff w e _).2 ⟨h, rfl⟩⟩

/-- C94, `xgemv`: the arithmetic is defined exactly if the number of elements of `A` fits the index type. -/
theorem gemv_defined_iff {w : Nat} {A : View} (h1 : Fits w A.rows) (h2 : Fits w A.cols) :
    Defined w (gemvE A) ↔ Fits w (A.rows * A.cols) := by
  rw [defined_iff]
  simp only [gemvE, IExpr.Safe, IExpr.eval]
  exact ⟨fun h => h.2.2, fun h => ⟨h1, h2, h⟩⟩

/-- C94, `xgemm`: exactly if the number of elements of `C` and the number of operations fit. -/
theorem gemm_defined_iff {w : Nat} {C : View} {k : Int} (h1 : Fits w C.rows) (h2 : Fits w C.cols) (h3 : Fits w k) :
    Defined w (gemmE C k) ↔ Fits w (C.rows * C.cols) ∧ Fits w (C.rows * C.cols * k) := by
  rw [defined_iff]
  simp only [gemmE, IExpr.Safe, IExpr.eval]
  exact ⟨fun h => ⟨h.1.2.2, h.2.2⟩, fun h => ⟨⟨h1, h2, h.1⟩, h3, h.2⟩⟩

theorem tdiv_nonneg_le {a : Int} (h : 0 ≤ a) {d : Int} (hd : 0 < d) : 0 ≤ a.tdiv d ∧ a.tdiv d ≤ a := by
  rw [Int.tdiv_eq_ediv_of_nonneg h]
  exact ⟨Int.ediv_nonneg h (by omega), Int.ediv_le_self d h⟩

theorem nonlin {n k : Int} (hn : 0 ≤ n) (hk : 1 ≤ k) : n ≤ n * k := by
  have := Int.mul_le_mul_of_nonneg_left hk hn
  omega

/-- C94, `xgemmt`, `xtrmm`, `xsyrk`: exactly if twice the number of operations fits (the product is formed before it is halved). -/
theorem tri_defined_iff {w : Nat} (hw : 8 ≤ w) {n k : Int} (hn : 0 ≤ n) (hk : 1 ≤ k) (h1 : Fits w k) :
    Defined w (triE n k) ↔ Fits w (n * (n + 1) * k) := by
  rw [defined_iff]
  simp only [triE, IExpr.Safe, IExpr.eval]
  constructor
  · intro h; exact h.1.2.2
  · intro h
    have hnn : 0 ≤ n * (n + 1) := Int.mul_nonneg hn (by omega)
    have hle : n * (n + 1) ≤ n * (n + 1) * k := nonlin hnn hk
    have h0 : 0 ≤ n * (n + 1) * k := Int.mul_nonneg hnn (by omega)
    have hnsq : n ≤ n * (n + 1) := nonlin hn (by omega)
    have hn1 : n + 1 ≤ n * (n + 1) + 1 := by omega
    have f1 : Fits w (n * (n + 1)) := fits_of_le hnn hle h
    have f2 : Fits w n := fits_of_le hn hnsq f1
    have f3 : Fits w (n + 1) := by
      rcases Int.lt_or_le n 1 with h' | h'
      · exact fits_small hw (by omega) (by omega)
      · refine fits_of_le (by omega) ?_ f1
        have := Int.mul_le_mul_of_nonneg_right h' (show (0 : Int) ≤ n + 1 by omega)
        omega
    obtain ⟨d1, d2⟩ := tdiv_nonneg_le h0 (d := 2) (by decide)
    exact ⟨⟨⟨f2, ⟨f2, fits_small hw (by decide) (by decide), f3⟩, f1⟩, h1, h⟩, fits_small hw (by decide) (by decide), by decide,
      fits_of_le d1 d2 h⟩

/-- C94, `xtrmv`, `xtrsv`. -/
theorem triVec_defined_iff {w : Nat} (hw : 8 ≤ w) {n : Int} (hn : 0 ≤ n) : Defined w (triVecE n) ↔ Fits w (n * (n + 1)) := by
  have h := tri_defined_iff hw hn (Int.le_refl 1) (fits_small hw (by decide) (by decide))
  rw [defined_iff] at h ⊢
  simp only [triE, triVecE, IExpr.Safe, IExpr.eval, Int.mul_one] at h ⊢
  constructor
  · intro h'; exact h'.1.2.2
  · intro h'
    obtain ⟨⟨h1, _, _⟩, h2⟩ := h.2 h'
    exact ⟨h1, h2⟩

/-- C94, `xtrsm`. -/
theorem trsm_defined_iff {w : Nat} (hw : 8 ≤ w) {n k : Int} (hn : 0 ≤ n) (hk : 1 ≤ k) (h1 : Fits w k) :
    Defined w (trsmE n k) ↔ Fits w (n * (n + 1) * k) := by
  have h := tri_defined_iff hw hn hk h1
  rw [defined_iff] at h ⊢
  rw [← h]
  simp only [trsmE, IExpr.Safe]
  constructor
  · intro h'; exact h'.1
  · intro h'
    have hf := h.1 h'
    have hnn : 0 ≤ n * (n + 1) := Int.mul_nonneg hn (by omega)
    have hle : n * (n + 1) ≤ n * (n + 1) * k := nonlin hnn hk
    have h0 : 0 ≤ n * (n + 1) * k := Int.mul_nonneg hnn (by omega)
    have hnsq : n ≤ n * (n + 1) := nonlin hn (by omega)
    refine ⟨h', fits_of_le hn (by omega) hf, ?_⟩
    show Fits w ((n * (n + 1) * k).tdiv 2 + n)
    have e : (n * (n + 1) * k).tdiv 2 = (n * (n + 1) * k) / 2 := Int.tdiv_eq_ediv_of_nonneg h0
    rw [e]
    rcases Int.lt_or_le n 2 with h2 | h2
    · rcases (show n = 0 ∨ n = 1 by omega) with rfl | rfl
      · exact fits_of_le (by omega) (by omega) hf
      · have e1 : (1 : Int) * (1 + 1) * k = 2 * k := by ring
        rw [e1] at hf ⊢
        rw [Int.mul_ediv_cancel_left _ (by decide)]
        rcases Int.lt_or_le k 2 with h4 | h4
        · exact fits_small hw (by omega) (by omega)
        · exact fits_of_le (by omega) (by omega) hf
    · have h5 : n * 3 ≤ n * (n + 1) := Int.mul_le_mul_of_nonneg_left (by omega) hn
      exact fits_of_le (by omega) (by omega) hf

theorem small_cases {w : Nat} {n : Int} (h0 : 0 ≤ n) (h : n < 5) (f : Int → IExpr)
    (hf : ∀ n : Int, n = 0 ∨ n = 1 ∨ n = 2 ∨ n = 3 ∨ n = 4 → (f n).Safe 8) (mono : ∀ n, (f n).Safe 8 → (f n).Safe w) : (f n).Safe w :=
  mono n (hf n (by omega))

theorem safe_mono {w w' : Nat} (h : w ≤ w') : ∀ e : IExpr, e.Safe w → e.Safe w'
  | .lit _ => fits_mono h
  | .mul a b => fun ⟨h1, h2, h3⟩ => ⟨safe_mono h a h1, safe_mono h b h2, fits_mono h h3⟩
  | .add a b => fun ⟨h1, h2, h3⟩ => ⟨safe_mono h a h1, safe_mono h b h2, fits_mono h h3⟩
  | .sub a b => fun ⟨h1, h2, h3⟩ => ⟨safe_mono h a h1, safe_mono h b h2, fits_mono h h3⟩
  | .div a b => fun ⟨h1, h2, h3, h4⟩ => ⟨safe_mono h a h1, safe_mono h b h2, h3, fits_mono h h4⟩

/-- C94, `xpotrf_L`: exactly if `(n - 1) n (n + 1)` fits: about six times the number of operations. -/
theorem potrf_defined_iff {w : Nat} (hw : 8 ≤ w) {n : Int} (hn : 0 ≤ n) : Defined w (potrfE n) ↔ Fits w ((n - 1) * n * (n + 1)) := by
  rw [defined_iff]
  constructor
  · intro h; exact h.1.1.1.2.2
  · intro hp
    rcases Int.lt_or_le n 5 with h4 | h4
    · refine small_cases hn h4 potrfE ?_ (fun n h => safe_mono hw _ h)
      rintro n (rfl | rfl | rfl | rfl | rfl) <;> simp only [potrfE, IExpr.Safe, IExpr.eval] <;> decide
    · simp only [potrfE, IExpr.Safe, IExpr.eval]
      have q0 : 4 * n ≤ (n - 1) * n := Int.mul_le_mul_of_nonneg_right (by omega) hn
      have p0 : (n - 1) * n * 6 ≤ (n - 1) * n * (n + 1) := Int.mul_le_mul_of_nonneg_left (by omega) (by omega)
      revert q0 p0 hp
      generalize (n - 1) * n * (n + 1) = p
      generalize (n - 1) * n = q
      intro hp q0 p0
      have e1 : p.tdiv 6 = p / 6 := Int.tdiv_eq_ediv_of_nonneg (by omega)
      have e2 : q.tdiv 2 = q / 2 := Int.tdiv_eq_ediv_of_nonneg (by omega)
      rw [e1, e2]
      have f : ∀ x : Int, 0 ≤ x → x ≤ p → Fits w x := fun x h1 h2 => fits_of_le h1 h2 hp
      refine ⟨⟨⟨⟨⟨⟨f _ ?_ ?_, f _ ?_ ?_, f _ ?_ ?_⟩, f _ ?_ ?_, f _ ?_ ?_⟩, ⟨f _ ?_ ?_, f _ ?_ ?_, f _ ?_ ?_⟩, f _ ?_ ?_⟩, f _ ?_ ?_, by decide,
        f _ ?_ ?_⟩, ⟨⟨⟨f _ ?_ ?_, f _ ?_ ?_, f _ ?_ ?_⟩, f _ ?_ ?_, f _ ?_ ?_⟩, f _ ?_ ?_, by decide, f _ ?_ ?_⟩, f _ ?_ ?_⟩,
        ⟨f _ ?_ ?_, f _ ?_ ?_, f _ ?_ ?_⟩, f _ ?_ ?_⟩ <;> omega

/-- C94, `xlauum_L`. -/
theorem lauum_defined_iff {w : Nat} (hw : 8 ≤ w) {n : Int} (hn : 0 ≤ n) : Defined w (lauumE n) ↔ Fits w ((n - 2) * (n - 1) * n) := by
  rw [defined_iff]
  constructor
  · intro h; exact h.1.1.1.2.2
  · intro hp
    rcases Int.lt_or_le n 5 with h4 | h4
    · refine small_cases hn h4 lauumE ?_ (fun n h => safe_mono hw _ h)
      rintro n (rfl | rfl | rfl | rfl | rfl) <;> simp only [lauumE, IExpr.Safe, IExpr.eval] <;> decide
    · simp only [lauumE, IExpr.Safe, IExpr.eval]
      have q0 : 3 * (n - 1) ≤ (n - 2) * (n - 1) := Int.mul_le_mul_of_nonneg_right (by omega) (by omega)
      have p0 : (n - 2) * (n - 1) * 5 ≤ (n - 2) * (n - 1) * n := Int.mul_le_mul_of_nonneg_left (by omega) (by omega)
      have r0 : (n - 1) * (n + 2) = (n - 2) * (n - 1) + 4 * (n - 1) := by ring
      revert q0 p0 hp r0
      generalize (n - 2) * (n - 1) * n = p
      generalize (n - 2) * (n - 1) = q
      generalize (n - 1) * (n + 2) = r
      intro hp q0 p0 r0
      have e1 : p.tdiv 6 = p / 6 := Int.tdiv_eq_ediv_of_nonneg (by omega)
      have e2 : r.tdiv 2 = r / 2 := Int.tdiv_eq_ediv_of_nonneg (by omega)
      rw [e1, e2]
      have f : ∀ x : Int, 0 ≤ x → x ≤ p → Fits w x := fun x h1 h2 => fits_of_le h1 h2 hp
      refine ⟨⟨⟨⟨⟨⟨f _ ?_ ?_, f _ ?_ ?_, f _ ?_ ?_⟩, ⟨f _ ?_ ?_, f _ ?_ ?_, f _ ?_ ?_⟩, f _ ?_ ?_⟩, f _ ?_ ?_, f _ ?_ ?_⟩, f _ ?_ ?_, by decide,
        f _ ?_ ?_⟩, ⟨⟨⟨f _ ?_ ?_, f _ ?_ ?_, f _ ?_ ?_⟩, ⟨f _ ?_ ?_, f _ ?_ ?_, f _ ?_ ?_⟩, f _ ?_ ?_⟩, f _ ?_ ?_, by decide, f _ ?_ ?_⟩, f _ ?_ ?_⟩,
        f _ ?_ ?_, f _ ?_ ?_⟩ <;> omega

/-- C94, `xtrtri_LN`. -/
theorem trtri_defined_iff {w : Nat} (hw : 8 ≤ w) {n : Int} (hn : 0 ≤ n) : Defined w (trtriE n) ↔ Fits w ((n - 2) * (n - 1) * n) := by
  rw [defined_iff]
  constructor
  · intro h; exact h.1.1.1.2.2
  · intro hp
    rcases Int.lt_or_le n 5 with h4 | h4
    · refine small_cases hn h4 trtriE ?_ (fun n h => safe_mono hw _ h)
      rintro n (rfl | rfl | rfl | rfl | rfl) <;> simp only [trtriE, IExpr.Safe, IExpr.eval] <;> decide
    · simp only [trtriE, IExpr.Safe, IExpr.eval]
      have q0 : 3 * (n - 1) ≤ (n - 2) * (n - 1) := Int.mul_le_mul_of_nonneg_right (by omega) (by omega)
      have p0 : (n - 2) * (n - 1) * 5 ≤ (n - 2) * (n - 1) * n := Int.mul_le_mul_of_nonneg_left (by omega) (by omega)
      have r0 : (n - 1) * n = (n - 2) * (n - 1) + 2 * (n - 1) := by ring
      revert q0 p0 hp r0
      generalize (n - 2) * (n - 1) * n = p
      generalize (n - 2) * (n - 1) = q
      generalize (n - 1) * n = r
      intro hp q0 p0 r0
      have e1 : p.tdiv 6 = p / 6 := Int.tdiv_eq_ediv_of_nonneg (by omega)
      have e2 : r.tdiv 2 = r / 2 := Int.tdiv_eq_ediv_of_nonneg (by omega)
      rw [e1, e2]
      have f : ∀ x : Int, 0 ≤ x → x ≤ p → Fits w x := fun x h1 h2 => fits_of_le h1 h2 hp
      refine ⟨⟨⟨⟨⟨⟨f _ ?_ ?_, f _ ?_ ?_, f _ ?_ ?_⟩, ⟨f _ ?_ ?_, f _ ?_ ?_, f _ ?_ ?_⟩, f _ ?_ ?_⟩, f _ ?_ ?_, f _ ?_ ?_⟩, f _ ?_ ?_, by decide,
        f _ ?_ ?_⟩, ⟨⟨⟨f _ ?_ ?_, f _ ?_ ?_, f _ ?_ ?_⟩, f _ ?_ ?_, f _ ?_ ?_⟩, f _ ?_ ?_, by decide, f _ ?_ ?_⟩, f _ ?_ ?_⟩,
        f _ ?_ ?_, f _ ?_ ?_⟩ <;> omega

/-! ## Sizes that are safe, and sizes that are not -/

/-- C94, full statement for an index type of `w` bits: no number of operations overflows for operands whose own sizes fit the index type. -/
def CountsDefined (w : Nat) : Prop :=
  (∀ C A : View, 0 ≤ C.rows → 0 ≤ C.cols → 0 ≤ A.cols → Fits w (C.rows * C.cols) → Fits w (C.rows * A.cols) → Fits w (C.cols * A.cols) →
    Fits w C.rows → Fits w C.cols → Fits w A.cols → Defined w (gemmE C A.cols)) ∧
  (∀ n : Int, 0 ≤ n → Fits w (n * n) → Defined w (potrfE n))

theorem prod_le {a b c x y z : Int} (ha : 0 ≤ a) (hb : 0 ≤ b) (hc : 0 ≤ c) (hx : a ≤ x) (hy : b ≤ y) (hz : c ≤ z) : a * b * c ≤ x * y * z :=
  Int.mul_le_mul (Int.mul_le_mul hx hy hb (by omega)) hz hc (Int.mul_nonneg (by omega) (by omega))

/-- C94. With 64 bits no number of operations overflows for matrices with at most a million rows and columns (2²⁰). -/
theorem counts_defined_64_partial (C : View) (n k : Int) (h1 : 0 ≤ C.rows) (h2 : C.rows ≤ 2 ^ 20) (h3 : 0 ≤ C.cols) (h4 : C.cols ≤ 2 ^ 20)
    (hn : 0 ≤ n) (hn' : n ≤ 2 ^ 20) (hk : 0 ≤ k) (hk' : k ≤ 2 ^ 20) :
    Defined 64 (gemvE C) ∧ Defined 64 (gemmE C k) ∧ Defined 64 (triE n k) ∧ Defined 64 (triVecE n) ∧ Defined 64 (trsmE n k) ∧
    Defined 64 (potrfE n) ∧ Defined 64 (lauumE n) ∧ Defined 64 (trtriE n) := by
  have small : ∀ x : Int, 0 ≤ x → x ≤ 2 ^ 62 → Fits 64 x := fun x a b => by rw [fits_nonneg a]; omega
  have fr : Fits 64 C.rows := small _ h1 (by omega)
  have fc : Fits 64 C.cols := small _ h3 (by omega)
  have fk : Fits 64 k := small _ hk (by omega)
  have fn : Fits 64 n := small _ hn (by omega)
  have mC : C.rows * C.cols ≤ 2 ^ 20 * 2 ^ 20 := Int.mul_le_mul h2 h4 h3 (by decide)
  have mC0 : 0 ≤ C.rows * C.cols := Int.mul_nonneg h1 h3
  have mCk := prod_le h1 h3 hk h2 h4 hk'
  have mCk0 : 0 ≤ C.rows * C.cols * k := Int.mul_nonneg mC0 hk
  have t := prod_le hn (show 0 ≤ n + 1 by omega) hk hn' (show n + 1 ≤ 2 ^ 20 + 1 by omega) hk'
  have t0 : 0 ≤ n * (n + 1) * k := Int.mul_nonneg (Int.mul_nonneg hn (by omega)) hk
  have tn0 : 0 ≤ n * (n + 1) := Int.mul_nonneg hn (by omega)
  have tn : n * (n + 1) ≤ 2 ^ 20 * (2 ^ 20 + 1) := Int.mul_le_mul hn' (by omega) (by omega) (by decide)
  have tri : Defined 64 (triE n k) ∧ Defined 64 (trsmE n k) := by
    rcases (show k = 0 ∨ 1 ≤ k by omega) with rfl | h
    · rw [defined_iff, defined_iff]
      have e : Fits 64 (n + 1) := small _ (by omega) (by omega)
      have f : Fits 64 (n * (n + 1)) := small _ tn0 (by omega)
      simp only [trsmE, triE, IExpr.Safe, IExpr.eval, Int.mul_zero]
      have z : Fits 64 0 := by decide
      refine ⟨⟨⟨⟨fn, ⟨fn, by decide, e⟩, f⟩, z, z⟩, by decide, by decide, by decide⟩,
        ⟨⟨⟨fn, ⟨fn, by decide, e⟩, f⟩, z, z⟩, by decide, by decide, by decide⟩, fn, ?_⟩
      rw [show Int.tdiv 0 2 = 0 from rfl, Int.zero_add]; exact fn
    · exact ⟨(tri_defined_iff (by decide) hn h fk).2 (small _ t0 (by omega)), (trsm_defined_iff (by decide) hn h fk).2 (small _ t0 (by omega))⟩
  have p2 : (n - 2) * (n - 1) * n ≤ 2 ^ 62 ∧ 0 ≤ (n - 2) * (n - 1) * n := by
    rcases (show n = 0 ∨ n = 1 ∨ 2 ≤ n by omega) with rfl | rfl | h
    · decide
    · decide
    · have := prod_le (show 0 ≤ n - 2 by omega) (show 0 ≤ n - 1 by omega) hn (show n - 2 ≤ 2 ^ 20 by omega) (show n - 1 ≤ 2 ^ 20 by omega) hn'
      exact ⟨by omega, Int.mul_nonneg (Int.mul_nonneg (by omega) (by omega)) hn⟩
  have p1 : (n - 1) * n * (n + 1) ≤ 2 ^ 62 ∧ 0 ≤ (n - 1) * n * (n + 1) := by
    rcases (show n = 0 ∨ 1 ≤ n by omega) with rfl | h
    · decide
    · have := prod_le (show 0 ≤ n - 1 by omega) hn (show 0 ≤ n + 1 by omega) (show n - 1 ≤ 2 ^ 20 by omega) hn' (show n + 1 ≤ 2 ^ 20 + 1 by omega)
      exact ⟨by omega, Int.mul_nonneg (Int.mul_nonneg (by omega) hn) (by omega)⟩
  exact ⟨(gemv_defined_iff fr fc).2 (small _ mC0 (by omega)), (gemm_defined_iff fr fc fk).2 ⟨small _ mC0 (by omega), small _ mCk0 (by omega)⟩, tri.1,
    (triVec_defined_iff (by decide) hn).2 (small _ tn0 (by omega)), tri.2, (potrf_defined_iff (by decide) hn).2 (small _ p1.2 p1.1),
    (lauum_defined_iff (by decide) hn).2 (small _ p2.2 p2.1), (trtri_defined_iff (by decide) hn).2 (small _ p2.2 p2.1)⟩

/-- C94. With 32 bits the full statement is false: the product of two 1291×1291 matrices overflows, although each of them has only 13 MB of
doubles; so does the Cholesky factorisation of such a matrix, which has 361 million operations. -/
theorem not_countsDefined_32 : ¬ CountsDefined 32 := by
  rintro ⟨_, h⟩
  have := (potrf_defined_iff (by decide) (by decide)).1 (h 1291 (by decide) (by decide))
  exact absurd this (by decide)

theorem gemm_overflows_32 (C : View) (h1 : C.rows = 1291) (h2 : C.cols = 1291) : ¬ Defined 32 (gemmE C 1291) := by
  rw [gemm_defined_iff (by rw [h1]; decide) (by rw [h2]; decide) (by decide), h1, h2]
  decide

/-- C94. With 32 bits, the largest square matrices for which `xgemm`, `xtrsm` (and `xtrmm`, `xsyrk`, `xgemmt`), `xpotrf` and `xtrtri` (and
`xlauum`) are defined: 1290, 1289, 1290 and 1291 rows. -/
theorem thresholds_32 (n : Int) (hn : 1 ≤ n) (hs : n ≤ 46340) :
    ((∀ C : View, C.rows = n → C.cols = n → Defined 32 (gemmE C n)) ↔ n ≤ 1290) ∧ (Defined 32 (trsmE n n) ↔ n ≤ 1289) ∧ (Defined 32 (potrfE n) ↔ n ≤ 1290) ∧
    (Defined 32 (trtriE n) ↔ n ≤ 1291) := by
  have fn : Fits 32 n := by rw [fits_nonneg (by omega)]; omega
  have nn : 0 ≤ n * n := Int.mul_nonneg (by omega) (by omega)
  have up : ∀ a b c A : Int, 0 ≤ a → 0 ≤ b → 0 ≤ c → a ≤ A → b ≤ A + 1 → c ≤ A → a * b * c ≤ A * (A + 1) * A := fun a b c A x y z u v s => prod_le x y z u v s
  refine ⟨?_, ?_, ?_, ?_⟩
  · constructor
    · intro h
      have := (gemm_defined_iff fn fn fn).1 (h ⟨0, n, n, 1, n⟩ rfl rfl)
      refine Classical.byContradiction fun hc => ?_
      have h3 := prod_le (a := 1291) (b := 1291) (c := 1291) (by decide) (by decide) (by decide) (show 1291 ≤ n by omega) (show 1291 ≤ n by omega)
        (show 1291 ≤ n by omega)
      have h4 := this.2.2
      simp only at h4
      omega
    · intro h C hr hc
      rw [gemm_defined_iff (by rw [hr]; exact fn) (by rw [hc]; exact fn) fn, hr, hc]
      have h3 := prod_le (show 0 ≤ n by omega) (show 0 ≤ n by omega) (show 0 ≤ n by omega) h h h
      have h4 : n * n ≤ 1290 * 1290 := Int.mul_le_mul h h (by omega) (by decide)
      exact ⟨(fits_nonneg nn).2 (by omega), (fits_nonneg (Int.mul_nonneg nn (by omega))).2 (by omega)⟩
  · rw [trsm_defined_iff (by decide) (by omega) hn fn, fits_nonneg (Int.mul_nonneg (Int.mul_nonneg (by omega) (by omega)) (by omega))]
    constructor
    · intro h
      refine Classical.byContradiction fun hc => ?_
      have h3 := prod_le (a := 1290) (b := 1291) (c := 1290) (by decide) (by decide) (by decide) (show 1290 ≤ n by omega) (show 1291 ≤ n + 1 by omega)
        (show 1290 ≤ n by omega)
      omega
    · intro h
      have h3 := prod_le (show 0 ≤ n by omega) (show 0 ≤ n + 1 by omega) (show 0 ≤ n by omega) h (show n + 1 ≤ 1290 by omega) h
      omega
  · rw [potrf_defined_iff (by decide) (by omega), fits_nonneg (Int.mul_nonneg (Int.mul_nonneg (by omega) (by omega)) (by omega))]
    constructor
    · intro h
      refine Classical.byContradiction fun hc => ?_
      have h3 := prod_le (a := 1290) (b := 1291) (c := 1292) (by decide) (by decide) (by decide) (show 1290 ≤ n - 1 by omega) (show 1291 ≤ n by omega)
        (show 1292 ≤ n + 1 by omega)
      omega
    · intro h
      have h3 := prod_le (show 0 ≤ n - 1 by omega) (show 0 ≤ n by omega) (show 0 ≤ n + 1 by omega) (show n - 1 ≤ 1289 by omega) h (show n + 1 ≤ 1291 by omega)
      omega
  · rw [trtri_defined_iff (by decide) (by omega)]
    rcases (show n = 1 ∨ 2 ≤ n by omega) with rfl | h2
    · decide
    rw [fits_nonneg (Int.mul_nonneg (Int.mul_nonneg (by omega) (by omega)) (by omega))]
    constructor
    · intro h
      refine Classical.byContradiction fun hc => ?_
      have h3 := prod_le (a := 1290) (b := 1291) (c := 1292) (by decide) (by decide) (by decide) (show 1290 ≤ n - 2 by omega) (show 1291 ≤ n - 1 by omega)
        (show 1292 ≤ n by omega)
      omega
    · intro h
      have h3 := prod_le (show 0 ≤ n - 2 by omega) (show 0 ≤ n - 1 by omega) (show 0 ≤ n by omega) (show n - 2 ≤ 1289 by omega) (show n - 1 ≤ 1290 by omega) h
      omega

/-! ## Offsets in a batch -/

/-- blas-interface.cpp:212-214 (`i * stridea`, ...), 394 (`i * stridea`): the offset of matrix `i`. -/
def offsetE (i stride : Int) : IExpr := .mul (.lit i) (.lit stride)

/-- C94: the offsets in `xgemv_batch_strided` and `xpotrf_batch_strided` are defined for all matrices of the batch exactly if the offset of
the last one fits the index type; then they are the ones of the batch specification (C67). -/
theorem offsets_defined_iff {w : Nat} {stride : Int} {batch : Nat} (hs : 0 ≤ stride) (h1 : Fits w stride) (h2 : Fits w batch) (hb : 0 < batch) :
    (∀ i < batch, Defined w (offsetE i stride)) ↔ Fits w ((batch - 1 : Int) * stride) := by
  have each : ∀ i < batch, (Defined w (offsetE i stride) ↔ Fits w ((i : Int) * stride)) := by
    intro i hi
    rw [defined_iff]
    have : Fits w (i : Int) := fits_of_le (by omega) (show (i : Int) ≤ batch by omega) h2
    exact ⟨fun h => h.2.2, fun h => ⟨this, h1, h⟩⟩
  constructor
  · intro h
    have := (each (batch - 1) (by omega)).1 (h (batch - 1) (by omega))
    rwa [show ((batch - 1 : Nat) : Int) = (batch : Int) - 1 by omega] at this
  · intro h i hi
    rw [each i hi]
    exact fits_of_le (Int.mul_nonneg (by omega) hs) (Int.mul_le_mul_of_nonneg_right (by omega) hs) h

/-- C94, the value: an offset that is defined is `i * stride`. -/
theorem offset_value {w : Nat} {i stride v : Int} (h : (offsetE i stride).run w = .ok v) : v = i * stride := ((run_ok_iff w _ v).1 h).2

/-- With 32 bits, a batch of a thousand matrices with a stride of 1500² overflows. -/
example : ¬ ∀ i < 1000, Defined 32 (offsetE (i : Nat) 2250000) := by
  rw [offsets_defined_iff (by decide) (by decide) (by decide) (by decide)]; decide

example : ∀ i < 1000, Defined 64 (offsetE (i : Nat) 2250000) := by
  rw [offsets_defined_iff (by decide) (by decide) (by decide) (by decide)]; decide

end Guanaqo.Blas
