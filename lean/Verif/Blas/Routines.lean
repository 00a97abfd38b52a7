import Verif.Blas.Views

/-! # The routines on views -/

namespace Guanaqo.Blas

open Guanaqo.MatView (View)
open Finset Matrix

variable {α : Type} [Field α] {L : Lib α}

theorem sum_fin {n : ℕ} (f : ℕ → α) : ∑ l ∈ range ((n : Int).toNat), f l = ∑ l : Fin n, f l := by
  rw [Int.toNat_natCast, Finset.sum_range]

theorem gemm_view (hL : L.Conforms) (tA tB : Trans) {A B C : View} {r k c : ℕ} (alpha beta : α) {m : Mem α}
    (hA : Is A (if tA = .no then r else k) (if tA = .no then k else r) m)
    (hB : Is B (if tB = .no then k else c) (if tB = .no then c else k) m) (hC : Is C r c m) (h1 : Separate C A) (h2 : Separate C B) :
    ∃ m', L.gemm .col tA tB r c k alpha A.data A.outer B.data B.outer beta C.data C.outer m = .ok m' ∧
      mat C r c m' = alpha • (opMat tA A r k m * opMat tB B k c m) + beta • mat C r c m ∧ OnlyIn C m m' := by
  obtain ⟨m', e, hw⟩ := hL.gemm .col tA tB r c k alpha A.data A.outer B.data B.outer beta C.data C.outer m (by omega) (by omega) (by omega)
    (hA.opLdOk tA) (hB.opLdOk tB) hC.outer (hA.alloc_op tA) (hB.alloc_op tB) hC.alloc (h1.apart_op tA hC hA rect_lt)
    (h2.apart_op tB hC hB rect_lt)
  obtain ⟨h, ho⟩ := hw.mat_eq hC
  refine ⟨m', e, ?_, ho⟩
  ext i j
  rw [h]
  simp only [Matrix.add_apply, Matrix.smul_apply, Matrix.mul_apply, smul_eq_mul, opMat, mat, addr_eq hC.inner, sum_fin]

theorem gemmt_view (hL : L.Conforms) (tA tB : Trans) {A B C : View} {n k : ℕ} (alpha beta : α) {m : Mem α}
    (hA : Is A (if tA = .no then n else k) (if tA = .no then k else n) m)
    (hB : Is B (if tB = .no then k else n) (if tB = .no then n else k) m) (hC : Is C n n m) (h1 : Separate C A) (h2 : Separate C B) :
    ∃ m', L.gemmt .col .lower tA tB n k alpha A.data A.outer B.data B.outer beta C.data C.outer m = .ok m' ∧
      LowerEq (mat C n n m') (alpha • (opMat tA A n k m * opMat tB B k n m) + beta • mat C n n m) ∧ OnlyInLower C m m' := by
  obtain ⟨m', e, hw⟩ := hL.gemmt .col .lower tA tB n k alpha A.data A.outer B.data B.outer beta C.data C.outer m (by omega) (by omega)
    (hA.opLdOk tA) (hB.opLdOk tB) hC.outer (hA.alloc_op tA) (hB.alloc_op tB) hC.alloc_tri (h1.apart_op tA hC hA tri_lt)
    (h2.apart_op tB hC hB tri_lt)
  obtain ⟨h, ho⟩ := hw.lower_eq hC
  refine ⟨m', e, ?_, ho⟩
  intro i j hij
  rw [h i j hij]
  simp only [Matrix.add_apply, Matrix.smul_apply, Matrix.mul_apply, smul_eq_mul, opMat, mat, addr_eq hC.inner, sum_fin]

theorem syrk_view (hL : L.Conforms) (t : Trans) {A C : View} {n k : ℕ} (alpha beta : α) {m : Mem α}
    (hA : Is A (if t = .no then n else k) (if t = .no then k else n) m) (hC : Is C n n m) (h1 : Separate C A) :
    ∃ m', L.syrk .col .lower t n k alpha A.data A.outer beta C.data C.outer m = .ok m' ∧
      LowerEq (mat C n n m') (alpha • (opMat t A n k m * (opMat t A n k m)ᵀ) + beta • mat C n n m) ∧ OnlyInLower C m m' := by
  obtain ⟨m', e, hw⟩ := hL.syrk .col .lower t n k alpha A.data A.outer beta C.data C.outer m (by omega) (by omega)
    (hA.opLdOk t) hC.outer (hA.alloc_op t) hC.alloc_tri (h1.apart_op t hC hA tri_lt)
  obtain ⟨h, ho⟩ := hw.lower_eq hC
  refine ⟨m', e, ?_, ho⟩
  intro i j hij
  rw [h i j hij]
  simp only [Matrix.add_apply, Matrix.smul_apply, Matrix.mul_apply, Matrix.transpose_apply, smul_eq_mul, opMat, mat, addr_eq hC.inner, sum_fin]

theorem trmm_view_left (hL : L.Conforms) (t : Trans) {A B : View} {n c : ℕ} (alpha : α) {m : Mem α} (hA : Is A n n m) (hB : Is B n c m)
    (h1 : Separate B A) :
    ∃ m', L.trmm .col .left .lower t .nonUnit n c alpha A.data A.outer B.data B.outer m = .ok m' ∧
      mat B n c m' = alpha • (opLower t (mat A n n m) * mat B n c m) ∧ OnlyIn B m m' := by
  obtain ⟨m', e, hw⟩ := hL.trmm .col .left .lower t .nonUnit n c alpha A.data A.outer B.data B.outer m (by omega) (by omega)
    hA.outer hB.outer hA.alloc_tri hB.alloc (h1.apart hB hA rect_lt tri_lt)
  obtain ⟨h, ho⟩ := hw.mat_eq hB
  refine ⟨m', e, ?_, ho⟩
  ext i j
  rw [h]
  simp only [Matrix.smul_apply, Matrix.mul_apply, smul_eq_mul, sum_fin, ← opTri_lower hA.inner, mat, addr_eq hB.inner]

theorem trmm_view_right (hL : L.Conforms) (t : Trans) {A B : View} {n r : ℕ} (alpha : α) {m : Mem α} (hA : Is A n n m) (hB : Is B r n m)
    (h1 : Separate B A) :
    ∃ m', L.trmm .col .right .lower t .nonUnit r n alpha A.data A.outer B.data B.outer m = .ok m' ∧
      mat B r n m' = alpha • (mat B r n m * opLower t (mat A n n m)) ∧ OnlyIn B m m' := by
  obtain ⟨m', e, hw⟩ := hL.trmm .col .right .lower t .nonUnit r n alpha A.data A.outer B.data B.outer m (by omega) (by omega)
    hA.outer hB.outer hA.alloc_tri hB.alloc (h1.apart hB hA rect_lt tri_lt)
  obtain ⟨h, ho⟩ := hw.mat_eq hB
  refine ⟨m', e, ?_, ho⟩
  ext i j
  rw [h]
  simp only [Matrix.smul_apply, Matrix.mul_apply, smul_eq_mul, sum_fin, ← opTri_lower hA.inner, mat, addr_eq hB.inner]

theorem trsm_view_left (hL : L.Conforms) (t : Trans) {A B : View} {n c : ℕ} (alpha : α) {m : Mem α} (hA : Is A n n m) (hB : Is B n c m)
    (h1 : Separate B A) (hd : ∀ i, mat A n n m i i ≠ 0) :
    ∃ m', L.trsm .col .left .lower t .nonUnit n c alpha A.data A.outer B.data B.outer m = .ok m' ∧
      opLower t (mat A n n m) * mat B n c m' = alpha • mat B n c m ∧ OnlyIn B m m' := by
  obtain ⟨m', e, hw, h⟩ := hL.trsm .col .left .lower t .nonUnit n c alpha A.data A.outer B.data B.outer m (by omega) (by omega)
    hA.outer hB.outer hA.alloc_tri hB.alloc (h1.apart hB hA rect_lt tri_lt) (Is.regular hA.inner hd)
  refine ⟨m', e, ?_, hw.onlyIn hB⟩
  ext i j
  have := h i j (by exact_mod_cast i.2) (by exact_mod_cast j.2)
  simp only [sum_fin, opTri_lower hA.inner] at this
  simpa only [Matrix.smul_apply, Matrix.mul_apply, smul_eq_mul, mat, addr_eq hB.inner] using this

theorem trsm_view_right (hL : L.Conforms) (t : Trans) {A B : View} {n r : ℕ} (alpha : α) {m : Mem α} (hA : Is A n n m) (hB : Is B r n m)
    (h1 : Separate B A) (hd : ∀ i, mat A n n m i i ≠ 0) :
    ∃ m', L.trsm .col .right .lower t .nonUnit r n alpha A.data A.outer B.data B.outer m = .ok m' ∧
      mat B r n m' * opLower t (mat A n n m) = alpha • mat B r n m ∧ OnlyIn B m m' := by
  obtain ⟨m', e, hw, h⟩ := hL.trsm .col .right .lower t .nonUnit r n alpha A.data A.outer B.data B.outer m (by omega) (by omega)
    hA.outer hB.outer hA.alloc_tri hB.alloc (h1.apart hB hA rect_lt tri_lt) (Is.regular hA.inner hd)
  refine ⟨m', e, ?_, hw.onlyIn hB⟩
  ext i j
  have := h i j (by exact_mod_cast i.2) (by exact_mod_cast j.2)
  simp only [sum_fin, opTri_lower hA.inner] at this
  simpa only [Matrix.smul_apply, Matrix.mul_apply, smul_eq_mul, mat, addr_eq hB.inner] using this

/-! ## Vectors -/

theorem Alloc.vec {v : View} {n : ℕ} {m : Mem α} (h : Is v n 1 m) : Alloc (rect n 1) (cell .row v.data 1) m := by
  intro i j hij
  rw [h.vec i j hij]; exact h.alloc i j hij

theorem Apart.vec {v : View} {n : ℕ} {m : Mem α} {S : ℕ → ℕ → Prop} {f : ℕ → ℕ → Int} (h : Is v n 1 m)
    (ha : Apart (rect n 1) (cell .col v.data v.outer) S f) : Apart (rect n 1) (cell .row v.data 1) S f := by
  intro i j i' j' h1 h2
  rw [h.vec i j h1]; exact ha i j i' j' h1 h2

theorem Apart.vec_right {v : View} {n : ℕ} {m : Mem α} {S : ℕ → ℕ → Prop} {f : ℕ → ℕ → Int} (h : Is v n 1 m)
    (ha : Apart S f (rect n 1) (cell .col v.data v.outer)) : Apart S f (rect n 1) (cell .row v.data 1) := by
  intro i j i' j' h1 h2
  rw [h.vec i' j' h2]; exact ha i j i' j' h1 h2

theorem Writes.vec {v : View} {n : ℕ} {m m' : Mem α} {f : ℕ → ℕ → α} (h : Is v n 1 m)
    (hw : Writes (rect n 1) (cell .row v.data 1) f m m') : Writes (rect n 1) (cell .col v.data v.outer) f m m' := by
  refine ⟨fun i j hij => ?_, fun a ha => hw.2 a fun i j hij e => ?_⟩
  · rw [← h.vec i j hij]; exact hw.1 i j hij
  · exact ha i j hij (by rw [← h.vec i j hij]; exact e)

theorem Changes.vec {v : View} {n : ℕ} {m m' : Mem α} (h : Is v n 1 m)
    (hw : Changes (rect n 1) (cell .row v.data 1) m m') : Changes (rect n 1) (cell .col v.data v.outer) m m' := by
  refine ⟨fun i j hij => ?_, fun a ha => hw.2 a fun i j hij e => ?_⟩
  · rw [← h.vec i j hij]; exact hw.1 i j hij
  · exact ha i j hij (by rw [← h.vec i j hij]; exact e)

theorem mat_vec {v : View} {n : ℕ} {m : Mem α} (h : v.inner = 1) (i : Fin n) (j : Fin 1) :
    val m (cell .row v.data 1 i j) = mat v n 1 m i j := by
  have : j = 0 := Subsingleton.elim _ _
  subst this
  simp [mat, View.addr, cell, h]

theorem mat_vec0 {v : View} {n : ℕ} {m : Mem α} (h : v.inner = 1) (i : Fin n) :
    val m (cell .row v.data 1 i 0) = mat v n 1 m i 0 := mat_vec h i 0

theorem gemv_view (hL : L.Conforms) (t : Trans) {A x y : View} {r c : ℕ} (alpha beta : α) {m : Mem α} (hr : 0 < r) (hc : 0 < c)
    (hA : Is A (if t = .no then r else c) (if t = .no then c else r) m) (hx : Is x c 1 m) (hy : Is y r 1 m)
    (h1 : Separate y A) (h2 : Separate y x) :
    ∃ m', L.gemv .col t A.rows A.cols alpha A.data A.outer x.data 1 beta y.data 1 m = .ok m' ∧
      mat y r 1 m' = alpha • (opMat t A r c m * mat x c 1 m) + beta • mat y r 1 m ∧ OnlyIn y m m' := by
  have e1 : (if t = .no then A.rows else A.cols) = (r : Int) := by
    cases t
    · exact hA.rows
    · exact hA.cols
  have e2 : (if t = .no then A.cols else A.rows) = (c : Int) := by
    cases t
    · exact hA.cols
    · exact hA.rows
  have hpos : 0 < A.rows ∧ 0 < A.cols := by
    cases t
    · exact ⟨by have := hA.rows; simp at this; omega, by have := hA.cols; simp at this; omega⟩
    · exact ⟨by have := hA.rows; simp at this; omega, by have := hA.cols; simp at this; omega⟩
  have hg := hL.gemv .col t A.rows A.cols alpha A.data A.outer x.data 1 beta y.data 1 m hpos.1 hpos.2 (by omega) (by omega)
    (by have := hA.outer; rw [← hA.rows] at this; exact this)
  dsimp only at hg
  rw [e1, e2] at hg
  obtain ⟨m', e, hw⟩ := hg (hA.alloc_op t) (Alloc.vec hx) (Alloc.vec hy) (Apart.vec hy (h1.apart_op t hy hA rect_lt))
    (Apart.vec hy (Apart.vec_right hx (h2.apart hy hx rect_lt rect_lt)))
  obtain ⟨h, ho⟩ := (Writes.vec hy hw).mat_eq hy
  refine ⟨m', e, ?_, ho⟩
  ext i j
  have hj : j = 0 := Subsingleton.elim _ _
  subst hj
  rw [h]
  simp only [Matrix.add_apply, Matrix.smul_apply, Matrix.mul_apply, smul_eq_mul, sum_fin, mat_vec0 hx.inner, mat_vec hy.inner, opMat]

theorem trmv_view (hL : L.Conforms) (t : Trans) {A x : View} {n : ℕ} {m : Mem α} (hA : Is A n n m) (hx : Is x n 1 m) (h1 : Separate x A) :
    ∃ m', L.trmv .col .lower t .nonUnit n A.data A.outer x.data 1 m = .ok m' ∧
      mat x n 1 m' = opLower t (mat A n n m) * mat x n 1 m ∧ OnlyIn x m m' := by
  obtain ⟨m', e, hw⟩ := hL.trmv .col .lower t .nonUnit n A.data A.outer x.data 1 m (by omega) (by omega) hA.outer hA.alloc_tri
    (Alloc.vec hx) (Apart.vec hx (h1.apart hx hA rect_lt tri_lt))
  obtain ⟨h, ho⟩ := (Writes.vec hx hw).mat_eq hx
  refine ⟨m', e, ?_, ho⟩
  ext i j
  have hj : j = 0 := Subsingleton.elim _ _
  subst hj
  rw [h]
  simp only [Matrix.mul_apply, sum_fin, ← opTri_lower hA.inner, mat_vec0 hx.inner]

theorem trsv_view (hL : L.Conforms) (t : Trans) {A x : View} {n : ℕ} {m : Mem α} (hA : Is A n n m) (hx : Is x n 1 m) (h1 : Separate x A)
    (hd : ∀ i, mat A n n m i i ≠ 0) :
    ∃ m', L.trsv .col .lower t .nonUnit n A.data A.outer x.data 1 m = .ok m' ∧
      opLower t (mat A n n m) * mat x n 1 m' = mat x n 1 m ∧ OnlyIn x m m' := by
  obtain ⟨m', e, hw, h⟩ := hL.trsv .col .lower t .nonUnit n A.data A.outer x.data 1 m (by omega) (by omega) hA.outer hA.alloc_tri
    (Alloc.vec hx) (Apart.vec hx (h1.apart hx hA rect_lt tri_lt)) (Is.regular hA.inner hd)
  refine ⟨m', e, ?_, (Changes.vec hx hw).onlyIn hx⟩
  ext i j
  have hj : j = 0 := Subsingleton.elim _ _
  subst hj
  have := h i (by exact_mod_cast i.2)
  simp only [sum_fin, opTri_lower hA.inner, mat_vec0 hx.inner] at this
  simpa only [Matrix.mul_apply] using this

/-! ## LAPACK -/

theorem potrf_view (hL : L.Conforms) {A : View} {n : ℕ} {m : Mem α} (hA : Is A n n m) {m' : Mem α} {info : Int}
    (e : L.potrf .lower n A.data A.outer m = (m', info)) : 0 ≤ info ∧ OnlyInLower A m m' ∧
      (info = 0 → LowerEq (lower (mat A n n m') * (lower (mat A n n m'))ᵀ) (mat A n n m)) ∧ (info = 0 → ∀ i, mat A n n m' i i ≠ 0) := by
  obtain ⟨h1, h2, h3, h4⟩ := hL.potrf .lower n A.data A.outer m (by omega) hA.outer hA.alloc_tri m' info e
  refine ⟨h1, h2.onlyInLower hA, fun h0 i j hij => ?_, fun h0 i => ?_⟩
  rotate_left
  · have := h4 h0 rfl i (by exact_mod_cast i.2)
    simpa only [mat, addr_eq hA.inner] using this
  have := h3 h0 i j (by exact_mod_cast i.2) (by exact_mod_cast j.2) ⟨by exact_mod_cast i.2, hij⟩
  simp only [sum_fin, triVal_lower hA.inner] at this
  rw [Matrix.mul_apply]
  simp only [Matrix.transpose_apply]
  rw [this]; simp only [mat, addr_eq hA.inner]

theorem lauum_view (hL : L.Conforms) {A : View} {n : ℕ} {m : Mem α} (hA : Is A n n m) :
    ∃ m', L.lauum .lower n A.data A.outer m = (m', 0) ∧ LowerEq (mat A n n m') ((lower (mat A n n m))ᵀ * lower (mat A n n m)) ∧ OnlyInLower A m m' := by
  obtain ⟨m', e, hw⟩ := hL.lauum .lower n A.data A.outer m (by omega) hA.outer hA.alloc_tri
  obtain ⟨h, ho⟩ := hw.lower_eq hA
  refine ⟨m', e, fun i j hij => ?_, ho⟩
  rw [h i j hij]
  simp only [Matrix.mul_apply, Matrix.transpose_apply, sum_fin, triVal_lower hA.inner]

theorem trtri_view (hL : L.Conforms) {A : View} {n : ℕ} {m : Mem α} (hA : Is A n n m) :
    ((∀ i, mat A n n m i i ≠ 0) → ∃ m', L.trtri .lower .nonUnit n A.data A.outer m = (m', 0) ∧
      lower (mat A n n m') * lower (mat A n n m) = 1 ∧ OnlyInLower A m m') ∧
    (∀ k, mat A n n m k k = 0 → (∀ i < k, mat A n n m i i ≠ 0) → L.trtri .lower .nonUnit n A.data A.outer m = (m, (k : Int) + 1)) := by
  obtain ⟨h1, h2⟩ := hL.trtri .lower .nonUnit n A.data A.outer m (by omega) hA.outer hA.alloc_tri
  refine ⟨fun hd => ?_, fun k hk hi => ?_⟩
  · obtain ⟨m', e, hw, h⟩ := h1 (Is.regular hA.inner hd)
    refine ⟨m', e, ?_, hw.onlyInLower hA⟩
    ext i j
    have := h i j (by exact_mod_cast i.2) (by exact_mod_cast j.2)
    simp only [sum_fin, triVal_lower hA.inner] at this
    rw [Matrix.mul_apply, this, Matrix.one_apply]
    simp only [Fin.ext_iff]
  · refine h2 k rfl (by exact_mod_cast k.2) ?_ fun i hik => ?_
    · simpa [mat, addr_eq hA.inner] using hk
    · have := hi ⟨i, lt_trans hik k.2⟩ (by rw [Fin.lt_def]; exact hik)
      simpa [mat, addr_eq hA.inner] using this

end Guanaqo.Blas
