import Verif.MatView.Checked2

/-! # Copying and adding views with checked arithmetic (C96) -/

namespace Guanaqo.MatView

variable {α : Type}

/-- In a view with room at its ends, all pointers that the loops form are valid. -/
theorem roomy_ptrs {E : Env} {v : View} (h : v.Inside E) (hR : v.Roomy E) (hne : v.Nonempty) :
    (∀ c i, 0 ≤ c → c < v.cols → 0 ≤ i → i ≤ v.rows → E.Ptr (v.data + c * v.outer + i * v.inner)) ∧
    (∀ c, 0 ≤ c → c ≤ v.cols → E.Ptr (v.data + c * v.outer)) := by
  have a : ∀ c i, 0 ≤ c → c < v.cols → 0 ≤ i → i ≤ v.rows → E.Ptr (v.data + c * v.outer + i * v.inner) := by
    intro c i h1 h2 h3 h4
    by_cases hi : i = v.rows
    · subst hi; exact hR.lastRow c h1 h2
    · have := h.elemPtr (r := i) (c := c) ⟨h3, by omega, h1, h2⟩
      simp only [View.addr] at this
      rwa [show v.data + c * v.outer + i * v.inner = v.data + (i * v.inner + c * v.outer) by ring]
  refine ⟨a, fun c h1 h2 => ?_⟩
  by_cases hc : c = v.cols
  · subst hc; exact hR.lastCol
  · have := a c 0 h1 (by omega) (Int.le_refl 0) (by have := hne.1; omega)
    simpa using this

/-- A step of a loop with two pointers. -/
theorem step2_eq {S D : Env} {x : Res (Mem α)} {p q d e : Int} (hp : S.Ptr (p + d)) (hq : D.Ptr (q + e)) :
    (do let m ← x; let p' ← S.padd p d; let q' ← D.padd q e; return (m, p', q')) = (do let m ← x; return (m, p + d, q + e)) := by
  cases x with
  | error e => rfl
  | ok m => simp only [bind, Except.bind, padd_ok hp, padd_ok hq]

theorem step1_eq {D : Env} {x : Res (Mem α)} {q e : Int} (hq : D.Ptr (q + e)) :
    (do let m ← x; let q' ← D.padd q e; return (m, q')) = (do let m ← x; return (m, q + e)) := by
  cases x with
  | error e => rfl
  | ok m => simp only [bind, Except.bind, padd_ok hq]

/-- A loop with two pointers is the unchecked one if all the pointers are valid. -/
theorem loop2_eq {S D : Env} {body : Mem α → Int → Int → Res (Mem α)} {n p q d e : Int} {m : Mem α}
    (hp : ∀ i, 0 ≤ i → i ≤ n → S.Ptr (p + i * d)) (hq : ∀ i, 0 ≤ i → i ≤ n → D.Ptr (q + i * e)) (bodyC : Mem α → Int → Int → Res (Mem α))
    (hb : ∀ i m, 0 ≤ i → i < n → bodyC m (p + i * d) (q + i * e) = body m (p + i * d) (q + i * e)) :
    forRange 0 n (fun _ (s : Mem α × Int × Int) => do
        let m ← bodyC s.1 s.2.1 s.2.2; let p ← S.padd s.2.1 d; let q ← D.padd s.2.2 e; return (m, p, q)) (m, p, q) =
      forRange 0 n (fun _ (s : Mem α × Int × Int) => do let m ← body s.1 s.2.1 s.2.2; return (m, s.2.1 + d, s.2.2 + e)) (m, p, q) := by
  refine forRange_congr (fun i s => s.2.1 = p + i * d ∧ s.2.2 = q + i * e) (by simp) ?_ ?_
  · rintro i ⟨m, x, y⟩ h1 h2 ⟨rfl, rfl⟩
    have a := hp (i + 1) (by omega) (by omega)
    have b := hq (i + 1) (by omega) (by omega)
    rw [show p + (i + 1) * d = p + i * d + d by ring] at a
    rw [show q + (i + 1) * e = q + i * e + e by ring] at b
    simp only
    rw [step2_eq a b, hb i m h1 h2]
  · rintro i ⟨m, x, y⟩ s' h1 h2 ⟨rfl, rfl⟩ hg
    simp only [res_bind_ok] at hg
    obtain ⟨m', _, h3⟩ := hg
    cases h3
    exact ⟨by ring, by ring⟩

theorem loop1_eq {D : Env} {body : Mem α → Int → Res (Mem α)} {n q e : Int} {m : Mem α}
    (hq : ∀ i, 0 ≤ i → i ≤ n → D.Ptr (q + i * e)) (bodyC : Mem α → Int → Res (Mem α))
    (hb : ∀ i m, 0 ≤ i → i < n → bodyC m (q + i * e) = body m (q + i * e)) :
    forRange 0 n (fun _ (s : Mem α × Int) => do let m ← bodyC s.1 s.2; let q ← D.padd s.2 e; return (m, q)) (m, q) =
      forRange 0 n (fun _ (s : Mem α × Int) => do let m ← body s.1 s.2; return (m, s.2 + e)) (m, q) := by
  refine forRange_congr (fun i s => s.2 = q + i * e) (by simp) ?_ ?_
  · rintro i ⟨m, y⟩ h1 h2 rfl
    have b := hq (i + 1) (by omega) (by omega)
    rw [show q + (i + 1) * e = q + i * e + e by ring] at b
    simp only
    rw [step1_eq b, hb i m h1 h2]
  · rintro i ⟨m, y⟩ s' h1 h2 rfl hg
    simp only [res_bind_ok] at hg
    obtain ⟨m', _, h3⟩ := hg
    cases h3
    show q + i * e + e = q + (i + 1) * e
    ring

theorem copyColumn_eq {S D : Env} {si di rows src dst : Int} (h0 : 0 ≤ rows) (hp : ∀ i, 0 ≤ i → i ≤ rows → S.Ptr (src + i * si))
    (hq : ∀ i, 0 ≤ i → i ≤ rows → D.Ptr (dst + i * di)) (m : Mem α) :
    copyColumnC S D si di rows src dst m = copyColumn si di rows src dst m := by
  unfold copyColumnC copyColumn
  split
  · rename_i hi
    have a := hp rows h0 (Int.le_refl _)
    have b := hq rows h0 (Int.le_refl _)
    rw [hi.1, Int.mul_one] at a
    rw [hi.2, Int.mul_one] at b
    have e : max rows 0 = rows := by omega
    simp only [e, padd_ok a, padd_ok b, bind, Except.bind]
  · have := loop2_eq (S := S) (D := D) (m := m) (body := fun m p q => do m.write q (← m.read p)) hp hq
      (fun m p q => do m.write q (← m.read p)) (fun _ _ _ _ => rfl)
    simp only [bind_assoc] at this ⊢
    rw [this]

theorem addColumn_eq [Add α] {S D : Env} {si di rows src dst : Int} (hp : ∀ i, 0 ≤ i → i ≤ rows → S.Ptr (src + i * si))
    (hq : ∀ i, 0 ≤ i → i ≤ rows → D.Ptr (dst + i * di)) (m : Mem α) :
    addColumnC S D si di rows src dst m = addColumn si di rows src dst m := by
  unfold addColumnC addColumn
  have := loop2_eq (S := S) (D := D) (m := m) (body := fun m p q => do let y ← m.read p; let x ← m.read q; m.write q (x + y)) hp hq
    (fun m p q => do let y ← m.read p; let x ← m.read q; m.write q (x + y)) (fun _ _ _ _ => rfl)
  simp only [bind_assoc] at this ⊢
  rw [this]

theorem addScalarColumn_eq [Add α] {D : Env} {di rows dst : Int} (hq : ∀ i, 0 ≤ i → i ≤ rows → D.Ptr (dst + i * di)) (u : Arg α) (m : Mem α) :
    addScalarColumnC D di rows dst u m = addScalarColumn di rows dst u m := by
  unfold addScalarColumnC addScalarColumn
  have := loop1_eq (D := D) (m := m) (body := fun m q => do let x ← m.read q; m.write q (x + (← u.eval m))) hq
    (fun m q => do let x ← m.read q; m.write q (x + (← u.eval m))) (fun _ _ _ _ => rfl)
  simp only [bind_assoc] at this ⊢
  rw [this]

/-- C96: copying between views is defined if both have room for the pointers after the last row and column. -/
theorem copyValues_defined_partial {S D : Env} {v other : View} (hv : v.Inside D) (ho : other.Inside S) (rv : v.Roomy D) (ro : other.Roomy S)
    (hne : v.Nonempty) (m : Mem α) : v.copyValuesC S D other m = v.copyValues other m := by
  unfold View.copyValuesC View.copyValues
  rw [assert_bind, assert_bind, assert_bind, assert_bind]
  by_cases h1 : other.rows = v.rows
  · by_cases h2 : other.cols = v.cols
    · rw [if_pos h1, if_pos h1, if_pos h2, if_pos h2]
      have hne' : other.Nonempty := ⟨by have := hne.1; omega, by have := hne.2; omega⟩
      obtain ⟨a1, a2⟩ := roomy_ptrs ho ro hne'
      obtain ⟨b1, b2⟩ := roomy_ptrs hv rv hne
      rw [h2] at a1 a2
      rw [h1] at a1
      congr 1
      exact loop2_eq (body := fun m p q => copyColumn other.inner v.inner v.rows p q m) a2 b2
        (fun m p q => copyColumnC S D other.inner v.inner v.rows p q m)
        (fun i m h3 h4 => copyColumn_eq hv.rows0 (fun j h5 h6 => a1 i j h3 h4 h5 h6) (fun j h5 h6 => b1 i j h3 h4 h5 h6) m)
    · rw [if_pos h1, if_pos h1, if_neg h2, if_neg h2]
  · rw [if_neg h1, if_neg h1]

/-- C96: the same for the addition of a view. -/
theorem addView_defined_partial [Add α] {S D : Env} {v other : View} (hv : v.Inside D) (ho : other.Inside S) (rv : v.Roomy D) (ro : other.Roomy S)
    (hne : v.Nonempty) (m : Mem α) : v.addViewC S D other m = v.addView other m := by
  unfold View.addViewC View.addView
  rw [assert_bind, assert_bind, assert_bind, assert_bind]
  by_cases h1 : other.rows = v.rows
  · by_cases h2 : other.cols = v.cols
    · rw [if_pos h1, if_pos h1, if_pos h2, if_pos h2]
      have hne' : other.Nonempty := ⟨by have := hne.1; omega, by have := hne.2; omega⟩
      obtain ⟨a1, a2⟩ := roomy_ptrs ho ro hne'
      obtain ⟨b1, b2⟩ := roomy_ptrs hv rv hne
      rw [h2] at a1 a2
      rw [h1] at a1
      congr 1
      exact loop2_eq (body := fun m p q => addColumn other.inner v.inner v.rows p q m) a2 b2
        (fun m p q => addColumnC S D other.inner v.inner v.rows p q m)
        (fun i m h3 h4 => addColumn_eq (fun j h5 h6 => a1 i j h3 h4 h5 h6) (fun j h5 h6 => b1 i j h3 h4 h5 h6) m)
    · rw [if_pos h1, if_pos h1, if_neg h2, if_neg h2]
  · rw [if_neg h1, if_neg h1]

/-- C96: the same for the addition of a number. -/
theorem addScalar_defined_partial [Add α] {D : Env} {v : View} (hv : v.Inside D) (rv : v.Roomy D) (hne : v.Nonempty) (u : Arg α) (m : Mem α) :
    v.addScalarC D u m = v.addScalar u m := by
  unfold View.addScalarC View.addScalar
  obtain ⟨b1, b2⟩ := roomy_ptrs hv rv hne
  congr 1
  exact loop1_eq (body := fun m q => addScalarColumn v.inner v.rows q u m) b2 (fun m q => addScalarColumnC D v.inner v.rows q u m)
    (fun i m h3 h4 => addScalarColumn_eq (fun j h5 h6 => b1 i j h3 h4 h5 h6) u m)

/-- A matrix stored by columns at the start of its array (or with as much space after it as its outer stride leaves) has room. -/
theorem roomy_of_columns {E : Env} {v : View} (h : v.Inside E) (hi : v.inner = 1) (hne : v.Nonempty) (ho : v.rows ≤ v.outer)
    (hend : v.data + v.cols * v.outer ≤ E.hi) : v.Roomy E := by
  have h0 := h.data
  obtain ⟨n1, n2⟩ := hne
  refine ⟨⟨?_, hend⟩, fun c h1 h2 => ?_⟩
  · have : 0 ≤ v.cols * v.outer := Int.mul_nonneg (by omega) (by omega)
    unfold Env.Ptr at h0; omega
  · have := (column_ptrs h hi ⟨Int.le_refl 0, n1, h1, h2⟩).2
    rw [hi, Int.mul_one]
    rwa [show max v.rows 0 = v.rows by omega] at this

/-! ## Where they are undefined -/

theorem walk2_needs {S D : Env} {body : Mem α → Int → Int → Res (Mem α)} {d e : Int} :
    ∀ (n : Nat) (lo : Int) (s s' : Mem α × Int × Int),
      forLoop (fun _ (s : Mem α × Int × Int) => do
        let m ← body s.1 s.2.1 s.2.2; let p ← S.padd s.2.1 d; let q ← D.padd s.2.2 e; return (m, p, q)) lo (n + 1) s = .ok s' →
      S.Ptr (s.2.1 + (n + 1) * d) ∧ D.Ptr (s.2.2 + (n + 1) * e) := by
  intro n
  induction n with
  | zero =>
    intro lo s s' h
    simp only [forLoop, res_bind_ok] at h
    obtain ⟨t, ⟨m, _, p, h2, q, h3, _⟩, _⟩ := h
    have a := (padd_ok_iff.1 h2).1
    have b := (padd_ok_iff.1 h3).1
    exact ⟨by simpa using a, by simpa using b⟩
  | succ n ih =>
    intro lo s s' h
    rw [forLoop] at h
    simp only [res_bind_ok] at h
    obtain ⟨t, ⟨m, _, p, h2, q, h3, h4⟩, h5⟩ := h
    cases h4
    have := ih (lo + 1) _ s' (by simpa only [res_bind_ok] using h5)
    simp only [(padd_ok_iff.1 h2).2, (padd_ok_iff.1 h3).2] at this
    rw [show s.2.1 + ((n + 1 : Nat) + 1) * d = s.2.1 + d + ((n : Int) + 1) * d by push_cast; ring,
      show s.2.2 + ((n + 1 : Nat) + 1) * e = s.2.2 + e + ((n : Int) + 1) * e by push_cast; ring]
    exact this

/-- C96: copying forms the pointers to the column after the last one, of both views. -/
theorem copyValues_needs {S D : Env} {v other : View} (hc : 0 < v.cols) {m m' : Mem α} (h : v.copyValuesC S D other m = .ok m') :
    S.Ptr (other.data + v.cols * other.outer) ∧ D.Ptr (v.data + v.cols * v.outer) := by
  unfold View.copyValuesC at h
  rw [assert_bind] at h
  split at h
  · rw [assert_bind] at h
    split at h
    · rw [res_bind_ok] at h
      obtain ⟨s, h1, _⟩ := h
      obtain ⟨k, hk⟩ : ∃ k : Nat, v.cols = k + 1 := ⟨(v.cols - 1).toNat, by omega⟩
      have e : (v.cols - 0).toNat = k + 1 := by omega
      rw [forRange, e] at h1
      have := walk2_needs (S := S) (D := D) (d := other.outer) (e := v.outer)
        (body := fun m p q => copyColumnC S D other.inner v.inner v.rows p q m) k 0 (m, other.data, v.data) s h1
      rw [hk]; exact this
    · cases h
  · cases h

/-- C96, full statement for copying: it is defined for all views of the same size. -/
def CopyDefined (α : Type) : Prop :=
  ∀ (S D : Env) (v other : View) (m : Mem α), v.Inside D → other.Inside S → v.rows = other.rows → v.cols = other.cols → v.Backed m → other.Backed m →
    ∃ m', v.copyValuesC S D other m = .ok m'

/-- C96. It is false for the bottom rows of a matrix stored in an array of its own, whatever is copied to them: the loop forms a pointer past
the end of the array. -/
theorem copy_bottomRows_undefined {S D : Env} {A u other : View} {n : Int} (hi : A.inner = 1) (ho : A.outer = A.rows)
    (hend : D.hi = A.data + A.rows * A.cols) (hn : n < A.rows) (hc : 0 < A.cols) (hu : A.bottomRows n = .ok u) (m m' : Mem α) :
    u.copyValuesC S D other m ≠ .ok m' := by
  intro h
  simp only [View.bottomRows, assert_bind] at hu
  split at hu
  · cases hu
    have := (copyValues_needs (by exact hc) h).2.2
    simp only [hi, ho, Int.one_mul] at this
    rw [hend] at this
    have e : A.cols * A.rows = A.rows * A.cols := Int.mul_comm _ _
    omega
  · cases hu

theorem not_copyDefined : ¬ CopyDefined Int := by
  intro h
  have hm : ∀ v : View, v.data = 1 → v.rows = 1 → v.inner = 1 → v.cols = 2 → v.outer = 2 → v.Backed (fun a => if 0 ≤ a ∧ a < 4 then some (1 : Int) else none) := by
    rintro v h1 h2 h3 h4 h5 r c ⟨a1, a2, a3, a4⟩
    exact ⟨1, if_pos (by rw [h1, h3, h5]; omega)⟩
  have hin : View.Inside ⟨64, 0, 4⟩ ⟨1, 1, 2, 1, 2⟩ := ⟨by decide, by decide, by decide, by decide, by decide, by decide, by decide, by decide, by decide, by
    rintro r c ⟨h1, h2, h3, h4⟩
    simp only [View.addr] at *
    omega⟩
  obtain ⟨m', hm'⟩ := h ⟨64, 0, 4⟩ ⟨64, 0, 4⟩ ⟨1, 1, 2, 1, 2⟩ ⟨1, 1, 2, 1, 2⟩ _ hin hin rfl rfl (hm _ rfl rfl rfl rfl rfl) (hm _ rfl rfl rfl rfl rfl)
  exact copy_bottomRows_undefined (A := ⟨0, 2, 2, 1, 2⟩) (n := 1) rfl rfl rfl (by decide) (by decide) rfl _ _ hm'

/-- C95, full statement: with an index type that holds the length of the array, no offset overflows. -/
def DiagonalDefined : Prop := ∀ (E : Env) (v : View), v.Inside E → v.rows = v.cols → ∃ u, v.diagonalC E = .ok u

/-- C95. False for `diagonal()`, which computes an outer stride that nobody needs: three columns with a stride of 10⁹ fit 32 bits, the outer
stride `3 (10⁹ + 1)` does not. -/
theorem not_diagonalDefined : ¬ DiagonalDefined := by
  intro h
  obtain ⟨u, hu⟩ := h ⟨32, 0, 2000000003⟩ ⟨0, 3, 3, 1, 1000000000⟩ ⟨by decide, by decide, by decide, by decide, by decide, by decide, by decide, by decide, by decide, by
    rintro r c ⟨h1, h2, h3, h4⟩
    simp only [View.addr] at *
    omega⟩ rfl
  have := (diagonal_defined_iff.1 ⟨u, hu⟩).2
  exact absurd this (by decide)

/-- The conditions of the theorems above are met by a 2×3 matrix of outer stride 4 in an array of 12 elements, with a 64-bit index. -/
example : View.Inside ⟨64, 0, 12⟩ ⟨0, 2, 3, 1, 4⟩ ∧ View.Roomy ⟨64, 0, 12⟩ ⟨0, 2, 3, 1, 4⟩ := by
  have hin : View.Inside ⟨64, 0, 12⟩ ⟨0, 2, 3, 1, 4⟩ := ⟨by decide, by decide, by decide, by decide, by decide, by decide, by decide, by decide, by decide, by
    rintro r c ⟨h1, h2, h3, h4⟩
    simp only [View.addr] at *
    omega⟩
  exact ⟨hin, roomy_of_columns hin rfl ⟨by decide, by decide⟩ (by decide) (by decide)⟩

end Guanaqo.MatView
