import Verif.MatView.Checked3
import Verif.MatView.Props

/-!
# C96, exactly: when the loops that advance pointers are defined

For views with elements in their arrays: copying and adding are defined if and only if the views have room for the pointers after the last row and
the last column, and the operations on the diagonal if and only if there is room for the pointer after its last element.
-/

namespace Guanaqo.MatView

variable {α : Type}

/-- Everything that a loop with two pointers does in its `n` steps. -/
theorem walk2_all {S D : Env} {body : Mem α → Int → Int → Res (Mem α)} {d e : Int} :
    ∀ (n : Nat) (lo : Int) (m : Mem α) (p q : Int) (s' : Mem α × Int × Int),
      forLoop (fun _ (s : Mem α × Int × Int) => do
        let m ← body s.1 s.2.1 s.2.2; let p ← S.padd s.2.1 d; let q ← D.padd s.2.2 e; return (m, p, q)) lo n (m, p, q) = .ok s' →
      ∀ i : Nat, i < n → (∃ m₁ m₂, body m₁ (p + i * d) (q + i * e) = .ok m₂) ∧ S.Ptr (p + (i + 1) * d) ∧ D.Ptr (q + (i + 1) * e) := by
  intro n
  induction n with
  | zero => intro lo m p q s' _ i hi; omega
  | succ n ih =>
    intro lo m p q s' h i hi
    rw [forLoop] at h
    simp only [res_bind_ok] at h
    obtain ⟨t, ⟨m₂, h1, p', h2, q', h3, h4⟩, h5⟩ := h
    cases h4
    obtain ⟨k1, rfl⟩ := padd_ok_iff.1 h2
    obtain ⟨k2, rfl⟩ := padd_ok_iff.1 h3
    cases i with
    | zero => exact ⟨⟨m, m₂, by simpa using h1⟩, by simpa using k1, by simpa using k2⟩
    | succ i =>
      have := ih (lo + 1) m₂ (p + d) (q + e) s' (by simpa only [res_bind_ok] using h5) i (by omega)
      rw [show p + d + (i : Int) * d = p + ((i + 1 : Nat) : Int) * d by push_cast; ring,
        show q + e + (i : Int) * e = q + ((i + 1 : Nat) : Int) * e by push_cast; ring,
        show p + d + ((i : Int) + 1) * d = p + (((i + 1 : Nat) : Int) + 1) * d by push_cast; ring,
        show q + e + ((i : Int) + 1) * e = q + (((i + 1 : Nat) : Int) + 1) * e by push_cast; ring] at this
      exact this

theorem walk2_range {S D : Env} {body : Mem α → Int → Int → Res (Mem α)} {d e n p q : Int} {m : Mem α} {s' : Mem α × Int × Int}
    (h : forRange 0 n (fun _ (s : Mem α × Int × Int) => do
        let m ← body s.1 s.2.1 s.2.2; let p ← S.padd s.2.1 d; let q ← D.padd s.2.2 e; return (m, p, q)) (m, p, q) = .ok s') (i : Int) (h0 : 0 ≤ i) (hi : i < n) :
    (∃ m₁ m₂, body m₁ (p + i * d) (q + i * e) = .ok m₂) ∧ S.Ptr (p + (i + 1) * d) ∧ D.Ptr (q + (i + 1) * e) := by
  obtain ⟨k, rfl⟩ := Int.eq_ofNat_of_zero_le h0
  exact walk2_all (n - 0).toNat 0 m p q s' h k (by omega)

/-- The same for one pointer. -/
theorem walk1_all {D : Env} {body : Mem α → Int → Res (Mem α)} {e : Int} :
    ∀ (n : Nat) (lo : Int) (m : Mem α) (q : Int) (s' : Mem α × Int),
      forLoop (fun _ (s : Mem α × Int) => do let m ← body s.1 s.2; let q ← D.padd s.2 e; return (m, q)) lo n (m, q) = .ok s' →
      ∀ i : Nat, i < n → (∃ m₁ m₂, body m₁ (q + i * e) = .ok m₂) ∧ D.Ptr (q + (i + 1) * e) := by
  intro n
  induction n with
  | zero => intro lo m q s' _ i hi; omega
  | succ n ih =>
    intro lo m q s' h i hi
    rw [forLoop] at h
    simp only [res_bind_ok] at h
    obtain ⟨t, ⟨m₂, h1, q', h3, h4⟩, h5⟩ := h
    cases h4
    obtain ⟨k2, rfl⟩ := padd_ok_iff.1 h3
    cases i with
    | zero => exact ⟨⟨m, m₂, by simpa using h1⟩, by simpa using k2⟩
    | succ i =>
      have := ih (lo + 1) m₂ (q + e) s' (by simpa only [res_bind_ok] using h5) i (by omega)
      rw [show q + e + (i : Int) * e = q + ((i + 1 : Nat) : Int) * e by push_cast; ring,
        show q + e + ((i : Int) + 1) * e = q + (((i + 1 : Nat) : Int) + 1) * e by push_cast; ring] at this
      exact this

theorem walk1_range {D : Env} {body : Mem α → Int → Res (Mem α)} {e n q : Int} {m : Mem α} {s' : Mem α × Int}
    (h : forRange 0 n (fun _ (s : Mem α × Int) => do let m ← body s.1 s.2; let q ← D.padd s.2 e; return (m, q)) (m, q) = .ok s')
    (i : Int) (h0 : 0 ≤ i) (hi : i < n) : (∃ m₁ m₂, body m₁ (q + i * e) = .ok m₂) ∧ D.Ptr (q + (i + 1) * e) := by
  obtain ⟨k, rfl⟩ := Int.eq_ofNat_of_zero_le h0
  exact walk1_all (n - 0).toNat 0 m q s' h k (by omega)

theorem copyColumn_needs {S D : Env} {si di rows src dst : Int} (h0 : 0 < rows) {m m' : Mem α} (h : copyColumnC S D si di rows src dst m = .ok m') :
    S.Ptr (src + rows * si) ∧ D.Ptr (dst + rows * di) := by
  unfold copyColumnC at h
  split at h
  · rename_i hi
    simp only [res_bind_ok] at h
    obtain ⟨p, h1, q, h2, _⟩ := h
    rw [show max rows 0 = rows by omega] at h1 h2
    rw [hi.1, hi.2, Int.mul_one]
    exact ⟨(padd_ok_iff.1 h1).1, (padd_ok_iff.1 h2).1⟩
  · rw [res_bind_ok] at h
    obtain ⟨s, h1, _⟩ := h
    have := walk2_range (S := S) (D := D) (body := fun m p q => do m.write q (← m.read p)) (d := si) (e := di) (n := rows) (p := src) (q := dst)
      (m := m) (s' := s) (by rw [← h1]; congr 1; funext _ s; simp only [bind_assoc]) (rows - 1) (by omega) (by omega)
    rw [show rows - 1 + 1 = rows by omega] at this
    exact this.2

theorem addColumn_needs [Add α] {S D : Env} {si di rows src dst : Int} (h0 : 0 < rows) {m m' : Mem α} (h : addColumnC S D si di rows src dst m = .ok m') :
    S.Ptr (src + rows * si) ∧ D.Ptr (dst + rows * di) := by
  unfold addColumnC at h
  rw [res_bind_ok] at h
  obtain ⟨s, h1, _⟩ := h
  have := walk2_range (S := S) (D := D) (body := fun m p q => do let y ← m.read p; let x ← m.read q; m.write q (x + y)) (d := si) (e := di) (n := rows)
    (p := src) (q := dst) (m := m) (s' := s) (by rw [← h1]; congr 1; funext _ s; simp only [bind_assoc]) (rows - 1) (by omega) (by omega)
  rw [show rows - 1 + 1 = rows by omega] at this
  exact this.2

theorem addScalarColumn_needs [Add α] {D : Env} {di rows dst : Int} (h0 : 0 < rows) {u : Arg α} {m m' : Mem α}
    (h : addScalarColumnC D di rows dst u m = .ok m') : D.Ptr (dst + rows * di) := by
  unfold addScalarColumnC at h
  rw [res_bind_ok] at h
  obtain ⟨s, h1, _⟩ := h
  have := walk1_range (D := D) (body := fun m q => do let x ← m.read q; m.write q (x + (← u.eval m))) (e := di) (n := rows)
    (q := dst) (m := m) (s' := s) (by rw [← h1]; congr 1; funext _ s; simp only [bind_assoc]) (rows - 1) (by omega) (by omega)
  rw [show rows - 1 + 1 = rows by omega] at this
  exact this.2

theorem backed_holds {v : View} {m : Mem α} (hne : v.Nonempty) (hb : v.Backed m) : ∃ g : Int → Int → α, ∀ r c, v.HasElem r c → v.Holds m r c (g r c) := by
  have hz : v.HasElem 0 0 := ⟨by omega, hne.1, by omega, hne.2⟩
  obtain ⟨x₀, _⟩ := hb 0 0 hz
  refine ⟨fun r c => (m (v.data + r * v.inner + c * v.outer)).getD x₀, fun r c hrc => ?_⟩
  obtain ⟨x, hx⟩ := hb r c hrc
  unfold View.Holds
  simp only [hx, Option.getD_some]

/-- C96, exactly, for copying: between views of the same size with elements (the destination without elements that share memory, and not overlapping with
the source in other places), it is defined if and only if both have room for the pointers after the last row and column. -/
theorem copyValues_defined_iff {S D : Env} {v other : View} (hv : v.Inside D) (ho : other.Inside S) (hne : v.Nonempty) (hrows : other.rows = v.rows)
    (hcols : other.cols = v.cols) (m : Mem α) (hinj : v.Injective) (hb : v.Backed m) (hs : other.Backed m) (hal : NoCrossAlias v other) :
    (∃ m', v.copyValuesC S D other m = .ok m') ↔ v.Roomy D ∧ other.Roomy S := by
  constructor
  · rintro ⟨m', h⟩
    unfold View.copyValuesC at h
    rw [assert_bind, if_pos hrows, assert_bind, if_pos hcols, res_bind_ok] at h
    obtain ⟨s, h1, _⟩ := h
    have hw := walk2_range (S := S) (D := D) (body := fun m p q => copyColumnC S D other.inner v.inner v.rows p q m) h1
    have hl := (hw (v.cols - 1) (by have := hne.2; omega) (by omega)).2
    rw [show v.cols - 1 + 1 = v.cols by omega] at hl
    refine ⟨⟨hl.2, fun c h0 h2 => ?_⟩, ⟨by rw [hcols]; exact hl.1, fun c h0 h2 => ?_⟩⟩
    · obtain ⟨⟨m₁, m₂, h3⟩, _⟩ := hw c h0 h2
      exact (copyColumn_needs hne.1 h3).2
    · obtain ⟨⟨m₁, m₂, h3⟩, _⟩ := hw c h0 (by omega)
      rw [hrows]
      exact (copyColumn_needs hne.1 h3).1
  · rintro ⟨rv, ro⟩
    rw [copyValues_defined_partial hv ho rv ro hne m]
    obtain ⟨g, hg⟩ := backed_holds (v := other) ⟨by rw [hrows]; exact hne.1, by rw [hcols]; exact hne.2⟩ hs
    obtain ⟨m', h1, _⟩ := copyValues_elementwise v other g m hrows hcols hinj hb hg hal
    exact ⟨m', h1⟩

/-- C96, exactly, for the addition of a view. -/
theorem addView_defined_iff [Add α] {S D : Env} {v other : View} (hv : v.Inside D) (ho : other.Inside S) (hne : v.Nonempty) (hrows : other.rows = v.rows)
    (hcols : other.cols = v.cols) (m : Mem α) (hinj : v.Injective) (hb : v.Backed m) (hs : other.Backed m) (hal : NoCrossAlias v other) :
    (∃ m', v.addViewC S D other m = .ok m') ↔ v.Roomy D ∧ other.Roomy S := by
  constructor
  · rintro ⟨m', h⟩
    unfold View.addViewC at h
    rw [assert_bind, if_pos hrows, assert_bind, if_pos hcols, res_bind_ok] at h
    obtain ⟨s, h1, _⟩ := h
    have hw := walk2_range (S := S) (D := D) (body := fun m p q => addColumnC S D other.inner v.inner v.rows p q m) h1
    have hl := (hw (v.cols - 1) (by have := hne.2; omega) (by omega)).2
    rw [show v.cols - 1 + 1 = v.cols by omega] at hl
    refine ⟨⟨hl.2, fun c h0 h2 => ?_⟩, ⟨by rw [hcols]; exact hl.1, fun c h0 h2 => ?_⟩⟩
    · obtain ⟨⟨m₁, m₂, h3⟩, _⟩ := hw c h0 h2
      exact (addColumn_needs hne.1 h3).2
    · obtain ⟨⟨m₁, m₂, h3⟩, _⟩ := hw c h0 (by omega)
      rw [hrows]
      exact (addColumn_needs hne.1 h3).1
  · rintro ⟨rv, ro⟩
    rw [addView_defined_partial hv ho rv ro hne m]
    obtain ⟨f, hf⟩ := backed_holds (v := other) ⟨by rw [hrows]; exact hne.1, by rw [hcols]; exact hne.2⟩ hs
    obtain ⟨g, hg⟩ := backed_holds hne hb
    obtain ⟨m', h1, _⟩ := addView_elementwise v other f g m hrows hcols hinj hg hf hal
    exact ⟨m', h1⟩

/-- C96, exactly, for the addition of a number (that is not in the view itself). -/
theorem addScalar_defined_iff [Add α] {D : Env} {v : View} (hv : v.Inside D) (hne : v.Nonempty) (m : Mem α) (hinj : v.Injective) (hb : v.Backed m)
    (u : Arg α) {x : α} (hu : u.eval m = .ok x) (hua : ∀ a, u = .ref a → ¬ v.IsElemAddr (fun _ _ => True) a) :
    (∃ m', v.addScalarC D u m = .ok m') ↔ v.Roomy D := by
  constructor
  · rintro ⟨m', h⟩
    unfold View.addScalarC at h
    rw [res_bind_ok] at h
    obtain ⟨s, h1, _⟩ := h
    have hw := walk1_range (D := D) (body := fun m q => addScalarColumnC D v.inner v.rows q u m) h1
    have hl := (hw (v.cols - 1) (by have := hne.2; omega) (by omega)).2
    rw [show v.cols - 1 + 1 = v.cols by omega] at hl
    refine ⟨hl, fun c h0 h2 => ?_⟩
    obtain ⟨⟨m₁, m₂, h3⟩, _⟩ := hw c h0 h2
    exact addScalarColumn_needs hne.1 h3
  · intro rv
    rw [addScalar_defined_partial hv rv hne u m]
    obtain ⟨g, hg⟩ := backed_holds hne hb
    obtain ⟨m', h1, _⟩ := addScalar_elementwise v u x g m hinj hg hu hua
    exact ⟨m', h1⟩

/-- A loop that does something must form the stride first. -/
theorem setDiagonal_stride {E : Env} {v : View} (hr : 0 < max v.rows v.cols) {t : Arg α} {m m' : Mem α} (h : v.setDiagonalC E t m = .ok m') :
    Fits E.w (v.outer + v.inner) := by
  simp only [View.setDiagonalC, res_bind_ok] at h
  obtain ⟨s, h1, _⟩ := h
  obtain ⟨k, hk⟩ : ∃ k : Nat, (max v.rows v.cols - 0).toNat = k + 1 := ⟨(max v.rows v.cols - 1).toNat, by omega⟩
  rw [forRange, hk, forLoop] at h1
  simp only [res_bind_ok] at h1
  obtain ⟨_, ⟨_, _, _, _, d, hd, _⟩, _⟩ := h1
  exact (chk_ok.1 hd).1

theorem addToDiagonal_stride [Add α] {E : Env} {v : View} (hr : 0 < max v.rows v.cols) {t : Arg α} {m m' : Mem α} (h : v.addToDiagonalC E t m = .ok m') :
    Fits E.w (v.outer + v.inner) := by
  simp only [View.addToDiagonalC, res_bind_ok] at h
  obtain ⟨s, h1, _⟩ := h
  obtain ⟨k, hk⟩ : ∃ k : Nat, (max v.rows v.cols - 0).toNat = k + 1 := ⟨(max v.rows v.cols - 1).toNat, by omega⟩
  rw [forRange, hk, forLoop] at h1
  simp only [res_bind_ok] at h1
  obtain ⟨_, ⟨_, _, _, _, _, _, d, hd, _⟩, _⟩ := h1
  exact (chk_ok.1 hd).1

/-- C96, exactly, for `set_diagonal` of a square view: defined if and only if the step fits the index type and there is room for the pointer after the last step. -/
theorem setDiagonal_defined_iff {E : Env} {v : View} (h : v.Inside E) (hsq : v.rows = v.cols) (hr : 0 < v.rows) (m : Mem α) (hb : v.Backed m)
    (t : Arg α) {x : α} (ht : t.eval m = .ok x) :
    (∃ m', v.setDiagonalC E t m = .ok m') ↔ Fits E.w (v.outer + v.inner) ∧ E.Ptr (v.data + v.rows * (v.outer + v.inner)) := by
  have hm : max v.rows v.cols = v.rows := by omega
  constructor
  · rintro ⟨m', hd⟩
    have := setDiagonal_needs (by omega) hd
    rw [hm] at this
    exact ⟨setDiagonal_stride (by omega) hd, this⟩
  · rintro ⟨hf, he⟩
    rw [setDiagonal_defined_partial h hsq hf he]
    obtain ⟨m', h1, _⟩ := setDiagonal_exact_partial v t x m hsq hb ht
    exact ⟨m', h1⟩

/-- C96, exactly, for `add_to_diagonal`. -/
theorem addToDiagonal_defined_iff [Add α] {E : Env} {v : View} (h : v.Inside E) (hsq : v.rows = v.cols) (hr : 0 < v.rows) (m : Mem α) (hinj : v.Injective)
    (hb : v.Backed m) (t : Arg α) {x : α} (ht : t.eval m = .ok x) (hta : ∀ a, t = .ref a → ¬ v.IsElemAddr (fun r c => r = c) a) :
    (∃ m', v.addToDiagonalC E t m = .ok m') ↔ Fits E.w (v.outer + v.inner) ∧ E.Ptr (v.data + v.rows * (v.outer + v.inner)) := by
  have hm : max v.rows v.cols = v.rows := by omega
  constructor
  · rintro ⟨m', hd⟩
    have := addToDiagonal_needs (by omega) hd
    rw [hm] at this
    exact ⟨addToDiagonal_stride (by omega) hd, this⟩
  · rintro ⟨hf, he⟩
    rw [addToDiagonal_defined_partial h hsq hf he]
    obtain ⟨g, hg⟩ := backed_holds ⟨hr, by omega⟩ hb
    obtain ⟨m', h1, _⟩ := addToDiagonal_exact_partial v t x (fun i => g i i) m hsq hinj (fun i hi => hg i i hi) ht hta
    exact ⟨m', h1⟩

/-- Non-vacuity: a view with room at its ends (2 × 2 in an array of 8), for which all the operations are defined, and one without (in an array of its own), for
which copying is defined and the diagonal is not. -/
example : let v : View := ⟨0, 2, 2, 1, 2⟩
    v.Inside ⟨64, 0, 8⟩ ∧ v.Roomy ⟨64, 0, 8⟩ ∧ (⟨64, 0, 8⟩ : Env).Ptr (v.data + v.rows * (v.outer + v.inner)) ∧
    v.Inside ⟨64, 0, 4⟩ ∧ v.Roomy ⟨64, 0, 4⟩ ∧ ¬ (⟨64, 0, 4⟩ : Env).Ptr (v.data + v.rows * (v.outer + v.inner)) := by
  have hin : ∀ hi : Int, 4 ≤ hi → hi < 100 → View.Inside ⟨64, 0, hi⟩ ⟨0, 2, 2, 1, 2⟩ := by
    intro hi h1 h2
    have hp : (2 : Int) ^ (64 - 1) = 9223372036854775808 := by norm_num
    refine ⟨?_, ?_, ?_, ?_, ?_, ?_, ?_, ?_, ?_, ?_⟩
    case refine_10 =>
      rintro r c ⟨h1, h2, h3, h4⟩
      simp only [View.addr] at *
      omega
    all_goals (simp only [Env.Ptr, Fits, hp]; omega)
  refine ⟨hin 8 (by omega) (by omega), ⟨⟨by decide, by decide⟩, fun c h1 h2 => ⟨?_, ?_⟩⟩, ⟨by decide, by decide⟩, hin 4 (by omega) (by omega),
    ⟨⟨by decide, by decide⟩, fun c h1 h2 => ⟨?_, ?_⟩⟩, fun h => absurd h.2 (by decide)⟩ <;> simp only at * <;> omega

end Guanaqo.MatView
