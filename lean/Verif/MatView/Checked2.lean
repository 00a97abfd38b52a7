import Verif.MatView.Checked

/-! # Writing and copying with checked arithmetic (C95, C96) -/

namespace Guanaqo.MatView

variable {α : Type}

/-- The columns of a view with inner stride 1: pointer to the first element, and one past the last. -/
theorem column_ptrs {E : Env} {v : View} (h : v.Inside E) (hi : v.inner = 1) {c : Int} (hc : v.HasElem 0 c) :
    E.Ptr (v.data + c * v.outer) ∧ E.Ptr (v.data + c * v.outer + max v.rows 0) := by
  obtain ⟨h1, h2, h3, h4⟩ := hc
  have a := h.elems 0 c ⟨h1, h2, h3, h4⟩
  have b := h.elems (v.rows - 1) c ⟨by omega, by omega, h3, h4⟩
  simp only [View.addr, hi, Int.mul_one, Int.zero_add] at a b
  have e : max v.rows 0 = v.rows := by omega
  rw [e]
  unfold Env.Ptr
  omega

theorem addr_flat (v : View) (r c : Int) : v.addr r c = v.data + r * v.inner + c * v.outer := by simp only [View.addr, Int.add_assoc]

/-- C95, C96: `set_constant(t)` on a view with elements is defined. -/
theorem setConstant_defined {E : Env} {v : View} (h : v.Inside E) (hne : v.Nonempty) (t : Arg α) (m : Mem α) :
    v.setConstantC E t m = v.setConstant t m := by
  unfold View.setConstantC View.setConstant
  split
  · rename_i hi
    refine forRange_congr' fun c s h1 h2 => ?_
    have hc : v.HasElem 0 c := ⟨Int.le_refl 0, hne.1, h1, h2⟩
    obtain ⟨p1, p2⟩ := column_ptrs h hi hc
    simp only [idx_ok (h.colOff hc), bind, Except.bind, padd_ok p1, fillNC, padd_ok p2]
  · refine forRange_congr' fun c s h1 h2 => forRange_congr' fun r s h3 h4 => ?_
    rw [at_defined h ⟨h3, h4, h1, h2⟩, at_ok ⟨h3, h4, h1, h2⟩, addr_flat]

/-- C95, C96: `generate` is defined. -/
theorem generate_defined {σ : Type} {E : Env} {v : View} (h : v.Inside E) (gen : σ → α × σ) (g : σ) (m : Mem α) :
    v.generateC E gen g m = v.generate gen g m := by
  unfold View.generateC View.generate
  refine forRange_congr' fun c s h1 h2 => forRange_congr' fun r s h3 h4 => ?_
  simp only [at_defined h ⟨h3, h4, h1, h2⟩, at_ok ⟨h3, h4, h1, h2⟩, addr_flat]

/-- C95, C96: the triangular `set_constant` is defined for square views. -/
theorem setConstantTri_defined_partial {E : Env} {v : View} (h : v.Inside E) (hi : v.inner = 1) (hsq : v.rows = v.cols) (t : Arg α) (tr : Triangular)
    (m : Mem α) : v.setConstantTriC E t tr m = v.setConstantTri t tr m := by
  have hmax : max v.rows v.cols = v.rows := by omega
  have elem : ∀ r c, 0 ≤ r → r < v.rows → 0 ≤ c → c < v.rows → E.Ptr (v.data + r + c * v.outer) ∧ v.data + r + c * v.outer < E.hi := by
    intro r c h1 h2 h3 h4
    have := h.elems r c ⟨h1, h2, h3, by omega⟩
    simp only [View.addr, hi, Int.mul_one] at this
    unfold Env.Ptr; omega
  have pbase : ∀ c, 0 ≤ c → c < v.rows → E.Ptr (v.data + c) := fun c h1 h2 => by
    have := (elem c 0 h1 h2 (Int.le_refl 0) (by omega)).1; simpa using this
  have pcol : ∀ c, 0 ≤ c → c < v.rows → E.Ptr (v.data + c * v.outer) := fun c h1 h2 => by
    have := (elem 0 c (Int.le_refl 0) (by omega) h1 h2).1; simpa using this
  have pend : ∀ r n c, 0 ≤ r → 0 ≤ c → c < v.rows → 0 ≤ n → (r + n ≤ v.rows) → (0 < n ∨ r < v.rows) → E.Ptr (v.data + r + c * v.outer + n) := by
    intro r n c h1 h2 h3 h4 h5 h6
    by_cases hn : n = 0
    · subst hn
      simpa using (elem r c h1 (by omega) h2 h3).1
    · have := elem (r + n - 1) c (by omega) (by omega) h2 h3
      unfold Env.Ptr at this ⊢
      omega
  have coff : ∀ c, 0 ≤ c → c < v.rows → Fits E.w (c * v.outer) := fun c h1 h2 => h.colOff ⟨Int.le_refl 0, by omega, h1, by omega⟩
  have fsmall : ∀ x, 0 ≤ x → x ≤ v.rows → Fits E.w x := fun x h1 h2 => fits_of_le h1 h2 h.rowsF
  unfold View.setConstantTriC View.setConstantTri
  cases tr with
  | lower =>
    refine forRange_congr' fun c s h1 h2 => ?_
    rw [hmax] at h2
    have q := (elem c c h1 h2 h1 h2).1
    have e := pend c (max (v.rows - c) 0) c h1 h1 h2 (by omega) (by omega) (by omega)
    simp only [padd_ok (pbase c h1 h2), bind, Except.bind, idx_ok (coff c h1 h2), padd_ok q, idx_ok (fsmall (v.rows - c) (by omega) (by omega)),
      fillNC, padd_ok e]
  | strictlyLower =>
    refine forRange_congr' fun c s h1 h2 => ?_
    rw [hmax] at h2
    have p' := pbase (c + 1) (by omega) (by omega)
    have q := (elem (c + 1) c (by omega) (by omega) h1 (by omega)).1
    have e := pend (c + 1) (max (v.rows - c - 1) 0) c (by omega) h1 (by omega) (by omega) (by omega) (by omega)
    rw [← Int.add_assoc] at p' q e
    simp only [padd_ok (pbase c h1 (by omega)), bind, Except.bind, padd_ok p', idx_ok (coff c h1 (by omega)), padd_ok q,
      idx_ok (fsmall (v.rows - c) (by omega) (by omega)), idx_ok (fsmall (v.rows - c - 1) (by omega) (by omega)), fillNC, padd_ok e]
  | upper =>
    refine forRange_congr' fun c s h1 h2 => ?_
    rw [hmax] at h2
    have e := pend 0 (max (1 + c) 0) c (Int.le_refl 0) h1 h2 (by omega) (by omega) (by omega)
    rw [Int.add_zero] at e
    simp only [idx_ok (coff c h1 h2), bind, Except.bind, padd_ok (pcol c h1 h2), idx_ok (fsmall (1 + c) (by omega) (by omega)), fillNC, padd_ok e]
  | strictlyUpper =>
    refine forRange_congr' fun c s h1 h2 => ?_
    rw [hmax] at h2
    have e := pend 0 (max c 0) c (Int.le_refl 0) (by omega) h2 (by omega) (by omega) (by omega)
    rw [Int.add_zero] at e
    simp only [idx_ok (coff c (by omega) h2), bind, Except.bind, padd_ok (pcol c (by omega) h2), fillNC, padd_ok e]

/-- C95: `diagonal()` is defined exactly if the stride and the outer stride of the result fit. -/
theorem diagonal_defined_iff {E : Env} {v : View} :
    (∃ u, v.diagonalC E = .ok u) ↔ Fits E.w (v.outer + v.inner) ∧ Fits E.w ((v.outer + v.inner) * max v.rows v.cols) := by
  simp only [View.diagonalC, View.withDefaultOuterC, res_bind_ok, Env.idx, chk_ok]
  constructor
  · rintro ⟨u, s, ⟨h1, rfl⟩, o, ⟨h2, rfl⟩, _⟩; exact ⟨h1, h2⟩
  · rintro ⟨h1, h2⟩; exact ⟨_, _, ⟨h1, rfl⟩, _, ⟨h2, rfl⟩, rfl⟩

theorem diagonal_value {E : Env} {v u : View} (h : v.diagonalC E = .ok u) : u = v.diagonal := by
  simp only [View.diagonalC, View.withDefaultOuterC, res_bind_ok, Env.idx, chk_ok] at h
  obtain ⟨s, ⟨_, rfl⟩, o, ⟨_, rfl⟩, h⟩ := h
  cases h
  rfl

/-- C95: `as_column` of a span whose length does not fit the index type is a different view. -/
theorem asColumn_defined_iff {E : Env} (hw : 1 ≤ E.w) (data : Int) (size : Nat) (hs : size < 2 ^ E.w) :
    View.asColumnC E data size = .ok (View.asColumn data size) ↔ Fits E.w size := by
  have hp : (2 : Int) ^ E.w = 2 * 2 ^ (E.w - 1) := by
    rw [← pow_succ', Nat.sub_add_cancel hw]
  have hpn : (2 : Nat) ^ E.w = 2 * 2 ^ (E.w - 1) := by rw [← pow_succ', Nat.sub_add_cancel hw]
  have cast : ((2 ^ (E.w - 1) : Nat) : Int) = (2 : Int) ^ (E.w - 1) := by norm_cast
  have cast2 : ((2 ^ E.w : Nat) : Int) = (2 : Int) ^ E.w := by norm_cast
  rw [fits_nonneg (by omega)]
  have hmod : (size : Int) % ((2 ^ E.w : Nat) : Int) = size := Int.emod_eq_of_lt (by omega) (by exact_mod_cast hs)
  have hb : Int.bmod size (2 ^ E.w) = if (size : Int) < 2 ^ (E.w - 1) then (size : Int) else size - 2 ^ E.w := by
    unfold Int.bmod
    simp only [cast2] at hmod ⊢
    rw [hmod]
    have : ((2 : Int) ^ E.w + 1) / 2 = 2 ^ (E.w - 1) := by omega
    rw [this]
  constructor
  · intro h
    simp only [View.asColumnC, View.withDefaultOuterC, res_bind_ok] at h
    obtain ⟨o, _, h2⟩ := h
    refine Classical.byContradiction fun hc => ?_
    rw [hb, if_neg hc] at h2
    have := congrArg (fun r : Res View => match r with | .ok u => u.rows | _ => 0) h2
    simp only [View.asColumn, View.withDefaultOuter, pure, Except.pure] at this
    omega
  · intro h
    simp only [View.asColumnC, View.withDefaultOuterC]
    rw [hb, if_pos h, Int.one_mul, idx_ok ((fits_nonneg (by omega)).2 h)]
    simp only [bind, Except.bind, View.asColumn, View.withDefaultOuter, pure, Except.pure, Int.one_mul]

/-! ## Loops that advance pointers -/

/-- C96: `set_diagonal(t)` on a square view is defined if the pointer after the last step may be formed. -/
theorem setDiagonal_defined_partial {E : Env} {v : View} (h : v.Inside E) (hsq : v.rows = v.cols) (hf : Fits E.w (v.outer + v.inner))
    (hend : E.Ptr (v.data + v.rows * (v.outer + v.inner))) (t : Arg α) (m : Mem α) : v.setDiagonalC E t m = v.setDiagonal t m := by
  have hmax : max v.rows v.cols = v.rows := by omega
  have ptr : ∀ i, 0 ≤ i → i ≤ v.rows → E.Ptr (v.data + i * (v.outer + v.inner)) := by
    intro i h1 h2
    by_cases he : i = v.rows
    · subst he; exact hend
    · have := h.elemPtr (r := i) (c := i) ⟨h1, by omega, h1, by omega⟩
      simp only [View.addr] at this
      rwa [show v.data + i * (v.outer + v.inner) = v.data + (i * v.inner + i * v.outer) by ring]
  unfold View.setDiagonalC View.setDiagonal
  simp only
  rw [hmax]
  congr 1
  refine forRange_congr (fun i s => s.2 = v.data + i * (v.outer + v.inner)) (by simp) ?_ ?_
  · intro i s h1 h2 hs
    have := ptr (i + 1) (by omega) (by omega)
    rw [show v.data + (i + 1) * (v.outer + v.inner) = s.2 + (v.outer + v.inner) by rw [hs]; ring] at this
    cases t.eval s.1 with
    | error e => rfl
    | ok x =>
      simp only [bind, Except.bind]
      cases s.1.write s.2 x with
      | error e => rfl
      | ok m' => simp only [idx_ok hf, padd_ok this]
  · intro i s s' h1 h2 hs hg
    simp only [res_bind_ok] at hg
    obtain ⟨x, _, m', _, h3⟩ := hg
    cases h3
    simp only [hs]; ring

/-- The pointer after the last step of a loop that advances a pointer is formed. -/
theorem walk_needs {E : Env} {body : Mem α → Int → Res (Mem α)} {f : Int → Res Int} {d : Int}
    (hfd : ∀ p q, f p = .ok q → E.Ptr (p + d) ∧ q = p + d) :
    ∀ (n : Nat) (lo : Int) (s s' : Mem α × Int),
      forLoop (fun _ (s : Mem α × Int) => do let m ← body s.1 s.2; let p ← f s.2; return (m, p)) lo (n + 1) s = .ok s' →
      E.Ptr (s.2 + (n + 1) * d) := by
  intro n
  induction n with
  | zero =>
    intro lo s s' h
    simp only [forLoop, res_bind_ok] at h
    obtain ⟨t, ⟨m, _, p, h2, h3⟩, _⟩ := h
    have := (hfd _ _ h2).1
    simpa using this
  | succ n ih =>
    intro lo s s' h
    rw [forLoop] at h
    simp only [res_bind_ok] at h
    obtain ⟨t, ⟨m, _, p, h2, h3⟩, h4⟩ := h
    cases h3
    have := ih (lo + 1) _ s' (by simpa only [res_bind_ok] using h4)
    simp only [(hfd _ _ h2).2] at this
    rw [show s.2 + ((n + 1 : Nat) + 1) * d = s.2 + d + ((n : Int) + 1) * d by push_cast; ring]
    exact this

theorem walk_range_needs {E : Env} {body : Mem α → Int → Res (Mem α)} {f : Int → Res Int} {d : Int}
    (hfd : ∀ p q, f p = .ok q → E.Ptr (p + d) ∧ q = p + d) {n p : Int} {m : Mem α} {s' : Mem α × Int} (hn : 0 < n)
    (h : forRange 0 n (fun _ (s : Mem α × Int) => do let m ← body s.1 s.2; let p ← f s.2; return (m, p)) (m, p) = .ok s') :
    E.Ptr (p + n * d) := by
  obtain ⟨k, hk⟩ : ∃ k : Nat, n = k + 1 := ⟨(n - 1).toNat, by omega⟩
  have e : (n - 0).toNat = k + 1 := by omega
  rw [forRange, e] at h
  have := walk_needs hfd k 0 (m, p) s' h
  rw [hk]; exact this

/-- C96: `set_diagonal(t)` forms the pointer one step after the last element of the diagonal. -/
theorem setDiagonal_needs {E : Env} {v : View} (hr : 0 < max v.rows v.cols) {t : Arg α} {m m' : Mem α} (h : v.setDiagonalC E t m = .ok m') :
    E.Ptr (v.data + max v.rows v.cols * (v.outer + v.inner)) := by
  simp only [View.setDiagonalC, res_bind_ok] at h
  obtain ⟨s, h1, _⟩ := h
  refine walk_range_needs (s' := s) (body := fun m p => do m.write p (← t.eval m)) (f := fun p => do let d ← E.idx (v.outer + v.inner); E.padd p d)
    (d := v.outer + v.inner) ?_ (m := m) (by omega) ?_
  · intro p q hpq
    simp only [res_bind_ok, Env.idx, chk_ok] at hpq
    obtain ⟨d, ⟨_, rfl⟩, h3⟩ := hpq
    exact padd_ok_iff.1 h3
  · rw [← h1]
    congr 1
    funext _ s
    simp only [bind, Except.bind]
    cases t.eval s.1 with
    | error e => rfl
    | ok x =>
      cases hw : s.1.write s.2 x with
      | error e => simp only [hw]
      | ok m' =>
        simp only [hw]
        cases E.idx (v.outer + v.inner) <;> rfl

/-- C96, full statement for `set_diagonal`: it is defined for every square view. -/
def SetDiagonalDefined (α : Type) : Prop :=
  ∀ (E : Env) (v : View) (x : α) (m : Mem α), v.Inside E → v.rows = v.cols → v.Backed m → ∃ m', v.setDiagonalC E (.temp x) m = .ok m'

/-- C96. It is false for every square matrix stored in an array of its own: the last step forms a pointer to `n` elements past the end. -/
theorem setDiagonal_undefined {E : Env} {v : View} (hr : 0 < v.rows) (hsq : v.rows = v.cols) (hi : v.inner = 1) (ho : v.outer = v.rows)
    (h2 : E.hi = v.data + v.rows * v.cols) (t : Arg α) (m m' : Mem α) : v.setDiagonalC E t m ≠ .ok m' := by
  intro h
  have := (setDiagonal_needs (by omega) h).2
  rw [h2, show max v.rows v.cols = v.rows by omega, hi, ho, ← hsq] at this
  have e : v.rows * (v.rows + 1) = v.rows * v.rows + v.rows := by ring
  omega

theorem not_setDiagonalDefined : ¬ SetDiagonalDefined Int := by
  intro h
  obtain ⟨m', hm⟩ := h ⟨64, 0, 4⟩ ⟨0, 2, 2, 1, 2⟩ 7 (fun a => if 0 ≤ a ∧ a < 4 then some 1 else none) ⟨by decide, by decide, by decide, by decide, by decide,
    by decide, by decide, by decide, by decide, by
      rintro r c ⟨h1, h2, h3, h4⟩
      simp only [View.addr] at *
      omega⟩ rfl (by
      rintro r c ⟨h1, h2, h3, h4⟩
      simp only at *
      exact ⟨1, if_pos (by omega)⟩)
  exact setDiagonal_undefined (by decide) rfl rfl rfl rfl _ _ _ hm

/-- C96: `add_to_diagonal(t)` on a square view is defined if the pointer after the last step may be formed. -/
theorem addToDiagonal_defined_partial [Add α] {E : Env} {v : View} (h : v.Inside E) (hsq : v.rows = v.cols) (hf : Fits E.w (v.outer + v.inner))
    (hend : E.Ptr (v.data + v.rows * (v.outer + v.inner))) (t : Arg α) (m : Mem α) : v.addToDiagonalC E t m = v.addToDiagonal t m := by
  have hmax : max v.rows v.cols = v.rows := by omega
  have ptr : ∀ i, 0 ≤ i → i ≤ v.rows → E.Ptr (v.data + i * (v.outer + v.inner)) := by
    intro i h1 h2
    by_cases he : i = v.rows
    · subst he; exact hend
    · have := h.elemPtr (r := i) (c := i) ⟨h1, by omega, h1, by omega⟩
      simp only [View.addr] at this
      rwa [show v.data + i * (v.outer + v.inner) = v.data + (i * v.inner + i * v.outer) by ring]
  unfold View.addToDiagonalC View.addToDiagonal
  simp only
  rw [hmax]
  congr 1
  refine forRange_congr (fun i s => s.2 = v.data + i * (v.outer + v.inner)) (by simp) ?_ ?_
  · intro i s h1 h2 hs
    have := ptr (i + 1) (by omega) (by omega)
    rw [show v.data + (i + 1) * (v.outer + v.inner) = s.2 + (v.outer + v.inner) by rw [hs]; ring] at this
    cases s.1.read s.2 with
    | error e => rfl
    | ok y =>
      cases t.eval s.1 with
      | error e => rfl
      | ok x =>
        simp only [bind, Except.bind]
        cases s.1.write s.2 (y + x) with
        | error e => rfl
        | ok m' => simp only [idx_ok hf, padd_ok this]
  · intro i s s' h1 h2 hs hg
    simp only [res_bind_ok] at hg
    obtain ⟨y, _, x, _, m', _, h3⟩ := hg
    cases h3
    simp only [hs]; ring

/-- C96: `add_to_diagonal(t)` forms the pointer one step after the last element of the diagonal, too; the number of steps is the larger of
the numbers of rows and columns. -/
theorem addToDiagonal_needs [Add α] {E : Env} {v : View} (hr : 0 < max v.rows v.cols) {t : Arg α} {m m' : Mem α} (h : v.addToDiagonalC E t m = .ok m') :
    E.Ptr (v.data + max v.rows v.cols * (v.outer + v.inner)) := by
  simp only [View.addToDiagonalC, res_bind_ok] at h
  obtain ⟨s, h1, _⟩ := h
  refine walk_range_needs (s' := s) (body := fun m p => do let x ← m.read p; m.write p (x + (← t.eval m))) (f := fun p => do let d ← E.idx (v.outer + v.inner); E.padd p d)
    (d := v.outer + v.inner) ?_ (m := m) hr ?_
  · intro p q hpq
    simp only [res_bind_ok, Env.idx, chk_ok] at hpq
    obtain ⟨d, ⟨_, rfl⟩, h3⟩ := hpq
    exact padd_ok_iff.1 h3
  · rw [← h1]
    congr 1
    funext _ s
    simp only [bind, Except.bind]
    cases hr : s.1.read s.2 with
    | error e => simp only [hr]
    | ok y =>
      simp only [hr]
      cases t.eval s.1 with
      | error e => rfl
      | ok x =>
        cases hw : s.1.write s.2 (y + x) with
        | error e => simp only [hw]
        | ok m' =>
          simp only [hw]
          cases E.idx (v.outer + v.inner) <;> rfl

/-- C96. As for `set_diagonal`: undefined for every square matrix stored in an array of its own. -/
theorem addToDiagonal_undefined [Add α] {E : Env} {v : View} (hr : 0 < v.rows) (hsq : v.rows = v.cols) (hi : v.inner = 1) (ho : v.outer = v.rows)
    (h2 : E.hi = v.data + v.rows * v.cols) (t : Arg α) (m m' : Mem α) : v.addToDiagonalC E t m ≠ .ok m' := by
  intro h
  have := (addToDiagonal_needs (by omega) h).2
  rw [h2, show max v.rows v.cols = v.rows by omega, hi, ho, ← hsq] at this
  have e : v.rows * (v.rows + 1) = v.rows * v.rows + v.rows := by ring
  omega

end Guanaqo.MatView
