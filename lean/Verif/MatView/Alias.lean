import Verif.MatView.Props

/-!
# C74: what `operator+=(scalar)` does when the argument is an element of the view
-/

namespace Guanaqo.MatView

variable {α : Type}

/-- One column; `av` is the value of the argument when the element is updated. -/
theorem addScalarColumn_alias [Add α] {d : Int × Int → Int} {u : Arg α} {dv av : Int × Int → α} {m₀ m : Mem α}
    {K : Int × Int → Prop} {di rows dst c : Int}
    (hu : Upd K d (fun e => dv e + av e) m₀ m)
    (hd : ∀ r, 0 ≤ r → r < rows → d (r, c) = dst + r * di)
    (hval : ∀ r, 0 ≤ r → r < rows → m₀ (d (r, c)) = some (dv (r, c)))
    (hinj : ∀ r e, 0 ≤ r → r < rows → (K e ∨ (e.2 = c ∧ 0 ≤ e.1 ∧ e.1 < r)) → d e ≠ d (r, c))
    (harg : ∀ m r, 0 ≤ r → r < rows → Upd (fun e => K e ∨ (e.2 = c ∧ 0 ≤ e.1 ∧ e.1 < r)) d (fun e => dv e + av e) m₀ m →
      u.eval m = .ok (av (r, c))) :
    ∃ m', addScalarColumn di rows dst u m = .ok m' ∧
      Upd (fun e => K e ∨ (e.2 = c ∧ 0 ≤ e.1 ∧ e.1 < rows)) d (fun e => dv e + av e) m₀ m' := by
  have base : Upd (fun e => K e ∨ (e.2 = c ∧ 0 ≤ e.1 ∧ e.1 < 0)) d (fun e => dv e + av e) m₀ m :=
    upd_congr hu (fun e => ⟨.inl, by rintro (h | h); exact h; omega⟩)
  have stepSet : ∀ r : Int, 0 ≤ r → ∀ e : Int × Int,
      ((K e ∨ (e.2 = c ∧ 0 ≤ e.1 ∧ e.1 < r)) ∨ e = (r, c)) ↔
        (K e ∨ (e.2 = c ∧ 0 ≤ e.1 ∧ e.1 < r + 1)) := by
    intro r h1 e
    constructor
    · rintro ((h | h) | rfl)
      · exact .inl h
      · exact .inr ⟨h.1, h.2.1, by omega⟩
      · exact .inr ⟨rfl, h1, by simp⟩
    · rintro (h | ⟨h3, h4, h5⟩)
      · exact .inl (.inl h)
      · by_cases he : e.1 = r
        · right; exact Prod.ext he h3
        · left; right; exact ⟨h3, h4, by omega⟩
  have finalSet : ∀ e : Int × Int, (K e ∨ (e.2 = c ∧ 0 ≤ e.1 ∧ e.1 < max 0 rows)) ↔
      (K e ∨ (e.2 = c ∧ 0 ≤ e.1 ∧ e.1 < rows)) := by
    intro e; constructor <;> (rintro (h | h); exact .inl h; exact .inr ⟨h.1, h.2.1, by omega⟩)
  obtain ⟨s', h1, h2⟩ := forRange_inv (lo := 0) (hi := rows) (s := (m, dst))
    (body := fun _ (s : Mem α × Int) => do
      let x ← s.1.read s.2
      let m ← s.1.write s.2 (x + (← u.eval s.1))
      return (m, s.2 + di))
    (fun r s => Upd (fun e => K e ∨ (e.2 = c ∧ 0 ≤ e.1 ∧ e.1 < r)) d (fun e => dv e + av e) m₀ s.1 ∧
      s.2 = dst + r * di)
    ⟨base, by simp⟩
    (by
      rintro r ⟨mk, q⟩ h1 h2 ⟨hp, hq2⟩
      simp only at hp hq2
      have hrd : mk q = some (dv (r, c)) := by
        rw [hq2, ← hd r h1 h2]; exact upd_read hp (hinj r · h1 h2) (hval r h1 h2)
      have hx : u.eval mk = .ok (av (r, c)) := harg mk r h1 h2 hp
      obtain ⟨m', h3, h4⟩ := upd_step hp (r, c) _ (hval r h1 h2)
        (fun e he hde => absurd hde (hinj r e h1 h2 he))
      refine ⟨(m', q + di), ?_, upd_congr h4 (stepSet r h1), ?_⟩
      · simp only [read_ok hrd, hx, ok_bind]
        rw [hd r h1 h2, ← hq2] at h3
        simp only [h3]; rfl
      · simp only [hq2]; ring)
  refine ⟨s'.1, ?_, upd_congr h2.1 finalSet⟩
  unfold addScalarColumn
  rw [h1]; rfl

open Classical in
/-- **C74**, exactly where it fails: if the argument is the element `(r₀, c₀)` of the view, of value `x`, then the elements up to that one
(in column-major order) grow by `x`, and those after it by twice as much. -/
theorem addScalar_alias [Add α] (v : View) (r₀ c₀ : Int) (x : α) (g : Int → Int → α) (m : Mem α) (hinj : v.Injective)
    (hv : ∀ r c, v.HasElem r c → v.Holds m r c (g r c)) (h0 : v.HasElem r₀ c₀) (hx : g r₀ c₀ = x) :
    ∃ m', v.addScalar (.ref (v.data + r₀ * v.inner + c₀ * v.outer)) m = .ok m' ∧
      v.ElemsBecome (fun r c => g r c + if c < c₀ ∨ (c = c₀ ∧ r ≤ r₀) then x else x + x) m m' := by
  subst hx
  obtain ⟨s', h1, h2⟩ := forRange_inv (lo := 0) (hi := v.cols) (s := (m, v.data))
    (body := fun _ (s : Mem α × Int) => do
      let m ← addScalarColumn v.inner v.rows s.2 (.ref (v.data + r₀ * v.inner + c₀ * v.outer)) s.1
      return (m, s.2 + v.outer))
    (fun c s => Upd (fun e : Int × Int => 0 ≤ e.1 ∧ e.1 < v.rows ∧ 0 ≤ e.2 ∧ e.2 < c)
        (fun e => v.data + e.1 * v.inner + e.2 * v.outer)
        (fun e => g e.1 e.2 + if e.2 < c₀ ∨ (e.2 = c₀ ∧ e.1 ≤ r₀) then g r₀ c₀ else g r₀ c₀ + g r₀ c₀) m s.1 ∧
          s.2 = v.data + c * v.outer)
    ⟨upd_empty (by rintro e ⟨_, _, _, _⟩; omega), by simp⟩
    (by
      rintro c ⟨mk, q⟩ hc1 hc2 ⟨hp, hq2⟩
      simp only at hp hq2
      subst hq2
      have hrc : ∀ r, 0 ≤ r → r < v.rows → v.HasElem r c := fun r h1 h2 => ⟨h1, h2, hc1, hc2⟩
      have hK : ∀ r (e : Int × Int), 0 ≤ r → r < v.rows →
          ((0 ≤ e.1 ∧ e.1 < v.rows ∧ 0 ≤ e.2 ∧ e.2 < c) ∨ (e.2 = c ∧ 0 ≤ e.1 ∧ e.1 < r)) →
          v.HasElem e.1 e.2 ∧ ¬ (e.1 = r ∧ e.2 = c) := by
        rintro r e h1 h2 (h | h)
        · exact ⟨⟨h.1, h.2.1, h.2.2.1, by omega⟩, by omega⟩
        · exact ⟨⟨h.2.1, by omega, by omega, by omega⟩, by omega⟩
      obtain ⟨m', h3, h4⟩ := addScalarColumn_alias (di := v.inner) (rows := v.rows)
        (u := .ref (v.data + r₀ * v.inner + c₀ * v.outer))
        (dst := v.data + c * v.outer) (c := c) (dv := fun e => g e.1 e.2)
        (av := fun e => if e.2 < c₀ ∨ (e.2 = c₀ ∧ e.1 ≤ r₀) then g r₀ c₀ else g r₀ c₀ + g r₀ c₀) hp
        (fun r _ _ => by simp only; ring)
        (fun r h1 h2 => hv r c (hrc r h1 h2))
        (fun r e h1 h2 he hd => by
          obtain ⟨he1, he2⟩ := hK r e h1 h2 he
          exact absurd (hinj _ _ _ _ he1 (hrc r h1 h2) hd) he2)
        (fun m₁ r h1 h2 hup => by
          simp only [Arg.eval]
          by_cases hb : c < c₀ ∨ (c = c₀ ∧ r ≤ r₀)
          · rw [if_pos hb]
            refine read_ok ?_
            rw [hup.2]
            · exact hv r₀ c₀ h0
            · rintro e he hd
              obtain ⟨he1, -⟩ := hK r e h1 h2 he
              obtain ⟨k1, k2⟩ := hinj _ _ _ _ he1 h0 hd
              rcases he with he | he <;> omega
          · rw [if_neg hb]
            refine read_ok ?_
            have := hup.1 (r₀, c₀) (by
              obtain ⟨j1, j2, j3, j4⟩ := h0
              by_cases hcc : c = c₀
              · exact .inr ⟨hcc.symm, j1, by show r₀ < r; omega⟩
              · exact .inl ⟨j1, j2, j3, by show c₀ < c; omega⟩)
            simpa using this)
      refine ⟨(m', v.data + c * v.outer + v.outer), ?_, upd_congr h4 ?_, ?_⟩
      · simp only [h3, ok_bind]; rfl
      · intro e
        constructor
        · rintro (h | h)
          · exact ⟨h.1, h.2.1, h.2.2.1, by omega⟩
          · exact ⟨h.2.1, h.2.2, by omega, by omega⟩
        · rintro ⟨k1, k2, k3, k4⟩
          by_cases hh : e.2 = c
          · exact .inr ⟨hh, k1, k2⟩
          · exact .inl ⟨k1, k2, k3, by omega⟩
      · simp only; ring)
  refine ⟨s'.1, ?_, upd_to_become (f := fun r c => g r c + if c < c₀ ∨ (c = c₀ ∧ r ≤ r₀) then g r₀ c₀ else g r₀ c₀ + g r₀ c₀) h2.1⟩
  simp only [View.addScalar]
  rw [h1]; rfl

/-- The hypotheses are met by a 3×2 view with a gap between the columns, and its element (1, 0). -/
example : (⟨0, 3, 2, 1, 4⟩ : View).Injective ∧ (⟨0, 3, 2, 1, 4⟩ : View).HasElem 1 0 := by
  refine ⟨?_, by decide, by decide, by decide, by decide⟩
  rintro r c r' c' ⟨h1, h2, h3, h4⟩ ⟨h5, h6, h7, h8⟩ h
  simp only at *; omega

end Guanaqo.MatView
