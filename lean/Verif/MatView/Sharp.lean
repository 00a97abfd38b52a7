import Verif.MatView.Props
import Verif.Loops
import Mathlib.Tactic.Ring

/-! # For which shapes the triangular and diagonal operations stay inside the view (C19, C20)

`setConstantTri_exact_partial` and `setDiagonal_exact_partial` need a condition on the shape. Here: if the condition does not hold, the
operation accesses memory that does not belong to the view, whatever the strides. The memory in these theorems consists of the elements of
the view and nothing else. -/

namespace Guanaqo.MatView

variable {α : Type}

/-- The same locations are allocated. -/
def SameDom (m m' : Mem α) : Prop := ∀ a, (m' a).isSome = (m a).isSome

theorem SameDom.refl (m : Mem α) : SameDom m m := fun _ => rfl
theorem SameDom.trans {m₁ m₂ m₃ : Mem α} (h : SameDom m₁ m₂) (h' : SameDom m₂ m₃) : SameDom m₁ m₃ := fun a => (h' a).trans (h a)

/-- If a loop does not fail, each of its iterations does not, started in a state that satisfies the invariant. -/
theorem forLoop_visits {σ : Type} {body : Int → σ → Res σ} (J : σ → Prop) (hJ : ∀ i s s', J s → body i s = .ok s' → J s') :
    ∀ (n : Nat) (lo : Int) (s s' : σ), J s → forLoop body lo n s = .ok s' →
      J s' ∧ ∀ i, lo ≤ i → i < lo + n → ∃ t t', J t ∧ body i t = .ok t' := by
  intro n
  induction n with
  | zero =>
    intro lo s s' hs h
    simp only [forLoop] at h
    cases h
    exact ⟨hs, fun i h1 h2 => by omega⟩
  | succ n ih =>
    intro lo s s' hs h
    simp only [forLoop] at h
    rw [res_bind_ok] at h
    obtain ⟨t, h1, h2⟩ := h
    obtain ⟨h3, h4⟩ := ih (lo + 1) t s' (hJ lo s t hs h1) h2
    refine ⟨h3, fun i hi hi' => ?_⟩
    by_cases hl : i = lo
    · subst hl; exact ⟨s, t, hs, h1⟩
    · exact h4 i (by omega) (by omega)

theorem forRange_visits {σ : Type} {body : Int → σ → Res σ} (J : σ → Prop) (hJ : ∀ i s s', J s → body i s = .ok s' → J s')
    {lo hi : Int} {s s' : σ} (hs : J s) (h : forRange lo hi body s = .ok s') :
    J s' ∧ ∀ i, lo ≤ i → i < hi → ∃ t t', J t ∧ body i t = .ok t' := by
  obtain ⟨h1, h2⟩ := forLoop_visits J hJ (hi - lo).toNat lo s s' hs h
  exact ⟨h1, fun i hi1 hi2 => h2 i hi1 (by omega)⟩

theorem write_dom {m m' : Mem α} {p : Int} {x : α} (h : m.write p x = .ok m') : SameDom m m' ∧ (m p).isSome := by
  unfold Mem.write at h
  cases hp : m p with
  | none => rw [hp] at h; cases h
  | some y =>
    rw [hp] at h
    cases h
    refine ⟨fun a => ?_, rfl⟩
    by_cases ha : a = p
    · subst ha; simp [hp]
    · simp [ha]

/-- A fill that does not fail writes to allocated locations only. -/
theorem fillN_dom {p n : Int} {t : Arg α} {m m' : Mem α} (h : fillN p n t m = .ok m') :
    SameDom m m' ∧ ∀ i, 0 ≤ i → i < n → (m (p + i)).isSome := by
  unfold fillN at h
  have hb : ∀ (i : Int) (s s' : Mem α), (do s.write (p + i) (← t.eval s)) = Except.ok s' → SameDom s s' ∧ (s (p + i)).isSome := by
    intro i s s' hs
    rw [res_bind_ok] at hs
    obtain ⟨x, _, h2⟩ := hs
    exact write_dom h2
  obtain ⟨h1, h2⟩ := forRange_visits (fun s => SameDom m s) (fun i s s' hs h' => hs.trans (hb i s s' h').1) (SameDom.refl m) h
  refine ⟨h1, fun i hi hi' => ?_⟩
  obtain ⟨u, u', hu, hu'⟩ := h2 i hi hi'
  rw [← hu (p + i)]
  exact (hb i u u' hu').2

/-- A loop of fills that does not fail writes to allocated locations only. -/
theorem fills_dom {lo hi : Int} {p n : Int → Int} {t : Arg α} {m m' : Mem α}
    (h : forRange lo hi (fun c m => fillN (p c) (n c) t m) m = .ok m') :
    SameDom m m' ∧ ∀ c i, lo ≤ c → c < hi → 0 ≤ i → i < n c → (m (p c + i)).isSome := by
  obtain ⟨h1, h2⟩ := forRange_visits (fun s => SameDom m s) (fun i s s' hs h' => hs.trans (fillN_dom h').1) (SameDom.refl m) h
  refine ⟨h1, fun c i hc hc' hi hi' => ?_⟩
  obtain ⟨u, u', hu, hu'⟩ := h2 c hc hc'
  rw [← hu]
  exact (fillN_dom hu').2 i hi hi'

/-- An address from the end of the view on is not that of an element (columns do not overlap). -/
theorem not_elem_past {v : View} (hi : v.inner = 1) (ho : v.rows ≤ v.outer) (h0 : 0 ≤ v.rows) {a : Int}
    (ha : v.data + (v.cols - 1) * v.outer + v.rows ≤ a) : ¬ v.IsElemAddr (fun _ _ => True) a := by
  rintro ⟨r, c, ⟨h1, h2, h3, h4⟩, _, rfl⟩
  rw [hi] at ha
  have : c * v.outer ≤ (v.cols - 1) * v.outer := Int.mul_le_mul_of_nonneg_right (by omega) (by omega)
  omega

/-- C19. `set_constant(t, tr)` on a view of any other shape than those of `TriShapeOk` accesses memory outside the view. With
`setConstantTri_exact_partial`: it stays inside the view exactly for the shapes of `TriShapeOk`, and is then right. -/
theorem setConstantTri_inside_iff (v : View) (tr : Triangular) (x : α) (m : Mem α) (hi : v.inner = 1) (h0 : 0 ≤ v.rows) (h1 : 0 ≤ v.cols)
    (ho : v.rows ≤ v.outer) (hm : ∀ a, (m a).isSome = true ↔ v.IsElemAddr (fun _ _ => True) a) :
    (∃ m', v.setConstantTri (.temp x) tr m = .ok m') ↔ TriShapeOk v tr := by
  constructor
  · rintro ⟨m', h⟩
    have past : ∀ a, v.data + (v.cols - 1) * v.outer + v.rows ≤ a → (m a).isSome ≠ true :=
      fun a ha hs => not_elem_past hi ho h0 ha ((hm a).1 hs)
    have step : v.cols * v.outer = (v.cols - 1) * v.outer + v.outer := by ring
    refine Classical.byContradiction fun hn => ?_
    cases tr with
    | lower =>
      simp only [TriShapeOk] at hn
      have := (fills_dom h).2 v.cols 0 h1 (by omega) (Int.le_refl 0) (by omega)
      exact past _ (by omega) this
    | strictlyLower =>
      simp only [TriShapeOk] at hn
      have := (fills_dom h).2 v.cols 0 h1 (by omega) (Int.le_refl 0) (by omega)
      exact past _ (by omega) this
    | upper =>
      simp only [TriShapeOk] at hn
      rcases Int.lt_or_gt_of_ne hn with hlt | hgt
      · have := (fills_dom h).2 (v.cols - 1) v.rows (by omega) (by omega) h0 (by omega)
        exact past _ (by omega) this
      · have := (fills_dom h).2 v.cols 0 h1 (by omega) (Int.le_refl 0) (by omega)
        exact past _ (by omega) this
    | strictlyUpper =>
      simp only [TriShapeOk] at hn
      by_cases hlt : v.rows < v.cols
      · have := (fills_dom h).2 (v.cols - 1) v.rows (by omega) (by omega) h0 (by omega)
        exact past _ (by omega) this
      · by_cases hc : v.cols = 0
        · have h2 : 1 < v.rows ∨ v.rows = 1 := by omega
          rcases h2 with h2 | h2
          · have := (fills_dom h).2 1 0 (by omega) (by omega) (Int.le_refl 0) (by omega)
            refine past _ ?_ this
            rw [hc]
            have e1 : (0 - 1) * v.outer = -v.outer := by ring
            have e2 : 1 * v.outer = v.outer := by ring
            omega
          · exact hn (.inr (.inr ⟨h2, hc⟩))
        · have := (fills_dom h).2 v.cols 0 (by omega) (by omega) (Int.le_refl 0) (by omega)
          exact past _ (by omega) this
  · intro hs
    have hb : v.Backed m := by
      intro r c hrc
      have := (hm (v.data + r * v.inner + c * v.outer)).2 ⟨r, c, hrc, trivial, rfl⟩
      exact Option.isSome_iff_exists.1 this
    obtain ⟨m', h', _⟩ := setConstantTri_exact_partial v tr (.temp x) x m hi hs hb rfl
    exact ⟨m', h'⟩

/-- The addresses that a loop `for (i = 0; i < n; ++i) { body; p += d; }` visits, if it does not fail. -/
theorem diag_dom {body : Mem α → Int → Res (Mem α)} (hbody : ∀ m p m', body m p = .ok m' → SameDom m m' ∧ (m p).isSome)
    {n d p : Int} {m : Mem α} {s' : Mem α × Int}
    (h : forRange 0 n (fun _ (s : Mem α × Int) => do let m ← body s.1 s.2; return (m, s.2 + d)) (m, p) = .ok s') :
    ∀ i, 0 ≤ i → i < n → (m (p + i * d)).isSome := by
  have key : ∀ (k : Nat) (lo : Int) (m₁ : Mem α) (q : Int) (s' : Mem α × Int), SameDom m m₁ →
      forLoop (fun _ (s : Mem α × Int) => do let m ← body s.1 s.2; return (m, s.2 + d)) lo k (m₁, q) = .ok s' →
      ∀ i : Nat, i < k → (m (q + i * d)).isSome := by
    intro k
    induction k with
    | zero => intro _ _ _ _ _ _ i hi; omega
    | succ k ih =>
      intro lo m₁ q s' hd hf i hi
      simp only [forLoop] at hf
      rw [res_bind_ok] at hf
      obtain ⟨t, h1, h2⟩ := hf
      rw [res_bind_ok] at h1
      obtain ⟨m₂, h3, h4⟩ := h1
      cases h4
      obtain ⟨h5, h6⟩ := hbody _ _ _ h3
      cases i with
      | zero => rw [← hd]; simpa using h6
      | succ i =>
        have := ih (lo + 1) m₂ (q + d) s' (hd.trans h5) h2 i (by omega)
        rw [show q + d + (i : Int) * d = q + ((i + 1 : Nat) : Int) * d by push_cast; ring] at this
        exact this
  intro i h0 h1
  have := key (n - 0).toNat 0 m p s' (SameDom.refl m) h i.toNat (by omega)
  rwa [Int.toNat_of_nonneg h0] at this

theorem diag_past {v : View} {m : Mem α} (hi : v.inner = 1) (h0 : 0 ≤ v.rows) (h1 : 0 ≤ v.cols)
    (ho : v.rows ≤ v.outer) (hm : ∀ a, (m a).isSome = true ↔ v.IsElemAddr (fun _ _ => True) a)
    (hd : ∀ i, 0 ≤ i → i < max v.rows v.cols → (m (v.data + i * (v.outer + v.inner))).isSome) : v.rows = v.cols := by
  have past : ∀ a, v.data + (v.cols - 1) * v.outer + v.rows ≤ a → (m a).isSome ≠ true :=
    fun a ha hs => not_elem_past hi ho h0 ha ((hm a).1 hs)
  refine Classical.byContradiction fun hn => ?_
  rw [hi] at hd
  rcases Int.lt_or_gt_of_ne hn with hlt | hgt
  · refine past _ ?_ (hd (v.cols - 1) (by omega) (by omega))
    have : (v.cols - 1) * (v.outer + 1) = (v.cols - 1) * v.outer + (v.cols - 1) := by ring
    omega
  · refine past _ ?_ (hd v.cols (by omega) (by omega))
    have : v.cols * (v.outer + 1) = (v.cols - 1) * v.outer + v.outer + v.cols := by ring
    omega

/-- C20. `set_diagonal(t)` stays inside the view exactly if the view is square (and is then right, `setDiagonal_exact_partial`). -/
theorem setDiagonal_inside_iff (v : View) (x : α) (m : Mem α) (hi : v.inner = 1) (h0 : 0 ≤ v.rows) (h1 : 0 ≤ v.cols)
    (ho : v.rows ≤ v.outer) (hm : ∀ a, (m a).isSome = true ↔ v.IsElemAddr (fun _ _ => True) a) :
    (∃ m', v.setDiagonal (.temp x) m = .ok m') ↔ v.rows = v.cols := by
  constructor
  · rintro ⟨m', h⟩
    simp only [View.setDiagonal] at h
    rw [res_bind_ok] at h
    obtain ⟨s, h2, _⟩ := h
    refine diag_past hi h0 h1 ho hm (diag_dom (s' := s) (body := fun m p => m.write p x) (fun m p m' => write_dom) ?_)
    · exact h2
  · intro hs
    obtain ⟨m', h', _⟩ := setDiagonal_exact_partial v (.temp x) x m hs (fun r c hrc =>
      Option.isSome_iff_exists.1 ((hm _).2 ⟨r, c, hrc, trivial, rfl⟩)) rfl
    exact ⟨m', h'⟩

/-- C20. The same for `add_to_diagonal(t)`. -/
theorem addToDiagonal_inside_iff [Add α] (v : View) (x : α) (m : Mem α) (hi : v.inner = 1) (h0 : 0 ≤ v.rows) (h1 : 0 ≤ v.cols)
    (ho : v.rows ≤ v.outer) (hm : ∀ a, (m a).isSome = true ↔ v.IsElemAddr (fun _ _ => True) a) :
    (∃ m', v.addToDiagonal (.temp x) m = .ok m') ↔ v.rows = v.cols := by
  constructor
  · rintro ⟨m', h⟩
    simp only [View.addToDiagonal] at h
    rw [res_bind_ok] at h
    obtain ⟨s, h2, _⟩ := h
    refine diag_past hi h0 h1 ho hm (diag_dom (s' := s) (body := fun m p => do let y ← m.read p; m.write p (y + x)) ?_ ?_)
    · intro m p m' h'
      rw [res_bind_ok] at h'
      obtain ⟨y, _, h4⟩ := h'
      exact write_dom h4
    · rw [← h2]
      congr 1
      funext _ s
      cases hs : s.1.read s.2 <;> rfl
  · intro hs
    have hb : ∀ r c, v.HasElem r c → ∃ y, m (v.data + r * v.inner + c * v.outer) = some y := fun r c hrc =>
      Option.isSome_iff_exists.1 ((hm _).2 ⟨r, c, hrc, trivial, rfl⟩)
    have hinj : v.Injective := by
      rintro r c r' c' ⟨a1, a2, a3, a4⟩ ⟨b1, b2, b3, b4⟩ he
      rw [hi] at he
      have hc : c = c' := by
        rcases Int.lt_trichotomy c c' with hlt | heq | hgt
        · have : (c + 1) * v.outer ≤ c' * v.outer := Int.mul_le_mul_of_nonneg_right (by omega) (by omega)
          have e : (c + 1) * v.outer = c * v.outer + v.outer := by ring
          omega
        · exact heq
        · have : (c' + 1) * v.outer ≤ c * v.outer := Int.mul_le_mul_of_nonneg_right (by omega) (by omega)
          have e : (c' + 1) * v.outer = c' * v.outer + v.outer := by ring
          omega
      subst hc
      exact ⟨by omega, rfl⟩
    obtain ⟨g, hg⟩ : ∃ g : Int → α, ∀ i, v.HasElem i i → v.Holds m i i (g i) := by
      refine ⟨fun i => (m (v.data + i * v.inner + i * v.outer)).getD x, fun i hii => ?_⟩
      obtain ⟨y, hy⟩ := hb i i hii
      simp only [View.Holds, hy, Option.getD_some]
    obtain ⟨m', h', _⟩ := addToDiagonal_exact_partial v (.temp x) x g m hs hinj hg rfl (fun a ha => nomatch ha)
    exact ⟨m', h'⟩

/-- The conditions of the theorems above are met: a 2×3 view with outer stride 4, and the memory of its six elements. -/
example : ∃ m : Mem Int, ∀ a, (m a).isSome = true ↔ (⟨0, 2, 3, 1, 4⟩ : View).IsElemAddr (fun _ _ => True) a := by
  classical
  refine ⟨fun a => if (⟨0, 2, 3, 1, 4⟩ : View).IsElemAddr (fun _ _ => True) a then some 0 else none, fun a => ?_⟩
  by_cases h : (⟨0, 2, 3, 1, 4⟩ : View).IsElemAddr (fun _ _ => True) a <;> simp [h]

end Guanaqo.MatView
