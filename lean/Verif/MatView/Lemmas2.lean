import Verif.MatView.Lemmas
import Mathlib.Tactic.Ring
import Mathlib.Tactic.Linarith

namespace Guanaqo.MatView

variable {α : Type}

theorem at_ok {v : View} {r c : Int} (h : v.HasElem r c) :
    v.at r c = .ok (v.data + r * v.inner + c * v.outer) := by
  obtain ⟨h1, h2, h3, h4⟩ := h
  simp [View.at, assertThat, h1, h2, h3, h4, View.addr, pure, Except.pure]
  ring

theorem ready_of_backed {v : View} {t : Arg α} {x : α} {m : Mem α} (hb : v.Backed m)
    (ht : t.eval m = .ok x) : Ready (v.IsElemAddr (fun _ _ => True)) t x m := by
  refine ⟨?_, ht⟩
  rintro a ⟨r, c, h, _, rfl⟩
  exact hb r c h

theorem setConstant_wrote {v : View} {t : Arg α} {x : α} {m : Mem α} (hb : v.Backed m)
    (ht : t.eval m = .ok x) :
    ∃ m', v.setConstant t m = .ok m' ∧
      WroteExactly (v.IsElemAddr (fun _ _ => True)) x m m' := by
  have hr := ready_of_backed hb ht
  unfold View.setConstant
  split
  · rename_i hi
    obtain ⟨m', h1, h2⟩ := forRange_wrote (lo := 0) (hi := v.cols)
      (body := fun c m => fillN (v.data + c * v.outer) v.rows t m)
      (fun c a => ∃ i, 0 ≤ i ∧ i < v.rows ∧ a = v.data + c * v.outer + i)
      (by
        intro c m hc1 hc2 hm
        refine fillN_wrote hm ?_
        intro i h1 h2
        exact ⟨i, c, ⟨h1, h2, hc1, hc2⟩, trivial, by rw [hi]; ring⟩) hr
    refine ⟨m', h1, wrote_congr h2 ?_⟩
    intro a
    constructor
    · rintro ⟨c, hc1, hc2, r, hr1, hr2, rfl⟩
      exact ⟨r, c, ⟨hr1, hr2, hc1, hc2⟩, trivial, by rw [hi]; ring⟩
    · rintro ⟨r, c, ⟨h1, h2, h3, h4⟩, _, rfl⟩
      exact ⟨c, h3, h4, r, h1, h2, by rw [hi]; ring⟩
  · obtain ⟨m', h1, h2⟩ := forRange_wrote (lo := 0) (hi := v.cols)
      (body := fun c m => forRange 0 v.rows
        (fun r m => do m.write (← v.at r c) (← t.eval m)) m)
      (fun c a => ∃ r, 0 ≤ r ∧ r < v.rows ∧ a = v.data + r * v.inner + c * v.outer)
      (by
        intro c m hc1 hc2 hm
        refine forRange_wrote (V := v.IsElemAddr (fun _ _ => True)) (t := t)
          (fun r a => a = v.data + r * v.inner + c * v.outer) ?_ hm
        intro r m hr1 hr2 hm
        have he : v.HasElem r c := ⟨hr1, hr2, hc1, hc2⟩
        obtain ⟨y, hy⟩ := hm.1 _ ⟨r, c, he, trivial, rfl⟩
        obtain ⟨m', h3, h4⟩ := wrote_one x hy
        refine ⟨m', ?_, h4⟩
        rw [at_ok he]
        simp only [ok_bind]
        rw [hm.2]; exact h3) hr
    refine ⟨m', h1, wrote_congr h2 ?_⟩
    intro a
    constructor
    · rintro ⟨c, hc1, hc2, r, hr1, hr2, rfl⟩
      exact ⟨r, c, ⟨hr1, hr2, hc1, hc2⟩, trivial, rfl⟩
    · rintro ⟨r, c, ⟨h1, h2, h3, h4⟩, _, rfl⟩
      exact ⟨c, h3, h4, r, h1, h2, rfl⟩

/-- The column loops of the triangular `set_constant`: column `c` receives `cnt c` elements
from row `first c` on. -/
theorem columns_wrote {v : View} (hi : v.inner = 1) {t : Arg α} {x : α} {m : Mem α}
    (hr : Ready (v.IsElemAddr (fun _ _ => True)) t x m) (lo hi' : Int) (start first cnt : Int → Int)
    (hs : ∀ c, start c = v.data + first c + c * v.outer)
    (hin : ∀ c r, lo ≤ c → c < hi' → first c ≤ r → r < first c + cnt c → v.HasElem r c)
    (P : Int → Int → Prop)
    (hP : ∀ r c, v.HasElem r c → (P r c ↔ lo ≤ c ∧ c < hi' ∧ first c ≤ r ∧ r < first c + cnt c)) :
    ∃ m', forRange lo hi' (fun c m => fillN (start c) (cnt c) t m) m = .ok m' ∧
      WroteExactly (v.IsElemAddr P) x m m' := by
  obtain ⟨m', h1, h2⟩ := forRange_wrote (lo := lo) (hi := hi')
    (body := fun c m => fillN (start c) (cnt c) t m)
    (fun c a => ∃ i, 0 ≤ i ∧ i < cnt c ∧ a = start c + i)
    (by
      intro c m hc1 hc2 hm
      refine fillN_wrote hm ?_
      intro i h1 h2
      exact ⟨first c + i, c, hin c _ hc1 hc2 (by omega) (by omega), trivial, by
        rw [hi, hs]; ring⟩) hr
  refine ⟨m', h1, wrote_congr h2 ?_⟩
  intro a
  constructor
  · rintro ⟨c, hc1, hc2, i, h3, h4, rfl⟩
    have he := hin c (first c + i) hc1 hc2 (by omega) (by omega)
    exact ⟨first c + i, c, he, (hP _ _ he).2 ⟨hc1, hc2, by omega, by omega⟩, by rw [hi, hs]; ring⟩
  · rintro ⟨r, c, he, hp, rfl⟩
    obtain ⟨h3, h4, h5, h6⟩ := (hP _ _ he).1 hp
    exact ⟨c, h3, h4, r - first c, by omega, by omega, by rw [hi, hs]; ring⟩

/-- Element-wise column loop with destination pointer and auxiliary pointer. -/
theorem copyColumn_upd {d : Int × Int → Int} {val : Int × Int → α} {m₀ m : Mem α}
    {K : Int × Int → Prop} {si di rows src dst c : Int}
    (hu : Upd K d val m₀ m)
    (hd : ∀ r, 0 ≤ r → r < rows → d (r, c) = dst + r * di)
    (hsrc : ∀ r, 0 ≤ r → r < rows → m₀ (src + r * si) = some (val (r, c)))
    (hval : ∀ r, 0 ≤ r → r < rows → ∃ y, m₀ (d (r, c)) = some y)
    (hinj : ∀ r e, 0 ≤ r → r < rows → (K e ∨ (e.2 = c ∧ 0 ≤ e.1 ∧ e.1 < r)) →
      d e = d (r, c) → val e = val (r, c))
    (halias : ∀ r e, 0 ≤ r → r < rows → (K e ∨ (e.2 = c ∧ 0 ≤ e.1 ∧ e.1 < r)) →
      d e ≠ src + r * si) :
    ∃ m', copyColumn si di rows src dst m = .ok m' ∧
      Upd (fun e => K e ∨ (e.2 = c ∧ 0 ≤ e.1 ∧ e.1 < rows)) d val m₀ m' := by
  have base : Upd (fun e => K e ∨ (e.2 = c ∧ 0 ≤ e.1 ∧ e.1 < 0)) d val m₀ m :=
    upd_congr hu (fun e => ⟨.inl, by rintro (h | h); exact h; omega⟩)
  have stepSet : ∀ r : Int, 0 ≤ r → ∀ e : Int × Int,
      ((K e ∨ (e.2 = c ∧ 0 ≤ e.1 ∧ e.1 < r)) ∨ e = (r, c)) ↔
        (K e ∨ (e.2 = c ∧ 0 ≤ e.1 ∧ e.1 < r + 1)) := by
    intro r h1 e
    constructor
    · rintro ((h | h) | rfl)
      · exact .inl h
      · exact .inr ⟨h.1, h.2.1, by omega⟩
      · exact .inr ⟨rfl, h1, by simp⟩
    · rintro (h | ⟨h3, h4, h5⟩)
      · exact .inl (.inl h)
      · by_cases he : e.1 = r
        · right; exact Prod.ext he h3
        · left; right; exact ⟨h3, h4, by omega⟩
  have finalSet : ∀ e : Int × Int, (K e ∨ (e.2 = c ∧ 0 ≤ e.1 ∧ e.1 < max 0 rows)) ↔
      (K e ∨ (e.2 = c ∧ 0 ≤ e.1 ∧ e.1 < rows)) := by
    intro e; constructor <;> (rintro (h | h); exact .inl h; exact .inr ⟨h.1, h.2.1, by omega⟩)
  unfold copyColumn
  split
  · rename_i hii
    obtain ⟨m', h1, h2⟩ := forRange_inv (lo := 0) (hi := rows) (s := m)
      (body := fun i m => do m.write (dst + i) (← m.read (src + i)))
      (fun r mk => Upd (fun e => K e ∨ (e.2 = c ∧ 0 ≤ e.1 ∧ e.1 < r)) d val m₀ mk) base
      (by
        intro r mk h1 h2 hp
        have hrd : mk (src + r) = some (val (r, c)) := by
          have := upd_read hp (halias r · h1 h2) (hsrc r h1 h2)
          rwa [hii.1, Int.mul_one] at this
        obtain ⟨y, hy⟩ := hval r h1 h2
        obtain ⟨m', h3, h4⟩ := upd_step hp (r, c) y hy (fun e he hde => hinj r e h1 h2 he hde)
        refine ⟨m', ?_, upd_congr h4 (stepSet r h1)⟩
        rw [read_ok hrd]
        simp only [ok_bind]
        rw [hd r h1 h2, hii.2, Int.mul_one] at h3
        exact h3)
    exact ⟨m', h1, upd_congr h2 finalSet⟩
  · obtain ⟨s', h1, h2⟩ := forRange_inv (lo := 0) (hi := rows) (s := (m, src, dst))
      (body := fun _ (s : Mem α × Int × Int) => do
        let m ← s.1.write s.2.2 (← s.1.read s.2.1)
        return (m, s.2.1 + si, s.2.2 + di))
      (fun r s => Upd (fun e => K e ∨ (e.2 = c ∧ 0 ≤ e.1 ∧ e.1 < r)) d val m₀ s.1 ∧
        s.2.1 = src + r * si ∧ s.2.2 = dst + r * di)
      ⟨base, by simp, by simp⟩
      (by
        rintro r ⟨mk, p, q⟩ h1 h2 ⟨hp, hq1, hq2⟩
        simp only at hp hq1 hq2
        have hrd : mk p = some (val (r, c)) := by
          rw [hq1]; exact upd_read hp (halias r · h1 h2) (hsrc r h1 h2)
        obtain ⟨y, hy⟩ := hval r h1 h2
        obtain ⟨m', h3, h4⟩ := upd_step hp (r, c) y hy (fun e he hde => hinj r e h1 h2 he hde)
        refine ⟨(m', p + si, q + di), ?_, upd_congr h4 (stepSet r h1), ?_, ?_⟩
        · simp only [read_ok hrd, ok_bind]
          rw [hd r h1 h2, ← hq2] at h3
          rw [h3]; rfl
        · simp only [hq1]; ring
        · simp only [hq2]; ring)
    refine ⟨s'.1, ?_, upd_congr h2.1 finalSet⟩
    rw [h1]; rfl

/-- The same for `addColumn`. -/
theorem addColumn_upd [Add α] {d : Int × Int → Int} {sv dv : Int × Int → α} {m₀ m : Mem α}
    {K : Int × Int → Prop} {si di rows src dst c : Int}
    (hu : Upd K d (fun e => dv e + sv e) m₀ m)
    (hd : ∀ r, 0 ≤ r → r < rows → d (r, c) = dst + r * di)
    (hsrc : ∀ r, 0 ≤ r → r < rows → m₀ (src + r * si) = some (sv (r, c)))
    (hval : ∀ r, 0 ≤ r → r < rows → m₀ (d (r, c)) = some (dv (r, c)))
    (hinj : ∀ r e, 0 ≤ r → r < rows → (K e ∨ (e.2 = c ∧ 0 ≤ e.1 ∧ e.1 < r)) → d e ≠ d (r, c))
    (halias : ∀ r e, 0 ≤ r → r < rows → (K e ∨ (e.2 = c ∧ 0 ≤ e.1 ∧ e.1 < r)) →
      d e ≠ src + r * si) :
    ∃ m', addColumn si di rows src dst m = .ok m' ∧
      Upd (fun e => K e ∨ (e.2 = c ∧ 0 ≤ e.1 ∧ e.1 < rows)) d (fun e => dv e + sv e) m₀ m' := by
  have base : Upd (fun e => K e ∨ (e.2 = c ∧ 0 ≤ e.1 ∧ e.1 < 0)) d (fun e => dv e + sv e) m₀ m :=
    upd_congr hu (fun e => ⟨.inl, by rintro (h | h); exact h; omega⟩)
  have stepSet : ∀ r : Int, 0 ≤ r → ∀ e : Int × Int,
      ((K e ∨ (e.2 = c ∧ 0 ≤ e.1 ∧ e.1 < r)) ∨ e = (r, c)) ↔
        (K e ∨ (e.2 = c ∧ 0 ≤ e.1 ∧ e.1 < r + 1)) := by
    intro r h1 e
    constructor
    · rintro ((h | h) | rfl)
      · exact .inl h
      · exact .inr ⟨h.1, h.2.1, by omega⟩
      · exact .inr ⟨rfl, h1, by simp⟩
    · rintro (h | ⟨h3, h4, h5⟩)
      · exact .inl (.inl h)
      · by_cases he : e.1 = r
        · right; exact Prod.ext he h3
        · left; right; exact ⟨h3, h4, by omega⟩
  have finalSet : ∀ e : Int × Int, (K e ∨ (e.2 = c ∧ 0 ≤ e.1 ∧ e.1 < max 0 rows)) ↔
      (K e ∨ (e.2 = c ∧ 0 ≤ e.1 ∧ e.1 < rows)) := by
    intro e; constructor <;> (rintro (h | h); exact .inl h; exact .inr ⟨h.1, h.2.1, by omega⟩)
  obtain ⟨s', h1, h2⟩ := forRange_inv (lo := 0) (hi := rows) (s := (m, src, dst))
    (body := fun _ (s : Mem α × Int × Int) => do
      let y ← s.1.read s.2.1
      let x ← s.1.read s.2.2
      let m ← s.1.write s.2.2 (x + y)
      return (m, s.2.1 + si, s.2.2 + di))
    (fun r s => Upd (fun e => K e ∨ (e.2 = c ∧ 0 ≤ e.1 ∧ e.1 < r)) d (fun e => dv e + sv e) m₀ s.1 ∧
      s.2.1 = src + r * si ∧ s.2.2 = dst + r * di)
    ⟨base, by simp, by simp⟩
    (by
      rintro r ⟨mk, p, q⟩ h1 h2 ⟨hp, hq1, hq2⟩
      simp only at hp hq1 hq2
      have hrs : mk p = some (sv (r, c)) := by
        rw [hq1]; exact upd_read hp (halias r · h1 h2) (hsrc r h1 h2)
      have hrd : mk q = some (dv (r, c)) := by
        rw [hq2, ← hd r h1 h2]; exact upd_read hp (hinj r · h1 h2) (hval r h1 h2)
      obtain ⟨m', h3, h4⟩ := upd_step hp (r, c) _ (hval r h1 h2)
        (fun e he hde => absurd hde (hinj r e h1 h2 he))
      refine ⟨(m', p + si, q + di), ?_, upd_congr h4 (stepSet r h1), ?_, ?_⟩
      · simp only [read_ok hrs, read_ok hrd, ok_bind]
        rw [hd r h1 h2, ← hq2] at h3
        simp only [h3]; rfl
      · simp only [hq1]; ring
      · simp only [hq2]; ring)
  refine ⟨s'.1, ?_, upd_congr h2.1 finalSet⟩
  unfold addColumn
  rw [h1]; rfl

/-- The same for `addScalarColumn`; the argument must keep its value during the loop. -/
theorem addScalarColumn_upd [Add α] {d : Int × Int → Int} {u : Arg α} {x : α}
    {dv : Int × Int → α} {m₀ m : Mem α}
    {K : Int × Int → Prop} {di rows dst c : Int}
    (hu : Upd K d (fun e => dv e + x) m₀ m)
    (hd : ∀ r, 0 ≤ r → r < rows → d (r, c) = dst + r * di)
    (hval : ∀ r, 0 ≤ r → r < rows → m₀ (d (r, c)) = some (dv (r, c)))
    (hinj : ∀ r e, 0 ≤ r → r < rows → (K e ∨ (e.2 = c ∧ 0 ≤ e.1 ∧ e.1 < r)) → d e ≠ d (r, c))
    (harg : ∀ m L, (∀ e, L e → K e ∨ (e.2 = c ∧ 0 ≤ e.1 ∧ e.1 < rows)) →
      Upd L d (fun e => dv e + x) m₀ m → u.eval m = .ok x) :
    ∃ m', addScalarColumn di rows dst u m = .ok m' ∧
      Upd (fun e => K e ∨ (e.2 = c ∧ 0 ≤ e.1 ∧ e.1 < rows)) d (fun e => dv e + x) m₀ m' := by
  have base : Upd (fun e => K e ∨ (e.2 = c ∧ 0 ≤ e.1 ∧ e.1 < 0)) d (fun e => dv e + x) m₀ m :=
    upd_congr hu (fun e => ⟨.inl, by rintro (h | h); exact h; omega⟩)
  have stepSet : ∀ r : Int, 0 ≤ r → ∀ e : Int × Int,
      ((K e ∨ (e.2 = c ∧ 0 ≤ e.1 ∧ e.1 < r)) ∨ e = (r, c)) ↔
        (K e ∨ (e.2 = c ∧ 0 ≤ e.1 ∧ e.1 < r + 1)) := by
    intro r h1 e
    constructor
    · rintro ((h | h) | rfl)
      · exact .inl h
      · exact .inr ⟨h.1, h.2.1, by omega⟩
      · exact .inr ⟨rfl, h1, by simp⟩
    · rintro (h | ⟨h3, h4, h5⟩)
      · exact .inl (.inl h)
      · by_cases he : e.1 = r
        · right; exact Prod.ext he h3
        · left; right; exact ⟨h3, h4, by omega⟩
  have finalSet : ∀ e : Int × Int, (K e ∨ (e.2 = c ∧ 0 ≤ e.1 ∧ e.1 < max 0 rows)) ↔
      (K e ∨ (e.2 = c ∧ 0 ≤ e.1 ∧ e.1 < rows)) := by
    intro e; constructor <;> (rintro (h | h); exact .inl h; exact .inr ⟨h.1, h.2.1, by omega⟩)
  obtain ⟨s', h1, h2⟩ := forRange_inv (lo := 0) (hi := rows) (s := (m, dst))
    (body := fun _ (s : Mem α × Int) => do
      let x ← s.1.read s.2
      let m ← s.1.write s.2 (x + (← u.eval s.1))
      return (m, s.2 + di))
    (fun r s => Upd (fun e => K e ∨ (e.2 = c ∧ 0 ≤ e.1 ∧ e.1 < r)) d (fun e => dv e + x) m₀ s.1 ∧
      s.2 = dst + r * di)
    ⟨base, by simp⟩
    (by
      rintro r ⟨mk, q⟩ h1 h2 ⟨hp, hq2⟩
      simp only at hp hq2
      have hrd : mk q = some (dv (r, c)) := by
        rw [hq2, ← hd r h1 h2]; exact upd_read hp (hinj r · h1 h2) (hval r h1 h2)
      have hx : u.eval mk = .ok x := harg mk _ (by
        rintro e (h | h)
        · exact .inl h
        · exact .inr ⟨h.1, h.2.1, by omega⟩) hp
      obtain ⟨m', h3, h4⟩ := upd_step hp (r, c) _ (hval r h1 h2)
        (fun e he hde => absurd hde (hinj r e h1 h2 he))
      refine ⟨(m', q + di), ?_, upd_congr h4 (stepSet r h1), ?_⟩
      · simp only [read_ok hrd, hx, ok_bind]
        rw [hd r h1 h2, ← hq2] at h3
        simp only [h3]; rfl
      · simp only [hq2]; ring)
  refine ⟨s'.1, ?_, upd_congr h2.1 finalSet⟩
  unfold addScalarColumn
  rw [h1]; rfl

end Guanaqo.MatView
