import Verif.MatView.Spec

namespace Guanaqo.MatView

variable {α : Type}

theorem assertThat_true {b : Bool} (h : b = true) : assertThat b = .ok () := by
  simp [assertThat, h]

theorem assertThat_false {b : Bool} (h : b = false) : assertThat b = .error .assertFail := by
  simp [assertThat, h]

@[simp] theorem ok_bind {β γ : Type} (x : β) (f : β → Res γ) :
    ((Except.ok x : Res β) >>= f) = f x := rfl

@[simp] theorem error_bind {β γ : Type} (e : Fault) (f : β → Res γ) :
    ((Except.error e : Res β) >>= f) = .error e := rfl

theorem read_ok {m : Mem α} {p : Int} {x : α} (h : m p = some x) : m.read p = .ok x := by
  simp [Mem.read, h]

theorem write_ok {m : Mem α} {p : Int} {y : α} (x : α) (h : m p = some y) :
    m.write p x = .ok (fun a => if a = p then some x else m a) := by
  simp [Mem.write, h]

theorem wrote_empty {S : Int → Prop} {x : α} {m : Mem α} (h : ∀ a, ¬ S a) :
    WroteExactly S x m m := fun a => ⟨fun hs => absurd hs (h a), fun _ => rfl⟩

theorem wrote_trans {S T : Int → Prop} {x : α} {m₁ m₂ m₃ : Mem α}
    (h₁ : WroteExactly S x m₁ m₂) (h₂ : WroteExactly T x m₂ m₃) :
    WroteExactly (fun a => S a ∨ T a) x m₁ m₃ := by
  intro a
  refine ⟨?_, ?_⟩
  · intro h
    by_cases ht : T a
    · exact (h₂ a).1 ht
    · rw [(h₂ a).2 ht]
      exact (h₁ a).1 (h.resolve_right ht)
  · intro h
    have hs : ¬ S a := fun hs => h (.inl hs)
    have ht : ¬ T a := fun ht => h (.inr ht)
    rw [(h₂ a).2 ht, (h₁ a).2 hs]

theorem wrote_congr {S T : Int → Prop} {x : α} {m m' : Mem α} (h : WroteExactly S x m m')
    (hst : ∀ a, S a ↔ T a) : WroteExactly T x m m' := by
  intro a; rw [← hst a]; exact h a

theorem wrote_one {m : Mem α} {p : Int} {y : α} (x : α) (h : m p = some y) :
    ∃ m', m.write p x = .ok m' ∧ WroteExactly (fun a => a = p) x m m' := by
  refine ⟨_, write_ok x h, ?_⟩
  intro a
  by_cases ha : a = p <;> simp [ha]

/-- The memory is valid on `V` and the argument currently reads as `x`. -/
def Ready (V : Int → Prop) (t : Arg α) (x : α) (m : Mem α) : Prop :=
  (∀ a, V a → ∃ y, m a = some y) ∧ t.eval m = .ok x

theorem ready_wrote {V S : Int → Prop} {t : Arg α} {x : α} {m m' : Mem α}
    (h : Ready V t x m) (hw : WroteExactly S x m m') : Ready V t x m' := by
  refine ⟨?_, ?_⟩
  · intro a ha
    by_cases hs : S a
    · exact ⟨x, (hw a).1 hs⟩
    · rw [(hw a).2 hs]; exact h.1 a ha
  · cases t with
    | temp y => exact h.2
    | ref b =>
      have h2 := h.2
      simp only [Arg.eval, Mem.read] at h2 ⊢
      by_cases hs : S b
      · rw [(hw b).1 hs]
      · rw [(hw b).2 hs]; exact h2

/-- A loop whose iterations write `x` to `S i` writes `x` to the union of the `S i`. -/
theorem forRange_wrote {V : Int → Prop} {t : Arg α} {x : α} {lo hi : Int}
    {body : Int → Mem α → Res (Mem α)} (S : Int → Int → Prop)
    (hb : ∀ i m, lo ≤ i → i < hi → Ready V t x m →
      ∃ m', body i m = .ok m' ∧ WroteExactly (S i) x m m')
    {m : Mem α} (hm : Ready V t x m) :
    ∃ m', forRange lo hi body m = .ok m' ∧
      WroteExactly (fun a => ∃ i, lo ≤ i ∧ i < hi ∧ S i a) x m m' := by
  obtain ⟨m', h, hp⟩ := forRange_inv (lo := lo) (hi := hi) (body := body) (s := m)
    (fun k mk => WroteExactly (fun a => ∃ i, lo ≤ i ∧ i < k ∧ S i a) x m mk)
    (wrote_empty (by rintro a ⟨i, h1, h2, _⟩; omega))
    (by
      intro i mk h1 h2 hw
      obtain ⟨m', hb1, hb2⟩ := hb i mk h1 h2 (ready_wrote hm hw)
      refine ⟨m', hb1, wrote_congr (wrote_trans hw hb2) ?_⟩
      intro a
      constructor
      · rintro (⟨j, h3, h4, h5⟩ | h5)
        · exact ⟨j, h3, by omega, h5⟩
        · exact ⟨i, h1, by omega, h5⟩
      · rintro ⟨j, h3, h4, h5⟩
        by_cases hj : j = i
        · subst hj; exact .inr h5
        · exact .inl ⟨j, h3, by omega, h5⟩)
  refine ⟨m', h, wrote_congr hp ?_⟩
  intro a
  constructor
  · rintro ⟨i, h3, h4, h5⟩; exact ⟨i, h3, by omega, h5⟩
  · rintro ⟨i, h3, h4, h5⟩; exact ⟨i, h3, by omega, h5⟩

theorem fillN_wrote {V : Int → Prop} {t : Arg α} {x : α} {p n : Int} {m : Mem α}
    (hm : Ready V t x m) (hV : ∀ i, 0 ≤ i → i < n → V (p + i)) :
    ∃ m', fillN p n t m = .ok m' ∧
      WroteExactly (fun a => ∃ i, 0 ≤ i ∧ i < n ∧ a = p + i) x m m' := by
  refine forRange_wrote (V := V) (t := t) (fun i a => a = p + i) ?_ hm
  intro i m h1 h2 hr
  obtain ⟨y, hy⟩ := hr.1 _ (hV i h1 h2)
  obtain ⟨m', h3, h4⟩ := wrote_one x hy
  refine ⟨m', ?_, h4⟩
  rw [hr.2]; exact h3

/-- Progress of an element-wise update: the elements in `K` (at addresses `d`) have received
`val`, everything else is as in `m₀`. -/
def Upd {ι : Type} (K : ι → Prop) (d : ι → Int) (val : ι → α) (m₀ m : Mem α) : Prop :=
  (∀ e, K e → m (d e) = some (val e)) ∧ (∀ a, (∀ e, K e → d e ≠ a) → m a = m₀ a)

theorem upd_empty {ι : Type} {K : ι → Prop} {d : ι → Int} {val : ι → α} {m : Mem α}
    (h : ∀ e, ¬ K e) : Upd K d val m m := ⟨fun e he => absurd he (h e), fun _ _ => rfl⟩

theorem upd_congr {ι : Type} {K L : ι → Prop} {d : ι → Int} {val : ι → α} {m₀ m : Mem α}
    (h : Upd K d val m₀ m) (hkl : ∀ e, K e ↔ L e) : Upd L d val m₀ m :=
  ⟨fun e he => h.1 e ((hkl e).2 he), fun a ha => h.2 a (fun e he => ha e ((hkl e).1 he))⟩

theorem upd_step {ι : Type} {K : ι → Prop} {d : ι → Int} {val : ι → α} {m₀ m : Mem α}
    (h : Upd K d val m₀ m) (e : ι) (y : α) (hv : m₀ (d e) = some y)
    (hinj : ∀ e', K e' → d e' = d e → val e' = val e) :
    ∃ m', m.write (d e) (val e) = .ok m' ∧ Upd (fun e' => K e' ∨ e' = e) d val m₀ m' := by
  have hs : ∃ y, m (d e) = some y := by
    by_cases hk : ∃ e', K e' ∧ d e' = d e
    · obtain ⟨e', h1, h2⟩ := hk
      exact ⟨_, h2 ▸ h.1 e' h1⟩
    · refine ⟨y, ?_⟩
      rw [h.2 (d e) (fun e' he' hd => hk ⟨e', he', hd⟩)]; exact hv
  obtain ⟨y', hy'⟩ := hs
  refine ⟨_, write_ok _ hy', ?_, ?_⟩
  · rintro e' (hk | rfl)
    · by_cases hd : d e' = d e
      · simp [hd, hinj e' hk hd]
      · simp [hd, h.1 e' hk]
    · simp
  · intro a ha
    have h1 : d e ≠ a := ha e (.inr rfl)
    have h2 := h.2 a (fun e' he' => ha e' (.inl he'))
    simp [Ne.symm h1, h2]

/-- Reading a location that is no updated address yields the original value. -/
theorem upd_read {ι : Type} {K : ι → Prop} {d : ι → Int} {val : ι → α} {m₀ m : Mem α}
    (h : Upd K d val m₀ m) {a : Int} {x : α} (ha : ∀ e, K e → d e ≠ a) (hx : m₀ a = some x) :
    m a = some x := by rw [h.2 a ha]; exact hx

end Guanaqo.MatView
