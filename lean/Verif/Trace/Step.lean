import Verif.Trace.Inv

/-! Every step preserves the invariant and has no undefined behaviour. -/

namespace Guanaqo.Trace

variable {s : St} {h : Hist}

theorem inv_call (hI : Inv s h) (e : Nat) (a : Args) :
    ∀ r, step s (.call e a) = r → r = .disabled ∨ ∃ s', r = .ok s' ∧ Inv s' (h.step (.call e a)) := by
  rintro r rfl
  simp only [step]
  split
  case h_2 => exact .inl rfl
  rename_i hpc hobj
  obtain ⟨f1, f2⟩ := hI.fresh e hpc
  refine .inr ⟨_, rfl, ?_⟩
  have hne : ∀ e' i, Owns s h e' i → e' ≠ e := by rintro e' i ho rfl; exact f1 ho.mem
  constructor
  · exact hI.cnt
  · exact hI.nodup
  · intro e' he'
    by_cases hee : e' = e
    · subst hee; dsimp only at he'; rw [upd_same] at he'; cases he'
    · dsimp only at he'; rw [upd_ne _ _ hee] at he'
      simp only [Hist.step]; rw [upd_ne _ _ hee]; exact hI.fresh e' he'
  · intro e' a' he'
    simp only [Hist.step]
    by_cases hee : e' = e
    · subst hee; dsimp only at he'; rw [upd_same] at he'; cases he'; rw [upd_same]; exact ⟨f1, rfl⟩
    · dsimp only at he'; rw [upd_ne _ _ hee] at he'; rw [upd_ne _ _ hee]; exact hI.called e' a' he'
  · intro e' a' i he'
    simp only [Hist.step]
    by_cases hee : e' = e
    · subst hee; dsimp only at he'; rw [upd_same] at he'; cases he'
    · dsimp only at he'; rw [upd_ne _ _ hee] at he'; rw [upd_ne _ _ hee]; exact hI.fetched e' a' i he'
  · intro e' a' i t k he'
    simp only [Hist.step]
    by_cases hee : e' = e
    · subst hee; dsimp only at he'; rw [upd_same] at he'; cases he'
    · dsimp only at he'; rw [upd_ne _ _ hee] at he'; rw [upd_ne _ _ hee]; exact hI.writing e' a' i t k he'
  · intro e' i he' ho
    have hee := hne e' i ho
    dsimp only at he'; rw [upd_ne _ _ hee] at he'
    obtain ⟨x, t, l, h1, h2⟩ := hI.done e' i he' ho
    exact ⟨x, t, l, by simp only [Hist.step]; rw [upd_ne _ _ hee]; exact h1, h2⟩
  · intro o i t ho
    obtain ⟨e', h1, h2, x, h3, h4⟩ := hI.obj o i t ho
    have hee := hne e' i h1
    refine ⟨e', h1, ?_, x, ?_, h4⟩
    · dsimp only; rw [upd_ne _ _ hee]; exact h2
    · simp only [Hist.step]; rw [upd_ne _ _ hee]; exact h3
  · intro e' x o hx hh
    simp only [Hist.step] at hx
    by_cases hee : e' = e
    · subst hee; rw [upd_same] at hx; cases hx; cases hh
    · rw [upd_ne _ _ hee] at hx; exact hI.holder e' x o hx hh
  · intro o ho
    dsimp only at ho ⊢
    have hoe : o ≠ e := by rintro rfl; exact ho hobj
    rw [upd_ne _ _ hoe]; exact hI.objpc o ho

theorem getElem?_snoc_of_ne {l : List Nat} {i x y : Nat} (h : (l ++ [x])[i]? = some y) (hy : y ≠ x) : l[i]? = some y := by
  rw [List.getElem?_append] at h
  split at h
  · exact h
  · have : x = y := by
      have hm := List.mem_of_getElem? h
      simp at hm; exact hm.symm
    exact absurd this.symm hy

theorem inv_fetch (hI : Inv s h) (e : Nat) (hc : s.count + 1 < 2 ^ 64) :
    ∀ r, step s (.fetch e) = r → r = .disabled ∨ ∃ s', r = .ok s' ∧ Inv s' (h.step (.fetch e)) := by
  rintro r rfl
  simp only [step]
  split
  case h_2 => exact .inl rfl
  rename_i a hpc
  obtain ⟨f1, f2⟩ := hI.called e a hpc
  have hmod : (s.count + 1) % 2 ^ 64 = s.count + 1 := Nat.mod_eq_of_lt hc
  have hnd : (h.order ++ [e]).Nodup := by
    rw [List.nodup_append]
    refine ⟨hI.nodup, by simp, ?_⟩
    intro x hx y hy
    simp at hy
    rintro rfl
    exact f1 (hy ▸ hx)
  have hcnt : (s.count + 1) % 2 ^ 64 = (h.order ++ [e]).length := by rw [hmod, hI.cnt]; simp
  have hobj : s.objs e = none := by
    cases ho : s.objs e with
    | none => rfl
    | some x =>
      have := hI.objpc e (by rw [ho]; simp)
      rw [hpc] at this; cases this
  -- other events own what they owned
  have mono : ∀ (s' : St) e' i, s'.logs = s.logs → Owns s h e' i → Owns s' (h.step (.fetch e)) e' i := by
    rintro s' e' i hl ⟨h1, h2⟩
    refine ⟨?_, by rw [hl]; exact h2⟩
    simp only [Hist.step]
    rw [List.getElem?_append_left (List.getElem?_eq_some_iff.1 h1).1]; exact h1
  have back : ∀ (s' : St) e' i, s'.logs = s.logs → e' ≠ e → Owns s' (h.step (.fetch e)) e' i → Owns s h e' i := by
    rintro s' e' i hl hne ⟨h1, h2⟩
    exact ⟨getElem?_snoc_of_ne h1 hne, by rw [← hl]; exact h2⟩
  by_cases hge : s.count ≥ s.logs.length
  · rw [if_pos hge]
    refine .inr ⟨_, rfl, ?_⟩
    constructor
    · exact hcnt
    · exact hnd
    · intro e' he'
      by_cases hee : e' = e
      · subst hee; dsimp only at he'; rw [upd_same] at he'; cases he'
      · dsimp only at he'; rw [upd_ne _ _ hee] at he'
        simp only [Hist.step]
        obtain ⟨g1, g2⟩ := hI.fresh e' he'
        exact ⟨by simp [g1, hee], g2⟩
    · intro e' a' he'
      by_cases hee : e' = e
      · subst hee; dsimp only at he'; rw [upd_same] at he'; cases he'
      · dsimp only at he'; rw [upd_ne _ _ hee] at he'
        simp only [Hist.step]
        obtain ⟨g1, g2⟩ := hI.called e' a' he'
        exact ⟨by simp [g1, hee], g2⟩
    · intro e' a' i he'
      by_cases hee : e' = e
      · subst hee; dsimp only at he'; rw [upd_same] at he'; cases he'
      · dsimp only at he'; rw [upd_ne _ _ hee] at he'
        obtain ⟨g1, g2⟩ := hI.fetched e' a' i he'
        exact ⟨mono _ e' i rfl g1, g2⟩
    · intro e' a' i t k he'
      by_cases hee : e' = e
      · subst hee; dsimp only at he'; rw [upd_same] at he'; cases he'
      · dsimp only at he'; rw [upd_ne _ _ hee] at he'
        obtain ⟨g1, g2⟩ := hI.writing e' a' i t k he'
        exact ⟨mono _ e' i rfl g1, g2⟩
    · intro e' i he' ho
      by_cases hee : e' = e
      · -- a dropped event owns nothing
        subst hee
        exfalso
        have : i = h.order.length := by
          have h1 := ho.1
          simp only [Hist.step] at h1
          obtain ⟨hi, e1⟩ := List.getElem?_eq_some_iff.1 h1
          have := (List.getElem_inj (i := i) (j := h.order.length) (h₀ := hi) (h₁ := by simp) hnd).1 (by rw [e1]; simp)
          exact this
        have h2 := ho.2
        dsimp only at h2
        rw [hI.cnt] at hge
        omega
      · dsimp only at he'; rw [upd_ne _ _ hee] at he'
        obtain ⟨x, t, l, h1, h2, h3, h4, h5⟩ := hI.done e' i he' (back _ e' i rfl hee ho)
        refine ⟨x, t, l, h1, h2, h3, h4, ?_⟩
        rcases h5 with ⟨o, h5, h6, h7⟩ | h5
        · refine .inl ⟨o, h5, ?_, h7⟩
          dsimp only
          rw [upd_ne _ _ (by rintro rfl; rw [hobj] at h6; cases h6)]; exact h6
        · exact .inr h5
    · intro o i t ho
      by_cases hoe : o = e
      · subst hoe; dsimp only at ho; rw [upd_same] at ho; cases ho
      · dsimp only at ho; rw [upd_ne _ _ hoe] at ho
        obtain ⟨e', h1, h2, x, h3, h4⟩ := hI.obj o i t ho
        refine ⟨e', mono _ e' i rfl h1, ?_, x, h3, h4⟩
        dsimp only
        rw [upd_ne _ _ (by rintro rfl; rw [hpc] at h2; cases h2)]; exact h2
    · intro e' x o hx hh
      obtain ⟨i, t, h1, h2⟩ := hI.holder e' x o hx hh
      refine ⟨i, t, ?_, mono _ e' i rfl h2⟩
      dsimp only
      rw [upd_ne _ _ (by rintro rfl; rw [hobj] at h1; cases h1)]; exact h1
    · intro o ho
      dsimp only at ho ⊢
      by_cases hoe : o = e
      · subst hoe; rw [upd_same]
      · rw [upd_ne _ _ hoe] at ho; rw [upd_ne _ _ hoe]; exact hI.objpc o ho
  · rw [if_neg hge]
    refine .inr ⟨_, rfl, ?_⟩
    constructor
    · exact hcnt
    · exact hnd
    · intro e' he'
      by_cases hee : e' = e
      · subst hee; dsimp only at he'; rw [upd_same] at he'; cases he'
      · dsimp only at he'; rw [upd_ne _ _ hee] at he'
        simp only [Hist.step]
        obtain ⟨g1, g2⟩ := hI.fresh e' he'
        exact ⟨by simp [g1, hee], g2⟩
    · intro e' a' he'
      by_cases hee : e' = e
      · subst hee; dsimp only at he'; rw [upd_same] at he'; cases he'
      · dsimp only at he'; rw [upd_ne _ _ hee] at he'
        simp only [Hist.step]
        obtain ⟨g1, g2⟩ := hI.called e' a' he'
        exact ⟨by simp [g1, hee], g2⟩
    · intro e' a' i he'
      by_cases hee : e' = e
      · subst hee; dsimp only at he'; rw [upd_same] at he'; cases he'
        refine ⟨⟨?_, by dsimp only; omega⟩, f2⟩
        simp only [Hist.step]
        rw [hI.cnt]; simp
      · dsimp only at he'; rw [upd_ne _ _ hee] at he'
        obtain ⟨g1, g2⟩ := hI.fetched e' a' i he'
        exact ⟨mono _ e' i rfl g1, g2⟩
    · intro e' a' i t k he'
      by_cases hee : e' = e
      · subst hee; dsimp only at he'; rw [upd_same] at he'; cases he'
      · dsimp only at he'; rw [upd_ne _ _ hee] at he'
        obtain ⟨g1, g2⟩ := hI.writing e' a' i t k he'
        exact ⟨mono _ e' i rfl g1, g2⟩
    · intro e' i he' ho
      by_cases hee : e' = e
      · subst hee; dsimp only at he'; rw [upd_same] at he'; cases he'
      · dsimp only at he'; rw [upd_ne _ _ hee] at he'
        obtain ⟨x, t, l, h1, h2, h3, h4, h5⟩ := hI.done e' i he' (back _ e' i rfl hee ho)
        exact ⟨x, t, l, h1, h2, h3, h4, h5⟩
    · intro o i t ho
      obtain ⟨e', h1, h2, x, h3, h4⟩ := hI.obj o i t ho
      refine ⟨e', mono _ e' i rfl h1, ?_, x, h3, h4⟩
      dsimp only
      rw [upd_ne _ _ (by rintro rfl; rw [hpc] at h2; cases h2)]; exact h2
    · intro e' x o hx hh
      obtain ⟨i, t, h1, h2⟩ := hI.holder e' x o hx hh
      exact ⟨i, t, h1, mono _ e' i rfl h2⟩
    · intro o ho
      dsimp only at ho ⊢
      rw [upd_ne _ _ (by rintro rfl; exact ho hobj)]; exact hI.objpc o ho

theorem mod_same {f : Ev → Ev} {e : Nat} {x : Ev} (hx : h.ev e = some x) : (h.mod f e).ev e = some (f x) := by
  simp only [Hist.mod]; rw [upd_same, hx]; rfl

theorem mod_ne {f : Ev → Ev} {e e' : Nat} (hne : e' ≠ e) : (h.mod f e).ev e' = h.ev e' := by
  simp only [Hist.mod]; rw [upd_ne _ _ hne]

theorem inv_now (hI : Inv s h) (e : Nat) (t : Int) :
    ∀ r, step s (.now e t) = r → r = .disabled ∨ ∃ s', r = .ok s' ∧ Inv s' (h.step (.now e t)) := by
  rintro r rfl
  simp only [step]
  split
  case h_2 => exact .inl rfl
  rename_i a i hpc
  obtain ⟨f1, f2⟩ := hI.fetched e a i hpc
  refine .inr ⟨_, rfl, ?_⟩
  have hev : (h.step (.now e t)).ev e = some { args := a, start := some t } := by
    simp only [Hist.step]; rw [mod_same f2]
  have hev' : ∀ e', e' ≠ e → (h.step (.now e t)).ev e' = h.ev e' := fun e' hne => by
    simp only [Hist.step]; rw [mod_ne hne]
  have hobj : s.objs e = none := by
    cases ho : s.objs e with
    | none => rfl
    | some x =>
      have := hI.objpc e (by rw [ho]; simp)
      rw [hpc] at this; cases this
  constructor
  · exact hI.cnt
  · exact hI.nodup
  · intro e' he'
    by_cases hee : e' = e
    · subst hee; dsimp only at he'; rw [upd_same] at he'; cases he'
    · dsimp only at he'; rw [upd_ne _ _ hee] at he'; rw [hev' e' hee]; exact hI.fresh e' he'
  · intro e' a' he'
    by_cases hee : e' = e
    · subst hee; dsimp only at he'; rw [upd_same] at he'; cases he'
    · dsimp only at he'; rw [upd_ne _ _ hee] at he'; rw [hev' e' hee]; exact hI.called e' a' he'
  · intro e' a' i he'
    by_cases hee : e' = e
    · subst hee; dsimp only at he'; rw [upd_same] at he'; cases he'
    · dsimp only at he'; rw [upd_ne _ _ hee] at he'; rw [hev' e' hee]; exact hI.fetched e' a' i he'
  · intro e' a' i' t' k he'
    by_cases hee : e' = e
    · subst hee; dsimp only at he'; rw [upd_same] at he'; cases he'
      obtain ⟨l, hl⟩ : ∃ l, s.logs[i]? = some l := ⟨_, List.getElem?_eq_getElem f1.2⟩
      refine ⟨f1, hev, by omega, l, hl, ?_⟩
      constructor <;> (intro h; omega)
    · dsimp only at he'; rw [upd_ne _ _ hee] at he'; rw [hev' e' hee]; exact hI.writing e' a' i' t' k he'
  · intro e' i' he' ho
    by_cases hee : e' = e
    · subst hee; dsimp only at he'; rw [upd_same] at he'; cases he'
    · dsimp only at he'; rw [upd_ne _ _ hee] at he'
      obtain ⟨x, t, l, h1, h2⟩ := hI.done e' i' he' ho
      exact ⟨x, t, l, by rw [hev' e' hee]; exact h1, h2⟩
  · intro o i' t' ho
    obtain ⟨e', h1, h2, x, h3, h4⟩ := hI.obj o i' t' ho
    have hee : e' ≠ e := by rintro rfl; rw [hpc] at h2; cases h2
    exact ⟨e', h1, by dsimp only; rw [upd_ne _ _ hee]; exact h2, x, by rw [hev' e' hee]; exact h3, h4⟩
  · intro e' x o hx hh
    by_cases hee : e' = e
    · subst hee; rw [hev] at hx; cases hx; cases hh
    · rw [hev' e' hee] at hx; exact hI.holder e' x o hx hh
  · intro o ho
    dsimp only at ho ⊢
    rw [upd_ne _ _ (by rintro rfl; exact ho hobj)]; exact hI.objpc o ho

theorem fields_write {t0 : Int} {a : Args} {t : Int} {k : Nat} {l : Log} (hf : Fields t0 a t k l) (hk : k < 5) :
    Fields t0 a t (k + 1) (writeField t0 a t l k) := by
  obtain ⟨f0, f1, f2, f3, f4⟩ := hf
  have hk' : k = 0 ∨ k = 1 ∨ k = 2 ∨ k = 3 ∨ k = 4 := by omega
  rcases hk' with rfl | rfl | rfl | rfl | rfl <;>
  · simp only [writeField]
    constructor <;> intro hh <;> first
      | rfl
      | exact f0 (by omega)
      | exact f1 (by omega)
      | exact f2 (by omega)
      | exact f3 (by omega)
      | exact f4 (by omega)
      | omega

theorem inv_write (hI : Inv s h) (e : Nat) :
    ∀ r, step s (.write e) = r → r = .disabled ∨ ∃ s', r = .ok s' ∧ Inv s' (h.step (.write e)) := by
  rintro r rfl
  simp only [step]
  split
  case h_2 => exact .inl rfl
  rename_i a i t k hpc
  obtain ⟨f1, f2, f3, l, f4, f5⟩ := hI.writing e a i t k hpc
  by_cases hk : k < 5
  case neg => rw [if_neg hk]; exact .inl rfl
  rw [if_pos hk]
  have hset : setLog s i (fun l => writeField s.t0 a t l k) = some { s with logs := s.logs.set i (writeField s.t0 a t l k) } := by
    unfold setLog; rw [f4]
  rw [hset]
  refine .inr ⟨_, rfl, ?_⟩
  have hobj : s.objs e = none := by
    cases ho : s.objs e with
    | none => rfl
    | some x =>
      have := hI.objpc e (by rw [ho]; simp)
      rw [hpc] at this; cases this
  have hother : ∀ e' j, e' ≠ e → Owns s h e' j → (s.logs.set i (writeField s.t0 a t l k))[j]? = s.logs[j]? := by
    intro e' j hne ho
    have hij : i ≠ j := by rintro rfl; exact hne (ho.inj f1)
    rw [List.getElem?_set_ne hij]
  have hown : ∀ e' j, Owns { s with logs := s.logs.set i (writeField s.t0 a t l k), pc := upd s.pc e (some (.writing a i t (k + 1))) } h e' j ↔
      Owns s h e' j := by
    intro e' j
    unfold Owns
    simp
  constructor
  · exact hI.cnt
  · exact hI.nodup
  · intro e' he'
    by_cases hee : e' = e
    · subst hee; dsimp only at he'; rw [upd_same] at he'; cases he'
    · dsimp only at he'; rw [upd_ne _ _ hee] at he'; exact hI.fresh e' he'
  · intro e' a' he'
    by_cases hee : e' = e
    · subst hee; dsimp only at he'; rw [upd_same] at he'; cases he'
    · dsimp only at he'; rw [upd_ne _ _ hee] at he'; exact hI.called e' a' he'
  · intro e' a' j he'
    by_cases hee : e' = e
    · subst hee; dsimp only at he'; rw [upd_same] at he'; cases he'
    · dsimp only at he'; rw [upd_ne _ _ hee] at he'
      obtain ⟨g1, g2⟩ := hI.fetched e' a' j he'
      exact ⟨(hown e' j).2 g1, g2⟩
  · intro e' a' j t' k' he'
    by_cases hee : e' = e
    · subst hee; dsimp only at he'; rw [upd_same] at he'; cases he'
      refine ⟨(hown _ _).2 f1, f2, by omega, _, ?_, fields_write f5 hk⟩
      dsimp only
      rw [List.getElem?_set_self f1.2]
    · dsimp only at he'; rw [upd_ne _ _ hee] at he'
      obtain ⟨g1, g2, g3, l', g4, g5⟩ := hI.writing e' a' j t' k' he'
      exact ⟨(hown e' j).2 g1, g2, g3, l', by dsimp only; rw [hother e' j hee g1]; exact g4, g5⟩
  · intro e' j he' ho
    have ho := (hown e' j).1 ho
    by_cases hee : e' = e
    · subst hee; dsimp only at he'; rw [upd_same] at he'; cases he'
    · dsimp only at he'; rw [upd_ne _ _ hee] at he'
      exact (hI.done e' j he' ho).other rfl (hother e' j hee ho) (fun _ _ h => h)
  · intro o j t' ho
    obtain ⟨e', h1, h2, x, h3, h4⟩ := hI.obj o j t' ho
    have hee : e' ≠ e := by rintro rfl; rw [hpc] at h2; cases h2
    exact ⟨e', (hown e' j).2 h1, by dsimp only; rw [upd_ne _ _ hee]; exact h2, x, h3, h4⟩
  · intro e' x o hx hh
    obtain ⟨j, t', h1, h2⟩ := hI.holder e' x o hx hh
    exact ⟨j, t', h1, (hown e' j).2 h2⟩
  · intro o ho
    dsimp only at ho ⊢
    rw [upd_ne _ _ (by rintro rfl; exact ho hobj)]; exact hI.objpc o ho

theorem inv_ret (hI : Inv s h) (e : Nat) :
    ∀ r, step s (.ret e) = r → r = .disabled ∨ ∃ s', r = .ok s' ∧ Inv s' (h.step (.ret e)) := by
  rintro r rfl
  simp only [step]
  split
  case h_2 => exact .inl rfl
  rename_i a i t hpc
  obtain ⟨f1, f2, f3, l, f4, f5⟩ := hI.writing e a i t 5 hpc
  refine .inr ⟨_, rfl, ?_⟩
  have hobj : s.objs e = none := by
    cases ho : s.objs e with
    | none => rfl
    | some x =>
      have := hI.objpc e (by rw [ho]; simp)
      rw [hpc] at this; cases this
  have hev : (h.step (.ret e)).ev e = some { args := a, start := some t, holder := some e } := by
    simp only [Hist.step]; rw [mod_same f2]
  have hev' : ∀ e', e' ≠ e → (h.step (.ret e)).ev e' = h.ev e' := fun e' hne => by
    simp only [Hist.step]; rw [mod_ne hne]
  constructor
  · exact hI.cnt
  · exact hI.nodup
  · intro e' he'
    by_cases hee : e' = e
    · subst hee; dsimp only at he'; rw [upd_same] at he'; cases he'
    · dsimp only at he'; rw [upd_ne _ _ hee] at he'; rw [hev' e' hee]; exact hI.fresh e' he'
  · intro e' a' he'
    by_cases hee : e' = e
    · subst hee; dsimp only at he'; rw [upd_same] at he'; cases he'
    · dsimp only at he'; rw [upd_ne _ _ hee] at he'; rw [hev' e' hee]; exact hI.called e' a' he'
  · intro e' a' j he'
    by_cases hee : e' = e
    · subst hee; dsimp only at he'; rw [upd_same] at he'; cases he'
    · dsimp only at he'; rw [upd_ne _ _ hee] at he'; rw [hev' e' hee]; exact hI.fetched e' a' j he'
  · intro e' a' j t' k he'
    by_cases hee : e' = e
    · subst hee; dsimp only at he'; rw [upd_same] at he'; cases he'
    · dsimp only at he'; rw [upd_ne _ _ hee] at he'; rw [hev' e' hee]; exact hI.writing e' a' j t' k he'
  · intro e' j he' ho
    by_cases hee : e' = e
    · subst hee
      have hij : j = i := hI.slot_inj ho f1
      subst hij
      exact ⟨_, t, l, hev, rfl, f4, f5, .inl ⟨e', rfl, by dsimp only; rw [upd_same], rfl⟩⟩
    · dsimp only at he'; rw [upd_ne _ _ hee] at he'
      obtain ⟨x, t', l', h1, h2, h3, h4, h5⟩ := hI.done e' j he' ho
      refine ⟨x, t', l', by rw [hev' e' hee]; exact h1, h2, h3, h4, ?_⟩
      rcases h5 with ⟨o, h5, h6, h7⟩ | h5
      · refine .inl ⟨o, h5, ?_, h7⟩
        dsimp only
        rw [upd_ne _ _ (by rintro rfl; rw [hobj] at h6; cases h6)]; exact h6
      · exact .inr h5
  · intro o j t' ho
    by_cases hoe : o = e
    · subst hoe
      dsimp only at ho; rw [upd_same] at ho; cases ho
      exact ⟨o, f1, by dsimp only; rw [upd_same], _, hev, rfl⟩
    · dsimp only at ho; rw [upd_ne _ _ hoe] at ho
      obtain ⟨e', h1, h2, x, h3, h4⟩ := hI.obj o j t' ho
      have hee : e' ≠ e := by rintro rfl; rw [hpc] at h2; cases h2
      exact ⟨e', h1, by dsimp only; rw [upd_ne _ _ hee]; exact h2, x, by rw [hev' e' hee]; exact h3, h4⟩
  · intro e' x o hx hh
    by_cases hee : e' = e
    · subst hee; rw [hev] at hx; cases hx
      have : e' = o := by simpa using hh
      subst this
      exact ⟨i, t, by dsimp only; rw [upd_same], f1⟩
    · rw [hev' e' hee] at hx
      obtain ⟨j, t', h1, h2⟩ := hI.holder e' x o hx hh
      refine ⟨j, t', ?_, h2⟩
      dsimp only
      rw [upd_ne _ _ (by rintro rfl; rw [hobj] at h1; cases h1)]; exact h1
  · intro o ho
    dsimp only at ho ⊢
    by_cases hoe : o = e
    · subst hoe; rw [upd_same]
    · rw [upd_ne _ _ hoe] at ho; rw [upd_ne _ _ hoe]; exact hI.objpc o ho

theorem moved_ne {a b : Nat} {x : Ev} (hx : x.holder ≠ some a) : Ev.moved a b x = x := by simp [Ev.moved, hx]
theorem closed_ne {o : Nat} {t : Int} {x : Ev} (hx : x.holder ≠ some o) : Ev.closed o t x = x := by simp [Ev.closed, hx]

theorem inv_move (hI : Inv s h) (a b : Nat) :
    ∀ r, step s (.move a b) = r → r = .disabled ∨ ∃ s', r = .ok s' ∧ Inv s' (h.step (.move a b)) := by
  rintro r rfl
  simp only [step]
  split
  case h_2 => exact .inl rfl
  rename_i sc ha hb hpb
  refine .inr ⟨_, rfl, ?_⟩
  obtain ⟨hb1, hb2⟩ := hI.fresh b hpb
  have hab : a ≠ b := by rintro rfl; rw [hb] at ha; cases ha
  have hev : ∀ e, (h.step (.move a b)).ev e = (h.ev e).map (Ev.moved a b) := fun e => rfl
  -- events that have no scope yet are not changed
  have hplain : ∀ (ar : Args) (st : Option Int), (some ({ args := ar, start := st } : Ev)).map (Ev.moved a b) = some { args := ar, start := st } := by
    intro ar st; simp [Ev.moved]
  have hobjs : ∀ o, o ≠ a → o ≠ b → upd (upd s.objs a (some ⟨none, sc.start⟩)) b (some sc) o = s.objs o := by
    intro o h1 h2; rw [upd_ne _ _ h2, upd_ne _ _ h1]
  have hpcne : ∀ e, s.pc e ≠ none → e ≠ b := by rintro e he rfl; exact he hpb
  have hpc' : ∀ e p, upd s.pc b (some .done) e = some p → p ≠ .done → s.pc e = some p := by
    intro e p he hp
    by_cases hee : e = b
    · subst hee; rw [upd_same] at he; cases he; exact absurd rfl hp
    · rw [upd_ne _ _ hee] at he; exact he
  constructor
  · exact hI.cnt
  · exact hI.nodup
  · intro e he
    by_cases hee : e = b
    · subst hee; dsimp only at he; rw [upd_same] at he; cases he
    · dsimp only at he; rw [upd_ne _ _ hee] at he
      obtain ⟨g1, g2⟩ := hI.fresh e he
      exact ⟨g1, by rw [hev, g2]; rfl⟩
  · intro e ar he
    obtain ⟨g1, g2⟩ := hI.called e ar (hpc' e _ he (by simp))
    exact ⟨g1, by rw [hev, g2]; exact hplain _ _⟩
  · intro e ar i he
    obtain ⟨g1, g2⟩ := hI.fetched e ar i (hpc' e _ he (by simp))
    exact ⟨g1, by rw [hev, g2]; exact hplain _ _⟩
  · intro e ar i t k he
    obtain ⟨g1, g2, g3⟩ := hI.writing e ar i t k (hpc' e _ he (by simp))
    exact ⟨g1, by rw [hev, g2]; exact hplain _ _, g3⟩
  · intro e i he ho
    have heb : e ≠ b := by rintro rfl; exact hb1 ho.mem
    dsimp only at he; rw [upd_ne _ _ heb] at he
    obtain ⟨x, t, l, h1, h2, h3, h4, h5⟩ := hI.done e i he ho
    rcases h5 with ⟨o, h5, h6, h7⟩ | ⟨h5, h6⟩
    · by_cases hoa : o = a
      · subst hoa
        have hm : Ev.moved o b x = { x with holder := some b } := by simp [Ev.moved, h5]
        refine ⟨_, t, l, by rw [hev, h1]; rfl, by rw [hm]; exact h2, h3, by rw [hm]; exact h4, .inl ⟨b, by rw [hm], ?_, by rw [hm]; exact h7⟩⟩
        dsimp only; rw [upd_same, ← ha, h6]
      · have hm : Ev.moved a b x = x := moved_ne (by rw [h5]; simpa using hoa)
        have hob : o ≠ b := by rintro rfl; rw [hb] at h6; cases h6
        exact ⟨x, t, l, by rw [hev, h1]; simp [hm], h2, h3, h4, .inl ⟨o, h5, by dsimp only; rw [hobjs o hoa hob]; exact h6, h7⟩⟩
    · have hm : Ev.moved a b x = x := moved_ne (by rw [h5]; simp)
      exact ⟨x, t, l, by rw [hev, h1]; simp [hm], h2, h3, h4, .inr ⟨h5, h6⟩⟩
  · intro o i t ho
    dsimp only at ho
    by_cases hob : o = b
    · subst hob
      rw [upd_same] at ho
      cases ho
      obtain ⟨e, h1, h2, x, h3, h4⟩ := hI.obj a i t ha
      refine ⟨e, h1, ?_, Ev.moved a o x, by rw [hev, h3]; rfl, by simp [Ev.moved, h4]⟩
      dsimp only; rw [upd_ne _ _ (hpcne e (by rw [h2]; simp))]; exact h2
    · by_cases hoa : o = a
      · subst hoa; rw [upd_ne _ _ hob, upd_same] at ho; cases ho
      · rw [hobjs o hoa hob] at ho
        obtain ⟨e, h1, h2, x, h3, h4⟩ := hI.obj o i t ho
        refine ⟨e, h1, ?_, x, ?_, h4⟩
        · dsimp only; rw [upd_ne _ _ (hpcne e (by rw [h2]; simp))]; exact h2
        · rw [hev, h3]; simp [moved_ne (x := x) (a := a) (b := b) (by rw [h4]; simpa using hoa)]
  · intro e x o hx hh
    rw [hev] at hx
    cases he : h.ev e with
    | none => rw [he] at hx; cases hx
    | some x0 =>
      rw [he] at hx
      have hx : Ev.moved a b x0 = x := by simpa using hx
      by_cases hxa : x0.holder = some a
      · have : x.holder = some b := by rw [← hx]; simp [Ev.moved, hxa]
        rw [hh] at this
        have : o = b := by simpa using this
        subst this
        obtain ⟨i, t, h1, h2⟩ := hI.holder e x0 a he hxa
        refine ⟨i, t, ?_, h2⟩
        dsimp only; rw [upd_same, ← ha, h1]
      · rw [moved_ne hxa] at hx
        subst hx
        obtain ⟨i, t, h1, h2⟩ := hI.holder e x0 o he hh
        refine ⟨i, t, ?_, h2⟩
        dsimp only
        rw [hobjs o (by rintro rfl; exact hxa hh) (by rintro rfl; rw [hb] at h1; cases h1)]; exact h1
  · intro o ho
    dsimp only at ho ⊢
    by_cases hob : o = b
    · subst hob; rw [upd_same]
    · rw [upd_ne _ _ hob]
      by_cases hoa : o = a
      · subst hoa; exact hI.objpc o (by rw [ha]; simp)
      · rw [hobjs o hoa hob] at ho; exact hI.objpc o ho

theorem inv_close (hI : Inv s h) (o : Nat) (t : Int) :
    ∀ r, step s (.close o t) = r → r = .disabled ∨ ∃ s', r = .ok s' ∧ Inv s' (h.step (.close o t)) := by
  rintro r rfl
  have hev : ∀ e, (h.step (.close o t)).ev e = (h.ev e).map (Ev.closed o t) := fun e => rfl
  have hplain : ∀ (ar : Args) (st : Option Int), (some ({ args := ar, start := st } : Ev)).map (Ev.closed o t) = some { args := ar, start := st } := by
    intro ar st; simp [Ev.closed]
  simp only [step]
  split
  · -- a scope with a record
    rename_i i t1 ho
    obtain ⟨e0, o1, p1, x0, v1, w1⟩ := hI.obj o i t1 ho
    obtain ⟨x, t2, l, h1, h2, h3, h4, h5⟩ := hI.done e0 i p1 o1
    rw [v1] at h1; cases h1
    have h5' : s.objs o = some ⟨some i, t2⟩ ∧ x0.close = none := by
      rcases h5 with ⟨o', h5, h6, h7⟩ | ⟨h5, _⟩
      · rw [w1] at h5; cases h5; exact ⟨h6, h7⟩
      · rw [w1] at h5; cases h5
    rw [ho] at h5'
    obtain ⟨h6, h7⟩ := h5'
    cases h6
    have hset : setLog s i (fun l => { l with duration := t - t1 }) = some { s with logs := s.logs.set i { l with duration := t - t1 } } := by
      unfold setLog; rw [h3]
    rw [hset]
    refine .inr ⟨_, rfl, ?_⟩
    have hother : ∀ e' j, e' ≠ e0 → Owns s h e' j → (s.logs.set i { l with duration := t - t1 })[j]? = s.logs[j]? := by
      intro e' j hne ho
      have hij : i ≠ j := by rintro rfl; exact hne (ho.inj o1)
      rw [List.getElem?_set_ne hij]
    have hown : ∀ e' j, Owns { s with logs := s.logs.set i { l with duration := t - t1 }, objs := upd s.objs o none } (h.step (.close o t)) e' j ↔
        Owns s h e' j := by
      intro e' j
      unfold Owns Hist.step
      simp
    have hev0 : (h.step (.close o t)).ev e0 = some { x0 with holder := none, close := some t } := by
      rw [hev, v1]; simp [Ev.closed, w1]
    have hev' : ∀ e', e' ≠ e0 → (h.step (.close o t)).ev e' = h.ev e' := by
      intro e' hne
      rw [hev]
      cases hx : h.ev e' with
      | none => rfl
      | some x' =>
        have : x'.holder ≠ some o := fun hh => hne (hI.holder_inj hx hh v1 w1)
        simp [closed_ne this]
    constructor
    · exact hI.cnt
    · exact hI.nodup
    · intro e' he'
      obtain ⟨g1, g2⟩ := hI.fresh e' he'
      exact ⟨g1, by rw [hev, g2]; rfl⟩
    · intro e' a' he'
      obtain ⟨g1, g2⟩ := hI.called e' a' he'
      exact ⟨g1, by rw [hev, g2]; exact hplain _ _⟩
    · intro e' a' j he'
      obtain ⟨g1, g2⟩ := hI.fetched e' a' j he'
      exact ⟨(hown e' j).2 g1, by rw [hev, g2]; exact hplain _ _⟩
    · intro e' a' j t' k he'
      obtain ⟨g1, g2, g3, l', g4, g5⟩ := hI.writing e' a' j t' k he'
      have hee : e' ≠ e0 := by rintro rfl; dsimp only at he'; rw [p1] at he'; cases he'
      exact ⟨(hown e' j).2 g1, by rw [hev, g2]; exact hplain _ _, g3, l', by dsimp only; rw [hother e' j hee g1]; exact g4, g5⟩
    · intro e' j he' hoo
      have hoo := (hown e' j).1 hoo
      by_cases hee : e' = e0
      · subst hee
        have hij : j = i := hI.slot_inj hoo o1
        subst hij
        refine ⟨_, t1, { l with duration := t - t1 }, hev0, h2, ?_, ?_, .inr ⟨rfl, t, rfl, rfl⟩⟩
        · dsimp only; rw [List.getElem?_set_self o1.2]
        · exact ⟨h4.f0, h4.f1, h4.f2, h4.f3, h4.f4⟩
      · obtain ⟨x', t', l', k1, k2, k3, k4, k5⟩ := hI.done e' j he' hoo
        refine ⟨x', t', l', by rw [hev' e' hee]; exact k1, k2, by dsimp only; rw [hother e' j hee hoo]; exact k3, k4, ?_⟩
        rcases k5 with ⟨o', k5, k6, k7⟩ | k5
        · refine .inl ⟨o', k5, ?_, k7⟩
          dsimp only
          rw [upd_ne _ _ (by rintro rfl; exact hee (hI.holder_inj k1 k5 v1 w1))]; exact k6
        · exact .inr k5
    · intro o' j t' ho'
      dsimp only at ho'
      by_cases hoo : o' = o
      · subst hoo; rw [upd_same] at ho'; cases ho'
      · rw [upd_ne _ _ hoo] at ho'
        obtain ⟨e', k1, k2, x', k3, k4⟩ := hI.obj o' j t' ho'
        have hee : e' ≠ e0 := by
          rintro rfl
          rw [v1] at k3; cases k3
          rw [w1] at k4; cases k4; exact hoo rfl
        exact ⟨e', (hown e' j).2 k1, k2, x', by rw [hev' e' hee]; exact k3, k4⟩
    · intro e' x' o' hx hh
      by_cases hee : e' = e0
      · subst hee; rw [hev0] at hx; cases hx; cases hh
      · rw [hev' e' hee] at hx
        obtain ⟨j, t', k1, k2⟩ := hI.holder e' x' o' hx hh
        refine ⟨j, t', ?_, (hown e' j).2 k2⟩
        dsimp only
        rw [upd_ne _ _ (by rintro rfl; exact hee (hI.holder_inj hx hh v1 w1))]; exact k1
    · intro o' ho'
      dsimp only at ho' ⊢
      by_cases hoo : o' = o
      · subst hoo; rw [upd_same] at ho'; exact absurd rfl ho'
      · rw [upd_ne _ _ hoo] at ho'; exact hI.objpc o' ho'
  · -- a scope without a record
    rename_i t1 ho
    refine .inr ⟨_, rfl, ?_⟩
    have hev' : ∀ e', (h.step (.close o t)).ev e' = h.ev e' := by
      intro e'
      rw [hev]
      cases hx : h.ev e' with
      | none => rfl
      | some x' =>
        have : x'.holder ≠ some o := by
          intro hh
          obtain ⟨i, t', h1, _⟩ := hI.holder e' x' o hx hh
          rw [ho] at h1; cases h1
        simp [closed_ne this]
    have hh' : h.step (.close o t) = h := by
      have : (h.step (.close o t)).ev = h.ev := funext hev'
      show Hist.mk _ _ = _
      obtain ⟨ev, order⟩ := h
      simp only [Hist.step] at this ⊢
      rw [this]
    rw [hh']
    have hobj : ∀ o' i t', s.objs o' = some ⟨some i, t'⟩ → o' ≠ o := by
      rintro o' i t' h1 rfl; rw [ho] at h1; cases h1
    constructor
    · exact hI.cnt
    · exact hI.nodup
    · exact hI.fresh
    · exact hI.called
    · exact hI.fetched
    · exact hI.writing
    · intro e' j he' hoo
      refine (hI.done e' j he' hoo).other rfl rfl ?_
      intro o' t' h1
      dsimp only; rw [upd_ne _ _ (hobj o' j t' h1)]; exact h1
    · intro o' j t' ho'
      dsimp only at ho'
      by_cases hoo : o' = o
      · subst hoo; rw [upd_same] at ho'; cases ho'
      · rw [upd_ne _ _ hoo] at ho'; exact hI.obj o' j t' ho'
    · intro e' x' o' hx hh
      obtain ⟨j, t', k1, k2⟩ := hI.holder e' x' o' hx hh
      refine ⟨j, t', ?_, k2⟩
      dsimp only; rw [upd_ne _ _ (hobj o' j t' k1)]; exact k1
    · intro o' ho'
      dsimp only at ho' ⊢
      by_cases hoo : o' = o
      · subst hoo; rw [upd_same] at ho'; exact absurd rfl ho'
      · rw [upd_ne _ _ hoo] at ho'; exact hI.objpc o' ho'
  · exact .inl rfl

theorem inv_reset (hI : Inv s h) (hq : Quiescent s) : ∀ r, step s .reset = r → ∃ s', r = .ok s' ∧ Inv s' (h.step .reset) := by
  rintro r rfl
  refine ⟨_, rfl, ?_⟩
  obtain ⟨q1, q2, q3⟩ := hq
  constructor
  · rfl
  · exact List.nodup_nil
  · intro e he; exact ⟨by simp [Hist.step], (hI.fresh e he).2⟩
  · intro e a he; exact ⟨by simp [Hist.step], (hI.called e a he).2⟩
  · intro e a i he; exact absurd he (q1 e a i)
  · intro e a i t k he; exact absurd he (q2 e a i t k)
  · intro e i _ ho; have := ho.1; simp [Hist.step] at this
  · intro o i t ho; exact absurd ho (q3 o i t)
  · intro e x o hx hh
    obtain ⟨i, t, h1, _⟩ := hI.holder e x o hx hh
    exact absurd h1 (q3 o i t)
  · exact hI.objpc

theorem inv_step (hI : Inv s h) (x : Act) (h1 : x = .reset → Quiescent s) (h2 : (∃ e, x = .fetch e) → s.count + 1 < 2 ^ 64) :
    step s x = .disabled ∨ ∃ s', step s x = .ok s' ∧ Inv s' (h.step x) := by
  cases x with
  | call e a => exact inv_call hI e a _ rfl
  | fetch e => exact inv_fetch hI e (h2 ⟨e, rfl⟩) _ rfl
  | now e t => exact inv_now hI e t _ rfl
  | write e => exact inv_write hI e _ rfl
  | ret e => exact inv_ret hI e _ rfl
  | move a b => exact inv_move hI a b _ rfl
  | close o t => exact inv_close hI o t _ rfl
  | reset => exact .inr (inv_reset hI (h1 rfl) _ rfl)

theorem step_t0 {x : Act} {s' : St} (hs : step s x = .ok s') : s'.t0 = s.t0 ∧ s'.logs.length = s.logs.length := by
  cases x with
  | write e =>
    simp only [step] at hs
    split at hs <;> try cases hs
    split at hs <;> try cases hs
    split at hs <;> try cases hs
    rename_i s1 hs1
    obtain ⟨l, -, rfl⟩ := setLog_some hs1
    simp
  | close o t =>
    simp only [step] at hs
    split at hs
    · split at hs
      · rename_i s1 hs1
        obtain ⟨l, -, rfl⟩ := setLog_some hs1
        cases hs; simp
      · cases hs
    · cases hs; simp
    · cases hs
  | fetch e =>
    simp only [step] at hs
    split at hs
    · split at hs <;> cases hs <;> exact ⟨rfl, rfl⟩
    · cases hs
  | call e a | now e t | ret e | move a b | reset =>
    simp only [step] at hs
    first | (split at hs <;> first | (cases hs; exact ⟨rfl, rfl⟩) | cases hs) | (cases hs; exact ⟨rfl, rfl⟩)

theorem inv_run (xs : List Act) : ∀ {s : St} {h : Hist}, Inv s h → Allowed s xs →
    run s xs = .disabled ∨ ∃ s', run s xs = .ok s' ∧ Inv s' (h.run xs) ∧ s'.t0 = s.t0 ∧ s'.logs.length = s.logs.length := by
  induction xs with
  | nil => intro s h hI _; exact .inr ⟨s, rfl, hI, rfl, rfl⟩
  | cons x xs ih =>
    rintro s h hI ⟨h1, h2, h3⟩
    rcases inv_step hI x h1 h2 with e | ⟨s1, e, hI1⟩
    · left; unfold run; rw [e]
    · obtain ⟨e1, e2⟩ := step_t0 e
      rcases ih hI1 (h3 s1 e) with e' | ⟨s', e', hI', e3, e4⟩
      · left; unfold run; rw [e]; exact e'
      · right
        exact ⟨s', by unfold run; rw [e]; exact e', hI', by rw [e3, e1], by rw [e4, e2]⟩

end Guanaqo.Trace
