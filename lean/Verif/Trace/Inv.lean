import Verif.Trace.Model

/-! The invariant of concurrent tracing. -/

namespace Guanaqo.Trace

/-- The first `k` of the five fields written by `trace` are those of the event. -/
structure Fields (t0 : Int) (a : Args) (t : Int) (k : Nat) (l : Log) : Prop where
  f0 : 0 < k → l.name = a.name
  f1 : 1 < k → l.inst = a.inst
  f2 : 2 < k → l.flop = a.flop
  f3 : 3 < k → l.start = t - t0
  f4 : 4 < k → l.tid = a.tid

/-- Event `e` owns record `i`. -/
def Owns (s : St) (h : Hist) (e i : Nat) : Prop := h.order[i]? = some e ∧ i < s.logs.length

/-- What the record of an event says once `trace` has returned. -/
def Finished (s : St) (h : Hist) (e i : Nat) : Prop :=
  ∃ x t l, h.ev e = some x ∧ x.start = some t ∧ s.logs[i]? = some l ∧ Fields s.t0 x.args t 5 l ∧
    ((∃ o, x.holder = some o ∧ s.objs o = some ⟨some i, t⟩ ∧ x.close = none) ∨
      (x.holder = none ∧ ∃ t', x.close = some t' ∧ l.duration = t' - t))

structure Inv (s : St) (h : Hist) : Prop where
  cnt : s.count = h.order.length
  nodup : h.order.Nodup
  fresh : ∀ e, s.pc e = none → e ∉ h.order ∧ h.ev e = none
  called : ∀ e a, s.pc e = some (.called a) → e ∉ h.order ∧ h.ev e = some { args := a }
  fetched : ∀ e a i, s.pc e = some (.fetched a i) → Owns s h e i ∧ h.ev e = some { args := a }
  writing : ∀ e a i t k, s.pc e = some (.writing a i t k) → Owns s h e i ∧ h.ev e = some { args := a, start := some t } ∧ k ≤ 5 ∧
    ∃ l, s.logs[i]? = some l ∧ Fields s.t0 a t k l
  done : ∀ e i, s.pc e = some .done → Owns s h e i → Finished s h e i
  obj : ∀ o i t, s.objs o = some ⟨some i, t⟩ → ∃ e, Owns s h e i ∧ s.pc e = some .done ∧ ∃ x, h.ev e = some x ∧ x.holder = some o
  holder : ∀ e x o, h.ev e = some x → x.holder = some o → ∃ i t, s.objs o = some ⟨some i, t⟩ ∧ Owns s h e i
  objpc : ∀ o, s.objs o ≠ none → s.pc o = some .done

theorem upd_same {α : Type} (f : Nat → α) (i : Nat) (v : α) : upd f i v i = v := by simp [upd]

theorem upd_ne {α : Type} (f : Nat → α) {i k : Nat} (v : α) (hk : k ≠ i) : upd f i v k = f k := by
  simp [upd, hk]

theorem Owns.inj {s : St} {h : Hist} {e e' i : Nat} (h1 : Owns s h e i) (h2 : Owns s h e' i) : e = e' := by
  have := h1.1.symm.trans h2.1
  cases this; rfl

theorem Inv.slot_inj {s : St} {h : Hist} (hI : Inv s h) {e i j : Nat} (h1 : Owns s h e i) (h2 : Owns s h e j) : i = j := by
  obtain ⟨hi, e1⟩ := List.getElem?_eq_some_iff.1 h1.1
  obtain ⟨hj, e2⟩ := List.getElem?_eq_some_iff.1 h2.1
  exact (List.getElem_inj hI.nodup).1 (e1.trans e2.symm)

theorem Owns.mem {s : St} {h : Hist} {e i : Nat} (h1 : Owns s h e i) : e ∈ h.order := List.mem_of_getElem? h1.1

/-- The holder of an event is the holder of no other. -/
theorem Inv.holder_inj {s : St} {h : Hist} (hI : Inv s h) {e e' o : Nat} {x x' : Ev} (h1 : h.ev e = some x) (h2 : x.holder = some o)
    (h3 : h.ev e' = some x') (h4 : x'.holder = some o) : e = e' := by
  obtain ⟨i, t, e1, o1⟩ := hI.holder e x o h1 h2
  obtain ⟨j, t', e2, o2⟩ := hI.holder e' x' o h3 h4
  rw [e1] at e2
  cases e2
  exact o1.inj o2

theorem setLog_some {s s' : St} {i : Nat} {f : Log → Log} (h : setLog s i f = some s') :
    ∃ l, s.logs[i]? = some l ∧ s' = { s with logs := s.logs.set i (f l) } := by
  unfold setLog at h
  split at h
  · rename_i l hl; cases h; exact ⟨l, hl, rfl⟩
  · cases h

theorem Finished.other {s s' : St} {h : Hist} {e i : Nat} (hf : Finished s h e i) (h0 : s'.t0 = s.t0) (hl : s'.logs[i]? = s.logs[i]?)
    (ho : ∀ o t, s.objs o = some ⟨some i, t⟩ → s'.objs o = some ⟨some i, t⟩) : Finished s' h e i := by
  obtain ⟨x, t, l, h1, h2, h3, h4, h5⟩ := hf
  refine ⟨x, t, l, h1, h2, by rw [hl, h3], by rw [h0]; exact h4, ?_⟩
  rcases h5 with ⟨o, h5, h6, h7⟩ | h5
  · exact .inl ⟨o, h5, ho o t h6, h7⟩
  · exact .inr h5

theorem init_inv (cap : Nat) (t0 : Int) : Inv (init cap t0) {} := by
  constructor <;> first | rfl | (intros; simp_all [init]) | skip

end Guanaqo.Trace
