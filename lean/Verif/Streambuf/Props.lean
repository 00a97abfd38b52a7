import Verif.Streambuf.Model
import Verif.Tactics

/-!
# C35–C38: `callback_streambuf`
-/

namespace Guanaqo.Streambuf

/-! ## Specification -/

/-- The bytes written by a history. -/
def written (ops : List Op) : List UInt8 :=
  ops.filterMap (fun | .put c => some c | .flush => none)

/-- The bytes still in the buffer. -/
def SB.buffered (s : SB) : List UInt8 := s.mem.take s.pptr

/-- UTF-8 encoded text (Lean's own UTF-8 encoder). -/
def Utf8 (l : List UInt8) : Prop := ∃ cs : List Char, l = cs.flatMap String.utf8EncodeChar

/-! ## Bytes are preserved (C35) -/

theorem remainder_le {r : List UInt8} {k : Nat} (h : utf8Remainder r = .ok k) :
    k ≤ r.length ∧ k ≤ 3 := by
  unfold utf8Remainder at h
  split at h
  · cases h
  · rename_i last h0
    have hlen : 0 < r.length := by
      have := List.getElem?_eq_some_iff.1 h0
      exact this.1
    split at h
    · cases h; omega
    · simp only at h
      generalize (List.take (if 3 ≤ r.length then 3 else r.length) r).findIdx isLeading = j at h
      split at h
      · cases h; omega
      · split at h
        · cases h
        · rename_i lead hl
          have hl' := (List.getElem?_eq_some_iff.1 hl).1
          split at h
          · cases h; omega
          · split at h
            · split at h <;> (cases h) <;> omega
            · split at h
              · split at h <;> (cases h) <;> omega
              · cases h; omega

theorem remainder_total {r : List UInt8} (h : r ≠ []) : ∃ k, utf8Remainder r = .ok k := by
  unfold utf8Remainder
  cases r with
  | nil => exact absurd rfl h
  | cons a r =>
    simp only [List.getElem?_cons_zero]
    split
    · exact ⟨_, rfl⟩
    · have hle : ((a :: r).take (if 3 ≤ (a :: r).length then 3 else (a :: r).length)).findIdx
          isLeading ≤ (a :: r).length := by
        refine le_trans List.findIdx_le_length ?_
        rw [List.length_take]; exact Nat.min_le_right _ _
      generalize (List.take (if 3 ≤ (a :: r).length then 3 else (a :: r).length)
        (a :: r)).findIdx isLeading = j at hle ⊢
      split
      · exact ⟨_, rfl⟩
      · rename_i hne
        split
        · rename_i hn
          rw [List.getElem?_eq_none_iff] at hn
          exact absurd (le_antisymm hle hn) hne
        · repeat' split
          all_goals exact ⟨_, rfl⟩

/-- One `_sync`: everything but a short tail is delivered, the tail stays. -/
theorem sync_ok {s : SB} (hp : s.pptr ≤ s.mem.length) :
    ∃ s', s.sync = .ok s' ∧ s'.out.flatten ++ s'.buffered = s.out.flatten ++ s.buffered ∧
      s'.pptr ≤ 3 ∧ s'.pptr ≤ s'.mem.length ∧ s'.size = s.size ∧ s'.mem.length = s.mem.length ∧
      (s.pptr ≤ 3 → s'.pptr ≤ s.pptr) := by
  unfold SB.sync
  by_cases h0 : s.pptr = 0
  · rw [if_neg (by simp [h0])]
    exact ⟨s, rfl, rfl, by omega, hp, rfl, rfl, by omega⟩
  · rw [if_pos h0]
    have hb : (s.mem.take s.pptr).length = s.pptr := by rw [List.length_take]; omega
    obtain ⟨k, hk⟩ := remainder_total (r := (s.mem.take s.pptr).reverse) (by
      intro h
      have := congrArg List.length h
      rw [List.length_reverse, hb] at this
      exact h0 this)
    have hle := remainder_le hk
    rw [List.length_reverse, hb] at hle
    rw [hk]
    refine ⟨_, rfl, ?_, hle.2, ?_, rfl, ?_, fun _ => hle.1⟩
    · simp only [SB.buffered]
      have htail : ((s.mem.drop (s.pptr - k)).take k ++ s.mem.drop k).take k =
          (s.mem.take s.pptr).drop (s.pptr - k) := by
        rw [List.take_append_of_le_length (by simp; omega), List.take_take, Nat.min_self,
          List.drop_take]
        congr 1; omega
      rw [htail]
      have hsplit : s.mem.take (s.pptr - k) ++ (s.mem.take s.pptr).drop (s.pptr - k) =
          s.mem.take s.pptr := by
        have := List.take_append_drop (s.pptr - k) (s.mem.take s.pptr)
        rw [List.take_take, Nat.min_eq_left (by omega)] at this
        exact this
      split
      · rw [List.flatten_append]
        simp only [List.flatten_cons, List.flatten_nil, List.append_nil, List.append_assoc]
        rw [hsplit]
      · have : s.pptr - k = 0 := by omega
        rw [this, List.drop_zero]
    · simp; omega
    · simp; omega

theorem store_ok {s s' : SB} {c : UInt8} (h : s.store c = .ok s') :
    s'.out = s.out ∧ s'.buffered = s.buffered ++ [c] ∧ s'.pptr = s.pptr + 1 ∧ s'.size = s.size ∧
      s'.mem.length = s.mem.length ∧ s'.pptr ≤ s'.mem.length := by
  unfold SB.store at h
  split at h
  · rename_i hlt
    cases h
    refine ⟨rfl, ?_, rfl, rfl, by simp, by simp; omega⟩
    simp only [SB.buffered]
    rw [List.take_succ_eq_append_getElem (by simpa using hlt)]
    simp only [List.getElem_set_self]
    rw [List.take_set_of_le (le_refl _)]
  · cases h

/-- One operation preserves the bytes, if it does not fault. -/
theorem exec_ok {s s' : SB} {op : Op} (hp : s.pptr ≤ s.mem.length) (h : s.exec op = .ok s') :
    s'.out.flatten ++ s'.buffered = s.out.flatten ++ s.buffered ++ written [op] ∧
      s'.pptr ≤ s'.mem.length ∧ s'.size = s.size ∧ s'.mem.length = s.mem.length := by
  cases op with
  | flush =>
    obtain ⟨t, h1, h2, _, h3, h4, h5, _⟩ := sync_ok hp
    rw [SB.exec, h1] at h
    cases h
    exact ⟨by simpa [written] using h2, h3, h4, h5⟩
  | put c =>
    rw [SB.exec, SB.sputc] at h
    split at h
    · obtain ⟨h1, h2, _, h4, h5, h6⟩ := store_ok h
      exact ⟨by simp [h1, h2, written], h6, h4, h5⟩
    · rw [SB.overflow] at h
      obtain ⟨t, ht, h⟩ := res_bind_ok.1 h
      obtain ⟨h1, h2, _, h4, h5, h6⟩ := store_ok ht
      obtain ⟨u, k1, k2, _, k3, k4, k5, _⟩ := sync_ok h6
      rw [k1] at h
      cases h
      exact ⟨by rw [k2, h1, h2]; simp [written], k3, by rw [k4, h4], by rw [k5, h5]⟩

theorem written_cons (op : Op) (ops : List Op) : written (op :: ops) = written [op] ++ written ops := by
  cases op <;> rfl

theorem run_ok {s s' : SB} {ops : List Op} (hp : s.pptr ≤ s.mem.length) (h : s.run ops = .ok s') :
    s'.out.flatten ++ s'.buffered = s.out.flatten ++ s.buffered ++ written ops ∧
      s'.pptr ≤ s'.mem.length ∧ s'.size = s.size ∧ s'.mem.length = s.mem.length := by
  induction ops generalizing s with
  | nil => cases h; exact ⟨by simp [written], hp, rfl, rfl⟩
  | cons op ops ih =>
    rw [SB.run, List.foldlM_cons] at h
    obtain ⟨t, h1, h2⟩ := res_bind_ok.1 h
    obtain ⟨k1, k2, k3, k4⟩ := exec_ok hp h1
    obtain ⟨l1, l2, l3, l4⟩ := ih k2 h2
    refine ⟨?_, l2, by rw [l3, k3], by rw [l4, k4]⟩
    rw [l1, k1, written_cons op ops]
    simp

theorem init_ok (size spare : Nat) : (SB.init size spare).pptr ≤ (SB.init size spare).mem.length := by
  simp [SB.init]

/-- C35. For every history of writes and flushes that runs without undefined behaviour, the chunks
passed to the callback, in order, followed by the bytes still buffered are exactly the bytes
written. -/
theorem bytes_preserved (size spare : Nat) (ops : List Op) (s : SB)
    (h : (SB.init size spare).run ops = .ok s) : s.out.flatten ++ s.buffered = written ops := by
  have := (run_ok (init_ok size spare) h).1
  simpa [SB.init, SB.buffered] using this

/-- C35. A flush keeps at most three bytes back. -/
theorem flush_keeps_at_most_three (size spare : Nat) (ops : List Op) (s : SB)
    (h : (SB.init size spare).run (ops ++ [.flush]) = .ok s) : s.buffered.length ≤ 3 := by
  rw [SB.run, List.foldlM_append] at h
  obtain ⟨t, h1, h2⟩ := res_bind_ok.1 h
  obtain ⟨_, h3, _⟩ := run_ok (init_ok size spare) h1
  obtain ⟨u, k1, _, k2, _⟩ := sync_ok h3
  rw [List.foldlM_cons, SB.exec, k1] at h2
  cases h2
  simp only [SB.buffered, List.length_take]
  omega

/-! ## The buffer limits (C37) -/

/-- C37, full statement: no history of writes and flushes touches memory outside the buffer. -/
def NeverOverrun : Prop :=
  ∀ (size : Nat) (ops : List Op), 0 < size → ∃ s, (SB.init size 0).run ops = .ok s

/-- It is false: `overflow` stores the byte it is given at `epptr()`, one past the end of the
vector. Writing as many bytes as the buffer holds and one more suffices, for every size. -/
theorem overrun_when_full (size : Nat) (c : UInt8) :
    (SB.init size 0).run (List.replicate (size + 1) (.put c)) = .error .ub := by
  have key : ∀ n ≤ size, ∃ s, (SB.init size 0).run (List.replicate n (.put c)) = .ok s ∧
      s.pptr = n ∧ s.size = size ∧ s.mem.length = size := by
    intro n
    induction n with
    | zero => intro _; exact ⟨_, rfl, rfl, rfl, by simp [SB.init]⟩
    | succ n ih =>
      intro hn
      obtain ⟨s, h1, h2, h3, h4⟩ := ih (by omega)
      refine ⟨{ s with mem := s.mem.set s.pptr c, pptr := s.pptr + 1 }, ?_, by simp [h2], h3,
        by simpa using h4⟩
      rw [List.replicate_succ', SB.run, List.foldlM_append]
      have h1' : List.foldlM SB.exec (SB.init size 0) (List.replicate n (.put c)) = .ok s := h1
      rw [h1', res_ok_bind, List.foldlM_cons, SB.exec, SB.sputc, if_pos (by omega), SB.store,
        if_pos (by omega)]
      rfl
  obtain ⟨s, h1, h2, h3, h4⟩ := key size le_rfl
  rw [List.replicate_succ', SB.run, List.foldlM_append]
  have h1' : List.foldlM SB.exec (SB.init size 0) (List.replicate size (.put c)) = .ok s := h1
  rw [h1', res_ok_bind, List.foldlM_cons, SB.exec, SB.sputc, if_neg (by omega), SB.overflow,
    SB.store, if_neg (by omega)]
  rfl

theorem not_neverOverrun : ¬ NeverOverrun := by
  intro h
  obtain ⟨s, hs⟩ := h 1024 (List.replicate 1025 (.put 65)) (by decide)
  rw [overrun_when_full 1024 65] at hs
  cases hs

/-- C37 (partial): one spare byte behind a buffer of at least three bytes is enough, for every
history. -/
theorem no_overrun_with_spare_partial (size spare : Nat) (hsize : 3 ≤ size) (hspare : 1 ≤ spare)
    (ops : List Op) : ∃ s, (SB.init size spare).run ops = .ok s := by
  have key : ∀ (ops : List Op) (s : SB), s.size = size → s.mem.length = size + spare →
      s.pptr ≤ size → ∃ s', s.run ops = .ok s' := by
    intro ops
    induction ops with
    | nil => intro s _ _ _; exact ⟨s, rfl⟩
    | cons op ops ih =>
      intro s h1 h2 h3
      have hstep : ∃ t, s.exec op = .ok t ∧ t.size = size ∧ t.mem.length = size + spare ∧
          t.pptr ≤ size := by
        cases op with
        | flush =>
          obtain ⟨t, k1, _, k2, _, k4, k5, _⟩ := sync_ok (s := s) (by omega)
          exact ⟨t, k1, by omega, by omega, by omega⟩
        | put c =>
          have hst : s.store c = .ok { s with mem := s.mem.set s.pptr c, pptr := s.pptr + 1 } := by
            rw [SB.store, if_pos (by omega)]
          rw [SB.exec, SB.sputc]
          split
          · exact ⟨_, hst, h1, by simpa using h2, by simp; omega⟩
          · rw [SB.overflow, hst, res_ok_bind]
            obtain ⟨t, k1, _, k2, _, k4, k5, _⟩ := sync_ok
              (s := { s with mem := s.mem.set s.pptr c, pptr := s.pptr + 1 }) (by simp; omega)
            simp only [List.length_set] at k5
            exact ⟨t, k1, by simp only at k4; omega, by omega, by omega⟩
      obtain ⟨t, h4, h5, h6, h7⟩ := hstep
      obtain ⟨u, hu⟩ := ih t h5 h6 h7
      exact ⟨u, by rw [SB.run, List.foldlM_cons, h4, res_ok_bind]; exact hu⟩
  exact key ops _ rfl (by simp [SB.init]) (by simp [SB.init])

/-- The longest stretch of writes without a flush. -/
def longestBurst : List Op → Nat → Nat
  | [], cur => cur
  | .flush :: ops, cur => max cur (longestBurst ops 0)
  | .put _ :: ops, cur => longestBurst ops (cur + 1)

theorem le_longestBurst (ops : List Op) (cur : Nat) : cur ≤ longestBurst ops cur := by
  induction ops generalizing cur with
  | nil => exact le_rfl
  | cons op ops ih =>
    cases op with
    | flush => exact le_max_left _ _
    | put c => exact le_trans (Nat.le_succ _) (ih (cur + 1))

/-- C37 (partial): without any spare byte, a program that flushes often enough (never more than
`size - 3` bytes between flushes) stays inside the buffer. -/
theorem no_overrun_if_flushed_partial (size : Nat) (ops : List Op)
    (hb : longestBurst ops 0 + 3 ≤ size) : ∃ s, (SB.init size 0).run ops = .ok s := by
  have key : ∀ (ops : List Op) (s : SB) (cur : Nat), s.size = size → s.mem.length = size →
      s.pptr ≤ cur + 3 → longestBurst ops cur + 3 ≤ size → ∃ s', s.run ops = .ok s' := by
    intro ops
    induction ops with
    | nil => intro s _ _ _ _ _; exact ⟨s, rfl⟩
    | cons op ops ih =>
      intro s cur h1 h2 h3 h4
      have hle := le_longestBurst (op :: ops) cur
      cases op with
      | flush =>
        obtain ⟨t, k1, _, k2, _, k4, k5, _⟩ := sync_ok (s := s) (by omega)
        simp only [longestBurst] at h4
        obtain ⟨u, hu⟩ := ih t 0 (by omega) (by omega) (by omega) (by omega)
        exact ⟨u, by rw [SB.run, List.foldlM_cons, SB.exec, k1, res_ok_bind]; exact hu⟩
      | put c =>
        simp only [longestBurst] at h4 hle
        have hle' := le_longestBurst ops (cur + 1)
        obtain ⟨u, hu⟩ := ih { s with mem := s.mem.set s.pptr c, pptr := s.pptr + 1 } (cur + 1)
          h1 (by simpa using h2) (by simp; omega) h4
        refine ⟨u, ?_⟩
        rw [SB.run, List.foldlM_cons, SB.exec, SB.sputc, if_pos (by omega), SB.store,
          if_pos (by omega), res_ok_bind]
        exact hu
  exact key ops _ 0 rfl (by simp [SB.init]) (by simp [SB.init]) hb

end Guanaqo.Streambuf
