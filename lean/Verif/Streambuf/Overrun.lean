import Verif.Streambuf.Utf8
import Mathlib.Data.List.Induction

/-!
# C37: exactly when the buffer is overrun
-/

namespace Guanaqo.Streambuf

/-! ## Specification -/

/-- Every stretch of writes between two flushes, together with the incomplete code point that the last flush kept
back, has room in a buffer of `size` bytes. `before` is what was done up to the last flush, and `burst` what
was written since. -/
def FlushedInTime (size : Nat) (ops : List Op) : Prop :=
  ∀ before burst rest, ops = before ++ burst ++ rest → (before = [] ∨ before.getLast? = some .flush) →
    Op.flush ∉ burst → ∀ text tail, written before = text ++ tail → Utf8 text → IncompleteTail tail →
      tail.length + burst.length ≤ size

/-! ## Proof -/

/-- Text and an incomplete code point after it can be told apart. -/
theorem tail_unique {a b p q : List UInt8} (ha : Utf8 a) (hb : Utf8 b) (hp : IncompleteTail p)
    (hq : IncompleteTail q) (h : a ++ p = b ++ q) : p = q := by
  obtain ⟨cs, rfl⟩ := ha
  obtain ⟨ds, rfl⟩ := hb
  by_cases hne : enc cs ++ p = []
  · have h1 := hne
    rw [h] at h1
    rw [(List.append_eq_nil_iff.1 hne).2, (List.append_eq_nil_iff.1 h1).2]
  · have h1 := remainder_exact cs p hp hne
    have h2 := remainder_exact ds q hq (by rw [← h]; exact hne)
    have h' : enc cs ++ p = enc ds ++ q := h
    rw [h', h2] at h1
    have hl : q.length = p.length := Except.ok.inj h1
    exact (List.append_inj' h hl.symm).2

theorem utf8_flatten {l : List (List UInt8)} (h : ∀ x ∈ l, Utf8 x) : Utf8 l.flatten := by
  induction l with
  | nil => exact ⟨[], rfl⟩
  | cons x l ih =>
    obtain ⟨cs, hx⟩ := h x (List.mem_cons_self ..)
    obtain ⟨ds, hl⟩ := ih fun y hy => h y (List.mem_cons_of_mem _ hy)
    refine ⟨cs ++ ds, ?_⟩
    rw [List.flatten_cons, List.flatMap_append, hx, hl]

theorem written_append (a b : List Op) : written (a ++ b) = written a ++ written b := by
  simp [written]

/-- What is in the buffer after the last flush. -/
theorem buffered_after {size : Nat} {before : List Op} {s : SB} (hw : ∃ m, Utf8 (written before ++ m))
    (hl : before = [] ∨ before.getLast? = some .flush) (h : (SB.init size 0).run before = .ok s)
    {text tail : List UInt8} (hwr : written before = text ++ tail) (ht : Utf8 text) (hi : IncompleteTail tail) :
    s.buffered = tail := by
  have h1 := bytes_preserved size 0 before s h
  have h2 := utf8_flatten (chunks_utf8 size 0 before s hw h)
  refine tail_unique h2 ht ?_ hi (h1.trans hwr)
  rcases hl with rfl | hl
  · cases h; exact .inl rfl
  · obtain ⟨pre, rfl⟩ : ∃ pre, before = pre ++ [.flush] := by
      obtain ⟨ys, hys⟩ := List.getLast?_eq_some_iff.1 hl
      exact ⟨ys, hys⟩
    refine flush_utf8 size 0 pre s ?_ h
    simpa [written] using hw

/-- Writes go on from where they are, and need room. -/
theorem puts_ok {burst : List Op} (hb : Op.flush ∉ burst) : ∀ {s s' : SB}, s.mem.length = s.size →
    s.run burst = .ok s' → s'.pptr = s.pptr + burst.length ∧ (burst ≠ [] → s'.pptr ≤ s.size) := by
  induction burst with
  | nil => intro s s' _ h; cases h; exact ⟨rfl, fun h => absurd rfl h⟩
  | cons op burst ih =>
    intro s s' hm h
    rw [SB.run, List.foldlM_cons] at h
    obtain ⟨t, h1, h2⟩ := res_bind_ok.1 h
    cases op with
    | flush => exact absurd (List.mem_cons_self ..) hb
    | put c =>
      have hst : s.store c = .ok t := by
        rw [SB.exec, SB.sputc] at h1
        split at h1
        · exact h1
        · rw [SB.overflow] at h1
          obtain ⟨u, hu, h1⟩ := res_bind_ok.1 h1
          unfold SB.store at hu
          rw [if_neg (by omega)] at hu
          cases hu
      obtain ⟨-, -, k1, k2, k3, k4⟩ := store_ok hst
      obtain ⟨l1, l2⟩ := ih (fun h => hb (List.mem_cons_of_mem _ h)) (s := t) (by omega) h2
      refine ⟨by rw [l1, k1, List.length_cons]; omega, fun _ => ?_⟩
      cases burst with
      | nil => cases h2; omega
      | cons o b => have := l2 (by simp); omega

theorem last_flush (ops : List Op) : ∃ before burst, ops = before ++ burst ∧
    (before = [] ∨ before.getLast? = some .flush) ∧ Op.flush ∉ burst := by
  induction ops using List.reverseRecOn with
  | nil => exact ⟨[], [], rfl, .inl rfl, by simp⟩
  | append_singleton ops op ih =>
    obtain ⟨a, b, rfl, h1, h2⟩ := ih
    cases op with
    | flush => exact ⟨a ++ b ++ [.flush], [], by simp, .inr (by simp), by simp⟩
    | put c => exact ⟨a, b ++ [.put c], by simp, h1, by simp [h2]⟩

/-- A beginning of UTF-8 text is text and an incomplete code point. -/
theorem text_tail (l m : List UInt8) (h : Utf8 (l ++ m)) : ∃ a p, l = a ++ p ∧ Utf8 a ∧ IncompleteTail p := by
  obtain ⟨cs, hcs⟩ := h
  induction cs generalizing l with
  | nil =>
    have := List.append_eq_nil_iff.1 hcs
    exact ⟨[], [], this.1, ⟨[], rfl⟩, .inl rfl⟩
  | cons c cs ih =>
    rw [List.flatMap_cons] at hcs
    rcases List.append_eq_append_iff.1 hcs with ⟨x, h1, h2⟩ | ⟨x, h1, h2⟩
    · by_cases hx : x = []
      · subst hx
        rw [List.append_nil] at h1
        exact ⟨l, [], by simp, ⟨[c], by simp [h1]⟩, .inl rfl⟩
      · refine ⟨[], l, rfl, ⟨[], rfl⟩, .inr ⟨c, ⟨x, h1.symm⟩, ?_⟩⟩
        intro e
        rw [← e] at h1
        have := congrArg List.length h1
        rw [List.length_append] at this
        exact hx (List.length_eq_zero_iff.1 (by omega))
    · obtain ⟨a, p, k1, ⟨ds, k2⟩, k3⟩ := ih x h2.symm
      refine ⟨String.utf8EncodeChar c ++ a, p, by rw [h1, k1, List.append_assoc], ⟨c :: ds, ?_⟩, k3⟩
      rw [List.flatMap_cons, k2]

/-- **C37**, exactly, for UTF-8 text (or the beginning of one): no byte is stored outside the buffer if and only if
the program flushes in time. -/
theorem overrun_iff (size : Nat) (ops : List Op) (hw : ∃ m, Utf8 (written ops ++ m)) :
    (∃ s, (SB.init size 0).run ops = .ok s) ↔ FlushedInTime size ops := by
  have pre : ∀ a b, ops = a ++ b → ∃ m, Utf8 (written a ++ m) := by
    rintro a b rfl
    obtain ⟨m, hm⟩ := hw
    rw [written_append, List.append_assoc] at hm
    exact ⟨_, hm⟩
  have len : ∀ {a s}, (SB.init size 0).run a = .ok s → s.mem.length = s.size ∧ s.size = size ∧
      s.buffered.length = s.pptr := by
    intro a s h
    obtain ⟨-, h1, h2, h3⟩ := run_ok (init_ok size 0) h
    refine ⟨by rw [h3, h2]; simp [SB.init], by rw [h2]; rfl, ?_⟩
    rw [SB.buffered, List.length_take]; omega
  constructor
  · rintro ⟨s, hs⟩ before burst rest rfl hl hb text tail hwr ht hi
    rw [SB.run, List.foldlM_append, List.foldlM_append] at hs
    obtain ⟨u, hs, -⟩ := res_bind_ok.1 hs
    obtain ⟨t, h1, h2⟩ := res_bind_ok.1 hs
    have h1' : (SB.init size 0).run before = .ok t := h1
    obtain ⟨l1, l2, l3⟩ := len h1'
    have hbuf := buffered_after (pre before (burst ++ rest) (by simp)) hl h1' hwr ht hi
    rw [hbuf] at l3
    obtain ⟨k1, k2⟩ := puts_ok hb l1 h2
    cases burst with
    | nil =>
      have := (run_ok (init_ok size 0) h1').2.1
      simp only [List.length_nil]; omega
    | cons o b => have := k2 (by simp); omega
  · intro hf
    have key : ∀ done rest, ops = done ++ rest → ∃ s, (SB.init size 0).run done = .ok s := by
      intro done
      induction done using List.reverseRecOn with
      | nil => intro _ _; exact ⟨_, rfl⟩
      | append_singleton done op ih =>
        intro rest hd
        obtain ⟨s, hs⟩ := ih ([op] ++ rest) (by rw [hd]; simp)
        obtain ⟨l1, l2, l3⟩ := len hs
        have hp := (run_ok (init_ok size 0) hs).2.1
        have goal : ∃ t, s.exec op = .ok t := by
          cases op with
          | flush => obtain ⟨t, h, -⟩ := sync_ok hp; exact ⟨t, h⟩
          | put c =>
            obtain ⟨before, burst, rfl, h1, h2⟩ := last_flush done
            obtain ⟨m, hm⟩ := pre before (burst ++ [.put c] ++ rest) (by rw [hd]; simp)
            obtain ⟨text, tail, hwr, ht, hi⟩ := text_tail _ _ hm
            have hroom := hf before (burst ++ [.put c]) rest (by rw [hd]; simp) h1 (by simp [h2]) text tail hwr ht hi
            rw [SB.run, List.foldlM_append] at hs
            obtain ⟨t, k1, k2⟩ := res_bind_ok.1 hs
            have k1' : (SB.init size 0).run before = .ok t := k1
            obtain ⟨m1, m2, m3⟩ := len k1'
            rw [buffered_after ⟨m, hm⟩ h1 k1' hwr ht hi] at m3
            obtain ⟨n1, -⟩ := puts_ok h2 m1 k2
            rw [List.length_append, List.length_singleton] at hroom
            refine ⟨{ s with mem := s.mem.set s.pptr c, pptr := s.pptr + 1 }, ?_⟩
            rw [SB.exec, SB.sputc, if_pos (by omega), SB.store, if_pos (by omega)]
        obtain ⟨t, ht⟩ := goal
        refine ⟨t, ?_⟩
        rw [SB.run, List.foldlM_append]
        have hs' : List.foldlM SB.exec (SB.init size 0) done = .ok s := hs
        rw [hs', res_ok_bind, List.foldlM_cons, ht]
        rfl
    exact key ops [] (by simp)

/-- Both cases: three bytes, of which the flush keeps one, and two more fit into a buffer of three, but not into one of two. -/
example : FlushedInTime 3 [.put 0x61, .put 0x62, .put 0xE2, .flush, .put 0x82, .put 0xAC] ∧
    ¬ FlushedInTime 2 [.put 0x61, .put 0x62, .put 0xE2, .flush, .put 0x82, .put 0xAC] := by
  have hw : ∃ m, Utf8 (written [.put 0x61, .put 0x62, .put 0xE2, .flush, .put 0x82, .put 0xAC] ++ m) :=
    ⟨[], ['a', 'b', '€'], by decide +kernel⟩
  refine ⟨(overrun_iff 3 _ hw).1 ⟨_, rfl⟩, fun h => ?_⟩
  obtain ⟨s, hs⟩ := (overrun_iff 2 _ hw).2 h
  cases hs

end Guanaqo.Streambuf
