import Verif.Streambuf.Throw

/-!
# C103, exactly

Which bytes are kept though their output is reported to have failed, and when.
-/

namespace Guanaqo.Streambuf

/-! ## Specification -/

/-- The bytes whose output was attempted and reported to have failed: the stream was good before the operation and is bad after it. `bad`: is the stream
bad at the start? -/
def failedPuts : Bool → List OpT → List OS → List UInt8
  | bad, op :: ops, s :: ss =>
    (match op with | .put c _ => if !bad && s.bad then [c] else [] | _ => []) ++ failedPuts s.bad ops ss
  | _, _, _ => []

/-! ## Proofs -/

theorem lengths_add : ∀ (bad : Bool) (ops : List OpT) (ss : List OS),
    (accepted bad ops ss).length = (reported bad ops ss).length + (failedPuts bad ops ss).length
  | _, [], _ => rfl
  | _, _ :: _, [] => rfl
  | bad, op :: ops, s :: ss => by
    simp only [accepted, reported, failedPuts, List.length_append, lengths_add s.bad ops ss]
    cases op with
    | put c t => cases bad <;> cases s.bad <;> simp <;> omega
    | flush t => simp
    | clear => simp

theorem accepted_eq : ∀ (bad : Bool) (ops : List OpT) (ss : List OS), failedPuts bad ops ss = [] → accepted bad ops ss = reported bad ops ss
  | _, [], _, _ => rfl
  | _, _ :: _, [], _ => rfl
  | bad, op :: ops, s :: ss, h => by
    simp only [failedPuts, List.append_eq_nil_iff] at h
    simp only [accepted, reported, accepted_eq s.bad ops ss h.2]
    congr 1
    cases op with
    | put c t => revert h; cases bad <;> cases s.bad <;> simp
    | flush t => rfl
    | clear => rfl

/-- The bytes reported to be successful are among the accepted ones, in this order. -/
theorem reported_sublist : ∀ (bad : Bool) (ops : List OpT) (ss : List OS), (reported bad ops ss).Sublist (accepted bad ops ss)
  | _, [], _ => .slnil
  | _, _ :: _, [] => .slnil
  | bad, op :: ops, s :: ss => by
    simp only [accepted, reported]
    refine List.Sublist.append ?_ (reported_sublist s.bad ops ss)
    cases op with
    | put c t => cases bad <;> cases s.bad <;> simp
    | flush t => exact .slnil
    | clear => exact .slnil

/-- C103, exactly: no byte that was reported as written is ever lost or moved, and the bytes handed over or kept are those and no others if and only if no
output of a single byte was reported to have failed: every such byte is kept, in addition. -/
theorem throw_exact (size spare : Nat) (ops : List OpT) (ss : List OS) (h : OS.run ⟨SB.init size spare, false⟩ ops = .ok ss) :
    (reported false ops ss).Sublist
      ((final ⟨SB.init size spare, false⟩ ss).sb.out.flatten ++ (final ⟨SB.init size spare, false⟩ ss).sb.buffered) ∧
    ((final ⟨SB.init size spare, false⟩ ss).sb.out.flatten ++ (final ⟨SB.init size spare, false⟩ ss).sb.buffered).length =
      (reported false ops ss).length + (failedPuts false ops ss).length ∧
    ((final ⟨SB.init size spare, false⟩ ss).sb.out.flatten ++ (final ⟨SB.init size spare, false⟩ ss).sb.buffered = reported false ops ss ↔
      failedPuts false ops ss = []) := by
  rw [throw_accepted size spare ops ss h]
  refine ⟨reported_sublist _ _ _, lengths_add _ _ _, fun he => ?_, accepted_eq _ _ _⟩
  have := lengths_add false ops ss
  rw [he] at this
  exact List.eq_nil_of_length_eq_zero (by omega)

/-- C103: when the output of a byte is reported to have failed: exactly if the callback throws and is called, that is, if the buffer is full and holds (with the
new byte, which is stored first) more than the beginning of a character. -/
theorem put_fails_iff {s : OS} (hbad : s.bad = false) (c : UInt8) (throws : Bool) {s' : OS} (h : s.exec (.put c throws) = .ok s') :
    s'.bad = true ↔ throws = true ∧ s.sb.size ≤ s.sb.pptr ∧
      ∃ t r, s.sb.store c = .ok t ∧ utf8Remainder (t.mem.take t.pptr).reverse = .ok r ∧ r < t.pptr := by
  unfold OS.exec at h
  dsimp only at h
  rw [hbad, if_neg (by decide)] at h
  obtain ⟨⟨u, b⟩, h1, h2⟩ := res_bind_ok.1 h
  cases h2
  unfold SB.sputcT at h1
  by_cases hlt : s.sb.pptr < s.sb.size
  · rw [if_pos hlt] at h1
    obtain ⟨v, h3, h4⟩ := res_bind_ok.1 h1
    cases h4
    constructor
    · intro h; cases h
    · rintro ⟨_, h, _⟩; omega
  · rw [if_neg hlt] at h1
    obtain ⟨v, h3, h4⟩ := res_bind_ok.1 h1
    unfold SB.syncT at h4
    by_cases h0 : v.pptr ≠ 0
    · rw [if_pos h0] at h4
      obtain ⟨r, h5, h6⟩ := res_bind_ok.1 h4
      by_cases hc : (decide (r < v.pptr) && throws) = true
      · rw [if_pos hc] at h6
        cases h6
        simp only [Bool.and_eq_true, decide_eq_true_eq] at hc
        exact ⟨fun _ => ⟨hc.2, by omega, _, r, h3, h5, hc.1⟩, fun _ => rfl⟩
      · rw [if_neg hc] at h6
        cases h6
        simp only [Bool.and_eq_true, decide_eq_true_eq, not_and] at hc
        constructor
        · intro h; cases h
        · rintro ⟨ht, _, t, r', h7, h8, h9⟩
          rw [h3] at h7; cases h7
          rw [h5] at h8; cases h8
          exact absurd ht (hc h9)
    · rw [if_neg h0] at h4
      cases h4
      constructor
      · intro h; cases h
      · rintro ⟨_, _, t, r', h7, _, h9⟩
        rw [h3] at h7; cases h7
        omega

/-- C103: when a flush is reported to have failed: exactly if the callback throws and is called. Then nothing has changed: the text is still there for the
next flush. -/
theorem flush_fails_iff {s : OS} (hbad : s.bad = false) (throws : Bool) {s' : OS} (h : s.exec (.flush throws) = .ok s') :
    (s'.bad = true ↔ throws = true ∧ ∃ r, utf8Remainder (s.sb.mem.take s.sb.pptr).reverse = .ok r ∧ r < s.sb.pptr) ∧
    (s'.bad = true → s'.sb = s.sb) := by
  unfold OS.exec at h
  dsimp only at h
  rw [hbad, if_neg (by decide)] at h
  obtain ⟨⟨u, b⟩, h1, h2⟩ := res_bind_ok.1 h
  cases h2
  unfold SB.syncT at h1
  by_cases h0 : s.sb.pptr ≠ 0
  · rw [if_pos h0] at h1
    obtain ⟨r, h5, h6⟩ := res_bind_ok.1 h1
    by_cases hc : (decide (r < s.sb.pptr) && throws) = true
    · rw [if_pos hc] at h6
      cases h6
      simp only [Bool.and_eq_true, decide_eq_true_eq] at hc
      exact ⟨⟨fun _ => ⟨hc.2, r, h5, hc.1⟩, fun _ => rfl⟩, fun _ => rfl⟩
    · rw [if_neg hc] at h6
      cases h6
      simp only [Bool.and_eq_true, decide_eq_true_eq, not_and] at hc
      refine ⟨⟨fun h => (by cases h), ?_⟩, fun h => (by cases h)⟩
      rintro ⟨ht, r', h8, h9⟩
      rw [h5] at h8; cases h8
      exact absurd ht (hc h9)
  · rw [if_neg h0] at h1
    cases h1
    refine ⟨⟨fun h => (by cases h), ?_⟩, fun _ => rfl⟩
    rintro ⟨_, r', _, h9⟩
    omega

/-- Non-vacuity: the byte `b` fails and is kept; a byte written when there is room, and a flush that fails, are reported rightly. -/
example : ∃ ss, OS.run ⟨SB.init 1 1, false⟩ [.put 97 false, .flush true, .clear, .put 98 true, .clear, .flush false] = .ok ss ∧
    failedPuts false [.put 97 false, .flush true, .clear, .put 98 true, .clear, .flush false] ss = [98] ∧
    reported false [.put 97 false, .flush true, .clear, .put 98 true, .clear, .flush false] ss = [97] ∧
    (final ⟨SB.init 1 1, false⟩ ss).sb.out = [[97, 98]] :=
  ⟨_, rfl, by decide +kernel, by decide +kernel, by decide +kernel⟩

end Guanaqo.Streambuf
