import Verif.Streambuf.Props

/-!
# C103: callbacks that throw

The functions of `Verif/Streambuf/Model.lean` with a callback that may throw, and the `std::ostream` in front of them, which catches the exception
and remembers the failure (`badbit`); as long as it is set, the stream ignores output.
-/

namespace Guanaqo.Streambuf

/-! ## The model -/

/-- callback-streambuf.hpp:58-74, `_sync`, with a callback that throws if it is called and `throws` holds. The exception leaves the function at line 66,
before anything has changed. The result says whether that happened. -/
def SB.syncT (s : SB) (throws : Bool) : Res (SB × Bool) :=
  if s.pptr ≠ 0 then do
    let size := s.pptr
    let remainder ← utf8Remainder (s.mem.take s.pptr).reverse
    if remainder < size && throws then .ok (s, true)
    else do
      let out := if remainder < size then s.out ++ [s.mem.take (size - remainder)] else s.out
      let mem := (s.mem.drop (size - remainder)).take remainder ++ s.mem.drop remainder
      .ok ({ s with mem := mem, pptr := remainder, out := out }, false)
  else .ok (s, false)

/-- callback-streambuf.hpp:78-85, `overflow` with a character. -/
def SB.overflowT (s : SB) (c : UInt8) (throws : Bool) : Res (SB × Bool) := do
  let s ← s.store c
  s.syncT throws

/-- `std::streambuf::sputc` (standard library). -/
def SB.sputcT (s : SB) (c : UInt8) (throws : Bool) : Res (SB × Bool) :=
  if s.pptr < s.size then do
    let s ← s.store c
    .ok (s, false)
  else s.overflowT c throws

/-- A stream with the buffer: `bad` is its `badbit`. -/
structure OS where
  sb : SB
  bad : Bool := false

/-- What a program does with the stream; `throws`: the callback throws if it is called during the operation. -/
inductive OpT where
  /-- `os.put(c)` -/
  | put (c : UInt8) (throws : Bool)
  /-- `os.flush()` -/
  | flush (throws : Bool)
  /-- `os.clear()` -/
  | clear
  deriving DecidableEq, Repr

/-- The functions of `std::ostream` (standard library): nothing happens in a stream that is not good; an exception of the stream buffer is caught and
sets `badbit`. -/
def OS.exec (s : OS) : OpT → Res OS
  | .put c throws => if s.bad then .ok s else do
      let r ← s.sb.sputcT c throws
      .ok ⟨r.1, r.2⟩
  | .flush throws => if s.bad then .ok s else do
      let r ← s.sb.syncT throws
      .ok ⟨r.1, r.2⟩
  | .clear => .ok { s with bad := false }

/-- A history: the state of the stream after each operation. -/
def OS.run (s : OS) : List OpT → Res (List OS)
  | [] => .ok []
  | op :: ops => do
    let s' ← s.exec op
    let r ← OS.run s' ops
    .ok (s' :: r)

/-- How the destructor ends. -/
inductive End where
  /-- it returns; the chunks that the callback has received -/
  | done (out : List (List UInt8))
  /-- `std::terminate`: an exception leaves a destructor -/
  | terminate
  deriving DecidableEq, Repr

/-- callback-streambuf.hpp:95: the destructor. -/
def SB.destroyT (s : SB) (throws : Bool) : Res End := do
  let r ← s.syncT throws
  .ok (if r.2 then .terminate else .done r.1.out)

/-! ## Specification -/

/-- The bytes whose output the stream reported to be successful: it was good before and after the operation. `bad`: is the stream bad at the start? -/
def reported : Bool → List OpT → List OS → List UInt8
  | bad, op :: ops, s :: ss =>
    (match op with | .put c _ => if bad || s.bad then [] else [c] | _ => []) ++ reported s.bad ops ss
  | _, _, _ => []

/-- The bytes that the stream accepted: it was good before the operation. -/
def accepted : Bool → List OpT → List OS → List UInt8
  | bad, op :: ops, s :: ss =>
    (match op with | .put c _ => if bad then [] else [c] | _ => []) ++ accepted s.bad ops ss
  | _, _, _ => []

/-- The state at the end. -/
def final (s : OS) (ss : List OS) : OS := ss.getLastD s

/-- C103, in full: the chunks of the calls of the callback that return, and the bytes that wait in the buffer, are the bytes whose output was reported to be
successful. -/
def ThrowKeepsText : Prop :=
  ∀ (size spare : Nat) (ops : List OpT) (ss : List OS), OS.run ⟨SB.init size spare, false⟩ ops = .ok ss →
    (final ⟨SB.init size spare, false⟩ ss).sb.out.flatten ++ (final ⟨SB.init size spare, false⟩ ss).sb.buffered = reported false ops ss

/-! ## Proofs -/

/-- A callback that does not throw: the functions of `Verif/Streambuf/Model.lean`. -/
theorem syncT_false (s : SB) : s.syncT false = (do let r ← s.sync; .ok (r, false)) := by
  unfold SB.syncT SB.sync
  by_cases h : s.pptr ≠ 0
  · rw [if_pos h, if_pos h]
    cases utf8Remainder (s.mem.take s.pptr).reverse with
    | error e => rfl
    | ok r => simp only [res_ok_bind, Bool.and_false, Bool.false_eq_true, if_false]
  · rw [if_neg h, if_neg h]; rfl

theorem sputcT_false (s : SB) (c : UInt8) : s.sputcT c false = (do let r ← s.sputc c; .ok (r, false)) := by
  unfold SB.sputcT SB.sputc SB.overflowT SB.overflow
  by_cases h : s.pptr < s.size
  · rw [if_pos h, if_pos h]
  · rw [if_neg h, if_neg h]
    dsimp only
    cases hs : s.store c with
    | error e => rfl
    | ok t => simp only [res_ok_bind]; exact syncT_false t

/-- An operation during which the callback throws, or not: either nothing has changed or it is the operation without exceptions. -/
theorem syncT_cases {s : SB} {throws : Bool} {s' : SB} {b : Bool} (h : s.syncT throws = .ok (s', b)) :
    (b = true ∧ s' = s ∧ throws = true) ∨ (b = false ∧ s.sync = .ok s') := by
  by_cases h0 : s.pptr ≠ 0
  · unfold SB.syncT at h
    unfold SB.sync
    rw [if_pos h0] at h ⊢
    cases hr : utf8Remainder (s.mem.take s.pptr).reverse with
    | error e => rw [hr] at h; cases h
    | ok r =>
      rw [hr] at h
      simp only [res_ok_bind] at h ⊢
      by_cases hc : (decide (r < s.pptr) && throws) = true
      · rw [if_pos hc] at h
        cases h
        simp only [Bool.and_eq_true] at hc
        exact .inl ⟨rfl, rfl, hc.2⟩
      · rw [if_neg hc] at h
        cases h
        exact .inr ⟨rfl, rfl⟩
  · unfold SB.syncT at h
    unfold SB.sync
    rw [if_neg h0] at h ⊢
    cases h
    exact .inr ⟨rfl, rfl⟩

theorem exec_bytes {s s' : OS} {op : OpT} (hp : s.sb.pptr ≤ s.sb.mem.length) (h : s.exec op = .ok s') :
    s'.sb.out.flatten ++ s'.sb.buffered = s.sb.out.flatten ++ s.sb.buffered ++ accepted s.bad [op] [s'] ∧ s'.sb.pptr ≤ s'.sb.mem.length := by
  cases op with
  | clear => cases h; exact ⟨by simp [accepted], hp⟩
  | flush throws =>
    unfold OS.exec at h
    dsimp only at h
    by_cases hb : s.bad = true
    · rw [if_pos hb] at h; cases h; exact ⟨by simp [accepted], hp⟩
    · rw [if_neg hb] at h
      obtain ⟨⟨t, b⟩, h1, h2⟩ := res_bind_ok.1 h
      cases h2
      rcases syncT_cases h1 with ⟨_, rfl, _⟩ | ⟨_, hs⟩
      · exact ⟨by simp [accepted], hp⟩
      · obtain ⟨u, k1, k2, _, k3, _⟩ := sync_ok hp
        rw [hs] at k1; cases k1
        exact ⟨by simpa [accepted] using k2, k3⟩
  | put c throws =>
    unfold OS.exec at h
    dsimp only at h
    by_cases hb : s.bad = true
    · rw [if_pos hb] at h; cases h; exact ⟨by simp [accepted, hb], hp⟩
    · rw [if_neg hb] at h
      obtain ⟨⟨t, b⟩, h1, h2⟩ := res_bind_ok.1 h
      cases h2
      have hacc : accepted s.bad [.put c throws] [⟨t, b⟩] = [c] := by simp [accepted, hb]
      rw [hacc]
      unfold SB.sputcT at h1
      by_cases hlt : s.sb.pptr < s.sb.size
      · rw [if_pos hlt] at h1
        obtain ⟨u, h3, h4⟩ := res_bind_ok.1 h1
        cases h4
        obtain ⟨k1, k2, _, _, _, k6⟩ := store_ok h3
        exact ⟨by dsimp only; rw [k1, k2]; simp, k6⟩
      · rw [if_neg hlt] at h1
        obtain ⟨u, h3, h4⟩ := res_bind_ok.1 h1
        obtain ⟨k1, k2, _, _, _, k6⟩ := store_ok h3
        rcases syncT_cases h4 with ⟨_, rfl, _⟩ | ⟨_, hs⟩
        · exact ⟨by dsimp only; rw [k1, k2]; simp, k6⟩
        · obtain ⟨v, l1, l2, _, l3, _⟩ := sync_ok k6
          rw [hs] at l1; cases l1
          exact ⟨by dsimp only; rw [l2, k1, k2]; simp, l3⟩

theorem accepted_cons (bad : Bool) (op : OpT) (ops : List OpT) (s : OS) (ss : List OS) :
    accepted bad (op :: ops) (s :: ss) = accepted bad [op] [s] ++ accepted s.bad ops ss := by
  simp only [accepted, List.append_nil]

theorem run_bytes {s : OS} {ops : List OpT} {ss : List OS} (hp : s.sb.pptr ≤ s.sb.mem.length) (h : s.run ops = .ok ss) :
    (final s ss).sb.out.flatten ++ (final s ss).sb.buffered = s.sb.out.flatten ++ s.sb.buffered ++ accepted s.bad ops ss ∧ ss.length = ops.length := by
  induction ops generalizing s ss with
  | nil => cases h; exact ⟨by simp [final, accepted], rfl⟩
  | cons op ops ih =>
    simp only [OS.run] at h
    obtain ⟨t, h1, h2⟩ := res_bind_ok.1 h
    obtain ⟨r, h3, h4⟩ := res_bind_ok.1 h2
    cases h4
    obtain ⟨k1, k2⟩ := exec_bytes hp h1
    obtain ⟨l1, l2⟩ := ih k2 h3
    refine ⟨?_, by simp [l2]⟩
    have hf : final s (t :: r) = final t r := by
      unfold final
      cases r with
      | nil => rfl
      | cons a r => simp [List.getLastD]
    rw [hf, l1, k1, accepted_cons s.bad op ops t r, List.append_assoc]

/-- C103. Whatever the callback does, the chunks of the calls that returned and the bytes in the buffer are exactly the bytes that the stream accepted, in
order: nothing is lost or handed over twice. -/
theorem throw_accepted (size spare : Nat) (ops : List OpT) (ss : List OS) (h : OS.run ⟨SB.init size spare, false⟩ ops = .ok ss) :
    (final ⟨SB.init size spare, false⟩ ss).sb.out.flatten ++ (final ⟨SB.init size spare, false⟩ ss).sb.buffered = accepted false ops ss := by
  have := (run_bytes (s := ⟨SB.init size spare, false⟩) (init_ok size spare) h).1
  simpa [SB.init, SB.buffered] using this

/-- C103 for histories in which the callback throws only while the stream is flushed: those are the bytes that were reported to be successful. -/
theorem throw_reported_partial (size spare : Nat) (ops : List OpT) (ss : List OS) (h : OS.run ⟨SB.init size spare, false⟩ ops = .ok ss)
    (hf : ∀ c t, OpT.put c t ∈ ops → t = false) :
    (final ⟨SB.init size spare, false⟩ ss).sb.out.flatten ++ (final ⟨SB.init size spare, false⟩ ss).sb.buffered = reported false ops ss := by
  rw [throw_accepted size spare ops ss h]
  suffices H : ∀ (s : OS) (ops : List OpT) (ss : List OS), s.run ops = .ok ss → (∀ c t, OpT.put c t ∈ ops → t = false) →
      accepted s.bad ops ss = reported s.bad ops ss from H _ ops ss h hf
  intro s ops
  induction ops generalizing s with
  | nil => intro ss h _; cases h; rfl
  | cons op ops ih =>
    intro ss h hf
    simp only [OS.run] at h
    obtain ⟨t, h1, h2⟩ := res_bind_ok.1 h
    obtain ⟨r, h3, h4⟩ := res_bind_ok.1 h2
    cases h4
    simp only [accepted, reported]
    rw [ih t r h3 fun c t hm => hf c t (by simp [hm])]
    congr 1
    cases op with
    | clear => rfl
    | flush throws => rfl
    | put c throws =>
      have ht := hf c throws (by simp)
      subst ht
      dsimp only
      by_cases hb : s.bad = true
      · simp [hb]
      · have hbf : s.bad = false := by simpa using hb
        unfold OS.exec at h1
        dsimp only at h1
        rw [if_neg hb] at h1
        obtain ⟨⟨u, b⟩, k1, k2⟩ := res_bind_ok.1 h1
        cases k2
        rw [sputcT_false] at k1
        obtain ⟨v, l1, l2⟩ := res_bind_ok.1 k1
        cases l2
        simp [hbf]

/-- C103 is false: the byte that fills the buffer is kept although its output is reported to have failed, and handed over by the next flush. A program that writes
it again finds it twice in the output. -/
theorem not_throwKeepsText : ¬ ThrowKeepsText := by
  intro h
  have := h 1 1 [.put 97 false, .put 98 true, .clear, .flush false] _ rfl
  revert this
  decide +kernel

/-- C103 (and C37): a byte that arrives when the buffer, and what happens to follow it, is full is written outside. -/
theorem throw_overruns (s : OS) (hbad : s.bad = false) (hfull : s.sb.size ≤ s.sb.pptr) (hmem : s.sb.mem.length ≤ s.sb.pptr) (c : UInt8) (throws : Bool) :
    s.exec (.put c throws) = .error .ub := by
  unfold OS.exec SB.sputcT SB.overflowT SB.store
  dsimp only
  rw [hbad, if_neg (by decide), if_neg (by omega), if_neg (by omega)]
  rfl

/-- And while the callback throws, every byte written to a full buffer is stored one place further. -/
theorem throw_moves {s s' : OS} (hbad : s.bad = false) (hfull : s.sb.size ≤ s.sb.pptr) (h0 : 4 ≤ s.sb.pptr) (c : UInt8)
    (h : s.exec (.put c true) = .ok s') : s'.bad = true ∧ s'.sb.pptr = s.sb.pptr + 1 ∧ s.sb.pptr < s.sb.mem.length ∧ s'.sb.out = s.sb.out := by
  unfold OS.exec at h
  dsimp only at h
  rw [hbad, if_neg (by decide)] at h
  obtain ⟨⟨u, b⟩, h1, h2⟩ := res_bind_ok.1 h
  cases h2
  unfold SB.sputcT at h1
  rw [if_neg (by omega)] at h1
  obtain ⟨v, h3, h4⟩ := res_bind_ok.1 h1
  have hlt : s.sb.pptr < s.sb.mem.length := by
    unfold SB.store at h3
    split at h3
    · assumption
    · cases h3
  obtain ⟨k1, _, k3, _, _, k6⟩ := store_ok h3
  unfold SB.syncT at h4
  rw [if_pos (by omega)] at h4
  obtain ⟨r, l1, l2⟩ := res_bind_ok.1 h4
  have hr := remainder_le l1
  have : r < v.pptr := by omega
  rw [if_pos (by simp [this])] at l2
  cases l2
  exact ⟨rfl, k3, hlt, k1⟩

/-- C103: the destructor delivers what is in the buffer; if the callback throws then, and there is something to deliver, the program is terminated. -/
theorem throw_destroy {s : SB} (hp : s.pptr ≤ s.mem.length) :
    (∃ out, s.destroyT false = .ok (.done out) ∧ s.destroy = .ok out) ∧
    (s.destroyT true = .ok .terminate ↔ ∃ t, s.sync = .ok t ∧ t.out ≠ s.out) := by
  obtain ⟨t, ht, _⟩ := sync_ok hp
  constructor
  · refine ⟨t.out, ?_, ?_⟩
    · unfold SB.destroyT
      rw [syncT_false, ht]; rfl
    · unfold SB.destroy
      rw [ht]; rfl
  · unfold SB.destroyT SB.syncT
    unfold SB.sync at ht ⊢
    by_cases h0 : s.pptr ≠ 0
    · rw [if_pos h0] at ht ⊢
      rw [if_pos h0]
      obtain ⟨r, h1, h2⟩ := res_bind_ok.1 ht
      rw [h1]
      simp only [res_ok_bind]
      by_cases hr : r < s.pptr
      · have hr' : (decide (r < s.pptr) && true) = true := by simp [hr]
        rw [if_pos hr']
        simp only [hr, if_true]
        refine ⟨fun _ => ⟨_, rfl, by simp⟩, fun _ => rfl⟩
      · have hr' : ¬ (decide (r < s.pptr) && true) = true := by simp [hr]
        rw [if_neg hr']
        simp only [hr, if_false]
        constructor
        · intro h; cases h
        · rintro ⟨t, h, hne⟩; cases h; exact absurd rfl hne
    · rw [if_neg h0, if_neg h0]
      constructor
      · intro h; cases h
      · rintro ⟨t, h, hne⟩; cases h; exact absurd rfl hne

/-- Non-vacuity: a callback that throws during a flush and during an overflow. -/
example : ∃ ss, OS.run ⟨SB.init 4 2, false⟩
      [.put 97 false, .flush true, .put 98 false, .clear, .put 99 false, .put 100 false, .put 101 false, .put 102 true, .put 103 false, .clear, .flush false] =
    .ok ss ∧ (final ⟨SB.init 4 2, false⟩ ss).sb.out = [[97, 99, 100, 101, 102]] ∧ (ss.map (·.bad)) =
      [false, true, true, false, false, false, false, true, true, false, false] := ⟨_, rfl, by decide +kernel, by decide +kernel⟩

end Guanaqo.Streambuf
