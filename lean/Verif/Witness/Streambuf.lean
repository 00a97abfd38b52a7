import Verif.Streambuf.Utf8
import Verif.Streambuf.ThrowExact
import Verif.Streambuf.RedirectExact
import Verif.Streambuf.RedirectLifo

/-! # Concrete cases of the theorems of C35-C39 and C103

Each example applies a theorem to concrete data, so that all its hypotheses are met. -/

namespace Guanaqo.Streambuf

/-- "aé€", with a flush in the middle of the last code point. -/
def wOps : List Op := [.put 0x61, .put 0xC3, .put 0xA9, .put 0xE2, .put 0x82, .flush, .put 0xAC]

def wEnd : SB := ⟨4, [0xE2, 0x82, 0xAC, 0xE2, 0x82], 3, [[0x61, 0xC3, 0xA9]]⟩

theorem wRun : (SB.init 4 1).run wOps = .ok wEnd := by decide +kernel

theorem wUtf8 : Utf8 (written wOps) := ⟨['a', 'é', '€'], by decide +kernel⟩

example : [[0x61, 0xC3, 0xA9]].flatten ++ [0xE2, 0x82, 0xAC] = written wOps := bytes_preserved 4 1 wOps wEnd wRun

example := flush_keeps_at_most_three 4 1 [.put 0x61, .put 0xC3, .put 0xA9, .put 0xE2, .put 0x82] ⟨4, [0xE2, 0x82, 0xA9, 0xE2, 0x82], 2, [[0x61, 0xC3, 0xA9]]⟩ (by decide +kernel)

example := no_overrun_with_spare_partial 4 1 (by decide) (by decide) wOps

/-- Two bursts of five bytes in a buffer of eight. -/
example := no_overrun_if_flushed_partial 8 (List.replicate 5 (.put 97) ++ [.flush] ++ List.replicate 5 (.put 98)) (by decide)

example := chunks_utf8 4 1 wOps wEnd ⟨[], by simpa using wUtf8⟩ wRun

/-- The last code point is completed only after the flush. -/
example := flush_utf8 4 1 [.put 0x61, .put 0xC3, .put 0xA9, .put 0xE2, .put 0x82] ⟨4, [0xE2, 0x82, 0xA9, 0xE2, 0x82], 2, [[0x61, 0xC3, 0xA9]]⟩
  ⟨[0xAC], ['a', 'é', '€'], by decide +kernel⟩ (by decide +kernel)

/-- "aé" and the first two bytes of "€". -/
example : utf8Remainder (enc ['a', 'é'] ++ [0xE2, 0x82]).reverse = .ok 2 :=
  remainder_exact ['a', 'é'] [0xE2, 0x82] (.inr ⟨'€', ⟨[0xAC], by decide +kernel⟩, by decide +kernel⟩) (by decide +kernel)

example := destroy_delivers 4 1 wOps wEnd wUtf8 wRun

example := destroy_loses_at_most_three 4 1 [.put 0x61, .put 0xC3] ⟨4, [0x61, 0xC3, 0, 0, 0], 2, []⟩ (by decide +kernel)

/-! ## Callbacks that throw -/

def wThrow : List OpT :=
  [.put 97 false, .flush true, .put 98 false, .clear, .put 99 false, .put 100 false, .put 101 false, .put 102 true, .put 103 false, .clear, .flush false]

example : ∃ ss, OS.run ⟨SB.init 4 2, false⟩ wThrow = .ok ss := ⟨_, rfl⟩
example := throw_accepted 4 2 wThrow _ rfl
example := throw_exact 4 2 wThrow _ rfl
/-- Flushes throw, writes do not. -/
example := throw_reported_partial 4 2 [.put 97 false, .flush true, .clear, .put 98 false, .flush false] _ rfl
  (by intro c t h; simp at h; rcases h with h | h <;> exact h.2)
/-- A full buffer without spare bytes. -/
example := throw_overruns ⟨⟨2, [97, 98], 2, []⟩, false⟩ rfl (by decide) (by decide) 99 true
/-- A full buffer with one spare byte. -/
example := throw_moves (s := ⟨⟨4, [97, 98, 99, 100, 0], 4, []⟩, false⟩) rfl (by decide) (by decide) 101 rfl
example := throw_destroy (s := ⟨4, [97, 98, 0, 0], 2, []⟩) (by decide)
example := put_fails_iff (s := ⟨⟨4, [97, 98, 99, 100, 0], 4, []⟩, false⟩) rfl 101 true rfl
example := flush_fails_iff (s := ⟨⟨4, [97, 98, 99, 100, 0], 4, []⟩, false⟩) rfl true rfl

end Guanaqo.Streambuf

namespace Guanaqo.Redirect

/-- Two nested redirections of one stream and one of another. -/
def wNested : List Op := [.ctor 0 0 10, .write 0 1, .ctor 1 1 11, .ctor 2 0 12, .write 0 2, .write 1 3, .dtor 2, .write 0 4, .dtor 1, .dtor 0, .write 0 5]

theorem wNoMove : ∀ op ∈ wNested, ∀ g' g, op ≠ .move g' g := by
  intro op h g' g e
  subst e
  simp [wNested] at h

example := redirect_nested_partial id wNested wNoMove _ _ rfl rfl
example := redirect_restores_partial id wNested wNoMove _ _ rfl rfl rfl
/-- A guard that is moved, and the moved-from variable dies last. -/
example := redirect_right_iff id [.ctor 0 0 10, .move 1 0, .write 0 1, .dtor 1, .dtor 0, .write 0 5] _ _ rfl rfl
/-- A guard that is moved, and the moved-from variable dies first. -/
example := redirect_right_iff id [.ctor 0 0 10, .move 1 0, .dtor 0, .write 0 1] _ _ rfl rfl
/-- Guards that are moved twice, around another redirection. -/
example := redirect_lifo_partial id [.ctor 0 0 10, .move 1 0, .write 0 1, .ctor 2 0 12, .move 3 2, .write 0 2, .dtor 3, .dtor 2, .write 0 3, .dtor 1, .dtor 0, .write 0 5]
  _ _ _ rfl rfl rfl
/-- A guard that is moved out of an inner scope, with another redirection inside. -/
example := redirect_moved_in_scope id [.ctor 0 0 10, .write 0 1] [.write 0 2, .ctor 3 0 13, .write 0 3, .dtor 3, .write 0 4] (by
    intro op h g' g e
    subst e
    simp at h) 1 2 0 12 _ _ _ _ rfl rfl rfl rfl rfl

end Guanaqo.Redirect
