import Verif.Weak.Stop
import Verif.Weak.TraceExamples

/-! # Concrete cases of the theorems of C124 and C125

Each example applies a theorem to concrete data, so that all its hypotheses are met. -/

namespace Guanaqo.Weak.Stop

example : ∃ x : Exec (Fin 4) Loc Nat, ∃ w, x.act w = stop 0 ∧ ¬ Program x 2 w := by
  obtain ⟨x, hu, hc, -, -, -, hq, -⟩ := stop_data_race
  exact ⟨x, (stop_passes_flag_partial hu hc 2 0 true hq).1 rfl⟩

example := stop_orders_nothing (message_uses 0)
/-- The data race, from the theorem. -/
example : ¬ (message 0).RaceFree := by
  intro h
  rcases (stop_raceFree_iff (message_uses 0)).1 h 0 3 (by decide) 0 42 rfl rfl with h | h <;>
    exact absurd ((message_program 0 _ _).1 h) (by decide)

/-- The same with an acquiring load. -/
def acquiring : Exec (Fin 4) Loc Nat := { message 42 with act := fun e => if e = 2 then .load .acquire (.flag 0) 1 else (message 42).act e }

example : acquiring.hb 0 3 := acquire_would_pass acquiring 0 1 2 3 0 1 (.inl ⟨rfl, rfl⟩) rfl rfl rfl (.inr ⟨rfl, rfl⟩)

end Guanaqo.Weak.Stop

namespace Guanaqo.Weak.Trace

theorem joined_quiet : joined.QuietReset := NoReset.quiet joined_noReset

theorem joined_nothing_reset (c d : Fin 4) : ¬ joined.resetAfter c d := by
  rintro ⟨x, hx, -⟩
  exact joined_noReset x hx

theorem joined_ord (d : Fin 4) (h : joined.isTrace d) : joined.ord d 3 ∨ joined.ord 3 d := by
  refine .inl (.inr ⟨?_, rfl⟩)
  rintro rfl
  obtain ⟨_, h⟩ := h
  cases h

example := events_distinct joined_valid joined_executes (by decide) joined_quiet 0 1 ⟨_, rfl⟩ ⟨_, rfl⟩ (by decide) (joined_nothing_reset _ _)
  (joined_nothing_reset _ _)
example := raceFree_iff joined_valid joined_executes
example := reading_raceFree_iff joined_valid joined_executes (by decide) joined_noReset
example := get_logs_bounds joined_valid joined_executes (by decide) joined_quiet 3 rfl
example := get_logs_exact joined_valid joined_executes (by decide) joined_quiet 3 rfl joined_ord
example := record_event joined_valid joined_executes (by decide) joined_quiet 3 rfl 1 (by decide)
example := record_fields joined_valid joined_executes (by decide) joined_quiet 3 0 (fun _ => 7) rfl rfl (by decide) (.inr ⟨by decide, rfl⟩)
  (joined_nothing_reset _ _) .name (by decide)
example := record_duration joined_valid joined_executes (by decide) joined_quiet 3 0 2 5 rfl rfl (by decide) (.inr ⟨by decide, rfl⟩)
  (joined_nothing_reset _ _)
/-- The second event has not been ended. -/
example : joined.seen 3 (joined.old 1) .dur = 0 :=
  record_open joined_valid joined_executes (by decide) joined_noReset 3 1 rfl ⟨_, rfl⟩ (by decide) fun _ h => absurd (joined_closes h).2 (by decide)

end Guanaqo.Weak.Trace
