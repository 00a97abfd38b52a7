import Verif.Misc.Timed
import Mathlib.Algebra.Order.Ring.Int
import Mathlib.Tactic.Ring

/-!
# C152: timers on durations of any integer type (timed.hpp:10-24)

The clock's `duration<int64_t, nano>` converts to any `duration<Rep, nano>` with an integer `Rep` (also to finer ones), with a narrowing `static_cast`. The events and what they add up to are those of C64
(`Misc/Timed`), which is about 64-bit signed durations.
-/

namespace Guanaqo.Timed.Narrow

/-! ## Model -/

/-- An integer type. -/
structure Rep where
  bits : Nat
  signed : Bool
  deriving DecidableEq, Repr

namespace Rep

def lo (r : Rep) : Int := if r.signed then -2 ^ (r.bits - 1) else 0

/-- The values of the type: 2^bits of them, from `lo` on. -/
def InRange (r : Rep) (x : Int) : Prop := r.lo ≤ x ∧ x < r.lo + 2 ^ r.bits

instance (r : Rep) (x : Int) : Decidable (r.InRange x) := inferInstanceAs (Decidable (_ ∧ _))

/-- Conversion to the type ([conv.integral]): the value that is congruent modulo 2^bits. -/
def wrap (r : Rep) (x : Int) : Int := (x - r.lo) % 2 ^ r.bits + r.lo

/-- Overflow of the type is undefined: it is signed and not promoted to `int` (of 32 bits). -/
def overflows (r : Rep) : Bool := r.signed && decide (32 ≤ r.bits)

end Rep

/-- The conversion to the accumulator's type, `duration_cast` ([time.duration.cast]): the product with the ratio of the periods is computed in the common type of `Rep` and `int64_t`, which is
`uint64_t` if `Rep` is, otherwise `int64_t`; then `static_cast<Rep>`. -/
def conv (r : Rep) (k now : Int) : Option Int :=
  if r.signed = false ∧ 64 ≤ r.bits then some (r.wrap (k * now)) else (chk (k * now)).map r.wrap

/-- `rep_ += d` and `rep_ -= d`, where the result without overflow is `x`. -/
def arith (r : Rep) (x : Int) : Option Int :=
  if r.overflows then (if r.InRange x then some x else none) else some (r.wrap x)

/-- timed.hpp:13-17. -/
def step (r : Rep) (k : Int) (s : St) : Event → Option St
  | .enter i a now =>
    match s.timer i with
    | some _ => none
    | none =>
      (conv r k now).bind fun d => (arith r (s.acc a - d)).map fun v =>
        { acc := upd s.acc a v, timer := upd s.timer i (some a) }
  | .leave i now =>
    match s.timer i with
    | none => none
    | some a =>
      (conv r k now).bind fun d => (arith r (s.acc a + d)).map fun v =>
        { acc := upd s.acc a v, timer := upd s.timer i none }

def run (r : Rep) (k : Int) : St → List Event → Option St
  | s, [] => some s
  | s, e :: es => (step r k s e).bind fun s' => run r k s' es

/-! ## Specification -/

/-- C152, full statement, for a type: for all scopes that are entered and left, at readings that the clock can have, with totals that the type can hold, the accumulators grow by the totals. -/
def KeepsTime (r : Rep) : Prop :=
  ∀ (k : Int) (acc : Nat → Int) (es : List Event), WellFormed [] es → finalOpen [] es = [] → (∀ e ∈ es, fits (k * e.now) = true) →
    (∀ a, r.InRange (acc a)) → (∀ a, r.InRange (acc a + k * total a [] es)) → ∃ s, run r k (start acc) es = some s ∧ ∀ a, s.acc a = acc a + k * total a [] es

/-! ## Proofs -/

theorem wrap_dvd (r : Rep) (x : Int) : (2 ^ r.bits : Int) ∣ r.wrap x - x := by
  have := Int.emod_add_mul_ediv (x - r.lo) (2 ^ r.bits)
  refine ⟨-((x - r.lo) / 2 ^ r.bits), ?_⟩
  simp only [Rep.wrap, Int.mul_neg]
  omega

theorem wrap_inRange (r : Rep) (x : Int) : r.InRange (r.wrap x) := by
  have hp : (0 : Int) < 2 ^ r.bits := Int.pow_pos (by decide)
  have h1 := Int.emod_nonneg (x - r.lo) (Int.ne_of_gt hp)
  have h2 := Int.emod_lt_of_pos (x - r.lo) hp
  simp only [Rep.InRange, Rep.wrap]
  omega

/-- Values of the type that are congruent are equal. -/
theorem eq_of_dvd (r : Rep) {x y : Int} (hx : r.InRange x) (hy : r.InRange y) (h : (2 ^ r.bits : Int) ∣ x - y) : x = y := by
  obtain ⟨c, hc⟩ := h
  obtain ⟨h1, h2⟩ := hx
  obtain ⟨h3, h4⟩ := hy
  have hp : (0 : Int) < 2 ^ r.bits := Int.pow_pos (by decide)
  have : c = 0 := by
    by_contra hne
    rcases Int.lt_or_gt_of_ne hne with hlt | hgt
    · have : (2 ^ r.bits : Int) * c ≤ 2 ^ r.bits * (-1) := Int.mul_le_mul_of_nonneg_left (by omega) (by omega)
      omega
    · have : (2 ^ r.bits : Int) * 1 ≤ 2 ^ r.bits * c := Int.mul_le_mul_of_nonneg_left (by omega) (by omega)
      omega
  subst this
  omega

theorem conv_spec {r : Rep} {k t d : Int} (h : conv r k t = some d) : (2 ^ r.bits : Int) ∣ d - k * t := by
  unfold conv at h
  split at h
  · cases h; exact wrap_dvd r _
  · cases hc : chk (k * t) with
    | none => rw [hc] at h; cases h
    | some v =>
      rw [hc] at h; cases h
      rw [chk_eq hc]
      exact wrap_dvd r _

theorem arith_spec {r : Rep} {x v : Int} (h : arith r x = some v) : (2 ^ r.bits : Int) ∣ v - x ∧ r.InRange v := by
  unfold arith at h
  split at h
  · split at h
    · cases h; exact ⟨⟨0, by omega⟩, by assumption⟩
    · cases h
  · cases h; exact ⟨wrap_dvd r x, wrap_inRange r x⟩

/-- The accumulators at every moment, modulo 2^bits. -/
theorem run_total (r : Rep) (k : Int) (es : List Event) : ∀ {s s' : St} {o : Open}, Rel s o → (∀ a, r.InRange (s.acc a)) →
    run r k s es = some s' → Rel s' (finalOpen o es) ∧ (∀ a, r.InRange (s'.acc a)) ∧
      ∀ a, (2 ^ r.bits : Int) ∣ s'.acc a + k * startSum a (finalOpen o es) - (s.acc a + k * startSum a o + k * total a o es) := by
  induction es with
  | nil =>
    intro s s' o hr hin h
    cases h
    exact ⟨hr, hin, fun a => ⟨0, by simp [finalOpen, total]⟩⟩
  | cons e es ih =>
    intro s s' o hr hin h
    unfold run at h
    cases hst : step r k s e with
    | none => rw [hst] at h; cases h
    | some s₁ =>
      rw [hst] at h
      dsimp only [Option.bind] at h
      cases e with
      | enter i b t =>
        simp only [step] at hst
        split at hst
        · cases hst
        · rename_i hi
          cases hd : conv r k t with
          | none => rw [hd] at hst; cases hst
          | some d =>
            rw [hd] at hst
            dsimp only [Option.bind] at hst
            cases hv : arith r (s.acc b - d) with
            | none => rw [hv] at hst; cases hst
            | some v =>
              rw [hv] at hst; cases hst
              obtain ⟨hv1, hv2⟩ := arith_spec hv
              have hd1 := conv_spec hd
              obtain ⟨h1, h1', h2⟩ := ih (rel_enter hr i b t _ hi) (fun a => by
                simp only [upd]; split
                · exact hv2
                · exact hin a) h
              refine ⟨h1, h1', fun a => ?_⟩
              have h3 := h2 a
              simp only [finalOpen, total]
              simp only [startSum, upd] at h3
              by_cases hab : b = a
              · subst hab
                simp only [if_true] at h3
                have := Int.dvd_add (Int.dvd_sub h3 (Int.dvd_neg.2 hv1)) (Int.dvd_neg.2 hd1)
                convert this using 1
                ring
              · rw [if_neg hab, if_neg (Ne.symm hab)] at h3
                simpa using h3
      | leave i t =>
        simp only [step] at hst
        split at hst
        · cases hst
        · rename_i b hi
          cases hd : conv r k t with
          | none => rw [hd] at hst; cases hst
          | some d =>
            rw [hd] at hst
            dsimp only [Option.bind] at hst
            cases hv : arith r (s.acc b + d) with
            | none => rw [hv] at hst; cases hst
            | some v =>
              rw [hv] at hst; cases hst
              obtain ⟨hv1, hv2⟩ := arith_spec hv
              have hd1 := conv_spec hd
              obtain ⟨h1, h1', h2⟩ := ih (rel_leave hr i _) (fun a => by
                simp only [upd]; split
                · exact hv2
                · exact hin a) h
              refine ⟨h1, h1', fun a => ?_⟩
              have h3 := h2 a
              have hf : ∃ t₀, find o i = some (b, t₀) := by
                have := hr.timers i
                rw [hi] at this
                cases hf : find o i with
                | none => rw [hf] at this; cases this
                | some x =>
                  obtain ⟨b', t₀⟩ := x
                  rw [hf] at this; cases this
                  exact ⟨t₀, rfl⟩
              obtain ⟨t₀, hf⟩ := hf
              simp only [finalOpen, total, hf]
              rw [startSum_filter hr.nodup hf] at h3
              simp only [upd] at h3
              by_cases hab : b = a
              · subst hab
                simp only [if_true] at h3 ⊢
                have := Int.dvd_add (Int.dvd_add h3 hv1) hd1
                convert this using 1
                ring
              · rw [if_neg hab, if_neg (Ne.symm hab)] at h3
                rw [if_neg hab]
                simpa using h3

/-- Types without undefined overflow: the program is defined. -/
theorem run_defined (r : Rep) (hr : r.overflows = false) (k : Int) (es : List Event) : ∀ {s : St} {o : Open}, Rel s o → WellFormed o es → (∀ e ∈ es, fits (k * e.now) = true) →
    ∃ s', run r k s es = some s' := by
  have hconv : ∀ t, fits (k * t) = true → ∃ d, conv r k t = some d := by
    intro t ht
    unfold conv chk
    rw [if_pos ht]
    split <;> exact ⟨_, rfl⟩
  have harith : ∀ x, arith r x = some (r.wrap x) := fun x => by simp [arith, hr]
  induction es with
  | nil => intro s o _ _ _; exact ⟨s, rfl⟩
  | cons e es ih =>
    intro s o hrel hw hfit
    obtain ⟨d, hd⟩ := hconv e.now (hfit e (by simp))
    cases e with
    | enter i b t =>
      obtain ⟨h1, h2⟩ := hw
      have hi : s.timer i = none := by rw [hrel.timers i, h1]; rfl
      obtain ⟨s', hs'⟩ := ih (rel_enter hrel i b t (upd s.acc b (r.wrap (s.acc b - d))) hi) h2 fun e he => hfit e (by simp [he])
      refine ⟨s', ?_⟩
      simp only [Event.now] at hd
      simp only [run, step, hi, hd, harith, Option.bind, Option.map]
      exact hs'
    | leave i t =>
      obtain ⟨h1, h2⟩ := hw
      have hi : ∃ b, s.timer i = some b := by
        rw [hrel.timers i]
        cases hf : find o i with
        | none => exact absurd hf h1
        | some x => exact ⟨x.1, rfl⟩
      obtain ⟨b, hi⟩ := hi
      obtain ⟨s', hs'⟩ := ih (rel_leave hrel i (upd s.acc b (r.wrap (s.acc b + d)))) h2 fun e he => hfit e (by simp [he])
      refine ⟨s', ?_⟩
      simp only [Event.now] at hd
      simp only [run, step, hi, hd, harith, Option.bind, Option.map]
      exact hs'

theorem rel_start (acc : Nat → Int) : Rel (start acc) [] := ⟨fun _ => rfl, by simp⟩

/-- C152, for all integer types: if nothing overflows, then after the scopes were left the accumulators have grown by the totals, modulo 2^bits (and exactly, if the type can hold the result). -/
theorem narrow_accumulates_partial (r : Rep) (k : Int) (acc : Nat → Int) (es : List Event) (s : St) (hacc : ∀ a, r.InRange (acc a)) (h : run r k (start acc) es = some s)
    (hclosed : finalOpen [] es = []) (a : Nat) :
    s.acc a = r.wrap (acc a + k * total a [] es) ∧ (r.InRange (acc a + k * total a [] es) → s.acc a = acc a + k * total a [] es) := by
  obtain ⟨-, h1, h2⟩ := run_total r k es (rel_start acc) hacc h
  have h3 := h2 a
  rw [hclosed] at h3
  simp only [startSum, Int.mul_zero, Int.add_zero, start] at h3
  refine ⟨eq_of_dvd r (h1 a) (wrap_inRange r _) ?_, fun hin => eq_of_dvd r (h1 a) hin h3⟩
  have := Int.dvd_sub h3 (wrap_dvd r (acc a + k * total a [] es))
  convert this using 1
  ring

/-- C152 for unsigned types and those smaller than `int`: always right, though the clock's readings do not fit and the accumulators wrap around while scopes are open. -/
theorem modular_types (r : Rep) (hr : r.signed = false ∨ r.bits < 32) : KeepsTime r := by
  intro k acc es hw hc hf hacc hin
  have ho : r.overflows = false := by
    rcases hr with hr | hr <;> simp [Rep.overflows, hr]
  obtain ⟨s, hs⟩ := run_defined r ho k es (rel_start acc) hw hf
  exact ⟨s, hs, fun a => (narrow_accumulates_partial r k acc es s hacc hs hc a).2 (hin a)⟩

/-- C152, exactly: overflow of `int` and the larger signed types is undefined, so that an accumulator at the lower end of the type cannot be used at all. -/
theorem keepsTime_iff (r : Rep) : KeepsTime r ↔ r.signed = false ∨ r.bits < 32 := by
  refine ⟨fun h => ?_, modular_types r⟩
  by_contra hne
  rw [not_or] at hne
  have hs : r.signed = true := by simpa using hne.1
  have hb : 32 ≤ r.bits := by omega
  have hpow : (2 : Int) ^ r.bits = 2 * 2 ^ (r.bits - 1) := by
    conv_lhs => rw [show r.bits = (r.bits - 1) + 1 by omega, Int.pow_succ]
    omega
  have hge : (2 ^ 31 : Int) ≤ 2 ^ (r.bits - 1) := by
    exact_mod_cast Nat.pow_le_pow_right (by decide : 0 < 2) (by omega : 31 ≤ r.bits - 1)
  have hlo : r.lo = -2 ^ (r.bits - 1) := by simp [Rep.lo, hs]
  have hw1 : r.wrap 1 = 1 := eq_of_dvd r (wrap_inRange r 1) (by simp only [Rep.InRange, hlo]; omega) (wrap_dvd r 1)
  obtain ⟨s, h1, -⟩ := h 1 (fun _ => r.lo) [.enter 0 0 1, .leave 0 2] (by simp [WellFormed, find]) rfl
    (by intro e he; simp at he; rcases he with rfl | rfl <;> decide)
    (fun a => by simp only [Rep.InRange]; omega) (fun a => by
      simp only [total, find, if_true, Rep.InRange]
      split <;> omega)
  have hc : conv r 1 1 = some 1 := by
    simp only [conv, hs]
    rw [if_neg (by simp), show chk (1 * 1) = some 1 by decide, Option.map_some, hw1]
  have ha : arith r (r.lo - 1) = none := by
    simp only [arith, Rep.overflows, hs, hb, Bool.true_and, decide_true, if_true]
    rw [if_neg (by simp only [Rep.InRange]; omega)]
  have hstep : step r 1 (start fun _ => r.lo) (.enter 0 0 1) = none := by
    simp only [step, start, hc, Option.bind_some, ha, Option.map_none]
  simp only [run, hstep, Option.bind_none] at h1
  cases h1

/-- Not only there: with `duration<int32_t, nano>` and an accumulator of zero, a scope of one nanosecond is undefined if 2^31 ns of the clock pass within it. -/
theorem int32_undefined : run ⟨32, true⟩ 1 (start fun _ => 0) [.enter 0 0 (2 ^ 31 - 1), .leave 0 (2 ^ 31)] = none := by decide

/-! ## Non-vacuity -/

/-- An unsigned accumulator of 16 bits, at readings that it cannot hold. -/
example : (run ⟨16, false⟩ 1 (start fun _ => 7) [.enter 0 0 (2 ^ 40 + 65530), .enter 1 0 (2 ^ 40 + 65535), .leave 0 (2 ^ 40 + 65537), .leave 1 (2 ^ 40 + 65540)]).map (·.acc 0) = some 19 := by decide
example : total 0 [] [.enter 0 0 (2 ^ 40 + 65530), .enter 1 0 (2 ^ 40 + 65535), .leave 0 (2 ^ 40 + 65537), .leave 1 (2 ^ 40 + 65540)] = 12 := by decide
example : WellFormed [] [.enter 0 0 5, .enter 1 0 6, .leave 0 7, .leave 1 8] := by simp [WellFormed, find]

end Guanaqo.Timed.Narrow
