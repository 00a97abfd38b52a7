import Verif.Misc.Timed

/-!
# C153: timed calls (timed.hpp:10-35)

`timed(time, func, args...)` in programs whose functions take time, throw, catch and call `timed` again, also for the same accumulator. The accumulators are those of C64 (64-bit signed nanoseconds).
-/

namespace Guanaqo.Timed.Call

/-! ## Model -/

/-- What a function does. -/
inductive Prog where
  /-- `d` nanoseconds pass -/
  | work (d : Nat)
  | ret (v : Int)
  | throw (e : Nat)
  /-- the value of the first is discarded -/
  | seq (p q : Prog)
  /-- `try { p } catch (...) { q }` -/
  | tryCatch (p q : Prog)
  /-- `timed(acc, p)` -/
  | timed (acc : Nat) (p : Prog)
  deriving DecidableEq, Repr

structure St where
  acc : Nat → Int
  now : Nat

/-- Returning a value or throwing. -/
abbrev Res := Except Nat Int

/-- timed.hpp:13-15, `time -= now` (conversion and subtraction). -/
def minus (v now : Int) : Option Int := (chk now).bind fun d => chk (v - d)

/-- timed.hpp:16, `time += now`. -/
def plus (v now : Int) : Option Int := (chk now).bind fun d => chk (v + d)

/-- `none` is undefined behaviour (overflow of an accumulator). -/
def exec : Prog → St → Option (Res × St)
  | .work d, s => some (.ok 0, { s with now := s.now + d })
  | .ret v, s => some (.ok v, s)
  | .throw e, s => some (.error e, s)
  | .seq p q, s => (exec p s).bind fun x =>
    match x.1 with
    | .error e => some (.error e, x.2)
    | .ok _ => exec q x.2
  | .tryCatch p q, s => (exec p s).bind fun x =>
    match x.1 with
    | .error _ => exec q x.2
    | .ok v => some (.ok v, x.2)
  | .timed a p, s =>
    (minus (s.acc a) s.now).bind fun v =>                                                       -- line 32 (13-15): `Timed timer{time}`
    (exec p { s with acc := upd s.acc a v }).bind fun x =>                                      -- line 33
    (plus (x.2.acc a) x.2.now).map fun v => (x.1, { x.2 with acc := upd x.2.acc a v })          -- line 16: `~Timed()`, when returning and when an exception leaves

/-! ## Specification: the program without timers -/

/-- Its result, and how long it takes. -/
def plain : Prog → Res × Nat
  | .work d => (.ok 0, d)
  | .ret v => (.ok v, 0)
  | .throw e => (.error e, 0)
  | .seq p q =>
    match plain p with
    | (.error e, t) => (.error e, t)
    | (.ok _, t) => ((plain q).1, t + (plain q).2)
  | .tryCatch p q =>
    match plain p with
    | (.error _, t) => ((plain q).1, t + (plain q).2)
    | (.ok v, t) => (.ok v, t)
  | .timed _ p => plain p

/-- The durations of the calls that are timed with the accumulator `a`, added up. -/
def durations (a : Nat) : Prog → Nat
  | .work _ | .ret _ | .throw _ => 0
  | .seq p q => durations a p + if (plain p).1.isOk then durations a q else 0
  | .tryCatch p q => durations a p + if (plain p).1.isOk then 0 else durations a q
  | .timed b p => durations a p + if b = a then (plain p).2 else 0

/-- How many calls that are timed with the accumulator `a` are open at a time. -/
def depth (a : Nat) : Prog → Nat
  | .work _ | .ret _ | .throw _ => 0
  | .seq p q | .tryCatch p q => max (depth a p) (depth a q)
  | .timed b p => depth a p + if b = a then 1 else 0

/-! ## Proofs -/

/-- C153: returns, exceptions and times are those of the program without timers, and every accumulator grows by the durations of its calls, returned or thrown. -/
theorem timed_call (p : Prog) : ∀ (s s' : St) (r : Res), exec p s = some (r, s') →
    r = (plain p).1 ∧ s'.now = s.now + (plain p).2 ∧ ∀ a, s'.acc a = s.acc a + durations a p := by
  induction p with
  | work d => intro s s' r h; cases h; exact ⟨rfl, rfl, fun a => by simp [durations]⟩
  | ret v => intro s s' r h; cases h; exact ⟨rfl, rfl, fun a => by simp [durations]⟩
  | throw e => intro s s' r h; cases h; exact ⟨rfl, rfl, fun a => by simp [durations]⟩
  | seq p q ihp ihq =>
    intro s s' r h
    simp only [exec] at h
    cases hp : exec p s with
    | none => rw [hp] at h; simp at h
    | some x =>
      obtain ⟨rp, s₁⟩ := x
      rw [hp, Option.bind_some] at h
      obtain ⟨h1, h2, h3⟩ := ihp s s₁ rp hp
      cases hq : plain p with
      | mk rq t =>
        rw [hq] at h1 h2
        dsimp only at h1 h2
        subst h1
        cases rp with
        | error e =>
          cases h
          refine ⟨by simp [plain, hq], by simp [plain, hq, h2], fun a => ?_⟩
          simp [durations, hq, h3 a, Except.isOk, Except.toBool]
        | ok v =>
          obtain ⟨g1, g2, g3⟩ := ihq s₁ s' r h
          refine ⟨by simp [plain, hq, g1], by simp only [plain, hq]; omega, fun a => ?_⟩
          simp only [durations, hq, g3 a, h3 a, Except.isOk, Except.toBool, if_true]
          omega
  | tryCatch p q ihp ihq =>
    intro s s' r h
    simp only [exec] at h
    cases hp : exec p s with
    | none => rw [hp] at h; simp at h
    | some x =>
      obtain ⟨rp, s₁⟩ := x
      rw [hp, Option.bind_some] at h
      obtain ⟨h1, h2, h3⟩ := ihp s s₁ rp hp
      cases hq : plain p with
      | mk rq t =>
        rw [hq] at h1 h2
        dsimp only at h1 h2
        subst h1
        cases rp with
        | ok v =>
          cases h
          refine ⟨by simp [plain, hq], by simp [plain, hq, h2], fun a => ?_⟩
          simp [durations, hq, h3 a, Except.isOk, Except.toBool]
        | error v =>
          obtain ⟨g1, g2, g3⟩ := ihq s₁ s' r h
          refine ⟨by simp [plain, hq, g1], by simp only [plain, hq]; omega, fun a => ?_⟩
          simp only [durations, hq, g3 a, h3 a, Except.isOk, Except.toBool, Bool.false_eq_true, if_false]
          omega
  | timed b p ih =>
    intro s s' r h
    simp only [exec] at h
    cases hv : minus (s.acc b) s.now with
    | none => rw [hv] at h; cases h
    | some v =>
      rw [hv, Option.bind_some] at h
      cases hp : exec p { s with acc := upd s.acc b v } with
      | none => rw [hp] at h; simp at h
      | some x =>
        obtain ⟨rp, s₁⟩ := x
        rw [hp, Option.bind_some] at h
        obtain ⟨h1, h2, h3⟩ := ih _ s₁ rp hp
        dsimp only at h2 h3
        cases hw : plus (s₁.acc b) s₁.now with
        | none => rw [hw] at h; cases h
        | some w =>
          rw [hw] at h; cases h
          simp only [minus, plus] at hv hw
          have e1 : v = s.acc b - s.now := by
            cases hc : chk (s.now : Int) with
            | none => rw [hc] at hv; cases hv
            | some d => rw [hc] at hv; rw [chk_eq (v := v) hv, chk_eq hc]
          have e2 : w = s₁.acc b + s₁.now := by
            cases hc : chk (s₁.now : Int) with
            | none => rw [hc] at hw; cases hw
            | some d => rw [hc] at hw; rw [chk_eq (v := w) hw, chk_eq hc]
          refine ⟨h1, h2, fun a => ?_⟩
          have h4 := h3 a
          simp only [upd] at h4 ⊢
          simp only [durations]
          by_cases hab : a = b
          · subst hab
            rw [if_pos rfl] at h4 ⊢
            rw [if_pos rfl, e2, h4, e1, h2]
            omega
          · rw [if_neg hab] at h4 ⊢
            rw [if_neg (Ne.symm hab), h4]
            omega

theorem hchk (x : Int) (h1 : -2 ^ 63 ≤ x) (h2 : x < 2 ^ 63) : chk x = some x := by
  unfold chk fits; rw [if_pos]; simp; omega

/-- C153: no overflow happens as long as the clock's readings (up to `T`, for every timed call that is open) and the durations fit. -/
theorem timed_call_defined (T : Nat) (hT : (T : Int) < 2 ^ 63) (p : Prog) : ∀ (s : St), s.now + (plain p).2 ≤ T →
    (∀ a, -2 ^ 63 ≤ s.acc a - depth a p * T) → (∀ a, s.acc a + durations a p < 2 ^ 63) → ∃ r s', exec p s = some (r, s') := by
  induction p with
  | work d => intro s _ _ _; exact ⟨_, _, rfl⟩
  | ret v => intro s _ _ _; exact ⟨_, _, rfl⟩
  | throw e => intro s _ _ _; exact ⟨_, _, rfl⟩
  | seq p q ihp ihq =>
    intro s hn hl hh
    have hpt : (plain p).2 ≤ (plain (.seq p q)).2 := by
      simp only [plain]; split <;> rename_i h <;> simp [h]
    have hdp : ∀ a, (depth a p : Int) * T ≤ depth a (.seq p q) * T := fun a =>
      Int.mul_le_mul_of_nonneg_right (by simp only [depth]; omega) (by omega)
    have hdq : ∀ a, (depth a q : Int) * T ≤ depth a (.seq p q) * T := fun a =>
      Int.mul_le_mul_of_nonneg_right (by simp only [depth]; omega) (by omega)
    obtain ⟨r, s₁, h1⟩ := ihp s (by omega) (fun a => by have := hl a; have := hdp a; omega) (fun a => by have := hh a; simp only [durations] at this; omega)
    obtain ⟨g1, g2, g3⟩ := timed_call p s s₁ r h1
    simp only [exec, h1, Option.bind_some]
    cases r with
    | error e => exact ⟨_, _, rfl⟩
    | ok v =>
      dsimp only
      have hok : (plain p).1.isOk = true := by rw [← g1]; rfl
      have hpl : (plain (.seq p q)).2 = (plain p).2 + (plain q).2 := by
        simp only [plain]
        cases hx : plain p with
        | mk x t =>
          rw [hx] at g1; dsimp only at g1; subst g1; rfl
      refine ihq s₁ (by omega) (fun a => ?_) (fun a => ?_)
      · have h2 := hl a; have h3 := hdq a; have h4 := g3 a; omega
      · have h2 := hh a; have h4 := g3 a
        simp only [durations, hok, if_true] at h2
        omega
  | tryCatch p q ihp ihq =>
    intro s hn hl hh
    have hpt : (plain p).2 ≤ (plain (.tryCatch p q)).2 := by
      simp only [plain]; split <;> rename_i h <;> simp [h]
    have hdp : ∀ a, (depth a p : Int) * T ≤ depth a (.tryCatch p q) * T := fun a =>
      Int.mul_le_mul_of_nonneg_right (by simp only [depth]; omega) (by omega)
    have hdq : ∀ a, (depth a q : Int) * T ≤ depth a (.tryCatch p q) * T := fun a =>
      Int.mul_le_mul_of_nonneg_right (by simp only [depth]; omega) (by omega)
    obtain ⟨r, s₁, h1⟩ := ihp s (by omega) (fun a => by have := hl a; have := hdp a; omega) (fun a => by have := hh a; simp only [durations] at this; omega)
    obtain ⟨g1, g2, g3⟩ := timed_call p s s₁ r h1
    simp only [exec, h1, Option.bind_some]
    cases r with
    | ok e => exact ⟨_, _, rfl⟩
    | error v =>
      dsimp only
      have hok : (plain p).1.isOk = false := by rw [← g1]; rfl
      have hpl : (plain (.tryCatch p q)).2 = (plain p).2 + (plain q).2 := by
        simp only [plain]
        cases hx : plain p with
        | mk x t =>
          rw [hx] at g1; dsimp only at g1; subst g1; rfl
      refine ihq s₁ (by omega) (fun a => ?_) (fun a => ?_)
      · have h2 := hl a; have h3 := hdq a; have h4 := g3 a; omega
      · have h2 := hh a; have h4 := g3 a
        simp only [durations, hok, Bool.false_eq_true, if_false] at h2
        omega
  | timed b p ih =>
    intro s hn hl hh
    simp only [plain] at hn
    obtain ⟨x, hx⟩ : ∃ x : Int, x = 2 ^ 63 := ⟨_, rfl⟩
    have hchk : ∀ y : Int, -x ≤ y → y < x → chk y = some y := by subst hx; exact hchk
    rw [← hx] at hT
    have hl' : ∀ a, -x ≤ s.acc a - depth a (.timed b p) * T := by subst hx; exact hl
    have hh' : ∀ a, s.acc a + durations a (.timed b p) < x := by subst hx; exact hh
    have ih' : ∀ (s : St), s.now + (plain p).2 ≤ T → (∀ a, -x ≤ s.acc a - depth a p * T) → (∀ a, s.acc a + durations a p < x) → ∃ r s', exec p s = some (r, s') := by
      subst hx; exact ih
    clear hl hh ih hx
    have hnow := hchk (s.now : Int) (by omega) (by omega)
    have hlb := hl' b
    have hhb := hh' b
    simp only [depth, durations, if_true] at hlb hhb
    have hmul : ((depth b p + 1 : Nat) : Int) * T = depth b p * T + T := by rw [Int.natCast_add, Int.add_mul]; simp
    rw [hmul] at hlb
    have hnn : 0 ≤ (depth b p : Int) * T := Int.mul_nonneg (by omega) (by omega)
    have hv := hchk (s.acc b - s.now) (by omega) (by omega)
    have hm : minus (s.acc b) s.now = some (s.acc b - s.now) := by rw [minus, hnow, Option.bind_some, hv]
    obtain ⟨r, s₁, h1⟩ := ih' { s with acc := upd s.acc b (s.acc b - s.now) } hn (fun a => by
        simp only [upd]
        split
        · rename_i hab; subst hab; omega
        · rename_i hab
          have := hl' a
          simp only [depth, if_neg (Ne.symm hab), Nat.add_zero] at this
          exact this) (fun a => by
        have h2 := hh' a
        simp only [durations] at h2
        simp only [upd]
        split
        · rename_i hab; subst hab; omega
        · omega)
    obtain ⟨-, g2, g3⟩ := timed_call p _ s₁ r h1
    have h4 := g3 b
    simp only [upd, if_true] at h4
    dsimp only at g2
    have hnow₁ := hchk (s₁.now : Int) (by omega) (by omega)
    have hw := hchk (s₁.acc b + s₁.now) (by omega) (by omega)
    have hm₁ : plus (s₁.acc b) s₁.now = some (s₁.acc b + s₁.now) := by rw [plus, hnow₁, Option.bind_some, hw]
    refine ⟨r, { s₁ with acc := upd s₁.acc b (s₁.acc b + s₁.now) }, ?_⟩
    rw [exec, hm, Option.bind_some, h1, Option.bind_some, hm₁, Option.map_some]

/-! ## Non-vacuity -/

/-- A recursive call that is timed twice and throws. -/
def prog : Prog := .tryCatch (.timed 0 (.seq (.work 5) (.timed 0 (.seq (.work 2) (.throw 1))))) (.timed 1 (.seq (.work 3) (.ret 4)))

example : (exec prog ⟨fun _ => 100, 1000⟩).map (fun x => (x.2.acc 0, x.2.acc 1, x.2.now)) = some (109, 103, 1010) := by decide
example : plain prog = (.ok 4, 10) ∧ durations 0 prog = 9 ∧ durations 1 prog = 3 ∧ depth 0 prog = 2 := ⟨rfl, by decide, by decide, by decide⟩

end Guanaqo.Timed.Call
