import Verif.Base

/-!
# `timed.hpp` and `timed-cpu.hpp`/`timed-cpu.cpp` (C64, C83)

An accumulator of `std::chrono::duration<Rep, Period>` with a 64-bit signed `Rep` and a period of which
the clock's nanosecond is `k` times (only such durations accept the clock's without a cast). Overflow
of the accumulator is undefined behaviour (`none`).

Clock readings are given with the events; the theorems hold whatever they are. Simplification: events
on one accumulator do not race (the accumulator is a plain variable).
-/

namespace Guanaqo.Timed

/-- Signed 64-bit results. -/
def fits (x : Int) : Bool := decide (-2 ^ 63 ≤ x ∧ x < 2 ^ 63)

def chk (x : Int) : Option Int := if fits x then some x else none

/-- What happens: a timer (named by a number) is constructed on an accumulator, or destroyed, with the
clock reading of that moment. -/
inductive Event where
  | enter (scope acc : Nat) (now : Int)
  | leave (scope : Nat) (now : Int)
  deriving DecidableEq, Repr

/-- The accumulators, and for each living timer the accumulator it refers to. -/
structure St where
  acc : Nat → Int
  timer : Nat → Option Nat

def upd {α : Type} (f : Nat → α) (i : Nat) (v : α) : Nat → α := fun k => if k = i then v else f k

/-- timed.hpp:13-16, `Timed(duration &)`, and 17, `~Timed()`. The first check is the conversion of the
clock's duration, the second the addition. `none` as well if the timers are misused (constructed
twice, or destroyed when not alive). -/
def step (k : Int) (s : St) : Event → Option St
  | .enter i a now =>
    match s.timer i with
    | some _ => none
    | none =>
      (chk (k * now)).bind fun d => (chk (s.acc a - d)).map fun v =>
        { acc := upd s.acc a v, timer := upd s.timer i (some a) }
  | .leave i now =>
    match s.timer i with
    | none => none
    | some a =>
      (chk (k * now)).bind fun d => (chk (s.acc a + d)).map fun v =>
        { acc := upd s.acc a v, timer := upd s.timer i none }

def run (k : Int) : St → List Event → Option St
  | s, [] => some s
  | s, e :: es => (step k s e).bind fun s' => run k s' es

/-! ## Specification: each scope contributes the time between its two events -/

/-- Scopes that are open: scope, accumulator, start. -/
abbrev Open := List (Nat × Nat × Int)

/-- The accumulator and the start of an open scope. -/
def find (o : Open) (i : Nat) : Option (Nat × Int) :=
  match o with
  | [] => none
  | (j, a, t) :: o => if j = i then some (a, t) else find o i

/-- The durations of the scopes that close in a history, for one accumulator. -/
def total (a : Nat) : Open → List Event → Int
  | _, [] => 0
  | o, .enter i b t :: es => total a ((i, b, t) :: o) es
  | o, .leave i t :: es =>
    match find o i with
    | some (b, t₀) => (if b = a then t - t₀ else 0) + total a (o.filter (fun x => x.1 ≠ i)) es
    | none => total a o es

/-- The scopes still open at the end. -/
def finalOpen : Open → List Event → Open
  | o, [] => o
  | o, .enter i b t :: es => finalOpen ((i, b, t) :: o) es
  | o, .leave i _ :: es => finalOpen (o.filter (fun x => x.1 ≠ i)) es

/-- Sum of the starts of the open scopes of one accumulator. -/
def startSum (a : Nat) : Open → Int
  | [] => 0
  | (_, b, t) :: o => (if b = a then t else 0) + startSum a o

/-- The open scopes are the living timers. -/
structure Rel (s : St) (o : Open) : Prop where
  timers : ∀ i, s.timer i = (find o i).map (·.1)
  nodup : (o.map (·.1)).Nodup

theorem chk_eq {x v : Int} (h : chk x = some v) : v = x := by
  unfold chk at h
  split at h <;> cases h
  rfl

theorem find_none {o : Open} {i : Nat} : find o i = none ↔ i ∉ o.map (·.1) := by
  induction o with
  | nil => simp [find]
  | cons x o ih =>
    obtain ⟨j, a, t⟩ := x
    simp only [find, List.map_cons, List.mem_cons, not_or]
    by_cases hj : j = i
    · simp [hj]
    · rw [if_neg hj, ih]; simp [Ne.symm hj]

theorem filter_not_mem {o : Open} {i : Nat} (h : i ∉ o.map (·.1)) : o.filter (fun x => x.1 ≠ i) = o := by
  rw [List.filter_eq_self]
  intro x hx
  have : x.1 ≠ i := fun he => h (he ▸ List.mem_map_of_mem hx)
  simp [this]

theorem startSum_filter {o : Open} {a i b : Nat} {t : Int} (hnd : (o.map (·.1)).Nodup)
    (h : find o i = some (b, t)) :
    startSum a (o.filter (fun x => x.1 ≠ i)) = startSum a o - if b = a then t else 0 := by
  induction o with
  | nil => cases h
  | cons x o ih =>
    obtain ⟨j, b', t'⟩ := x
    rw [List.map_cons, List.nodup_cons] at hnd
    by_cases hj : j = i
    · subst hj
      simp only [find, if_true, Option.some.injEq, Prod.mk.injEq] at h
      obtain ⟨rfl, rfl⟩ := h
      rw [List.filter_cons_of_neg (by simp), filter_not_mem hnd.1]
      simp only [startSum]; omega
    · simp only [find, if_neg hj] at h
      rw [List.filter_cons_of_pos (by simpa using hj)]
      simp only [startSum]
      rw [ih hnd.2 h]; omega

theorem find_filter {o : Open} {i v : Nat} (hnd : (o.map (·.1)).Nodup) :
    find (o.filter (fun x => x.1 ≠ i)) v = if v = i then none else find o v := by
  induction o with
  | nil => simp [find]
  | cons x o ih =>
    obtain ⟨j, b', t'⟩ := x
    rw [List.map_cons, List.nodup_cons] at hnd
    by_cases hj : j = i
    · subst hj
      rw [List.filter_cons_of_neg (by simp), ih hnd.2]
      by_cases hv : v = j
      · simp [hv]
      · simp [find, hv, Ne.symm hv]
    · rw [List.filter_cons_of_pos (by simpa using hj)]
      simp only [find]
      rw [ih hnd.2]
      by_cases hv : v = i
      · subst hv; simp [hj]
      · by_cases hjv : j = v
        · subst hjv; simp [hv]
        · simp [hjv, hv]

theorem rel_leave {s : St} {o : Open} (h : Rel s o) (i : Nat) (f : Nat → Int) :
    Rel ⟨f, upd s.timer i none⟩ (o.filter (fun x => x.1 ≠ i)) where
  timers v := by
    simp only [upd]
    rw [find_filter h.nodup]
    by_cases hv : v = i
    · simp [hv]
    · simp [hv, h.timers v]
  nodup := by
    have := h.nodup
    exact this.sublist (List.Sublist.map _ List.filter_sublist)

theorem rel_enter {s : St} {o : Open} (h : Rel s o) (i a : Nat) (t : Int) (f : Nat → Int)
    (hi : s.timer i = none) : Rel ⟨f, upd s.timer i (some a)⟩ ((i, a, t) :: o) where
  timers v := by
    by_cases hv : v = i
    · subst hv; simp [upd, find]
    · simp only [upd, if_neg hv, find, if_neg (Ne.symm hv)]; exact h.timers v
  nodup := by
    rw [List.map_cons, List.nodup_cons]
    refine ⟨?_, h.nodup⟩
    have := h.timers i
    rw [hi] at this
    cases hf : find o i with
    | none => exact find_none.1 hf
    | some x => rw [hf] at this; cases this

/-- The accumulators at every moment: what the closed scopes added, less the start times of the open
ones. -/
theorem run_total (k : Int) (es : List Event) : ∀ {s s' : St} {o : Open}, Rel s o →
    run k s es = some s' → Rel s' (finalOpen o es) ∧ ∀ a, s'.acc a + k * startSum a (finalOpen o es)
      = s.acc a + k * startSum a o + k * total a o es := by
  induction es with
  | nil =>
    intro s s' o hr h
    cases h
    exact ⟨hr, fun a => by simp [finalOpen, total]⟩
  | cons e es ih =>
    intro s s' o hr h
    unfold run at h
    cases hst : step k s e with
    | none => rw [hst] at h; cases h
    | some s₁ =>
      rw [hst] at h
      dsimp only [Option.bind] at h
      cases e with
      | enter i b t =>
        simp only [step] at hst
        split at hst
        · cases hst
        · rename_i hi
          cases hd : chk (k * t) with
          | none => rw [hd] at hst; cases hst
          | some d =>
            rw [hd] at hst
            dsimp only [Option.bind] at hst
            cases hv : chk (s.acc b - d) with
            | none => rw [hv] at hst; cases hst
            | some v =>
              rw [hv] at hst; cases hst
              obtain ⟨h1, h2⟩ := ih (rel_enter hr i b t _ hi) h
              refine ⟨h1, fun a => ?_⟩
              have h3 := h2 a
              simp only [finalOpen, total]
              rw [h3, chk_eq hv, chk_eq hd]
              simp only [startSum, upd]
              by_cases hab : b = a
              · subst hab; simp only [if_true]; rw [Int.mul_add]; omega
              · rw [if_neg hab, if_neg (Ne.symm hab)]; simp
      | leave i t =>
        simp only [step] at hst
        split at hst
        · cases hst
        · rename_i b hi
          cases hd : chk (k * t) with
          | none => rw [hd] at hst; cases hst
          | some d =>
            rw [hd] at hst
            dsimp only [Option.bind] at hst
            cases hv : chk (s.acc b + d) with
            | none => rw [hv] at hst; cases hst
            | some v =>
              rw [hv] at hst; cases hst
              obtain ⟨h1, h2⟩ := ih (rel_leave hr i _) h
              refine ⟨h1, fun a => ?_⟩
              have h3 := h2 a
              have hf : ∃ t₀, find o i = some (b, t₀) := by
                have := hr.timers i
                rw [hi] at this
                cases hf : find o i with
                | none => rw [hf] at this; cases this
                | some x =>
                  obtain ⟨b', t₀⟩ := x
                  rw [hf] at this; cases this
                  exact ⟨t₀, rfl⟩
              obtain ⟨t₀, hf⟩ := hf
              simp only [finalOpen, total, hf]
              rw [h3, chk_eq hv, chk_eq hd, startSum_filter hr.nodup hf]
              simp only [upd]
              by_cases hab : b = a
              · subst hab; simp only [if_true]
                rw [Int.mul_sub, Int.mul_add, Int.mul_sub]; omega
              · simp [if_neg hab, if_neg (Ne.symm hab)]

/-- No timer is alive, accumulators have the given values. -/
def start (acc : Nat → Int) : St := ⟨acc, fun _ => none⟩

/-- C64. Whatever the order in which timers are constructed and destroyed (nested, overlapping, several
on one accumulator): when all have been destroyed (and no addition overflowed), every accumulator has
grown by the sum of the durations of its scopes. -/
theorem accumulates_partial (k : Int) (acc : Nat → Int) (es : List Event) {s : St}
    (h : run k (start acc) es = some s) (hclosed : ∀ i, s.timer i = none) (a : Nat) :
    s.acc a = acc a + k * total a [] es := by
  obtain ⟨h1, h2⟩ := run_total k es (o := []) ⟨fun _ => rfl, by simp⟩ h
  have hnil : finalOpen [] es = [] := by
    cases hf : finalOpen [] es with
    | nil => rfl
    | cons x o =>
      obtain ⟨i, b, t⟩ := x
      have := h1.timers i
      rw [hclosed i, hf] at this
      simp [find] at this
  have := h2 a
  rw [hnil] at this
  simpa [startSum, start] using this

/-- Two overlapping scopes and a nested one. -/
example : (run 1 (start fun _ => 0)
    [.enter 0 7 1000, .enter 1 7 1010, .leave 0 1050, .enter 2 8 1060, .leave 1 1100, .leave 2 1101]).map
      (fun s => (s.acc 7, s.acc 8, s.timer 0, s.timer 1, s.timer 2)) =
    some (140, 41, none, none, none) := by decide

example : total 7 [] [.enter 0 7 1000, .enter 1 7 1010, .leave 0 1050, .enter 2 8 1060, .leave 1 1100,
    .leave 2 1101] = 140 := by decide

/-- The clock reading of an event. -/
def Event.now : Event → Int
  | .enter _ _ t => t
  | .leave _ t => t

/-- The history is one of timers: a timer is constructed before it is destroyed. -/
def WellFormed : Open → List Event → Prop
  | _, [] => True
  | o, .enter i b t :: es => find o i = none ∧ WellFormed ((i, b, t) :: o) es
  | o, .leave i _ :: es => find o i ≠ none ∧ WellFormed (o.filter (fun x => x.1 ≠ i)) es

/-- Numbers of open scopes never exceed `n`. -/
def AtMost (n : Nat) : Open → List Event → Prop
  | o, [] => o.length ≤ n
  | o, .enter i b t :: es => o.length ≤ n ∧ AtMost n ((i, b, t) :: o) es
  | o, .leave i _ :: es => o.length ≤ n ∧ AtMost n (o.filter (fun x => x.1 ≠ i)) es

theorem startSum_bound {o : Open} {T : Int} (hT : 0 ≤ T) (h : ∀ x ∈ o, 0 ≤ x.2.2 ∧ x.2.2 ≤ T) (a : Nat) :
    0 ≤ startSum a o ∧ startSum a o ≤ o.length * T := by
  induction o with
  | nil => simp [startSum]
  | cons x o ih =>
    obtain ⟨j, b, t⟩ := x
    obtain ⟨h1, h2⟩ := ih fun y hy => h y (by simp [hy])
    have h3 := h (j, b, t) (by simp)
    simp only [startSum, List.length_cons] at *
    have h4 : ((o.length + 1 : Nat) : Int) * T = o.length * T + T := by
      rw [Int.natCast_add, Int.add_mul]; simp
    split <;> omega

/-- No overflow happens (nanosecond accumulators) if the clock readings stay below `T`, accumulators (as
far as closed scopes make them grow) within `A`, at most `n` scopes are open at a time, and
`A + (n + 1) * T` fits. -/
theorem no_overflow_partial (T A : Int) (n : Nat) (hT : 0 ≤ T) (hb : A + (n + 1) * T < 2 ^ 63)
    (es : List Event) : ∀ (s : St) (o : Open), Rel s o → WellFormed o es → AtMost n o es →
    (∀ e ∈ es, 0 ≤ e.now ∧ e.now ≤ T) → (∀ x ∈ o, 0 ≤ x.2.2 ∧ x.2.2 ≤ T) →
    (∀ m, ∀ a, -A ≤ s.acc a + startSum a o + total a o (es.take m) ∧
      s.acc a + startSum a o + total a o (es.take m) ≤ A) →
    ∃ s', run 1 s es = some s' := by
  induction es with
  | nil => intro s o _ _ _ _ _ _; exact ⟨s, rfl⟩
  | cons e es ih =>
    intro s o hr hw hn he ho hA
    have hnT : (0 : Int) ≤ n * T := Int.mul_nonneg (by omega) hT
    have hmul : ((n : Int) + 1) * T = n * T + T := by rw [Int.add_mul]; simp
    have hA0 : ∀ a, -A ≤ s.acc a + startSum a o ∧ s.acc a + startSum a o ≤ A := by
      intro a
      have := hA 0 a
      simpa [total] using this
    have he0 := he e (by simp)
    cases e with
    | enter i b t =>
      obtain ⟨hw1, hw2⟩ := hw
      obtain ⟨hn1, hn2⟩ := hn
      simp only [Event.now] at he0
      have hi : s.timer i = none := by rw [hr.timers i, hw1]; rfl
      have hlen : ((i, b, t) :: o).length ≤ n := by
        cases es with
        | nil => exact hn2
        | cons e' es' => cases e' <;> exact hn2.1
      have hsb := startSum_bound hT ho b
      have hlen' : (o.length : Int) * T + T ≤ n * T := by
        have h1 : ((o.length + 1 : Nat) : Int) * T ≤ n * T :=
          Int.mul_le_mul_of_nonneg_right (by simp at hlen; omega) hT
        have h2 : ((o.length + 1 : Nat) : Int) * T = o.length * T + T := by
          rw [Int.natCast_add, Int.add_mul]; simp
        omega
      have hAb := hA0 b
      have h1 : chk (1 * t) = some t := by
        unfold chk fits; rw [Int.one_mul, if_pos]; simp; omega
      have h2 : chk (s.acc b - t) = some (s.acc b - t) := by
        unfold chk fits; rw [if_pos]; simp; omega
      have hst : step 1 s (.enter i b t) = some ⟨upd s.acc b (s.acc b - t), upd s.timer i (some b)⟩ := by
        simp only [step, hi, h1, Option.bind, h2, Option.map]
      obtain ⟨s', hs'⟩ := ih _ _ (rel_enter hr i b t (upd s.acc b (s.acc b - t)) hi) hw2 hn2
        (fun e' he' => he e' (by simp [he']))
        (by
          intro x hx
          rcases List.mem_cons.1 hx with rfl | hx
          · exact he0
          · exact ho x hx)
        (by
          intro m a
          have := hA (m + 1) a
          simp only [List.take_succ_cons, total] at this
          simp only [startSum, upd]
          by_cases hab : b = a
          · subst hab; simp only [if_true]; constructor <;> omega
          · rw [if_neg hab, if_neg (Ne.symm hab)]; constructor <;> omega)
      exact ⟨s', by unfold run; rw [hst]; exact hs'⟩
    | leave i t =>
      obtain ⟨hw1, hw2⟩ := hw
      obtain ⟨hn1, hn2⟩ := hn
      simp only [Event.now] at he0
      cases hf : find o i with
      | none => exact absurd hf hw1
      | some x =>
        obtain ⟨b, t₀⟩ := x
        have hi : s.timer i = some b := by rw [hr.timers i, hf]; rfl
        have hsb := startSum_bound hT ho b
        have hlen' : (o.length : Int) * T ≤ n * T :=
          Int.mul_le_mul_of_nonneg_right (by omega) hT
        have hAb := hA0 b
        have h1 : chk (1 * t) = some t := by
          unfold chk fits; rw [Int.one_mul, if_pos]; simp; omega
        have h2 : chk (s.acc b + t) = some (s.acc b + t) := by
          unfold chk fits; rw [if_pos]; simp; omega
        have hst : step 1 s (.leave i t) = some ⟨upd s.acc b (s.acc b + t), upd s.timer i none⟩ := by
          simp only [step, hi, h1, Option.bind, h2, Option.map]
        obtain ⟨s', hs'⟩ := ih _ _ (rel_leave hr i (upd s.acc b (s.acc b + t))) hw2 hn2
          (fun e' he' => he e' (by simp [he']))
          (fun x hx => ho x (List.mem_filter.1 hx).1)
          (by
            intro m a
            have := hA (m + 1) a
            simp only [List.take_succ_cons, total, hf] at this
            rw [startSum_filter hr.nodup hf]
            simp only [upd]
            by_cases hab : b = a
            · subst hab; simp only [if_true] at this ⊢; constructor <;> omega
            · rw [if_neg hab] at this ⊢; rw [if_neg (Ne.symm hab)]; constructor <;> omega)
        exact ⟨s', by unfold run; rw [hst]; exact hs'⟩

/-! ## Floating-point accumulators -/

/-- Round to a multiple of `2 ^ e`, ties to even. -/
def roundMult (e : Nat) (x : Int) : Int :=
  let q := x / 2 ^ e
  let r := x % 2 ^ e
  if 2 * r < 2 ^ e then q * 2 ^ e
  else if 2 * r = 2 ^ e then (q + q % 2) * 2 ^ e
  else (q + 1) * 2 ^ e

/-- The nearest `float` (24 bits) to an integer (of less than 256 bits). -/
def toFloat (x : Int) : Int := roundMult (x.natAbs.log2 + 1 - 24) x

/-- timed.hpp:13-17 with `Rep = float` and `Period = nano`: the accumulator after one scope. -/
def floatScope (acc t₀ t₁ : Int) : Int :=
  toFloat (toFloat (acc - toFloat t₀) + toFloat t₁)

theorem toFloat_small {x : Int} (h : x.natAbs < 2 ^ 24) : toFloat x = x := by
  have h0 : x.natAbs.log2 + 1 - 24 = 0 := by
    by_cases hx : x.natAbs = 0
    · rw [hx]; decide
    · have := (Nat.log2_lt hx).2 h
      omega
  unfold toFloat roundMult
  rw [h0]
  simp only [Int.pow_zero, Int.emod_one, Int.ediv_one, Int.mul_one]
  rw [if_pos (by decide)]

/-- C64 for floating-point durations, where nothing has to be rounded: the accumulator grows by the time in
the scope. -/
theorem float_accumulates_exact_partial {acc t₀ t₁ : Int} (h0 : toFloat t₀ = t₀) (h1 : toFloat t₁ = t₁)
    (h2 : toFloat (acc - t₀) = acc - t₀) (h3 : toFloat (acc + (t₁ - t₀)) = acc + (t₁ - t₀)) :
    floatScope acc t₀ t₁ = acc + (t₁ - t₀) := by
  unfold floatScope
  rw [h0, h1, h2, show acc - t₀ + t₁ = acc + (t₁ - t₀) by omega, h3]

/-- For instance with the times of a clock that started less than 16 ms ago. -/
theorem float_accumulates_small {acc t₀ t₁ : Int} (ha : 0 ≤ acc) (h0 : 0 ≤ t₀) (h01 : t₀ ≤ t₁)
    (h1 : acc + t₁ < 2 ^ 24) : floatScope acc t₀ t₁ = acc + (t₁ - t₀) :=
  float_accumulates_exact_partial (toFloat_small (by omega)) (toFloat_small (by omega))
    (toFloat_small (by omega)) (toFloat_small (by omega))

/-- C64 for floating-point durations, even up to the rounding of the sum itself. -/
def FloatAccumulates : Prop := ∀ acc t₀ t₁ : Int, 0 ≤ t₀ → t₀ ≤ t₁ → toFloat acc = acc →
  floatScope acc t₀ t₁ = toFloat (acc + (t₁ - t₀))

/-- False: the start and end times are rounded, not their difference: with the clock at one second, ten
nanoseconds are lost. -/
theorem not_floatAccumulates : ¬ FloatAccumulates := by
  intro h
  have := h 0 (2 ^ 30) (2 ^ 30 + 10) (by decide) (by decide) (by decide)
  revert this
  decide

/-! ## `TimingsCPU` -/

/-- timed-cpu.hpp:11-15 -/
structure Timings where
  invocations : Int := 0
  wall : Int := 0
  cpu : Int := 0
  deriving DecidableEq, Repr

/-- A scope of `Timed<TimingsCPU>`: wall clock and CPU clock (as `getProcessCpuTime` returns it) at its
start and end. -/
structure Scope where
  acc : Nat
  wall₀ : Int
  wall₁ : Int
  cpu₀ : Int
  cpu₁ : Int

/-- timed-cpu.cpp:46-52, `~Timed` (the constructor, 41-44, only stores the clocks). Overflow: `none`. -/
def Timings.add (t : Timings) (s : Scope) : Option Timings :=
  (chk (t.invocations + 1)).bind fun n => (chk (s.wall₁ - s.wall₀)).bind fun dw =>
  (chk (t.wall + dw)).bind fun w => (chk (s.cpu₁ - s.cpu₀)).bind fun dc =>
  (chk (t.cpu + dc)).map fun c => ⟨n, w, c⟩

/-- The destructors of a number of scopes run, in some order (the constructors change nothing). -/
def runCpu : (Nat → Timings) → List Scope → Option (Nat → Timings)
  | ts, [] => some ts
  | ts, s :: ss => ((ts s.acc).add s).bind fun t => runCpu (upd ts s.acc t) ss

def sumOn (a : Nat) (f : Scope → Int) : List Scope → Int
  | [] => 0
  | s :: ss => (if s.acc = a then f s else 0) + sumOn a f ss

/-- C64 for `TimingsCPU`: the number of scopes, and the sums of their wall and CPU times. -/
theorem cpu_accumulates (ss : List Scope) : ∀ (ts ts' : Nat → Timings), runCpu ts ss = some ts' →
    ∀ a, (ts' a).invocations = (ts a).invocations + sumOn a (fun _ => 1) ss ∧
      (ts' a).wall = (ts a).wall + sumOn a (fun s => s.wall₁ - s.wall₀) ss ∧
      (ts' a).cpu = (ts a).cpu + sumOn a (fun s => s.cpu₁ - s.cpu₀) ss := by
  induction ss with
  | nil => intro ts ts' h a; cases h; simp [sumOn]
  | cons s ss ih =>
    intro ts ts' h a
    unfold runCpu at h
    cases hadd : (ts s.acc).add s with
    | none => rw [hadd] at h; cases h
    | some t =>
      rw [hadd] at h
      dsimp only [Option.bind] at h
      have hi := ih _ _ h a
      unfold Timings.add at hadd
      cases h1 : chk ((ts s.acc).invocations + 1) with
      | none => rw [h1] at hadd; cases hadd
      | some n =>
      cases h2 : chk (s.wall₁ - s.wall₀) with
      | none => rw [h1, h2] at hadd; cases hadd
      | some dw =>
      cases h3 : chk ((ts s.acc).wall + dw) with
      | none => simp only [h1, h2, h3, Option.bind] at hadd; cases hadd
      | some w =>
      cases h4 : chk (s.cpu₁ - s.cpu₀) with
      | none => simp only [h1, h2, h3, h4, Option.bind] at hadd; cases hadd
      | some dc =>
      cases h5 : chk ((ts s.acc).cpu + dc) with
      | none => simp only [h1, h2, h3, h4, h5, Option.bind, Option.map] at hadd; cases hadd
      | some c =>
      simp only [h1, h2, h3, h4, h5, Option.bind, Option.map, Option.some.injEq] at hadd
      subst hadd
      rw [chk_eq h1, chk_eq h3, chk_eq h2, chk_eq h5, chk_eq h4] at hi
      simp only [sumOn]
      by_cases ha : s.acc = a
      · subst ha
        simp only [upd, if_true] at hi ⊢
        omega
      · simp only [upd, if_neg (Ne.symm ha)] at hi
        simp only [if_neg ha]
        omega

/-- timed-cpu.cpp:22-26 (not Windows), `getProcessCpuTime`: from seconds and nanoseconds. -/
def cpuTimePosix (sec nsec : Int) : Int := sec * 1000000000 + nsec

/-- timed-cpu.cpp:16-20 (Windows): the user time as `GetProcessTimes` gives it, in units of 100 ns, in two
32-bit halves. -/
def cpuTimeWindows (hi lo : Int) : Int := hi * 2 ^ 32 + lo

/-- C83: `cpu_time` is in nanoseconds, on POSIX and on Windows: the clock reading is the CPU time used
so far, which is `ns` nanoseconds (a multiple of 100). -/
def CpuTimeInNanoseconds : Prop :=
  (∀ sec nsec : Int, cpuTimePosix sec nsec = 10 ^ 9 * sec + nsec) ∧
  (∀ hi lo ns : Int, ns = 100 * (hi * 2 ^ 32 + lo) → cpuTimeWindows hi lo = ns)

/-- False on Windows. -/
theorem not_cpuTimeInNanoseconds : ¬ CpuTimeInNanoseconds := by
  intro h
  have := h.2 0 1 100 (by decide)
  revert this
  decide

/-- What holds: on POSIX it is; on Windows it is the user CPU time divided by 100. -/
theorem cpuTime_partial : (∀ sec nsec : Int, cpuTimePosix sec nsec = 10 ^ 9 * sec + nsec) ∧
    (∀ hi lo ns : Int, ns = 100 * (hi * 2 ^ 32 + lo) → 100 * cpuTimeWindows hi lo = ns) := by
  constructor
  · intro sec nsec; unfold cpuTimePosix; omega
  · intro hi lo ns h; unfold cpuTimeWindows; omega

/-- C83, exactly: on Windows the number is right only for a CPU time of zero. -/
theorem cpuTime_windows_iff (hi lo ns : Int) (h : ns = 100 * (hi * 2 ^ 32 + lo)) : cpuTimeWindows hi lo = ns ↔ ns = 0 := by
  unfold cpuTimeWindows; omega

end Guanaqo.Timed
