import Verif.Base

/-!
# Model of `GUANAQO_ASSUME` and `GUANAQO_ASSERT` (C116)

File: `/repo/src/include/guanaqo/assume.hpp`. Programs that use the macros are a small imperative language whose other statements are arbitrary.
-/

namespace Guanaqo.Assume

/-- What the preprocessor sees, assume.hpp:10-30. -/
structure Config where
  /-- `defined(NDEBUG)` -/
  ndebug : Bool
  /-- `GUANAQO_VERIFY_ASSUMPTIONS` (0 if it is not defined) -/
  verify : Bool
  /-- `__has_cpp_attribute(assume) >= 202207L` -/
  hasAttribute : Bool
  /-- `__cpp_lib_unreachable >= 202202L` -/
  libUnreachable : Bool
  /-- `defined(__GNUC__)` -/
  gnuc : Bool
  /-- `defined(_MSC_VER)` -/
  msvc : Bool
  deriving DecidableEq, Repr

/-- What `GUANAQO_ASSUME(x)` becomes. -/
inductive Mode where
  /-- `if (!(x)) throw std::logic_error(...)` -/
  | check
  /-- `[[assume(x)]]` or `__assume(x)` -/
  | hint
  /-- `if (!(x)) std::unreachable()` or `__builtin_unreachable()` -/
  | unreachable
  deriving DecidableEq, Repr

/-- assume.hpp:10-42: the definition of the macro (`check` also if no alternative applies, 40-42). -/
def Config.mode (c : Config) : Mode :=
  if c.ndebug && !c.verify then
    if c.hasAttribute then .hint
    else if c.libUnreachable then .unreachable
    else if c.gnuc then .unreachable
    else if c.msvc then .hint
    else .check
  else .check

variable {σ : Type}

/-- How a statement ends. -/
inductive Outcome (σ : Type) where
  | normal (s : σ)
  | exc (e : Exn) (s : σ)
  | undefined
  deriving DecidableEq, Repr

/-- How the evaluation of a condition ends (it may have side effects or throw). -/
inductive CondOut (σ : Type) where
  | val (b : Bool) (s : σ)
  | exc (e : Exn) (s : σ)
  deriving DecidableEq, Repr

/-- Programs. -/
inductive Stmt (σ : Type) where
  /-- any statement without assumptions -/
  | act (f : σ → Outcome σ)
  /-- `GUANAQO_ASSUME(x);` -/
  | assume (x : σ → CondOut σ)
  /-- `GUANAQO_ASSERT(x);` -/
  | assert (x : σ → CondOut σ)
  | seq (a b : Stmt σ)
  | ite (c : σ → Bool) (a b : Stmt σ)
  | loop (c : σ → Bool) (a : Stmt σ)
  /-- `try { a } catch (...)`: the exceptions in `catches` are handled by `h`. -/
  | tryCatch (a : Stmt σ) (catches : Exn → Bool) (h : Exn → Stmt σ)

/-- assume.hpp:32-37: `GUANAQO_ASSERT(x)`, and whether it failed. -/
def checkOut (x : σ → CondOut σ) (s : σ) : Bool × Outcome σ :=
  match x s with
  | .val true s' => (false, .normal s')
  | .val false s' => (true, .exc .logicError s')
  | .exc e s' => (false, .exc e s')

/-- `GUANAQO_ASSUME(x)`: whether the assumption is violated, and the outcome. `[[assume(x)]]` does not evaluate `x`: if it would evaluate to `true`
nothing happens, otherwise the behaviour is undefined. -/
def assumeOut (m : Mode) (x : σ → CondOut σ) (s : σ) : Bool × Outcome σ :=
  match m with
  | .check => checkOut x s
  | .unreachable =>
    match x s with
    | .val true s' => (false, .normal s')
    | .val false _ => (true, .undefined)
    | .exc e s' => (false, .exc e s')
  | .hint =>
    match x s with
    | .val true _ => (false, .normal s)
    | _ => (true, .undefined)

/-- Execution (big-step): `Exec m p s v o`: `p`, started in `s`, ends with `o`; `v` says that an assumption was violated on the way (also if the
exception was caught). -/
inductive Exec (m : Mode) : Stmt σ → σ → Bool → Outcome σ → Prop where
  | act {f : σ → Outcome σ} {s : σ} : Exec m (.act f) s false (f s)
  | assume {x : σ → CondOut σ} {s : σ} : Exec m (.assume x) s (assumeOut m x s).1 (assumeOut m x s).2
  | assert {x : σ → CondOut σ} {s : σ} : Exec m (.assert x) s false (checkOut x s).2
  | seq {a b : Stmt σ} {s s' : σ} {v w : Bool} {o : Outcome σ} : Exec m a s v (.normal s') → Exec m b s' w o → Exec m (.seq a b) s (v || w) o
  | seqStop {a b : Stmt σ} {s : σ} {v : Bool} {o : Outcome σ} : Exec m a s v o → (∀ s', o ≠ .normal s') → Exec m (.seq a b) s v o
  | iteTrue {c : σ → Bool} {a b : Stmt σ} {s : σ} {v : Bool} {o : Outcome σ} : c s = true → Exec m a s v o → Exec m (.ite c a b) s v o
  | iteFalse {c : σ → Bool} {a b : Stmt σ} {s : σ} {v : Bool} {o : Outcome σ} : c s = false → Exec m b s v o → Exec m (.ite c a b) s v o
  | loopEnd {c : σ → Bool} {a : Stmt σ} {s : σ} : c s = false → Exec m (.loop c a) s false (.normal s)
  | loopStep {c : σ → Bool} {a : Stmt σ} {s s' : σ} {v w : Bool} {o : Outcome σ} :
      c s = true → Exec m a s v (.normal s') → Exec m (.loop c a) s' w o → Exec m (.loop c a) s (v || w) o
  | loopStop {c : σ → Bool} {a : Stmt σ} {s : σ} {v : Bool} {o : Outcome σ} :
      c s = true → Exec m a s v o → (∀ s', o ≠ .normal s') → Exec m (.loop c a) s v o
  | tryPass {a : Stmt σ} {catches : Exn → Bool} {h : Exn → Stmt σ} {s : σ} {v : Bool} {o : Outcome σ} :
      Exec m a s v o → (∀ e s', o = .exc e s' → catches e = false) → Exec m (.tryCatch a catches h) s v o
  | tryCatch {a : Stmt σ} {catches : Exn → Bool} {h : Exn → Stmt σ} {s s' : σ} {e : Exn} {v w : Bool} {o : Outcome σ} :
      Exec m a s v (.exc e s') → catches e = true → Exec m (h e) s' w o → Exec m (.tryCatch a catches h) s (v || w) o

/-! ## Specification -/

/-- The condition has no side effects and does not throw (like all conditions in the library, comparisons of sizes). -/
def Pure (x : σ → CondOut σ) : Prop := ∀ s, ∃ b, x s = .val b s

/-- All assumptions of the program are pure. -/
def PureAssumptions : Stmt σ → Prop
  | .act _ => True
  | .assume x => Pure x
  | .assert _ => True
  | .seq a b => PureAssumptions a ∧ PureAssumptions b
  | .ite _ a b => PureAssumptions a ∧ PureAssumptions b
  | .loop _ a => PureAssumptions a
  | .tryCatch a _ h => PureAssumptions a ∧ ∀ e, PureAssumptions (h e)

/-- The other statements of the program are defined. -/
def Defined : Stmt σ → Prop
  | .act f => ∀ s, f s ≠ .undefined
  | .assume _ => True
  | .assert _ => True
  | .seq a b => Defined a ∧ Defined b
  | .ite _ a b => Defined a ∧ Defined b
  | .loop _ a => Defined a
  | .tryCatch a _ h => Defined a ∧ ∀ e, Defined (h e)

/-! ## Proofs -/

/-- Programs are deterministic in every build. -/
theorem exec_deterministic {m : Mode} {p : Stmt σ} {s : σ} {v v' : Bool} {o o' : Outcome σ} (h : Exec m p s v o) (h' : Exec m p s v' o') :
    v = v' ∧ o = o' := by
  induction h generalizing v' o' with
  | act => cases h'; exact ⟨rfl, rfl⟩
  | assume => cases h'; exact ⟨rfl, rfl⟩
  | assert => cases h'; exact ⟨rfl, rfl⟩
  | seq ha hb iha ihb =>
    cases h' with
    | seq ha' hb' =>
      obtain ⟨rfl, e⟩ := iha ha'
      cases e
      obtain ⟨rfl, rfl⟩ := ihb hb'
      exact ⟨rfl, rfl⟩
    | seqStop ha' hn => obtain ⟨_, e⟩ := iha ha'; exact absurd e.symm (hn _)
  | seqStop ha hn iha =>
    cases h' with
    | seq ha' hb' => obtain ⟨_, e⟩ := iha ha'; exact absurd e (hn _)
    | seqStop ha' _ => exact iha ha'
  | iteTrue hc ha iha =>
    cases h' with
    | iteTrue _ ha' => exact iha ha'
    | iteFalse hc' _ => rw [hc] at hc'; cases hc'
  | iteFalse hc hb ihb =>
    cases h' with
    | iteTrue hc' _ => rw [hc] at hc'; cases hc'
    | iteFalse _ hb' => exact ihb hb'
  | loopEnd hc =>
    cases h' with
    | loopEnd _ => exact ⟨rfl, rfl⟩
    | loopStep hc' _ _ => rw [hc] at hc'; cases hc'
    | loopStop hc' _ _ => rw [hc] at hc'; cases hc'
  | loopStep hc ha hb iha ihb =>
    cases h' with
    | loopEnd hc' => rw [hc] at hc'; cases hc'
    | loopStep _ ha' hb' =>
      obtain ⟨rfl, e⟩ := iha ha'
      cases e
      obtain ⟨rfl, rfl⟩ := ihb hb'
      exact ⟨rfl, rfl⟩
    | loopStop _ ha' hn => obtain ⟨_, e⟩ := iha ha'; exact absurd e.symm (hn _)
  | loopStop hc ha hn iha =>
    cases h' with
    | loopEnd hc' => rw [hc] at hc'; cases hc'
    | loopStep _ ha' _ => obtain ⟨_, e⟩ := iha ha'; exact absurd e (hn _)
    | loopStop _ ha' _ => exact iha ha'
  | tryPass ha hn iha =>
    cases h' with
    | tryPass ha' _ => exact iha ha'
    | tryCatch ha' hc' _ =>
      obtain ⟨_, e⟩ := iha ha'
      have := hn _ _ e
      rw [hc'] at this
      cases this
  | tryCatch ha hc hb iha ihb =>
    cases h' with
    | tryPass ha' hn =>
      obtain ⟨_, e⟩ := iha ha'
      have := hn _ _ e.symm
      rw [hc] at this
      cases this
    | tryCatch ha' _ hb' =>
      obtain ⟨rfl, e⟩ := iha ha'
      cases e
      obtain ⟨rfl, rfl⟩ := ihb hb'
      exact ⟨rfl, rfl⟩

theorem assumeOut_pure {x : σ → CondOut σ} (hx : Pure x) (m : Mode) (s : σ) :
    (x s = .val true s ∧ assumeOut m x s = (false, .normal s)) ∨ (x s = .val false s ∧ (assumeOut m x s).1 = true ∧
      (m ≠ .check → assumeOut m x s = (true, .undefined)) ∧ (m = .check → assumeOut m x s = (true, .exc .logicError s))) := by
  obtain ⟨b, hb⟩ := hx s
  cases b
  · right
    cases m <;> simp [assumeOut, checkOut, hb]
  · left
    cases m <;> simp [assumeOut, checkOut, hb]

/-- An execution without violations is an execution of every build; one with a violation is undefined in the builds that do not check. -/
theorem exec_transfer {m : Mode} {p : Stmt σ} {s : σ} {v : Bool} {o : Outcome σ} (hp : PureAssumptions p) (h : Exec m p s v o) (m' : Mode) :
    (v = false → Exec m' p s false o) ∧ (v = true → m' ≠ .check → Exec m' p s true .undefined) := by
  induction h with
  | act => exact ⟨fun _ => .act, fun h => by cases h⟩
  | @assume x s =>
    rcases assumeOut_pure hp m s with ⟨hx, h1⟩ | ⟨hx, h1, _, _⟩
    · rw [h1]
      refine ⟨fun _ => ?_, fun h => by cases h⟩
      rcases assumeOut_pure hp m' s with ⟨_, h2⟩ | ⟨hx', _⟩
      · have := Exec.assume (m := m') (x := x) (s := s)
        rw [h2] at this
        exact this
      · rw [hx] at hx'; cases hx'
    · refine ⟨fun h => by rw [h1] at h; (cases h), fun _ hm => ?_⟩
      rcases assumeOut_pure hp m' s with ⟨hx', _⟩ | ⟨_, _, h2, _⟩
      · rw [hx] at hx'; cases hx'
      · have := Exec.assume (m := m') (x := x) (s := s)
        rw [h2 hm] at this
        exact this
  | assert => exact ⟨fun _ => .assert, fun h => by cases h⟩
  | @seq a b s s' v w o ha hb iha ihb =>
    have iha := iha hp.1
    have ihb := ihb hp.2
    cases v
    · refine ⟨fun h => ?_, fun h hm => ?_⟩
      · exact Exec.seq (v := false) (w := false) (iha.1 rfl) (ihb.1 (by simpa using h))
      · exact Exec.seq (v := false) (w := true) (iha.1 rfl) (ihb.2 (by simpa using h) hm)
    · exact ⟨fun h => by simp at h, fun _ hm => .seqStop (iha.2 rfl hm) (by simp)⟩
  | @seqStop a b s v o ha hn iha =>
    have iha := iha hp.1
    exact ⟨fun h => .seqStop (iha.1 h) hn, fun h hm => .seqStop (iha.2 h hm) (by simp)⟩
  | iteTrue hc ha iha => exact ⟨fun h => .iteTrue hc ((iha hp.1).1 h), fun h hm => .iteTrue hc ((iha hp.1).2 h hm)⟩
  | iteFalse hc hb ihb => exact ⟨fun h => .iteFalse hc ((ihb hp.2).1 h), fun h hm => .iteFalse hc ((ihb hp.2).2 h hm)⟩
  | loopEnd hc => exact ⟨fun _ => .loopEnd hc, fun h => by cases h⟩
  | @loopStep c a s s' v w o hc ha hb iha ihb =>
    have iha := iha hp
    have ihb := ihb hp
    cases v
    · refine ⟨fun h => ?_, fun h hm => ?_⟩
      · exact Exec.loopStep (v := false) (w := false) hc (iha.1 rfl) (ihb.1 (by simpa using h))
      · exact Exec.loopStep (v := false) (w := true) hc (iha.1 rfl) (ihb.2 (by simpa using h) hm)
    · exact ⟨fun h => by simp at h, fun _ hm => .loopStop hc (iha.2 rfl hm) (by simp)⟩
  | loopStop hc ha hn iha =>
    have iha := iha hp
    exact ⟨fun h => .loopStop hc (iha.1 h) hn, fun h hm => .loopStop hc (iha.2 h hm) (by simp)⟩
  | tryPass ha hn iha =>
    have iha := iha hp.1
    exact ⟨fun h => .tryPass (iha.1 h) hn, fun h hm => .tryPass (iha.2 h hm) (by simp)⟩
  | @tryCatch a catches h s s' e v w o ha hc hb iha ihb =>
    have iha := iha hp.1
    have ihb := ihb (hp.2 _)
    cases v
    · refine ⟨fun h => ?_, fun h hm => ?_⟩
      · exact Exec.tryCatch (v := false) (w := false) (iha.1 rfl) hc (ihb.1 (by simpa using h))
      · exact Exec.tryCatch (v := false) (w := true) (iha.1 rfl) hc (ihb.2 (by simpa using h) hm)
    · exact ⟨fun h => by simp at h, fun _ hm => .tryPass (iha.2 rfl hm) (by simp)⟩

/-- C116: a program whose assumptions are free of side effects does the same in all builds as long as no assumption is violated: each execution without a
violation in one build is the only execution of it in any other. -/
theorem builds_agree {p : Stmt σ} (hp : PureAssumptions p) (c c' : Config) (s : σ) (o : Outcome σ) :
    (Exec c.mode p s false o ↔ Exec c'.mode p s false o) ∧
    (Exec c.mode p s false o → ∀ v o', Exec c'.mode p s v o' → v = false ∧ o' = o) := by
  refine ⟨⟨fun h => (exec_transfer hp h _).1 rfl, fun h => (exec_transfer hp h _).1 rfl⟩, fun h v o' h' => ?_⟩
  obtain ⟨h1, h2⟩ := exec_deterministic h' ((exec_transfer hp h c'.mode).1 rfl)
  exact ⟨h1, h2⟩

/-- C116: a violation is an exception in a build that checks (the program is defined if its other statements are), and undefined in one that does not. -/
theorem violations {p : Stmt σ} (hp : PureAssumptions p) (c c' : Config) (s : σ) (o : Outcome σ) (h : Exec c.mode p s true o) :
    (c'.mode ≠ .check → ∀ v o', Exec c'.mode p s v o' → v = true ∧ o' = .undefined) ∧ (c'.mode ≠ .check → Exec c'.mode p s true .undefined) := by
  refine ⟨fun hm v o' h' => ?_, fun hm => (exec_transfer hp h _).2 rfl hm⟩
  exact exec_deterministic h' ((exec_transfer hp h _).2 rfl hm)

theorem checkOut_defined (x : σ → CondOut σ) (s : σ) : (checkOut x s).2 ≠ .undefined := by
  unfold checkOut
  split <;> simp

/-- C116: a build that checks has no undefined behaviour because of an assumption. -/
theorem check_defined {p : Stmt σ} (hd : Defined p) {s : σ} {v : Bool} {o : Outcome σ} (h : Exec .check p s v o) : o ≠ .undefined := by
  induction h with
  | act => exact hd _
  | assume => exact checkOut_defined _ _
  | assert => exact checkOut_defined _ _
  | seq _ _ _ ihb => exact ihb hd.2
  | seqStop _ _ iha => exact iha hd.1
  | iteTrue _ _ iha => exact iha hd.1
  | iteFalse _ _ ihb => exact ihb hd.2
  | loopEnd => simp
  | loopStep _ _ _ _ ihb => exact ihb hd
  | loopStop _ _ _ iha => exact iha hd
  | tryPass _ _ iha => exact iha hd.1
  | tryCatch _ _ _ _ ihb => exact ihb (hd.2 _)

/-- C116: which builds check: those without `NDEBUG`, those with `GUANAQO_VERIFY_ASSUMPTIONS`, and those whose compiler offers no alternative. -/
theorem checks_iff (c : Config) :
    c.mode = .check ↔ c.ndebug = false ∨ c.verify = true ∨ (c.hasAttribute = false ∧ c.libUnreachable = false ∧ c.gnuc = false ∧ c.msvc = false) := by
  obtain ⟨a, b, c, d, e, f⟩ := c
  revert a b c d e f
  decide

/-- C116: `GUANAQO_ASSUME(x)` in a build that checks throws `std::logic_error` if and only if `x` is false (or throws that itself). -/
theorem check_throws_iff (x : σ → CondOut σ) (s s' : σ) (v : Bool) :
    Exec .check (.assume x) s v (.exc .logicError s') ↔ (v = true ∧ x s = .val false s') ∨ (v = false ∧ x s = .exc .logicError s') := by
  have key : ∀ o, Exec .check (.assume x) s v o ↔ (checkOut x s) = (v, o) := by
    intro o
    constructor
    · intro h; cases h; rfl
    · intro h
      have := Exec.assume (m := .check) (x := x) (s := s)
      rw [show assumeOut .check x s = (v, o) from h] at this
      exact this
  rw [key]
  unfold checkOut
  cases x s with
  | val b s2 => cases b <;> cases v <;> simp
  | exc e s2 => cases v <;> simp

/-- The side effects matter: an assumption that holds does the same in all builds if and only if it leaves the state as it is. -/
theorem assume_agrees_iff (x : σ → CondOut σ) (s s' : σ) (hx : x s = .val true s') :
    (∀ m m' : Mode, assumeOut m x s = assumeOut m' x s) ↔ s' = s := by
  constructor
  · intro h
    have := h .check .hint
    simp only [assumeOut, checkOut, hx] at this
    cases this
    rfl
  · rintro rfl m m'
    cases m <;> cases m' <;> simp [assumeOut, checkOut, hx]

/-- The sizes of `xgemm`: `GUANAQO_ASSUME(A.rows == C.rows); GUANAQO_ASSUME(A.cols == B.rows);` and a call that changes the state, in a `try` block that
handles exceptions. -/
def sample : Stmt (Nat × Nat × Nat × Nat) :=
  .tryCatch (.seq (.assume fun s => .val (decide (s.1 = s.2.1)) s) (.seq (.assume fun s => .val (decide (s.2.1 = s.2.2.1)) s)
    (.act fun s => .normal (s.1, s.2.1, s.2.2.1, s.1 * 10)))) (fun _ => true) (fun _ => .act fun s => .normal (0, 0, 0, s.2.2.2))

example : PureAssumptions sample ∧ Defined sample := by
  refine ⟨⟨⟨fun s => ⟨_, rfl⟩, ⟨fun s => ⟨_, rfl⟩, trivial⟩⟩, fun _ => trivial⟩, ⟨trivial, trivial, ?_⟩, ?_⟩
  · simp [Defined]
  · intro e; simp [Defined]

/-- The same in all builds. -/
example (m : Mode) : Exec m sample (3, 3, 3, 0) false (.normal (3, 3, 3, 30)) := by
  have h1 : ∀ m, Exec m (Stmt.assume fun s : Nat × Nat × Nat × Nat => .val (decide (s.1 = s.2.1)) s) (3, 3, 3, 0) false (.normal (3, 3, 3, 0)) := by
    intro m; cases m <;> exact Exec.assume
  have h2 : ∀ m, Exec m (Stmt.assume fun s : Nat × Nat × Nat × Nat => .val (decide (s.2.1 = s.2.2.1)) s) (3, 3, 3, 0) false (.normal (3, 3, 3, 0)) := by
    intro m; cases m <;> exact Exec.assume
  exact .tryPass (.seq (v := false) (w := false) (h1 m) (.seq (v := false) (w := false) (h2 m) .act)) (by simp)

/-- The second assumption is violated: caught in a build that checks, undefined in the others. -/
example : Exec .check sample (3, 3, 4, 0) true (.normal (0, 0, 0, 0)) ∧ Exec .hint sample (3, 3, 4, 0) true .undefined := by
  constructor
  · exact .tryCatch (v := true) (w := false) (e := .logicError) (s' := (3, 3, 4, 0))
      (.seq (v := false) (w := true) (s' := (3, 3, 4, 0)) Exec.assume (.seqStop Exec.assume (by simp))) rfl .act
  · exact .tryPass (.seq (v := false) (w := true) (s' := (3, 3, 4, 0)) Exec.assume (.seqStop Exec.assume (by simp))) (by simp)

/-- `GUANAQO_ASSUME(++n > 0)`: not the same in all builds. -/
example : assumeOut .check (fun n : Nat => .val true (n + 1)) 0 = (false, .normal 1) ∧
    assumeOut .hint (fun n : Nat => .val true (n + 1)) 0 = (false, .normal 0) := ⟨rfl, rfl⟩

end Guanaqo.Assume
