import Verif.Dl.Props

/-!
# C149: loading libraries from several threads (dl.cpp)

`load_lib` and `load_func` ask `dlerror` whether `dlopen` or `dlsym` failed. Between these calls other threads may do the same. POSIX leaves open whether the message that `dlerror` returns is kept
for each thread (as in glibc, musl and macOS) or for the process: `slot t` is where the message of the thread `t` is kept.
-/

namespace Guanaqo.Dl.Threads

open Guanaqo.Dl

/-! ## Model -/

/-- What a thread does: a call of `load_lib` (dl.cpp:47-55) for which `dlopen` has the given outcome, a call of `load_func` (57-65), or any other call of the loader, e.g. `dlclose`, which leaves
some pending message. File names are not empty and handles not null. -/
inductive Call where
  | load (r : OpenResult)
  | func (name : List Char) (r : SymResult)
  | other (p : Option Msg)
  deriving DecidableEq, Repr

/-- Where a thread is: between calls, after the first `dlerror` (lines 50, 59), or after `dlopen` (51) or `dlsym` (60), whose value is kept. -/
inductive Pc where
  | idle
  | cleared (c : Call)
  | opened (h : Option Handle)
  | looked (name : List Char) (a : Nat)
  deriving DecidableEq, Repr

structure Thread where
  pc : Pc := .idle
  todo : List Call
  /-- what the calls of `load_lib` (the handle) and `load_func` (the address) gave -/
  results : List (Outcome Nat) := []

structure World where
  pending : Nat → Option Msg
  threads : Nat → Thread

/-- `f` with another value at `i`. -/
def upd {β : Type} (f : Nat → β) (i : Nat) (x : β) : Nat → β := fun j => if j = i then x else f j

/-- Lines 52-54 for the message that `dlerror` gave; a null handle without a message is not noticed. -/
def loadEnd (h : Option Handle) (err : Option Msg) : Outcome Nat :=
  match err with
  | some m => .loadError m
  | none =>
    match h with
    | some h => .ok h
    | none => .ub

/-- Lines 61-64. -/
def funcEnd (name : List Char) (a : Nat) (err : Option Msg) : Outcome Nat :=
  match err with
  | some m => .loadError ("Unable to load function '".toList ++ name ++ "': ".toList ++ m)
  | none => .ok a

/-- One call of the loader in the thread: the message in its slot and the thread afterwards. -/
def threadStep (p : Option Msg) (th : Thread) : Option Msg × Thread :=
  match th.pc with
  | .idle =>
    match th.todo with
    | [] => (p, th)
    | .other q :: cs => (q, { th with todo := cs })
    | c :: cs => ((dlerror { pending := p }).2.pending, { th with pc := .cleared c, todo := cs })     -- 50, 59
  | .cleared (.load r) =>
    let (h, os) := dlopen r { pending := p }                                                          -- 51
    (os.pending, { th with pc := .opened h })
  | .cleared (.func name r) =>
    let (a, os) := dlsym r { pending := p }                                                           -- 60
    (os.pending, { th with pc := .looked name a })
  | .cleared (.other _) => (p, { th with pc := .idle })
  | .opened h =>
    let (err, os) := dlerror { pending := p }                                                         -- 52
    (os.pending, { th with pc := .idle, results := th.results ++ [loadEnd h err] })
  | .looked name a =>
    let (err, os) := dlerror { pending := p }                                                         -- 61
    (os.pending, { th with pc := .idle, results := th.results ++ [funcEnd name a err] })

/-- The thread `t` makes its next call. -/
def step (slot : Nat → Nat) (w : World) (t : Nat) : World :=
  let r := threadStep (w.pending (slot t)) (w.threads t)
  { pending := upd w.pending (slot t) r.1, threads := upd w.threads t r.2 }

/-- The threads make their calls in the given order. -/
def exec (slot : Nat → Nat) : World → List Nat → World
  | w, [] => w
  | w, t :: ts => exec slot (step slot w t) ts

/-- The threads with their programs, and any messages pending. -/
def start (pending : Nat → Option Msg) (progs : Nat → List Call) : World := ⟨pending, fun t => { todo := progs t }⟩

/-! ## Specification -/

/-- What a call gives in a program without other threads (see `expected_load`, `expected_func`). -/
def expected : Call → Option (Outcome Nat)
  | .load (.fail m) => some (.loadError m)
  | .load (.ok _ (.sets m)) => some (.loadError m)
  | .load (.ok h _) => some (.ok h)
  | .func name (.missing m) => some (.loadError ("Unable to load function '".toList ++ name ++ "': ".toList ++ m))
  | .func name (.found _ (.sets m)) => some (.loadError ("Unable to load function '".toList ++ name ++ "': ".toList ++ m))
  | .func _ (.found a _) => some (.ok a)
  | .other _ => none

/-- C149, full statement: in every program of any number of threads, in every order of their calls, the calls made give what they would give without other threads, and no call is lost. -/
def Independent (slot : Nat → Nat) : Prop :=
  ∀ (pending : Nat → Option Msg) (progs : Nat → List Call) (sched : List Nat) (t : Nat),
    ∃ done rest, progs t = done ++ rest ∧ ((exec slot (start pending progs) sched).threads t).results = done.filterMap expected ∧
      ((exec slot (start pending progs) sched).threads t).todo.length + (if ((exec slot (start pending progs) sched).threads t).pc = .idle then 0 else 1) = rest.length

/-! ## Proofs -/

/-- This is `load_lib` of C89 when nothing else happens. -/
theorem expected_load (file : List Char) (hf : file ≠ []) (r : OpenResult) (s : State) :
    (∀ m, (loadLib file r true s).1 = .loadError m ↔ expected (.load r) = some (.loadError m)) ∧
    (∀ h, (∃ v, (loadLib file r true s).1 = .ok v ∧ (loadLib file r true s).2.handle v = some h) ↔ expected (.load r) = some (.ok h)) := by
  cases r with
  | fail m => simp [loadLib, hf, dlerror, dlopen, expected]
  | ok h e => cases e <;> simp [loadLib, hf, dlerror, dlopen, expected, Effect.apply, makeShared, State.handle]

/-- This is `load_func` of C89 when nothing else happens. -/
theorem expected_func (h : Handle) (name : List Char) (r : SymResult) (s : State) : expected (.func name r) = some (loadFunc (some h) name r s).1 := by
  cases r with
  | missing m => rfl
  | found a e => cases e <;> rfl

/-- What a thread has done so far, with the message in its slot. -/
def Inv (prog : List Call) (p : Option Msg) (th : Thread) : Prop :=
  match th.pc with
  | .idle => ∃ done, prog = done ++ th.todo ∧ th.results = done.filterMap expected
  | .cleared c => ∃ done, prog = done ++ c :: th.todo ∧ th.results = done.filterMap expected ∧ p = none
  | .opened h => ∃ done c, prog = done ++ c :: th.todo ∧ th.results = done.filterMap expected ∧ expected c = some (loadEnd h p)
  | .looked name a => ∃ done c, prog = done ++ c :: th.todo ∧ th.results = done.filterMap expected ∧ expected c = some (funcEnd name a p)

theorem inv_step {prog : List Call} {p : Option Msg} {th : Thread} (h : Inv prog p th) : Inv prog (threadStep p th).1 (threadStep p th).2 := by
  obtain ⟨pc, todo, results⟩ := th
  cases pc with
  | idle =>
    obtain ⟨done, h1, h2⟩ := h
    cases todo with
    | nil => exact ⟨done, h1, h2⟩
    | cons c cs =>
      cases c with
      | other q => exact ⟨done ++ [.other q], by simp at h1 ⊢; exact h1, by show results = _; simp only at h2; rw [h2]; simp [expected]⟩
      | load r => exact ⟨done, h1, h2, rfl⟩
      | func name r => exact ⟨done, h1, h2, rfl⟩
  | cleared c =>
    obtain ⟨done, h1, h2, rfl⟩ := h
    cases c with
    | other q => exact ⟨done ++ [.other q], by simp at h1 ⊢; exact h1, by show results = _; simp only at h2; rw [h2]; simp [expected]⟩
    | load r =>
      cases r with
      | fail m => exact ⟨done, _, h1, h2, rfl⟩
      | ok h e => cases e <;> exact ⟨done, _, h1, h2, rfl⟩
    | func name r =>
      cases r with
      | missing m => exact ⟨done, _, h1, h2, rfl⟩
      | found a e => cases e <;> exact ⟨done, _, h1, h2, rfl⟩
  | opened h' =>
    obtain ⟨done, c, h1, h2, h3⟩ := h
    exact ⟨done ++ [c], by simp at h1 ⊢; exact h1, by show results ++ [loadEnd h' p] = _; simp only at h2; rw [h2]; simp [h3]⟩
  | looked name a =>
    obtain ⟨done, c, h1, h2, h3⟩ := h
    exact ⟨done ++ [c], by simp at h1 ⊢; exact h1, by show results ++ [funcEnd name a p] = _; simp only at h2; rw [h2]; simp [h3]⟩

theorem exec_inv {slot : Nat → Nat} (hs : ∀ t u, slot t = slot u → t = u) (progs : Nat → List Call) (sched : List Nat) (w : World)
    (h : ∀ t, Inv (progs t) (w.pending (slot t)) (w.threads t)) (t : Nat) : Inv (progs t) ((exec slot w sched).pending (slot t)) ((exec slot w sched).threads t) := by
  induction sched generalizing w with
  | nil => exact h t
  | cons u us ih =>
    refine ih (step slot w u) fun v => ?_
    simp only [step, upd]
    by_cases hv : v = u
    · subst hv
      rw [if_pos rfl, if_pos rfl]
      exact inv_step (h v)
    · rw [if_neg fun hc => hv (hs _ _ hc), if_neg hv]
      exact h v

/-- C149, exactly: loading is independent of what other threads do if and only if no two threads share their messages. -/
theorem threads_load_partial (slot : Nat → Nat) : Independent slot ↔ ∀ t u, slot t = slot u → t = u := by
  constructor
  · intro hi t u htu
    refine Classical.byContradiction fun hne => ?_
    -- the message of the thread `t` is removed by the thread `u`
    have hne' : u ≠ t := fun h => hne h.symm
    obtain ⟨done, rest, h1, h2, h3⟩ := hi (fun _ => none) (fun v => if v = t then [.load (.fail ['m'])] else [.load (.fail ['n'])]) [t, t, u, t] t
    have e : (exec slot (start (fun _ => none) (fun v => if v = t then [.load (.fail ['m'])] else [.load (.fail ['n'])])) [t, t, u, t]).threads t = ⟨.idle, [], [.ub]⟩ := by
      simp [exec, step, start, upd, threadStep, dlerror, dlopen, htu, hne, hne', loadEnd]
    rw [e] at h2 h3
    simp only [if_true] at h1
    rcases done with _ | ⟨c, done⟩
    · cases h2
    · rw [List.cons_append] at h1
      injection h1 with h4 h5
      subst h4
      have h6 : done = [] := (List.append_eq_nil_iff.1 h5.symm).1
      subst h6
      simp [expected] at h2
  · intro hs pending progs sched t
    have h := exec_inv hs progs sched (start pending progs) (fun t => ⟨[], rfl, rfl⟩) t
    revert h
    generalize (exec slot (start pending progs) sched).threads t = th
    generalize (exec slot (start pending progs) sched).pending (slot t) = p
    intro h
    obtain ⟨pc, todo, results⟩ := th
    cases pc with
    | idle =>
      obtain ⟨done, h1, h2⟩ := h
      exact ⟨done, _, h1, h2, rfl⟩
    | cleared c =>
      obtain ⟨done, h1, h2, -⟩ := h
      exact ⟨done, _, h1, h2, by simp⟩
    | opened h' =>
      obtain ⟨done, c, h1, h2, -⟩ := h
      exact ⟨done, _, h1, h2, by simp⟩
    | looked name a =>
      obtain ⟨done, c, h1, h2, -⟩ := h
      exact ⟨done, _, h1, h2, by simp⟩

/-- A thread that takes enough steps makes all its calls, whatever the others do. -/
theorem progress {slot : Nat → Nat} (sched : List Nat) (w : World) (t : Nat)
    (h : 3 * (w.threads t).todo.length + (match (w.threads t).pc with | .idle => 0 | .cleared _ => 2 | _ => 1) ≤ sched.count t) :
    ((exec slot w sched).threads t).todo = [] ∧ ((exec slot w sched).threads t).pc = .idle := by
  induction sched generalizing w with
  | nil =>
    simp only [List.count_nil, Nat.le_zero_eq] at h
    obtain ⟨h1, h2⟩ : (w.threads t).todo.length = 0 ∧ (match (w.threads t).pc with | .idle => 0 | .cleared _ => 2 | _ => 1) = 0 := by omega
    refine ⟨List.eq_nil_of_length_eq_zero h1, ?_⟩
    show (w.threads t).pc = .idle
    cases hp : (w.threads t).pc with
    | idle => rfl
    | _ => rw [hp] at h2; simp at h2
  | cons u us ih =>
    refine ih (step slot w u) ?_
    by_cases hu : u = t
    · subst hu
      rw [List.count_cons_self] at h
      simp only [step, upd, if_true]
      revert h
      generalize w.threads u = th
      generalize w.pending (slot u) = p
      intro h
      obtain ⟨pc, todo, results⟩ := th
      cases pc with
      | idle =>
        cases todo with
        | nil => simp [threadStep]
        | cons c cs => cases c <;> simp [threadStep] at h ⊢ <;> omega
      | cleared c => cases c <;> simp [threadStep] at h ⊢ <;> omega
      | opened h' => simp [threadStep] at h ⊢; omega
      | looked name a => simp [threadStep] at h ⊢; omega
    · rw [List.count_cons_of_ne hu] at h
      simp only [step, upd, if_neg (fun h : t = u => hu h.symm)]
      exact h

/-- C149: with messages of their own, threads that make all their calls get the results of all of them. -/
theorem threads_load_all {slot : Nat → Nat} (hs : ∀ t u, slot t = slot u → t = u) (pending : Nat → Option Msg) (progs : Nat → List Call) (sched : List Nat) (t : Nat)
    (h : 3 * (progs t).length ≤ sched.count t) : ((exec slot (start pending progs) sched).threads t).results = (progs t).filterMap expected := by
  have hp := progress (slot := slot) sched (start pending progs) t (by simpa [start] using h)
  obtain ⟨done, rest, h1, h2, h3⟩ := (threads_load_partial slot).2 hs pending progs sched t
  rw [hp.1, hp.2] at h3
  simp at h3
  rw [h2, h1, List.eq_nil_of_length_eq_zero h3.symm, List.append_nil]

/-- C149 is false if the messages are kept for the whole process. -/
theorem not_independent : ¬ Independent (fun _ => 0) := fun h => absurd ((threads_load_partial _).1 h 0 1 rfl) (by decide)

/-! ## Non-vacuity -/

/-- Two threads, one of which fails: separate messages, and one message for both. -/
example : ((exec id (start (fun _ => some ['x']) (fun t => if t = 0 then [.load (.fail ['m']), .other (some ['q']), .func ['f'] (.found 7 .clears)] else [.load (.ok 5 .clears)]))
    [0, 1, 0, 1, 1, 0, 0, 0, 0, 0]).threads 0).results = [.loadError ['m'], .ok 7] := by decide
example : ((exec (fun _ => 0) (start (fun _ => none) (fun t => if t = 0 then [.load (.fail ['m'])] else [.load (.ok 5 .keeps)])) [0, 1, 1, 0, 1, 0]).threads 1).results = [.loadError ['m']] := by decide

end Guanaqo.Dl.Threads
