/-!
# C102: `TraceLogger` with ITT (trace.hpp:25-86)

With `GUANAQO_WITH_ITT` the logger keeps no records: it tells the ITT library of Intel when tasks begin and end. Modelled are loggers and scopes as
objects that hold a pointer to a domain (null or not; there is one domain, `"guanaqo"`), and the calls of the library that each operation makes.
Operations of different threads are taken one at a time: the objects are not shared (a logger is only read by `trace`) and the library is thread-safe.

Not modelled: string handles; the domain's own pointer (it lives as long as the program); the collector.
-/

namespace Guanaqo.Trace.Itt

/-! ## The model -/

/-- A call of the ITT library with a domain that is not null (with a null domain, all of these are macros that do nothing). -/
inductive Call where
  /-- `__itt_id_create(domain, __itt_id_make(nullptr, i))` -/
  | idCreate (i : Nat)
  /-- `__itt_id_destroy` -/
  | idDestroy (i : Nat)
  /-- `__itt_task_begin(domain, id, __itt_null, name)`, in thread `th` -/
  | taskBegin (th : Nat) (id : Nat) (name : String)
  /-- `__itt_task_end(domain)`, in thread `th` -/
  | taskEnd (th : Nat)
deriving DecidableEq, Repr

/-- The loggers and the `ScopedLog` objects that exist, by name, with their member `domain`: is it not null? -/
structure St where
  loggers : Nat → Option Bool
  scopes : Nat → Option Bool

def St.init : St := ⟨fun _ => none, fun _ => none⟩

/-- What a program does. -/
inductive Act where
  /-- a logger `l` is constructed; `__itt_domain_create` returns null unless `dom` -/
  | new (l : Nat) (dom : Bool)
  /-- `TraceLogger b{std::move(a)}` -/
  | moveLogger (a b : Nat)
  /-- the destructor of a logger -/
  | destroy (l : Nat)
  /-- thread `th`: `ScopedLog o = l.trace(name, inst)` -/
  | trace (th l o : Nat) (name : String) (inst : Int)
  /-- `ScopedLog b{std::move(a)}` -/
  | moveScope (a b : Nat)
  /-- thread `th` destroys the scope `o` -/
  | close (th o : Nat)
  /-- `l.reset()` -/
  | reset (l : Nat)

def upd {α : Type} (f : Nat → Option α) (k : Nat) (v : Option α) : Nat → Option α := fun i => if i = k then v else f i

/-- trace.hpp:32 -/
def maxInstanceNum : Int := 255

/-- trace.hpp:34-37 and 49-52: the loop over all the ids. -/
def forIds (c : Nat → Call) : List Call := (List.range (maxInstanceNum + 1).toNat).map c

/-- trace.hpp:61: `std::clamp<int64_t>(instance, 0, max_instance_num)`. -/
def clamp (inst : Int) : Int := if inst < 0 then 0 else if maxInstanceNum < inst then maxInstanceNum else inst

/-- One operation: the new state and the calls that are made. `none`: the program is wrong (it uses an object that does not exist, or constructs
one in place of another). -/
def step (s : St) : Act → Option (St × List Call)
  -- trace.hpp:31-38
  | .new l dom => if s.loggers l = none then some ({ s with loggers := upd s.loggers l (some dom) }, if dom then forIds .idCreate else []) else none
  -- trace.hpp:43-44
  | .moveLogger a b =>
    match s.loggers a with
    | some d => if s.loggers b = none then some ({ s with loggers := upd (upd s.loggers a (some false)) b (some d) }, []) else none
    | none => none
  -- trace.hpp:46-53
  | .destroy l =>
    match s.loggers l with
    | some d => some ({ s with loggers := upd s.loggers l none }, if d then forIds .idDestroy else [])
    | none => none
  -- trace.hpp:55-65 and 78-81
  | .trace th l o name inst =>
    match s.loggers l with
    | some d =>
      if s.scopes o = none then
        some ({ s with scopes := upd s.scopes o (some d) }, if d then [.taskBegin th (clamp inst).toNat name] else [])
      else none
    | none => none
  -- trace.hpp:68-69
  | .moveScope a b =>
    match s.scopes a with
    | some d => if s.scopes b = none then some ({ s with scopes := upd (upd s.scopes a (some false)) b (some d) }, []) else none
    | none => none
  -- trace.hpp:71-75
  | .close th o =>
    match s.scopes o with
    | some d => some ({ s with scopes := upd s.scopes o none }, if d then [.taskEnd th] else [])
    | none => none
  -- trace.hpp:85
  | .reset l => match s.loggers l with
    | some _ => some (s, [])
    | none => none

/-- trace.hpp:83: `get_logs()`. -/
def getLogs (_ : St) : List Unit := []

/-- A program: all the calls, in order. -/
def run : St → List Act → Option (St × List Call)
  | s, [] => some (s, [])
  | s, a :: as =>
    match step s a with
    | none => none
    | some (s', cs) =>
      match run s' as with
      | none => none
      | some (s'', cs') => some (s'', cs ++ cs')

/-! ## Specification: the tasks

What the collector shows: every thread has a stack of tasks; `taskBegin` pushes a new one and `taskEnd` ends the one on top. Tasks are numbered in the
order in which they begin. -/

structure View where
  /-- the number of tasks so far -/
  next : Nat := 0
  /-- of each thread, the tasks in progress -/
  stack : Nat → List Nat := fun _ => []
  /-- who began the task, with which id and name -/
  info : Nat → Option (Nat × Nat × String) := fun _ => none
  /-- the tasks that have ended -/
  ended : List Nat := []

/-- A call, as the collector sees it. A `taskEnd` with no task in progress has no effect. -/
def View.call (v : View) : Call → View
  | .taskBegin th id name =>
    { v with next := v.next + 1, stack := fun t => if t = th then v.next :: v.stack t else v.stack t, info := upd v.info v.next (some (th, id, name)) }
  | .taskEnd th =>
    match v.stack th with
    | [] => v
    | n :: ns => { v with stack := fun t => if t = th then ns else v.stack t, ended := n :: v.ended }
  | _ => v

def view (cs : List Call) : View := cs.foldl View.call {}

/-- Which task belongs to which scope, as the user sees it: the scope that `trace` returns has the task that begins there; moving a scope moves the task. -/
structure Owners where
  /-- the number of tasks so far -/
  next : Nat := 0
  /-- the loggers that trace: those constructed with a domain and not moved from -/
  active : Nat → Bool := fun _ => false
  /-- the task of each scope -/
  task : Nat → Option Nat := fun _ => none
  /-- the thread that began it -/
  thread : Nat → Option Nat := fun _ => none

def updB (f : Nat → Bool) (k : Nat) (v : Bool) : Nat → Bool := fun i => if i = k then v else f i

def Owners.step (w : Owners) : Act → Owners
  | .new l dom => { w with active := updB w.active l dom }
  | .moveLogger a b => { w with active := updB (updB w.active a false) b (w.active a) }
  | .destroy l => { w with active := updB w.active l false }
  | .trace th l o _ _ =>
    if w.active l then { w with next := w.next + 1, task := upd w.task o (some w.next), thread := upd w.thread w.next (some th) }
    else { w with task := upd w.task o none }
  | .moveScope a b => { w with task := upd (upd w.task a none) b (w.task a) }
  | .close _ o => { w with task := upd w.task o none }
  | .reset _ => w

def owners (as : List Act) : Owners := as.foldl Owners.step {}

/-- The rules that the macro `GUANAQO_TRACE` obeys (its scope is a local constant): a scope is destroyed by the thread that opened it, after all those that this
thread opened later. -/
def NestedClose (w : Owners) (th o : Nat) : Prop :=
  ∀ n, w.task o = some n → w.thread n = some th ∧ ∀ m, n < m → w.thread m = some th → ∀ o', w.task o' ≠ some m

def Nested : Owners → List Act → Prop
  | _, [] => True
  | w, a :: as => (match a with | .close th o => NestedClose w th o | _ => True) ∧ Nested (w.step a) as

/-- C102, in full: whatever a correct program does, destroying a scope ends the task of the scope (and nothing if it has none). -/
def EndsOwnTask : Prop :=
  ∀ (as : List Act) (th o : Nat) (s : St) (cs : List Call), run St.init (as ++ [.close th o]) = some (s, cs) →
    ∃ s₀ cs₀, run St.init as = some (s₀, cs₀) ∧
      (view cs).ended = (match (owners as).task o with | some n => [n] | none => []) ++ (view cs₀).ended

/-! ## Proofs -/

theorem upd_same {α : Type} (f : Nat → Option α) (k : Nat) (v : Option α) : upd f k v k = v := by simp [upd]
theorem upd_ne {α : Type} (f : Nat → Option α) {k i : Nat} (v : Option α) (h : i ≠ k) : upd f k v i = f i := by simp [upd, h]

theorem run_append {s : St} {as bs : List Act} {s' : St} {cs : List Call} (h : run s (as ++ bs) = some (s', cs)) :
    ∃ s₁ c₁ c₂, run s as = some (s₁, c₁) ∧ run s₁ bs = some (s', c₂) ∧ cs = c₁ ++ c₂ := by
  induction as generalizing s cs with
  | nil => exact ⟨s, [], cs, rfl, h, rfl⟩
  | cons a as ih =>
    simp only [List.cons_append, run] at h
    cases ha : step s a with
    | none => rw [ha] at h; cases h
    | some p =>
      obtain ⟨s1, c1⟩ := p
      rw [ha] at h
      dsimp only at h
      cases hr : run s1 (as ++ bs) with
      | none => rw [hr] at h; cases h
      | some q =>
        obtain ⟨s2, c2⟩ := q
        rw [hr] at h
        cases h
        obtain ⟨s3, c3, c4, h1, h2, h3⟩ := ih hr
        refine ⟨s3, c1 ++ c3, c4, ?_, h2, by rw [h3, List.append_assoc]⟩
        simp only [run, ha, h1]

/-- The ids are between 0 and 255: a smaller instance number becomes 0, a larger one 255. -/
theorem clamp_spec (inst : Int) : 0 ≤ clamp inst ∧ clamp inst ≤ 255 ∧ (0 ≤ inst → inst ≤ 255 → clamp inst = inst) ∧
    (inst < 0 → clamp inst = 0) ∧ (255 < inst → clamp inst = 255) := by
  unfold clamp maxInstanceNum
  refine ⟨?_, ?_, ?_, ?_, ?_⟩ <;> (repeat' split) <;> omega

/-- `get_logs` returns nothing and `reset` does nothing. -/
theorem no_records (s : St) (l : Nat) : getLogs s = [] ∧ ∀ s' cs, step s (.reset l) = some (s', cs) → s' = s ∧ cs = [] := by
  refine ⟨rfl, fun s' cs h => ?_⟩
  simp only [step] at h
  cases hl : s.loggers l with
  | none => rw [hl] at h; cases h
  | some d => rw [hl] at h; cases h; exact ⟨rfl, rfl⟩

/-! ### The invariant of all programs -/

/-- How often a call was made. -/
def countBegin (cs : List Call) : Nat := cs.countP fun c => match c with | .taskBegin .. => true | _ => false
def countEnd (cs : List Call) : Nat := cs.countP fun c => match c with | .taskEnd .. => true | _ => false

/-- The names in `xs` are those whose entry in `f` is `some true`. -/
def Lists (f : Nat → Option Bool) (xs : List Nat) : Prop := xs.Nodup ∧ ∀ i, i ∈ xs ↔ f i = some true

theorem Lists.add {f : Nat → Option Bool} {xs : List Nat} (h : Lists f xs) {k : Nat} (hk : f k = none) (d : Bool) :
    Lists (upd f k (some d)) (if d then k :: xs else xs) := by
  have hnot : k ∉ xs := fun hm => by rw [(h.2 k).1 hm] at hk; cases hk
  cases d with
  | true =>
    refine ⟨List.nodup_cons.2 ⟨hnot, h.1⟩, fun i => ?_⟩
    by_cases hi : i = k
    · subst hi; simp [upd_same]
    · rw [upd_ne _ _ hi]; simp [hi, h.2 i]
  | false =>
    refine ⟨h.1, fun i => ?_⟩
    by_cases hi : i = k
    · subst hi; simp [upd_same, hnot]
    · rw [upd_ne _ _ hi]; simp [h.2 i]

theorem Lists.remove {f : Nat → Option Bool} {xs : List Nat} (h : Lists f xs) {k : Nat} {v : Option Bool} (hv : v ≠ some true) {d : Bool}
    (hk : f k = some d) : Lists (upd f k v) (if d then xs.erase k else xs) := by
  cases d with
  | true =>
    refine ⟨h.1.erase k, fun i => ?_⟩
    rw [if_pos rfl, h.1.mem_erase_iff]
    by_cases hi : i = k
    · subst hi; simp [upd_same, hv]
    · rw [upd_ne _ _ hi]; simp [hi, h.2 i]
  | false =>
    have hnot : k ∉ xs := fun hm => by rw [(h.2 k).1 hm] at hk; cases hk
    refine ⟨h.1, fun i => ?_⟩
    by_cases hi : i = k
    · subst hi; simp [upd_same, hnot, hv]
    · rw [upd_ne _ _ hi]; simp [h.2 i]

theorem Lists.move {f : Nat → Option Bool} {xs : List Nat} (h : Lists f xs) {a b : Nat} {d : Bool} (ha : f a = some d) (hb : f b = none) :
    ∃ ys, Lists (upd (upd f a (some false)) b (some d)) ys ∧ ys.length = xs.length := by
  have hab : b ≠ a := by rintro rfl; rw [ha] at hb; cases hb
  have h1 := h.remove (v := some false) (by decide) ha
  have h2 := h1.add (k := b) (by rw [upd_ne _ _ hab, hb]) d
  refine ⟨_, h2, ?_⟩
  cases d with
  | false => rfl
  | true =>
    have hm : a ∈ xs := (h.2 a).2 ha
    simp only [if_true, List.length_cons, List.length_erase_of_mem hm]
    have := List.length_pos_of_mem hm
    omega

theorem count_map {α β : Type} [DecidableEq α] [DecidableEq β] (c : α → β) (hc : ∀ a b, c a = c b → a = b) (xs : List α) (i : α) :
    (xs.map c).count (c i) = xs.count i := by
  induction xs with
  | nil => rfl
  | cons x xs ih =>
    simp only [List.map_cons, List.count_cons, ih]
    by_cases h : x = i
    · subst h; simp
    · have : c x ≠ c i := fun he => h (hc _ _ he)
      simp [h, this]

theorem count_forIds (c : Nat → Call) (hc : ∀ a b, c a = c b → a = b) (i : Nat) : (forIds c).count (c i) = if i ≤ 255 then 1 else 0 := by
  unfold forIds
  rw [count_map c hc]
  have hn : (maxInstanceNum + 1).toNat = 256 := by decide
  rw [hn]
  by_cases h : i ≤ 255
  · rw [if_pos h]; exact (List.nodup_range.count (a := i)).trans (if_pos (by simp; omega))
  · rw [if_neg h]; exact List.count_eq_zero.2 (by simp; omega)

theorem count_forIds_ne (c : Nat → Call) (x : Call) (hc : ∀ a, c a ≠ x) : (forIds c).count x = 0 := by
  unfold forIds
  refine List.count_eq_zero.2 fun h => ?_
  obtain ⟨i, _, hi⟩ := List.mem_map.1 h
  exact hc i hi

/-- What holds after every program. -/
structure Balanced (s : St) (cs : List Call) : Prop where
  ids : ∃ live, Lists s.loggers live ∧ ∀ i ≤ 255, cs.count (.idCreate i) = cs.count (.idDestroy i) + live.length
  only : ∀ i, 255 < i → cs.count (.idCreate i) = 0 ∧ cs.count (.idDestroy i) = 0
  tasks : ∃ opened, Lists s.scopes opened ∧ countBegin cs = countEnd cs + opened.length

theorem countP_forIds (c : Nat → Call) (p : Call → Bool) (h : ∀ i, p (c i) = false) : (forIds c).countP p = 0 := by
  rw [List.countP_eq_zero]
  intro x hx
  obtain ⟨i, _, rfl⟩ := List.mem_map.1 hx
  simp [h i]

theorem Balanced.step {s : St} {cs : List Call} (h : Balanced s cs) {a : Act} {s' : St} {c : List Call} (hs : Itt.step s a = some (s', c)) :
    Balanced s' (cs ++ c) := by
  obtain ⟨⟨live, hl, hid⟩, honly, opened, ho, ht⟩ := h
  have key : ∀ (s' : St) (c : List Call) (live' opened' : List Nat), Lists s'.loggers live' → Lists s'.scopes opened' →
      (∀ i ≤ 255, c.count (.idCreate i) + live.length = c.count (.idDestroy i) + live'.length) →
      (∀ i, 255 < i → c.count (.idCreate i) = 0 ∧ c.count (.idDestroy i) = 0) →
      countBegin c + opened.length = countEnd c + opened'.length → Balanced s' (cs ++ c) := by
    intro s' c live' opened' h1 h2 h3 h4 h5
    refine ⟨⟨live', h1, fun i hi => ?_⟩, fun i hi => ?_, opened', h2, ?_⟩
    · rw [List.count_append, List.count_append]
      have := hid i hi; have := h3 i hi; omega
    · rw [List.count_append, List.count_append]
      have := honly i hi; have := h4 i hi; omega
    · unfold countBegin countEnd at *
      rw [List.countP_append, List.countP_append]; omega
  have hcc : ∀ a b, Call.idCreate a = Call.idCreate b → a = b := fun a b h => by cases h; rfl
  have hdd : ∀ a b, Call.idDestroy a = Call.idDestroy b → a = b := fun a b h => by cases h; rfl
  cases a with
  | new l dom =>
    simp only [Itt.step] at hs
    split at hs
    · rename_i hn
      cases hs
      refine key _ _ _ opened (hl.add hn dom) ho ?_ ?_ ?_
      · intro i hi
        cases dom with
        | false => simp
        | true =>
          simp only [if_true]
          rw [count_forIds _ hcc, count_forIds_ne _ _ (by intro a h; cases h), if_pos hi, List.length_cons]; omega
      · intro i hi
        cases dom with
        | false => simp
        | true =>
          simp only [if_true]
          rw [count_forIds _ hcc, count_forIds_ne _ _ (by intro a h; cases h), if_neg (by omega)]; exact ⟨rfl, rfl⟩
      · cases dom with
        | false => simp [countBegin, countEnd]
        | true =>
          simp only [if_true, countBegin, countEnd]
          rw [countP_forIds _ _ (fun i => rfl), countP_forIds _ _ (fun i => rfl)]
    · cases hs
  | moveLogger a b =>
    simp only [Itt.step] at hs
    cases ha : s.loggers a with
    | none => rw [ha] at hs; cases hs
    | some d =>
      rw [ha] at hs
      dsimp only at hs
      split at hs
      · rename_i hb
        cases hs
        obtain ⟨ys, h1, h2⟩ := hl.move ha hb
        exact key _ _ ys opened h1 ho (by intro i _; simp [h2]) (by intro i _; simp) rfl
      · cases hs
  | destroy l =>
    simp only [Itt.step] at hs
    cases ha : s.loggers l with
    | none => rw [ha] at hs; cases hs
    | some d =>
      rw [ha] at hs
      cases hs
      refine key _ _ _ opened (hl.remove (v := none) (by decide) ha) ho ?_ ?_ ?_
      · intro i hi
        cases d with
        | false => simp
        | true =>
          have hm : l ∈ live := (hl.2 l).2 ha
          have := List.length_pos_of_mem hm
          simp only [if_true]
          rw [count_forIds _ hdd, count_forIds_ne _ _ (by intro a h; cases h), if_pos hi, List.length_erase_of_mem hm]; omega
      · intro i hi
        cases d with
        | false => simp
        | true =>
          simp only [if_true]
          rw [count_forIds _ hdd, count_forIds_ne _ _ (by intro a h; cases h), if_neg (by omega)]; exact ⟨rfl, rfl⟩
      · cases d with
        | false => simp [countBegin, countEnd]
        | true =>
          simp only [if_true, countBegin, countEnd]
          rw [countP_forIds _ _ (fun i => rfl), countP_forIds _ _ (fun i => rfl)]
  | trace th l o name inst =>
    simp only [Itt.step] at hs
    cases ha : s.loggers l with
    | none => rw [ha] at hs; cases hs
    | some d =>
      rw [ha] at hs
      dsimp only at hs
      split at hs
      · rename_i hn
        cases hs
        refine key _ _ live _ hl (ho.add hn d) ?_ ?_ ?_
        · intro i _; cases d <;> simp
        · intro i _; cases d <;> simp
        · cases d
          · simp [countBegin, countEnd]
          · simp [countBegin, countEnd]; omega
      · cases hs
  | moveScope a b =>
    simp only [Itt.step] at hs
    cases ha : s.scopes a with
    | none => rw [ha] at hs; cases hs
    | some d =>
      rw [ha] at hs
      dsimp only at hs
      split at hs
      · rename_i hb
        cases hs
        obtain ⟨ys, h1, h2⟩ := ho.move ha hb
        exact key _ _ live ys hl h1 (by intro i _; simp) (by intro i _; simp) (by simp [countBegin, countEnd, h2])
      · cases hs
  | close th o =>
    simp only [Itt.step] at hs
    cases ha : s.scopes o with
    | none => rw [ha] at hs; cases hs
    | some d =>
      rw [ha] at hs
      cases hs
      refine key _ _ live _ hl (ho.remove (v := none) (by decide) ha) ?_ ?_ ?_
      · intro i _; cases d <;> simp
      · intro i _; cases d <;> simp
      · cases d with
        | false => simp [countBegin, countEnd]
        | true =>
          have hm : o ∈ opened := (ho.2 o).2 ha
          have := List.length_pos_of_mem hm
          simp [countBegin, countEnd, List.length_erase_of_mem hm]; omega
  | reset l =>
    simp only [Itt.step] at hs
    cases ha : s.loggers l with
    | none => rw [ha] at hs; cases hs
    | some d =>
      rw [ha] at hs
      cases hs
      exact key _ _ live opened hl ho (by intro i _; simp) (by intro i _; simp) rfl

theorem Balanced.run {s : St} {cs : List Call} (h : Balanced s cs) {as : List Act} {s' : St} {c : List Call} (hs : Itt.run s as = some (s', c)) :
    Balanced s' (cs ++ c) := by
  induction as generalizing s cs c with
  | nil => cases hs; simpa using h
  | cons a as ih =>
    simp only [Itt.run] at hs
    cases ha : Itt.step s a with
    | none => rw [ha] at hs; cases hs
    | some p =>
      obtain ⟨s1, c1⟩ := p
      rw [ha] at hs
      dsimp only at hs
      cases hr : Itt.run s1 as with
      | none => rw [hr] at hs; cases hs
      | some q =>
        obtain ⟨s2, c2⟩ := q
        rw [hr] at hs
        cases hs
        have := ih (h.step ha) hr
        rwa [List.append_assoc] at this

/-- C102. After every program: each of the ids 0 to 255 has been created as many times as destroyed plus once for each logger that exists and traces, and
no other id was; and as many tasks have begun as have ended plus the number of scopes that exist and have one. -/
theorem itt_balanced {as : List Act} {s : St} {cs : List Call} (h : run St.init as = some (s, cs)) : Balanced s cs := by
  have h0 : Balanced St.init [] :=
    ⟨⟨[], ⟨List.nodup_nil, fun i => by simp [St.init]⟩, fun i _ => rfl⟩, fun i _ => ⟨rfl, rfl⟩, [], ⟨List.nodup_nil, fun i => by simp [St.init]⟩, rfl⟩
  simpa using h0.run h

/-- C102: when all loggers and scopes are gone, all the ids have been destroyed and all the tasks have been ended. -/
theorem itt_all_gone {as : List Act} {s : St} {cs : List Call} (h : run St.init as = some (s, cs)) (hl : ∀ l, s.loggers l = none)
    (ho : ∀ o, s.scopes o = none) : (∀ i, cs.count (.idCreate i) = cs.count (.idDestroy i)) ∧ countBegin cs = countEnd cs := by
  obtain ⟨⟨live, h1, h2⟩, h3, opened, h4, h5⟩ := itt_balanced h
  have e1 : live = [] := List.eq_nil_iff_forall_not_mem.2 fun i hi => by have := (h1.2 i).1 hi; rw [hl i] at this; cases this
  have e2 : opened = [] := List.eq_nil_iff_forall_not_mem.2 fun i hi => by have := (h4.2 i).1 hi; rw [ho i] at this; cases this
  subst e1 e2
  refine ⟨fun i => ?_, by simpa using h5⟩
  by_cases hi : i ≤ 255
  · simpa using h2 i hi
  · rw [(h3 i (by omega)).1, (h3 i (by omega)).2]

/-- C102: a task begins with an id that exists at that time. -/
theorem itt_begin_registered {as : List Act} {s s' : St} {cs c : List Call} (h : run St.init as = some (s, cs)) {th l o : Nat} {name : String} {inst : Int}
    (hs : step s (.trace th l o name inst) = some (s', c)) :
    (s.loggers l = some true ∧ c = [.taskBegin th (clamp inst).toNat name] ∧
      cs.count (.idDestroy (clamp inst).toNat) < cs.count (.idCreate (clamp inst).toNat)) ∨
    (s.loggers l = some false ∧ c = []) := by
  simp only [step] at hs
  cases ha : s.loggers l with
  | none => rw [ha] at hs; cases hs
  | some d =>
    rw [ha] at hs
    dsimp only at hs
    split at hs
    · cases hs
      cases d with
      | false => right; exact ⟨rfl, rfl⟩
      | true =>
        left
        refine ⟨rfl, rfl, ?_⟩
        obtain ⟨⟨live, h1, h2⟩, _⟩ := itt_balanced h
        have := List.length_pos_of_mem ((h1.2 l).2 ha)
        have hc := clamp_spec inst
        have := h2 (clamp inst).toNat (by omega)
        omega
    · cases hs

/-! ### Which task ends -/

/-- The task that a scope has, for all programs. -/
structure Owns (s : St) (v : View) (w : Owners) : Prop where
  next : w.next = v.next
  active : ∀ l, w.active l = true ↔ s.loggers l = some true
  task : ∀ o, s.scopes o = some true ↔ ∃ n, w.task o = some n
  lt : ∀ o n, w.task o = some n → n < w.next
  inj : ∀ o o' n, w.task o = some n → w.task o' = some n → o = o'
  thread : ∀ n, w.thread n = (v.info n).map (·.1)
  fresh : ∀ n, w.next ≤ n → w.thread n = none

theorem view_append (cs c : List Call) : view (cs ++ c) = c.foldl View.call (view cs) := List.foldl_append ..

theorem foldl_ids (c : Nat → Call) (hc : ∀ (v : View) i, v.call (c i) = v) (v : View) : (forIds c).foldl View.call v = v := by
  unfold forIds
  induction List.range (maxInstanceNum + 1).toNat with
  | nil => rfl
  | cons x xs ih => simp only [List.map_cons, List.foldl_cons, hc, ih]

theorem Owns.congr {s s' : St} {v v' : View} {w : Owners} (h : Owns s v w) (h1 : s'.loggers = s.loggers) (h2 : s'.scopes = s.scopes)
    (h3 : v'.next = v.next) (h4 : v'.info = v.info) : Owns s' v' w :=
  ⟨h.next.trans h3.symm, by rw [h1]; exact h.active, by rw [h2]; exact h.task, h.lt, h.inj, by rw [h4]; exact h.thread, h.fresh⟩

theorem end_next (v : View) (th : Nat) : (v.call (.taskEnd th)).next = v.next ∧ (v.call (.taskEnd th)).info = v.info := by
  simp only [View.call]
  cases v.stack th with
  | nil => exact ⟨rfl, rfl⟩
  | cons n ns => exact ⟨rfl, rfl⟩

theorem Owns.step {s : St} {cs : List Call} {w : Owners} (h : Owns s (view cs) w) {a : Act} {s' : St} {c : List Call}
    (hs : Itt.step s a = some (s', c)) : Owns s' (view (cs ++ c)) (w.step a) := by
  rw [view_append]
  obtain ⟨v, hv⟩ : ∃ v, view cs = v := ⟨_, rfl⟩
  rw [hv] at h ⊢
  cases a with
  | new l dom =>
    simp only [Itt.step] at hs
    split at hs
    · cases hs
      have hf : (if dom then forIds Call.idCreate else []).foldl View.call v = v := by
        cases dom
        · rfl
        · exact foldl_ids _ (fun _ _ => rfl) v
      rw [hf]
      refine ⟨h.next, fun i => ?_, h.task, h.lt, h.inj, h.thread, h.fresh⟩
      simp only [Owners.step, updB, upd]
      by_cases hi : i = l
      · simp [hi]
      · simp only [hi, if_false]; exact h.active i
    · cases hs
  | moveLogger a b =>
    simp only [Itt.step] at hs
    cases ha : s.loggers a with
    | none => rw [ha] at hs; cases hs
    | some d =>
      rw [ha] at hs
      dsimp only at hs
      split at hs
      · cases hs
        refine ⟨h.next, fun i => ?_, h.task, h.lt, h.inj, h.thread, h.fresh⟩
        simp only [Owners.step, updB, upd]
        by_cases hi : i = b
        · have := h.active a
          rw [ha] at this
          simp only [hi, if_true]; exact this
        · by_cases hia : i = a
          · rw [if_neg hi, if_pos hia, if_neg hi, if_pos hia]; simp
          · simp only [hi, hia, if_false]; exact h.active i
      · cases hs
  | destroy l =>
    simp only [Itt.step] at hs
    cases ha : s.loggers l with
    | none => rw [ha] at hs; cases hs
    | some d =>
      rw [ha] at hs
      cases hs
      have hf : (if d then forIds Call.idDestroy else []).foldl View.call v = v := by
        cases d
        · rfl
        · exact foldl_ids _ (fun _ _ => rfl) v
      rw [hf]
      refine ⟨h.next, fun i => ?_, h.task, h.lt, h.inj, h.thread, h.fresh⟩
      simp only [Owners.step, updB, upd]
      by_cases hi : i = l
      · simp [hi]
      · simp only [hi, if_false]; exact h.active i
  | trace th l o name inst =>
    simp only [Itt.step] at hs
    cases ha : s.loggers l with
    | none => rw [ha] at hs; cases hs
    | some d =>
      rw [ha] at hs
      dsimp only at hs
      split at hs
      · rename_i hn
        cases hs
        have hact := h.active l
        rw [ha] at hact
        have hnone : w.task o = none := by
          cases ht : w.task o with
          | none => rfl
          | some n => have := (h.task o).2 ⟨n, ht⟩; rw [hn] at this; cases this
        cases d with
        | false =>
          have hf : w.active l = false := by
            cases hw : w.active l with
            | false => rfl
            | true => exact absurd (hact.1 hw) (by decide)
          simp only [Owners.step, hf, Bool.false_eq_true, if_false, List.foldl_nil]
          refine ⟨h.next, h.active, fun i => ?_, fun i n hi => ?_, fun i j n hi hj => ?_, h.thread, h.fresh⟩
          · dsimp only
            by_cases hio : i = o
            · subst hio; simp [upd_same]
            · rw [upd_ne _ _ hio, upd_ne _ _ hio]; exact h.task i
          · dsimp only at hi ⊢
            by_cases hio : i = o
            · subst hio; rw [upd_same] at hi; cases hi
            · rw [upd_ne _ _ hio] at hi; exact h.lt i n hi
          · dsimp only at hi hj
            by_cases hio : i = o
            · subst hio; rw [upd_same] at hi; cases hi
            · by_cases hjo : j = o
              · subst hjo; rw [upd_same] at hj; cases hj
              · rw [upd_ne _ _ hio] at hi; rw [upd_ne _ _ hjo] at hj; exact h.inj i j n hi hj
        | true =>
          have hf : w.active l = true := hact.2 rfl
          simp only [Owners.step, hf, if_true, List.foldl_cons, List.foldl_nil, View.call]
          refine ⟨by rw [← h.next], h.active, fun i => ?_, fun i n hi => ?_, fun i j n hi hj => ?_, fun n => ?_, fun n hn => ?_⟩
          · dsimp only
            by_cases hio : i = o
            · subst hio; simp [upd_same]
            · rw [upd_ne _ _ hio, upd_ne _ _ hio]; exact h.task i
          · dsimp only at hi ⊢
            by_cases hio : i = o
            · subst hio; rw [upd_same] at hi; cases hi; exact Nat.lt_succ_self _
            · rw [upd_ne _ _ hio] at hi; exact Nat.lt_succ_of_lt (h.lt i n hi)
          · dsimp only at hi hj
            by_cases hio : i = o
            · by_cases hjo : j = o
              · rw [hio, hjo]
              · rw [hio, upd_same] at hi; rw [upd_ne _ _ hjo] at hj
                cases hi
                exact absurd (h.lt j _ hj) (Nat.lt_irrefl _)
            · by_cases hjo : j = o
              · rw [hjo, upd_same] at hj; rw [upd_ne _ _ hio] at hi
                cases hj
                exact absurd (h.lt i _ hi) (Nat.lt_irrefl _)
              · rw [upd_ne _ _ hio] at hi; rw [upd_ne _ _ hjo] at hj; exact h.inj i j n hi hj
          · rw [← h.next]
            dsimp only
            by_cases hnn : n = w.next
            · subst hnn; simp [upd_same]
            · rw [upd_ne _ _ hnn, upd_ne _ _ hnn]; exact h.thread n
          · have hn : w.next + 1 ≤ n := hn
            have hne : n ≠ w.next := by omega
            dsimp only
            rw [upd_ne _ _ hne]; exact h.fresh n (by omega)
      · cases hs
  | moveScope a b =>
    simp only [Itt.step] at hs
    cases ha : s.scopes a with
    | none => rw [ha] at hs; cases hs
    | some d =>
      rw [ha] at hs
      dsimp only at hs
      split at hs
      · rename_i hb
        cases hs
        have hab : b ≠ a := by rintro rfl; rw [ha] at hb; cases hb
        have key : ∀ i n, (w.step (.moveScope a b)).task i = some n → (i = b ∧ w.task a = some n) ∨ (i ≠ b ∧ i ≠ a ∧ w.task i = some n) := by
          intro i n hi
          simp only [Owners.step] at hi
          by_cases hib : i = b
          · subst hib; rw [upd_same] at hi; exact .inl ⟨rfl, hi⟩
          · rw [upd_ne _ _ hib] at hi
            by_cases hia : i = a
            · subst hia; rw [upd_same] at hi; cases hi
            · rw [upd_ne _ _ hia] at hi; exact .inr ⟨hib, hia, hi⟩
        refine ⟨h.next, h.active, fun i => ?_, fun i n hi => ?_, fun i j n hi hj => ?_, h.thread, h.fresh⟩
        · simp only [Owners.step]
          by_cases hib : i = b
          · subst hib; rw [upd_same, upd_same, ← ha]; exact h.task a
          · rw [upd_ne _ _ hib, upd_ne _ _ hib]
            by_cases hia : i = a
            · subst hia; simp [upd_same]
            · rw [upd_ne _ _ hia, upd_ne _ _ hia]; exact h.task i
        · rcases key i n hi with ⟨_, h1⟩ | ⟨_, _, h1⟩
          · exact h.lt a n h1
          · exact h.lt i n h1
        · rcases key i n hi with ⟨h0, h1⟩ | ⟨_, h0, h1⟩ <;> rcases key j n hj with ⟨h0', h1'⟩ | ⟨_, h0', h1'⟩
          · rw [h0, h0']
          · exact absurd (h.inj a j n h1 h1').symm h0'
          · exact absurd (h.inj i a n h1 h1') h0
          · exact h.inj i j n h1 h1'
      · cases hs
  | close th o =>
    simp only [Itt.step] at hs
    cases ha : s.scopes o with
    | none => rw [ha] at hs; cases hs
    | some d =>
      rw [ha] at hs
      cases hs
      have hv' : Owns s ((if d then [Call.taskEnd th] else []).foldl View.call v) w := by
        cases d with
        | false => exact h
        | true => exact h.congr rfl rfl (end_next v th).1 (end_next v th).2
      refine ⟨hv'.next, hv'.active, fun i => ?_, fun i n hi => ?_, fun i j n hi hj => ?_, hv'.thread, hv'.fresh⟩
      · simp only [Owners.step]
        by_cases hio : i = o
        · subst hio; simp [upd_same]
        · rw [upd_ne _ _ hio, upd_ne _ _ hio]; exact h.task i
      · simp only [Owners.step] at hi
        by_cases hio : i = o
        · subst hio; rw [upd_same] at hi; cases hi
        · rw [upd_ne _ _ hio] at hi; exact h.lt i n hi
      · simp only [Owners.step] at hi hj
        by_cases hio : i = o
        · subst hio; rw [upd_same] at hi; cases hi
        · by_cases hjo : j = o
          · subst hjo; rw [upd_same] at hj; cases hj
          · rw [upd_ne _ _ hio] at hi; rw [upd_ne _ _ hjo] at hj; exact h.inj i j n hi hj
  | reset l =>
    simp only [Itt.step] at hs
    cases ha : s.loggers l with
    | none => rw [ha] at hs; cases hs
    | some d => rw [ha] at hs; cases hs; exact h

/-- What holds in addition if the scopes are nested: the tasks in progress of a thread are those of its scopes, the latest first. -/
structure InOrder (v : View) (w : Owners) : Prop where
  sorted : ∀ th, (v.stack th).Pairwise (· > ·)
  mem : ∀ th n, n ∈ v.stack th ↔ w.thread n = some th ∧ ∃ o, w.task o = some n
  ended : v.ended.Nodup ∧ ∀ n, n ∈ v.ended ↔ n < v.next ∧ ∀ o, w.task o ≠ some n

theorem InOrder.congr {v : View} {w w' : Owners} (h : InOrder v w) (ht : ∀ n, (∃ o, w'.task o = some n) ↔ ∃ o, w.task o = some n)
    (hth : w'.thread = w.thread) : InOrder v w' := by
  refine ⟨h.sorted, fun th n => ?_, h.ended.1, fun n => ?_⟩
  · rw [h.mem, hth, ht]
  · rw [h.ended.2]
    have := not_congr (ht n)
    simp only [not_exists] at this
    exact and_congr Iff.rfl this.symm

/-- The end of a nested scope: its task is the one on top. -/
theorem InOrder.head {v : View} {w : Owners} (hi : InOrder v w) {th o n : Nat} (hn : NestedClose w th o)
    (ho : w.task o = some n) : ∃ ns, v.stack th = n :: ns := by
  obtain ⟨h1, h2⟩ := hn n ho
  have hm : n ∈ v.stack th := (hi.mem th n).2 ⟨h1, o, ho⟩
  have hs := hi.sorted th
  cases hst : v.stack th with
  | nil => rw [hst] at hm; cases hm
  | cons m ms =>
    rw [hst] at hm hs
    rcases List.mem_cons.1 hm with rfl | hm'
    · exact ⟨ms, rfl⟩
    · have hlt := (List.pairwise_cons.1 hs).1 n hm'
      obtain ⟨h3, o', h4⟩ := (hi.mem th m).1 (by rw [hst]; simp)
      exact absurd h4 (h2 m hlt h3 o')

theorem InOrder.step {s : St} {cs : List Call} {w : Owners} (h : Owns s (view cs) w) (hi : InOrder (view cs) w) {a : Act} {s' : St} {c : List Call}
    (hs : Itt.step s a = some (s', c)) (hn : ∀ th o, a = .close th o → NestedClose w th o) : InOrder (view (cs ++ c)) (w.step a) := by
  rw [view_append]
  obtain ⟨v, hv⟩ : ∃ v, view cs = v := ⟨_, rfl⟩
  rw [hv] at h hi ⊢
  cases a with
  | new l dom =>
    simp only [Itt.step] at hs
    split at hs
    · cases hs
      have hf : (if dom then forIds Call.idCreate else []).foldl View.call v = v := by
        cases dom
        · rfl
        · exact foldl_ids _ (fun _ _ => rfl) v
      rw [hf]
      exact hi.congr (fun n => Iff.rfl) rfl
    · cases hs
  | moveLogger a b =>
    simp only [Itt.step] at hs
    cases ha : s.loggers a with
    | none => rw [ha] at hs; cases hs
    | some d =>
      rw [ha] at hs
      dsimp only at hs
      split at hs
      · cases hs; exact hi.congr (fun n => Iff.rfl) rfl
      · cases hs
  | destroy l =>
    simp only [Itt.step] at hs
    cases ha : s.loggers l with
    | none => rw [ha] at hs; cases hs
    | some d =>
      rw [ha] at hs
      cases hs
      have hf : (if d then forIds Call.idDestroy else []).foldl View.call v = v := by
        cases d
        · rfl
        · exact foldl_ids _ (fun _ _ => rfl) v
      rw [hf]
      exact hi.congr (fun n => Iff.rfl) rfl
  | trace th l o name inst =>
    simp only [Itt.step] at hs
    cases ha : s.loggers l with
    | none => rw [ha] at hs; cases hs
    | some d =>
      rw [ha] at hs
      dsimp only at hs
      split at hs
      · rename_i hno
        cases hs
        have hact := h.active l
        rw [ha] at hact
        have hnone : w.task o = none := by
          cases ht : w.task o with
          | none => rfl
          | some n => have := (h.task o).2 ⟨n, ht⟩; rw [hno] at this; cases this
        cases d with
        | false =>
          have hf : w.active l = false := by
            cases hw : w.active l with
            | false => rfl
            | true => exact absurd (hact.1 hw) (by decide)
          refine hi.congr (fun n => ?_) (by simp only [Owners.step, hf]; rfl)
          simp only [Owners.step, hf, Bool.false_eq_true, if_false]
          have : upd w.task o none = w.task := by
            funext i
            by_cases hio : i = o
            · subst hio; rw [upd_same, hnone]
            · rw [upd_ne _ _ hio]
          rw [this]
        | true =>
          have hf : w.active l = true := hact.2 rfl
          have hlive : ∀ n, (∃ i, upd w.task o (some w.next) i = some n) ↔ n = w.next ∨ ∃ i, w.task i = some n := by
            intro n
            constructor
            · rintro ⟨i, hi⟩
              by_cases hio : i = o
              · subst hio; rw [upd_same] at hi; cases hi; exact .inl rfl
              · rw [upd_ne _ _ hio] at hi; exact .inr ⟨i, hi⟩
            · rintro (rfl | ⟨i, hi⟩)
              · exact ⟨o, upd_same ..⟩
              · have hio : i ≠ o := by rintro rfl; rw [hnone] at hi; cases hi
                exact ⟨i, by rw [upd_ne _ _ hio, hi]⟩
          simp only [Owners.step, hf, if_true, List.foldl_cons, List.foldl_nil, View.call]
          have hmem : ∀ t n, n ∈ v.stack t → n < w.next := by
            intro t n hm
            obtain ⟨_, i, hi'⟩ := (hi.mem t n).1 hm
            exact h.lt i n hi'
          refine ⟨fun t => ?_, fun t n => ?_, hi.ended.1, fun n => ?_⟩
          · dsimp only
            by_cases ht : t = th
            · rw [if_pos ht]
              refine List.pairwise_cons.2 ⟨fun n hm => ?_, hi.sorted t⟩
              rw [← h.next]; exact hmem t n hm
            · rw [if_neg ht]; exact hi.sorted t
          · dsimp only
            rw [hlive]
            by_cases hnn : n = w.next
            · subst hnn
              rw [upd_same]
              have hnot : w.next ∉ v.stack t := fun hm => absurd (hmem t _ hm) (Nat.lt_irrefl _)
              by_cases ht : t = th
              · rw [if_pos ht, h.next]; simp [ht]
              · rw [if_neg ht]
                have : th ≠ t := fun e => ht e.symm
                simp [hnot, this]
            · rw [upd_ne _ _ hnn]
              have hnn' : n ≠ v.next := by rw [← h.next]; exact hnn
              by_cases ht : t = th
              · rw [if_pos ht]; simp [hnn, hnn', hi.mem t n]
              · rw [if_neg ht, hi.mem t n]; simp [hnn]
          · dsimp only
            rw [hi.ended.2]
            have := not_congr (hlive n)
            simp only [not_exists, not_or] at this
            rw [this, ← h.next]
            constructor
            · rintro ⟨h1, h2⟩; exact ⟨by omega, by omega, h2⟩
            · rintro ⟨h1, h2, h3⟩; exact ⟨by omega, h3⟩
      · cases hs
  | moveScope a b =>
    simp only [Itt.step] at hs
    cases ha : s.scopes a with
    | none => rw [ha] at hs; cases hs
    | some d =>
      rw [ha] at hs
      dsimp only at hs
      split at hs
      · rename_i hb
        cases hs
        have hab : b ≠ a := by rintro rfl; rw [ha] at hb; cases hb
        have hbn : w.task b = none := by
          cases ht : w.task b with
          | none => rfl
          | some n => have := (h.task b).2 ⟨n, ht⟩; rw [hb] at this; cases this
        refine hi.congr (fun n => ?_) rfl
        simp only [Owners.step]
        constructor
        · rintro ⟨i, hi'⟩
          by_cases hib : i = b
          · subst hib; rw [upd_same] at hi'; exact ⟨a, hi'⟩
          · rw [upd_ne _ _ hib] at hi'
            by_cases hia : i = a
            · subst hia; rw [upd_same] at hi'; cases hi'
            · rw [upd_ne _ _ hia] at hi'; exact ⟨i, hi'⟩
        · rintro ⟨i, hi'⟩
          by_cases hia : i = a
          · subst hia; exact ⟨b, by rw [upd_same]; exact hi'⟩
          · have hib : i ≠ b := by rintro rfl; rw [hbn] at hi'; cases hi'
            exact ⟨i, by rw [upd_ne _ _ hib, upd_ne _ _ hia]; exact hi'⟩
      · cases hs
  | close th o =>
    simp only [Itt.step] at hs
    cases ha : s.scopes o with
    | none => rw [ha] at hs; cases hs
    | some d =>
      rw [ha] at hs
      cases hs
      cases d with
      | false =>
        have hnone : w.task o = none := by
          cases ht : w.task o with
          | none => rfl
          | some n => have := (h.task o).2 ⟨n, ht⟩; rw [ha] at this; cases this
        refine hi.congr (fun n => ?_) rfl
        simp only [Owners.step]
        have : upd w.task o none = w.task := by
          funext i
          by_cases hio : i = o
          · subst hio; rw [upd_same, hnone]
          · rw [upd_ne _ _ hio]
        rw [this]
      | true =>
        obtain ⟨n, ho⟩ := (h.task o).1 ha
        obtain ⟨ns, hst⟩ := InOrder.head hi (hn th o rfl) ho
        have hth := ((hn th o rfl) n ho).1
        have hlive : ∀ m, (∃ i, upd w.task o none i = some m) ↔ m ≠ n ∧ ∃ i, w.task i = some m := by
          intro m
          constructor
          · rintro ⟨i, hi'⟩
            by_cases hio : i = o
            · subst hio; rw [upd_same] at hi'; cases hi'
            · rw [upd_ne _ _ hio] at hi'
              refine ⟨?_, i, hi'⟩
              rintro rfl
              exact hio (h.inj i o m hi' ho)
          · rintro ⟨hm, i, hi'⟩
            have hio : i ≠ o := by rintro rfl; rw [ho] at hi'; cases hi'; exact hm rfl
            exact ⟨i, by rw [upd_ne _ _ hio]; exact hi'⟩
        simp only [Owners.step, if_true, List.foldl_cons, List.foldl_nil, View.call, hst]
        have hsorted := hi.sorted th
        rw [hst] at hsorted
        have hns : ∀ m, m ∈ ns ↔ m ≠ n ∧ m ∈ v.stack th := by
          intro m
          rw [hst]
          have hlt := (List.pairwise_cons.1 hsorted).1
          constructor
          · intro hm; exact ⟨by have := hlt m hm; omega, by simp [hm]⟩
          · rintro ⟨h1, h2⟩
            rcases List.mem_cons.1 h2 with h2 | h2
            · exact absurd h2 h1
            · exact h2
        refine ⟨fun t => ?_, fun t m => ?_, ?_, fun m => ?_⟩
        · dsimp only
          by_cases ht : t = th
          · rw [if_pos ht]; exact (List.pairwise_cons.1 hsorted).2
          · rw [if_neg ht]; exact hi.sorted t
        · dsimp only
          rw [hlive]
          by_cases ht : t = th
          · rw [if_pos ht, hns, ht, hi.mem]
            constructor
            · rintro ⟨h1, h2, h3⟩; exact ⟨h2, h1, h3⟩
            · rintro ⟨h1, h2, h3⟩; exact ⟨h2, h1, h3⟩
          · rw [if_neg ht, hi.mem]
            constructor
            · rintro ⟨h1, h2⟩
              refine ⟨h1, ?_, h2⟩
              rintro rfl
              rw [hth] at h1; cases h1; exact ht rfl
            · rintro ⟨h1, _, h2⟩; exact ⟨h1, h2⟩
        · refine List.nodup_cons.2 ⟨fun hm => ?_, hi.ended.1⟩
          exact ((hi.ended.2 n).1 hm).2 o ho
        · dsimp only
          rw [List.mem_cons, hi.ended.2]
          have := not_congr (hlive m)
          simp only [not_exists, not_and] at this
          rw [this]
          constructor
          · rintro (rfl | ⟨h1, h2⟩)
            · exact ⟨by rw [← h.next]; exact h.lt o m ho, fun hne => absurd rfl hne⟩
            · exact ⟨h1, fun _ => h2⟩
          · rintro ⟨h1, h2⟩
            by_cases hmn : m = n
            · exact .inl hmn
            · exact .inr ⟨h1, h2 hmn⟩
  | reset l =>
    simp only [Itt.step] at hs
    cases ha : s.loggers l with
    | none => rw [ha] at hs; cases hs
    | some d => rw [ha] at hs; cases hs; exact hi

theorem run_owns {s : St} {cs : List Call} {w : Owners} (h : Owns s (view cs) w) {as : List Act} {s' : St} {c : List Call}
    (hs : run s as = some (s', c)) :
    Owns s' (view (cs ++ c)) (as.foldl Owners.step w) ∧ (InOrder (view cs) w → Nested w as → InOrder (view (cs ++ c)) (as.foldl Owners.step w)) := by
  induction as generalizing s cs c w with
  | nil => cases hs; rw [List.append_nil]; exact ⟨h, fun hi _ => hi⟩
  | cons a as ih =>
    simp only [run] at hs
    cases ha : Itt.step s a with
    | none => rw [ha] at hs; cases hs
    | some p =>
      obtain ⟨s1, c1⟩ := p
      rw [ha] at hs
      dsimp only at hs
      cases hr : run s1 as with
      | none => rw [hr] at hs; cases hs
      | some q =>
        obtain ⟨s2, c2⟩ := q
        rw [hr] at hs
        cases hs
        have h1 := ih (h.step ha) hr
        rw [List.append_assoc] at h1
        refine ⟨h1.1, fun hi hn => h1.2 (InOrder.step h hi ha ?_) hn.2⟩
        rintro th o rfl
        exact hn.1

theorem owns_init : Owns St.init (view []) {} where
  next := rfl
  active l := by simp [St.init]
  task o := by simp [St.init]
  lt o n h := by cases h
  inj o o' n h := by cases h
  thread n := rfl
  fresh n _ := rfl

theorem inOrder_init : InOrder (view []) {} where
  sorted th := List.Pairwise.nil
  mem th n := by simp [view]
  ended := ⟨List.nodup_nil, fun n => by simp [view]⟩

/-- C102. In every program, the calls that opening and closing a scope make: with a logger that traces, one task begins, in the calling thread and with
the name and the id of the instance, and it becomes the task of the scope; destroying a scope makes one call that ends a task if the scope has a task,
and none otherwise. -/
theorem itt_scope_calls {as : List Act} {s s' : St} {cs c : List Call} (h : run St.init as = some (s, cs)) :
    (∀ th l o name inst, step s (.trace th l o name inst) = some (s', c) →
      ((owners as).active l = true → c = [.taskBegin th (clamp inst).toNat name] ∧
        (owners (as ++ [.trace th l o name inst])).task o = some (view cs).next ∧
        (view (cs ++ c)).info (view cs).next = some (th, (clamp inst).toNat, name)) ∧
      ((owners as).active l = false → c = [])) ∧
    (∀ th o, step s (.close th o) = some (s', c) → c = if (owners as).task o = none then [] else [.taskEnd th]) := by
  have ho := (run_owns owns_init h).1
  rw [List.nil_append] at ho
  change Owns s (view cs) (owners as) at ho
  constructor
  · intro th l o name inst hs
    simp only [step] at hs
    cases ha : s.loggers l with
    | none => rw [ha] at hs; cases hs
    | some d =>
      rw [ha] at hs
      dsimp only at hs
      split at hs
      · cases hs
        have hact := ho.active l
        rw [ha] at hact
        refine ⟨fun hl => ?_, fun hl => ?_⟩
        · have : d = true := by have := hact.1 hl; cases this; rfl
          subst this
          refine ⟨rfl, ?_, ?_⟩
          · have : owners (as ++ [.trace th l o name inst]) = (owners as).step (.trace th l o name inst) := by
              simp [owners, List.foldl_append]
            rw [this]
            simp only [Owners.step, hl, if_true, upd_same, ho.next]
          · rw [view_append]
            simp only [if_true, List.foldl_cons, List.foldl_nil, View.call, upd_same]
        · cases d with
          | false => rfl
          | true => rw [hact.2 rfl] at hl; cases hl
      · cases hs
  · intro th o hs
    simp only [step] at hs
    cases ha : s.scopes o with
    | none => rw [ha] at hs; cases hs
    | some d =>
      rw [ha] at hs
      cases hs
      cases d with
      | true =>
        obtain ⟨n, hn⟩ := (ho.task o).1 ha
        rw [hn]; rfl
      | false =>
        have : (owners as).task o = none := by
          cases ht : (owners as).task o with
          | none => rfl
          | some n => have := (ho.task o).2 ⟨n, ht⟩; rw [ha] at this; cases this
        rw [this]; rfl

theorem nested_prefix {w : Owners} {as bs : List Act} (h : Nested w (as ++ bs)) : Nested w as ∧ Nested (as.foldl Owners.step w) bs := by
  induction as generalizing w with
  | nil => exact ⟨trivial, h⟩
  | cons a as ih =>
    obtain ⟨h1, h2⟩ := h
    obtain ⟨h3, h4⟩ := ih h2
    exact ⟨⟨h1, h3⟩, h4⟩

/-- C102, for programs whose scopes are nested, such as those that use `GUANAQO_TRACE` only: destroying a scope ends the task of the scope. -/
theorem itt_ends_own_partial {as : List Act} {th o : Nat} {s : St} {cs : List Call} (hn : Nested {} (as ++ [.close th o]))
    (h : run St.init (as ++ [.close th o]) = some (s, cs)) :
    ∃ s₀ cs₀, run St.init as = some (s₀, cs₀) ∧
      (view cs).ended = (match (owners as).task o with | some n => [n] | none => []) ++ (view cs₀).ended := by
  obtain ⟨s₀, c₁, c₂, h1, h2, rfl⟩ := run_append h
  refine ⟨s₀, c₁, h1, ?_⟩
  obtain ⟨hn1, hn2⟩ := nested_prefix hn
  have ho := run_owns owns_init h1
  rw [List.nil_append] at ho
  have hi := ho.2 inOrder_init hn1
  have ho : Owns s₀ (view c₁) (owners as) := ho.1
  change InOrder (view c₁) (owners as) at hi
  have hc : NestedClose (owners as) th o := hn2.1
  simp only [run] at h2
  cases ha : step s₀ (.close th o) with
  | none => rw [ha] at h2; cases h2
  | some p =>
    obtain ⟨s1, c1⟩ := p
    rw [ha] at h2
    cases h2
    have := (itt_scope_calls h1).2 th o ha
    rw [List.append_nil, this, view_append]
    cases ht : (owners as).task o with
    | none => rfl
    | some n =>
      obtain ⟨ns, hst⟩ := InOrder.head hi hc ht
      simp [View.call, hst]

/-- C102: and when nested scopes are all gone, no task is in progress and every task has ended, once. -/
theorem itt_nested_complete_partial {as : List Act} {s : St} {cs : List Call} (hn : Nested {} as) (h : run St.init as = some (s, cs))
    (ho : ∀ o, s.scopes o = none) : (∀ th, (view cs).stack th = []) ∧ (view cs).ended.Nodup ∧ ∀ n, n < (view cs).next ↔ n ∈ (view cs).ended := by
  have h1 := run_owns owns_init h
  rw [List.nil_append] at h1
  have hi := h1.2 inOrder_init hn
  have h1 := h1.1
  have hnone : ∀ o n, (as.foldl Owners.step {}).task o ≠ some n := by
    intro o n ht
    have := (h1.task o).2 ⟨n, ht⟩
    rw [ho o] at this; cases this
  refine ⟨fun th => List.eq_nil_iff_forall_not_mem.2 fun n hm => ?_, hi.ended.1, fun n => ?_⟩
  · obtain ⟨_, o, h3⟩ := (hi.mem th n).1 hm
    exact hnone o n h3
  · rw [hi.ended.2]
    exact ⟨fun h => ⟨h, fun o => hnone o n⟩, fun h => h.1⟩

/-- C102 is false in general: when the scopes of a thread are destroyed in the order in which they were opened, each ends the task of the other. -/
theorem not_endsOwnTask : ¬ EndsOwnTask := by
  intro h
  obtain ⟨s₀, cs₀, h1, h2⟩ := h [.new 0 true, .trace 5 0 1 "outer" 7, .trace 5 0 2 "inner" 300] 5 1 _ _ rfl
  cases h1
  revert h2
  decide +kernel

/-- Non-vacuity: two threads, nested scopes, a scope and a logger that are moved. -/
def sample : List Act :=
  [.new 0 true, .moveLogger 0 1, .trace 5 1 1 "outer" 7, .trace 6 1 2 "other" (-3), .trace 5 1 3 "inner" 300, .trace 5 0 4 "lost" 1, .moveScope 3 8, .close 5 8,
   .close 5 3]

example : ∃ s cs, run St.init (sample ++ [.close 5 1]) = some (s, cs) ∧ Nested {} (sample ++ [.close 5 1]) ∧ (owners sample).task 1 = some 0 ∧
    (view cs).ended = [0, 2] ∧ (view cs).info 2 = some (5, 255, "inner") ∧ (view cs).stack 6 = [1] := by
  refine ⟨_, _, rfl, ?_, rfl, rfl, rfl, rfl⟩
  have key : ∀ (w : Owners) (th o n : Nat), w.task o = some n → w.thread n = some th →
      (∀ m, n < m → w.thread m = some th → ∀ o', w.task o' ≠ some m) → NestedClose w th o := by
    intro w th o n h1 h2 h3 n' hn'
    rw [h1] at hn'; cases hn'
    exact ⟨h2, h3⟩
  refine ⟨trivial, trivial, trivial, trivial, trivial, trivial, trivial, key _ 5 8 2 rfl rfl ?_, ?_, key _ 5 1 0 rfl rfl ?_, trivial⟩
  · intro m hm h
    change (if m = 2 then some 5 else if m = 1 then some 6 else if m = 0 then some 5 else none) = some 5 at h
    rw [if_neg (by omega), if_neg (by omega), if_neg (by omega)] at h
    cases h
  · intro n hn
    change none = some n at hn
    cases hn
  · intro m hm h o' ho
    change (if m = 2 then some 5 else if m = 1 then some 6 else if m = 0 then some 5 else none) = some 5 at h
    change (if o' = 3 then none else if o' = 8 then none else if o' = 8 then some 2 else if o' = 3 then none else if o' = 4 then none else
      if o' = 3 then some 2 else if o' = 2 then some 1 else if o' = 1 then some 0 else none) = some m at ho
    have h2 : m = 2 := by
      by_cases h2 : m = 2
      · exact h2
      · rw [if_neg h2] at h
        by_cases h1 : m = 1
        · rw [if_pos h1] at h; cases h
        · rw [if_neg h1, if_neg (by omega)] at h; cases h
    subst h2
    revert ho
    (repeat' split) <;> simp_all

end Guanaqo.Trace.Itt
