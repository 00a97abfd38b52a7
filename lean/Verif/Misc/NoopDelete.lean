import Verif.Lifetimes

/-!
# C141: `std::unique_ptr<T, noop_delete<T>>` (noop-delete.hpp:5-13)

Objects that are constructed in storage the program provides (placement new) and owned by `unique_ptr`s whose deleter
only runs the destructor. The `unique_ptr` is the one of the standard library: construction from a pointer, move construction
(converting the deleter), move assignment, `reset`, `release` and destruction.
-/

namespace Guanaqo.NoopDelete

/-- An object: which class it was constructed as, and its serial number. -/
structure Obj where
  cls : Nat
  id : Nat
deriving DecidableEq, Repr

/-- Storage for one object. -/
inductive Cell where
  | raw
  | obj (o : Obj)
deriving DecidableEq, Repr

/-- The destruction of an object: its serial number, and whether its own destructor ran (not just that of a base class). -/
structure Event where
  id : Nat
  complete : Bool
deriving DecidableEq, Repr

/-- Storage (`none`: there is none at that address), variables (`unique_ptr`s: the class they point to, and the pointer), the
number of objects constructed so far, the destructions, and the objects given up by `release`. -/
structure St where
  mem : Nat → Option Cell
  vars : Nat → Option (Nat × Option Nat)
  next : Nat := 0
  log : List Event := []
  released : List Nat := []

inductive Outcome where
  | ok (s : St)
  /-- not a valid program: a variable is used outside of its lifetime, or an object is constructed where there is no free storage -/
  | invalid
  /-- a destructor is called where there is no object -/
  | ub

def upd {α : Type} (f : Nat → α) (k : Nat) (x : α) : Nat → α := fun i => if i = k then x else f i

/-- noop-delete.hpp:12, `operator()(T *t)`: `t->~T()`. The destructor that runs is that of the object's class if it is `T` or if the
destructor of `T` is virtual. The storage is left as it is. -/
def noopDelete (virt : Nat → Bool) (T : Nat) (a : Nat) (s : St) : Outcome :=
  match s.mem a with
  | some (.obj o) => .ok { s with mem := upd s.mem a (some .raw), log := s.log ++ [⟨o.id, decide (o.cls = T) || virt T⟩] }
  | _ => .ub

/-- The standard library calls the deleter for pointers that are not null. -/
def deleteOld (virt : Nat → Bool) (T : Nat) (p : Option Nat) (s : St) : Outcome :=
  match p with
  | none => .ok s
  | some a => noopDelete virt T a s

inductive Op where
  /-- `std::unique_ptr<C, noop_delete<C>> v{new (a) C(…)}` -/
  | emplace (v a C : Nat)
  /-- `std::unique_ptr<C, noop_delete<C>> v` (noop-delete.hpp:9) -/
  | null (v C : Nat)
  /-- `std::unique_ptr<C, noop_delete<C>> v{std::move(w)}`, with the conversion of the deleter, noop-delete.hpp:10-11 -/
  | move (v w C : Nat)
  /-- `v = std::move(w)` -/
  | moveAssign (v w : Nat)
  /-- `v.reset()` -/
  | reset (v : Nat)
  /-- `v.release()` -/
  | release (v : Nat)
  /-- the destructor of `v` -/
  | drop (v : Nat)

/-- The object at an address. -/
def idAt (s : St) (a : Nat) : List Nat :=
  match s.mem a with
  | some (.obj o) => [o.id]
  | _ => []

/-- One statement of a program. -/
def step (virt : Nat → Bool) (s : St) : Op → Outcome
  | .emplace v a C =>
    match s.vars v, s.mem a with
    | none, some .raw => .ok { s with mem := upd s.mem a (some (.obj ⟨C, s.next⟩)), vars := upd s.vars v (some (C, some a)), next := s.next + 1 }
    | _, _ => .invalid
  | .null v C =>
    match s.vars v with
    | none => .ok { s with vars := upd s.vars v (some (C, none)) }
    | some _ => .invalid
  | .move v w C =>
    match s.vars v, s.vars w with
    | none, some (T, p) => .ok { s with vars := upd (upd s.vars w (some (T, none))) v (some (C, p)) }
    | _, _ => .invalid
  | .moveAssign v w =>
    match s.vars w with
    | some (T, p) =>
      let vars := upd s.vars w (some (T, none))
      match vars v with
      | some (C, old) => deleteOld virt C old { s with vars := upd vars v (some (C, p)) }
      | none => .invalid
    | none => .invalid
  | .reset v =>
    match s.vars v with
    | some (C, old) => deleteOld virt C old { s with vars := upd s.vars v (some (C, none)) }
    | none => .invalid
  | .release v =>
    match s.vars v with
    | some (C, some a) => .ok { s with vars := upd s.vars v (some (C, none)), released := s.released ++ idAt s a }
    | some (_, none) => .ok s
    | none => .invalid
  | .drop v =>
    match s.vars v with
    | some (C, old) => deleteOld virt C old { s with vars := upd s.vars v none }
    | none => .invalid

def run (virt : Nat → Bool) : St → List Op → Outcome
  | s, [] => .ok s
  | s, p :: ps => match step virt s p with
    | .ok s' => run virt s' ps
    | r => r

/-- A program starts with free storage and without variables. -/
def start (storage : Nat → Bool) : St :=
  { mem := fun a => if storage a then some .raw else none, vars := fun _ => none }

/-! ## Specification -/

/-- The variable `v` owns the object number `i`. -/
def Owns (s : St) (v i : Nat) : Prop := ∃ T a C, s.vars v = some (T, some a) ∧ s.mem a = some (.obj ⟨C, i⟩)

/-- How often the object has been destroyed. -/
def destroyed (s : St) (i : Nat) : Nat := (s.log.map (·.id)).count i

/-- The object is in storage. -/
def InStorage (s : St) (i : Nat) : Prop := ∃ a C, s.mem a = some (.obj ⟨C, i⟩)

/-! ## Proof -/

structure Inv (storage : Nat → Bool) (s : St) : Prop where
  storage : ∀ a, s.mem a = none ↔ storage a = false
  held : ∀ v T a, s.vars v = some (T, some a) → ∃ o, s.mem a = some (.obj o) ∧ o.id ∉ s.released
  unique : ∀ v w T U a, s.vars v = some (T, some a) → s.vars w = some (U, some a) → v = w
  fresh : ∀ a o, s.mem a = some (.obj o) → o.id < s.next ∧ o.id ∉ s.log.map (·.id)
  inj : ∀ a b o p, s.mem a = some (.obj o) → s.mem b = some (.obj p) → o.id = p.id → a = b
  all : ∀ i, i < s.next → i ∈ s.log.map (·.id) ∨ InStorage s i
  owned : ∀ a o, s.mem a = some (.obj o) → (∃ v T, s.vars v = some (T, some a)) ∨ o.id ∈ s.released
  nodup : (s.log.map (·.id)).Nodup
  logged : ∀ i ∈ s.log.map (·.id), i < s.next
  relOld : ∀ i ∈ s.released, InStorage s i

theorem upd_same {α : Type} (f : Nat → α) (k : Nat) (x : α) : upd f k x k = x := if_pos rfl
theorem upd_ne {α : Type} (f : Nat → α) {i k : Nat} (x : α) (h : i ≠ k) : upd f k x i = f i := if_neg h

theorem inv_start (storage : Nat → Bool) : Inv storage (start storage) where
  storage a := by
    simp only [start]
    cases storage a <;> simp
  held v T a h := by cases h
  unique v w T U a h := by cases h
  fresh a o h := by
    simp only [start] at h
    split at h <;> cases h
  inj a b o p h := by
    simp only [start] at h
    split at h <;> cases h
  all i h := by cases h
  owned a o h := by
    simp only [start] at h
    split at h <;> cases h
  nodup := List.nodup_nil
  logged i h := by cases h
  relOld i h := by cases h

/-- Variables may be changed if the pointers they hold are permuted among them. -/
theorem inv_vars {storage : Nat → Bool} {s : St} (h : Inv storage s) {vars : Nat → Option (Nat × Option Nat)}
    (h1 : ∀ v T a, vars v = some (T, some a) → ∃ w U, s.vars w = some (U, some a))
    (h2 : ∀ w U a, s.vars w = some (U, some a) → ∃ v T, vars v = some (T, some a))
    (h3 : ∀ v w T U a, vars v = some (T, some a) → vars w = some (U, some a) → v = w) : Inv storage { s with vars := vars } where
  storage := h.storage
  held v T a hv := by
    obtain ⟨w, U, hw⟩ := h1 v T a hv
    exact h.held w U a hw
  unique := h3
  fresh := h.fresh
  inj := h.inj
  all := h.all
  owned a o ho := by
    rcases h.owned a o ho with ⟨v, T, hv⟩ | hr
    · exact .inl (h2 v T a hv)
    · exact .inr hr
  nodup := h.nodup
  logged := h.logged
  relOld := h.relOld

/-- All but the variable's own pointer stays; the object is destroyed. -/
theorem inv_delete {storage : Nat → Bool} {virt : Nat → Bool} {s : St} (h : Inv storage s) {w U : Nat} {T : Nat} {a : Nat}
    (hw : s.vars w = some (U, some a)) {vars : Nat → Option (Nat × Option Nat)}
    (h1 : ∀ v T b, vars v = some (T, some b) → b ≠ a ∧ ∃ w U, s.vars w = some (U, some b))
    (h2 : ∀ w U b, s.vars w = some (U, some b) → b ≠ a → ∃ v T, vars v = some (T, some b))
    (h3 : ∀ v w T U b, vars v = some (T, some b) → vars w = some (U, some b) → v = w) :
    ∃ o s', s.mem a = some (.obj o) ∧ noopDelete virt T a { s with vars := vars } = .ok s' ∧ Inv storage s' ∧
      s'.log = s.log ++ [⟨o.id, decide (o.cls = T) || virt T⟩] := by
  obtain ⟨o, ho, hor⟩ := h.held w U a hw
  refine ⟨o, { s with mem := upd s.mem a (some .raw), vars := vars, log := s.log ++ [⟨o.id, decide (o.cls = T) || virt T⟩] }, ho,
    by simp only [noopDelete, ho], ?_, rfl⟩
  have keep : ∀ {b : Nat} {p : Obj}, upd s.mem a (some .raw) b = some (.obj p) → b ≠ a ∧ s.mem b = some (.obj p) := by
    intro b p hb
    by_cases hba : b = a
    · subst hba
      rw [upd_same] at hb
      cases hb
    · rw [upd_ne _ _ hba] at hb
      exact ⟨hba, hb⟩
  constructor
  · intro b
    dsimp only
    by_cases hb : b = a
    · subst hb
      rw [upd_same, ← h.storage b, ho]
      simp
    · rw [upd_ne _ _ hb]
      exact h.storage b
  · intro v T' b hv
    dsimp only at hv ⊢
    obtain ⟨hba, w', U', hw'⟩ := h1 v T' b hv
    rw [upd_ne _ _ hba]
    exact h.held w' U' b hw'
  · exact h3
  · intro b p hb
    dsimp only at hb ⊢
    obtain ⟨hba, hb⟩ := keep hb
    refine ⟨(h.fresh b p hb).1, ?_⟩
    rw [List.map_append, List.mem_append]
    rintro (hl | hl)
    · exact (h.fresh b p hb).2 hl
    · simp at hl
      exact hba (h.inj b a p o hb ho hl)
  · intro b b' p p' hb hb' he
    exact h.inj b b' p p' (keep hb).2 (keep hb').2 he
  · intro i hi
    rcases h.all i hi with hl | ⟨b, C, hb⟩
    · exact .inl (by dsimp only; rw [List.map_append]; exact List.mem_append_left _ hl)
    · by_cases hba : b = a
      · subst hba
        rw [ho] at hb
        cases hb
        exact .inl (by simp)
      · exact .inr ⟨b, C, by dsimp only; rw [upd_ne _ _ hba]; exact hb⟩
  · intro b p hb
    dsimp only at hb ⊢
    obtain ⟨hba, hb⟩ := keep hb
    rcases h.owned b p hb with ⟨v, T', hv⟩ | hr
    · exact .inl (h2 v T' b hv hba)
    · exact .inr hr
  · dsimp only
    rw [List.map_append]
    refine List.nodup_append.2 ⟨h.nodup, by simp, ?_⟩
    intro x hx y hy he
    simp at hy
    subst hy
    subst he
    exact (h.fresh a o ho).2 hx
  · intro i hi
    dsimp only at hi ⊢
    rw [List.map_append, List.mem_append] at hi
    rcases hi with hi | hi
    · exact h.logged i hi
    · simp at hi
      subst hi
      exact (h.fresh a o ho).1
  · intro i hi
    obtain ⟨b, C, hb⟩ := h.relOld i hi
    refine ⟨b, C, ?_⟩
    dsimp only
    rw [upd_ne]
    · exact hb
    · rintro rfl
      rw [ho] at hb
      cases hb
      exact hor hi

/-- A variable whose pointer is taken away by a deletion. -/
theorem inv_deleteOld {storage : Nat → Bool} {virt : Nat → Bool} {s : St} (h : Inv storage s) {w U T : Nat} {old : Option Nat}
    (hw : s.vars w = some (U, old)) {vars : Nat → Option (Nat × Option Nat)}
    (h1 : ∀ v T b, vars v = some (T, some b) → some b ≠ old ∧ ∃ w U, s.vars w = some (U, some b))
    (h2 : ∀ w U b, s.vars w = some (U, some b) → some b ≠ old → ∃ v T, vars v = some (T, some b))
    (h3 : ∀ v w T U b, vars v = some (T, some b) → vars w = some (U, some b) → v = w) :
    ∃ s', deleteOld virt T old { s with vars := vars } = .ok s' ∧ Inv storage s' := by
  cases old with
  | none =>
    refine ⟨_, rfl, inv_vars h (fun v T a hv => (h1 v T a hv).2) (fun w U a hw => h2 w U a hw (by simp)) h3⟩
  | some a =>
    obtain ⟨o, s', _, h5, h6, _⟩ := inv_delete (virt := virt) (T := T) h hw (vars := vars)
      (fun v T b hv => ⟨fun e => (h1 v T b hv).1 (by rw [e]), (h1 v T b hv).2⟩)
      (fun w U b hw hb => h2 w U b hw (by simpa using hb)) h3
    exact ⟨s', h5, h6⟩

/-- If `w`'s pointer goes to `v` and `v`'s own is dropped. -/
theorem inv_step {storage : Nat → Bool} {virt : Nat → Bool} {s : St} (h : Inv storage s) (p : Op) :
    step virt s p = .invalid ∨ ∃ s', step virt s p = .ok s' ∧ Inv storage s' := by
  cases p with
  | emplace v a C =>
    simp only [step]
    split
    · rename_i hv ha
      refine .inr ⟨_, rfl, ?_⟩
      have notHeld : ∀ w T, s.vars w ≠ some (T, some a) := by
        intro w T hw
        obtain ⟨o, ho, _⟩ := h.held w T a hw
        rw [ha] at ho
        cases ho
      constructor
      · intro b
        dsimp only
        by_cases hb : b = a
        · subst hb
          rw [upd_same, ← h.storage b, ha]
          simp
        · rw [upd_ne _ _ hb]
          exact h.storage b
      · intro w T b hw
        dsimp only at hw ⊢
        by_cases hwv : w = v
        · subst hwv
          rw [upd_same] at hw
          cases hw
          refine ⟨_, upd_same .., fun hr => ?_⟩
          obtain ⟨b, D, hb⟩ := h.relOld _ hr
          exact Nat.lt_irrefl _ (h.fresh b _ hb).1
        · rw [upd_ne _ _ hwv] at hw
          have hba : b ≠ a := by rintro rfl; exact notHeld w T hw
          rw [upd_ne _ _ hba]
          exact h.held w T b hw
      · intro w x T U b hw hx
        dsimp only at hw hx
        by_cases hwv : w = v
        · subst hwv
          rw [upd_same] at hw
          cases hw
          by_cases hxv : x = w
          · exact hxv.symm
          · rw [upd_ne _ _ hxv] at hx
            exact absurd hx (notHeld x U)
        · rw [upd_ne _ _ hwv] at hw
          by_cases hxv : x = v
          · subst hxv
            rw [upd_same] at hx
            cases hx
            exact absurd hw (notHeld w T)
          · rw [upd_ne _ _ hxv] at hx
            exact h.unique w x T U b hw hx
      · intro b o hb
        dsimp only at hb ⊢
        by_cases hba : b = a
        · subst hba
          rw [upd_same] at hb
          cases hb
          exact ⟨Nat.lt_succ_self _, fun hl => Nat.lt_irrefl _ (h.logged _ hl)⟩
        · rw [upd_ne _ _ hba] at hb
          exact ⟨Nat.lt_succ_of_lt (h.fresh b o hb).1, (h.fresh b o hb).2⟩
      · intro b b' o o' hb hb' he
        dsimp only at hb hb'
        by_cases hba : b = a
        · subst hba
          rw [upd_same] at hb
          cases hb
          by_cases hba' : b' = b
          · exact hba'.symm
          · rw [upd_ne _ _ hba'] at hb'
            have := (h.fresh b' o' hb').1
            rw [← he] at this
            exact absurd this (Nat.lt_irrefl _)
        · rw [upd_ne _ _ hba] at hb
          by_cases hba' : b' = a
          · subst hba'
            rw [upd_same] at hb'
            cases hb'
            have := (h.fresh b o hb).1
            rw [he] at this
            exact absurd this (Nat.lt_irrefl _)
          · rw [upd_ne _ _ hba'] at hb'
            exact h.inj b b' o o' hb hb' he
      · intro i hi
        dsimp only at hi
        by_cases hin : i = s.next
        · subst hin
          exact .inr ⟨a, C, upd_same ..⟩
        · rcases h.all i (by omega) with hl | ⟨b, D, hb⟩
          · exact .inl hl
          · refine .inr ⟨b, D, ?_⟩
            dsimp only
            rw [upd_ne]
            · exact hb
            · rintro rfl
              rw [ha] at hb
              cases hb
      · intro b o hb
        dsimp only at hb ⊢
        by_cases hba : b = a
        · subst hba
          exact .inl ⟨v, C, upd_same ..⟩
        · rw [upd_ne _ _ hba] at hb
          rcases h.owned b o hb with ⟨w, T, hw⟩ | hr
          · refine .inl ⟨w, T, ?_⟩
            rw [upd_ne]
            · exact hw
            · rintro rfl
              rw [hv] at hw
              cases hw
          · exact .inr hr
      · exact h.nodup
      · intro i hi
        exact Nat.lt_succ_of_lt (h.logged i hi)
      · intro i hi
        obtain ⟨b, D, hb⟩ := h.relOld i hi
        refine ⟨b, D, ?_⟩
        dsimp only
        rw [upd_ne]
        · exact hb
        · rintro rfl
          rw [ha] at hb
          cases hb
    · exact .inl rfl
  | null v C =>
    simp only [step]
    split
    · rename_i hv
      refine .inr ⟨_, rfl, inv_vars h ?_ ?_ ?_⟩
      · intro w T a hw
        by_cases hwv : w = v
        · subst hwv; rw [upd_same] at hw; cases hw
        · rw [upd_ne _ _ hwv] at hw; exact ⟨w, T, hw⟩
      · intro w U a hw
        refine ⟨w, U, ?_⟩
        rw [upd_ne]
        · exact hw
        · rintro rfl; rw [hv] at hw; cases hw
      · intro w x T U a hw hx
        have h1 : w ≠ v := by rintro rfl; rw [upd_same] at hw; cases hw
        have h2 : x ≠ v := by rintro rfl; rw [upd_same] at hx; cases hx
        rw [upd_ne _ _ h1] at hw
        rw [upd_ne _ _ h2] at hx
        exact h.unique w x T U a hw hx
    · exact .inl rfl
  | move v w C =>
    simp only [step]
    split
    · rename_i T q hv hw
      have hvw : w ≠ v := by rintro rfl; rw [hv] at hw; cases hw
      have char : ∀ x D a, upd (upd s.vars w (some (T, none))) v (some (C, q)) x = some (D, some a) →
          (x = v ∧ D = C ∧ q = some a) ∨ (x ≠ v ∧ x ≠ w ∧ s.vars x = some (D, some a)) := by
        intro x D a hx
        by_cases hxv : x = v
        · subst hxv; rw [upd_same] at hx; cases hx; exact .inl ⟨rfl, rfl, rfl⟩
        · rw [upd_ne _ _ hxv] at hx
          by_cases hxw : x = w
          · subst hxw; rw [upd_same] at hx; cases hx
          · rw [upd_ne _ _ hxw] at hx; exact .inr ⟨hxv, hxw, hx⟩
      refine .inr ⟨_, rfl, inv_vars h ?_ ?_ ?_⟩
      · intro x D a hx
        rcases char x D a hx with ⟨_, _, rfl⟩ | ⟨_, _, hx⟩
        · exact ⟨w, T, hw⟩
        · exact ⟨x, D, hx⟩
      · intro x D a hx
        by_cases hxw : x = w
        · subst hxw; rw [hw] at hx; cases hx; exact ⟨v, C, upd_same ..⟩
        · refine ⟨x, D, ?_⟩
          rw [upd_ne _ _ (by rintro rfl; rw [hv] at hx; cases hx), upd_ne _ _ hxw]
          exact hx
      · intro x y D E a hx hy
        rcases char x D a hx with ⟨hxe, _, hq⟩ | ⟨_, hxw, hx⟩ <;> rcases char y E a hy with ⟨hye, _, hq'⟩ | ⟨_, hyw, hy⟩
        · rw [hxe, hye]
        · rw [hq] at hw; exact absurd (h.unique _ _ _ _ _ hy hw) hyw
        · rw [hq'] at hw; exact absurd (h.unique _ _ _ _ _ hx hw) hxw
        · exact h.unique _ _ _ _ _ hx hy
    · exact .inl rfl
  | moveAssign v w =>
    simp only [step]
    split
    · rename_i T q hw
      split
      · rename_i C old hv
        right
        by_cases hvw : v = w
        · subst hvw
          rw [upd_same] at hv
          cases hv
          refine ⟨_, rfl, ?_⟩
          have e : upd (upd s.vars v (some (T, none))) v (some (T, q)) = s.vars := by
            funext x
            by_cases hx : x = v
            · subst hx; rw [upd_same, hw]
            · rw [upd_ne _ _ hx, upd_ne _ _ hx]
          rw [e]
          exact h
        · rw [upd_ne _ _ hvw] at hv
          have char : ∀ x D a, upd (upd s.vars w (some (T, none))) v (some (C, q)) x = some (D, some a) →
              (x = v ∧ D = C ∧ q = some a) ∨ (x ≠ v ∧ x ≠ w ∧ s.vars x = some (D, some a)) := by
            intro x D a hx
            by_cases hxv : x = v
            · subst hxv; rw [upd_same] at hx; cases hx; exact .inl ⟨rfl, rfl, rfl⟩
            · rw [upd_ne _ _ hxv] at hx
              by_cases hxw : x = w
              · subst hxw; rw [upd_same] at hx; cases hx
              · rw [upd_ne _ _ hxw] at hx; exact .inr ⟨hxv, hxw, hx⟩
          refine inv_deleteOld h hv ?_ ?_ ?_
          · intro x D a hx
            rcases char x D a hx with ⟨_, _, rfl⟩ | ⟨hxv, _, hx⟩
            · refine ⟨?_, w, T, hw⟩
              rintro rfl
              exact hvw (h.unique _ _ _ _ _ hv hw)
            · refine ⟨?_, x, D, hx⟩
              rintro rfl
              exact hxv (h.unique _ _ _ _ _ hx hv)
          · intro x D a hx ha
            by_cases hxw : x = w
            · subst hxw; rw [hw] at hx; cases hx; exact ⟨v, C, upd_same ..⟩
            · by_cases hxv : x = v
              · subst hxv; rw [hv] at hx; cases hx; exact absurd rfl ha
              · exact ⟨x, D, by rw [upd_ne _ _ hxv, upd_ne _ _ hxw]; exact hx⟩
          · intro x y D E a hx hy
            rcases char x D a hx with ⟨hxe, _, hq⟩ | ⟨_, hxw, hx⟩ <;> rcases char y E a hy with ⟨hye, _, hq'⟩ | ⟨_, hyw, hy⟩
            · rw [hxe, hye]
            · rw [hq] at hw; exact absurd (h.unique _ _ _ _ _ hy hw) hyw
            · rw [hq'] at hw; exact absurd (h.unique _ _ _ _ _ hx hw) hxw
            · exact h.unique _ _ _ _ _ hx hy
      · exact .inl rfl
    · exact .inl rfl
  | reset v =>
    simp only [step]
    split
    · rename_i C old hv
      have char : ∀ x D a, upd s.vars v (some (C, none)) x = some (D, some a) → x ≠ v ∧ s.vars x = some (D, some a) := by
        intro x D a hx
        by_cases hxv : x = v
        · subst hxv; rw [upd_same] at hx; cases hx
        · rw [upd_ne _ _ hxv] at hx; exact ⟨hxv, hx⟩
      refine .inr (inv_deleteOld h hv ?_ ?_ ?_)
      · intro x D a hx
        obtain ⟨hxv, hx⟩ := char x D a hx
        refine ⟨?_, x, D, hx⟩
        rintro rfl
        exact hxv (h.unique _ _ _ _ _ hx hv)
      · intro x D a hx ha
        refine ⟨x, D, ?_⟩
        rw [upd_ne]
        · exact hx
        · rintro rfl; rw [hv] at hx; cases hx; exact ha rfl
      · intro x y D E a hx hy
        exact h.unique _ _ _ _ _ (char x D a hx).2 (char y E a hy).2
    · exact .inl rfl
  | release v =>
    simp only [step]
    split
    · rename_i C a hv
      right
      obtain ⟨o, ho, hor⟩ := h.held v C a hv
      have hid : idAt s a = [o.id] := by simp [idAt, ho]
      have char : ∀ x D b, upd s.vars v (some (C, none)) x = some (D, some b) → x ≠ v ∧ s.vars x = some (D, some b) := by
        intro x D b hx
        by_cases hxv : x = v
        · subst hxv; rw [upd_same] at hx; cases hx
        · rw [upd_ne _ _ hxv] at hx; exact ⟨hxv, hx⟩
      refine ⟨_, rfl, ?_⟩
      rw [hid]
      constructor
      · exact h.storage
      · intro x D b hx
        obtain ⟨hxv, hx⟩ := char x D b hx
        obtain ⟨p, hp, hpr⟩ := h.held x D b hx
        refine ⟨p, hp, ?_⟩
        dsimp only
        rw [List.mem_append]
        rintro (hr | hr)
        · exact hpr hr
        · simp at hr
          have := h.inj b a p o hp ho hr
          subst this
          exact hxv (h.unique _ _ _ _ _ hx hv)
      · intro x y D E b hx hy
        exact h.unique _ _ _ _ _ (char x D b hx).2 (char y E b hy).2
      · exact h.fresh
      · exact h.inj
      · exact h.all
      · intro b p hb
        dsimp only at hb ⊢
        rcases h.owned b p hb with ⟨x, D, hx⟩ | hr
        · by_cases hxv : x = v
          · subst hxv
            rw [hv] at hx
            cases hx
            rw [ho] at hb
            cases hb
            exact .inr (by simp)
          · exact .inl ⟨x, D, by rw [upd_ne _ _ hxv]; exact hx⟩
        · exact .inr (List.mem_append_left _ hr)
      · exact h.nodup
      · exact h.logged
      · intro i hi
        dsimp only at hi
        rw [List.mem_append] at hi
        rcases hi with hi | hi
        · exact h.relOld i hi
        · simp at hi
          subst hi
          exact ⟨a, o.cls, ho⟩
    · exact .inr ⟨s, rfl, h⟩
    · exact .inl rfl
  | drop v =>
    simp only [step]
    split
    · rename_i C old hv
      have char : ∀ x D a, upd s.vars v none x = some (D, some a) → x ≠ v ∧ s.vars x = some (D, some a) := by
        intro x D a hx
        by_cases hxv : x = v
        · subst hxv; rw [upd_same] at hx; cases hx
        · rw [upd_ne _ _ hxv] at hx; exact ⟨hxv, hx⟩
      refine .inr (inv_deleteOld h hv ?_ ?_ ?_)
      · intro x D a hx
        obtain ⟨hxv, hx⟩ := char x D a hx
        refine ⟨?_, x, D, hx⟩
        rintro rfl
        exact hxv (h.unique _ _ _ _ _ hx hv)
      · intro x D a hx ha
        refine ⟨x, D, ?_⟩
        rw [upd_ne]
        · exact hx
        · rintro rfl; rw [hv] at hx; cases hx; exact ha rfl
      · intro x y D E a hx hy
        exact h.unique _ _ _ _ _ (char x D a hx).2 (char y E a hy).2
    · exact .inl rfl

theorem inv_run {storage : Nat → Bool} {virt : Nat → Bool} (ps : List Op) : ∀ {s : St}, Inv storage s →
    run virt s ps = .invalid ∨ ∃ s', run virt s ps = .ok s' ∧ Inv storage s' := by
  induction ps with
  | nil => exact fun {s} h => .inr ⟨s, rfl, h⟩
  | cons p ps ih =>
    intro s h
    simp only [run]
    rcases inv_step (virt := virt) h p with h1 | ⟨s', h1, h2⟩
    · rw [h1]; exact .inl rfl
    · rw [h1]; exact ih h2

theorem reach {storage : Nat → Bool} {virt : Nat → Bool} {ps : List Op} {s : St} (h : run virt (start storage) ps = .ok s) :
    Inv storage s := by
  rcases inv_run (virt := virt) ps (inv_start storage) with h1 | ⟨s', h1, h2⟩
  · rw [h] at h1; cases h1
  · rw [h] at h1; cases h1; exact h2

/-- C141. No valid program calls a destructor where there is no object. -/
theorem noop_never_dangling (storage : Nat → Bool) (virt : Nat → Bool) (ps : List Op) : run virt (start storage) ps ≠ .ub := by
  rcases inv_run (virt := virt) ps (inv_start storage) with h | ⟨s', h, _⟩ <;> rw [h] <;> intro h' <;> cases h'

/-- C141. After any program, each object that was constructed is owned by exactly one `unique_ptr` (and has not been destroyed), or
was released (and has not been destroyed and is owned by none), or has been destroyed exactly once (and is owned by none). -/
theorem noop_exactly_once {storage : Nat → Bool} {virt : Nat → Bool} {ps : List Op} {s : St}
    (h : run virt (start storage) ps = .ok s) (i : Nat) (hi : i < s.next) :
    (∃ v, Owns s v i ∧ (∀ w, Owns s w i → w = v) ∧ i ∉ s.released ∧ destroyed s i = 0) ∨
    (i ∈ s.released ∧ InStorage s i ∧ (∀ w, ¬ Owns s w i) ∧ destroyed s i = 0) ∨
    (destroyed s i = 1 ∧ ¬ InStorage s i ∧ i ∉ s.released ∧ ∀ w, ¬ Owns s w i) := by
  have I := reach h
  by_cases hs : InStorage s i
  · obtain ⟨a, C, ha⟩ := hs
    have h0 : destroyed s i = 0 := List.count_eq_zero.2 (I.fresh a _ ha).2
    have notReleased : ∀ v, Owns s v i → i ∉ s.released := by
      rintro v ⟨T, b, D, hv, hb⟩
      obtain ⟨o, ho, hr⟩ := I.held v T b hv
      rw [hb] at ho
      cases ho
      exact hr
    rcases I.owned a _ ha with ⟨v, T, hv⟩ | hr
    · refine .inl ⟨v, ⟨T, a, C, hv, ha⟩, ?_, notReleased v ⟨T, a, C, hv, ha⟩, h0⟩
      rintro w ⟨U, b, D, hw, hb⟩
      have := I.inj b a _ _ hb ha rfl
      subst this
      exact I.unique w v U T b hw hv
    · exact .inr (.inl ⟨hr, ⟨a, C, ha⟩, fun w hw => notReleased w hw hr, h0⟩)
  · rcases I.all i hi with hl | hs'
    · refine .inr (.inr ⟨?_, hs, fun hr => hs (I.relOld i hr), ?_⟩)
      · have h1 := List.one_le_count_iff.2 hl
        have h2 := List.nodup_iff_count.1 I.nodup i
        unfold destroyed
        omega
      · rintro w ⟨T, a, C, _, ha⟩
        exact hs ⟨a, C, ha⟩
    · exact absurd hs' hs

/-- C141. The storage stays: it is there after the program where it was before, and where nothing lives it can be used again. -/
theorem noop_storage_kept {storage : Nat → Bool} {virt : Nat → Bool} {ps : List Op} {s : St}
    (h : run virt (start storage) ps = .ok s) (a : Nat) :
    ((s.mem a).isSome ↔ storage a = true) ∧ (storage a = true → (¬ ∃ i C, s.mem a = some (.obj ⟨C, i⟩)) → ∀ v C, s.vars v = none →
      ∃ s', step virt s (.emplace v a C) = .ok s' ∧ Owns s' v s.next) := by
  have I := reach h
  have h1 := I.storage a
  refine ⟨?_, ?_⟩
  · cases hm : s.mem a <;> cases hst : storage a <;> simp [hm, hst] at h1 ⊢
  · intro hst hno v C hv
    cases hm : s.mem a with
    | none => rw [h1.1 hm] at hst; cases hst
    | some c =>
      cases c with
      | obj o => exact absurd ⟨o.id, o.cls, hm⟩ hno
      | raw => exact ⟨{ s with mem := upd s.mem a (some (.obj ⟨C, s.next⟩)), vars := upd s.vars v (some (C, some a)), next := s.next + 1 },
        by simp only [step, hv, hm], C, a, C, upd_same .., upd_same ..⟩

/-- C141. When a `unique_ptr<T, noop_delete<T>>` is reset or destroyed, the complete object is destroyed exactly if it is a `T` or the
destructor of `T` is virtual; nothing else is destroyed. -/
theorem noop_destroys_complete_iff {storage : Nat → Bool} {virt : Nat → Bool} {ps : List Op} {s : St}
    (h : run virt (start storage) ps = .ok s) {v T a C i : Nat} (hv : s.vars v = some (T, some a))
    (ha : s.mem a = some (.obj ⟨C, i⟩)) (p : Op) (hp : p = .reset v ∨ p = .drop v) :
    ∃ s' c, step virt s p = .ok s' ∧ s'.log = s.log ++ [⟨i, c⟩] ∧ (c = true ↔ C = T ∨ virt T = true) ∧ s'.next = s.next ∧
      ¬ InStorage s' i ∧ ∀ j, j ≠ i → (InStorage s' j ↔ InStorage s j) := by
  have I := reach h
  have main : ∀ vars : Nat → Option (Nat × Option Nat), ∃ s' c, deleteOld virt T (some a) { s with vars := vars } = .ok s' ∧
      s'.log = s.log ++ [⟨i, c⟩] ∧ (c = true ↔ C = T ∨ virt T = true) ∧ s'.next = s.next ∧
      ¬ InStorage s' i ∧ ∀ j, j ≠ i → (InStorage s' j ↔ InStorage s j) := by
    intro vars
    refine ⟨{ s with mem := upd s.mem a (some .raw), vars := vars, log := s.log ++ [⟨i, decide (C = T) || virt T⟩] },
      decide (C = T) || virt T, by simp only [deleteOld, noopDelete, ha], rfl, by simp, rfl, ?_, ?_⟩
    · rintro ⟨b, D, hb⟩
      dsimp only at hb
      by_cases hba : b = a
      · subst hba; rw [upd_same] at hb; cases hb
      · rw [upd_ne _ _ hba] at hb
        exact hba (I.inj b a _ _ hb ha rfl)
    · intro j hj
      constructor
      · rintro ⟨b, D, hb⟩
        dsimp only at hb
        by_cases hba : b = a
        · subst hba; rw [upd_same] at hb; cases hb
        · rw [upd_ne _ _ hba] at hb
          exact ⟨b, D, hb⟩
      · rintro ⟨b, D, hb⟩
        refine ⟨b, D, ?_⟩
        dsimp only
        rw [upd_ne]
        · exact hb
        · rintro rfl
          rw [ha] at hb
          cases hb
          exact hj rfl
  rcases hp with rfl | rfl
  · simp only [step, hv]
    exact main _
  · simp only [step, hv]
    exact main _

/-- What the statements do with the variables. -/
def life : Op → Lifetimes.Effect Nat
  | .emplace v _ _ => { begins := [v] }
  | .null v _ => { begins := [v] }
  | .move v w _ => { uses := [w], begins := [v] }
  | .moveAssign v w => { uses := [v, w] }
  | .reset v => { uses := [v] }
  | .release v => { uses := [v] }
  | .drop v => { ends := [v] }

/-- C141. A statement is possible exactly if it uses variables only while they are alive, and an object is constructed only in free
storage. -/
theorem noop_defined_iff {storage : Nat → Bool} {virt : Nat → Bool} {ps : List Op} {s : St}
    (h : run virt (start storage) ps = .ok s) (p : Op) :
    (∃ s', step virt s p = .ok s') ↔ (life p).Possible (fun v => s.vars v ≠ none) ∧ ∀ v a C, p = .emplace v a C → s.mem a = some .raw := by
  have hok : (∃ s', step virt s p = .ok s') ↔ step virt s p ≠ .invalid := by
    rcases inv_step (virt := virt) (reach h) p with h1 | ⟨s', h1, _⟩ <;> rw [h1] <;> simp
  rw [hok]
  have hd : ∀ (T : Nat) (old : Option Nat) (t : St), deleteOld virt T old t ≠ .invalid := by
    intro T old t
    cases old with
    | none => simp [deleteOld]
    | some a =>
      simp only [deleteOld, noopDelete]
      split <;> simp
  cases p with
  | emplace v a C =>
    simp only [step, life, Lifetimes.Effect.Possible]
    cases hv : s.vars v with
    | some x => simp [hv]
    | none =>
      cases ha : s.mem a with
      | none => simp [hv, ha]
      | some c => cases c <;> simp [hv, ha]
  | null v C =>
    simp only [step, life, Lifetimes.Effect.Possible]
    cases hv : s.vars v <;> simp [hv]
  | move v w C =>
    simp only [step, life, Lifetimes.Effect.Possible]
    cases hv : s.vars v <;> cases hw : s.vars w <;> simp [hv, hw]
  | moveAssign v w =>
    simp only [step, life, Lifetimes.Effect.Possible]
    cases hw : s.vars w with
    | none => simp [hw]
    | some x =>
      obtain ⟨T, q⟩ := x
      dsimp only
      by_cases hvw : v = w
      · subst hvw
        rw [upd_same]
        simpa [hw] using hd T none _
      · rw [upd_ne _ _ hvw]
        cases hv : s.vars v with
        | none => simp [hv]
        | some y => simpa [hv, hw] using hd y.1 y.2 _
  | reset v =>
    simp only [step, life, Lifetimes.Effect.Possible]
    cases hv : s.vars v with
    | none => simp [hv]
    | some y => simpa [hv] using hd y.1 y.2 _
  | release v =>
    simp only [step, life, Lifetimes.Effect.Possible]
    cases hv : s.vars v with
    | none => simp [hv]
    | some y => obtain ⟨T, q⟩ := y; cases q <;> simp [hv]
  | drop v =>
    simp only [step, life, Lifetimes.Effect.Possible]
    cases hv : s.vars v with
    | none => simp [hv]
    | some y => simpa [hv] using hd y.1 y.2 _

/-- Two objects in the same storage one after the other; the second one is destroyed through a pointer to a base class. -/
example : ∃ s, run (fun T => T == 9) (start fun a => a < 2) [.emplace 0 1 5, .reset 0, .emplace 1 1 6, .move 2 1 9, .drop 0, .drop 1,
    .drop 2] = .ok s ∧ s.log = [⟨0, true⟩, ⟨1, true⟩] ∧ s.next = 2 := ⟨_, rfl, rfl, rfl⟩

/-- Without a virtual destructor, only the base class's runs. -/
example : ∃ s, run (fun _ => false) (start fun a => a < 2) [.emplace 0 1 6, .move 1 0 9, .drop 1] = .ok s ∧ s.log = [⟨0, false⟩] := ⟨_, rfl, rfl⟩

end Guanaqo.NoopDelete
