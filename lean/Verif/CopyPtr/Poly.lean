/-!
# C150: `copyable_unique_ptr` and objects of derived classes (copyable-unique_ptr.hpp)

A `copyable_unique_ptr<T>` can be made from a `std::unique_ptr` to an object of a class derived from `T`. Histories of variables with such objects; exceptions are the subject of C70 and left out.
-/

namespace Guanaqo.CopyPtr.Poly

/-! ## Model -/

/-- An object: its class (0 is `T` itself, others are derived from it), what it has of `T`, and what the derived class adds. -/
structure Obj where
  cls : Nat
  base : Int
  extra : Int
  deriving DecidableEq, Repr

/-- An object of the class `T`: nothing added. -/
def Obj.ofT (x : Int) : Obj := ⟨0, x, 0⟩

/-- `vars v = some p`: the variable `v` is alive and its `ptr` member is `p`. Addresses are not recycled (simplification, as in C70). -/
structure St where
  heap : Nat → Option Obj := fun _ => none
  vars : Nat → Option (Option Nat) := fun _ => none
  next : Nat := 0

def upd {β : Type} (f : Nat → β) (i : Nat) (x : β) : Nat → β := fun k => if k = i then x else f k

/-- `default_delete<T>`: if `T` has no virtual destructor (`virt`), the dynamic type must be `T` ([expr.delete]). `none` is undefined behaviour, here and below. -/
def delete (virt : Bool) (p : Option Nat) (s : St) : Option St :=
  match p with
  | none => some s
  | some a =>
    match s.heap a with
    | none => none
    | some o => if virt || o.cls = 0 then some { s with heap := upd s.heap a none } else none

/-- copyable-unique_ptr.hpp:13-14 and 16: `o.ptr ? std::make_unique<T>(*o.ptr) : nullptr`. The copy constructor of `T` copies what the object has of `T`. -/
def clone (p : Option Nat) (s : St) : Option (Option Nat × St) :=
  match p with
  | none => some (none, s)
  | some a =>
    match s.heap a with
    | none => none
    | some o => some (some s.next, { s with heap := upd s.heap s.next (some (Obj.ofT o.base)), next := s.next + 1 })

/-- What a program does. -/
inductive Op where
  | default (v : Nat)
  /-- from a new object of the class `T` -/
  | make (v : Nat) (x : Int)
  /-- from a new object of a class derived from `T` -/
  | derived (v c : Nat) (x y : Int)
  | copy (v w : Nat)
  | move (v w : Nat)
  | copyAssign (v w : Nat)
  | moveAssign (v w : Nat)
  | destroy (v : Nat)
  /-- look at the object (e.g. with a virtual function) -/
  | read (v : Nat)
  deriving DecidableEq, Repr

def step (virt : Bool) (s : St) : Op → Option (Option Obj × St)
  | .default v =>                                                                   -- line 12
    match s.vars v with
    | none => some (none, { s with vars := upd s.vars v (some none) })
    | some _ => none
  | .make v x =>                                                                    -- line 11
    match s.vars v with
    | none => some (none, { heap := upd s.heap s.next (some (Obj.ofT x)), vars := upd s.vars v (some (some s.next)), next := s.next + 1 })
    | some _ => none
  | .derived v c x y =>                                                             -- line 11
    match s.vars v with
    | none => some (none, { heap := upd s.heap s.next (some ⟨c + 1, x, y⟩), vars := upd s.vars v (some (some s.next)), next := s.next + 1 })
    | some _ => none
  | .copy v w =>                                                                    -- lines 13-14
    match s.vars v, s.vars w with
    | none, some p =>
      match clone p s with
      | none => none
      | some (q, s) => some (none, { s with vars := upd s.vars v (some q) })
    | _, _ => none
  | .move v w =>                                                                    -- line 19
    match s.vars v, s.vars w with
    | none, some p => some (none, { s with vars := upd (upd s.vars w (some none)) v (some p) })
    | _, _ => none
  | .copyAssign v w =>                                                              -- lines 15-18
    match s.vars v, s.vars w with
    | some old, some p =>
      match clone p s with
      | none => none
      | some (q, s) => (delete virt old { s with vars := upd s.vars v (some q) }).map fun s => (none, s)
    | _, _ => none
  | .moveAssign v w =>                                                              -- line 20
    match s.vars v, s.vars w with
    | some _, some p =>
      match (upd s.vars w (some none)) v with                                       -- `reset(u.release())`
      | some old => (delete virt old { s with vars := upd (upd s.vars w (some none)) v (some p) }).map fun s => (none, s)
      | none => none
    | _, _ => none
  | .destroy v =>
    match s.vars v with
    | some p => (delete virt p { s with vars := upd s.vars v none }).map fun s => (none, s)
    | none => none
  | .read v =>                                                                      -- lines 26-29
    match s.vars v with
    | some (some a) => (s.heap a).map fun o => (some o, s)
    | _ => none

/-- What the program sees; `none` if it has undefined behaviour. -/
def run (virt : Bool) : St → List Op → Option (List (Option Obj))
  | _, [] => some []
  | s, op :: ops =>
    match step virt s op with
    | none => none
    | some (r, s) => (run virt s ops).map (r :: ·)

/-- The state after the program. -/
def final (virt : Bool) : St → List Op → Option St
  | s, [] => some s
  | s, op :: ops =>
    match step virt s op with
    | none => none
    | some (_, s) => final virt s ops

/-! ## Specification: variables hold objects -/

abbrev Vals := Nat → Option (Option Obj)

/-- The object that a variable held may be deleted. -/
def Deletable (virt : Bool) : Option Obj → Bool
  | none => true
  | some o => virt || o.cls = 0

/-- What an operation means for the values, if `f o` is the copy of an object `o`. -/
def spec (virt : Bool) (f : Obj → Obj) (a : Vals) : Op → Option (Option Obj × Vals)
  | .default v => match a v with
    | none => some (none, upd a v (some none))
    | some _ => none
  | .make v x => match a v with
    | none => some (none, upd a v (some (some (Obj.ofT x))))
    | some _ => none
  | .derived v c x y => match a v with
    | none => some (none, upd a v (some (some ⟨c + 1, x, y⟩)))
    | some _ => none
  | .copy v w => match a v, a w with
    | none, some t => some (none, upd a v (some (t.map f)))
    | _, _ => none
  | .move v w => match a v, a w with
    | none, some t => some (none, upd (upd a w (some none)) v (some t))
    | _, _ => none
  | .copyAssign v w => match a v, a w with
    | some old, some t => if Deletable virt old then some (none, upd a v (some (t.map f))) else none
    | _, _ => none
  | .moveAssign v w => match a v, a w with
    | some old, some t => if v = w then some (none, a) else if Deletable virt old then some (none, upd (upd a w (some none)) v (some t)) else none
    | _, _ => none
  | .destroy v => match a v with
    | some old => if Deletable virt old then some (none, upd a v none) else none
    | none => none
  | .read v => match a v with
    | some (some o) => some (some o, a)
    | _ => none

def specRun (virt : Bool) (f : Obj → Obj) : Vals → List Op → Option (List (Option Obj))
  | _, [] => some []
  | a, op :: ops =>
    match spec virt f a op with
    | none => none
    | some (r, a) => (specRun virt f a ops).map (r :: ·)

/-- C150, full statement: copies are equal to the original, whatever its class, and programs that only use variables as they should are defined. -/
def KeepsType (virt : Bool) : Prop := ∀ ops r, specRun true id (fun _ => none) ops = some r → run virt {} ops = some r

/-! ## Proofs -/

/-- The values of the variables. -/
def view (s : St) : Vals := fun v =>
  match s.vars v with
  | none => none
  | some none => some none
  | some (some p) => some (s.heap p)

structure Inv (s : St) : Prop where
  valid : ∀ v p, s.vars v = some (some p) → s.heap p ≠ none
  inj : ∀ v w p, s.vars v = some (some p) → s.vars w = some (some p) → v = w
  owned : ∀ p, s.heap p ≠ none → ∃ v, s.vars v = some (some p)
  fresh : ∀ p, s.next ≤ p → s.heap p = none

/-- The copy of an object. -/
def slice (o : Obj) : Obj := Obj.ofT o.base

theorem view_none {s : St} {v : Nat} : view s v = none ↔ s.vars v = none := by
  unfold view
  split <;> simp_all

theorem upd_self {β : Type} (f : Nat → β) (i : Nat) (x : β) : upd f i x i = x := by simp [upd]
theorem upd_ne {β : Type} (f : Nat → β) {i k : Nat} (x : β) (h : k ≠ i) : upd f i x k = f k := by simp [upd, h]

/-- A variable that holds nothing gets a new object. -/
theorem inv_alloc {s : St} (hi : Inv s) {v : Nat} (hv : s.vars v = none ∨ s.vars v = some none) (o : Obj) :
    Inv ⟨upd s.heap s.next (some o), upd s.vars v (some (some s.next)), s.next + 1⟩ ∧
    view ⟨upd s.heap s.next (some o), upd s.vars v (some (some s.next)), s.next + 1⟩ = upd (view s) v (some (some o)) := by
  obtain ⟨h1, h2, h3, h4⟩ := hi
  have hn : ∀ w p, s.vars w = some (some p) → p ≠ s.next := fun w p h hp => h1 w p h (h4 p (by omega))
  refine ⟨⟨fun w p h => ?_, fun w x p h g => ?_, fun p h => ?_, fun p h => ?_⟩, funext fun w => ?_⟩
  · simp only [upd] at h ⊢
    by_cases hw : w = v
    · rw [if_pos hw] at h; injection h with h; injection h with h; rw [if_pos h.symm]; simp
    · rw [if_neg hw] at h; rw [if_neg (hn w p h)]; exact h1 w p h
  · simp only [upd] at h g
    by_cases hw : w = v
    · by_cases hx : x = v
      · rw [hw, hx]
      · rw [if_pos hw] at h; injection h with h; injection h with h
        rw [if_neg hx] at g
        exact absurd h.symm (hn x p g)
    · rw [if_neg hw] at h
      by_cases hx : x = v
      · rw [if_pos hx] at g; injection g with g; injection g with g
        exact absurd g.symm (hn w p h)
      · rw [if_neg hx] at g
        exact h2 w x p h g
  · simp only [upd] at h ⊢
    by_cases hp : p = s.next
    · exact ⟨v, by rw [if_pos rfl, hp]⟩
    · rw [if_neg hp] at h
      obtain ⟨w, hw⟩ := h3 p h
      refine ⟨w, ?_⟩
      rw [if_neg]
      · exact hw
      · rintro rfl
        rcases hv with hv | hv <;> rw [hv] at hw <;> cases hw
  · simp only at h
    show upd s.heap s.next (some o) p = none
    rw [upd_ne _ _ (show p ≠ s.next by omega)]
    exact h4 p (by omega)
  · by_cases hw : w = v
    · subst hw; simp [view, upd]
    · simp only [view, upd, if_neg hw]
      cases hx : s.vars w with
      | none => rfl
      | some q =>
        cases q with
        | none => rfl
        | some p => simp [hn w p hx]

/-- A variable that holds nothing. -/
theorem inv_null {s : St} (hi : Inv s) {v : Nat} (hv : s.vars v = none ∨ s.vars v = some none) (x : Option (Option Nat)) (hx : x = none ∨ x = some none) :
    Inv { s with vars := upd s.vars v x } ∧ view { s with vars := upd s.vars v x } = upd (view s) v (x.map fun _ => none) := by
  obtain ⟨h1, h2, h3, h4⟩ := hi
  have hne : ∀ p, x ≠ some (some p) := by rintro p rfl; rcases hx with h | h <;> cases h
  refine ⟨⟨fun w p h => ?_, fun w y p h g => ?_, fun p h => ?_, h4⟩, funext fun w => ?_⟩
  · simp only [upd] at h
    split at h
    · exact absurd h (hne p)
    · exact h1 w p h
  · simp only [upd] at h g
    split at h
    · exact absurd h (hne p)
    · split at g
      · exact absurd g (hne p)
      · exact h2 w y p h g
  · obtain ⟨w, hw⟩ := h3 p h
    refine ⟨w, ?_⟩
    simp only [upd]
    rw [if_neg]
    · exact hw
    · rintro rfl
      rcases hv with hv | hv <;> rw [hv] at hw <;> cases hw
  · by_cases hw : w = v
    · subst hw
      rcases hx with rfl | rfl <;> simp [view, upd]
    · simp [view, upd, hw]

/-- A pointer goes from one variable to another, which holds nothing. -/
theorem inv_move {s : St} (hi : Inv s) {v w : Nat} (hvw : v ≠ w) (hv : s.vars v = none ∨ s.vars v = some none) {p : Option Nat} (hw : s.vars w = some p) :
    Inv { s with vars := upd (upd s.vars w (some none)) v (some p) } ∧
    view { s with vars := upd (upd s.vars w (some none)) v (some p) } = upd (upd (view s) w (some none)) v (view s w) := by
  obtain ⟨h1, h2, h3, h4⟩ := hi
  -- who holds what
  have key : ∀ x q, upd (upd s.vars w (some none)) v (some p) x = some (some q) → (x = v ∧ s.vars w = some (some q)) ∨ (x ≠ v ∧ x ≠ w ∧ s.vars x = some (some q)) := by
    intro x q h
    simp only [upd] at h
    split at h
    · rename_i hx
      injection h with h
      exact .inl ⟨hx, by rw [hw, h]⟩
    · split at h
      · cases h
      · exact .inr ⟨by assumption, by assumption, h⟩
  refine ⟨⟨fun x q h => ?_, fun x y q h g => ?_, fun q h => ?_, h4⟩, funext fun x => ?_⟩
  · rcases key x q h with ⟨-, h⟩ | ⟨-, -, h⟩
    · exact h1 w q h
    · exact h1 x q h
  · rcases key x q h with ⟨e, h⟩ | ⟨_, e2, h⟩
    · rcases key y q g with ⟨e', g⟩ | ⟨_, e2, g⟩
      · rw [e, e']
      · exact absurd (h2 y w q g h) e2
    · rcases key y q g with ⟨e', g⟩ | ⟨_, _, g⟩
      · exact absurd (h2 x w q h g) e2
      · exact h2 x y q h g
  · obtain ⟨x, hx⟩ := h3 q h
    by_cases hxw : x = w
    · subst hxw
      rw [hw] at hx; injection hx with hx
      exact ⟨v, by simp [upd, hx]⟩
    · refine ⟨x, ?_⟩
      simp only [upd]
      rw [if_neg, if_neg hxw, hx]
      rintro rfl
      rcases hv with hv | hv <;> rw [hv] at hx <;> cases hx
  · by_cases hx : x = v
    · subst hx
      simp only [view, upd, if_true, hw]
    · by_cases hxw : x = w
      · subst hxw; simp [view, upd, hx]
      · simp [view, upd, hx, hxw]

/-- The object of a variable is deleted. -/
theorem inv_delete {s : St} (hi : Inv s) {v a : Nat} (hv : s.vars v = some (some a)) :
    Inv { s with heap := upd s.heap a none, vars := upd s.vars v (some none) } ∧
    view { s with heap := upd s.heap a none, vars := upd s.vars v (some none) } = upd (view s) v (some none) := by
  obtain ⟨h1, h2, h3, h4⟩ := hi
  have hother : ∀ w p, w ≠ v → s.vars w = some (some p) → p ≠ a := by
    rintro w p hw h rfl
    exact hw (h2 w v p h hv)
  refine ⟨⟨fun w p h => ?_, fun w y p h g => ?_, fun p h => ?_, fun p h => ?_⟩, funext fun w => ?_⟩
  · simp only [upd] at h ⊢
    split at h
    · cases h
    · rw [if_neg (hother w p (by assumption) h)]
      exact h1 w p h
  · simp only [upd] at h g
    split at h
    · cases h
    · split at g
      · cases g
      · exact h2 w y p h g
  · simp only [upd] at h ⊢
    split at h
    · exact absurd rfl h
    · rename_i hp
      obtain ⟨w, hw⟩ := h3 p h
      refine ⟨w, ?_⟩
      rw [if_neg]
      · exact hw
      · rintro rfl
        rw [hv] at hw; injection hw with hw; injection hw with hw
        exact hp hw.symm
  · simp only [upd]
    split
    · rfl
    · exact h4 p h
  · by_cases hw : w = v
    · subst hw; simp [view, upd]
    · simp only [view, upd, if_neg hw]
      cases hx : s.vars w with
      | none => rfl
      | some q =>
        cases q with
        | none => rfl
        | some p => simp [hother w p hw hx]

theorem upd_upd {β : Type} (f : Nat → β) (i : Nat) (x y : β) : upd (upd f i x) i y = upd f i y := by
  funext k; simp only [upd]; split <;> rfl

theorem upd_same {β : Type} (f : Nat → β) (i : Nat) (x : β) (h : f i = x) : upd f i x = f := by
  funext k; simp only [upd]; split
  · rename_i hk; rw [hk, h]
  · rfl

theorem upd_comm {β : Type} (f : Nat → β) {i j : Nat} (x y : β) (h : i ≠ j) : upd (upd f i x) j y = upd (upd f j y) i x := by
  funext k; simp only [upd]
  by_cases h1 : k = i
  · subst h1; simp [h]
  · simp [h1]

/-- A variable is emptied: its object, if any, is deleted. -/
theorem empty_spec {s : St} (hi : Inv s) {virt : Bool} {v : Nat} {old : Option Nat} (hv : s.vars v = some old) :
    (∃ o, view s v = some o ∧ Deletable virt o = false ∧ ∀ vars, delete virt old { s with vars := vars } = none) ∨
    (∃ o H, view s v = some o ∧ Deletable virt o = true ∧ (∀ vars, delete virt old { s with vars := vars } = some { s with heap := H, vars := vars }) ∧
      Inv { s with heap := H, vars := upd s.vars v (some none) } ∧ view { s with heap := H, vars := upd s.vars v (some none) } = upd (view s) v (some none)) := by
  cases old with
  | none =>
    right
    refine ⟨none, s.heap, by simp [view, hv], rfl, fun _ => rfl, ?_⟩
    have := inv_null hi (v := v) (.inr hv) (some none) (.inr rfl)
    exact this
  | some a =>
    cases ho : s.heap a with
    | none => exact absurd ho (hi.valid v a hv)
    | some o =>
      cases hd : (virt || decide (o.cls = 0)) with
      | false => exact .inl ⟨some o, by simp [view, hv, ho], hd, fun _ => by simp only [delete, ho, hd, Bool.false_eq_true, if_false]⟩
      | true => exact .inr ⟨some o, _, by simp [view, hv, ho], hd, fun _ => by simp only [delete, ho, hd, if_true], inv_delete hi hv⟩

theorem step_spec {s : St} (hi : Inv s) (virt : Bool) (op : Op) :
    (step virt s op = none ∧ spec virt slice (view s) op = none) ∨
    (∃ r s', step virt s op = some (r, s') ∧ spec virt slice (view s) op = some (r, view s') ∧ Inv s') := by
  cases op with
  | default v =>
    cases hv : s.vars v with
    | none =>
      right
      obtain ⟨h1, h2⟩ := inv_null hi (.inl hv) (some none) (.inr rfl)
      exact ⟨none, _, by simp only [step, hv], by simp only [spec, view_none.2 hv, h2]; rfl, h1⟩
    | some p =>
      left
      refine ⟨by simp only [step, hv], ?_⟩
      cases p <;> simp [spec, view, hv]
  | make v x =>
    cases hv : s.vars v with
    | none =>
      right
      obtain ⟨h1, h2⟩ := inv_alloc hi (.inl hv) (Obj.ofT x)
      exact ⟨none, _, by simp only [step, hv], by simp only [spec, view_none.2 hv, h2], h1⟩
    | some p =>
      left
      refine ⟨by simp only [step, hv], ?_⟩
      cases p <;> simp [spec, view, hv]
  | derived v c x y =>
    cases hv : s.vars v with
    | none =>
      right
      obtain ⟨h1, h2⟩ := inv_alloc hi (.inl hv) ⟨c + 1, x, y⟩
      exact ⟨none, _, by simp only [step, hv], by simp only [spec, view_none.2 hv, h2], h1⟩
    | some p =>
      left
      refine ⟨by simp only [step, hv], ?_⟩
      cases p <;> simp [spec, view, hv]
  | copy v w =>
    cases hv : s.vars v with
    | some q =>
      left
      refine ⟨by simp only [step, hv], ?_⟩
      cases q <;> simp [spec, view, hv]
    | none =>
      cases hw : s.vars w with
      | none => left; exact ⟨by simp only [step, hv, hw], by simp only [spec, view_none.2 hv, view_none.2 hw]⟩
      | some p =>
        right
        cases p with
        | none =>
          obtain ⟨h1, h2⟩ := inv_null hi (.inl hv) (some none) (.inr rfl)
          refine ⟨none, _, by simp only [step, hv, hw, clone], ?_, h1⟩
          rw [h2]
          have e : view s w = some none := by simp [view, hw]
          simp only [spec, view_none.2 hv, e]; rfl
        | some a =>
          cases ho : s.heap a with
          | none => exact absurd ho (hi.valid w a hw)
          | some o =>
            obtain ⟨h1, h2⟩ := inv_alloc hi (.inl hv) (slice o)
            refine ⟨none, _, by simp only [step, hv, hw, clone, ho]; rfl, ?_, h1⟩
            have e : view s w = some (some o) := by simp [view, hw, ho]
            simp only [spec, view_none.2 hv, e]
            exact congrArg (fun x => some (none, x)) h2.symm
  | move v w =>
    cases hv : s.vars v with
    | some q =>
      left
      refine ⟨by simp only [step, hv], ?_⟩
      cases q <;> simp [spec, view, hv]
    | none =>
      cases hw : s.vars w with
      | none => left; exact ⟨by simp only [step, hv, hw], by simp only [spec, view_none.2 hv, view_none.2 hw]⟩
      | some p =>
        right
        have hvw : v ≠ w := by rintro rfl; rw [hv] at hw; cases hw
        obtain ⟨h1, h2⟩ := inv_move hi hvw (.inl hv) hw
        refine ⟨none, _, by simp only [step, hv, hw], ?_, h1⟩
        rw [h2]
        cases hx : view s w with
        | none => rw [view_none, hw] at hx; cases hx
        | some t => simp only [spec, view_none.2 hv, hx]
  | copyAssign v w =>
    cases hv : s.vars v with
    | none => left; exact ⟨by simp only [step, hv], by simp only [spec, view_none.2 hv]⟩
    | some old =>
      cases hw : s.vars w with
      | none =>
        left
        refine ⟨by simp only [step, hv, hw], ?_⟩
        simp only [spec, view_none.2 hw]
        cases view s v <;> rfl
      | some p =>
        -- the copy
        rcases empty_spec hi (virt := virt) hv with ⟨o, e1, e2, e3⟩ | ⟨o, H, e1, e2, e3, e4, e5⟩
        · left
          cases p with
          | none =>
            have e : view s w = some none := by simp [view, hw]
            exact ⟨by simp only [step, hv, hw, clone, e3]; rfl, by simp [spec, e1, e, e2]⟩
          | some a =>
            cases ho : s.heap a with
            | none => exact absurd ho (hi.valid w a hw)
            | some x =>
              have e : view s w = some (some x) := by simp [view, hw, ho]
              refine ⟨?_, by simp [spec, e1, e, e2]⟩
              simp only [step, hv, hw, clone, ho]
              have := e3 s.vars
              cases old with
              | none => simp [delete] at this
              | some b =>
                have hb : b ≠ s.next := by
                  rintro rfl
                  exact hi.valid v _ hv (hi.fresh _ (Nat.le_refl _))
                simp only [delete, upd_ne _ _ hb] at this ⊢
                cases hsb : s.heap b with
                | none => rfl
                | some y =>
                  rw [hsb] at this
                  simp only at this ⊢
                  split at this
                  · cases this
                  · rename_i hc; rw [if_neg hc]; rfl
        · right
          cases p with
          | none =>
            have e : view s w = some none := by simp [view, hw]
            refine ⟨none, _, by simp only [step, hv, hw, clone, e3]; rfl, ?_, e4⟩
            simp only [spec, e1, e, e2, if_true, e5]; rfl
          | some a =>
            cases ho : s.heap a with
            | none => exact absurd ho (hi.valid w a hw)
            | some x =>
              have e : view s w = some (some x) := by simp [view, hw, ho]
              obtain ⟨h1, h2⟩ := inv_alloc e4 (v := v) (.inr (by simp [upd])) (slice x)
              simp only [upd_upd] at h1 h2
              have hd : delete virt old { heap := upd s.heap s.next (some (Obj.ofT x.base)), vars := upd s.vars v (some (some s.next)), next := s.next + 1 } =
                  some { heap := upd H s.next (some (Obj.ofT x.base)), vars := upd s.vars v (some (some s.next)), next := s.next + 1 } := by
                have := e3 s.vars
                cases old with
                | none =>
                  simp only [delete, Option.some.injEq, St.mk.injEq] at this ⊢
                  simp [← this.1]
                | some b =>
                  have hb : b ≠ s.next := by
                    rintro rfl
                    exact hi.valid v _ hv (hi.fresh _ (Nat.le_refl _))
                  simp only [delete, upd_ne _ _ hb] at this ⊢
                  cases hsb : s.heap b with
                  | none => rw [hsb] at this; cases this
                  | some y =>
                    rw [hsb] at this
                    simp only at this ⊢
                    split at this
                    · rename_i hc
                      simp only [Option.some.injEq, St.mk.injEq] at this
                      rw [if_pos hc, ← this.1, upd_comm _ _ _ (Ne.symm hb)]
                    · cases this
              refine ⟨none, _, by simp only [step, hv, hw, clone, ho, hd]; rfl, ?_, h1⟩
              simp only [spec, e1, e, e2, if_true]
              refine congrArg (fun x => some (none, x)) ?_
              refine Eq.trans ?_ h2.symm
              rw [e5, upd_upd]; rfl
  | moveAssign v w =>
    cases hv : s.vars v with
    | none => left; exact ⟨by simp only [step, hv], by simp only [spec, view_none.2 hv]⟩
    | some old =>
      cases hw : s.vars w with
      | none =>
        left
        refine ⟨by simp only [step, hv, hw], ?_⟩
        simp only [spec, view_none.2 hw]
        cases view s v <;> rfl
      | some p =>
        by_cases hvw : v = w
        · subst hvw
          right
          rw [hv] at hw; cases hw
          refine ⟨none, s, ?_, ?_, hi⟩
          · simp only [step, hv, upd_self, delete, upd_upd, Option.map_some]
            rw [upd_same _ _ _ hv]
          · cases hx : view s v with
            | none => rw [view_none, hv] at hx; cases hx
            | some t => simp [spec, hx]
        · have hwv : upd s.vars w (some none) v = some old := by rw [upd_ne _ _ hvw, hv]
          rcases empty_spec hi (virt := virt) hv with ⟨o, e1, e2, e3⟩ | ⟨o, H, e1, e2, e3, e4, e5⟩
          · left
            refine ⟨by simp only [step, hv, hw, hwv, e3]; rfl, ?_⟩
            cases hx : view s w with
            | none => rw [view_none, hw] at hx; cases hx
            | some t => simp [spec, e1, hx, hvw, e2]
          · right
            obtain ⟨h1, h2⟩ := inv_move e4 hvw (.inr (by simp [upd])) (p := p) (w := w) (by rw [← hw]; exact upd_ne _ _ (Ne.symm hvw))
            have eqv : upd (upd (upd s.vars v (some none)) w (some none)) v (some p) = upd (upd s.vars w (some none)) v (some p) := by
              rw [upd_comm _ _ _ hvw, upd_upd]
            simp only [eqv] at h1 h2
            refine ⟨none, _, by simp only [step, hv, hw, hwv, e3]; rfl, ?_, h1⟩
            rw [h2, e5]
            cases hx : view s w with
            | none => rw [view_none, hw] at hx; cases hx
            | some t =>
              simp only [spec, e1, hx, if_neg hvw, e2, if_true]
              rw [upd_ne _ _ (Ne.symm hvw), hx, upd_comm _ _ _ hvw, upd_upd]
  | destroy v =>
    cases hv : s.vars v with
    | none => left; exact ⟨by simp only [step, hv], by simp only [spec, view_none.2 hv]⟩
    | some old =>
      rcases empty_spec hi (virt := virt) hv with ⟨o, e1, e2, e3⟩ | ⟨o, H, e1, e2, e3, e4, e5⟩
      · left; exact ⟨by simp only [step, hv, e3]; rfl, by simp [spec, e1, e2]⟩
      · right
        obtain ⟨h1, h2⟩ := inv_null e4 (v := v) (.inr (by simp [upd])) none (.inl rfl)
        simp only [upd_upd] at h1 h2
        refine ⟨none, _, by simp only [step, hv, e3]; rfl, ?_, h1⟩
        rw [h2, e5, upd_upd]
        simp [spec, e1, e2]
  | read v =>
    cases hv : s.vars v with
    | none => left; exact ⟨by simp only [step, hv], by simp only [spec, view_none.2 hv]⟩
    | some p =>
      cases p with
      | none => left; exact ⟨by simp only [step, hv], by simp [spec, view, hv]⟩
      | some a =>
        cases ho : s.heap a with
        | none => exact absurd ho (hi.valid v a hv)
        | some o => right; exact ⟨some o, s, by simp only [step, hv, ho]; rfl, by simp [spec, view, hv, ho], hi⟩

theorem inv_init : Inv {} := ⟨fun _ _ h => by simp at h, fun _ _ _ h => by simp at h, fun _ h => absurd rfl h, fun _ _ => rfl⟩

theorem run_spec (virt : Bool) (ops : List Op) {s : St} (hi : Inv s) : run virt s ops = specRun virt slice (view s) ops := by
  induction ops generalizing s with
  | nil => rfl
  | cons op ops ih =>
    rcases step_spec hi virt op with ⟨h1, h2⟩ | ⟨r, s', h1, h2, h3⟩
    · simp only [run, specRun, h1, h2]
    · simp only [run, specRun, h1, h2, ih h3]

/-- C150, exactly: variables are values whose copies are objects of the class `T` with what the original has of `T`. A program is undefined exactly if this is, in particular if an object of a
derived class is deleted (by destruction or assignment) and the destructor of `T` is not virtual. -/
theorem sliced_partial (virt : Bool) (ops : List Op) : run virt {} ops = specRun virt (fun o => ⟨0, o.base, 0⟩) (fun _ => none) ops := run_spec virt ops inv_init

/-- C150: every object belongs to exactly one variable, so that each is deleted exactly once and none is leaked. -/
theorem one_owner (virt : Bool) (ops : List Op) : ∀ s, final virt {} ops = some s → ∀ p, s.heap p ≠ none ↔ ∃ v, s.vars v = some (some p) ∧ ∀ w, s.vars w = some (some p) → w = v := by
  have key : ∀ (ops : List Op) (s s' : St), Inv s → final virt s ops = some s' → Inv s' := by
    intro ops
    induction ops with
    | nil => intro s s' hi h; simp only [final, Option.some.injEq] at h; exact h ▸ hi
    | cons op ops ih =>
      intro s s' hi h
      rcases step_spec hi virt op with ⟨h1, -⟩ | ⟨r, s₁, h1, -, h3⟩
      · simp only [final, h1] at h; cases h
      · simp only [final, h1] at h; exact ih s₁ s' h3 h
  intro s h p
  have hi := key ops {} s inv_init h
  constructor
  · intro hp
    obtain ⟨v, hv⟩ := hi.owned p hp
    exact ⟨v, hv, fun w hw => hi.inj w v p hw hv⟩
  · rintro ⟨v, hv, -⟩
    exact hi.valid v p hv

/-- C150: programs without objects of derived classes have copies that are equal to the original. -/
theorem same_class (virt : Bool) (ops : List Op) (h : ∀ v c x y, Op.derived v c x y ∉ ops) : run virt {} ops = specRun virt id (fun _ => none) ops := by
  rw [sliced_partial]
  -- all objects are of the class `T`
  have key : ∀ (ops : List Op) (a : Vals), (∀ v c x y, Op.derived v c x y ∉ ops) → (∀ v o, a v = some (some o) → o = Obj.ofT o.base) →
      specRun virt (fun o => ⟨0, o.base, 0⟩) a ops = specRun virt id a ops := by
    intro ops
    induction ops with
    | nil => intros; rfl
    | cons op ops ih =>
      intro a hno ha
      have hmap : ∀ w t, a w = some t → t.map (fun o : Obj => (⟨0, o.base, 0⟩ : Obj)) = t := by
        intro w t ht
        cases t with
        | none => rfl
        | some o => rw [Option.map_some, ← Obj.ofT, ← ha w o ht]
      have hu : ∀ (b : Vals) v t, (∀ v o, b v = some (some o) → o = Obj.ofT o.base) → (∀ o, t = some (some o) → o = Obj.ofT o.base) → ∀ w o, upd b v t w = some (some o) → o = Obj.ofT o.base := by
        intro b v t hb ht w o h
        simp only [upd] at h
        split at h
        · exact ht o h
        · exact hb w o h
      have hst : spec virt (fun o => ⟨0, o.base, 0⟩) a op = spec virt id a op ∧ ∀ r a', spec virt id a op = some (r, a') → ∀ v o, a' v = some (some o) → o = Obj.ofT o.base := by
        cases op with
        | derived v c x y => exact absurd List.mem_cons_self (hno v c x y)
        | default v =>
          refine ⟨rfl, fun r a' h => ?_⟩
          simp only [spec] at h
          split at h
          · cases h; exact hu _ _ _ ha fun o h => by cases h
          · cases h
        | make v x =>
          refine ⟨rfl, fun r a' h => ?_⟩
          simp only [spec] at h
          split at h
          · cases h; exact hu _ _ _ ha fun o h => by cases h; rfl
          · cases h
        | copy v w =>
          have e : spec virt (fun o => ⟨0, o.base, 0⟩) a (.copy v w) = spec virt id a (.copy v w) := by
            simp only [spec]
            split
            · rename_i t _ hw; rw [hmap w t hw]; simp
            · rfl
          refine ⟨e, fun r a' h => ?_⟩
          simp only [spec] at h
          split at h
          · rename_i t _ hw; cases h
            exact hu _ _ _ ha fun o h => ha w o (by rw [hw]; simpa using h)
          · cases h
        | move v w =>
          refine ⟨rfl, fun r a' h => ?_⟩
          simp only [spec] at h
          split at h
          · rename_i t _ hw; cases h
            exact hu _ _ _ (hu _ _ _ ha fun o h => by cases h) fun o h => ha w o (by rw [hw]; exact h)
          · cases h
        | copyAssign v w =>
          have e : spec virt (fun o => ⟨0, o.base, 0⟩) a (.copyAssign v w) = spec virt id a (.copyAssign v w) := by
            simp only [spec]
            split
            · rename_i old t _ hw; rw [hmap w t hw]; simp
            · rfl
          refine ⟨e, fun r a' h => ?_⟩
          simp only [spec] at h
          split at h
          · rename_i old t _ hw
            split at h
            · cases h
              exact hu _ _ _ ha fun o h => ha w o (by rw [hw]; simpa using h)
            · cases h
          · cases h
        | moveAssign v w =>
          refine ⟨rfl, fun r a' h => ?_⟩
          simp only [spec] at h
          split at h
          · rename_i old t _ hw
            split at h
            · cases h; exact ha
            · split at h
              · cases h
                exact hu _ _ _ (hu _ _ _ ha fun o h => by cases h) fun o h => ha w o (by rw [hw]; exact h)
              · cases h
          · cases h
        | destroy v =>
          refine ⟨rfl, fun r a' h => ?_⟩
          simp only [spec] at h
          split at h
          · split at h
            · cases h; exact hu _ _ _ ha fun o h => by cases h
            · cases h
          · cases h
        | read v =>
          refine ⟨rfl, fun r a' h => ?_⟩
          simp only [spec] at h
          split at h
          · cases h; exact ha
          · cases h
      simp only [specRun, hst.1]
      cases hs : spec virt id a op with
      | none => rfl
      | some x =>
        obtain ⟨r, a'⟩ := x
        simp only
        rw [ih a' (fun v c x y h => hno v c x y (List.mem_cons_of_mem _ h)) (hst.2 r a' hs)]
  exact key ops _ h fun v o h => by cases h

/-- C150 is false, with a virtual destructor or without: the copy of an object of a derived class is not one. -/
theorem not_keepsType (virt : Bool) : ¬ KeepsType virt := by
  intro h
  have := h [.derived 0 0 1 2, .copy 1 0, .read 1] _ rfl
  revert this
  cases virt <;> decide

/-! ## Non-vacuity -/

example : run true {} [.derived 0 0 1 2, .make 1 5, .copyAssign 1 0, .read 0, .read 1, .moveAssign 1 0, .read 1, .copyAssign 1 1, .read 1, .destroy 0, .destroy 1] =
    some [none, none, none, some ⟨1, 1, 2⟩, some ⟨0, 1, 0⟩, none, some ⟨1, 1, 2⟩, none, some ⟨0, 1, 0⟩, none, none] := by decide
example : run false {} [.derived 0 0 1 2, .destroy 0] = none := by decide

end Guanaqo.CopyPtr.Poly
