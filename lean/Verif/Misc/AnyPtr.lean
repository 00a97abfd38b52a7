import Verif.Base

/-!
# `src/include/guanaqo/any-ptr.hpp`: `any_ptr` and `shared_any_ptr` (C59)

A type is a number (what `typeid` distinguishes; `typeid` ignores `const`). An address is a number.
`std::shared_ptr` is represented by what it points to (`none`: null) and the control block it shares;
copying and moving it behave as the standard says.
-/

namespace Guanaqo.AnyPtr

/-- any-ptr.hpp:37-39, the members of `any_ptr` (`ty = none`: `typeid(void)`). -/
structure AnyPtr where
  ptr : Option Nat := none
  ty : Option Nat := none
  isConst : Bool := true
  deriving DecidableEq, Repr

/-- any-ptr.hpp:14-17, `any_ptr(T *)` for a pointer `p` (`none`: null) to `t` or `const t`. -/
def AnyPtr.make (p : Option Nat) (t : Nat) (c : Bool) : AnyPtr := ⟨p, some t, c⟩

/-- any-ptr.hpp:19-28 and 56-65, `cast<T>`. -/
def AnyPtr.cast (a : AnyPtr) (t : Nat) (c : Bool) : Except Exn (Option Nat) :=
  match a.ptr with
  | none => .ok none
  | some p =>
    if some t ≠ a.ty then .error .badAnyCast
    else if c ≠ a.isConst then .error .badAnyCast
    else .ok (some p)

/-- any-ptr.hpp:30 and 67 -/
def AnyPtr.hasValue (a : AnyPtr) : Bool := a.ptr.isSome
/-- any-ptr.hpp:31 and 68 -/
def AnyPtr.isImmutable (a : AnyPtr) : Bool := a.isConst

/-- C59. For every pointer, casting to the same type and constness gives the pointer back; to any other
type or constness, it throws, unless the pointer is null, which casts to a null pointer of any
type. -/
theorem cast_exact (p : Option Nat) (t : Nat) (c : Bool) (t' : Nat) (c' : Bool) :
    (AnyPtr.make p t c).cast t' c' =
      if p = none then .ok none
      else if t' = t ∧ c' = c then .ok p
      else .error .badAnyCast := by
  cases p with
  | none => rfl
  | some p =>
    simp only [AnyPtr.make, AnyPtr.cast]
    by_cases ht : t' = t
    · by_cases hc : c' = c
      · simp [ht, hc]
      · simp [ht, hc]
    · simp [ht]

/-- C59: a default-constructed `any_ptr` casts to a null pointer of any type. -/
theorem cast_default (t : Nat) (c : Bool) : ({} : AnyPtr).cast t c = .ok none := rfl

/-- `has_value` and `is_immutable` report what was stored. -/
theorem queries (p : Option Nat) (t : Nat) (c : Bool) :
    ((AnyPtr.make p t c).hasValue = true ↔ p ≠ none) ∧ (AnyPtr.make p t c).isImmutable = c := by
  cases p <;> simp [AnyPtr.make, AnyPtr.hasValue, AnyPtr.isImmutable]

example : (AnyPtr.make (some 1000) 3 false).cast 3 false = .ok (some 1000) := rfl
example : (AnyPtr.make (some 1000) 3 false).cast 3 true = .error .badAnyCast := rfl

/-! ## `shared_any_ptr` -/

/-- A `shared_ptr`: the object it points to, and the control block (`none`: no ownership). -/
structure Shared where
  ptr : Option Nat := none
  block : Option Nat := none
  deriving DecidableEq, Repr

/-- any-ptr.hpp:74-76, the members of `shared_any_ptr`. -/
structure SharedAny where
  ptr : Shared := {}
  ty : Option Nat := none
  isConst : Bool := true
  deriving DecidableEq, Repr

/-- any-ptr.hpp:46-50: the constructor takes over the argument (by value), keeping the address. -/
def SharedAny.make (p : Shared) (t : Nat) (c : Bool) : SharedAny := ⟨p, some t, c⟩

/-- any-ptr.hpp:56-65, `cast<T>`. -/
def SharedAny.cast (a : SharedAny) (t : Nat) (c : Bool) : Except Exn (Option Nat) :=
  AnyPtr.cast ⟨a.ptr.ptr, a.ty, a.isConst⟩ t c

/-- What a program does with `shared_any_ptr` variables. -/
inductive Op where
  | default (w : Nat)
  | make (w : Nat) (p : Shared) (t : Nat) (c : Bool)
  | copy (w src : Nat)
  | move (w src : Nat)
  | copyAssign (w src : Nat)
  | moveAssign (w src : Nat)
  | destroy (w : Nat)

/-- The variables (`none`: not alive). -/
abbrev Vars := Nat → Option SharedAny

def set (s : Vars) (w : Nat) (x : Option SharedAny) : Vars := fun v => if v = w then x else s v

/-- any-ptr.hpp:51-54, defaulted copy and move operations, member by member; moving from a `shared_ptr`
leaves it null, the other members are copied. A self-move-assignment of a `shared_ptr` does nothing.
`none`: not a valid program. -/
def step (s : Vars) : Op → Option Vars
  | .default w => if s w = none then some (set s w (some {})) else none
  | .make w p t c => if s w = none then some (set s w (some (.make p t c))) else none
  | .copy w src =>
    match s w, s src with
    | none, some x => some (set s w (some x))
    | _, _ => none
  | .move w src =>
    match s w, s src with
    | none, some x => some (set (set s src (some { x with ptr := {} })) w (some x))
    | _, _ => none
  | .copyAssign w src =>
    match s w, s src with
    | some _, some x => some (set s w (some x))
    | _, _ => none
  | .moveAssign w src =>
    match s w, s src with
    | some _, some x =>
      if w = src then some s
      else some (set (set s src (some { x with ptr := {} })) w (some x))
    | _, _ => none
  | .destroy w => if s w = none then none else some (set s w none)

def run (s : Vars) : List Op → Option Vars
  | [] => some s
  | op :: ops => (step s op).bind fun s' => run s' ops

/-! Specification: a variable holds nothing, or a non-null pointer of a type. -/

structure Held where
  ptr : Nat
  block : Option Nat
  ty : Nat
  isConst : Bool
  deriving DecidableEq, Repr

/-- Variables, not alive (`none`), or alive and holding something or nothing. -/
abbrev SVars := Nat → Option (Option Held)

def sset (s : SVars) (w : Nat) (x : Option (Option Held)) : SVars := fun v => if v = w then x else s v

def heldOf (p : Shared) (t : Nat) (c : Bool) : Option Held := p.ptr.map fun a => ⟨a, p.block, t, c⟩

def sstep (s : SVars) : Op → Option SVars
  | .default w => if s w = none then some (sset s w (some none)) else none
  | .make w p t c => if s w = none then some (sset s w (some (heldOf p t c))) else none
  | .copy w src =>
    match s w, s src with
    | none, some x => some (sset s w (some x))
    | _, _ => none
  | .move w src =>
    match s w, s src with
    | none, some x => some (sset (sset s src (some none)) w (some x))
    | _, _ => none
  | .copyAssign w src =>
    match s w, s src with
    | some _, some x => some (sset s w (some x))
    | _, _ => none
  | .moveAssign w src =>
    match s w, s src with
    | some _, some x => if w = src then some s else some (sset (sset s src (some none)) w (some x))
    | _, _ => none
  | .destroy w => if s w = none then none else some (sset s w none)

def srun (s : SVars) : List Op → Option SVars
  | [] => some s
  | op :: ops => (sstep s op).bind fun s' => srun s' ops

/-- `x` holds what the specification says. -/
def Matches (x : SharedAny) : Option Held → Prop
  | none => x.ptr.ptr = none
  | some h => x = ⟨⟨some h.ptr, h.block⟩, some h.ty, h.isConst⟩

def Rel (s : Vars) (a : SVars) : Prop := ∀ w,
  (s w = none ∧ a w = none) ∨ ∃ x h, s w = some x ∧ a w = some h ∧ Matches x h

theorem Rel.dead {s : Vars} {a : SVars} (h : Rel s a) (w : Nat) : s w = none ↔ a w = none := by
  rcases h w with ⟨h1, h2⟩ | ⟨x, y, h1, h2, _⟩ <;> simp [h1, h2]

theorem Rel.set {s : Vars} {a : SVars} (h : Rel s a) (w : Nat) {x : SharedAny} {y : Option Held}
    (hm : Matches x y) : Rel (set s w (some x)) (sset a w (some y)) := by
  intro v
  by_cases hv : v = w
  · exact .inr ⟨x, y, by simp [AnyPtr.set, hv], by simp [sset, hv], hm⟩
  · simpa [AnyPtr.set, sset, hv] using h v

theorem Rel.kill {s : Vars} {a : SVars} (h : Rel s a) (w : Nat) : Rel (AnyPtr.set s w none) (sset a w none) := by
  intro v
  by_cases hv : v = w
  · exact .inl ⟨by simp [AnyPtr.set, hv], by simp [sset, hv]⟩
  · simpa [AnyPtr.set, sset, hv] using h v

theorem matches_make (p : Shared) (t : Nat) (c : Bool) : Matches (.make p t c) (heldOf p t c) := by
  obtain ⟨p, b⟩ := p
  cases p with
  | none => rfl
  | some p => rfl

/-- Related results. -/
def RelO (r : Option Vars) (q : Option SVars) : Prop :=
  (r = none ∧ q = none) ∨ ∃ s' a', r = some s' ∧ q = some a' ∧ Rel s' a'

theorem step_rel {s : Vars} {a : SVars} (h : Rel s a) (op : Op) : RelO (step s op) (sstep a op) := by
  have two : ∀ (w src : Nat), (s w = none ∧ a w = none ∨ ∃ x y, s w = some x ∧ a w = some y ∧ Matches x y) ∧
      (s src = none ∧ a src = none ∨ ∃ x y, s src = some x ∧ a src = some y ∧ Matches x y) :=
    fun w src => ⟨h w, h src⟩
  cases op with
  | «default» w =>
    simp only [step, sstep]
    by_cases hw : s w = none
    · rw [if_pos hw, if_pos ((h.dead w).1 hw)]
      exact .inr ⟨_, _, rfl, rfl, h.set w rfl⟩
    · rw [if_neg hw, if_neg (fun hh => hw ((h.dead w).2 hh))]
      exact .inl ⟨rfl, rfl⟩
  | make w p t c =>
    simp only [step, sstep]
    by_cases hw : s w = none
    · rw [if_pos hw, if_pos ((h.dead w).1 hw)]
      exact .inr ⟨_, _, rfl, rfl, h.set w (matches_make p t c)⟩
    · rw [if_neg hw, if_neg (fun hh => hw ((h.dead w).2 hh))]
      exact .inl ⟨rfl, rfl⟩
  | copy w src =>
    obtain ⟨h1, h2⟩ := two w src
    simp only [step, sstep]
    rcases h1 with ⟨a1, b1⟩ | ⟨x1, y1, a1, b1, m1⟩ <;> rcases h2 with ⟨a2, b2⟩ | ⟨x2, y2, a2, b2, m2⟩ <;>
      simp only [a1, b1, a2, b2]
    · exact .inl ⟨rfl, rfl⟩
    · exact .inr ⟨_, _, rfl, rfl, h.set w m2⟩
    · exact .inl ⟨rfl, rfl⟩
    · exact .inl ⟨rfl, rfl⟩
  | move w src =>
    obtain ⟨h1, h2⟩ := two w src
    simp only [step, sstep]
    rcases h1 with ⟨a1, b1⟩ | ⟨x1, y1, a1, b1, m1⟩ <;> rcases h2 with ⟨a2, b2⟩ | ⟨x2, y2, a2, b2, m2⟩ <;>
      simp only [a1, b1, a2, b2]
    · exact .inl ⟨rfl, rfl⟩
    · exact .inr ⟨_, _, rfl, rfl, (h.set src (x := { x2 with ptr := {} }) (y := none) rfl).set w m2⟩
    · exact .inl ⟨rfl, rfl⟩
    · exact .inl ⟨rfl, rfl⟩
  | copyAssign w src =>
    obtain ⟨h1, h2⟩ := two w src
    simp only [step, sstep]
    rcases h1 with ⟨a1, b1⟩ | ⟨x1, y1, a1, b1, m1⟩ <;> rcases h2 with ⟨a2, b2⟩ | ⟨x2, y2, a2, b2, m2⟩ <;>
      simp only [a1, b1, a2, b2]
    · exact .inl ⟨rfl, rfl⟩
    · exact .inl ⟨rfl, rfl⟩
    · exact .inl ⟨rfl, rfl⟩
    · exact .inr ⟨_, _, rfl, rfl, h.set w m2⟩
  | moveAssign w src =>
    obtain ⟨h1, h2⟩ := two w src
    simp only [step, sstep]
    rcases h1 with ⟨a1, b1⟩ | ⟨x1, y1, a1, b1, m1⟩ <;> rcases h2 with ⟨a2, b2⟩ | ⟨x2, y2, a2, b2, m2⟩ <;>
      simp only [a1, b1, a2, b2]
    · exact .inl ⟨rfl, rfl⟩
    · exact .inl ⟨rfl, rfl⟩
    · exact .inl ⟨rfl, rfl⟩
    · by_cases hws : w = src
      · rw [if_pos hws, if_pos hws]
        exact .inr ⟨_, _, rfl, rfl, h⟩
      · rw [if_neg hws, if_neg hws]
        exact .inr ⟨_, _, rfl, rfl, (h.set src (x := { x2 with ptr := {} }) (y := none) rfl).set w m2⟩
  | destroy w =>
    simp only [step, sstep]
    by_cases hw : s w = none
    · rw [if_pos hw, if_pos ((h.dead w).1 hw)]
      exact .inl ⟨rfl, rfl⟩
    · rw [if_neg hw, if_neg (fun hh => hw ((h.dead w).2 hh))]
      exact .inr ⟨_, _, rfl, rfl, h.kill w⟩

theorem run_rel (ops : List Op) : ∀ {s : Vars} {a : SVars}, Rel s a → RelO (run s ops) (srun a ops) := by
  induction ops with
  | nil => intro s a h; exact .inr ⟨s, a, rfl, rfl, h⟩
  | cons op ops ih =>
    intro s a h
    unfold run srun
    rcases step_rel h op with ⟨h1, h2⟩ | ⟨s', a', h1, h2, h3⟩
    · rw [h1, h2]; exact .inl ⟨rfl, rfl⟩
    · rw [h1, h2]; exact ih h3

/-- C59. After any program of constructions, copies, moves, assignments and destructions, `cast` on a
`shared_any_ptr` gives the pointer it holds exactly if type and constness match, throws if they do
not, and gives null (of any type) if it holds nothing; what it holds is as for ordinary variables: a
copy holds the same, a move leaves the source holding nothing. -/
theorem shared_cast_exact (ops : List Op) {a : SVars} (h : srun (fun _ => none) ops = some a) :
    ∃ s, run (fun _ => none) ops = some s ∧ ∀ w x, a w = some x → ∃ y, s w = some y ∧ ∀ t c,
      y.cast t c = match x with
        | none => .ok none
        | some p => if t = p.ty ∧ c = p.isConst then .ok (some p.ptr) else .error .badAnyCast := by
  have hr := run_rel ops (s := fun _ => none) (a := fun _ => none) (fun _ => .inl ⟨rfl, rfl⟩)
  rcases hr with ⟨h1, h2⟩ | ⟨s, a', h1, h2, h3⟩
  · rw [h2] at h; cases h
  · rw [h2] at h; cases h
    refine ⟨s, h1, ?_⟩
    intro w x hx
    rcases h3 w with ⟨_, h5⟩ | ⟨y, x', h4, h5, h6⟩
    · rw [h5] at hx; cases hx
    · rw [h5] at hx; cases hx
      refine ⟨y, h4, fun t c => ?_⟩
      cases x with
      | none => simp only [SharedAny.cast, AnyPtr.cast]; rw [show y.ptr.ptr = none from h6]
      | some p =>
        rw [show y = _ from h6]
        have := cast_exact (some p.ptr) p.ty p.isConst t c
        simpa [SharedAny.cast, AnyPtr.make] using this

example : ∃ a, srun (fun _ => none)
    [.make 0 ⟨some 5, some 1⟩ 3 true, .copy 1 0, .default 2, .moveAssign 2 0] = some a ∧
    a 0 = some none ∧ a 1 = some (some ⟨5, some 1, 3, true⟩) ∧ a 2 = a 1 := ⟨_, rfl, rfl, rfl, rfl⟩

end Guanaqo.AnyPtr
