import Verif.Misc.Ranges
import Verif.SetInter.Model

/-!
# C135: `it++`

The iterators of `set_intersection`, `enumerate` and `iter_range_adapter` all declare a postfix increment.
-/

namespace Guanaqo.Ranges

/-! ## Model -/

/-- What a class declares as `operator++(int)`: nothing, a function that may change the object (it gives the new state and the result), or a `const`
one, which cannot. `none` is undefined behaviour. -/
inductive PostOp (C : Type) where
  | missing
  | mutable (f : C → Option (C × C))
  | const (f : C → Option C)

/-- `it++` as an expression statement on an object that is not `const`: it does not compile, or gives the new state of the object and the result. -/
inductive Expr (α : Type) where
  | error
  | runs (r : Option α)

/-- A call on an object that is not `const`. -/
def PostOp.call {C : Type} (op : PostOp C) (c : C) : Expr (C × C) :=
  match op with
  | .missing => .error
  | .mutable f => .runs (f c)
  | .const f => .runs ((f c).map fun r => (c, r))

/-- A call on `*this` in a `const` member function: only `const` functions can be called. -/
def PostOp.callConst {C : Type} (op : PostOp C) (c : C) : Expr C :=
  match op with
  | .missing => .error
  | .mutable _ => .error
  | .const f => .runs (f c)

/-- iter-adapter.hpp:34-37: `iter_t operator++(int i) const { this->It::operator++(i); return *this; }`. The result of the call is dropped. -/
def adapterPost {C : Type} (base : PostOp C) (c : C) : Expr (C × C) :=
  match base.callConst c with
  | .error => .error
  | .runs r => .runs (r.map fun _ => (c, c))

/-- enumerate.hpp:47-51: `iter_t operator++(int) const { auto tmp = *this; ++*this; return tmp; }`: the pre-increment (42-46) is not `const`, so it
cannot be called on `*this`. -/
def enumPost {It : Type} (_ : EnumIt It) : Expr (EnumIt It × EnumIt It) := .error

/-- set-intersection.hpp:67-71: `iter_t operator++(int) { auto tmp = *this; ++*this; return tmp; }`. -/
def interPost {α β κ : Type} (p : SetInter.Params α β κ) (it : SetInter.Iter α β) : Expr (SetInter.Iter α β × SetInter.Iter α β) :=
  let tmp := it
  match it.inc p with
  | .ok it' => .runs (some (it', tmp))
  | .error _ => .runs none

/-! ## Specification -/

/-- `it++` does what it should: it compiles, advances the iterator as `++it` does, and its value is the iterator as it was. -/
def IsPostIncrement {C : Type} (pre : C → Option C) (post : C → Expr (C × C)) (c : C) : Prop :=
  post c = .runs ((pre c).map fun c' => (c', c))

/-- **C135**, the full statement, for cursors with any postfix operator and for the iterators of `enumerate`. -/
def AllPostIncrements : Prop :=
  (∀ (C : Type) (I : Cursor C) (base : PostOp C) (c : C), IsPostIncrement I.advance (adapterPost base) c) ∧
  (∀ (It α : Type) (w : Nat) (I : Iter It α) (e : EnumIt It), IsPostIncrement (enumIter w I).next enumPost e)

/-! ## Theorems -/

/-- **C135** for `set_intersection`. -/
theorem setIntersection_postIncrement_partial {α β κ : Type} (p : SetInter.Params α β κ) (it : SetInter.Iter α β) :
    IsPostIncrement (fun it => (it.inc p).toOption) (interPost p) it := by
  unfold IsPostIncrement interPost
  dsimp only
  cases it.inc p <;> rfl

/-- For `iter_range_adapter`, exactly: only for cursors with a `const` postfix operator, and only where the pre-increment does not move either (or
both are undefined). -/
theorem adapter_postIncrement_iff {C : Type} (I : Cursor C) (base : PostOp C) (c : C) :
    IsPostIncrement I.advance (adapterPost base) c ↔
      ∃ f, base = .const f ∧ ((f c = none ∧ I.advance c = none) ∨ (f c ≠ none ∧ I.advance c = some c)) := by
  cases base with
  | missing => simp [IsPostIncrement, adapterPost, PostOp.callConst]
  | mutable f => simp [IsPostIncrement, adapterPost, PostOp.callConst]
  | const f =>
    simp only [IsPostIncrement, adapterPost, PostOp.callConst, Expr.runs.injEq, PostOp.const.injEq, exists_eq_left']
    cases f c <;> cases I.advance c <;> simp [eq_comm]

/-- A loop `for (auto it = r.begin(); it != r.end(); it++)` over an adapter, where it compiles, never gets past a valid state. -/
theorem adapter_postIncrement_stuck {C : Type} (base : PostOp C) (c : C) (c' r : C) (h : adapterPost base c = .runs (some (c', r))) : c' = c ∧ r = c := by
  unfold adapterPost at h
  split at h
  · cases h
  · rename_i o _
    cases o with
    | none => cases h
    | some _ => cases h; exact ⟨rfl, rfl⟩

/-- The usual postfix operator, which changes the object: `it++` of the adapter does not compile. -/
theorem adapter_postIncrement_mutable {C : Type} (f : C → Option (C × C)) (c : C) : adapterPost (.mutable f) c = .error := rfl

/-- For `enumerate` it never compiles. -/
theorem enumerate_postIncrement_error {It : Type} (e : EnumIt It) : enumPost e = .error := rfl

/-- So the full statement is false, of both. -/
theorem not_allPostIncrements : ¬ AllPostIncrements := fun h => by
  have := h.2 Nat Nat 64 (vecIter [1, 2]) (enumBegin 0)
  unfold IsPostIncrement at this
  cases this

/-- Also with a `const` postfix operator: a cursor that moves. -/
example : ¬ IsPostIncrement spanCursor.advance (adapterPost (.const fun c => some c)) (3, 5) := by
  rw [adapter_postIncrement_iff]
  rintro ⟨f, _, ⟨_, h⟩ | ⟨_, h⟩⟩ <;> simp [spanCursor] at h

end Guanaqo.Ranges
