/-!
# Shared vocabulary of the model

Outcomes of a C++ evaluation, counted `for` loops, and a flat memory.
Nothing here models a particular file of `/repo`; the definitions are the common
language in which the per-topic models are written.
-/

namespace Guanaqo

/-- The exceptions thrown by the modelled code (the C++ exception class). -/
inductive Exn where
  /-- `std::invalid_argument` -/
  | invalidArgument
  /-- `std::runtime_error` -/
  | runtimeError
  /-- `std::logic_error` -/
  | logicError
  /-- `std::bad_alloc` -/
  | badAlloc
  /-- `std::bad_any_cast` -/
  | badAnyCast
  /-- `guanaqo::bad_type_erased_type` -/
  | badTypeErasedType
  /-- `guanaqo::bad_type_erased_constness` -/
  | badTypeErasedConstness
  /-- `guanaqo::io::csv_read_error` -/
  | csvReadError
  /-- `guanaqo::invalid_duration_value` -/
  | invalidDurationValue
  /-- `guanaqo::invalid_duration_units` -/
  | invalidDurationUnits
  /-- `guanaqo::not_implemented_error` -/
  | notImplemented
  /-- LAPACK error with the reported `info` -/
  | lapackError (info : Int)
  /-- exception thrown by user code (copy constructor, callback, ...) -/
  | user
  deriving DecidableEq, Repr

/-- Abnormal outcomes of a C++ evaluation. -/
inductive Fault where
  /-- undefined behaviour (out-of-bounds access, null dereference, ...) -/
  | ub
  /-- a failing `assert` in a build without `NDEBUG` -/
  | assertFail
  /-- a C++ exception leaves the function -/
  | throw (e : Exn)
  deriving DecidableEq, Repr

/-- Result of evaluating C++ code: a value, or a fault. -/
abbrev Res (α : Type) := Except Fault α

/-- `assert(b)` -/
def assertThat (b : Bool) : Res Unit := if b then .ok () else .error .assertFail

/-- `for (i = lo; i < lo + n; ++i) body(i)` threading a state. -/
def forLoop {σ : Type} (body : Int → σ → Res σ) : Int → Nat → σ → Res σ
  | _, 0, s => .ok s
  | lo, n + 1, s => do
    let s' ← body lo s
    forLoop body (lo + 1) n s'

/-- `for (i = lo; i < hi; ++i) body(i)`. -/
def forRange {σ : Type} (lo hi : Int) (body : Int → σ → Res σ) (s : σ) : Res σ :=
  forLoop body lo (hi - lo).toNat s

/-- Invariant rule for `forLoop`. -/
theorem forLoop_inv {σ : Type} {body : Int → σ → Res σ} (P : Int → σ → Prop) :
    ∀ (n : Nat) (lo : Int) (s : σ), P lo s →
      (∀ i s, lo ≤ i → i < lo + n → P i s → ∃ s', body i s = .ok s' ∧ P (i + 1) s') →
      ∃ s', forLoop body lo n s = .ok s' ∧ P (lo + n) s' := by
  intro n
  induction n with
  | zero => intro lo s h _; exact ⟨s, rfl, by simpa using h⟩
  | succ n ih =>
    intro lo s h hb
    obtain ⟨s₁, h₁, p₁⟩ := hb lo s (by omega) (by omega) h
    obtain ⟨s₂, h₂, p₂⟩ := ih (lo + 1) s₁ p₁ (fun i s hi hi' hp => hb i s (by omega) (by omega) hp)
    refine ⟨s₂, ?_, ?_⟩
    · simp only [forLoop, h₁]; exact h₂
    · have : lo + 1 + (n : Int) = lo + ((n + 1 : Nat) : Int) := by omega
      rw [← this]; exact p₂

/-- Invariant rule for `forRange`. -/
theorem forRange_inv {σ : Type} {body : Int → σ → Res σ} (P : Int → σ → Prop)
    {lo hi : Int} {s : σ} (h0 : P lo s)
    (hb : ∀ i s, lo ≤ i → i < hi → P i s → ∃ s', body i s = .ok s' ∧ P (i + 1) s') :
    ∃ s', forRange lo hi body s = .ok s' ∧ P (max lo hi) s' := by
  obtain ⟨s', h, p⟩ := forLoop_inv P (hi - lo).toNat lo s h0
    (fun i s h1 h2 hp => hb i s h1 (by omega) hp)
  refine ⟨s', h, ?_⟩
  have : lo + ((hi - lo).toNat : Int) = max lo hi := by omega
  rwa [this] at p

/-- A flat memory: an address is either unallocated (`none`) or holds a value. -/
abbrev Mem (α : Type) := Int → Option α

/-- `*p` (undefined behaviour when `p` is not a valid address). -/
def Mem.read {α : Type} (m : Mem α) (p : Int) : Res α :=
  match m p with
  | some v => .ok v
  | none => .error .ub

/-- `*p = v` (undefined behaviour when `p` is not a valid address). -/
def Mem.write {α : Type} (m : Mem α) (p : Int) (v : α) : Res (Mem α) :=
  match m p with
  | some _ => .ok (fun a => if a = p then some v else m a)
  | none => .error .ub

end Guanaqo
