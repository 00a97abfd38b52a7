/-!
# C104, C105: `bad_type_erased_type::what` (type-erasure.hpp:23-46) and `demangled_typename` (demangled-typename.cpp:11-19)

The texts of `std::string`s are kept in numbered buffers of the heap. Assigning a temporary string moves its buffer into the target and frees the old one.
The text of `what` has more than 33 characters, so that it is never stored in the string object itself (libstdc++ does so up to 15 characters, libc++
up to 22, MSVC up to 15).

Modelled for one thread: `what` is a const function that writes a mutable member, so that calls from two threads race.
-/

namespace Guanaqo.BadType

abbrev Text := List Char

/-! ## The model -/

/-- What `abi::__cxa_demangle` returns for a type: a block of memory with the name, or null (no memory, or the name is not a valid mangled one). -/
inductive Dem where
  | name (t : Text)
  | null

/-- The outcome of a function: a value, `std::bad_alloc`, `std::terminate` or undefined behaviour. -/
inductive Out (α : Type) where
  | ret (v : α)
  | badAlloc
  | terminate
  | ub

/-- The heap: the buffers of strings in use, and the number of blocks from `__cxa_demangle` in use. -/
structure Heap where
  next : Nat := 0
  buf : Nat → Option Text := fun _ => none
  blocks : Nat := 0

/-- demangled-typename.cpp:11-19: the block from `__cxa_demangle` is owned by a temporary `std::unique_ptr`, which is destroyed after the string that is
returned has been made, or when that throws (`mem = false`: there is no memory). Making a string from a null pointer is undefined. On other compilers, the name
is that of the type. -/
def demangledTypename (gnu : Bool) (d : Dem) (raw : Text) (mem : Bool) (h : Heap) : Out Text × Heap :=
  if gnu then
    match d with
    | .null => (.ub, h)
    | .name t =>
      let h := { h with blocks := h.blocks + 1 }
      if mem then (.ret t, { h with blocks := h.blocks - 1 }) else (.badAlloc, { h with blocks := h.blocks - 1 })
  else if mem then (.ret raw, h) else (.badAlloc, h)

/-- type-erasure.hpp:42-45: an exception object. `what_`: the message of the base class `std::logic_error`; `msg`: the buffer of the member `message`. -/
structure Exn where
  what_ : Text
  actual : Dem
  requested : Dem
  msg : Option Nat := none

/-- `message = <temporary with text t>`: the old buffer is freed. -/
def assign (e : Exn) (t : Text) (h : Heap) : Exn × Heap :=
  ({ e with msg := some h.next },
   { h with next := h.next + 1, buf := fun i => if i = h.next then some t else if some i = e.msg then none else h.buf i })

/-- type-erasure.hpp:31-40: `what()`. It returns the buffer of `message`. `mem i`: there is memory for its `i`-th allocation. An exception in the function,
which is `noexcept`, terminates the program. Simplified: `message = ""` and the two `+=` are one assignment of a new text (in the code the text of the buffer
is overwritten if it is large enough). -/
def what (e : Exn) (mem : Nat → Bool) (h : Heap) : Out Nat × Exn × Heap :=
  -- message = ""; if (*w) { message += w; message += ": "; }
  let (o₁, e, h) := if e.what_ = [] then (true, e, h) else
    if mem 0 then let r := assign e (e.what_ ++ ": ".toList) h; (true, r.1, r.2) else (false, e, h)
  if !o₁ then (.terminate, e, h) else
  match demangledTypename true e.requested [] (mem 1) h with
  | (.ret req, h) =>
    match demangledTypename true e.actual [] (mem 2) h with
    | (.ret act, h) =>
      if mem 3 then
        let r := assign e ("Type requested: ".toList ++ req ++ ", type contained: ".toList ++ act) h
        (.ret h.next, r.1, r.2)
      else (.terminate, e, h)
    | (.ub, h) => (.ub, e, h)
    | (_, h) => (.terminate, e, h)
  | (.ub, h) => (.ub, e, h)
  | (_, h) => (.terminate, e, h)

/-! ## Specification -/

/-- C104, in full: the text of `what()` starts with the message that the exception was constructed with, if it has one. -/
def MessageKept : Prop :=
  ∀ (m : Text) (req act : Text) (h : Heap) (p : Nat) (e' : Exn) (h' : Heap), m ≠ [] →
    what ⟨m, .name act, .name req, none⟩ (fun _ => true) h = (.ret p, e', h') → ∃ t, h'.buf p = some (m ++ t)

/-- C104, in full: a text that `what()` returned remains valid as long as the exception exists. -/
def WhatStaysValid : Prop :=
  ∀ (m : Text) (req act : Text) (p p' : Nat) (e e' : Exn) (h h' : Heap),
    what ⟨m, .name act, .name req, none⟩ (fun _ => true) {} = (.ret p, e, h) → what e (fun _ => true) h = (.ret p', e', h') →
    h'.buf p = h.buf p

/-! ## Proofs -/

/-- C105. `demangled_typename` returns the name, releases the memory of the demangler on every path, and is undefined exactly if the demangler fails. -/
theorem demangled_correct_partial (gnu : Bool) (d : Dem) (raw : Text) (mem : Bool) (h : Heap) :
    (demangledTypename gnu d raw mem h).2 = h ∧
    (∀ t, (demangledTypename gnu d raw mem h).1 = .ret t ↔ mem = true ∧ (gnu = true ∧ d = .name t ∨ gnu = false ∧ t = raw)) ∧
    ((demangledTypename gnu d raw mem h).1 = .ub ↔ gnu = true ∧ d = .null) ∧
    ((demangledTypename gnu d raw mem h).1 = .badAlloc ↔ mem = false ∧ (gnu = true → d ≠ .null)) := by
  unfold demangledTypename
  cases gnu <;> cases d <;> cases mem <;> simp [eq_comm]

/-- C105, in full: there is no type for which the function is undefined. It is false: the demangler returns null when it has no memory. -/
def DemangledDefined : Prop :=
  ∀ (d : Dem) (raw : Text) (mem : Bool) (h : Heap), (demangledTypename true d raw mem h).1 ≠ .ub

theorem not_demangledDefined : ¬ DemangledDefined := fun h => h .null [] true {} rfl

/-- No memory that is in use is reused. -/
def Heap.Fresh (h : Heap) : Prop := ∀ i, h.next ≤ i → h.buf i = none

/-- C104. With enough memory, `what()` returns the two names, and this text is valid. The other memory is as before. -/
theorem what_text (m req act : Text) (e : Exn) (he : e.what_ = m) (hr : e.requested = .name req) (ha : e.actual = .name act) (h : Heap) :
    ∃ p e' h', what e (fun _ => true) h = (.ret p, e', h') ∧
      h'.buf p = some ("Type requested: ".toList ++ req ++ ", type contained: ".toList ++ act) ∧ e'.msg = some p ∧ h'.blocks = h.blocks ∧
      e'.what_ = m ∧ e'.requested = .name req ∧ e'.actual = .name act ∧ h.next ≤ p ∧ p < h'.next ∧
      (∀ i, i < h.next → e.msg ≠ some i → h'.buf i = h.buf i) := by
  subst he
  unfold what
  by_cases hm : e.what_ = []
  · simp only [hm, if_true, Bool.not_true, Bool.false_eq_true, if_false, demangledTypename, hr, ha]
    refine ⟨_, _, _, rfl, by simp [assign], rfl, rfl, hm, hr, ha, Nat.le_refl _, by simp [assign], ?_⟩
    intro i hi hne
    have h1 : i ≠ h.next := by omega
    simp [assign, h1, Ne.symm hne]
  · simp only [hm, if_true, Bool.not_true, Bool.false_eq_true, if_false, demangledTypename, assign, hr, ha]
    refine ⟨_, _, _, rfl, by simp, rfl, rfl, rfl, rfl, rfl, by simp, by simp, ?_⟩
    intro i hi hne
    have h1 : i ≠ h.next := by omega
    have h2 : i ≠ h.next + 1 := by omega
    simp [h1, h2, Ne.symm hne]

/-- `n + 1` calls of `what()` on the same exception: the result of the last one. -/
def calls : Nat → Exn → Heap → Out Nat × Exn × Heap
  | 0, e, h => what e (fun _ => true) h
  | n + 1, e, h => calls n (what e (fun _ => true) h).2.1 (what e (fun _ => true) h).2.2

/-- C104, for every number of calls: the text of the last one is valid, and it is the same text each time. -/
theorem what_last_partial (req act : Text) (e : Exn) (hr : e.requested = .name req) (ha : e.actual = .name act) (h : Heap) (n : Nat) :
    ∃ p e' h', calls n e h = (.ret p, e', h') ∧
      h'.buf p = some ("Type requested: ".toList ++ req ++ ", type contained: ".toList ++ act) ∧ h'.blocks = h.blocks := by
  induction n generalizing e h with
  | zero =>
    obtain ⟨p, e', h', h1, h2, _, h3, _⟩ := what_text _ req act e rfl hr ha h
    exact ⟨p, e', h', h1, h2, h3⟩
  | succ n ih =>
    obtain ⟨p, e', h', h1, _, _, h3, _, h4, h5, _⟩ := what_text _ req act e rfl hr ha h
    obtain ⟨p₂, e₂, h₂, k1, k2, k3⟩ := ih e' h4 h5 h'
    refine ⟨p₂, e₂, h₂, ?_, k2, k3.trans h3⟩
    rw [calls, h1]
    exact k1

/-- C104: the message is lost: `what()` never contains it (unless the names do). -/
theorem what_message_lost (m₁ m₂ req act : Text) (h : Heap) :
    ∃ p₁ p₂ e₁ e₂ h₁ h₂, what ⟨m₁, .name act, .name req, none⟩ (fun _ => true) h = (.ret p₁, e₁, h₁) ∧
      what ⟨m₂, .name act, .name req, none⟩ (fun _ => true) h = (.ret p₂, e₂, h₂) ∧ h₁.buf p₁ = h₂.buf p₂ := by
  obtain ⟨p, e, h', h1, h2, _⟩ := what_text m₁ req act ⟨m₁, .name act, .name req, none⟩ rfl rfl rfl h
  obtain ⟨p', e', h'', h1', h2', _⟩ := what_text m₂ req act ⟨m₂, .name act, .name req, none⟩ rfl rfl rfl h
  exact ⟨p, p', e, e', h', h'', h1, h1', h2.trans h2'.symm⟩

theorem not_messageKept : ¬ MessageKept := by
  intro h
  obtain ⟨p, e, h', h1, h2, _⟩ := what_text "x".toList "a".toList "b".toList ⟨"x".toList, .name "b".toList, .name "a".toList, none⟩ rfl rfl rfl {}
  obtain ⟨t, ht⟩ := h "x".toList "a".toList "b".toList {} p e h' (by decide) h1
  rw [h2] at ht
  have := congrArg (fun o => (o.getD []).head?) ht
  revert this
  simp

/-- C104: every call of `what()` frees the text that the call before returned. -/
theorem what_invalidates (req act : Text) (e : Exn) (hr : e.requested = .name req) (ha : e.actual = .name act) (h : Heap)
    (p : Nat) (hp : e.msg = some p) (hlt : p < h.next) :
    ∃ p' e' h', what e (fun _ => true) h = (.ret p', e', h') ∧ h'.buf p = none ∧ p' ≠ p := by
  unfold what
  by_cases hm : e.what_ = []
  · simp only [hm, if_true, Bool.not_true, Bool.false_eq_true, if_false, demangledTypename, assign, hr, ha]
    refine ⟨_, _, _, rfl, ?_, by simp; omega⟩
    have : p ≠ h.next := by omega
    simp [hp, this]
  · simp only [hm, if_true, Bool.not_true, Bool.false_eq_true, if_false, demangledTypename, assign, hr, ha]
    refine ⟨_, _, _, rfl, ?_, by simp; omega⟩
    have h1 : p ≠ h.next := by omega
    have h2 : p ≠ h.next + 1 := by omega
    simp [hp, h1, h2]

theorem not_whatStaysValid : ¬ WhatStaysValid := by
  intro hv
  obtain ⟨p, e, h', h1, h2, h3, _, _, h5, h6, _, h7, _⟩ :=
    what_text [] "a".toList "b".toList ⟨[], .name "b".toList, .name "a".toList, none⟩ rfl rfl rfl {}
  obtain ⟨p', e', h'', k1, k2, _⟩ := what_invalidates "a".toList "b".toList e h5 h6 h' p h3 h7
  have := hv [] "a".toList "b".toList p p' e e' h' h'' h1 k1
  rw [k2, h2] at this
  exact absurd this (by simp)

/-- C104: without memory for one of its texts, `what()` ends the program, though the caller is handling an exception. -/
theorem what_no_memory (req act : Text) (e : Exn) (hr : e.requested = .name req) (ha : e.actual = .name act) (h : Heap) (mem : Nat → Bool) :
    (what e mem h).1 = .terminate ↔ (e.what_ ≠ [] ∧ mem 0 = false) ∨ mem 1 = false ∨ mem 2 = false ∨ mem 3 = false := by
  unfold what demangledTypename
  by_cases hm : e.what_ = [] <;> cases h0 : mem 0 <;> cases h1 : mem 1 <;> cases h2 : mem 2 <;> cases h3 : mem 3 <;>
    simp [hm, assign, hr, ha]

/-- C104: the function is undefined if one of the names cannot be demangled. -/
theorem what_undefined (e : Exn) (h : Heap) (hn : e.requested = .null ∨ e.actual = .null) : (what e (fun _ => true) h).1 = .ub := by
  unfold what demangledTypename
  by_cases hm : e.what_ = [] <;> cases hr : e.requested <;> cases ha : e.actual <;> simp_all [assign]

/-- An instance: three calls on an exception for `int` and `double`. -/
example : ∃ p e' h', calls 2 ⟨"x".toList, .name "int".toList, .name "double".toList, none⟩ {} = (.ret p, e', h') ∧
    h'.buf p = some "Type requested: double, type contained: int".toList := by
  obtain ⟨p, e', h', h1, h2, _⟩ := what_last_partial "double".toList "int".toList ⟨"x".toList, .name "int".toList, .name "double".toList, none⟩ rfl rfl {} 2
  exact ⟨p, e', h', h1, h2⟩

end Guanaqo.BadType
