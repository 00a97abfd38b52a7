import Verif.Base

/-!
# C111: `start_lifetime_as` and `start_lifetime_as_array` (lifetime.hpp:18-49)

The fallback for libraries without `std::start_lifetime_as`: the bytes are moved onto themselves. Memory is a map from addresses to bytes, defined where there is storage;
which objects are alive is not modelled, only what happens to the bytes.
-/

namespace Guanaqo.Lifetime

/-- The bytes in memory; `none` where there is no storage. -/
abbrev Mem := Nat → Option UInt8

/-- The `n` bytes from `p` on; `none` if there is no storage (undefined behaviour). -/
def load (m : Mem) (p : Nat) : Nat → Option (List UInt8)
  | 0 => some []
  | n + 1 => do
    let b ← m p
    let bs ← load m (p + 1) n
    some (b :: bs)

/-- Bytes written from `p` on. -/
def store (m : Mem) (p : Nat) : List UInt8 → Option Mem
  | [] => some m
  | b :: bs => do
    let _ ← m p
    store (fun a => if a = p then some b else m a) (p + 1) bs

/-- `std::memmove` (C library): the source is read completely before the destination is written. -/
def memmove (m : Mem) (dst src n : Nat) : Option Mem := do
  let bs ← load m src n
  store m dst bs

/-- lifetime.hpp:20-27, `start_lifetime_as_array(void *p, size_t n)`; the product `n * sizeof(T)` is computed in `size_t` (64 bits). -/
def startLifetimeAsArray (size : Nat) (m : Mem) (p n : Nat) : Option (Mem × Nat) := do
  let m' ← memmove m p p (n * size % 2 ^ 64)
  some (m', p)

/-- lifetime.hpp:28-38, the overload for `const void *`: `n` is not used. -/
def startLifetimeAsArrayConst (_size : Nat) (m : Mem) (p _n : Nat) : Option (Mem × Nat) := some (m, p)

/-- lifetime.hpp:39-43, `start_lifetime_as(void *p)`. -/
def startLifetimeAs (size : Nat) (m : Mem) (p : Nat) : Option (Mem × Nat) := startLifetimeAsArray size m p 1

/-- lifetime.hpp:44-48, `start_lifetime_as(const void *p)`. -/
def startLifetimeAsConst (size : Nat) (m : Mem) (p : Nat) : Option (Mem × Nat) := startLifetimeAsArrayConst size m p 1

/-! ## Specification -/

/-- There is storage for `n` bytes at `p`. -/
def Storage (m : Mem) (p n : Nat) : Prop := ∀ a, p ≤ a → a < p + n → (m a).isSome

/-! ## Proofs -/

theorem load_some (m : Mem) (p n : Nat) (h : Storage m p n) : ∃ bs, load m p n = some bs ∧ bs.length = n ∧ ∀ i (hi : i < bs.length), m (p + i) = some bs[i] := by
  induction n generalizing p with
  | zero => exact ⟨[], rfl, rfl, by intro i hi; simp at hi⟩
  | succ n ih =>
    obtain ⟨b, hb⟩ := Option.isSome_iff_exists.1 (h p (Nat.le_refl _) (by omega))
    obtain ⟨bs, h1, h2, h3⟩ := ih (p + 1) fun a ha hb => h a (by omega) (by omega)
    refine ⟨b :: bs, by simp [load, hb, h1], by simp [h2], ?_⟩
    intro i hi
    cases i with
    | zero => exact hb
    | succ i =>
      rw [List.getElem_cons_succ, ← h3 i (by simpa using hi)]
      congr 1
      omega

theorem store_same (m : Mem) (p : Nat) (bs : List UInt8) (h : ∀ i (hi : i < bs.length), m (p + i) = some bs[i]) : store m p bs = some m := by
  induction bs generalizing p with
  | nil => rfl
  | cons b bs ih =>
    have hb : m p = some b := h 0 (by simp)
    have hm : (fun a => if a = p then some b else m a) = m := by
      funext a
      split
      · rename_i ha; rw [ha, hb]
      · rfl
    simp only [store, hb, Option.bind_eq_bind, Option.bind_some]
    rw [hm]
    refine ih (p + 1) fun i hi => ?_
    have := h (i + 1) (by simpa using hi)
    rw [List.getElem_cons_succ] at this
    rw [← this]
    congr 1
    omega

theorem load_none (m : Mem) (p n : Nat) (h : ¬ Storage m p n) : load m p n = none := by
  induction n generalizing p with
  | zero => exact absurd (fun a h1 h2 => by omega) h
  | succ n ih =>
    cases hb : m p with
    | none => simp [load, hb]
    | some b =>
      have : ¬ Storage m (p + 1) n := by
        intro hs
        apply h
        intro a h1 h2
        rcases Nat.eq_or_lt_of_le h1 with rfl | h1
        · simp [hb]
        · exact hs a (by omega) (by omega)
      simp [load, hb, ih _ this]

/-- C111: for an array of `n` objects (that fits the address space) in storage, whatever bytes are there, the call returns the same address and leaves every byte of memory
as it was. -/
theorem start_lifetime_keeps_bytes (size : Nat) (m : Mem) (p n : Nat) (hn : n * size < 2 ^ 64) (h : Storage m p (n * size)) :
    startLifetimeAsArray size m p n = some (m, p) := by
  obtain ⟨bs, h1, -, h3⟩ := load_some m p (n * size) h
  simp [startLifetimeAsArray, memmove, Nat.mod_eq_of_lt hn, h1, store_same m p bs h3]

/-- C111: bytes outside of the array are not accessed: the call is defined exactly if the array has storage. -/
theorem start_lifetime_defined_iff (size : Nat) (m : Mem) (p n : Nat) (hn : n * size < 2 ^ 64) :
    (startLifetimeAsArray size m p n).isSome ↔ Storage m p (n * size) := by
  constructor
  · intro h
    apply Classical.byContradiction
    intro hs
    simp [startLifetimeAsArray, memmove, Nat.mod_eq_of_lt hn, load_none m p _ hs] at h
  · intro h
    rw [start_lifetime_keeps_bytes size m p n hn h]; rfl

/-- C111 for the other overloads: a single object, and constant storage, which is not accessed at all. -/
theorem start_lifetime_others (size : Nat) (m : Mem) (p n : Nat) (hs : size < 2 ^ 64) :
    (Storage m p size → startLifetimeAs size m p = some (m, p)) ∧ startLifetimeAsArrayConst size m p n = some (m, p) ∧ startLifetimeAsConst size m p = some (m, p) := by
  refine ⟨fun h => ?_, rfl, rfl⟩
  exact start_lifetime_keeps_bytes size m p 1 (by omega) (by rwa [Nat.one_mul])

/-- Non-vacuity: two objects of 4 bytes in a block of 10. -/
example : Storage (fun a => if a < 110 ∧ 100 ≤ a then some 7 else none) 101 (2 * 4) := by
  intro a h1 h2
  dsimp only
  rw [if_pos ⟨by omega, by omega⟩]; rfl

end Guanaqo.Lifetime
