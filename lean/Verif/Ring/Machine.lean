import Verif.Ring.Props
import Verif.Ints
import Verif.Loops

/-!
# Circular iterators over machine integers (C121)

`Ring/Model` uses unbounded integers. Here `IndexT` is any built-in integer type: operands narrower
than `int` are promoted, unsigned arithmetic wraps, signed overflow is undefined behaviour, and the
result of an expression is converted when it is stored into an `Index`. The `assert`s may be
compiled out. A user holds one iterator and applies any sequence of `++it`, `it++`, `--it`, `it--`.
-/

namespace Guanaqo.Ring

open Guanaqo.MatView (ok_bind error_bind)

/-- A built-in integer type. -/
structure ITy where
  bits : Nat
  signed : Bool
  deriving DecidableEq, Repr

/-- The values of the type. -/
def ITy.Has (t : ITy) (x : Int) : Prop :=
  if t.signed then Fits t.bits x else 0 ≤ x ∧ x < 2 ^ t.bits

instance (t : ITy) (x : Int) : Decidable (t.Has x) := by unfold ITy.Has; infer_instance

/-- Integer promotion: types narrower than `int` (32 bits) become `int`. -/
def ITy.promote (t : ITy) : ITy := if t.bits < 32 then { bits := 32, signed := true } else t

/-- The value of an arithmetic expression of type `t` whose exact result is `x`. -/
def ITy.arith (t : ITy) (x : Int) : Res Int :=
  if t.signed then chk t.bits x else .ok (x % 2 ^ t.bits)

/-- Conversion to the type: modulo `2 ^ bits`, into the range of the type. -/
def ITy.convert (t : ITy) (x : Int) : Int :=
  if t.signed then (x + 2 ^ (t.bits - 1)) % 2 ^ t.bits - 2 ^ (t.bits - 1) else x % 2 ^ t.bits

/-- `a + d` for an `Index` `a` and a literal of type `int`, before any store. -/
def ITy.plus (t : ITy) (a d : Int) : Res Int := t.promote.arith (a + d)

/-- How the header is compiled: the index type, and whether `assert` is active (no `NDEBUG`). -/
structure Build where
  ty : ITy
  asserts : Bool
  deriving DecidableEq, Repr

/-- `assert(b)`, `<cassert>`. -/
def Build.assert (c : Build) (b : Bool) : Res Unit := if c.asserts then assertThat b else .ok ()

/-- `CircularIndexIterator::operator++()`, ringbuffer.hpp:47-52. `++i.zerobased` and the assignment
to `i.circular` convert to the index type; the comparison is made on the promoted value. -/
def Iter.minc (c : Build) (it : Iter) : Res Iter := do
  c.assert (decide (it.i.zerobased < it.max))
  let z ← c.ty.plus it.i.zerobased 1
  let n ← c.ty.plus it.i.circular 1
  return { it with i :=
    { zerobased := c.ty.convert z
      circular := c.ty.convert (if n = it.max then 0 else n) } }

/-- `CircularIndexIterator::operator--()`, ringbuffer.hpp:53-58. Only the chosen branch of the
conditional is evaluated. -/
def Iter.mdec (c : Build) (it : Iter) : Res Iter := do
  c.assert (decide (it.i.zerobased > 0))
  let z ← c.ty.plus it.i.zerobased (-1)
  let n ← c.ty.plus (if it.i.circular = 0 then it.max else it.i.circular) (-1)
  return { it with i := { zerobased := c.ty.convert z, circular := c.ty.convert n } }

/-- `operator++(int)`, ringbuffer.hpp:59-63: the returned copy and the new iterator. -/
def Iter.mpostInc (c : Build) (it : Iter) : Res (Iter × Iter) := do return (it, ← it.minc c)

/-- `operator--(int)`, ringbuffer.hpp:64-68: the returned copy and the new iterator. -/
def Iter.mpostDec (c : Build) (it : Iter) : Res (Iter × Iter) := do return (it, ← it.mdec c)

/-- What the user does with one iterator. -/
inductive Op where
  | preInc | postInc | preDec | postDec
  deriving DecidableEq, Repr

/-- One operation: the iterator that the expression evaluates to (`*++it` and `*it++` differ), and
the iterator afterwards. ringbuffer.hpp:47-68. -/
def Op.step (c : Build) (it : Iter) : Op → Res (Iter × Iter)
  | .preInc => do let n ← it.minc c; return (n, n)
  | .postInc => it.mpostInc c
  | .preDec => do let n ← it.mdec c; return (n, n)
  | .postDec => it.mpostDec c

/-- A sequence of operations: the values read through the result of each (`*++it`, `*it++`, …),
and the iterator afterwards. -/
def Op.run (c : Build) : List Op → Iter → Res (List Indices × Iter)
  | [], it => .ok ([], it)
  | o :: os, it => do
    let (r, n) ← o.step c it
    let (l, e) ← Op.run c os n
    return (r.deref :: l, e)

/-- `ReverseCircularIndexIterator::operator++()`, ringbuffer.hpp:110-113. -/
def RIter.minc (c : Build) (it : RIter) : Res RIter := do return { fwd := ← it.fwd.mdec c }

/-- `ReverseCircularIndexIterator::operator--()`, ringbuffer.hpp:114-117. -/
def RIter.mdec (c : Build) (it : RIter) : Res RIter := do return { fwd := ← it.fwd.minc c }

/-- `ReverseCircularIndexIterator::operator*`, ringbuffer.hpp:106-109. -/
def RIter.mderef (c : Build) (it : RIter) : Res Indices := do
  let tmp ← it.fwd.mdec c
  return tmp.deref

/-- One operation on a reverse iterator, ringbuffer.hpp:110-127. -/
def Op.rstep (c : Build) (it : RIter) : Op → Res (RIter × RIter)
  | .preInc => do let n ← it.minc c; return (n, n)
  | .postInc => do return (it, ← it.minc c)
  | .preDec => do let n ← it.mdec c; return (n, n)
  | .postDec => do return (it, ← it.mdec c)

/-- A sequence of operations on a reverse iterator; the results are kept as iterators, because
dereferencing a reverse iterator at the end of its range is an error. -/
def Op.rrun (c : Build) : List Op → RIter → Res (List RIter × RIter)
  | [], it => .ok ([], it)
  | o :: os, it => do
    let (r, n) ← o.rstep c it
    let (l, e) ← Op.rrun c os n
    return (r :: l, e)

/-- `operator==`, ringbuffer.hpp:73-78. -/
def Iter.meqv (c : Build) (a b : Iter) : Res Bool := do
  c.assert (decide (a.max = b.max))
  return a.i.eqv b.i

/-- A range-for loop over forward iterators (as `collect`). -/
def mcollect (c : Build) (stop : Iter) : Nat → Iter → Res (Option (List Indices))
  | fuel, it => do
    if ← it.meqv c stop then return some []
    match fuel with
    | 0 => return none
    | fuel + 1 =>
      let x := it.deref
      let it ← it.minc c
      return (← mcollect c stop fuel it).map (x :: ·)

/-- A range-for loop over reverse iterators (as `rcollect`). -/
def mrcollect (c : Build) (stop : RIter) : Nat → RIter → Res (Option (List Indices))
  | fuel, it => do
    if ← it.fwd.meqv c stop.fwd then return some []
    match fuel with
    | 0 => return none
    | fuel + 1 =>
      let x ← it.mderef c
      let it ← it.minc c
      return (← mrcollect c stop fuel it).map (x :: ·)

/-! ## Specification -/

/-- By how much an operation moves the position. -/
def Op.delta : Op → Int
  | .preInc | .postInc => 1
  | .preDec | .postDec => -1

/-- The positions after each operation of a sequence, starting at position `k`. -/
def positions : Int → List Op → List Int
  | _, [] => []
  | k, o :: os => (k + o.delta) :: positions (k + o.delta) os

/-- The positions that the results of the operations denote: the new position for the prefix
operators, the old one for the postfix operators. -/
def observed : Int → List Op → List Int
  | _, [] => []
  | k, o :: os =>
    (match o with | .preInc | .preDec => k + o.delta | .postInc | .postDec => k)
      :: observed (k + o.delta) os

/-- The position after the whole sequence. -/
def finalPos : Int → List Op → Int
  | k, [] => k
  | k, o :: os => finalPos (k + o.delta) os

/-! ## Proofs -/

/-- A standard integer type has at least 8 bits. -/
def ITy.Std (t : ITy) : Prop := 8 ≤ t.bits

theorem promote_std {t : ITy} (h : t.Std) : 32 ≤ t.promote.bits ∧ t.promote.Std := by
  unfold ITy.promote ITy.Std at *
  split <;> simp_all

theorem has_zero {t : ITy} (h : t.Std) : t.Has 0 := by
  unfold ITy.Has
  split
  · exact fits_small h (by decide) (by decide)
  · exact ⟨by decide, Int.pow_pos (by decide)⟩

/-- Values between two values of the type belong to the type. -/
theorem has_between {t : ITy} {a b x : Int} (ha : t.Has a) (hb : t.Has b) (h1 : a ≤ x)
    (h2 : x ≤ b) : t.Has x := by
  unfold ITy.Has Fits at *
  split at ha <;> rename_i h <;> simp_all <;> omega

theorem has_promote {t : ITy} {x : Int} (h : t.Has x) : t.promote.Has x := by
  unfold ITy.promote
  split
  · rename_i hb
    unfold ITy.Has at *
    simp only [if_true]
    split at h
    · exact fits_mono (by omega) h
    · have : (2 : Int) ^ t.bits ≤ 2 ^ 31 := pow_le_pow_right₀ (by decide) (by omega)
      unfold Fits
      have e : (2 : Int) ^ (32 - 1) = 2 ^ 31 := rfl
      rw [e]
      have : (0 : Int) < 2 ^ 31 := by decide
      omega
  · exact h

theorem arith_has {t : ITy} {x : Int} (h : t.Has x) : t.arith x = .ok x := by
  unfold ITy.arith
  unfold ITy.Has at h
  split <;> rename_i hs
  · rw [if_pos hs] at h; exact chk_ok.2 ⟨h, rfl⟩
  · rw [if_neg hs] at h; rw [Int.emod_eq_of_lt h.1 h.2]

theorem convert_has {t : ITy} (hw : t.Std) {x : Int} (h : t.Has x) : t.convert x = x := by
  unfold ITy.convert
  unfold ITy.Has at h
  split <;> rename_i hs
  · rw [if_pos hs] at h
    unfold Fits at h
    have e : (2 : Int) ^ t.bits = 2 * 2 ^ (t.bits - 1) := by
      have : t.bits = (t.bits - 1) + 1 := by unfold ITy.Std at hw; omega
      conv => lhs; rw [this]
      rw [pow_succ]; omega
    rw [Int.emod_eq_of_lt (by omega) (by omega)]
    omega
  · rw [if_neg hs] at h; exact Int.emod_eq_of_lt h.1 h.2

theorem plus_has {t : ITy} {a d : Int} (h : t.Has (a + d)) : t.plus a d = .ok (a + d) :=
  arith_has (has_promote h)

theorem assert_pos (c : Build) {p : Prop} [Decidable p] (h : p) : c.assert (decide p) = .ok () := by
  simp [Build.assert, assertThat, h]

theorem assert_neg (c : Build) (ha : c.asserts = true) {p : Prop} [Decidable p] (h : ¬ p) :
    c.assert (decide p) = .error .assertFail := by
  simp [Build.assert, assertThat, h, ha]

theorem minc_val (c : Build) (hw : c.ty.Std) {z s m : Int} (h : z < m) (hz : c.ty.Has (z + 1))
    (hn : c.ty.Has (s + 1)) :
    Iter.minc c ⟨⟨z, s⟩, m⟩ = .ok ⟨⟨z + 1, if s + 1 = m then 0 else s + 1⟩, m⟩ := by
  unfold Iter.minc
  rw [assert_pos c h]
  simp only [ok_bind, plus_has hz, plus_has hn, pure, Except.pure, convert_has hw hz]
  congr 3
  apply convert_has hw
  split
  · exact has_zero hw
  · exact hn

/-- Position `k` of the range can be represented, and lies in the ring. -/
theorem minc_pos (c : Build) (hw : c.ty.Std) {r : Range} (h : r.Valid) (hm : c.ty.Has r.max)
    {k : Int} (hk : 0 ≤ k) (hk' : k < r.max) :
    (r.pos k).minc c = .ok (r.pos (k + 1)) := by
  obtain ⟨h1, h2, h3, h4, h5⟩ := h
  have hmp : 0 < r.max := by omega
  have e0 := Int.emod_nonneg (r.idx1 + k) (by omega : r.max ≠ 0)
  have e1 := Int.emod_lt_of_pos (r.idx1 + k) hmp
  have hz : c.ty.Has (k + 1) := has_between (has_zero hw) hm (by omega) (by omega)
  have hn : c.ty.Has ((r.idx1 + k) % r.max + 1) :=
    has_between (has_zero hw) hm (by omega) (by omega)
  have := minc_val c hw hk' hz hn
  rw [emod_succ hmp, Int.add_assoc] at this
  exact this

theorem mdec_pos (c : Build) (hw : c.ty.Std) {r : Range} (h : r.Valid) (hm : c.ty.Has r.max)
    {k : Int} (hk : 0 < k) (hk' : k ≤ r.max) :
    (r.pos k).mdec c = .ok (r.pos (k - 1)) := by
  obtain ⟨h1, h2, h3, h4, h5⟩ := h
  have hmp : 0 < r.max := by omega
  have e0 := Int.emod_nonneg (r.idx1 + k) (by omega : r.max ≠ 0)
  have e1 := Int.emod_lt_of_pos (r.idx1 + k) hmp
  have hz : c.ty.Has (k + -1) := has_between (has_zero hw) hm (by omega) (by omega)
  unfold Iter.mdec
  rw [assert_pos c (by exact hk)]
  by_cases hc : (r.idx1 + k) % r.max = 0
  · have hn : c.ty.Has (r.max + -1) := has_between (has_zero hw) hm (by omega) (by omega)
    simp only [Range.pos, ok_bind, plus_has hz, hc, if_true, plus_has hn, pure, Except.pure,
      convert_has hw hz, convert_has hw hn]
    congr 3
    rw [← Int.add_sub_assoc, ← emod_pred hmp, if_pos hc]
    rfl
  · have hn : c.ty.Has ((r.idx1 + k) % r.max + -1) :=
      has_between (has_zero hw) hm (by omega) (by omega)
    simp only [Range.pos, ok_bind, plus_has hz, hc, if_false, plus_has hn, pure, Except.pure,
      convert_has hw hz, convert_has hw hn]
    congr 3
    rw [← Int.add_sub_assoc, ← emod_pred hmp, if_neg hc]
    rfl

theorem step_pos (c : Build) (hw : c.ty.Std) {r : Range} (h : r.Valid) (hm : c.ty.Has r.max)
    {k : Int} (hk : 0 ≤ k) (hk' : k ≤ r.max) (o : Op)
    (hp : 0 ≤ k + o.delta ∧ k + o.delta ≤ r.max) :
    o.step c (r.pos k) = .ok (r.pos (match o with
      | .preInc | .preDec => k + o.delta | .postInc | .postDec => k), r.pos (k + o.delta)) := by
  cases o <;> simp only [Op.delta] at hp ⊢ <;>
    simp only [Op.step, Iter.mpostInc, Iter.mpostDec] <;>
    first
    | rw [minc_pos c hw h hm hk (by omega)]; rfl
    | rw [mdec_pos c hw h hm (by omega) hk']; rfl

/-- C121. For every index type that can hold `max`, with `assert` active or compiled out: any
sequence of `++it`, `it++`, `--it`, `it--` whose positions stay between 0 and `max` runs without
undefined behaviour or failed assertion, ends at the position that the operations add up to, and
each expression, dereferenced, gives zero-based index `p` and slot `(idx1 + p) mod max`, where `p`
is the new position for a prefix operator and the old one for a postfix operator. -/
theorem machine_walk (c : Build) (hw : c.ty.Std) (r : Range) (h : r.Valid) (hm : c.ty.Has r.max)
    (os : List Op) (k : Int) (hk : 0 ≤ k ∧ k ≤ r.max)
    (hp : ∀ p ∈ positions k os, 0 ≤ p ∧ p ≤ r.max) :
    Op.run c os (r.pos k) = .ok
      ((observed k os).map (fun p => { zerobased := p, circular := (r.idx1 + p) % r.max }),
        r.pos (finalPos k os)) := by
  induction os generalizing k with
  | nil => rfl
  | cons o os ih =>
    have hp0 := hp (k + o.delta) (by simp [positions])
    simp only [Op.run, step_pos c hw h hm hk.1 hk.2 o hp0, ok_bind]
    rw [ih (k + o.delta) hp0 (fun p hpm => hp p (by simp [positions, hpm]))]
    cases o <;> rfl

theorem minc_assert (c : Build) (ha : c.asserts = true) (r : Range) {k : Int} (hk : r.max ≤ k) :
    (r.pos k).minc c = .error .assertFail := by
  unfold Iter.minc
  rw [assert_neg c ha (by simp only [Range.pos]; omega)]
  rfl

theorem mdec_assert (c : Build) (ha : c.asserts = true) (r : Range) {k : Int} (hk : k ≤ 0) :
    (r.pos k).mdec c = .error .assertFail := by
  unfold Iter.mdec
  rw [assert_neg c ha (by simp only [Range.pos]; omega)]
  rfl

/-- C121. With `assert` active the same sequences are the only ones that succeed: if some position
falls outside `[0, max]`, an assertion fails (nothing else can happen). -/
theorem machine_walk_iff (c : Build) (hw : c.ty.Std) (ha : c.asserts = true) (r : Range)
    (h : r.Valid) (hm : c.ty.Has r.max) (os : List Op) (k : Int) (hk : 0 ≤ k ∧ k ≤ r.max) :
    ((∃ x, Op.run c os (r.pos k) = .ok x) ↔ ∀ p ∈ positions k os, 0 ≤ p ∧ p ≤ r.max) ∧
    ((¬ ∀ p ∈ positions k os, 0 ≤ p ∧ p ≤ r.max) →
      Op.run c os (r.pos k) = .error .assertFail) := by
  have hbad : (¬ ∀ p ∈ positions k os, 0 ≤ p ∧ p ≤ r.max) →
      Op.run c os (r.pos k) = .error .assertFail := by
    induction os generalizing k with
    | nil => intro hn; exact absurd (fun p hp => by simp [positions] at hp) hn
    | cons o os ih =>
      intro hn
      by_cases hp0 : 0 ≤ k + o.delta ∧ k + o.delta ≤ r.max
      · simp only [Op.run, step_pos c hw h hm hk.1 hk.2 o hp0, ok_bind]
        rw [ih (k + o.delta) hp0 ?_]
        · rfl
        · intro hall
          apply hn
          intro p hpm
          simp only [positions, List.mem_cons] at hpm
          rcases hpm with rfl | hpm
          · exact hp0
          · exact hall p hpm
      · cases o <;> simp only [Op.delta] at hp0 <;>
          simp only [Op.run, Op.step, Iter.mpostInc, Iter.mpostDec] <;>
          first
          | rw [minc_assert c ha r (by omega)]; rfl
          | rw [mdec_assert c ha r (by omega)]; rfl
  refine ⟨⟨?_, fun hp => ⟨_, machine_walk c hw r h hm os k hk hp⟩⟩, hbad⟩
  rintro ⟨x, hx⟩
  apply Classical.byContradiction
  intro hn
  rw [hbad hn] at hx
  cases hx

theorem meqv_pos (c : Build) (r : Range) (k l : Int) :
    (r.pos k).meqv c (r.pos l) = .ok (decide (k = l)) := by
  unfold Iter.meqv
  rw [assert_pos c (by rfl)]
  rfl

theorem mcollect_pos (c : Build) (hw : c.ty.Std) {r : Range} (h : r.Valid) (hm : c.ty.Has r.max) :
    ∀ (n fuel : Nat) (k : Int), 0 ≤ k → k + n = r.size → n ≤ fuel →
      mcollect c (r.pos r.size) fuel (r.pos k) = collect (r.pos r.size) fuel (r.pos k) := by
  intro n
  induction n with
  | zero =>
    intro fuel k hk hn hf
    have : k = r.size := by omega
    cases fuel <;> simp [collect, mcollect, meqv_pos, pos_eqv, this]
  | succ n ih =>
    intro fuel k hk hn hf
    obtain ⟨fuel, rfl⟩ : ∃ f, fuel = f + 1 := ⟨fuel - 1, by omega⟩
    have hne : ¬ k = r.size := by omega
    simp only [collect, mcollect, meqv_pos, pos_eqv, ok_bind, hne, decide_false,
      Bool.false_eq_true, if_false]
    rw [pos_inc h hk (by omega), minc_pos c hw h hm hk (by have := h.2.1; omega)]
    simp only [ok_bind]
    rw [ih fuel (k + 1) (by omega) (by omega) (by omega)]

theorem mrcollect_pos (c : Build) (hw : c.ty.Std) {r : Range} (h : r.Valid)
    (hm : c.ty.Has r.max) :
    ∀ (n fuel : Nat), (n : Int) ≤ r.size → n ≤ fuel →
      mrcollect c ⟨r.pos 0⟩ fuel ⟨r.pos n⟩ = rcollect ⟨r.pos 0⟩ fuel ⟨r.pos n⟩ := by
  intro n
  induction n with
  | zero =>
    intro fuel hn hf
    cases fuel <;> simp [rcollect, mrcollect, RIter.eqv, meqv_pos, pos_eqv]
  | succ n ih =>
    intro fuel hn hf
    obtain ⟨fuel, rfl⟩ : ∃ f, fuel = f + 1 := ⟨fuel - 1, by omega⟩
    have hne : ¬ (((n + 1 : Nat) : Int) = 0) := by omega
    simp only [rcollect, mrcollect, RIter.eqv, pos_eqv, meqv_pos, ok_bind, hne, decide_false,
      Bool.false_eq_true, if_false, RIter.deref, RIter.mderef, RIter.inc, RIter.minc]
    rw [pos_dec h (by omega), mdec_pos c hw h hm (by omega) (by have := h.2.1; omega)]
    simp only [ok_bind, pure, Except.pure]
    have : ((n + 1 : Nat) : Int) - 1 = (n : Int) := by omega
    rw [this, ih fuel (by omega) (by omega)]

/-- C121. Forward and reverse loops over a range give the sequence of C24 and its reverse for every
index type that can hold `max` (even when `max` is the largest value of the type), with `assert`
active or compiled out. -/
theorem machine_iteration (c : Build) (hw : c.ty.Std) (r : Range) (h : r.Valid)
    (hm : c.ty.Has r.max) :
    mcollect c r.end' r.size.toNat r.begin = .ok (some (expected r)) ∧
    mrcollect c r.rend r.size.toNat r.rbegin = .ok (some (expected r).reverse) := by
  constructor
  · rw [← (forward_iteration r h).1, pos_begin h, pos_end h]
    exact mcollect_pos c hw h hm r.size.toNat _ 0 (by omega) (by have := h.1; omega)
      (Nat.le_refl _)
  · rw [← (reverse_iteration r h).1]
    simp only [Range.rend, Range.rbegin, pos_begin h, pos_end h]
    have hs : r.size = ((r.size.toNat : Nat) : Int) := by have := h.1; omega
    have := mrcollect_pos c hw h hm r.size.toNat r.size.toNat (by omega) (Nat.le_refl _)
    rw [← hs] at this
    exact this

/-- The mirrored operation: what a reverse iterator does to the forward iterator inside. -/
def Op.mirror : Op → Op
  | .preInc => .preDec
  | .postInc => .postDec
  | .preDec => .preInc
  | .postDec => .postInc

theorem rstep_eq (c : Build) (it : RIter) (o : Op) :
    o.rstep c it = (o.mirror.step c it.fwd).map (fun x => (⟨x.1⟩, ⟨x.2⟩)) := by
  cases o <;> simp only [Op.rstep, Op.mirror, Op.step, RIter.minc, RIter.mdec, Iter.mpostInc,
    Iter.mpostDec]
  · cases it.fwd.mdec c <;> rfl
  · cases it.fwd.mdec c <;> rfl
  · cases it.fwd.minc c <;> rfl
  · cases it.fwd.minc c <;> rfl

theorem mirror_delta (o : Op) : o.mirror.delta = - o.delta := by cases o <;> rfl

/-- C121. Reverse iterators: a sequence of operations moves the underlying position the other way.
Starting at position `k` (so that `*it` is element `k - 1`), any sequence whose mirrored positions
stay between 0 and `max` succeeds; the results are the iterators at the mirrored positions, and
each of them that is not at position 0 dereferences to the element just before it. -/
theorem machine_reverse_walk (c : Build) (hw : c.ty.Std) (r : Range) (h : r.Valid)
    (hm : c.ty.Has r.max) (os : List Op) (k : Int) (hk : 0 ≤ k ∧ k ≤ r.max)
    (hp : ∀ p ∈ positions k (os.map Op.mirror), 0 ≤ p ∧ p ≤ r.max) :
    Op.rrun c os ⟨r.pos k⟩ = .ok
      ((observed k (os.map Op.mirror)).map (fun p => ⟨r.pos p⟩),
        ⟨r.pos (finalPos k (os.map Op.mirror))⟩) ∧
    ∀ p, 0 < p → p ≤ r.max →
      RIter.mderef c ⟨r.pos p⟩ = .ok { zerobased := p - 1, circular := (r.idx1 + (p - 1)) % r.max } := by
  constructor
  · induction os generalizing k with
    | nil => rfl
    | cons o os ih =>
      have hp0 := hp (k + o.mirror.delta) (by simp [positions])
      simp only [Op.rrun, rstep_eq, step_pos c hw h hm hk.1 hk.2 o.mirror hp0, Except.map, ok_bind]
      rw [ih (k + o.mirror.delta) hp0 (fun p hpm => hp p (by simp [positions, hpm]))]
      cases o <;> rfl
  · intro p h1 h2
    simp only [RIter.mderef, mdec_pos c hw h hm h1 h2, ok_bind]
    rfl

/-- Non-vacuity: an 8-bit unsigned index in a ring of 255 slots (the largest value of the type),
and a 16-bit signed index; a walk with all four operators across the wrap-around. -/
example : (ITy.mk 8 false).Has 255 ∧ (ITy.mk 16 true).Has 32767 ∧
    (⟨255, 3, 3, 255⟩ : Range).Valid ∧
    positions 251 [.preInc, .postInc, .preDec, .postDec] = [252, 253, 252, 251] ∧
    Op.run ⟨⟨8, false⟩, true⟩ [.preInc, .postInc, .preDec, .postDec]
      ((⟨255, 3, 3, 255⟩ : Range).pos 251) =
      .ok ([⟨252, 0⟩, ⟨252, 0⟩, ⟨252, 0⟩, ⟨252, 0⟩], (⟨255, 3, 3, 255⟩ : Range).pos 251) := by
  refine ⟨by decide, by decide, ?_, by decide, by rfl⟩
  unfold Range.Valid; decide

/-- The hypothesis on `max` matters: 256 slots do not fit an 8-bit index (`max` would be stored as
0), and with a `max` of 0 the decrement of slot 0 stores the largest value of the type. -/
example : ¬ (ITy.mk 8 false).Has 256 ∧ (ITy.mk 8 false).convert 256 = 0 ∧
    Iter.mdec ⟨⟨8, false⟩, false⟩ ⟨⟨1, 0⟩, 0⟩ = .ok ⟨⟨0, 255⟩, 0⟩ := by
  refine ⟨by decide, by decide, by rfl⟩

end Guanaqo.Ring
