import Verif.Ring.Model
import Verif.MatView.Lemmas

/-!
# Properties of the circular ranges (C24, C25)
-/

namespace Guanaqo.Ring

open Guanaqo.MatView (ok_bind error_bind)

/-- The contract of the `CircularRange` constructor: the ring has `max` slots, the range starts
at slot `idx1`, has at most `max` elements and ends (exclusively) at `idx2`. -/
def Range.Valid (r : Range) : Prop :=
  0 ≤ r.size ∧ r.size ≤ r.max ∧ 0 ≤ r.idx1 ∧ r.idx1 < r.max ∧ r.idx2 = (r.idx1 + r.size) % r.max

/-- The sequence the user expects: the `k`-th element is slot `(idx1 + k) mod max`. -/
def expected (r : Range) : List Indices :=
  (List.range r.size.toNat).map fun (k : Nat) =>
    { zerobased := (k : Int), circular := (r.idx1 + k) % r.max }

theorem emod_succ {a m : Int} (hm : 0 < m) :
    (if a % m + 1 = m then 0 else a % m + 1) = (a + 1) % m := by
  have h0 := Int.emod_nonneg a (by omega : m ≠ 0)
  have h1 := Int.emod_lt_of_pos a hm
  have e := Int.emod_add_mul_ediv a m
  split
  · rename_i h
    have : a + 1 = m * (a / m + 1) := by rw [Int.mul_add]; omega
    rw [this, Int.mul_emod_right]
  · rename_i h
    have : a + 1 = (a % m + 1) + m * (a / m) := by omega
    rw [this, Int.add_mul_emod_self_left]
    exact (Int.emod_eq_of_lt (a := a % m + 1) (by omega) (by omega)).symm

theorem emod_pred {a m : Int} (hm : 0 < m) :
    (if a % m = 0 then m - 1 else a % m - 1) = (a - 1) % m := by
  have h0 := Int.emod_nonneg a (by omega : m ≠ 0)
  have h1 := Int.emod_lt_of_pos a hm
  have e := Int.emod_add_mul_ediv a m
  split
  · rename_i h
    have : a - 1 = (m - 1) + m * (a / m - 1) := by rw [Int.mul_sub]; omega
    rw [this, Int.add_mul_emod_self_left, Int.emod_eq_of_lt (by omega) (by omega)]
  · rename_i h
    have : a - 1 = (a % m - 1) + m * (a / m) := by omega
    rw [this, Int.add_mul_emod_self_left]
    exact (Int.emod_eq_of_lt (a := a % m - 1) (by omega) (by omega)).symm

/-- The iterator at position `k` of the range. -/
def Range.pos (r : Range) (k : Int) : Iter :=
  { i := { zerobased := k, circular := (r.idx1 + k) % r.max }, max := r.max }

theorem pos_begin {r : Range} (h : r.Valid) : r.begin = r.pos 0 := by
  obtain ⟨h1, h2, h3, h4, h5⟩ := h
  simp [Range.begin, Range.pos, Int.emod_eq_of_lt h3 h4]

theorem pos_end {r : Range} (h : r.Valid) : r.end' = r.pos r.size := by
  obtain ⟨h1, h2, h3, h4, h5⟩ := h
  simp [Range.end', Range.pos, h5]

theorem pos_inc {r : Range} (h : r.Valid) {k : Int} (_hk : 0 ≤ k) (hk' : k < r.size) :
    (r.pos k).inc = .ok (r.pos (k + 1)) := by
  obtain ⟨h1, h2, h3, h4, h5⟩ := h
  have : k < r.max := by omega
  simp only [Range.pos, Iter.inc, assertThat, this, decide_true, if_true, ok_bind, pure,
    Except.pure]
  congr 3
  rw [← Int.add_assoc]
  exact emod_succ (by omega)

theorem pos_dec {r : Range} (h : r.Valid) {k : Int} (hk : 0 < k) :
    (r.pos k).dec = .ok (r.pos (k - 1)) := by
  obtain ⟨h1, h2, h3, h4, h5⟩ := h
  simp only [Range.pos, Iter.dec, assertThat, gt_iff_lt, hk, decide_true, if_true, ok_bind, pure,
    Except.pure]
  congr 3
  rw [← Int.add_sub_assoc]
  exact emod_pred (by omega)

theorem pos_eqv (r : Range) (k l : Int) : (r.pos k).eqv (r.pos l) = .ok (decide (k = l)) := by
  simp [Iter.eqv, Range.pos, assertThat, Indices.eqv, pure, Except.pure]
  rfl

theorem collect_pos {r : Range} (h : r.Valid) :
    ∀ (n fuel : Nat) (k : Int), 0 ≤ k → k + n = r.size → n ≤ fuel →
      collect (r.pos r.size) fuel (r.pos k) = .ok (some ((List.range n).map fun (j : Nat) =>
        { zerobased := k + j, circular := (r.idx1 + (k + j)) % r.max : Indices })) := by
  intro n
  induction n with
  | zero =>
    intro fuel k hk hn hf
    have : k = r.size := by omega
    cases fuel <;> simp [collect, pos_eqv, this, pure, Except.pure]
  | succ n ih =>
    intro fuel k hk hn hf
    obtain ⟨fuel, rfl⟩ : ∃ f, fuel = f + 1 := ⟨fuel - 1, by omega⟩
    have hne : ¬ k = r.size := by omega
    simp only [collect, pos_eqv, ok_bind, hne, decide_false, Bool.false_eq_true, if_false]
    rw [pos_inc h hk (by omega)]
    simp only [ok_bind]
    rw [ih fuel (k + 1) (by omega) (by omega) (by omega)]
    simp only [ok_bind, pure, Except.pure, Option.map_some, List.range_succ_eq_map, List.map_cons,
      List.map_map]
    congr 3
    · simp [Iter.deref, Range.pos]
    · apply List.map_congr_left
      intro j _
      simp only [Function.comp_apply]
      congr 1
      · push_cast; omega
      · congr 1; push_cast; omega

/-- C24. Iterating a valid circular range visits exactly `size` positions; the `k`-th has
zero-based index `k` and circular index `(idx1 + k) mod max`. The loop terminates, no assert
fails, and all visited circular indices lie in `[0, max)`. -/
theorem forward_iteration (r : Range) (h : r.Valid) :
    collect r.end' r.size.toNat r.begin = .ok (some (expected r)) ∧
    (∀ x ∈ expected r, 0 ≤ x.circular ∧ x.circular < r.max ∧
      0 ≤ x.zerobased ∧ x.zerobased < r.size) := by
  constructor
  · rw [pos_begin h, pos_end h, collect_pos h r.size.toNat _ 0 (by omega) (by have := h.1; omega)
      (Nat.le_refl _)]
    simp [expected]
  · intro x hx
    simp only [expected, List.mem_map, List.mem_range] at hx
    obtain ⟨k, hk, rfl⟩ := hx
    obtain ⟨h1, h2, h3, h4, h5⟩ := h
    exact ⟨Int.emod_nonneg _ (by omega), Int.emod_lt_of_pos _ (by omega), by simp only; omega,
      by simp only; omega⟩

/-- C24. No slot of the ring is visited twice. -/
theorem forward_distinct_slots (r : Range) (h : r.Valid) :
    ((expected r).map Indices.circular).Nodup := by
  simp only [expected, List.map_map, Function.comp_def, List.nodup_iff_pairwise_ne,
    List.pairwise_map]
  refine List.Pairwise.imp_of_mem ?_ (List.nodup_range (n := r.size.toNat))
  intro a b ha hb hne he
  simp only [List.mem_range] at ha hb
  obtain ⟨h1, h2, h3, h4, h5⟩ := h
  have h6 : (r.idx1 + (a : Int)) % r.max = (r.idx1 + (b : Int)) % r.max := he
  have h7 : r.max ∣ (a : Int) - b := by
    have h8 := (Int.emod_eq_emod_iff_emod_sub_eq_zero).1 h6
    have h9 : (r.idx1 + (a : Int)) - (r.idx1 + b) = (a : Int) - b := by omega
    rw [h9] at h8
    exact Int.dvd_of_emod_eq_zero h8
  obtain ⟨q, hq⟩ := h7
  have hq0 : q = 0 := by
    apply Classical.byContradiction
    intro hq0
    rcases Int.lt_or_gt_of_ne hq0 with hq1 | hq1
    · have : r.max * q ≤ r.max * (-1) := Int.mul_le_mul_of_nonneg_left (by omega) (by omega)
      omega
    · have : r.max * 1 ≤ r.max * q := Int.mul_le_mul_of_nonneg_left (by omega) (by omega)
      omega
  rw [hq0] at hq
  omega

theorem rcollect_pos {r : Range} (h : r.Valid) :
    ∀ (n fuel : Nat), (n : Int) ≤ r.size → n ≤ fuel →
      rcollect ⟨r.pos 0⟩ fuel ⟨r.pos n⟩ = .ok (some (((List.range n).map fun (j : Nat) =>
        { zerobased := (j : Int), circular := (r.idx1 + j) % r.max : Indices }).reverse)) := by
  intro n
  induction n with
  | zero =>
    intro fuel hn hf
    cases fuel <;> simp [rcollect, RIter.eqv, pos_eqv, pure, Except.pure]
  | succ n ih =>
    intro fuel hn hf
    obtain ⟨fuel, rfl⟩ : ∃ f, fuel = f + 1 := ⟨fuel - 1, by omega⟩
    have hne : ¬ (((n + 1 : Nat) : Int) = 0) := by omega
    simp only [rcollect, RIter.eqv, pos_eqv, ok_bind, hne, decide_false, Bool.false_eq_true,
      if_false, RIter.deref, RIter.inc]
    rw [pos_dec h (by omega)]
    simp only [ok_bind, pure, Except.pure]
    have : ((n + 1 : Nat) : Int) - 1 = (n : Int) := by omega
    rw [this, ih fuel (by omega) (by omega)]
    simp [Iter.deref, Range.pos, List.range_succ]

/-- C25. Reverse iteration of a valid range visits exactly the forward sequence in reverse; so
does `ReverseCircularRange`, whose own reverse iteration is the forward one. -/
theorem reverse_iteration (r : Range) (h : r.Valid) :
    rcollect r.rend r.size.toNat r.rbegin = .ok (some (expected r).reverse) ∧
    rcollect (RRange.mk r).end' r.size.toNat (RRange.mk r).begin =
      .ok (some (expected r).reverse) ∧
    collect (RRange.mk r).rend r.size.toNat (RRange.mk r).rbegin = .ok (some (expected r)) := by
  have h1 : rcollect r.rend r.size.toNat r.rbegin = .ok (some (expected r).reverse) := by
    simp only [Range.rend, Range.rbegin, pos_begin h, pos_end h]
    have hs : r.size = ((r.size.toNat : Nat) : Int) := by have := h.1; omega
    have := rcollect_pos h r.size.toNat r.size.toNat (by omega) (Nat.le_refl _)
    rw [← hs] at this
    exact this
  exact ⟨h1, h1, (forward_iteration r h).1⟩

/-- C25. `++` followed by `--` and `--` followed by `++` return to the same iterator, wherever
the intermediate position is inside the ring. -/
theorem inc_dec_inverse (it : Iter) (hc : 0 ≤ it.i.circular ∧ it.i.circular < it.max)
    (hz : 0 ≤ it.i.zerobased ∧ it.i.zerobased ≤ it.max) :
    (it.i.zerobased < it.max → (do (← it.inc).dec) = .ok it) ∧
    (0 < it.i.zerobased → (do (← it.dec).inc) = .ok it) := by
  obtain ⟨⟨z, c⟩, m⟩ := it
  simp only at hc hz
  constructor
  · intro h
    simp only at h
    simp only [Iter.inc, Iter.dec, assertThat, h, decide_true, if_true, ok_bind, pure, Except.pure]
    have h1 : z + 1 > 0 := by omega
    simp only [h1, decide_true, if_true, ok_bind]
    congr 3
    · omega
    · split <;> split <;> omega
  · intro h
    simp only at h
    simp only [Iter.inc, Iter.dec, assertThat, gt_iff_lt, h, decide_true, if_true, ok_bind, pure,
      Except.pure]
    have h1 : z - 1 < m := by omega
    simp only [h1, decide_true, if_true, ok_bind]
    congr 3
    · omega
    · split <;> split <;> omega

/-- C25, the same for reverse iterators: `++` followed by `--` and `--` followed by `++` return to
the same reverse iterator. -/
theorem rinc_rdec_inverse (it : RIter)
    (hc : 0 ≤ it.fwd.i.circular ∧ it.fwd.i.circular < it.fwd.max)
    (hz : 0 ≤ it.fwd.i.zerobased ∧ it.fwd.i.zerobased ≤ it.fwd.max) :
    (0 < it.fwd.i.zerobased → (do (← it.inc).dec) = .ok it) ∧
    (it.fwd.i.zerobased < it.fwd.max → (do (← it.dec).inc) = .ok it) := by
  obtain ⟨h1, h2⟩ := inc_dec_inverse it.fwd hc hz
  constructor
  · intro h
    have := h2 h
    unfold RIter.inc RIter.dec
    cases hd : it.fwd.dec with
    | error e => rw [hd] at this; simp [bind, Except.bind] at this
    | ok t =>
      rw [hd] at this
      simp only [ok_bind, pure, Except.pure] at this ⊢
      rw [this]
      rfl
  · intro h
    have := h1 h
    unfold RIter.inc RIter.dec
    cases hd : it.fwd.inc with
    | error e => rw [hd] at this; simp [bind, Except.bind] at this
    | ok t =>
      rw [hd] at this
      simp only [ok_bind, pure, Except.pure] at this ⊢
      rw [this]
      rfl

/-- Non-vacuity: a wrapping range in a ring of five slots. -/
example : (⟨4, 3, 2, 5⟩ : Range).Valid ∧
    expected ⟨4, 3, 2, 5⟩ = [⟨0, 3⟩, ⟨1, 4⟩, ⟨2, 0⟩, ⟨3, 1⟩] := by
  refine ⟨?_, by decide +kernel⟩
  unfold Range.Valid; decide

end Guanaqo.Ring
