import Verif.Misc.Timed
import Verif.Float.Limits
import Mathlib.Algebra.Group.Subgroup.Basic
import Mathlib.Tactic.Linarith
import Mathlib.Data.Set.Finite.Lemmas
import Mathlib.Order.Interval.Finset.Basic
import Mathlib.Data.Int.Interval
import Mathlib.Tactic.Positivity

/-!
# `Timed` with floating-point durations (C64)

The accumulator is a `std::chrono::duration<Rep, std::ratio<1, d>>` with `Rep` one of the floating-point types, e.g.
`std::chrono::duration<double>`; the clock counts nanoseconds, `den = 10⁹ / d` of them make a period. Every operation rounds to nearest
(`RoundsTo`; ties any way). Numbers are rational: infinities and NaNs do not occur (the theorems bound the accumulators).
-/

namespace Guanaqo.Timed

open Guanaqo.Float (Fmt Mag binary32 binary64 exists_fl_ulp)

/-! ## The model -/

/-- A finite number of the format. -/
def IsVal (f : Fmt) (y : ℚ) : Prop := ∃ x : Mag f, |y| = x.val

/-- The largest finite number. -/
def largest (f : Fmt) : ℚ := (2 ^ f.p - 1) * (2 : ℚ) ^ f.emax

/-- IEEE 754: the result of an operation is a number of the format nearest to the exact result. -/
def RoundsTo (f : Fmt) (rnd : ℚ → ℚ) : Prop :=
  ∀ q, |q| ≤ largest f → IsVal f (rnd q) ∧ ∀ y, IsVal f y → |q - rnd q| ≤ |q - y|

/-- `std::chrono::duration_cast` from nanoseconds (standard library): the count as a number of type `Rep`, divided by the number of nanoseconds in a period
(unless that is one). -/
def conv (rnd : ℚ → ℚ) (den : ℕ) (t : Int) : ℚ := if den = 1 then rnd t else rnd (rnd t / rnd den)

/-- The accumulators, and for each living timer the accumulator it refers to. -/
structure FSt where
  acc : Nat → ℚ
  timer : Nat → Option Nat

/-- timed.hpp:13-16, `Timed(duration &)`, and 17, `~Timed()`. -/
def fstep (rnd : ℚ → ℚ) (den : ℕ) (s : FSt) : Event → Option FSt
  | .enter i a now =>
    match s.timer i with
    | some _ => none
    | none => some { acc := upd s.acc a (rnd (s.acc a - conv rnd den now)), timer := upd s.timer i (some a) }
  | .leave i now =>
    match s.timer i with
    | none => none
    | some a => some { acc := upd s.acc a (rnd (s.acc a + conv rnd den now)), timer := upd s.timer i none }

def frun (rnd : ℚ → ℚ) (den : ℕ) : FSt → List Event → Option FSt
  | s, [] => some s
  | s, e :: es => (fstep rnd den s e).bind fun s' => frun rnd den s' es

/-- No timer is alive, accumulators have the given values. -/
def fstart (acc : Nat → ℚ) : FSt := ⟨acc, fun _ => none⟩

/-! ## Errors add up -/

/-- What the operations guarantee: for exact results in `G` of absolute value at most `B`, the error is at most `ε` and the result is in `G`; times up to
`T` are converted with an error of at most `δ`. -/
structure Arith (rnd : ℚ → ℚ) (den : ℕ) (G : AddSubgroup ℚ) (B ε T δ : ℚ) : Prop where
  round : ∀ q ∈ G, |q| ≤ B → |rnd q - q| ≤ ε ∧ rnd q ∈ G
  time : ∀ t : Int, 0 ≤ t → (t : ℚ) ≤ T → |conv rnd den t - t / den| ≤ δ ∧ conv rnd den t ∈ G

/-- The open scopes are the living timers. -/
def FRel (s : FSt) (o : Open) : Prop := Rel ⟨fun _ => 0, s.timer⟩ o

theorem startSumQ_bound {o : Open} {T : ℚ} (h : ∀ x ∈ o, 0 ≤ x.2.2 ∧ (x.2.2 : ℚ) ≤ T) (hT : 0 ≤ T) (a : Nat) :
    (0 : ℚ) ≤ startSum a o ∧ (startSum a o : ℚ) ≤ o.length * T := by
  induction o with
  | nil => simp [startSum]
  | cons x o ih =>
    obtain ⟨j, b, t⟩ := x
    obtain ⟨h1, h2⟩ := ih fun y hy => h y (by simp [hy])
    have h3 := h (j, b, t) (by simp)
    have h4 : (0 : ℚ) ≤ t := by exact_mod_cast h3.1
    simp only [startSum, List.length_cons] at *
    push_cast
    split <;> constructor <;> nlinarith [h3.2]

theorem frun_total {rnd : ℚ → ℚ} {den : ℕ} {G : AddSubgroup ℚ} {B ε T δ : ℚ} (har : Arith rnd den G B ε T δ) (hden : 0 < den) (hT : 0 ≤ T)
    (hε : 0 ≤ ε) (hδ : 0 ≤ δ) (A : ℚ) (n : ℕ) (es : List Event) : ∀ (s : FSt) (o : Open) (g : Nat → ℚ) (E : ℚ), FRel s o → WellFormed o es → AtMost n o es →
    (∀ e ∈ es, 0 ≤ e.now ∧ (e.now : ℚ) ≤ T) → (∀ x ∈ o, 0 ≤ x.2.2 ∧ (x.2.2 : ℚ) ≤ T) →
    (∀ m a, |g a + startSum a o / den + total a o (es.take m) / den| ≤ A) → (∀ a, |s.acc a - g a| ≤ E ∧ s.acc a ∈ G) →
    A + (n + 1) * (T / den) + (E + es.length * (δ + ε) + δ) ≤ B →
    ∃ (s' : FSt) (g' : Nat → ℚ), frun rnd den s es = some s' ∧ FRel s' (finalOpen o es) ∧ (∀ a, |s'.acc a - g' a| ≤ E + es.length * (δ + ε) ∧ s'.acc a ∈ G) ∧
      ∀ a, g' a + startSum a (finalOpen o es) / den = g a + startSum a o / den + total a o es / den := by
  have hd : (0 : ℚ) < den := by exact_mod_cast hden
  have hTd : 0 ≤ T / den := by positivity
  induction es with
  | nil =>
    intro s o g E hr _ _ _ _ _ he _
    refine ⟨s, g, rfl, hr, fun a => ?_, fun a => by simp [finalOpen, total]⟩
    simpa using he a
  | cons e es ih =>
    intro s o g E hr hw hn he ho hA hE hB
    have hlen : ((e :: es).length : ℚ) = es.length + 1 := by simp
    rw [hlen] at hB
    have hes : (0 : ℚ) ≤ es.length * (δ + ε) := by positivity
    have htime := he e (by simp)
    have hconv := har.time e.now htime.1 htime.2
    have hat : o.length ≤ n := by cases e <;> exact hn.1
    have hacc : ∀ a, |s.acc a| ≤ A + n * (T / den) + E := by
      intro a
      have h1 := hA 0 a
      simp only [List.take_zero, total] at h1
      obtain ⟨h2, h3⟩ := startSumQ_bound ho hT a
      have h4 : (startSum a o : ℚ) / den ≤ n * (T / den) := by
        rw [← mul_div_assoc]
        refine div_le_div_of_nonneg_right (h3.trans ?_) hd.le
        exact mul_le_mul_of_nonneg_right (by exact_mod_cast hat) hT
      have h5 : 0 ≤ (startSum a o : ℚ) / den := div_nonneg h2 hd.le
      have h6 := (hE a).1
      rw [abs_le] at h1 h6 ⊢
      push_cast at h1
      rw [zero_div] at h1
      constructor <;> linarith [h1.1, h1.2, h6.1, h6.2]
    have htd : 0 ≤ (e.now : ℚ) / den ∧ (e.now : ℚ) / den ≤ T / den :=
      ⟨div_nonneg (by exact_mod_cast htime.1) hd.le, div_le_div_of_nonneg_right htime.2 hd.le⟩
    -- one operation
    have hop : ∀ (a : Nat) (sg : ℚ), (sg = 1 ∨ sg = -1) →
        |rnd (s.acc a + sg * conv rnd den e.now) - (g a + sg * (e.now / den))| ≤ E + (δ + ε) ∧ rnd (s.acc a + sg * conv rnd den e.now) ∈ G := by
      intro a sg hsg
      have hmem : s.acc a + sg * conv rnd den e.now ∈ G := by
        rcases hsg with rfl | rfl
        · rw [one_mul]; exact G.add_mem (hE a).2 hconv.2
        · rw [neg_one_mul]; exact G.add_mem (hE a).2 (G.neg_mem hconv.2)
      have h1 := abs_le.1 (hacc a)
      have h2 := abs_le.1 hconv.1
      have h3 := abs_le.1 (hE a).1
      have hb : |s.acc a + sg * conv rnd den e.now| ≤ B := by
        rw [abs_le]
        rcases hsg with rfl | rfl <;> constructor <;> nlinarith [h1.1, h1.2, h2.1, h2.2, htd.1, htd.2]
      obtain ⟨h4, h5⟩ := har.round _ hmem hb
      refine ⟨?_, h5⟩
      have h4 := abs_le.1 h4
      rw [abs_le]
      rcases hsg with rfl | rfl <;> constructor <;> linarith [h4.1, h4.2, h2.1, h2.2, h3.1, h3.2]
    cases e with
    | enter i b t =>
      obtain ⟨hw1, hw2⟩ := hw
      simp only [Event.now] at *
      have hi : s.timer i = none := by
        have := hr.timers i
        rw [hw1] at this
        exact this
      have hstep : fstep rnd den s (.enter i b t) = some ⟨upd s.acc b (rnd (s.acc b - conv rnd den t)), upd s.timer i (some b)⟩ := by
        simp only [fstep, hi]
      obtain ⟨s', g', k1, k2, k3, k4⟩ := ih ⟨upd s.acc b (rnd (s.acc b - conv rnd den t)), upd s.timer i (some b)⟩ ((i, b, t) :: o)
        (upd g b (g b - t / den)) (E + (δ + ε)) (rel_enter hr i b t (fun _ => 0) hi) hw2 hn.2 (fun e he' => he e (by simp [he']))
        (fun x hx => by
          rcases List.mem_cons.1 hx with rfl | hx
          · exact htime
          · exact ho x hx)
        (fun m a => by
          have := hA (m + 1) a
          simp only [List.take_succ_cons, total] at this
          simp only [startSum, upd]
          by_cases hab : b = a
          · subst hab
            simp only [if_true]
            push_cast
            rw [add_div, show g b - (t : ℚ) / den + (t / den + startSum b o / den) = g b + startSum b o / den by ring]
            exact this
          · rw [if_neg hab, if_neg (Ne.symm hab), zero_add]
            exact this)
        (fun a => by
          simp only [upd]
          by_cases hab : a = b
          · subst hab
            simp only [if_true]
            have := hop a (-1) (.inr rfl)
            rw [neg_one_mul, neg_one_mul, ← sub_eq_add_neg, ← sub_eq_add_neg] at this
            exact this
          · rw [if_neg hab, if_neg hab]
            exact ⟨(hE a).1.trans (by linarith), (hE a).2⟩)
        (by linarith)
      refine ⟨s', g', ?_, k2, fun a => ⟨?_, (k3 a).2⟩, fun a => ?_⟩
      · unfold frun
        rw [hstep]
        exact k1
      · rw [hlen]
        exact (k3 a).1.trans (by linarith)
      · have := k4 a
        simp only [finalOpen, total]
        rw [this]
        simp only [startSum, upd]
        by_cases hab : b = a
        · subst hab
          simp only [if_true]
          push_cast
          ring
        · rw [if_neg hab, if_neg (Ne.symm hab), zero_add]
    | leave i t =>
      obtain ⟨hw1, hw2⟩ := hw
      simp only [Event.now] at *
      cases hf : find o i with
      | none => exact absurd hf hw1
      | some x =>
        obtain ⟨b, t₀⟩ := x
        have hi : s.timer i = some b := by
          have := hr.timers i
          rw [hf] at this
          exact this
        have hstep : fstep rnd den s (.leave i t) = some ⟨upd s.acc b (rnd (s.acc b + conv rnd den t)), upd s.timer i none⟩ := by
          simp only [fstep, hi]
        have hss : ∀ a, (startSum a (o.filter (fun x => x.1 ≠ i)) : ℚ) = startSum a o - (if b = a then (t₀ : ℚ) else 0) := by
          intro a
          rw [startSum_filter hr.nodup hf]
          push_cast
          split <;> simp
        obtain ⟨s', g', k1, k2, k3, k4⟩ := ih ⟨upd s.acc b (rnd (s.acc b + conv rnd den t)), upd s.timer i none⟩ (o.filter (fun x => x.1 ≠ i))
          (upd g b (g b + t / den)) (E + (δ + ε)) (rel_leave hr i (fun _ => 0)) hw2 hn.2 (fun e he' => he e (by simp [he']))
          (fun x hx => ho x (List.mem_filter.1 hx).1)
          (fun m a => by
            have := hA (m + 1) a
            simp only [List.take_succ_cons, total, hf] at this
            rw [hss]
            simp only [upd]
            by_cases hab : b = a
            · subst hab
              simp only [if_true] at this ⊢
              push_cast at this
              refine le_of_eq_of_le (congrArg _ ?_) this
              ring
            · rw [if_neg hab] at this ⊢
              rw [if_neg (Ne.symm hab)]
              push_cast at this
              refine le_of_eq_of_le (congrArg _ ?_) this
              ring)
          (fun a => by
            simp only [upd]
            by_cases hab : a = b
            · subst hab
              simp only [if_true]
              have := hop a 1 (.inl rfl)
              rw [one_mul, one_mul] at this
              exact this
            · rw [if_neg hab, if_neg hab]
              exact ⟨(hE a).1.trans (by linarith), (hE a).2⟩)
          (by linarith)
        refine ⟨s', g', ?_, k2, fun a => ⟨?_, (k3 a).2⟩, fun a => ?_⟩
        · unfold frun
          rw [hstep]
          exact k1
        · rw [hlen]
          exact (k3 a).1.trans (by linarith)
        · have := k4 a
          simp only [finalOpen, total, hf]
          rw [this, hss]
          simp only [upd]
          by_cases hab : b = a
          · subst hab
            simp only [if_true]
            push_cast
            ring
          · rw [if_neg hab, if_neg (Ne.symm hab), if_neg hab]
            push_cast
            ring

/-! ## Rounding -/

theorem isVal_neg {f : Fmt} {y : ℚ} (h : IsVal f y) : IsVal f (-y) := by
  obtain ⟨x, hx⟩ := h
  exact ⟨x, by rw [abs_neg]; exact hx⟩

/-- Numbers with few bits are numbers of the format. -/
theorem isVal_mul {f : Fmt} (hp : 1 ≤ f.p) (m j : ℕ) (hm : m < 2 ^ f.p) (hlo : f.emin + f.p ≤ 1 + j) (hhi : (j : ℤ) ≤ f.emax) (h0 : m = 0 → f.emin ≤ f.emax) :
    IsVal f ((m : ℚ) * 2 ^ j) := by
  by_cases hz : m = 0
  · subst hz
    exact ⟨⟨0, f.emin, Nat.pow_pos (by decide), le_rfl, h0 rfl, .inr rfl⟩, by simp [Mag.val]⟩
  · have hlog : m.log2 < f.p := (Nat.log2_lt hz).2 hm
    refine ⟨⟨m * 2 ^ (f.p - 1 - m.log2), j - (f.p - 1 - m.log2 : ℕ), ?_, by omega, by omega, .inl ?_⟩, ?_⟩
    · have h1 := Nat.lt_log2_self (n := m)
      calc m * 2 ^ (f.p - 1 - m.log2) < 2 ^ (m.log2 + 1) * 2 ^ (f.p - 1 - m.log2) := Nat.mul_lt_mul_of_pos_right h1 (Nat.pow_pos (by decide))
        _ = 2 ^ f.p := by rw [← Nat.pow_add]; congr 1; omega
    · have h1 := Nat.log2_self_le hz
      calc 2 ^ (f.p - 1) = 2 ^ m.log2 * 2 ^ (f.p - 1 - m.log2) := by rw [← Nat.pow_add]; congr 1; omega
        _ ≤ _ := Nat.mul_le_mul_right _ h1
    · unfold Mag.val
      simp only
      rw [abs_of_nonneg (by positivity)]
      push_cast
      rw [mul_assoc, ← zpow_natCast (2 : ℚ) (f.p - 1 - m.log2), ← zpow_add₀ (by norm_num), ← zpow_natCast (2 : ℚ) j]
      congr 2
      ring

/-- Numbers of the format are not changed by rounding. -/
theorem round_val {f : Fmt} {rnd : ℚ → ℚ} (hr : RoundsTo f rnd) {y : ℚ} (h : IsVal f y) (hy : |y| ≤ largest f) : rnd y = y := by
  have := (hr y hy).2 y h
  rw [sub_self, abs_zero] at this
  have := abs_nonpos_iff.1 this
  linarith

theorem largest_ge {f : Fmt} (hmax : 0 ≤ f.emax) : (2 : ℚ) ^ f.p - 1 ≤ largest f := by
  unfold largest
  have h1 : (1 : ℚ) ≤ 2 ^ f.emax := one_le_zpow₀ (by norm_num) hmax
  have h2 : (1 : ℚ) ≤ 2 ^ f.p := one_le_pow₀ (by norm_num)
  nlinarith

/-- Integers of at most `p` bits are not changed by rounding. -/
theorem round_int {f : Fmt} (hp : 1 ≤ f.p) (hlo : f.emin + f.p ≤ 1) (hmax : 0 ≤ f.emax) {rnd : ℚ → ℚ} (hr : RoundsTo f rnd) (z : Int) (hz : z.natAbs < 2 ^ f.p) :
    rnd z = z := by
  have habs : |(z : ℚ)| = (z.natAbs : ℚ) := by
    rw [Nat.cast_natAbs, Int.cast_abs]
  have h1 := isVal_mul hp z.natAbs 0 hz (by simpa using hlo) (by simpa using hmax) (fun _ => by omega)
  rw [pow_zero, mul_one] at h1
  refine round_val hr ?_ ?_
  · obtain ⟨x, hx⟩ := h1
    refine ⟨x, ?_⟩
    rw [habs, ← hx, abs_of_nonneg (by positivity)]
  · rw [habs]
    refine le_trans ?_ (largest_ge hmax)
    have : (z.natAbs : ℚ) + 1 ≤ 2 ^ f.p := by exact_mod_cast hz
    linarith

/-- The error is at most half a unit of the last bit of the power of two above. -/
theorem round_err {f : Fmt} (hp : 1 ≤ f.p) {rnd : ℚ → ℚ} (hr : RoundsTo f rnd) (E : ℤ) (hlo : f.emin + 2 * f.p ≤ E) (hhi : E ≤ f.emax + f.p - 1) {q : ℚ}
    (hq : |q| < (2 : ℚ) ^ E) : |rnd q - q| ≤ (2 : ℚ) ^ (E - f.p) / 2 := by
  have hP : (2 : ℚ) ^ f.p = 2 * 2 ^ (f.p - 1) := by rw [← pow_succ', Nat.sub_add_cancel hp]
  have hlarge : (2 : ℚ) ^ E ≤ largest f := by
    have h1 : (2 : ℚ) ^ E ≤ 2 ^ (f.emax + f.p - 1) := zpow_le_zpow_right₀ (by norm_num) hhi
    have h2 : (2 : ℚ) ^ (f.emax + f.p - 1) = 2 ^ (f.p - 1) * 2 ^ f.emax := by
      rw [← zpow_natCast, ← zpow_add₀ (by norm_num)]; congr 1; omega
    have h3 : (1 : ℚ) ≤ 2 ^ (f.p - 1) := one_le_pow₀ (by norm_num)
    have h4 : (0 : ℚ) < 2 ^ f.emax := zpow_pos (by norm_num) _
    unfold largest
    rw [hP]
    rw [h2] at h1
    nlinarith
  obtain ⟨-, hn⟩ := hr q (hq.le.trans hlarge)
  rw [abs_sub_comm]
  have hemin : f.emin ≤ f.emax := by omega
  by_cases hs : 2 ^ (f.p - 1) * (2 : ℚ) ^ f.emin ≤ |q|
  · obtain ⟨x, e, h1, -, h3⟩ := exists_fl_ulp hp |q| hs (hq.le.trans hlarge)
    have he : e ≤ E - f.p := by
      have h4 : (2 : ℚ) ^ (f.p - 1 + e : ℤ) < 2 ^ E := by
        rw [zpow_add₀ (by norm_num), show ((f.p : ℤ) - 1) = ((f.p - 1 : ℕ) : ℤ) by omega, zpow_natCast]
        exact lt_of_le_of_lt h1 hq
      have := (zpow_lt_zpow_iff_right₀ (by norm_num : (1 : ℚ) < 2)).1 h4
      omega
    have h5 : (2 : ℚ) ^ e ≤ 2 ^ (E - f.p) := zpow_le_zpow_right₀ (by norm_num) he
    have hval : 0 ≤ x.val := mul_nonneg (by positivity) (zpow_pos (by norm_num) _).le
    refine le_trans ?_ (h3.trans (by linarith))
    rcases le_total 0 q with h0 | h0
    · rw [abs_of_nonneg h0]
      exact hn _ ⟨x, abs_of_nonneg hval⟩
    · rw [abs_of_nonpos h0]
      have := hn (-x.val) ⟨x, by rw [abs_neg, abs_of_nonneg hval]⟩
      rw [show |-q - x.val| = |q - -x.val| by rw [← abs_neg]; congr 1; ring]
      exact this
  · have h1 := hn 0 ⟨⟨0, f.emin, Nat.pow_pos (by decide), le_rfl, hemin, .inr rfl⟩, by simp [Mag.val]⟩
    rw [sub_zero] at h1
    refine h1.trans ((not_le.1 hs).le.trans ?_)
    have h2 : (2 : ℚ) ^ (f.p - 1) * 2 ^ f.emin = 2 ^ (f.emin + f.p) / 2 := by
      rw [zpow_add₀ (by norm_num), zpow_natCast, hP]; ring
    rw [h2]
    have : (2 : ℚ) ^ (f.emin + f.p) ≤ 2 ^ (E - f.p) := zpow_le_zpow_right₀ (by norm_num) (by omega)
    linarith

theorem finite_vals (f : Fmt) : {y : ℚ | IsVal f y}.Finite := by
  let S : Finset (ℕ × ℤ × Bool) := Finset.range (2 ^ f.p) ×ˢ Finset.Icc f.emin f.emax ×ˢ Finset.univ
  refine (S.finite_toSet.image fun p => if p.2.2 then -((p.1 : ℚ) * 2 ^ p.2.1) else (p.1 : ℚ) * 2 ^ p.2.1).subset ?_
  rintro y ⟨x, hx⟩
  refine ⟨(x.m, x.e, decide (y < 0)), ?_, ?_⟩
  · simp only [S, Finset.coe_product, Set.mem_prod, Finset.mem_coe, Finset.mem_range, Finset.mem_Icc, Finset.mem_univ, and_true]
    exact ⟨x.lt, x.lo, x.hi⟩
  · show (if decide (y < 0) = true then -x.val else x.val) = y
    rw [← hx]
    by_cases h : y < 0
    · simp [h, abs_of_neg h]
    · simp [h, abs_of_nonneg (not_lt.1 h)]

/-- Such roundings exist. -/
theorem exists_rounding (f : Fmt) (h : f.emin ≤ f.emax) : ∃ rnd, RoundsTo f rnd := by
  have hne : {y : ℚ | IsVal f y}.Nonempty := ⟨0, ⟨0, f.emin, Nat.pow_pos (by decide), le_rfl, h, .inr rfl⟩, by simp [Mag.val]⟩
  have key : ∀ q : ℚ, ∃ v, IsVal f v ∧ ∀ y, IsVal f y → |q - v| ≤ |q - y| := by
    intro q
    obtain ⟨v, h1, h2⟩ := Set.exists_min_image _ (fun y => |q - y|) (finite_vals f) hne
    exact ⟨v, h1, fun y hy => h2 y hy⟩
  choose g hg using key
  exact ⟨g, fun q _ => hg q⟩

/-! ## C64 for floating-point durations -/

theorem fclosed {s : FSt} {es : List Event} (hr : FRel s (finalOpen [] es)) (hc : finalOpen [] es = []) : ∀ i, s.timer i = none := by
  intro i
  have := hr.timers i
  rw [hc] at this
  exact this

/-- C64 for floating-point durations in nanoseconds, exactly: as long as the integers involved have at most `p` bits (24 for `float`, 53 for `double`), nothing is
rounded, whatever the order in which timers are constructed and destroyed. (Clock readings are at most `T`, at most `n` scopes are open at a time, and what
the closed scopes make of the accumulators stays within `A`.) -/
theorem float_nanoseconds_partial {f : Fmt} (hp : 1 ≤ f.p) (hlo : f.emin + f.p ≤ 1) (hmax : 0 ≤ f.emax) {rnd : ℚ → ℚ} (hr : RoundsTo f rnd)
    (T A n : ℕ) (hfit : A + (n + 1) * T < 2 ^ f.p) (acc : Nat → Int) (es : List Event) (hw : WellFormed [] es) (hn : AtMost n [] es)
    (hclosed : finalOpen [] es = []) (ht : ∀ e ∈ es, 0 ≤ e.now ∧ e.now ≤ T) (hA : ∀ m a, (acc a + total a [] (es.take m)).natAbs ≤ A) :
    ∃ s', frun rnd 1 (fstart fun a => acc a) es = some s' ∧ (∀ i, s'.timer i = none) ∧ ∀ a, s'.acc a = acc a + total a [] es := by
  have habs : ∀ z : Int, |(z : ℚ)| = (z.natAbs : ℚ) := fun z => by rw [Nat.cast_natAbs, Int.cast_abs]
  have har : Arith rnd 1 (Int.castAddHom ℚ).range ((2 ^ f.p - 1 : ℕ) : ℚ) 0 T 0 := by
    constructor
    · rintro q ⟨z, rfl⟩ hq
      simp only [Int.coe_castAddHom] at hq ⊢
      rw [habs] at hq
      have hz : z.natAbs < 2 ^ f.p := by
        have h1 : z.natAbs ≤ 2 ^ f.p - 1 := by exact_mod_cast hq
        have := Nat.pow_pos (n := f.p) (show 0 < 2 by decide)
        omega
      rw [round_int hp hlo hmax hr z hz]
      exact ⟨by simp, ⟨z, rfl⟩⟩
    · intro t h0 hT
      have hz : t.natAbs < 2 ^ f.p := by
        have h1 : t ≤ T := by exact_mod_cast hT
        have h2 : T ≤ (n + 1) * T := Nat.le_mul_of_pos_left _ (by omega)
        omega
      simp only [conv, if_true]
      rw [round_int hp hlo hmax hr t hz]
      exact ⟨by simp, ⟨t, rfl⟩⟩
  obtain ⟨s', g', h1, h2, h3, h4⟩ := frun_total har (by decide) (by positivity) le_rfl le_rfl A n es (fstart fun a => acc a) [] (fun a => acc a) 0
    ⟨fun _ => rfl, by simp⟩ hw hn (fun e he => ⟨(ht e he).1, by exact_mod_cast (ht e he).2⟩) (by simp)
    (fun m a => by
      have h := hA m a
      have e1 : (acc a : ℚ) + ((startSum a [] : Int) : ℚ) / ((1 : ℕ) : ℚ) + ((total a [] (es.take m) : Int) : ℚ) / ((1 : ℕ) : ℚ) =
          ((acc a + total a [] (es.take m) : Int) : ℚ) := by
        simp [startSum]
      rw [e1, habs]
      exact_mod_cast h)
    (fun a => ⟨by simp [fstart], ⟨acc a, rfl⟩⟩)
    (by
      have h1 : ((A + (n + 1) * T + 1 : ℕ) : ℚ) ≤ ((2 ^ f.p : ℕ) : ℚ) := by exact_mod_cast hfit
      rw [Nat.cast_sub (Nat.one_le_two_pow)]
      push_cast at h1 ⊢
      linarith)
  refine ⟨s', h1, fclosed h2 hclosed, fun a => ?_⟩
  have h5 := (h3 a).1
  have h6 := h4 a
  rw [hclosed] at h6
  simp only [startSum, add_zero, mul_zero, Int.cast_zero, Nat.cast_one, div_one] at h5 h6
  have := abs_nonpos_iff.1 h5
  linarith

/-- C64 for floating-point durations of any period (of `den` nanoseconds): if clock readings up to `T` are rounded with an error of at most `η` and results are below `2 ^ E`, the error of each construction or
destruction of a timer is at most that of rounding the clock reading, the converted one, and the sum. -/
theorem float_accumulates_error_partial {f : Fmt} (hp : 1 ≤ f.p) {rnd : ℚ → ℚ} (hr : RoundsTo f rnd) (den : ℕ) (hden : 0 < den) (hdv : rnd den = den)
    (E : ℤ) (hE1 : f.emin + 2 * f.p ≤ E) (hE2 : E ≤ f.emax + f.p - 1)
    (T A η : ℚ) (n : ℕ) (hT0 : 0 ≤ T) (hη : 0 ≤ η) (hTη : ∀ t : Int, 0 ≤ t → (t : ℚ) ≤ T → |rnd t - t| ≤ η)
    (acc : Nat → ℚ) (es : List Event) (hw : WellFormed [] es) (hn : AtMost n [] es) (hclosed : finalOpen [] es = [])
    (ht : ∀ e ∈ es, 0 ≤ e.now ∧ (e.now : ℚ) ≤ T) (hA : ∀ m a, |acc a + total a [] (es.take m) / den| ≤ A)
    (hfit : A + (n + 1) * (T / den) + (es.length + 1) * (η / den + (2 : ℚ) ^ (E - f.p)) < (2 : ℚ) ^ E) :
    ∃ s', frun rnd den (fstart acc) es = some s' ∧ (∀ i, s'.timer i = none) ∧
      ∀ a, |s'.acc a - (acc a + total a [] es / den)| ≤ es.length * (η / den + (2 : ℚ) ^ (E - f.p)) := by
  have hd : (0 : ℚ) < den := by exact_mod_cast hden
  have hu : (0 : ℚ) < 2 ^ (E - f.p) := zpow_pos (by norm_num) _
  have hηd : 0 ≤ η / den := by positivity
  have hTd : 0 ≤ T / den := by positivity
  have hA0 : 0 ≤ A := (abs_nonneg _).trans (hA 0 0)
  have hN : (0 : ℚ) ≤ es.length * (η / den + (2 : ℚ) ^ (E - f.p)) := by positivity
  have hn0 : (0 : ℚ) ≤ n * (T / den) := by positivity
  have har : Arith rnd den ⊤ (A + (n + 1) * (T / den) + (es.length + 1) * (η / den + (2 : ℚ) ^ (E - f.p))) ((2 : ℚ) ^ (E - f.p) / 2) T
      (η / den + (2 : ℚ) ^ (E - f.p) / 2) := by
    refine ⟨fun q _ hq => ⟨round_err hp hr E hE1 hE2 (lt_of_le_of_lt hq hfit), trivial⟩, fun t h0 hT => ⟨?_, trivial⟩⟩
    have h1 := abs_le.1 (hTη t h0 hT)
    have h0' : (0 : ℚ) ≤ t := by exact_mod_cast h0
    unfold conv
    by_cases h : den = 1
    · rw [if_pos h, h, Nat.cast_one, div_one, div_one, abs_le]
      constructor <;> linarith [h1.1, h1.2]
    · rw [if_neg h, hdv]
      have h2 : |rnd t / den - t / den| ≤ η / den := by
        rw [← sub_div, abs_div, abs_of_pos hd]
        exact div_le_div_of_nonneg_right (hTη t h0 hT) hd.le
      have h3 : (t : ℚ) / den ≤ T / den := div_le_div_of_nonneg_right hT hd.le
      have h4 : 0 ≤ (t : ℚ) / den := div_nonneg h0' hd.le
      have h2' := abs_le.1 h2
      have h5 : |rnd t / den| < (2 : ℚ) ^ E := by
        rw [abs_lt]
        constructor <;> nlinarith [h2'.1, h2'.2]
      have h6 := abs_le.1 (round_err hp hr E hE1 hE2 h5)
      rw [abs_le]
      constructor <;> linarith [h6.1, h6.2, h2'.1, h2'.2]
  obtain ⟨s', g', h1, h2, h3, h4⟩ := frun_total har hden hT0 (by positivity) (by positivity) A n es (fstart acc) [] acc 0
    ⟨fun _ => rfl, by simp⟩ hw hn ht (by simp)
    (fun m a => by simpa [startSum] using hA m a)
    (fun a => ⟨by simp [fstart], trivial⟩)
    (by linarith)
  refine ⟨s', h1, fclosed h2 hclosed, fun a => ?_⟩
  have h5 := (h3 a).1
  have h6 := h4 a
  rw [hclosed] at h6
  simp only [startSum, Int.cast_zero, zero_div, add_zero] at h6
  rw [h6, zero_add] at h5
  refine h5.trans (le_of_eq ?_)
  ring

/-- C64 for `std::chrono::duration<double>` (seconds): up to 52 days after the clock started, with at most two scopes open at a time, accumulators up to 10⁶
seconds and less than 2⁴⁰ events, an accumulator is off by less than two nanoseconds per construction or destruction of a timer. -/
theorem double_seconds_partial {rnd : ℚ → ℚ} (hr : RoundsTo binary64 rnd) (acc : Nat → ℚ) (es : List Event) (hw : WellFormed [] es) (hn : AtMost 2 [] es)
    (hclosed : finalOpen [] es = []) (ht : ∀ e ∈ es, 0 ≤ e.now ∧ e.now ≤ 2 ^ 52) (hA : ∀ m a, |acc a + total a [] (es.take m) / (10 ^ 9 : ℕ)| ≤ 10 ^ 6)
    (hlen : es.length < 2 ^ 40) :
    ∃ s', frun rnd (10 ^ 9) (fstart acc) es = some s' ∧ (∀ i, s'.timer i = none) ∧
      ∀ a, |s'.acc a - (acc a + total a [] es / (10 ^ 9 : ℕ))| ≤ es.length * (2 / 10 ^ 9) := by
  have hint : ∀ z : Int, z.natAbs < 2 ^ 53 → rnd z = z := fun z hz => round_int (by decide) (by decide) (by decide) hr z hz
  have hdv : rnd ((10 ^ 9 : ℕ) : ℚ) = ((10 ^ 9 : ℕ) : ℚ) := by
    have := hint (10 ^ 9) (by norm_num)
    push_cast at this ⊢
    exact this
  have hl : (es.length : ℚ) < 2 ^ 40 := by exact_mod_cast hlen
  have hl0 : (0 : ℚ) ≤ es.length := by positivity
  have hu : (2 : ℚ) ^ ((24 : ℤ) - (binary64.p : ℤ)) = 1 / 2 ^ 29 := by
    show (2 : ℚ) ^ ((24 : ℤ) - 53) = _
    norm_num
  obtain ⟨s', h1, h2, h3⟩ := float_accumulates_error_partial (f := binary64) (by decide) hr (10 ^ 9) (by positivity) hdv 24 (by decide) (by decide)
    (2 ^ 52) (10 ^ 6) 0 2 (by positivity) le_rfl
    (fun t h0 hT => by
      have h1 : t ≤ 2 ^ 52 := by exact_mod_cast hT
      rw [hint t (by omega)]
      simp)
    acc es hw hn hclosed (fun e he => ⟨(ht e he).1, by exact_mod_cast (ht e he).2⟩) hA
    (by
      rw [hu]
      norm_num
      linarith)
  refine ⟨s', h1, h2, fun a => (h3 a).trans ?_⟩
  rw [hu]
  refine mul_le_mul_of_nonneg_left ?_ hl0
  norm_num

/-- Two overlapping scopes and a nested one meet the hypotheses, and roundings exist. -/
example : let es : List Event := [.enter 0 7 1000, .enter 1 7 1010, .leave 0 1050, .leave 1 1100]
    WellFormed [] es ∧ AtMost 2 [] es ∧ finalOpen [] es = [] ∧ (∀ e ∈ es, 0 ≤ e.now ∧ e.now ≤ 2 ^ 52) ∧ total 7 [] es = 140 ∧ ∃ rnd, RoundsTo binary64 rnd := by
  refine ⟨by simp [WellFormed, find], by simp [AtMost], by decide, by decide, by decide, exists_rounding _ (by decide)⟩

end Guanaqo.Timed
