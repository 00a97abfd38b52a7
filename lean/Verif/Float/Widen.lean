import Verif.Float.RoundTrip
import Verif.Float.Elems

/-! # Conversion to a wider floating-point format -/

namespace Guanaqo.Float

open Guanaqo.Duration (Text)

/-- The numbers of `f` are numbers of `g`. -/
structure Fmt.Sub (f g : Fmt) : Prop where
  p : f.p ≤ g.p
  lo : g.emin ≤ f.emin
  hi : f.p + f.emax ≤ g.p + g.emax
  range : g.emin ≤ g.emax
  pos : 1 ≤ f.p

theorem x87_sub : x87.Sub binary128 := by constructor <;> decide
theorem binary64_sub : binary64.Sub binary128 := by constructor <;> decide

/-- How far the significand moves to the left. -/
def shift (g : Fmt) (m : ℕ) (e : ℤ) : ℕ := min (g.p - (Nat.log2 m + 1)) (e - g.emin).toNat

/-- `static_cast` from one floating-point type to another that can represent the value ([conv.double]: the value does not change). -/
def widen {f g : Fmt} (h : f.Sub g) (x : Mag f) : Mag g :=
  if h0 : x.m = 0 then ⟨0, g.emin, by positivity, le_refl _, h.range, .inr rfl⟩
  else
    have hlog : 2 ^ Nat.log2 x.m ≤ x.m := Nat.log2_self_le h0
    have hlog' : x.m < 2 ^ (Nat.log2 x.m + 1) := Nat.lt_log2_self
    have hL : Nat.log2 x.m + 1 ≤ f.p := by
      have : 2 ^ Nat.log2 x.m < 2 ^ f.p := lt_of_le_of_lt hlog x.lt
      have := (Nat.pow_lt_pow_iff_right (by decide : 1 < 2)).1 this
      omega
    have hp := h.p
    have hk : shift g x.m x.e ≤ g.p - (Nat.log2 x.m + 1) := Nat.min_le_left _ _
    have hk' : shift g x.m x.e ≤ (x.e - g.emin).toNat := Nat.min_le_right _ _
    ⟨x.m * 2 ^ shift g x.m x.e, x.e - shift g x.m x.e,
     by
      calc x.m * 2 ^ shift g x.m x.e < 2 ^ (Nat.log2 x.m + 1) * 2 ^ shift g x.m x.e := by
            exact Nat.mul_lt_mul_of_pos_right hlog' (by positivity)
        _ = 2 ^ (Nat.log2 x.m + 1 + shift g x.m x.e) := (Nat.pow_add ..).symm
        _ ≤ 2 ^ g.p := Nat.pow_le_pow_right (by decide) (by omega),
     by have := x.lo; have := h.lo; omega,
     by
      have h1 := x.hi; have h2 := h.hi; have h3 := h.range; have h4 := x.lo; have h5 := h.lo
      have : shift g x.m x.e = g.p - (Nat.log2 x.m + 1) ∨ shift g x.m x.e = (x.e - g.emin).toNat := by
        unfold shift; omega
      omega,
     by
      have h4 := x.lo; have h5 := h.lo
      have : shift g x.m x.e = g.p - (Nat.log2 x.m + 1) ∨ shift g x.m x.e = (x.e - g.emin).toNat := by
        unfold shift; omega
      rcases this with hs | hs
      · left
        calc 2 ^ (g.p - 1) = 2 ^ (Nat.log2 x.m + shift g x.m x.e) := by congr 1; omega
          _ = 2 ^ Nat.log2 x.m * 2 ^ shift g x.m x.e := Nat.pow_add ..
          _ ≤ x.m * 2 ^ shift g x.m x.e := Nat.mul_le_mul_right _ hlog
      · right; omega⟩

theorem widen_val {f g : Fmt} (h : f.Sub g) (x : Mag f) : (widen h x).val = x.val := by
  unfold widen
  split
  · rename_i h0
    simp [Mag.val, h0]
  · simp only [Mag.val]
    push_cast
    rw [zpow_sub₀ (by norm_num), zpow_natCast]
    have : (2 : ℚ) ^ shift g x.m x.e ≠ 0 := by positivity
    field_simp

/-- The conversion of all values. -/
def castUp {f g : Fmt} (h : f.Sub g) : Fl f → Fl g
  | .fin n x => .fin n (widen h x)
  | .inf n => .inf n
  | .nan n => .nan n


/-- Through the wider format, the texts are texts of the narrower one. -/
theorem writes_narrow {f g : Fmt} (hsub : f.Sub g) {sci : Fl g → ℕ → Text} (hw : Writes sci) : Writes (fun (v : Fl f) prec => sci (castUp hsub v) prec) where
  zero neg x prec h := hw.zero neg (widen hsub x) prec (by rw [widen_val, h])
  fin neg x prec h := by
    have := hw.fin neg (widen hsub x) prec (by rw [widen_val]; exact h)
    rw [widen_val] at this
    exact this
  inf := hw.inf
  nan := hw.nan

theorem binary32_sub : binary32.Sub binary64 := by constructor <;> decide

end Guanaqo.Float
