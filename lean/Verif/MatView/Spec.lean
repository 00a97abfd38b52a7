import Verif.MatView.Model

/-!
# Specification vocabulary for `MatrixView`

These definitions say what the English properties mean; they do not use the loops of the
model.
-/

namespace Guanaqo.MatView

variable {α : Type}

/-- `(r, c)` is the position of an element of the view. -/
def View.HasElem (v : View) (r c : Int) : Prop := 0 ≤ r ∧ r < v.rows ∧ 0 ≤ c ∧ c < v.cols

/-- Address `a` is that of an element of the view satisfying `p`. -/
def View.IsElemAddr (v : View) (p : Int → Int → Prop) (a : Int) : Prop :=
  ∃ r c, v.HasElem r c ∧ p r c ∧ a = v.data + r * v.inner + c * v.outer

/-- Every element of the view is a valid memory location. -/
def View.Backed (v : View) (m : Mem α) : Prop :=
  ∀ r c, v.HasElem r c → ∃ x, m (v.data + r * v.inner + c * v.outer) = some x

/-- Memory `m'` is `m` with `x` written to exactly the addresses in `S`. -/
def WroteExactly (S : Int → Prop) (x : α) (m m' : Mem α) : Prop :=
  ∀ a, (S a → m' a = some x) ∧ (¬ S a → m' a = m a)

/-- `m'` is `m` with element `(r, c)` of the view changed to `f r c` for every element, and
no other location changed. -/
def View.ElemsBecome (v : View) (f : Int → Int → α) (m m' : Mem α) : Prop :=
  (∀ r c, v.HasElem r c → m' (v.data + r * v.inner + c * v.outer) = some (f r c)) ∧
  (∀ a, ¬ v.IsElemAddr (fun _ _ => True) a → m' a = m a)

/-- Distinct elements of the view live at distinct addresses. -/
def View.Injective (v : View) : Prop :=
  ∀ r c r' c', v.HasElem r c → v.HasElem r' c' →
    v.data + r * v.inner + c * v.outer = v.data + r' * v.inner + c' * v.outer → r = r' ∧ c = c'

/-- The positions in a triangle. -/
def Triangular.Contains : Triangular → Int → Int → Prop
  | .lower, r, c => c ≤ r
  | .strictlyLower, r, c => c < r
  | .upper, r, c => r ≤ c
  | .strictlyUpper, r, c => r < c

/-- The value held at element `(r, c)` in memory `m` is `x`. -/
def View.Holds (v : View) (m : Mem α) (r c : Int) (x : α) : Prop :=
  m (v.data + r * v.inner + c * v.outer) = some x

/-- Outputs of a stateful generator: state after `k` calls. -/
def genState {σ : Type} (gen : σ → α × σ) (g : σ) : Nat → σ
  | 0 => g
  | k + 1 => (gen (genState gen g k)).2

/-- The `k`-th value produced (counting from 0). -/
def genValue {σ : Type} (gen : σ → α × σ) (g : σ) (k : Nat) : α := (gen (genState gen g k)).1

end Guanaqo.MatView
