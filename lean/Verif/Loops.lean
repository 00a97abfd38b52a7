import Verif.Base

/-!
# Equational lemmas on loops
-/

namespace Guanaqo

@[simp] theorem res_ok_bind {β γ : Type} (x : β) (f : β → Res γ) :
    ((Except.ok x : Res β) >>= f) = f x := rfl

@[simp] theorem res_error_bind {β γ : Type} (e : Fault) (f : β → Res γ) :
    ((Except.error e : Res β) >>= f) = .error e := rfl

@[simp] theorem res_pure {β : Type} (x : β) : (pure x : Res β) = .ok x := rfl

theorem res_bind_ok {β γ : Type} {x : Res β} {f : β → Res γ} {z : γ} :
    (x >>= f) = .ok z ↔ ∃ y, x = .ok y ∧ f y = .ok z := by
  cases x with
  | ok y => simp
  | error e => simp

theorem res_bind_assoc {α β γ : Type} (x : Res α) (f : α → Res β) (g : β → Res γ) :
    ((x >>= f) >>= g) = x >>= (fun y => f y >>= g) := by
  cases x <;> rfl

/-- The integers `lo, …, hi - 1`. -/
def rangeI (lo hi : Int) : List Int := (List.range (hi - lo).toNat).map (fun k : Nat => lo + k)

theorem mem_rangeI {lo hi x : Int} : x ∈ rangeI lo hi ↔ lo ≤ x ∧ x < hi := by
  simp only [rangeI, List.mem_map, List.mem_range]
  constructor
  · rintro ⟨k, hk, rfl⟩; omega
  · rintro ⟨h1, h2⟩; exact ⟨(x - lo).toNat, by omega, by omega⟩

theorem rangeI_length (lo hi : Int) : (rangeI lo hi).length = (hi - lo).toNat := by
  simp [rangeI]

theorem rangeI_zero (n : Nat) : rangeI 0 n = (List.range n).map (fun k : Nat => (k : Int)) := by
  simp [rangeI]

theorem rangeI_pairwise (lo hi : Int) : (rangeI lo hi).Pairwise (· < ·) := by
  rw [rangeI, List.pairwise_map]
  exact List.pairwise_lt_range.imp (by intro a b h; omega)

theorem forLoop_eq_foldlM {σ : Type} (body : Int → σ → Res σ) (lo : Int) (n : Nat) (s : σ) :
    forLoop body lo n s
      = ((List.range n).map (fun k : Nat => lo + k)).foldlM (fun s i => body i s) s := by
  induction n generalizing lo s with
  | zero => rfl
  | succ n ih =>
    rw [List.range_succ_eq_map, forLoop]
    simp only [List.map_cons, List.foldlM_cons, List.map_map]
    have h0 : lo + ((0 : Nat) : Int) = lo := by omega
    rw [h0]
    congr 1
    funext s'
    rw [ih]
    congr 1
    apply List.map_congr_left
    intro k _
    simp only [Function.comp]; omega

theorem forRange_eq_foldlM {σ : Type} (lo hi : Int) (body : Int → σ → Res σ) (s : σ) :
    forRange lo hi body s = (rangeI lo hi).foldlM (fun s i => body i s) s :=
  forLoop_eq_foldlM body lo _ s

theorem foldlM_append' {α σ : Type} (f : σ → α → Res σ) (l₁ l₂ : List α) (s : σ) :
    (l₁ ++ l₂).foldlM f s = l₁.foldlM f s >>= fun s' => l₂.foldlM f s' := by
  rw [List.foldlM_append]

theorem foldlM_flatMap' {α β σ : Type} (f : σ → β → Res σ) (g : α → List β) (l : List α) (s : σ) :
    (l.flatMap g).foldlM f s = l.foldlM (fun s a => (g a).foldlM f s) s := by
  induction l generalizing s with
  | nil => rfl
  | cons a l ih =>
    rw [List.flatMap_cons, foldlM_append', List.foldlM_cons]
    congr 1
    funext s'
    exact ih s'

theorem foldlM_map' {α β σ : Type} (f : σ → β → Res σ) (g : α → β) (l : List α) (s : σ) :
    (l.map g).foldlM f s = l.foldlM (fun s a => f s (g a)) s := by
  induction l generalizing s with
  | nil => rfl
  | cons a l ih =>
    rw [List.map_cons, List.foldlM_cons, List.foldlM_cons]
    congr 1
    funext s'
    exact ih s'

theorem foldlM_congr {α σ : Type} {f g : σ → α → Res σ} {l : List α}
    (h : ∀ a ∈ l, ∀ s, f s a = g s a) (s : σ) : l.foldlM f s = l.foldlM g s := by
  induction l generalizing s with
  | nil => rfl
  | cons a l ih =>
    rw [List.foldlM_cons, List.foldlM_cons, h a (by simp)]
    congr 1
    funext s'
    exact ih (fun b hb => h b (by simp [hb])) s'

/-- A fold whose state carries a counter equal to the loop variable. -/
theorem foldlM_counter {σ : Type} (h : Nat → Nat → σ → Res σ) (n a : Nat) (w : σ) :
    (List.range' a n).foldlM
        (fun (s : Nat × σ) i => (h i s.1 s.2) >>= fun w => Except.ok (s.1 + 1, w)) (a, w)
      = ((List.range' a n).foldlM (fun w i => h i i w) w) >>= fun w => Except.ok (a + n, w) := by
  induction n generalizing a w with
  | zero => rfl
  | succ n ih =>
    rw [List.range'_succ, List.foldlM_cons, List.foldlM_cons, res_bind_assoc, res_bind_assoc]
    congr 1
    funext w'
    rw [res_ok_bind, ih]
    congr 1
    funext w''
    congr 2; omega

end Guanaqo
