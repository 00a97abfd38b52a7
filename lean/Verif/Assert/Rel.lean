import Verif.Sparsity.Model
import Verif.Loops

/-!
# Debug and release builds (C115): the relation between the two outcomes

`NDEBUG` removes the assertions (`assert`, also `GUANAQO_ASSERT`). The models take a parameter `dbg` for it.
-/

namespace Guanaqo

/-- C115: every regular outcome of the build with assertions (a result or an exception) is the outcome of the build without them, and the build without
assertions reports no failing assertion. -/
def OnlyChecks {α : Type} (debug release : Res α) : Prop :=
  (∀ x, debug = .ok x → release = .ok x) ∧ (∀ e, debug = .error (.throw e) → release = .error (.throw e)) ∧
  release ≠ .error .assertFail

namespace Assert

/-- The debug build stops (an assertion fails, or evaluating it is undefined), or the outcomes are related. In any case the release build reports no
failing assertion, and its results are in the range of the relation. -/
inductive Rel {α : Type} (R : α → α → Prop) : Res α → Res α → Prop where
  | stop {r : Res α} : r ≠ .error .assertFail → (∀ y, r = .ok y → ∃ x, R x y) → Rel R (.error .assertFail) r
  | undef {r : Res α} : r ≠ .error .assertFail → (∀ y, r = .ok y → ∃ x, R x y) → Rel R (.error .ub) r
  | ok {x y : α} : R x y → Rel R (.ok x) (.ok y)
  | throw {e : Exn} : Rel R (.error (.throw e)) (.error (.throw e))

theorem Rel.noAssert {α : Type} {R : α → α → Prop} {d r : Res α} (h : Rel R d r) : r ≠ .error .assertFail := by
  cases h <;> first | assumption | simp

theorem Rel.range {α : Type} {R : α → α → Prop} {d r : Res α} (h : Rel R d r) {y : α} (hy : r = .ok y) : ∃ x, R x y := by
  cases h with
  | stop h h' => exact h' y hy
  | undef h h' => exact h' y hy
  | ok h => cases hy; exact ⟨_, h⟩
  | throw => cases hy

theorem Rel.bind {α β : Type} {R : α → α → Prop} {S : β → β → Prop} {d r : Res α} {f g : α → Res β} (h : Rel R d r)
    (hf : ∀ x y, R x y → Rel S (f x) (g y)) : Rel S (d >>= f) (r >>= g) := by
  have hr : ∀ r : Res α, r ≠ .error .assertFail → (∀ y, r = .ok y → ∃ x, R x y) →
      (r >>= g) ≠ .error .assertFail ∧ ∀ z, (r >>= g) = .ok z → ∃ x, S x z := by
    intro r hr hr'
    cases r with
    | error e =>
      refine ⟨by simpa using hr, fun z hz => ?_⟩
      cases hz
    | ok y =>
      obtain ⟨x, hx⟩ := hr' y rfl
      exact ⟨(hf x y hx).noAssert, fun z hz => (hf x y hx).range hz⟩
  cases h with
  | stop h h' => exact .stop (hr _ h h').1 (hr _ h h').2
  | undef h h' => exact .undef (hr _ h h').1 (hr _ h h').2
  | ok h => exact hf _ _ h
  | throw => exact .throw

/-- Only-checks for equal results. -/
abbrev Le {α : Type} (d r : Res α) : Prop := Rel Eq d r

theorem Le.onlyChecks {α : Type} {d r : Res α} (h : Le d r) : OnlyChecks d r := by
  cases h with
  | stop h _ => exact ⟨by simp, by simp, h⟩
  | undef h _ => exact ⟨by simp, by simp, h⟩
  | ok h => subst h; exact ⟨fun x h => h, by simp, by simp⟩
  | throw => exact ⟨by simp, fun e h => h, by simp⟩

theorem le_stop {α : Type} {r : Res α} (h : r ≠ .error .assertFail) : Le (.error .assertFail) r := .stop h fun y _ => ⟨y, rfl⟩

theorem le_undef {α : Type} {r : Res α} (h : r ≠ .error .assertFail) : Le (.error .ub) r := .undef h fun y _ => ⟨y, rfl⟩

theorem Le.refl {α : Type} {r : Res α} (h : r ≠ .error .assertFail) : Le r r := by
  match r with
  | .ok x => exact .ok rfl
  | .error .ub => exact le_undef (by simp)
  | .error .assertFail => exact absurd rfl h
  | .error (.throw e) => exact .throw

theorem le_ok {α : Type} (x : α) : Le (.ok x) (.ok x) := .ok rfl
theorem le_throw {α : Type} (e : Exn) : Le (.error (.throw e) : Res α) (.error (.throw e)) := .throw
theorem le_ub {α : Type} : Le (.error .ub : Res α) (.error .ub) := le_undef (by simp)

theorem Le.bind {α β : Type} {d r : Res α} {f g : α → Res β} (h : Le d r) (hf : ∀ x, Le (f x) (g x)) : Le (d >>= f) (r >>= g) :=
  Rel.bind h (fun x y e => by subst e; exact hf x)

theorem Le.seq {α β : Type} {d r : Res α} {f g : Res β} (h : Le d r) (hf : Le f g) : Le (d >>= fun _ => f) (r >>= fun _ => g) :=
  Le.bind h (fun _ => hf)

theorem le_ite {α : Type} {c : Prop} [Decidable c] {a b a' b' : Res α} (h : Le a a') (h' : Le b b') :
    Le (if c then a else b) (if c then a' else b') := by
  split <;> assumption

theorem le_forLoop {σ : Type} {f g : Int → σ → Res σ} (h : ∀ i s, Le (f i s) (g i s)) :
    ∀ (n : Nat) (lo : Int) (s : σ), Le (forLoop f lo n s) (forLoop g lo n s)
  | 0, _, s => le_ok s
  | n + 1, lo, s => by
    simp only [forLoop]
    exact Le.bind (h lo s) (fun s' => le_forLoop h n (lo + 1) s')

theorem le_forRange {σ : Type} {f g : Int → σ → Res σ} (h : ∀ i s, Le (f i s) (g i s)) (lo hi : Int) (s : σ) :
    Le (forRange lo hi f s) (forRange lo hi g s) := le_forLoop h _ _ _

theorem le_foldlM {α σ : Type} {f g : σ → α → Res σ} (h : ∀ s a, Le (f s a) (g s a)) :
    ∀ (l : List α) (s : σ), Le (l.foldlM f s) (l.foldlM g s)
  | [], s => le_ok s
  | a :: l, s => by
    simp only [List.foldlM_cons]
    exact Le.bind (h s a) (fun s' => le_foldlM h l s')

theorem le_mapM {α β : Type} {f g : α → Res β} (h : ∀ a, Le (f a) (g a)) : ∀ l : List α, Le (l.mapM f) (l.mapM g)
  | [] => le_ok _
  | a :: l => by
    simp only [List.mapM_cons]
    exact Le.bind (h a) (fun b => Le.bind (le_mapM h l) (fun bs => le_ok _))

open Sparsity

theorem le_assertM (x : Res Bool) (hx : ∀ e, x ≠ .error (.throw e)) : Le (assertM true x) (assertM false x) := by
  match x with
  | .ok true => exact le_ok _
  | .ok false => exact le_stop (by simp [assertM])
  | .error .ub => exact le_undef (by simp [assertM])
  | .error .assertFail => exact le_stop (by simp [assertM])
  | .error (.throw e) => exact absurd rfl (hx e)

theorem le_assert (b : Bool) : Le (assertM true (.ok b)) (assertM false (.ok b)) := le_assertM _ (by simp)

theorem le_castSz (i : Int) : Le (castSz true i) (castSz false i) := by
  unfold castSz
  split
  · exact le_ok _
  · exact le_stop (by simp)

theorem le_rd {α : Type} (l : List α) (i : Nat) : Le (rd l i) (rd l i) := by
  unfold rd
  split
  · exact le_ok _
  · exact le_ub

theorem le_wr {α : Type} (l : List α) (i : Nat) (v : α) : Le (wr l i v) (wr l i v) := by
  unfold wr
  exact le_ite (le_ok _) le_ub

theorem le_add (I : IntTy) (x y : Int) : Le (I.add x y) (I.add x y) := by
  unfold IntTy.add
  exact le_ite (le_ok _) le_ub

theorem le_sub (I : IntTy) (x y : Int) : Le (I.sub x y) (I.sub x y) := by
  unfold IntTy.sub
  exact le_ite (le_ok _) le_ub

end Assert

end Guanaqo
