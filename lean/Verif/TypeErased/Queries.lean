import Verif.TypeErased.Props

/-!
# C143: what a wrapper says about its content

`bool(w)`, `get_allocator()`, `owns_referenced_object()` and `referenced_object_is_const()`, after any allowed program.
-/

namespace Guanaqo.TypeErased

variable {V : Type} {cfg : Cfg}

/-- type-erasure.hpp:485, `get_allocator()`. -/
def getAllocator (w : Nat) : M V Nat := do
  let W ← getW w
  pure W.alloc

/-- The wrapper holds an object of its own. -/
def Content.isOwned : Content V → Bool
  | .owned .. => true
  | _ => false

/-- The wrapper holds a reference to a const object. -/
def Content.isConstRef : Content V → Bool
  | .ref _ c _ => c
  | _ => false

/-- The wrapper holds something. -/
def Content.isSome : Content V → Bool
  | .empty => false
  | _ => true

/-- C143. After every allowed program each live wrapper converts to true exactly if it holds something and returns the allocator that it was given;
and if it holds something, `owns_referenced_object()` tells whether the object is its own or only referred to, and
`referenced_object_is_const()` whether it is referred to as const. The calls change nothing. -/
theorem tells_content (ok : cfg.Ok) (ext : Nat → Obj V) {ops : List (Op V)}
    {os : List (Except Exn (Obs V))} {a : World V} (h : Run cfg (World.init ext) ops os (some a))
    {w al : Nat} {c : Content V} (hw : a.wr w = some ⟨al, c⟩) :
    ∃ s, exec cfg ops (St.init ext) = (os, .inr s) ∧
      (hasValue w).run s = .ok c.isSome s ∧
      (getAllocator w).run s = .ok al s ∧
      (c.isSome = true → (ownsReferenced w).run s = .ok c.isOwned s ∧ (referencedConst w).run s = .ok c.isConstRef s) := by
  obtain ⟨s, he, C, hc, ha, hx⟩ := run_end ok h
  obtain ⟨m, hm, hal, hheld⟩ := ha.live w _ hw
  obtain ⟨W, gW, hW, hmW⟩ := getW_ok hc hm
  dsimp only at hal hheld
  refine ⟨s, he, ?_, ?_, ?_⟩
  · unfold hasValue
    rw [bind_ok gW]
    have hcell := hmW.cell
    cases c with
    | empty => rw [show m.cell = .empty from hheld] at hcell; rw [hcell.1]; rfl
    | owned t v own =>
      rw [hheld.1] at hcell
      rcases hcell with ⟨-, h1, -⟩ | ⟨-, -, b, h1, -⟩ <;> rw [h1] <;> rfl
    | ref e c own => rw [hheld.1] at hcell; rw [hcell.1]; rfl
  · unfold getAllocator
    rw [bind_ok gW, hmW.alloc, hal]
    rfl
  · intro hs
    unfold ownsReferenced referencedConst
    rw [bind_ok gW, bind_ok gW, hmW.size]
    cases c with
    | empty => cases hs
    | owned t v own =>
      rw [hheld.2.1, owns_of_lt (ok.2 t), not_const_of_lt (ok.2 t)]
      exact ⟨rfl, rfl⟩
    | ref e c own =>
      rw [hheld.2.1, owns_ref]
      refine ⟨rfl, ?_⟩
      cases c <;> rfl

/-- A wrapper that was just default constructed owns nothing in particular: it is not const and not a reference. -/
theorem tells_default (w al : Nat) (ext : Nat → Obj V) :
    ∃ s, exec cfg [.default w al] (St.init ext) = ([.ok .unit], .inr s) ∧ (hasValue w).run s = .ok false s ∧
      (ownsReferenced w).run s = .ok true s ∧ (referencedConst w).run s = .ok false s := by
  have hex : ∃ s, exec cfg [.default w al] (St.init ext) = ([.ok .unit], .inr s) ∧ s.wr w = some { alloc := al } := by
    refine ⟨_, rfl, ?_⟩
    simp [St.init]
  obtain ⟨s, h1, h2⟩ := hex
  have gW : (getW w).run s = .ok { alloc := al } s := by simp [getW, h2]
  refine ⟨s, h1, ?_, ?_, ?_⟩
  · unfold hasValue; rw [bind_ok gW]; rfl
  · unfold ownsReferenced; rw [bind_ok gW]; rfl
  · unfold referencedConst; rw [bind_ok gW]; rfl

/-- What is not claimed: a wrapper that has become empty goes on telling what it held before. This one held a const reference, an empty wrapper was
assigned to it, and `get_pointer()` throws instead of returning null. -/
example : ∃ s, (exec exCfg [.ref 0 3 7 true {}, .default 1 3, .copyAssign 0 1 {}] (St.init exExt)).2 = .inr s ∧
    (hasValue 0).run s = .ok false s ∧ (referencedConst 0).run s = .ok true s ∧ (getPointer 0).run s = .thrown .badTypeErasedConstness s :=
  ⟨_, rfl, rfl, rfl, rfl⟩

/-- An owned large value, a const reference, a mutable one moved to another wrapper, and an empty one. -/
example : ∃ os a, Run exCfg (World.init exExt)
    [.value 0 3 1 42 {}, .ref 1 4 7 true {}, .ref 2 5 8 false {}, .move 3 2] os (some a) ∧
    (∃ c, a.wr 0 = some ⟨3, c⟩ ∧ c.isSome = true ∧ c.isOwned = true) ∧ (∃ c, a.wr 1 = some ⟨4, c⟩ ∧ c.isConstRef = true) ∧
    (∃ c, a.wr 3 = some ⟨5, c⟩ ∧ c.isSome = true ∧ c.isOwned = false ∧ c.isConstRef = false) ∧ ∃ c, a.wr 2 = some ⟨5, c⟩ ∧ c.isSome = false :=
  ⟨_, _, .done rfl (.done rfl (.done rfl (.done rfl (.nil _)))), ⟨_, rfl, rfl, rfl⟩, ⟨_, rfl, rfl⟩, ⟨_, rfl, rfl, rfl, rfl⟩, ⟨_, rfl, rfl⟩⟩

end Guanaqo.TypeErased
