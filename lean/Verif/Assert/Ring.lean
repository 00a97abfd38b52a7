import Verif.Assert.Rel
import Verif.Ring.Machine

/-! # Debug and release builds of the circular iterators (C115) -/

namespace Guanaqo.Ring

open Guanaqo.Assert

theorem le_build_assert (t : ITy) (b : Bool) : Le ((⟨t, true⟩ : Build).assert b) ((⟨t, false⟩ : Build).assert b) := by
  cases b
  · exact le_stop (by simp [Build.assert])
  · exact le_ok _

theorem le_plus (t : ITy) (a d : Int) : Le (t.plus a d) (t.plus a d) := by
  refine Le.refl ?_
  unfold ITy.plus ITy.arith chk
  split
  · split <;> simp
  · simp

theorem le_minc (t : ITy) (it : Iter) : Le (it.minc ⟨t, true⟩) (it.minc ⟨t, false⟩) :=
  Le.seq (le_build_assert t _) <| Le.bind (le_plus _ _ _) fun _ => Le.bind (le_plus _ _ _) fun _ => le_ok _

theorem le_mdec (t : ITy) (it : Iter) : Le (it.mdec ⟨t, true⟩) (it.mdec ⟨t, false⟩) :=
  Le.seq (le_build_assert t _) <| Le.bind (le_plus _ _ _) fun _ => Le.bind (le_plus _ _ _) fun _ => le_ok _

theorem le_step (t : ITy) (it : Iter) (o : Op) : Le (o.step ⟨t, true⟩ it) (o.step ⟨t, false⟩ it) := by
  cases o
  · exact Le.bind (le_minc _ _) fun _ => le_ok _
  · exact Le.bind (le_minc _ _) fun _ => le_ok _
  · exact Le.bind (le_mdec _ _) fun _ => le_ok _
  · exact Le.bind (le_mdec _ _) fun _ => le_ok _

theorem le_run (t : ITy) (os : List Op) : ∀ it, Le (Op.run ⟨t, true⟩ os it) (Op.run ⟨t, false⟩ os it) := by
  induction os with
  | nil => exact fun it => le_ok _
  | cons o os ih => exact fun it => Le.bind (le_step _ _ _) fun r => Le.bind (ih r.2) fun _ => le_ok _

theorem le_rminc (t : ITy) (it : RIter) : Le (it.minc ⟨t, true⟩) (it.minc ⟨t, false⟩) := Le.bind (le_mdec _ _) fun _ => le_ok _
theorem le_rmdec (t : ITy) (it : RIter) : Le (it.mdec ⟨t, true⟩) (it.mdec ⟨t, false⟩) := Le.bind (le_minc _ _) fun _ => le_ok _

theorem le_rstep (t : ITy) (it : RIter) (o : Op) : Le (o.rstep ⟨t, true⟩ it) (o.rstep ⟨t, false⟩ it) := by
  cases o
  · exact Le.bind (le_rminc _ _) fun _ => le_ok _
  · exact Le.bind (le_rminc _ _) fun _ => le_ok _
  · exact Le.bind (le_rmdec _ _) fun _ => le_ok _
  · exact Le.bind (le_rmdec _ _) fun _ => le_ok _

theorem le_rrun (t : ITy) (os : List Op) : ∀ it, Le (Op.rrun ⟨t, true⟩ os it) (Op.rrun ⟨t, false⟩ os it) := by
  induction os with
  | nil => exact fun it => le_ok _
  | cons o os ih => exact fun it => Le.bind (le_rstep _ _ _) fun r => Le.bind (ih r.2) fun _ => le_ok _

theorem le_meqv (t : ITy) (a b : Iter) : Le (a.meqv ⟨t, true⟩ b) (a.meqv ⟨t, false⟩ b) := Le.seq (le_build_assert t _) (le_ok _)

/-- **C115**, circular iterators: whatever a sequence of operations on an iterator (in any state), a dereference or a comparison gives in the debug build,
it gives in the release build. -/
theorem ring_only_check (t : ITy) (os : List Op) (it it' : Iter) (rit : RIter) :
    OnlyChecks (Op.run ⟨t, true⟩ os it) (Op.run ⟨t, false⟩ os it) ∧
    OnlyChecks (Op.rrun ⟨t, true⟩ os rit) (Op.rrun ⟨t, false⟩ os rit) ∧
    OnlyChecks (rit.mderef ⟨t, true⟩) (rit.mderef ⟨t, false⟩) ∧
    OnlyChecks (it.meqv ⟨t, true⟩ it') (it.meqv ⟨t, false⟩ it') :=
  ⟨(le_run t os it).onlyChecks, (le_rrun t os rit).onlyChecks, (Le.bind (le_mdec _ _) fun _ => le_ok _).onlyChecks, (le_meqv t it it').onlyChecks⟩

/-- **C115**, **C24**: comparing iterators of ranges of different circumference fails the assertion; otherwise, or without assertions, the comparison says
whether the iterators are the same number of steps from the beginning. -/
theorem ring_compare (c : Build) (a b : Iter) :
    (a.max ≠ b.max → a.eqv b = .error .assertFail ∧ (c.asserts = true → a.meqv c b = .error .assertFail)) ∧
    (a.max = b.max → a.eqv b = .ok (decide (a.i.zerobased = b.i.zerobased))) ∧
    (a.max = b.max ∨ c.asserts = false → a.meqv c b = .ok (decide (a.i.zerobased = b.i.zerobased))) := by
  refine ⟨fun h => ⟨?_, fun hc => ?_⟩, fun h => ?_, fun h => ?_⟩
  · unfold Iter.eqv; rw [decide_eq_false h]; rfl
  · unfold Iter.meqv Build.assert; rw [decide_eq_false h, hc]; rfl
  · unfold Iter.eqv; rw [decide_eq_true h]; rfl
  · unfold Iter.meqv Build.assert
    rcases h with h | h
    · rw [decide_eq_true h]
      cases c.asserts <;> rfl
    · rw [h]; rfl

/-- The difference: stepping past the end. -/
example : Op.run ⟨⟨32, true⟩, true⟩ [.preInc] ⟨⟨3, 1⟩, 3⟩ = .error .assertFail ∧
    Op.run ⟨⟨32, true⟩, false⟩ [.preInc] ⟨⟨3, 1⟩, 3⟩ = .ok ([⟨4, 2⟩], ⟨⟨4, 2⟩, 3⟩) := by decide +kernel

example : (⟨⟨2, 1⟩, 3⟩ : Iter).eqv ⟨⟨2, 1⟩, 4⟩ = .error .assertFail ∧
    (⟨⟨2, 1⟩, 3⟩ : Iter).meqv ⟨⟨32, true⟩, false⟩ ⟨⟨2, 1⟩, 4⟩ = .ok true := by decide +kernel

end Guanaqo.Ring
