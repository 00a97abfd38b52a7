import Verif.TypeErased.Props

/-!
# Alignment of contained objects (C81)

The small buffer is aligned for `std::max_align_t` (type-erasure.hpp:229), that is to 16 bytes (x86-64).
Blocks come from an allocator for `std::byte` (`SmallBufferSize` and `Allocator`, 219-220; the call:
564), which promises memory aligned for bytes only; how far its blocks are aligned is the parameter
`guarantee` (1 for what the allocator requirements promise, 16 for `std::allocator`).
-/

namespace Guanaqo.TypeErased

variable {V : Type} {cfg : Cfg}

/-- Addresses of small buffers and blocks. -/
structure Layout (guarantee : Nat) where
  addr : Ptr → Nat
  small : ∀ w, 16 ∣ addr (.small w)
  heap : ∀ b, guarantee ∣ addr (.heap b)

/-- The value owned by `w` is at an address that is a multiple of the alignment of its type. -/
def Aligned {g : Nat} (L : Layout g) (alignOf : Nat → Nat) (s : St V) (w t : Nat) : Prop :=
  ∃ W, s.wr w = some W ∧ alignOf t ∣ L.addr W.self

/-- C81, in full: contained objects are aligned, for every allocator and every type. -/
def AlwaysAligned (guarantee : Nat) : Prop :=
  ∀ (V : Type) (cfg : Cfg), cfg.Ok → ∀ (L : Layout guarantee) (alignOf : Nat → Nat),
    (∀ t, alignOf t ∣ cfg.sizeOf t ∧ ∃ k, alignOf t = 2 ^ k) →
    ∀ (ext : Nat → Obj V) (ops : List (Op V)) (os : List (Except Exn (Obs V))) (a : World V),
    Run cfg (World.init ext) ops os (some a) →
    ∀ s, (exec cfg ops (St.init ext)).2 = .inr s →
    ∀ w al t v, a.Owns w al t v → Aligned L alignOf s w t

def exLayout (g x : Nat) (h : g ∣ x) : Layout g where
  addr | .heap _ => x
       | _ => 16
  small _ := Nat.dvd_refl 16
  heap _ := h

/-- False for allocators that only do what they promise: a block of bytes may start anywhere. -/
theorem not_alwaysAligned_bytes : ¬ AlwaysAligned 1 := by
  intro h
  obtain ⟨W, h1, h2⟩ := h Nat exCfg exCfg_ok (exLayout 1 3 (by decide)) (fun _ => 8)
    (fun t => ⟨by dsimp only [exCfg]; split <;> decide, 3, rfl⟩) exExt [.value 0 3 1 42 {}] _ _
    (.done rfl (.nil _)) _ rfl 0 3 1 42 ⟨_, rfl⟩
  cases h1
  revert h2
  show ¬ 8 ∣ 3
  decide

/-- False for `std::allocator` too, for types aligned to 32 bytes. -/
theorem not_alwaysAligned_16 : ¬ AlwaysAligned 16 := by
  intro h
  have hok : Cfg.Ok { exCfg with sizeOf := fun _ => 64 } := ⟨fun _ => show 0 < 64 by decide, fun _ => show 64 < 2 ^ 63 by decide⟩
  obtain ⟨W, h1, h2⟩ := h Nat { exCfg with sizeOf := fun _ => 64 } hok (exLayout 16 16 (by decide))
    (fun _ => 32) (fun t => ⟨show 32 ∣ 64 by decide, 5, rfl⟩) exExt [.value 0 3 1 42 {}] _ _
    (.done rfl (.nil _)) _ rfl 0 3 1 42 ⟨_, rfl⟩
  cases h1
  revert h2
  show ¬ 32 ∣ 16
  decide

/-- C81, what holds: after every allowed program, a contained object is aligned if its alignment is at
most that of `std::max_align_t` and, if it does not fit the small buffer, at most what the blocks of
the allocator have. Missing: other types and allocators. -/
theorem aligned_partial (ok : cfg.Ok) {g : Nat} (L : Layout g) (alignOf : Nat → Nat)
    (ext : Nat → Obj V) {ops : List (Op V)} {os : List (Except Exn (Obs V))} {a : World V}
    (h : Run cfg (World.init ext) ops os (some a)) {s : St V}
    (hs : (exec cfg ops (St.init ext)).2 = .inr s) {w al t : Nat} {v : V} (ho : a.Owns w al t v)
    (h16 : alignOf t ∣ 16) (hg : cfg.NeedsHeap t → alignOf t ∣ g) : Aligned L alignOf s w t := by
  obtain ⟨s', he, hr⟩ := run_end ok h
  rw [he] at hs; cases hs
  obtain ⟨W, hW, hc⟩ := rep_owned hr ho
  refine ⟨W, hW, ?_⟩
  rcases hc with ⟨_, h1, _⟩ | ⟨hn, _, b, h1, _⟩
  · rw [h1]; exact Nat.dvd_trans h16 (L.small w)
  · rw [h1]; exact Nat.dvd_trans (hg hn) (L.heap b)

/-- C81, exactly: the objects of a type are aligned, in all allowed programs and wherever the small buffers and the blocks are, if and only if
its alignment divides that of the small buffer (if it is kept there) or that which the blocks of the allocator have (otherwise). -/
theorem aligned_iff (ok : cfg.Ok) (g : Nat) (alignOf : Nat → Nat) (ext : Nat → Obj V) (t : Nat) (v0 : V) :
    (∀ (L : Layout g) (ops : List (Op V)) (os : List (Except Exn (Obs V))) (a : World V), Run cfg (World.init ext) ops os (some a) →
      ∀ s, (exec cfg ops (St.init ext)).2 = .inr s → ∀ w al v, a.Owns w al t v → Aligned L alignOf s w t) ↔
    ((cfg.NeedsHeap t → alignOf t ∣ g) ∧ (¬ cfg.NeedsHeap t → alignOf t ∣ 16)) := by
  constructor
  · intro h
    let L : Layout g := ⟨fun p => match p with | .heap _ => g | _ => 16, fun _ => Nat.dvd_refl 16, fun _ => Nat.dvd_refl g⟩
    have hrun : Run cfg (World.init ext) [.value 0 0 t v0 {}] [.ok .unit]
        (some ((World.init ext).set 0 (some ⟨0, .owned t v0 (cfg.own t fun _ => ({} : Throws).provides 0)⟩))) := by
      refine .done ?_ (.nil _)
      have : storeThrows cfg t ({} : Throws).alloc (({} : Throws).ctor || ({} : Throws).vtable) = none := by
        unfold storeThrows; simp
      simp only [spec, World.init, this]
    have howns : World.Owns ((World.init ext).set 0 (some ⟨0, .owned t v0 (cfg.own t fun _ => ({} : Throws).provides 0)⟩)) 0 0 t v0 :=
      ⟨_, by simp [World.set]; rfl⟩
    obtain ⟨s, he, hr⟩ := run_end ok hrun
    obtain ⟨W, hW, hal⟩ := h L _ _ _ hrun s (by rw [he]) 0 0 v0 howns
    obtain ⟨W', hW', hc⟩ := rep_owned hr howns
    rw [hW] at hW'
    cases hW'
    rcases hc with ⟨hn, h1, _⟩ | ⟨hn, _, b, h1, _⟩
    · rw [h1] at hal
      exact ⟨fun h => absurd h hn, fun _ => hal⟩
    · rw [h1] at hal
      exact ⟨fun _ => hal, fun h => absurd hn h⟩
  · rintro ⟨hg, h16⟩ L ops os a h s hs w al v ho
    obtain ⟨s', he, hr⟩ := run_end ok h
    rw [he] at hs; cases hs
    obtain ⟨W, hW, hc⟩ := rep_owned hr ho
    refine ⟨W, hW, ?_⟩
    rcases hc with ⟨hn, h1, _⟩ | ⟨hn, _, b, h1, _⟩
    · rw [h1]; exact Nat.dvd_trans (h16 hn) (L.small w)
    · rw [h1]; exact Nat.dvd_trans (hg hn) (L.heap b)

example : ∃ os a s, Run exCfg (World.init exExt) [.value 0 3 1 42 {}] os (some a) ∧
    (exec exCfg [.value 0 3 1 42 {}] (St.init exExt)).2 = .inr s ∧ a.Owns 0 3 1 42 ∧ 8 ∣ 16 :=
  ⟨_, _, _, .done rfl (.nil _), rfl, ⟨_, rfl⟩, by decide⟩

end Guanaqo.TypeErased
