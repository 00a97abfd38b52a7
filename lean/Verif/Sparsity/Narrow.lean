import Verif.Sparsity.PropsCoo

/-!
# C109: conversions to a narrower index type

The converters cast every index to the type asked for (sparsity-conversions.hpp:361-385), without looking at its value.
-/

namespace Guanaqo.Sparsity

/-- C109, full statement: a conversion of the index type that succeeds keeps the positions of the entries. -/
def NarrowingSafe : Prop :=
  ∀ (dbg : Bool) (IFrom ITo : IntTy) (s sp : COO) (req : Option Int), s.Wf → CooToCoo.construct dbg IFrom ITo s req = .ok sp → sp.positions = s.positions

theorem IntTy.cast_fits (I : IntTy) (x : Int) : I.fits (I.cast x) := by
  have h1 := Int.le_bmod (x := x) (m := 2 ^ I.bits) (by positivity)
  have h2 := Int.bmod_lt (x := x) (m := 2 ^ I.bits) (by positivity)
  cases I <;> simp only [IntTy.fits, IntTy.cast, IntTy.bits] at h1 h2 ⊢ <;> omega

theorem IntTy.cast_eq_iff (I : IntTy) (x : Int) : I.cast x = x ↔ I.fits x :=
  ⟨fun h => h ▸ I.cast_fits x, IntTy.cast_eq⟩

theorem cvtIdx_zero (I : IntTy) (l : List Int) : CooToCoo.cvtIdx I 0 l = .ok (l.map I.cast) := by
  refine mapM_ok fun x _ => ?_
  have := I.cast_fits x
  rw [IntTy.add_ok] <;> simp [this]

theorem map_sub_eq_iff (g : Int → Int) (b : Int) (l l' : List Int) (hl : l.length = l'.length) :
    ((l.map g).zip (l'.map g)).map (fun p => (p.1 - b, p.2 - b)) = (l.zip l').map (fun p => (p.1 - b, p.2 - b)) ↔
      (∀ x ∈ l, g x = x) ∧ ∀ x ∈ l', g x = x := by
  induction l generalizing l' with
  | nil => cases l' with
    | nil => simp
    | cons _ _ => simp at hl
  | cons a l ih => cases l' with
    | nil => simp at hl
    | cons a' l' =>
      simp only [List.map_cons, List.zip_cons_cons, List.cons.injEq, Prod.mk.injEq, List.mem_cons, forall_eq_or_imp]
      rw [ih l' (by simpa using hl)]
      constructor
      · rintro ⟨⟨h1, h2⟩, h3, h4⟩
        exact ⟨⟨by omega, h3⟩, by omega, h4⟩
      · rintro ⟨⟨h1, h3⟩, h2, h4⟩
        exact ⟨⟨by omega, by omega⟩, h3, h4⟩

/-- C109: without assertions, the conversion of the index type always succeeds when the index base fits the new type, and keeps the positions exactly if all indices
fit it. -/
theorem narrowing_iff_partial (IFrom ITo : IntTy) (hne : IFrom ≠ ITo) (s : COO) (hwf : s.Wf) (hbase : ITo.fits s.firstIndex) :
    ∃ sp, CooToCoo.construct false IFrom ITo s none = .ok sp ∧ sp.rows = s.rows ∧ sp.cols = s.cols ∧
      (sp.positions = s.positions ↔ (∀ r ∈ s.rowIndices, ITo.fits r) ∧ ∀ c ∈ s.colIndices, ITo.fits c) := by
  have hl := hwf.same_length
  have hconv : CooToCoo.convertSparsity false IFrom ITo s none =
      .ok { s with rowIndices := s.rowIndices.map ITo.cast, colIndices := s.colIndices.map ITo.cast } := by
    rw [CooToCoo.convertSparsity, CooToCoo.delta, res_ok_bind, if_neg (fun h => hne h.1), CooToCoo.shift, COO.nnz_ok hl, res_ok_bind, castSz_nat, res_ok_bind,
      cvtIdx_zero, res_ok_bind, cvtIdx_zero, res_ok_bind]
    simp [IntTy.cast_eq hbase]
  refine ⟨{ s with rowIndices := s.rowIndices.map ITo.cast, colIndices := s.colIndices.map ITo.cast }, ?_, rfl, rfl, ?_⟩
  · rw [CooToCoo.construct, hconv, res_ok_bind]
    rfl
  · unfold COO.positions
    dsimp only
    rw [map_sub_eq_iff _ _ _ _ hl]
    simp only [IntTy.cast_eq_iff]

/-- C109 is false: an index that does not fit becomes another, in builds with assertions too. -/
theorem not_narrowingSafe : ¬ NarrowingSafe := by
  intro h
  have := h true .long .int ⟨4294967297, 1, .unsymmetric, [4294967296], [0], .unsorted, 0⟩ _ none
    ⟨by decide, by decide, rfl, by decide, by decide⟩ narrowing_wraps
  exact absurd this (by decide)

/-- What this does to the entries: in a build without assertions two entries can even become one position. -/
theorem narrowing_merges :
    ∃ sp, CooToCoo.construct false .long .int ⟨4294967297, 1, .unsymmetric, [0, 4294967296], [0, 0], .unsorted, 0⟩ none = .ok sp ∧
      sp.positions = [(0, 0), (0, 0)] := ⟨_, rfl, by decide⟩

/-- Non-vacuity of `narrowing_iff_partial`: both sides of the equivalence occur. -/
example : IntTy.fits .int exampleCoo.firstIndex ∧ (∀ r ∈ exampleCoo.rowIndices, IntTy.fits .int r) ∧ ¬ IntTy.fits .int 4294967296 := by
  decide

end Guanaqo.Sparsity
