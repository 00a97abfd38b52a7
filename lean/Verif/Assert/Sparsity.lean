import Verif.Assert.Rel
import Verif.Sparsity.Variant
import Verif.Sparsity.EigenSparse

/-!
# Debug and release builds (C115): sparsity patterns and their conversions
-/

namespace Guanaqo.Assert

open Guanaqo.Sparsity

variable {T : Type}

/-- Steps through a program that does the same in both builds, up to assertions. -/
macro "le_step" : tactic => `(tactic| first
  | exact le_ok _ | exact le_throw _ | exact le_ub | exact le_assert _ | exact le_castSz _ | exact le_rd _ _ | exact le_wr _ _ _
  | exact le_add _ _ _ | exact le_sub _ _ _ | assumption
  | (apply le_forRange; intro _ _) | (apply le_foldlM; intro _ _) | (apply le_mapM; intro _)
  | (apply Le.bind <;> [skip; intro _]) | apply le_ite)

macro "le_auto" : tactic => `(tactic| repeat' le_step)

theorem le_noThrow_unique (outer inner : List Int) (e : Exn) : checkUniquenessCsc outer inner ≠ .error (.throw e) := by
  unfold checkUniquenessCsc
  have : ∀ l : List (Int × Int), ∀ e, (l.mapM (fun p => isUniqueCol inner p.1 p.2) : Res (List Bool)) ≠ .error (.throw e) := by
    intro l
    induction l with
    | nil => intro e h; cases h
    | cons a l ih =>
      intro e
      simp only [List.mapM_cons]
      unfold isUniqueCol
      split
      · simp only [res_ok_bind]
        generalize hm : (l.mapM fun p => if 0 ≤ p.1 ∧ p.1 ≤ p.2 ∧ p.2 ≤ (inner.length : Int) then
          (.ok (noAdjacentEqual ((inner.take p.2.toNat).drop p.1.toNat)) : Res Bool) else .error .ub) = m
        intro h
        cases m with
        | ok x => cases h
        | error f =>
          simp only [res_error_bind] at h
          cases h
          exact ih e hm
      · simp
  intro h
  cases hm : ((outer.zip outer.tail).mapM (fun p => isUniqueCol inner p.1 p.2) : Res (List Bool)) with
  | ok x => rw [hm] at h; cases h
  | error f =>
    rw [hm, res_error_bind] at h
    cases h
    exact this _ _ hm

theorem le_unique (outer inner : List Int) :
    Le (assertM true (checkUniquenessCsc outer inner)) (assertM false (checkUniquenessCsc outer inner)) :=
  le_assertM _ (le_noThrow_unique outer inner)

theorem le_cscNnz (s : CSC) : Le (s.nnz true) (s.nnz false) := by
  unfold CSC.nnz
  refine Le.bind (le_assert _) fun _ => Le.bind (le_assertM _ ?_) fun _ => le_ok _
  intro e
  split <;> simp

theorem le_cooNnz (s : COO) : Le (s.nnz true) (s.nnz false) := by
  unfold COO.nnz
  le_auto

theorem le_checkSquare (sym : Symmetry) (r c : Int) : Le (checkSquare sym r c) (checkSquare sym r c) := by
  unfold checkSquare
  exact le_ite (le_throw _) (le_ok _)

theorem le_checkTriangle (sym : Symmetry) (r c : Int) : Le (checkTriangle sym r c) (checkTriangle sym r c) := by
  cases sym <;> simp only [checkTriangle] <;> le_auto

theorem le_writeW (rows r c : Int) (v : T) (w : List T) : Le (writeW true rows r c v w) (writeW false rows r c v w) := by
  unfold writeW
  le_auto

theorem le_placeEntry (sym : Symmetry) (rows r c : Int) (v : T) (w : List T) :
    Le (placeEntry true sym rows r c v w) (placeEntry false sym rows r c v w) := by
  cases sym <;> simp only [placeEntry]
  · exact le_writeW _ _ _ _ _
  all_goals exact Le.bind (le_writeW _ _ _ _ _) fun _ => le_writeW _ _ _ _ _

theorem le_denseValues (sp : Dense) (vals work : List T) :
    Le (DenseToDense.convertValues true sp vals work) (DenseToDense.convertValues false sp vals work) := by
  unfold DenseToDense.convertValues
  le_auto

theorem le_workSize (sp : Dense) : Le (CscToDense.workSize true sp) (CscToDense.workSize false sp) := by
  unfold CscToDense.workSize
  le_auto

theorem le_cscToDense (s : CSC) : Le (CscToDense.construct true s) (CscToDense.construct false s) := by
  unfold CscToDense.construct
  exact Le.bind (le_unique _ _) fun _ => Le.bind (le_checkSquare _ _ _) fun _ => le_ok _

theorem le_cscToDenseValues (zero : T) (s : CSC) (sp : Dense) (vals work : List T) :
    Le (CscToDense.convertValues zero true s sp vals work) (CscToDense.convertValues zero false s sp vals work) := by
  unfold CscToDense.convertValues
  refine Le.bind (le_cscNnz s) fun _ => Le.bind (le_assert _) fun _ => Le.bind (le_workSize _) fun _ => Le.bind (le_assert _) fun _ =>
    Le.bind (le_forRange (fun c st => ?_) _ _ _) fun _ => le_ok _
  unfold CscToDense.outerBody
  refine Le.bind (le_castSz _) fun _ => Le.bind (le_rd _ _) fun _ => Le.bind (le_rd _ _) fun _ => le_forRange (fun i st => ?_) _ _ _
  unfold CscToDense.innerBody
  exact Le.bind (le_castSz _) fun _ => Le.bind (le_rd _ _) fun _ => Le.bind (le_checkTriangle _ _ _) fun _ => Le.bind (le_rd _ _) fun _ =>
    Le.bind (le_placeEntry _ _ _ _ _ _) fun _ => le_ok _

theorem le_cooToDense (s : COO) : Le (CooToDense.construct true s) (CooToDense.construct false s) := by
  unfold CooToDense.construct
  exact Le.bind (le_assert _) fun _ => Le.bind (le_checkSquare _ _ _) fun _ => le_ok _

theorem le_cooToDenseValues (zero : T) (I : IntTy) (s : COO) (sp : Dense) (vals work : List T) :
    Le (CooToDense.convertValues zero true I s sp vals work) (CooToDense.convertValues zero false I s sp vals work) := by
  unfold CooToDense.convertValues
  refine Le.bind (le_cooNnz s) fun _ => Le.bind (le_assert _) fun _ => Le.bind (le_workSize _) fun _ => Le.bind (le_assert _) fun _ =>
    Le.bind (le_forRange (fun l st => ?_) _ _ _) fun _ => le_ok _
  unfold CooToDense.body
  exact Le.bind (le_rd _ _) fun _ => Le.bind (le_sub _ _ _) fun _ => Le.bind (le_rd _ _) fun _ => Le.bind (le_sub _ _ _) fun _ =>
    Le.bind (le_checkTriangle _ _ _) fun _ => Le.bind (le_rd _ _) fun _ => le_placeEntry _ _ _ _ _ _

theorem le_denseToCoo (I : IntTy) (d : Dense) (req : Option Int) :
    Le (DenseToCoo.construct true I d req) (DenseToCoo.construct false I d req) := by
  have hi : ∀ Δ cols hi nnz, Le (DenseToCoo.indices I Δ cols hi nnz) (DenseToCoo.indices I Δ cols hi nnz) := by
    intro Δ cols hi nnz
    unfold DenseToCoo.indices
    refine le_forRange (fun c s => le_forRange (fun r s => ?_) _ _ _) _ _ _
    unfold DenseToCoo.body
    le_auto
  unfold DenseToCoo.construct
  dsimp only
  cases d.symmetry <;> dsimp only
  · exact Le.bind (le_castSz _) fun _ => Le.bind (le_castSz _) fun _ => Le.bind (hi _ _ _ _) fun _ => le_ok _
  · exact le_ite (le_throw _) (Le.bind (le_castSz _) fun _ => Le.bind (le_castSz _) fun _ => Le.bind (hi _ _ _ _) fun _ => le_ok _)
  · exact le_throw _
  · exact le_throw _

theorem le_packBody (rows : Int) (vals : List T) (c : Int) (s : Nat × List T) :
    Le (DenseToCoo.packBody true rows vals c s) (DenseToCoo.packBody false rows vals c s) := by
  unfold DenseToCoo.packBody DenseToCoo.copyBackward
  le_auto

theorem le_denseToCooValues (sp : COO) (vals work : List T) :
    Le (DenseToCoo.convertValues true sp vals work) (DenseToCoo.convertValues false sp vals work) := by
  unfold DenseToCoo.convertValues
  refine Le.bind (le_castSz _) fun _ => Le.bind (le_assert _) fun _ => Le.bind (le_cooNnz _) fun _ => Le.bind (le_assert _) fun _ => ?_
  cases sp.symmetry <;> dsimp only
  · exact le_ok _
  · exact Le.bind (le_forRange (le_packBody _ _) _ _ _) fun _ => le_ok _
  · exact le_throw _
  · exact le_throw _

theorem le_cscToCoo (I : IntTy) (s : CSC) (req : Option Int) :
    Le (CscToCoo.construct true I s req) (CscToCoo.construct false I s req) := by
  unfold CscToCoo.construct
  refine Le.bind ?_ fun _ => Le.bind (le_assert _) fun _ => le_ok _
  unfold CscToCoo.convertSparsity
  dsimp only
  refine Le.bind (le_cscNnz _) fun _ => Le.bind (le_castSz _) fun _ => Le.bind (le_forRange (fun c st => ?_) _ _ _) fun _ => le_ok _
  unfold CscToCoo.outerBody
  refine Le.bind (le_castSz _) fun _ => Le.bind (le_rd _ _) fun _ => Le.bind (le_rd _ _) fun _ => le_forRange (fun i st => ?_) _ _ _
  unfold CscToCoo.innerBody
  le_auto

theorem le_cooValues (sp : COO) (vals work : List T) :
    Le (CscToCoo.convertValues true sp vals work) (CscToCoo.convertValues false sp vals work) := by
  unfold CscToCoo.convertValues
  exact Le.bind (le_cooNnz _) fun _ => Le.bind (le_castSz _) fun _ => Le.bind (le_assert _) fun _ => le_ok _

theorem le_cooToCoo (IFrom ITo : IntTy) (s : COO) (req : Option Int) :
    Le (CooToCoo.construct true IFrom ITo s req) (CooToCoo.construct false IFrom ITo s req) := by
  have hd : Le (CooToCoo.delta ITo s req) (CooToCoo.delta ITo s req) := by
    unfold CooToCoo.delta
    split
    · exact le_ok _
    · exact le_sub _ _ _
  unfold CooToCoo.construct
  refine Le.bind ?_ fun _ => Le.bind (le_assert _) fun _ => le_ok _
  unfold CooToCoo.convertSparsity
  refine Le.bind hd fun Δ => le_ite (le_ok _) ?_
  unfold CooToCoo.shift CooToCoo.cvtIdx
  refine Le.bind (le_cooNnz _) fun _ => ?_
  le_auto

theorem le_cscConvValues (cv : CscConv) (vals work : List T) : Le (cv.convertValues true vals work) (cv.convertValues false vals work) := by
  unfold CscConv.convertValues
  refine Le.bind (le_cscNnz _) fun _ => Le.bind (le_castSz _) fun _ => Le.bind (le_assert _) fun _ => Le.bind (le_assert _) fun _ =>
    le_ite (le_ok _) (Le.bind (le_forRange (fun i st => ?_) _ _ _) fun _ => le_ok _)
  unfold permBody
  le_auto

theorem le_ccs (std : StdLib) (IFrom I J : IntTy) (rows cols inner outer : List Int) (idx0 : Int) :
    Le (convertTripletsToCcs std true IFrom I J rows cols inner outer idx0) (convertTripletsToCcs std false IFrom I J rows cols inner outer idx0) := by
  unfold convertTripletsToCcs cvtRows ccsOuter
  le_auto

theorem le_cooToCsc (std : StdLib) (IFrom ITo J : IntTy) (s : COO) (req : Option CscOrder) :
    Le (CooToCsc.construct std true IFrom ITo J s req) (CooToCsc.construct std false IFrom ITo J s req) := by
  have ho : Le (CooToCsc.chooseOrder req s.order) (CooToCsc.chooseOrder req s.order) := by
    unfold CooToCsc.chooseOrder
    cases s.order <;> dsimp only <;> le_auto
  unfold CooToCsc.construct
  refine Le.bind ?_ fun _ => Le.bind (le_unique _ _) fun _ => le_ok _
  unfold CooToCsc.convertSparsity
  dsimp only
  exact Le.bind ho fun _ => Le.bind (le_cooNnz _) fun _ => Le.bind (le_castSz _) fun _ => Le.bind (le_assert _) fun _ =>
    Le.bind (le_castSz _) fun _ => Le.bind (le_ccs _ _ _ _ _ _ _ _ _) fun _ => le_ok _

theorem le_cscToCsc (std : StdLib) (IFrom JFrom ITo JTo : IntTy) (s : CSC) (req : Option CscOrder) :
    Le (CscToCsc.construct std true IFrom JFrom ITo JTo s req) (CscToCsc.construct std false IFrom JFrom ITo JTo s req) := by
  have ho : Le (CscToCsc.chooseOrder req s.order) (CscToCsc.chooseOrder req s.order) := by
    unfold CscToCsc.chooseOrder
    cases s.order <;> dsimp only <;> le_auto
  unfold CscToCsc.construct
  refine Le.bind ?_ fun _ => Le.bind (le_unique _ _) fun _ => le_ok _
  unfold CscToCsc.convertSparsity
  refine Le.bind ho fun o => Le.bind ?_ fun _ => le_ok _
  unfold CscToCsc.convertIndices
  dsimp only
  refine le_ite (Le.bind ?_ fun _ => le_ok _) (le_ok _)
  unfold sortRowsCsc sortColumn
  le_auto

theorem le_denseToCsc (I J : IntTy) (d : Dense) : Le (DenseToCsc.construct true I J d) (DenseToCsc.construct false I J d) := by
  have hi : ∀ cols hi nnz, Le (DenseToCsc.indices true I J cols hi nnz) (DenseToCsc.indices false I J cols hi nnz) := by
    intro cols hi nnz
    unfold DenseToCsc.indices DenseToCsc.outerBody DenseToCsc.innerBody
    le_auto
  unfold DenseToCsc.construct
  dsimp only
  cases d.symmetry <;> dsimp only
  · exact Le.bind (le_castSz _) fun _ => Le.bind (le_castSz _) fun _ => Le.bind (hi _ _ _) fun _ => le_ok _
  · exact le_ite (le_throw _) (Le.bind (le_castSz _) fun _ => Le.bind (hi _ _ _) fun _ => le_ok _)
  · exact le_throw _
  · exact le_throw _

theorem le_denseToCscValues (sp : CSC) (vals work : List T) :
    Le (DenseToCsc.convertValues true sp vals work) (DenseToCsc.convertValues false sp vals work) := by
  unfold DenseToCsc.convertValues
  refine Le.bind (le_castSz _) fun _ => Le.bind (le_assert _) fun _ => Le.bind (le_cscNnz _) fun _ => Le.bind (le_assert _) fun _ => ?_
  cases sp.symmetry <;> dsimp only
  · exact le_ok _
  · exact Le.bind (le_forRange (le_packBody _ _) _ _ _) fun _ => le_ok _
  · exact le_stop (by simp)
  · exact le_stop (by simp)

/-! ## Any pattern -/

/-- The converters of the two builds: the same pattern, and the same values up to assertions. -/
structure ConvRel (d r : AnyConv T) : Prop where
  sparsity : d.sparsity = r.sparsity
  workSize : Le d.workSize r.workSize
  nnzFrom : Le d.nnzFrom r.nnzFrom
  run : ∀ vals work, Le (d.run vals work) (r.run vals work)

theorem convert_rel (zero : T) (std : StdLib) (p : Pattern) (t : Target) :
    Rel ConvRel (convert zero std true p t) (convert zero std false p t) := by
  have key : ∀ {α : Type} {d r : Res α} {f g : α → AnyConv T}, Le d r → (∀ x, ConvRel (f x) (g x)) →
      Rel ConvRel (d >>= fun x => .ok (f x)) (r >>= fun x => .ok (g x)) := fun h hf =>
    Rel.bind h (fun x y e => by subst e; exact .ok (hf x))
  have hself : ∀ (d : Dense), Le (DenseToDense.construct d) (DenseToDense.construct d) := by
    intro d
    unfold DenseToDense.construct
    exact Le.bind (le_checkSquare _ _ _) fun _ => le_ok _
  match p, t with
  | .dense d, .dense => exact key (hself d) fun sp => ⟨rfl, le_ok _, le_ok _, le_denseValues sp⟩
  | .csc _ _ s, .dense => exact key (le_cscToDense s) fun sp => ⟨rfl, le_workSize _, le_cscNnz _, le_cscToDenseValues zero s sp⟩
  | .coo I s, .dense => exact key (le_cooToDense s) fun sp => ⟨rfl, le_workSize _, le_cooNnz _, le_cooToDenseValues zero I s sp⟩
  | .dense d, .coo I f =>
    exact key (le_denseToCoo I d f) fun sp => ⟨rfl, Le.bind (le_cooNnz _) fun _ => le_ok _, le_ok _, le_denseToCooValues sp⟩
  | .csc _ _ s, .coo I f => exact key (le_cscToCoo I s f) fun sp => ⟨rfl, le_ok _, le_cooNnz _, le_cooValues sp⟩
  | .coo I' s, .coo I f => exact key (le_cooToCoo I' I s f) fun sp => ⟨rfl, le_ok _, le_cooNnz _, le_cooValues sp⟩
  | .dense d, .csc I J _ =>
    exact key (le_denseToCsc I J d) fun sp => ⟨rfl, Le.bind (le_cscNnz _) fun _ => le_ok _, le_ok _, le_denseToCscValues sp⟩
  | .csc I' J' s, .csc I J o =>
    exact key (le_cscToCsc std I' J' I J s o) fun cv => ⟨rfl, le_ok _, le_cscNnz _, le_cscConvValues cv⟩
  | .coo I' s, .csc I J o =>
    exact key (le_cooToCsc std I' I J s o) fun cv => ⟨rfl, le_ok _, le_cscNnz _, le_cscConvValues cv⟩

/-- C115: a conversion of a pattern (the new pattern), of its values (`convert_values` into any spans, `convert_values_copy`, `convert_values_into`), and
the number of nonzeros, for every standard library, every pattern, valid or not, and all values: assertions only check. -/
theorem conversions_only_check (zero : T) (std : StdLib) (p : Pattern) (t : Target) (vals work result : List T) (evaluator : Nat → List T) :
    OnlyChecks (getNnz true p) (getNnz false p) ∧
    OnlyChecks (do let c ← convert zero std true p t; .ok c.sparsity) (do let c ← convert zero std false p t; .ok c.sparsity) ∧
    OnlyChecks (do let c ← convert zero std true p t; c.workSize) (do let c ← convert zero std false p t; c.workSize) ∧
    OnlyChecks (do let c ← convert zero std true p t; c.run vals work) (do let c ← convert zero std false p t; c.run vals work) ∧
    OnlyChecks (do let c ← convert zero std true p t; convertValuesCopy zero c vals)
      (do let c ← convert zero std false p t; convertValuesCopy zero c vals) ∧
    OnlyChecks (do let c ← convert zero std true p t; convertValuesInto true c result evaluator work)
      (do let c ← convert zero std false p t; convertValuesInto false c result evaluator work) := by
  have h := convert_rel zero std p t
  have key : ∀ {β : Type} {f g : AnyConv T → Res β}, (∀ d r, ConvRel d r → Le (f d) (g r)) →
      OnlyChecks (convert zero std true p t >>= f) (convert zero std false p t >>= g) := by
    intro β f g hf
    exact Le.onlyChecks (Rel.bind h hf)
  refine ⟨?_, key fun d r h => by rw [h.sparsity]; exact le_ok _, key fun d r h => h.workSize, key fun d r h => h.run _ _, key fun d r h => ?_,
    key fun d r h => ?_⟩
  · cases p
    · exact (le_ok _).onlyChecks
    · exact (le_cscNnz _).onlyChecks
    · exact (le_cooNnz _).onlyChecks
  · unfold convertValuesCopy
    exact Le.bind h.workSize fun _ => Le.bind (h.run _ _) fun _ => le_ok _
  · unfold convertValuesInto
    refine Le.bind h.nnzFrom fun _ => Le.bind (le_castSz _) fun _ => Le.bind h.workSize fun _ => le_ite ?_ ?_
    · exact Le.bind (h.run _ _) fun _ => Le.bind (le_assert _) fun _ => le_ok _
    · exact Le.bind (h.run _ _) fun _ => Le.bind (le_assert _) fun _ => le_ok _

/-- C115: also for `convert_triplets_to_ccs` and `as_eigen`. -/
theorem sparse_only_check (std : StdLib) (IFrom I J : IntTy) (rows cols inner outer : List Int) (idx0 : Int) (s : CSC) (values : List T) :
    OnlyChecks (convertTripletsToCcs std true IFrom I J rows cols inner outer idx0) (convertTripletsToCcs std false IFrom I J rows cols inner outer idx0) ∧
    OnlyChecks (asEigen true s values) (asEigen false s values) := by
  refine ⟨(le_ccs _ _ _ _ _ _ _ _ _).onlyChecks, Le.onlyChecks ?_⟩
  unfold asEigen
  exact Le.bind (le_cscNnz _) fun _ => le_ok _

/-- A pattern with an entry twice: the debug build stops, the release build goes on (and keeps the last of the two values). -/
example (std : StdLib) : (convert (0 : Int) std true (.coo .int ⟨2, 2, .unsymmetric, [1, 1], [0, 0], .sortedByColsAndRows, 0⟩) .dense >>= fun c => convertValuesCopy 0 c [7, 8]) = .error .assertFail ∧
    (convert (0 : Int) std false (.coo .int ⟨2, 2, .unsymmetric, [1, 1], [0, 0], .sortedByColsAndRows, 0⟩) .dense >>= fun c => convertValuesCopy 0 c [7, 8]) = .ok [0, 8, 0, 0] := by
  constructor <;> rfl

/-- Without the second entry both builds do the same. -/
example (std : StdLib) : ∀ dbg, (convert (0 : Int) std dbg (.coo .int ⟨2, 2, .unsymmetric, [1, 0], [0, 1], .sortedByColsAndRows, 0⟩) .dense >>= fun c => convertValuesCopy 0 c [7, 8]) = .ok [0, 7, 8, 0] := by
  intro dbg
  cases dbg <;> rfl

end Guanaqo.Assert
