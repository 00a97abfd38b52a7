import Verif.Sparsity.PropsChain

/-!
# C08, C14: column pointers, and exactly which requests are refused
-/

namespace Guanaqo.Sparsity

variable {T : Type}

/-- C08: the column pointers are those of the source, for every request. -/
theorem csc_to_csc_columns (std : StdLib) (dbg : Bool) (IFrom JFrom ITo JTo : IntTy)
    (s : CSC) (req : Option CscOrder) (hwf : s.Wf) (hto : FitsCsc ITo JTo s) {cv : CscConv}
    (h : CscToCsc.construct std dbg IFrom JFrom ITo JTo s req = .ok cv) :
    cv.sparsity.outerPtr = s.outerPtr := by
  have hco := cast_outer hwf hto
  unfold CscToCsc.construct at h
  obtain ⟨cv', h1, h⟩ := (res_bind_ok ..).1 h
  obtain ⟨_, -, h⟩ := (res_bind_ok ..).1 h
  cases h
  unfold CscToCsc.convertSparsity at h1
  obtain ⟨⟨order, sort⟩, -, h1⟩ := (res_bind_ok ..).1 h1
  obtain ⟨⟨inner, outer, perm⟩, h2, h1⟩ := (res_bind_ok ..).1 h1
  cases h1
  dsimp only
  unfold CscToCsc.convertIndices at h2
  cases sort with
  | true =>
    rw [if_pos rfl] at h2
    obtain ⟨⟨i, q⟩, -, h2⟩ := (res_bind_ok ..).1 h2
    cases h2
    rw [hco]
    split <;> rfl
  | false =>
    rw [if_neg (by decide)] at h2
    cases h2
    rw [hco]
    by_cases hj : JFrom = JTo <;> simp [hj]

/-- The request that a build with assertions refuses: "unsorted", for a COO matrix that says it is sorted by
columns and rows. -/
def Refused (dbg : Bool) (p : Pattern) (req : Option CscOrder) : Prop :=
  dbg = true ∧ req = some .unsorted ∧ ∃ I s, p = .coo I s ∧ s.order = .sortedByColsAndRows

/-- **C14**, exactly: for every valid matrix and every request of an existing order, the conversion to CSC succeeds
and honours the request, unless it is the one of `Refused`, which fails an assertion. -/
theorem requests_honoured_iff (zero : T) (std : StdLib) (hstd : std.Ok) (dbg : Bool) (p : Pattern) (I J : IntTy)
    (req : Option CscOrder) (hv : p.Valid) (hlow : isDense p = true → getSymmetry p ≠ .lower)
    (hreq : req ≠ some .invalid) (hfit : FitsIdx I (numRows p) (numCols p) p.base) (hJ : J.fits p.count) :
    (¬ Refused dbg p req → ∃ c s, convert zero std dbg p (.csc I J req) = .ok c ∧ c.sparsity = .csc I J s ∧
      s.OrderTrue ∧ (req = some .sortedRows → s.order = .sortedRows)) ∧
    (Refused dbg p req → convert zero std dbg p (.csc I J req) = .error .assertFail) := by
  constructor
  · intro hr
    refine requests_honoured_partial zero std hstd dbg p I J req hv ⟨hlow, hfit, hJ, ?_⟩
    cases req with
    | none => exact .inl rfl
    | some o =>
      cases o with
      | sortedRows => exact .inr (.inl rfl)
      | invalid => exact absurd rfl hreq
      | unsorted =>
        refine .inr (.inr ⟨rfl, fun I' s hp hd ho => hr ⟨hd, rfl, I', s, hp, ho⟩⟩)
  · rintro ⟨rfl, rfl, I', s, rfl, ho⟩
    obtain ⟨hwf, -⟩ := hv
    have h : CooToCsc.construct std true I' I J s (some .unsorted) = .error .assertFail := by
      unfold CooToCsc.construct CooToCsc.convertSparsity
      rw [ho, COO.nnz_ok hwf.same_length]
      rfl
    rw [convert, h]; rfl

/-- Both cases occur: the same matrix, with assertions and without. -/
example :
    Refused true (.coo .int ⟨1, 1, .unsymmetric, [0], [0], .sortedByColsAndRows, 0⟩) (some .unsorted) ∧
    ¬ Refused false (.coo .int ⟨1, 1, .unsymmetric, [0], [0], .sortedByColsAndRows, 0⟩) (some .unsorted) :=
  ⟨⟨rfl, rfl, _, _, rfl, rfl⟩, fun h => (by cases h.1)⟩

end Guanaqo.Sparsity
