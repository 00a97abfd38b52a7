import Verif.Sparsity.PropsCscCsc
import Verif.Sparsity.Variant

/-!
# C10, C11, C13, C14: conversions between any two formats
-/

namespace Guanaqo.Sparsity

variable {T : Type}

/-! ## Specification -/

/-- Number of stored values. -/
def Pattern.count : Pattern → Nat
  | .dense d => (d.rows * d.cols).toNat
  | .csc _ _ s => s.innerIdx.length
  | .coo _ s => s.rowIndices.length

/-- A pattern whose stored entries make sense: well formed, order flag truthful, no position stored
twice, symmetric ones square and in the right triangle, indices representable. -/
def Pattern.Valid : Pattern → Prop
  | .dense d => 0 ≤ d.rows ∧ 0 ≤ d.cols ∧ ShapeOk d.symmetry d.rows d.cols
  | .csc _ _ s => s.Wf ∧ s.OrderTrue ∧ s.positions.Nodup ∧ ShapeOk s.symmetry s.rows s.cols ∧
      ∀ p ∈ s.positions, InTriangle s.symmetry p.1 p.2
  | .coo I s => s.Wf ∧ s.OrderTrue ∧ s.positions.Nodup ∧ ShapeOk s.symmetry s.rows s.cols ∧
      (∀ p ∈ s.positions, InTriangle s.symmetry p.1 p.2) ∧ COO.Fits I s ∧ I.fits (s.cols + 1)

/-- The pattern with the given values is the dense matrix `M` (column-major). -/
def Pattern.Denotes (zero : T) (p : Pattern) (vals M : List T) : Prop :=
  match p with
  | .dense d => M = vals ∧ SymmetricIf d.symmetry d.rows vals
  | .csc _ _ s => DenseOf zero s.rows s.cols s.symmetry (s.entries vals) M
  | .coo _ s => DenseOf zero s.rows s.cols s.symmetry (s.entries vals) M

/-- The index base of the pattern. -/
def Pattern.base : Pattern → Int
  | .coo _ s => s.firstIndex
  | _ => 0

/-- The conversion is supported and the target index types can hold the result. -/
def Supported (dbg : Bool) (p : Pattern) : Target → Prop
  | .dense => True
  | .coo I f => (isDense p = true → getSymmetry p ≠ .lower) ∧
      FitsIdx I (numRows p) (numCols p) p.base ∧
      FitsIdx I (numRows p) (numCols p) (f.getD p.base) ∧
      I.fits (f.getD p.base - p.base) ∧ I.fits (numCols p + 1)
  | .csc I J o => (isDense p = true → getSymmetry p ≠ .lower) ∧
      FitsIdx I (numRows p) (numCols p) p.base ∧ J.fits p.count ∧
      (o = none ∨ o = some .sortedRows ∨ (o = some .unsorted ∧
        ∀ I' s, p = .coo I' s → dbg = true → s.order ≠ .sortedByColsAndRows))

/-! ## Lemmas on the denoted matrix -/

theorem stored_perm {E F : List (Int × Int × T)} (h : E.Perm F) (sym : Symmetry) (r c : Int) (v : T) :
    Stored E sym r c v ↔ Stored F sym r c v := by
  simp only [Stored, h.mem_iff]

theorem denseOf_perm {zero : T} {rows cols : Int} {sym : Symmetry} {E F : List (Int × Int × T)}
    (h : E.Perm F) {M : List T} (hM : DenseOf zero rows cols sym F M) :
    DenseOf zero rows cols sym E M := by
  refine ⟨hM.1, fun r c h1 h2 h3 h4 => ?_⟩
  obtain ⟨a, b⟩ := hM.2 r c h1 h2 h3 h4
  exact ⟨fun v hv => a v ((stored_perm h sym r c v).1 hv),
    fun hn => b (fun v hv => hn v ((stored_perm h sym r c v).2 hv))⟩

theorem denseOf_entries {zero : T} {rows cols : Int} {sym : Symmetry} {E : List (Int × Int × T)}
    {M : List T} (hl : (M.length : Int) = rows * cols)
    (hs : sym = .unsymmetric ∨ (sym = .upper ∧ rows = cols)) (hsym : SymmetricIf sym rows M)
    (hE : EntriesOfDense rows cols sym M E) : DenseOf zero rows cols sym E M := by
  refine ⟨hl, fun r c h1 h2 h3 h4 => ?_⟩
  have hlt : (r + c * rows).toNat < M.length := by
    have := pos_lt h1 h2 h3 h4
    simp only [pos] at this; omega
  have hex : denseAt rows M r c = some M[(r + c * rows).toNat] := by
    simp [denseAt, hlt]
  have hst : ∀ v, Stored E sym r c v ↔ denseAt rows M r c = some v := by
    intro v
    rw [Stored, hE.2, hE.2]
    rcases hs with rfl | ⟨rfl, hsq⟩
    · simp [InTriangle, h1, h2, h3, h4]
    · have hsy := hsym (by simp) r c h1 h2 h3 (by omega)
      simp only [InTriangle, ← hsy]
      constructor
      · rintro (h | h)
        · exact h.2.2.2.2.2
        · exact h.2.2.2.2.2.2
      · intro h
        rcases le_total r c with hrc | hrc
        · exact .inl ⟨h1, h2, h3, h4, hrc, h⟩
        · exact .inr ⟨by simp, h3, by omega, h1, by omega, hrc, h⟩
  refine ⟨fun v hv => (hst v).1 hv, fun hn => ?_⟩
  exact absurd ((hst _).2 hex) (hn _)

theorem denseOf_symmetric {zero : T} {rows cols : Int} {sym : Symmetry}
    {E : List (Int × Int × T)} {M : List T} (hs : ShapeOk sym rows cols)
    (hM : DenseOf zero rows cols sym E M) : SymmetricIf sym rows M := by
  intro hne r c h1 h2 h3 h4
  have hsq := hs.2 hne
  obtain ⟨a, b⟩ := hM.2 r c h1 h2 h3 (by omega)
  obtain ⟨a', b'⟩ := hM.2 c r h3 (by omega) h1 (by omega)
  have hst : ∀ v, Stored E sym r c v ↔ Stored E sym c r v := by
    intro v; simp only [Stored, ne_eq, hne, not_false_eq_true, true_and]; exact or_comm
  by_cases hex : ∃ v, Stored E sym r c v
  · obtain ⟨v, hv⟩ := hex
    rw [a v hv, a' v ((hst v).1 hv)]
  · have hno : ∀ v, ¬ Stored E sym r c v := fun v hv => hex ⟨v, hv⟩
    rw [b hno, b' (fun v hv => hno v ((hst v).2 hv))]

/-! ## One conversion -/

/-- Everything a user relies on about a converter from `p`: the sizes it reports, that
`convert_values` works for every value array of the right size, and that the converted values with
the new pattern denote the same matrix. -/
structure Faithful (zero : T) (p : Pattern) (c : AnyConv T) : Prop where
  valid : c.sparsity.Valid
  rows : numRows c.sparsity = numRows p
  cols : numCols c.sparsity = numCols p
  symmetry : getSymmetry c.sparsity = getSymmetry p
  nnzFrom : c.nnzFrom = .ok p.count
  work : ∃ ws, c.workSize = .ok ws ∧
    (ws = 0 ∨ ws = c.sparsity.count) ∧
    ∀ vals wk : List T, vals.length = p.count → wk.length = ws →
      ∃ o, c.run vals wk = .ok o ∧
        (o.loc = .fromValues → ws = 0 ∧ c.sparsity.count = p.count ∧ o.work = wk) ∧
        (o.loc = .work → ws = c.sparsity.count) ∧
        (o.values vals).length = c.sparsity.count ∧
        ∀ M, p.Denotes zero vals M → c.sparsity.Denotes zero (o.values vals) M

theorem csc_loc {dbg : Bool} {cv : CscConv} (hwf : cv.sparsity.Wf) {vals wk : List T} {o : Out T}
    (hv : vals.length = cv.sparsity.innerIdx.length) (hw : wk.length = cv.permutation.length)
    (h : cv.convertValues dbg vals wk = .ok o) :
    (o.loc = .fromValues → cv.permutation.length = 0 ∧ o.work = wk) ∧
    (o.loc = .work → cv.permutation ≠ []) := by
  rw [CscConv.convertValues, CSC.nnz_ok hwf, res_ok_bind, castSz_nat, res_ok_bind, assertM_dec hv,
    res_ok_bind, assertM_dec hw, res_ok_bind] at h
  split at h
  · rename_i hp
    cases h
    exact ⟨fun _ => ⟨by simp [hp], rfl⟩, fun h => by cases h⟩
  · rename_i hp
    obtain ⟨w, _, hw2⟩ := res_bind_ok.1 h
    cases hw2
    exact ⟨fun h => (by cases h), fun _ => hp⟩

theorem gathered_perm_length {dbg : Bool} {cv : CscConv} (hwf : cv.sparsity.Wf)
    {vals : List T} {o : Out T} {wk : List T}
    (hv : vals.length = cv.sparsity.innerIdx.length) (hw : wk.length = cv.permutation.length)
    (h : cv.convertValues dbg vals wk = .ok o) (hl : (o.values vals).length = vals.length)
    (hne : cv.permutation ≠ []) : cv.permutation.length = cv.sparsity.innerIdx.length := by
  have hloop : ∀ (l : List Int) (w w' : List T),
      l.foldlM (fun w i => permBody dbg cv.permutation vals i w) w = .ok w' →
      w'.length = w.length := by
    intro l
    induction l with
    | nil => intro w w' h; cases h; rfl
    | cons a l ih =>
      intro w w' h
      rw [List.foldlM_cons] at h
      obtain ⟨w1, h1, h2⟩ := res_bind_ok.1 h
      rw [ih _ _ h2]
      unfold permBody at h1
      obtain ⟨p, _, h1⟩ := res_bind_ok.1 h1
      obtain ⟨q, _, h1⟩ := res_bind_ok.1 h1
      obtain ⟨v, _, h1⟩ := res_bind_ok.1 h1
      unfold wr at h1
      split at h1
      · cases h1; simp
      · cases h1
  rw [CscConv.convertValues, CSC.nnz_ok hwf, res_ok_bind, castSz_nat, res_ok_bind, assertM_dec hv,
    res_ok_bind, assertM_dec hw, res_ok_bind, if_neg hne] at h
  obtain ⟨w, hw1, hw2⟩ := res_bind_ok.1 h
  cases hw2
  rw [forRange_eq_foldlM] at hw1
  have := hloop _ _ _ hw1
  simp only [Out.values] at hl
  omega

theorem positions_of_entries_csc {s : CSC} (h : s.Wf) {vals : List T}
    (hv : vals.length = s.innerIdx.length) :
    (s.entries vals).map (fun e => (e.1, e.2.1)) = s.positions := by
  have hcl := h.colOf_length
  rw [h.entries_eq vals hv, h.positions_eq, List.map_map]
  apply List.ext_getElem
  · simp [hv, hcl]
  · intro i a b; simp

/-- A dense pattern that can be converted to a sparse one. -/
theorem denseOk_of {d : Dense} (hv : (Pattern.dense d).Valid)
    (hs : isDense (.dense d) = true → getSymmetry (.dense d) ≠ .lower) : DenseOk d := by
  obtain ⟨h1, h2, h3⟩ := hv
  refine ⟨h1, h2, ?_⟩
  have h4 := hs rfl
  simp only [getSymmetry] at h4
  cases hsym : d.symmetry with
  | unsymmetric => exact .inl rfl
  | upper => exact .inr ⟨rfl, h3.2 (by simp [hsym])⟩
  | lower => exact absurd hsym h4
  | invalid => exact absurd hsym h3.1

theorem entriesOfDense_valid {rows cols : Int} {sym : Symmetry} {M : List T}
    {E : List (Int × Int × T)} (h : EntriesOfDense rows cols sym M E) :
    (E.map (fun e => (e.1, e.2.1))).Nodup ∧
    ∀ p ∈ E.map (fun e => (e.1, e.2.1)), InTriangle sym p.1 p.2 := by
  refine ⟨h.1, ?_⟩
  intro p hp
  obtain ⟨e, he, rfl⟩ := List.mem_map.1 hp
  exact ((h.2 e.1 e.2.1 e.2.2).1 he).2.2.2.2.1

/-- C11 (one step). Every supported conversion between any two formats succeeds, in any build, and
the converter is faithful: for every value array, the converted values with the new pattern denote
the same matrix. -/
theorem convert_faithful (zero : T) (std : StdLib) (hstd : std.Ok) (dbg : Bool) (p : Pattern)
    (tgt : Target) (hv : p.Valid) (hs : Supported dbg p tgt) :
    ∃ c, convert zero std dbg p tgt = .ok c ∧ Faithful zero p c := by
  cases p with
  | dense d =>
    have hprod : 0 ≤ d.rows * d.cols := Int.mul_nonneg hv.1 hv.2.1
    cases tgt with
    | dense =>
      have hcon : DenseToDense.construct d = .ok d := by
        rw [DenseToDense.construct, checkSquare, if_neg (by
          rintro ⟨h1, h2⟩; exact h2 (hv.2.2.2 h1))]
        rfl
      refine ⟨_, by rw [convert, hcon]; rfl, ?_⟩
      · refine ⟨hv, rfl, rfl, rfl, ?_, 0, rfl, .inl rfl, ?_⟩
        · simp only [Pattern.count]; congr 1; omega
        · intro vals wk hl hw
          simp only [Pattern.count] at hl
          refine ⟨⟨.fromValues, wk⟩, ?_, fun _ => ⟨rfl, rfl, rfl⟩, fun h => (by cases h),
            hl, fun M h => h⟩
          change DenseToDense.convertValues dbg d vals wk = _
          rw [DenseToDense.convertValues, castSz_ok hprod, res_ok_bind, assertM_dec hl]
          rfl
    | coo I f =>
      obtain ⟨hlo, hfit0, hfit, hdiff, hc1⟩ := hs
      have hd := denseOk_of hv hlo
      obtain ⟨w0, hw0⟩ : ∃ w : List T, (w.length : Int) = d.rows * d.cols :=
        ⟨List.replicate (d.rows * d.cols).toNat zero, by simp; omega⟩
      obtain ⟨sp, hc, e1, e2, e3, e4, hwf, ho, hot, hrun⟩ := dense_to_coo dbg I d f hd hfit w0 hw0
      refine ⟨_, by rw [convert, hc]; rfl, ?_⟩
      have hlen := hwf.same_length
      have hpos : sp.positions.Nodup ∧ ∀ q ∈ sp.positions, InTriangle sp.symmetry q.1 q.2 := by
        obtain ⟨o, _, ol, oe⟩ := hrun (List.replicate
          (DenseToCoo.workSize sp.symmetry sp.rowIndices.length) zero) (by simp)
        have := entriesOfDense_valid oe
        rw [coo_entries_positions hwf ol] at this
        rw [e3]; exact this
      refine ⟨⟨hwf, hot, hpos.1, by rw [e1, e2, e3]; exact hv.2.2, hpos.2, ?_, by
          rw [e2]; exact hc1⟩, e1, e2, e3, ?_,
          DenseToCoo.workSize sp.symmetry sp.rowIndices.length, ?_, ?_, ?_⟩
      · rw [COO.Fits, e1, e2, e4]; exact hfit
      · simp only [Pattern.count, e1, e2]; congr 1; omega
      · simp only [COO.nnz_ok hlen, res_ok_bind]
      · unfold DenseToCoo.workSize; split
        · exact .inl rfl
        · right; simp [Pattern.count]
      · intro vals wk hl hw
        simp only [Pattern.count] at hl
        obtain ⟨sp', hc', _, _, _, _, _, _, _, hrun'⟩ := dense_to_coo dbg I d f hd hfit vals
          (by omega)
        rw [hc] at hc'; cases hc'
        obtain ⟨o, hr, ol, oe⟩ := hrun' wk hw
        refine ⟨o, hr, ?_, ?_, ol, ?_⟩
        · intro hloc
          rw [DenseToCoo.convertValues, e1, e2, castSz_ok hprod, res_ok_bind, assertM_dec hl,
            res_ok_bind, COO.nnz_ok hlen, res_ok_bind, assertM_dec hw, res_ok_bind] at hr
          cases hsy : sp.symmetry with
          | unsymmetric =>
            rw [hsy] at hr
            cases hr
            refine ⟨by simp [DenseToCoo.workSize], ?_, rfl⟩
            simp only [Out.values] at ol
            simp only [Pattern.count]; omega
          | upper =>
            rw [hsy] at hr
            obtain ⟨s, _, h2⟩ := res_bind_ok.1 hr
            cases h2; cases hloc
          | lower => rw [hsy] at hr; cases hr
          | invalid => rw [hsy] at hr; cases hr
        · intro hloc
          rw [DenseToCoo.convertValues, e1, e2, castSz_ok hprod, res_ok_bind, assertM_dec hl,
            res_ok_bind, COO.nnz_ok hlen, res_ok_bind, assertM_dec hw, res_ok_bind] at hr
          cases hsy : sp.symmetry with
          | unsymmetric => rw [hsy] at hr; cases hr; cases hloc
          | upper => simp [DenseToCoo.workSize, Pattern.count]
          | lower => simp [DenseToCoo.workSize, Pattern.count]
          | invalid => simp [DenseToCoo.workSize, Pattern.count]
        · rintro M ⟨rfl, hsym⟩
          simp only [Pattern.Denotes, e1, e2, e3]
          exact denseOf_entries (by omega) hd.2.2 hsym oe
    | csc I J ord =>
      obtain ⟨hlo, hfit, hJ, _⟩ := hs
      have hd := denseOk_of hv hlo
      have hJ' : J.fits (d.rows * d.cols) := by
        have : ((d.rows * d.cols).toNat : Int) = d.rows * d.cols := by omega
        rw [← this]; exact hJ
      obtain ⟨w0, hw0⟩ : ∃ w : List T, (w.length : Int) = d.rows * d.cols :=
        ⟨List.replicate (d.rows * d.cols).toNat zero, by simp; omega⟩
      obtain ⟨sp, hc, e1, e2, e3, hwf, ho, hot, hrun⟩ := dense_to_csc dbg I J d hd hfit.rows_fit hJ'
        w0 hw0
      refine ⟨_, by rw [convert, hc]; rfl, ?_⟩
      have hpos : sp.positions.Nodup ∧ ∀ q ∈ sp.positions, InTriangle sp.symmetry q.1 q.2 := by
        obtain ⟨o, _, ol, oe⟩ := hrun (List.replicate
          (DenseToCoo.workSize sp.symmetry sp.innerIdx.length) zero) (by simp)
        have := entriesOfDense_valid oe
        rw [positions_of_entries_csc hwf ol] at this
        rw [e3]; exact this
      refine ⟨⟨hwf, hot, hpos.1, by rw [e1, e2, e3]; exact hv.2.2, hpos.2⟩, e1, e2, e3, ?_,
          DenseToCoo.workSize sp.symmetry sp.innerIdx.length, ?_, ?_, ?_⟩
      · simp only [Pattern.count, e1, e2]; congr 1; omega
      · simp only [CSC.nnz_ok hwf, res_ok_bind]
      · unfold DenseToCoo.workSize; split
        · exact .inl rfl
        · right; simp [Pattern.count]
      · intro vals wk hl hw
        simp only [Pattern.count] at hl
        obtain ⟨sp', hc', _, _, _, _, _, _, hrun'⟩ := dense_to_csc dbg I J d hd hfit.rows_fit hJ'
          vals (by omega)
        rw [hc] at hc'; cases hc'
        obtain ⟨o, hr, ol, oe⟩ := hrun' wk hw
        refine ⟨o, hr, ?_, ?_, ol, ?_⟩
        · intro hloc
          rw [DenseToCsc.convertValues, e1, e2, castSz_ok hprod, res_ok_bind, assertM_dec hl,
            res_ok_bind, CSC.nnz_ok hwf, res_ok_bind, assertM_dec hw, res_ok_bind] at hr
          cases hsy : sp.symmetry with
          | unsymmetric =>
            rw [hsy] at hr
            cases hr
            refine ⟨by simp [DenseToCoo.workSize], ?_, rfl⟩
            simp only [Out.values] at ol
            simp only [Pattern.count]; omega
          | upper =>
            rw [hsy] at hr
            obtain ⟨s, _, h2⟩ := res_bind_ok.1 hr
            cases h2; cases hloc
          | lower => rw [hsy] at hr; cases hr
          | invalid => rw [hsy] at hr; cases hr
        · intro hloc
          rw [DenseToCsc.convertValues, e1, e2, castSz_ok hprod, res_ok_bind, assertM_dec hl,
            res_ok_bind, CSC.nnz_ok hwf, res_ok_bind, assertM_dec hw, res_ok_bind] at hr
          cases hsy : sp.symmetry with
          | unsymmetric => rw [hsy] at hr; cases hr; cases hloc
          | upper => simp [DenseToCoo.workSize, Pattern.count]
          | lower => simp [DenseToCoo.workSize, Pattern.count]
          | invalid => simp [DenseToCoo.workSize, Pattern.count]
        · rintro M ⟨rfl, hsym⟩
          simp only [Pattern.Denotes, e1, e2, e3]
          exact denseOf_entries (by omega) hd.2.2 hsym oe
  | csc I' J' s =>
    obtain ⟨hwf, hord, hnd, hsh, htri⟩ := hv
    have hprod : 0 ≤ s.rows * s.cols := Int.mul_nonneg hwf.rows_nonneg hwf.cols_nonneg
    cases tgt with
    | dense =>
      have key := fun vals work h1 h2 => csc_to_dense zero dbg s hwf hsh hnd htri vals work h1 h2
      obtain ⟨sp, o, hc, rfl, hws, -, -, -⟩ := key (List.replicate s.innerIdx.length zero)
        (List.replicate (s.rows * s.cols).toNat zero) (by simp) (by simp; omega)
      refine ⟨_, by rw [convert, hc]; rfl, ?_⟩
      refine ⟨⟨hwf.rows_nonneg, hwf.cols_nonneg, hsh⟩, rfl, rfl, rfl, CSC.nnz_ok hwf dbg,
        (s.rows * s.cols).toNat, by simpa using hws, .inr rfl, ?_⟩
      intro vals wk hl hw
      obtain ⟨sp', o, hc', rfl, _, hr, hloc, hD⟩ := key vals wk hl (by omega)
      refine ⟨o, hr, fun h => (by rw [hloc] at h; cases h), fun _ => rfl, ?_, ?_⟩
      · have := hD.1; simp only [Pattern.count]; omega
      · intro M hM
        have hMe : M = o.values vals := denseOf_unique hwf.rows_nonneg hM hD
        exact ⟨hMe, denseOf_symmetric hsh hD⟩
    | coo I f =>
      obtain ⟨_, hfit0, hfit, hdiff, hc1⟩ := hs
      obtain ⟨sp, hc, e1, e2, e3, e4, hwf', hot, hps, _, hrun⟩ := csc_to_coo (T := T) dbg I s f hwf
        hfit (fun _ => hnd) (fun h => by rw [CSC.OrderTrue, h] at hord; exact hord)
      have hlen := hwf'.same_length
      have hcount : sp.rowIndices.length = s.innerIdx.length := by
        have := congrArg List.length hps
        rw [hwf.positions_eq] at this
        simpa [COO.positions, hlen, hwf.colOf_length] using this
      refine ⟨_, by rw [convert, hc]; rfl, ?_⟩
      refine ⟨⟨hwf', hot, hps ▸ hnd, by rw [e1, e2, e3]; exact hsh, by rw [hps, e3]; exact htri, ?_,
        by rw [e2]; exact hc1⟩, e1, e2, e3, ?_, 0, rfl, .inl rfl, ?_⟩
      · rw [COO.Fits, e1, e2, e4]; exact hfit
      · simp only [COO.nnz_ok hlen, hcount, Pattern.count]
      · intro vals wk hl hw
        obtain ⟨o, hr, he⟩ := hrun vals wk hl
        have hout : o = ⟨.fromValues, wk⟩ := by
          rw [CscToCoo.convertValues, COO.nnz_ok hlen, res_ok_bind, castSz_nat, res_ok_bind,
            assertM_dec (by rw [hcount]; exact hl)] at hr
          cases hr; rfl
        subst hout
        refine ⟨_, hr, fun _ => ⟨rfl, hcount, rfl⟩, fun h => (by cases h), hl.trans hcount.symm, ?_⟩
        intro M hM
        simp only [Pattern.Denotes, e1, e2, e3, he]
        exact hM
    | csc I J ord =>
      obtain ⟨_, hfit, hJ, _⟩ := hs
      obtain ⟨cv, hc, e1, e2, e3, hwf', hot, _, _, hil, hps, hrun⟩ := csc_to_csc (T := T) std hstd
        dbg I' J' I J s ord hwf hord ⟨hfit.rows_fit, hJ⟩ (fun _ => hnd)
      refine ⟨_, by rw [convert, hc]; rfl, ?_⟩
      refine ⟨⟨hwf', hot, (hps.nodup_iff).2 hnd, by rw [e1, e2, e3]; exact hsh, fun q hq => by
        rw [e3]; exact htri q (hps.mem_iff.1 hq)⟩, e1, e2, e3, ?_, cv.permutation.length, rfl, ?_, ?_⟩
      · simp only [CSC.nnz_ok hwf', hil, Pattern.count]
      · by_cases hp : cv.permutation = []
        · left; simp [hp]
        · right
          obtain ⟨o, hr, hl2, _⟩ := hrun (List.replicate s.innerIdx.length zero)
            (List.replicate cv.permutation.length zero) (by simp) (by simp)
          exact gathered_perm_length hwf' (by simp [hil]) (by simp) hr hl2 hp
      · intro vals wk hl hw
        obtain ⟨o, hr, hl2, he⟩ := hrun vals wk hl hw
        have hloc := csc_loc hwf' (hl.trans hil.symm) hw hr
        refine ⟨o, hr, fun h => ⟨(hloc.1 h).1, hil, (hloc.1 h).2⟩, fun h =>
          gathered_perm_length hwf' (hl.trans hil.symm) hw hr hl2 (hloc.2 h),
          hl2.trans (hl.trans hil.symm), ?_⟩
        intro M hM
        simp only [Pattern.Denotes, e1, e2, e3]
        exact denseOf_perm he hM
  | coo I' s =>
    obtain ⟨hwf, hord, hnd, hsh, htri, hfits, hcol1⟩ := hv
    have hprod : 0 ≤ s.rows * s.cols := Int.mul_nonneg hwf.rows_nonneg hwf.cols_nonneg
    have hlen0 := hwf.same_length
    cases tgt with
    | dense =>
      have key := fun vals work h1 h2 => coo_to_dense zero dbg I' s hwf hfits hsh hnd htri vals work h1 h2
      obtain ⟨sp, o, hc, rfl, hws, -, -, -⟩ := key (List.replicate s.rowIndices.length zero)
        (List.replicate (s.rows * s.cols).toNat zero) (by simp) (by simp; omega)
      refine ⟨_, by rw [convert, hc]; rfl, ?_⟩
      refine ⟨⟨hwf.rows_nonneg, hwf.cols_nonneg, hsh⟩, rfl, rfl, rfl, COO.nnz_ok hlen0 dbg,
        (s.rows * s.cols).toNat, by simpa using hws, .inr rfl, ?_⟩
      intro vals wk hl hw
      obtain ⟨sp', o, hc', rfl, _, hr, hloc, hD⟩ := key vals wk hl (by omega)
      refine ⟨o, hr, fun h => (by rw [hloc] at h; cases h), fun _ => rfl, ?_, ?_⟩
      · have := hD.1; simp only [Pattern.count]; omega
      · intro M hM
        have hMe : M = o.values vals := denseOf_unique hwf.rows_nonneg hM hD
        exact ⟨hMe, denseOf_symmetric hsh hD⟩
    | coo I f =>
      obtain ⟨_, hfit0, hfit, hdiff, hc1⟩ := hs
      obtain ⟨sp, hc, e1, e2, e3, e4, eo, hwf', hot, hps, hrun⟩ := coo_to_coo (T := T) dbg I' I s f
        hwf hfit0 hfit hdiff (fun _ => hnd)
      have hlen := hwf'.same_length
      have hcount : sp.rowIndices.length = s.rowIndices.length := by
        have := congrArg List.length hps
        simp only [COO.positions, List.length_map, List.length_zip] at this
        omega
      refine ⟨_, by rw [convert, hc]; rfl, ?_⟩
      refine ⟨⟨hwf', hot hord, hps ▸ hnd, by rw [e1, e2, e3]; exact hsh, by rw [hps, e3]; exact htri,
        ?_, by rw [e2]; exact hc1⟩, e1, e2, e3, ?_, 0, rfl, .inl rfl, ?_⟩
      · rw [COO.Fits, e1, e2, e4]; exact hfit
      · simp only [COO.nnz_ok hlen, hcount, Pattern.count]
      · intro vals wk hl hw
        obtain ⟨o, hr, he⟩ := hrun vals wk hl
        have hout : o = ⟨.fromValues, wk⟩ := by
          rw [CscToCoo.convertValues, COO.nnz_ok hlen, res_ok_bind, castSz_nat, res_ok_bind,
            assertM_dec (by rw [hcount]; exact hl)] at hr
          cases hr; rfl
        subst hout
        refine ⟨_, hr, fun _ => ⟨rfl, hcount, rfl⟩, fun h => (by cases h), hl.trans hcount.symm, ?_⟩
        intro M hM
        simp only [Pattern.Denotes, e1, e2, e3, he]
        exact hM
    | csc I J ord =>
      obtain ⟨_, hfit, hJ, hreq⟩ := hs
      obtain ⟨cv, hc, e1, e2, e3, hwf', hot, _, hil, hps, hrun⟩ := coo_to_csc (T := T) std hstd
        dbg I' I J s ord hwf hord hfits hcol1 hfit hJ
        (by rcases hreq with h | h | ⟨h, h'⟩
            · exact .inl h
            · exact .inr (.inl h)
            · exact .inr (.inr ⟨h, h' I' s rfl⟩)) (fun _ => hnd)
      refine ⟨_, by rw [convert, hc]; rfl, ?_⟩
      refine ⟨⟨hwf', hot, (hps.nodup_iff).2 hnd, by rw [e1, e2, e3]; exact hsh, fun q hq => by
        rw [e3]; exact htri q (hps.mem_iff.1 hq)⟩, e1, e2, e3, ?_, cv.permutation.length, rfl, ?_, ?_⟩
      · simp only [CSC.nnz_ok hwf', hil, Pattern.count]
      · by_cases hp : cv.permutation = []
        · left; simp [hp]
        · right
          obtain ⟨o, hr, hl2, _⟩ := hrun (List.replicate s.rowIndices.length zero)
            (List.replicate cv.permutation.length zero) (by simp) (by simp)
          exact gathered_perm_length hwf' (by simp [hil]) (by simp) hr hl2 hp
      · intro vals wk hl hw
        obtain ⟨o, hr, hl2, he⟩ := hrun vals wk hl hw
        have hloc := csc_loc hwf' (hl.trans hil.symm) hw hr
        refine ⟨o, hr, fun h => ⟨(hloc.1 h).1, hil, (hloc.1 h).2⟩, fun h =>
          gathered_perm_length hwf' (hl.trans hil.symm) hw hr hl2 (hloc.2 h),
          hl2.trans (hl.trans hil.symm), ?_⟩
        intro M hM
        simp only [Pattern.Denotes, e1, e2, e3]
        exact denseOf_perm he hM

end Guanaqo.Sparsity
