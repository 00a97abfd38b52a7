import Verif.Sparsity.PropsVariant

/-!
# C10 (bounds, all output written), C11 (round trips), C13 (`convert_values_into`/`_copy`),
C14 (requests), accessors
-/

namespace Guanaqo.Sparsity

variable {T : Type}

/-! ## C11: chains of conversions -/

/-- `Chain … p v q w`: `(q, w)` is what a program obtains from the matrix `(p, v)` by any number of
supported conversions, each through a converter object and `convert_values`. -/
inductive Chain (zero : T) (std : StdLib) (dbg : Bool) (p : Pattern) (v : List T) :
    Pattern → List T → Prop
  | refl : Chain zero std dbg p v p v
  | step {q : Pattern} {w : List T} {tgt : Target} {c : AnyConv T} {ws : Nat} {wk : List T}
      {o : Out T} :
      Chain zero std dbg p v q w → Supported dbg q tgt → convert zero std dbg q tgt = .ok c →
      c.workSize = .ok ws → wk.length = ws → c.run w wk = .ok o →
      Chain zero std dbg p v c.sparsity (o.values w)

/-- C11. Any chain of conversions between any formats, index types, index bases and orders yields a
pattern and values that denote the matrix one started from, with the same shape and symmetry. -/
theorem chain_preserves (zero : T) (std : StdLib) (hstd : std.Ok) (dbg : Bool) {p q : Pattern}
    {v w M : List T} (hp : p.Valid) (hv : v.length = p.count) (hM : p.Denotes zero v M)
    (h : Chain zero std dbg p v q w) :
    q.Valid ∧ w.length = q.count ∧ q.Denotes zero w M ∧ numRows q = numRows p ∧
      numCols q = numCols p ∧ getSymmetry q = getSymmetry p := by
  induction h with
  | refl => exact ⟨hp, hv, hM, rfl, rfl, rfl⟩
  | step _ hs hc hws hwk hr ih =>
    obtain ⟨h1, h2, h3, h4, h5, h6⟩ := ih
    obtain ⟨c', hc', hf⟩ := convert_faithful zero std hstd dbg _ _ h1 hs
    rw [hc] at hc'
    cases hc'
    obtain ⟨ws', hws', _, hrun⟩ := hf.work
    rw [hws] at hws'
    cases hws'
    obtain ⟨o', hr', _, _, hl, hD⟩ := hrun _ _ h2 hwk
    rw [hr] at hr'
    cases hr'
    exact ⟨hf.valid, hl, hD _ h3, hf.rows.trans h4, hf.cols.trans h5, hf.symmetry.trans h6⟩

/-- C11. Every supported further conversion of such a chain is possible: no step faults. -/
theorem chain_continues (zero : T) (std : StdLib) (hstd : std.Ok) (dbg : Bool) {p q : Pattern}
    {v w M : List T} (hp : p.Valid) (hv : v.length = p.count) (hM : p.Denotes zero v M)
    (h : Chain zero std dbg p v q w) (tgt : Target) (hs : Supported dbg q tgt) :
    ∃ q' w', Chain zero std dbg p v q' w' ∧
      (tgt = .dense → ∃ d, q' = .dense d) ∧ (∀ I f, tgt = .coo I f → ∃ s, q' = .coo I s) ∧
      (∀ I J o, tgt = .csc I J o → ∃ s, q' = .csc I J s) := by
  obtain ⟨h1, h2, h3, _⟩ := chain_preserves zero std hstd dbg hp hv hM h
  obtain ⟨c, hc, hf⟩ := convert_faithful zero std hstd dbg q tgt h1 hs
  obtain ⟨ws, hws, _, hrun⟩ := hf.work
  obtain ⟨o, hr, _⟩ := hrun w (List.replicate ws zero) h2 (by simp)
  refine ⟨_, _, .step h hs hc hws (by simp) hr, ?_, ?_, ?_⟩
  · rintro rfl
    cases q <;> simp only [convert] at hc <;> obtain ⟨x, _, hx⟩ := res_bind_ok.1 hc <;> cases hx <;>
      exact ⟨_, rfl⟩
  · rintro I f rfl
    cases q <;> simp only [convert] at hc <;> obtain ⟨x, _, hx⟩ := res_bind_ok.1 hc <;> cases hx <;>
      exact ⟨_, rfl⟩
  · rintro I J f rfl
    cases q <;> simp only [convert] at hc <;> obtain ⟨x, _, hx⟩ := res_bind_ok.1 hc <;> cases hx <;>
      exact ⟨_, rfl⟩

/-- C11. Round trip: a chain of conversions that starts and ends with a dense matrix returns exactly
the values it started from. -/
theorem dense_round_trip (zero : T) (std : StdLib) (hstd : std.Ok) (dbg : Bool) {d d' : Dense}
    {v w : List T} (hp : (Pattern.dense d).Valid) (hv : v.length = (d.rows * d.cols).toNat)
    (hsym : SymmetricIf d.symmetry d.rows v)
    (h : Chain zero std dbg (.dense d) v (.dense d') w) : w = v ∧ d' = d := by
  obtain ⟨_, _, h3, h4, h5, h6⟩ := chain_preserves zero std hstd dbg (M := v) hp hv ⟨rfl, hsym⟩ h
  refine ⟨h3.1.symm, ?_⟩
  cases d; cases d'
  simp only [numRows, numCols, getSymmetry] at h4 h5 h6
  simp [h4, h5, h6]

/-- C11. Round trip between sparse formats: a chain of conversions between two sparse matrices
preserves the denoted dense matrix. -/
theorem csc_round_trip (zero : T) (std : StdLib) (hstd : std.Ok) (dbg : Bool) {I J I' J' : IntTy}
    {s s' : CSC} {v w : List T} (hp : (Pattern.csc I J s).Valid) (hv : v.length = s.innerIdx.length)
    (h : Chain zero std dbg (.csc I J s) v (.csc I' J' s') w) :
    ∀ M, DenseOf zero s.rows s.cols s.symmetry (s.entries v) M →
      DenseOf zero s'.rows s'.cols s'.symmetry (s'.entries w) M := fun M hM =>
  (chain_preserves zero std hstd dbg (M := M) hp hv hM h).2.2.1

/-- A symmetric dense 2 × 2 matrix: it can be converted to COO with index base 1, then to CSC, then
back to dense. -/
example : (Pattern.dense ⟨2, 2, .upper⟩).Valid ∧ SymmetricIf .upper 2 [4, 7, 7, 9] ∧
    Supported true (.dense ⟨2, 2, .upper⟩) (.coo .int (some 1)) ∧
    (do let c ← convert (0 : Int) someStd true (.dense ⟨2, 2, .upper⟩) (.coo .int (some 1))
        let o ← c.run [4, 7, 7, 9] [0, 0, 0]
        let c' ← convert (0 : Int) someStd true c.sparsity (.csc .int .long (some .sortedRows))
        let o' ← c'.run (o.values [4, 7, 7, 9]) []
        let c'' ← convert (0 : Int) someStd true c'.sparsity .dense
        let o'' ← c''.run (o'.values (o.values [4, 7, 7, 9])) [0, 0, 0, 0]
        pure (o.values [4, 7, 7, 9], o''.values [])) = (.ok ([4, 7, 9], [4, 7, 7, 9]) : Res _) := by
  refine ⟨⟨by decide, by decide, by decide, fun _ => rfl⟩, ?_, ⟨by decide, ?_, ?_, by decide,
    by decide⟩, by decide +kernel⟩
  · intro _ r c h1 h2 h3 h4
    have hr : r = 0 ∨ r = 1 := by omega
    have hc : c = 0 ∨ c = 1 := by omega
    rcases hr with rfl | rfl <;> rcases hc with rfl | rfl <;> decide
  all_goals exact ⟨by decide, by decide, by decide, by decide, by decide⟩

/-! ## C10 -/

theorem eq_of_same_keys {α β : Type} [DecidableEq α] {E F : List (α × β)}
    (hk : E.map (·.1) = F.map (·.1)) (hn : (E.map (·.1)).Nodup) (hm : ∀ e ∈ E, e ∈ F) : E = F := by
  have hl : E.length = F.length := by simpa using congrArg List.length hk
  apply List.ext_getElem hl
  intro i h1 h2
  obtain ⟨j, hj, hj'⟩ := List.getElem_of_mem (hm E[i] (by simp))
  have e1 : (E.map (·.1))[i]'(by simpa using h1) = (F.map (·.1))[j]'(by simpa using hj) := by
    simp [hj']
  have e2 : (F.map (·.1))[j]'(by simpa using hj) = (E.map (·.1))[j]'(by simp; omega) := by
    simp [hk]
  have : i = j := (List.Nodup.getElem_inj_iff hn).1 (e1.trans e2)
  subst this
  exact hj'.symm

/-- Two value arrays with the same entries in a pattern without duplicates are equal. -/
theorem values_unique {E F : List (Int × Int × T)} {pos : List (Int × Int)} {v w : List T}
    (hE : E.map (fun e => (e.1, e.2.1)) = pos) (hF : F.map (fun e => (e.1, e.2.1)) = pos)
    (hn : pos.Nodup) (hm : ∀ e ∈ E, e ∈ F) (hv : E.map (fun e => e.2.2) = v)
    (hw : F.map (fun e => e.2.2) = w) : v = w := by
  have h : (E.map (fun e => ((e.1, e.2.1), e.2.2))) = F.map (fun e => ((e.1, e.2.1), e.2.2)) := by
    apply eq_of_same_keys
    · rw [List.map_map, List.map_map]; exact hE.trans hF.symm
    · rw [List.map_map]
      have : ((·.1) ∘ fun (e : Int × Int × T) => ((e.1, e.2.1), e.2.2)) = fun e => (e.1, e.2.1) := rfl
      rw [this, hE]; exact hn
    · intro e he
      obtain ⟨x, hx, rfl⟩ := List.mem_map.1 he
      exact List.mem_map.2 ⟨x, hm x hx, rfl⟩
  have := congrArg (List.map (·.2)) h
  rw [List.map_map, List.map_map] at this
  rw [← hv, ← hw]
  exact this

theorem csc_entries_values {s : CSC} (h : s.Wf) {vals : List T}
    (hv : vals.length = s.innerIdx.length) : (s.entries vals).map (fun e => e.2.2) = vals := by
  have hcl := h.colOf_length
  rw [h.entries_eq vals hv, List.map_map]
  apply List.ext_getElem
  · simp [hv, hcl]
  · intro i a b; simp

theorem coo_entries_values {s : COO} (h : s.Wf) {vals : List T}
    (hv : vals.length = s.rowIndices.length) : (s.entries vals).map (fun e => e.2.2) = vals := by
  have hl := h.same_length
  rw [COO.entries, List.map_map]
  apply List.ext_getElem
  · simp [hv, hl]
  · intro i a b; simp

/-- C10. Every conversion runs within the bounds of all its arrays (no fault of any kind), and the
converted values do not depend on the previous contents of the workspace: every output slot is
written. -/
theorem within_bounds_all_written (zero : T) (std : StdLib) (hstd : std.Ok) (dbg : Bool)
    (p : Pattern) (tgt : Target) (hv : p.Valid) (hs : Supported dbg p tgt) :
    ∃ c ws, convert zero std dbg p tgt = .ok c ∧ c.workSize = .ok ws ∧
      ∀ vals : List T, vals.length = p.count →
        ∃ out : List T, out.length = c.sparsity.count ∧
          ∀ wk : List T, wk.length = ws → ∃ o, c.run vals wk = .ok o ∧ o.values vals = out := by
  obtain ⟨c, hc, hf⟩ := convert_faithful zero std hstd dbg p tgt hv hs
  obtain ⟨ws, hws, _, hrun⟩ := hf.work
  refine ⟨c, ws, hc, hws, ?_⟩
  intro vals hl
  obtain ⟨o0, hr0, _, _, hlo, _⟩ := hrun vals (List.replicate ws zero) hl (by simp)
  refine ⟨o0.values vals, hlo, ?_⟩
  intro wk hwk
  obtain ⟨o, hr, hfv, hwv, hlo', hD⟩ := hrun vals wk hl hwk
  refine ⟨o, hr, ?_⟩
  -- the values are determined by the source
  cases p with
  | dense d =>
    have hprod : 0 ≤ d.rows * d.cols := Int.mul_nonneg hv.1 hv.2.1
    simp only [Pattern.count] at hl
    cases tgt with
    | dense =>
      simp only [convert] at hc
      obtain ⟨sp, _, hx⟩ := res_bind_ok.1 hc
      cases hx
      simp only [DenseToDense.convertValues] at hr hr0
      obtain ⟨_, _, hr⟩ := res_bind_ok.1 hr
      obtain ⟨_, _, hr⟩ := res_bind_ok.1 hr
      obtain ⟨_, _, hr0⟩ := res_bind_ok.1 hr0
      obtain ⟨_, _, hr0⟩ := res_bind_ok.1 hr0
      cases hr; cases hr0; rfl
    | coo I f =>
      obtain ⟨hlow, _, hfit, _⟩ := hs
      obtain ⟨sp, hc', e1, e2, e3, e4, hwf, _, _, hrun'⟩ := dense_to_coo dbg I d f
        (denseOk_of hv hlow) hfit vals (by omega)
      rw [convert, hc'] at hc
      cases hc
      simp only [COO.nnz_ok hwf.same_length, res_ok_bind] at hws
      cases hws
      obtain ⟨o1, h1, l1, E1⟩ := hrun' wk hwk
      obtain ⟨o2, h2, l2, E2⟩ := hrun' _ (List.length_replicate (n := DenseToCoo.workSize sp.symmetry
        sp.rowIndices.length) (a := zero))
      cases hr.symm.trans h1
      cases hr0.symm.trans h2
      have hn := E1.1
      rw [coo_entries_positions hwf l1] at hn
      exact values_unique (coo_entries_positions hwf l1) (coo_entries_positions hwf l2) hn
        (fun e he => (E2.2 _ _ _).2 ((E1.2 e.1 e.2.1 e.2.2).1 he)) (coo_entries_values hwf l1)
        (coo_entries_values hwf l2)
    | csc I J ord =>
      obtain ⟨hlow, hfit, hJ, _⟩ := hs
      have hJ' : J.fits (d.rows * d.cols) := by
        have : ((d.rows * d.cols).toNat : Int) = d.rows * d.cols := by omega
        rw [← this]; exact hJ
      obtain ⟨sp, hc', e1, e2, e3, hwf, _, _, hrun'⟩ := dense_to_csc dbg I J d
        (denseOk_of hv hlow) hfit.rows_fit hJ' vals (by omega)
      rw [convert, hc'] at hc
      cases hc
      simp only [CSC.nnz_ok hwf, res_ok_bind] at hws
      cases hws
      obtain ⟨o1, h1, l1, E1⟩ := hrun' wk hwk
      obtain ⟨o2, h2, l2, E2⟩ := hrun' _ (List.length_replicate (n := DenseToCoo.workSize sp.symmetry
        sp.innerIdx.length) (a := zero))
      cases hr.symm.trans h1
      cases hr0.symm.trans h2
      have hn := E1.1
      rw [positions_of_entries_csc hwf l1] at hn
      exact values_unique (positions_of_entries_csc hwf l1) (positions_of_entries_csc hwf l2) hn
        (fun e he => (E2.2 _ _ _).2 ((E1.2 e.1 e.2.1 e.2.2).1 he)) (csc_entries_values hwf l1)
        (csc_entries_values hwf l2)
  | csc I' J' s =>
    obtain ⟨hwf, hord, hnd, hsh, htri⟩ := hv
    have hprod : 0 ≤ s.rows * s.cols := Int.mul_nonneg hwf.rows_nonneg hwf.cols_nonneg
    cases tgt with
    | dense =>
      have key := fun work h2 => csc_to_dense zero dbg s hwf hsh hnd htri vals work hl h2
      obtain ⟨sp, o1, hc', rfl, hws', -, -, -⟩ := key
        (List.replicate (s.rows * s.cols).toNat zero) (by simp; omega)
      rw [convert, hc'] at hc
      cases hc
      have hws2 : ws = (s.rows * s.cols).toNat := by
        have := hws.symm.trans hws'
        simpa using this
      obtain ⟨_, o1, _, _, _, h1, _, D1⟩ := key wk (by omega)
      obtain ⟨_, o2, _, _, _, h2, _, D2⟩ := key (List.replicate ws zero) (by simp; omega)
      subst_vars
      cases hr.symm.trans h1
      cases hr0.symm.trans h2
      exact denseOf_unique hwf.rows_nonneg D1 D2
    | coo I f =>
      simp only [convert] at hc
      obtain ⟨sp, _, hx⟩ := res_bind_ok.1 hc
      cases hx
      simp only [CscToCoo.convertValues] at hr hr0
      obtain ⟨_, _, hr⟩ := res_bind_ok.1 hr
      obtain ⟨_, _, hr⟩ := res_bind_ok.1 hr
      obtain ⟨_, _, hr⟩ := res_bind_ok.1 hr
      obtain ⟨_, _, hr0⟩ := res_bind_ok.1 hr0
      obtain ⟨_, _, hr0⟩ := res_bind_ok.1 hr0
      obtain ⟨_, _, hr0⟩ := res_bind_ok.1 hr0
      cases hr; cases hr0; rfl
    | csc I J ord =>
      obtain ⟨_, hfit, hJ, _⟩ := hs
      obtain ⟨cv, hc', e1, e2, e3, hwf', hot, _, _, hil, hps, hrun'⟩ := csc_to_csc (T := T) std hstd
        dbg I' J' I J s ord hwf hord ⟨hfit.rows_fit, hJ⟩ (fun _ => hnd)
      rw [convert, hc'] at hc
      cases hc
      cases hws
      obtain ⟨o1, h1, l1, E1⟩ := hrun' vals wk hl hwk
      obtain ⟨o2, h2, l2, E2⟩ := hrun' vals _ hl (List.length_replicate
        (n := cv.permutation.length) (a := zero))
      cases hr.symm.trans h1
      cases hr0.symm.trans h2
      have l1 := l1.trans (hl.trans hil.symm)
      have l2 := l2.trans (hl.trans hil.symm)
      exact values_unique (positions_of_entries_csc hwf' l1) (positions_of_entries_csc hwf' l2)
        ((hps.nodup_iff).2 hnd) (fun e he => E2.mem_iff.2 (E1.mem_iff.1 he))
        (csc_entries_values hwf' l1) (csc_entries_values hwf' l2)
  | coo I' s =>
    obtain ⟨hwf, hord, hnd, hsh, htri, hfits, hcol1⟩ := hv
    have hprod : 0 ≤ s.rows * s.cols := Int.mul_nonneg hwf.rows_nonneg hwf.cols_nonneg
    cases tgt with
    | dense =>
      have key := fun work h2 => coo_to_dense zero dbg I' s hwf hfits hsh hnd htri vals work hl h2
      obtain ⟨sp, o1, hc', rfl, hws', -, -, -⟩ := key
        (List.replicate (s.rows * s.cols).toNat zero) (by simp; omega)
      rw [convert, hc'] at hc
      cases hc
      have hws2 : ws = (s.rows * s.cols).toNat := by
        have := hws.symm.trans hws'
        simpa using this
      obtain ⟨_, o1, _, _, _, h1, _, D1⟩ := key wk (by omega)
      obtain ⟨_, o2, _, _, _, h2, _, D2⟩ := key (List.replicate ws zero) (by simp; omega)
      subst_vars
      cases hr.symm.trans h1
      cases hr0.symm.trans h2
      exact denseOf_unique hwf.rows_nonneg D1 D2
    | coo I f =>
      simp only [convert] at hc
      obtain ⟨sp, _, hx⟩ := res_bind_ok.1 hc
      cases hx
      simp only [CscToCoo.convertValues] at hr hr0
      obtain ⟨_, _, hr⟩ := res_bind_ok.1 hr
      obtain ⟨_, _, hr⟩ := res_bind_ok.1 hr
      obtain ⟨_, _, hr⟩ := res_bind_ok.1 hr
      obtain ⟨_, _, hr0⟩ := res_bind_ok.1 hr0
      obtain ⟨_, _, hr0⟩ := res_bind_ok.1 hr0
      obtain ⟨_, _, hr0⟩ := res_bind_ok.1 hr0
      cases hr; cases hr0; rfl
    | csc I J ord =>
      obtain ⟨_, hfit, hJ, hreq⟩ := hs
      obtain ⟨cv, hc', e1, e2, e3, hwf', hot, _, hil, hps, hrun'⟩ := coo_to_csc (T := T) std hstd
        dbg I' I J s ord hwf hord hfits hcol1 hfit hJ
        (by rcases hreq with h | h | ⟨h, h'⟩
            · exact .inl h
            · exact .inr (.inl h)
            · exact .inr (.inr ⟨h, h' I' s rfl⟩)) (fun _ => hnd)
      rw [convert, hc'] at hc
      cases hc
      cases hws
      obtain ⟨o1, h1, l1, E1⟩ := hrun' vals wk hl hwk
      obtain ⟨o2, h2, l2, E2⟩ := hrun' vals _ hl (List.length_replicate
        (n := cv.permutation.length) (a := zero))
      cases hr.symm.trans h1
      cases hr0.symm.trans h2
      have l1 := l1.trans (hl.trans hil.symm)
      have l2 := l2.trans (hl.trans hil.symm)
      exact values_unique (positions_of_entries_csc hwf' l1) (positions_of_entries_csc hwf' l2)
        ((hps.nodup_iff).2 hnd) (fun e he => E2.mem_iff.2 (E1.mem_iff.1 he))
        (csc_entries_values hwf' l1) (csc_entries_values hwf' l2)

/-! ## C13 -/

/-- C13. `convert_values_copy` returns a vector with exactly the converted values. -/
theorem convertValuesCopy_correct (zero : T) (std : StdLib) (hstd : std.Ok) (dbg : Bool)
    (p : Pattern) (tgt : Target) (hv : p.Valid) (hs : Supported dbg p tgt) :
    ∃ c, convert zero std dbg p tgt = .ok c ∧
      ∀ vals : List T, vals.length = p.count →
        ∃ out, convertValuesCopy zero c vals = .ok out ∧ out.length = c.sparsity.count ∧
          ∀ M, p.Denotes zero vals M → c.sparsity.Denotes zero out M := by
  obtain ⟨c, hc, hf⟩ := convert_faithful zero std hstd dbg p tgt hv hs
  obtain ⟨ws, hws, _, hrun⟩ := hf.work
  refine ⟨c, hc, fun vals hl => ?_⟩
  obtain ⟨o, hr, _, _, hlo, hD⟩ := hrun vals (List.replicate ws zero) hl (by simp)
  exact ⟨o.values vals, by rw [convertValuesCopy, hws, res_ok_bind, hr]; rfl, hlo, hD⟩

/-- C13. `convert_values_into` with a (nonempty) result span of the size of the converted matrix: the callback
is called once, with a span of exactly the source's number of values, and the result span then holds
exactly the converted values; the returned workspace can be passed to the next call. -/
theorem convertValuesInto_correct (zero : T) (std : StdLib) (hstd : std.Ok) (dbg : Bool)
    (p : Pattern) (tgt : Target) (hv : p.Valid) (hs : Supported dbg p tgt) :
    ∃ c ws, convert zero std dbg p tgt = .ok c ∧ c.workSize = .ok ws ∧
      ∀ (evaluator : Nat → List T) (result work : List T),
        (evaluator p.count).length = p.count → result.length = c.sparsity.count →
        c.sparsity.count ≠ 0 → (ws = 0 → work = []) →
        ∃ out work', convertValuesInto dbg c result evaluator work = .ok (out, work') ∧
          out.length = c.sparsity.count ∧ (ws = 0 → work' = []) ∧
          ∀ M, p.Denotes zero (evaluator p.count) M → c.sparsity.Denotes zero out M := by
  obtain ⟨c, hc, hf⟩ := convert_faithful zero std hstd dbg p tgt hv hs
  obtain ⟨ws, hws, hws0, hrun⟩ := hf.work
  refine ⟨c, ws, hc, hws, ?_⟩
  intro ev result work hev hres hne hwork
  rw [convertValuesInto, hf.nnzFrom, res_ok_bind, castSz_nat, res_ok_bind, hws, res_ok_bind]
  by_cases h0 : ws = 0
  · subst h0
    have hwk := hwork rfl
    subst hwk
    obtain ⟨o, hr, hfv, hwv, hlo, hD⟩ := hrun (ev p.count) [] hev rfl
    cases hloc : o.loc with
    | fromValues =>
      obtain ⟨_, hcnt, how⟩ := hfv hloc
      rw [if_pos ⟨rfl, by omega⟩]
      have hdrop : result.drop p.count = [] := List.drop_of_length_le (by omega)
      simp only [hdrop, List.append_nil]
      rw [hr, res_ok_bind, assertM_dec hloc, res_ok_bind]
      have hval : o.values (ev p.count) = ev p.count := by simp [Out.values, hloc]
      rw [hval] at hlo hD
      exact ⟨_, _, rfl, hlo, fun _ => how, hD⟩
    | work =>
      exact absurd (hwv hloc).symm hne
  · have hwsc : ws = c.sparsity.count := hws0.resolve_left h0
    rw [if_neg (by rintro ⟨h, _⟩; exact h0 h)]
    obtain ⟨o, hr, hfv, hwv, hlo, hD⟩ := hrun (ev p.count) result hev (by omega)
    have hloc : o.loc = .work := by
      cases hl : o.loc with
      | work => rfl
      | fromValues => exact absurd (hfv hl).1 h0
    simp only []
    rw [hr, res_ok_bind, assertM_dec hloc, res_ok_bind]
    have hval : o.values (ev p.count) = o.work := by simp [Out.values, hloc]
    rw [hval] at hlo hD
    exact ⟨_, _, rfl, hlo, fun h => absurd h h0, hD⟩

/-- A result span that is larger than needed is not supported: with assertions enabled the call
fails although the buffer "is large enough". -/
theorem convertValuesInto_larger_result :
    ∃ c, convert (0 : Int) someStd true (.dense ⟨1, 1, .unsymmetric⟩) .dense = .ok c ∧
      convertValuesInto true c [0, 0] (fun n => List.replicate n 5) [] = .error .assertFail :=
  ⟨_, rfl, rfl⟩

example : ∃ c, convert (0 : Int) someStd true (.csc .int .int exampleCsc) .dense = .ok c ∧
    convertValuesInto true c (List.replicate 9 7) (fun _ => [10, 20, 30]) [] =
      .ok ([10, 0, 30, 0, 0, 0, 30, 0, 20], [10, 20, 30]) :=
  ⟨_, rfl, by decide +kernel⟩

/-! ## C14: requests -/

/-- C14, full statement: for every valid matrix and every request of an existing order, converting
to CSC succeeds, and if sorted rows were requested the result has sorted rows and says so. -/
def RequestsHonoured : Prop :=
  ∀ (std : StdLib), std.Ok → ∀ (dbg : Bool) (p : Pattern) (I J : IntTy) (req : Option CscOrder),
    p.Valid → (isDense p = true → getSymmetry p ≠ .lower) → req ≠ some .invalid →
    FitsIdx I (numRows p) (numCols p) p.base → J.fits p.count →
    ∃ c s, convert (0 : Int) std dbg p (.csc I J req) = .ok c ∧ c.sparsity = .csc I J s ∧
      s.OrderTrue ∧ (req = some .sortedRows → s.order = .sortedRows)

/-- C14, everything but one case: all requests are honoured, except that a build with assertions
refuses the request "unsorted" for a COO matrix sorted by columns and rows. -/
theorem requests_honoured_partial (zero : T) (std : StdLib) (hstd : std.Ok) (dbg : Bool)
    (p : Pattern) (I J : IntTy) (req : Option CscOrder) (hv : p.Valid)
    (hs : Supported dbg p (.csc I J req)) :
    ∃ c s, convert zero std dbg p (.csc I J req) = .ok c ∧ c.sparsity = .csc I J s ∧
      s.OrderTrue ∧ (req = some .sortedRows → s.order = .sortedRows) := by
  cases p with
  | dense d =>
    obtain ⟨hlow, hfit, hJ, _⟩ := hs
    have hprod : 0 ≤ d.rows * d.cols := Int.mul_nonneg hv.1 hv.2.1
    have hJ' : J.fits (d.rows * d.cols) := by
      have : ((d.rows * d.cols).toNat : Int) = d.rows * d.cols := by omega
      rw [← this]; exact hJ
    obtain ⟨sp, hc', _, _, _, hwf, ho, hot, _⟩ := dense_to_csc dbg I J d
      (denseOk_of hv hlow) hfit.rows_fit hJ' (List.replicate (d.rows * d.cols).toNat zero)
      (by simp; omega)
    exact ⟨_, sp, by rw [convert, hc']; rfl, rfl, hot, fun _ => ho⟩
  | csc I' J' s =>
    obtain ⟨_, hfit, hJ, _⟩ := hs
    obtain ⟨hwf, hord, hnd, hsh, htri⟩ := hv
    obtain ⟨cv, hc', _, _, _, _, hot, ho, _⟩ := csc_to_csc (T := T) std hstd
      dbg I' J' I J s req hwf hord ⟨hfit.rows_fit, hJ⟩ (fun _ => hnd)
    exact ⟨_, cv.sparsity, by rw [convert, hc']; rfl, rfl, hot, ho⟩
  | coo I' s =>
    obtain ⟨_, hfit, hJ, hreq⟩ := hs
    obtain ⟨hwf, hord, hnd, hsh, htri, hfits, hcol1⟩ := hv
    obtain ⟨cv, hc', _, _, _, _, hot, ho, _⟩ := coo_to_csc (T := T) std hstd
      dbg I' I J s req hwf hord hfits hcol1 hfit hJ
      (by rcases hreq with h | h | ⟨h, h'⟩
          · exact .inl h
          · exact .inr (.inl h)
          · exact .inr (.inr ⟨h, h' I' s rfl⟩)) (fun _ => hnd)
    exact ⟨_, cv.sparsity, by rw [convert, hc']; rfl, rfl, hot, ho⟩

/-- The one case: the request "unsorted" for a COO matrix that happens to be sorted trips an
assertion. -/
theorem not_requestsHonoured : ¬ RequestsHonoured := by
  intro h
  obtain ⟨c, s, hc, _⟩ := h someStd someStd_ok true
    (.coo .int ⟨1, 1, .unsymmetric, [0], [0], .sortedByColsAndRows, 0⟩) .int .int (some .unsorted)
    (by
      refine ⟨⟨by decide, by decide, by decide, by decide, by decide⟩, ?_, by decide,
        ⟨by decide, by decide⟩, fun _ _ => trivial,
        ⟨by decide, by decide, by decide, by decide, by decide⟩, by decide⟩
      simp [COO.OrderTrue, COO.positions])
    (by intro h; cases h) (by decide)
    ⟨by decide, by decide, by decide, by decide, by decide⟩ (by decide)
  have : convert (0 : Int) someStd true
      (.coo .int ⟨1, 1, .unsymmetric, [0], [0], .sortedByColsAndRows, 0⟩)
      (.csc .int .int (some .unsorted)) = .error .assertFail := rfl
  rw [this] at hc
  cases hc

/-- C14. An invalid order flag of a COO matrix is refused with `std::invalid_argument`. -/
theorem invalid_order_refused (zero : T) (std : StdLib) (dbg : Bool) (I I' J : IntTy) (s : COO)
    (req : Option CscOrder) (h : s.order = .invalid) :
    (convert zero std dbg (.coo I' s) (.csc I J req)).toOption.isNone = true ∧
      CooToCsc.construct std dbg I' I J s req = .error (.throw .invalidArgument) := by
  have h1 : CooToCsc.construct std dbg I' I J s req = .error (.throw .invalidArgument) := by
    have h2 : CooToCsc.chooseOrder req s.order = .error (.throw .invalidArgument) := by
      rw [h]; unfold CooToCsc.chooseOrder; split <;> rfl
    rw [CooToCsc.construct, CooToCsc.convertSparsity, h2]
    rfl
  refine ⟨?_, h1⟩
  rw [convert, h1]; rfl

/-- C14. An invalid order flag of a CSC matrix is refused when sorting is requested. -/
theorem invalid_order_refused_csc (std : StdLib) (dbg : Bool) (I' J' I J : IntTy) (s : CSC)
    (h : s.order = .invalid) :
    CscToCsc.construct std dbg I' J' I J s (some .sortedRows) =
      .error (.throw .invalidArgument) := by
  have h2 : CscToCsc.chooseOrder (some .sortedRows) s.order = .error (.throw .invalidArgument) := by
    rw [h]; rfl
  rw [CscToCsc.construct, CscToCsc.convertSparsity, h2]
  rfl

/-! ## The accessors of `Sparsity` -/

/-- C75. `num_rows`, `num_cols`, `get_symmetry` and `get_nnz` of a valid pattern are preserved by
every conversion as far as they must be: shape and symmetry are unchanged, and `get_nnz` is the
number of values the converted matrix has. -/
theorem accessors_consistent (zero : T) (std : StdLib) (hstd : std.Ok) (dbg : Bool)
    (p : Pattern) (tgt : Target) (hv : p.Valid) (hs : Supported dbg p tgt) :
    ∃ c, convert zero std dbg p tgt = .ok c ∧
      numRows c.sparsity = numRows p ∧ numCols c.sparsity = numCols p ∧
      getSymmetry c.sparsity = getSymmetry p ∧
      (isDense c.sparsity = true ↔ tgt = .dense) ∧
      getNnz dbg p = .ok p.count ∧ c.nnzFrom = getNnz dbg p ∧
      getNnz dbg c.sparsity = .ok c.sparsity.count := by
  have hnnz : ∀ q : Pattern, q.Valid → getNnz dbg q = .ok q.count := by
    intro q hq
    cases q with
    | dense d =>
      have : 0 ≤ d.rows * d.cols := Int.mul_nonneg hq.1 hq.2.1
      simp only [getNnz, Pattern.count]; congr 1; omega
    | csc I J s => exact CSC.nnz_ok hq.1 dbg
    | coo I s => exact COO.nnz_ok hq.1.same_length dbg
  obtain ⟨c, hc, hf⟩ := convert_faithful zero std hstd dbg p tgt hv hs
  refine ⟨c, hc, hf.rows, hf.cols, hf.symmetry, ?_, hnnz p hv, by rw [hnnz p hv]; exact hf.nnzFrom,
    hnnz _ hf.valid⟩
  cases p <;> cases tgt <;> simp only [convert] at hc <;> obtain ⟨x, _, hx⟩ := res_bind_ok.1 hc <;>
    cases hx <;> simp [isDense]

end Guanaqo.Sparsity
