import Verif.Sparsity.EigenSparse

/-!
# C91, exactly: when the Eigen object made of a pattern is the matrix of the pattern
-/

namespace Guanaqo.Sparsity

variable {T : Type}

/-- `coeff(r, c)` of a map (Eigen, `SparseMapBase::coeff`): the last entry of the column is looked at first, and the search leaves it out. -/
def ESparse.mapCoeff (std : StdLib) (zero : T) (e : ESparse T) (r : Int) (c : Nat) : T :=
  let col := slice (e.inner.zip e.values) (e.first c).toNat (e.last c).toNat
  match col.getLast? with
  | none => zero
  | some l =>
    if l.1 = r then l.2
    else
      match col[std.lowerBound (col.dropLast.map (·.1)) r]? with
      | some x => if x.1 = r then x.2 else zero
      | none => zero

/-- For every valid Eigen object the two ways to look up a coefficient agree. -/
theorem mapCoeff_eq (std : StdLib) (hstd : std.Ok) (zero : T) (e : ESparse T) (he : e.Wf) (r : Int) (c : Nat) (hc : (c : Int) < e.cols) :
    e.mapCoeff std zero r c = e.coeff std zero r c := by
  have hkeys : (slice (e.inner.zip e.values) (e.first c).toNat (e.last c).toNat).map (·.1) = slice e.inner (e.first c).toNat (e.last c).toNat := by
    rw [← slice_map]
    congr 1
    exact List.map_fst_zip (by have := he.values_length; omega)
  have hs := he.inner_sorted c hc
  rw [← hkeys] at hs
  unfold ESparse.mapCoeff ESparse.coeff
  generalize slice (e.inner.zip e.values) (e.first c).toNat (e.last c).toNat = col at hs
  rcases List.eq_nil_or_concat col with rfl | ⟨l, x, rfl⟩
  · simp
  · rw [List.concat_eq_append] at hs ⊢
    simp only [List.getLast?_append, List.getLast?_singleton, Option.some_or, List.dropLast_concat]
    rw [List.map_append] at hs ⊢
    have h2 := List.pairwise_append.1 hs
    rw [hstd.lowerBound _ r (h2.1.imp Int.le_of_lt), hstd.lowerBound _ r (hs.imp Int.le_of_lt), List.countP_append]
    have hl : (l.map (·.1)).countP (fun y => decide (y < r)) ≤ l.length := by
      have := List.countP_le_length (p := fun y => decide (y < r)) (l := l.map (·.1))
      simpa using this
    by_cases hx : x.1 = r
    · rw [if_pos hx]
      have : (l.map (·.1)).countP (fun y => decide (y < r)) = l.length := by
        have := (List.countP_eq_length (p := fun y => decide (y < r)) (l := l.map (·.1))).2 fun y hy => by
          have := h2.2.2 y hy x.1 (by simp)
          exact decide_eq_true (by omega)
        rwa [List.length_map] at this
      rw [this]
      simp [hx]
    · rw [if_neg hx]
      by_cases hlt : x.1 < r
      · have e1 : (l.map (·.1)).countP (fun y => decide (y < r)) = l.length := by
          have := (List.countP_eq_length (p := fun y => decide (y < r)) (l := l.map (·.1))).2 fun y hy => by
            have := h2.2.2 y hy x.1 (by simp)
            exact decide_eq_true (by omega)
          rwa [List.length_map] at this
        rw [e1]
        simp [hlt, hx]
      · have e2 : List.countP (fun y => decide (y < r)) (List.map (·.1) [x]) = 0 := by simp [hlt]
        rw [e2]
        rfl

/-- A library whose `lower_bound` returns the end of ranges that are not sorted. -/
def badStd : StdLib where
  sort := someSort
  lowerBound := fun l v => if l.Pairwise (· ≤ ·) then l.countP (fun x => decide (x < v)) else l.length

theorem badStd_ok : badStd.Ok := ⟨someSort_contract, fun _ _ h => if_pos h⟩

theorem coeff_eq (std : StdLib) (zero : T) (s : CSC) (values : List T) (r : Int) (c : Nat) :
    (⟨s.rows, s.cols, s.outerPtr, s.innerIdx, values, none⟩ : ESparse T).coeff std zero r c =
      match (slice (s.innerIdx.zip values) (s.start c) (s.start (c + 1)))[
          std.lowerBound ((slice (s.innerIdx.zip values) (s.start c) (s.start (c + 1))).map (·.1)) r]? with
      | some x => if x.1 = r then x.2 else zero
      | none => zero := rfl

/-- What `coeff` finds is an entry. -/
theorem coeff_mem (std : StdLib) (zero : T) (s : CSC) (values : List T) (r : Int) (c : Nat) (hc : (c : Int) < s.cols)
    (h : (⟨s.rows, s.cols, s.outerPtr, s.innerIdx, values, none⟩ : ESparse T).coeff std zero r c ≠ zero) :
    (r, (c : Int), (⟨s.rows, s.cols, s.outerPtr, s.innerIdx, values, none⟩ : ESparse T).coeff std zero r c) ∈ s.entries values := by
  rw [mem_entries hc]
  rw [coeff_eq] at h ⊢
  generalize slice (s.innerIdx.zip values) (s.start c) (s.start (c + 1)) = col at h
  cases hx : col[std.lowerBound (col.map (·.1)) r]? with
  | none => rw [hx] at h; exact absurd rfl h
  | some x =>
    rw [hx] at h
    dsimp only at h ⊢
    by_cases hr : x.1 = r
    · rw [if_pos hr, ← hr]
      exact List.mem_of_getElem? hx
    · rw [if_neg hr] at h; exact absurd rfl h

theorem entries_range {s : CSC} (hw : s.Wf) {values : List T} {r c : Int} {v : T} (h : (r, c, v) ∈ s.entries values) :
    (0 ≤ r ∧ r < s.rows) ∧ ∃ d : Nat, c = d ∧ (d : Int) < s.cols := by
  unfold CSC.entries at h
  obtain ⟨d, hd, hm⟩ := List.mem_flatMap.1 h
  obtain ⟨p, hp, he⟩ := List.mem_map.1 hm
  obtain ⟨p1, p2⟩ := p
  simp only [Prod.mk.injEq] at he
  obtain ⟨rfl, rfl, rfl⟩ := he
  refine ⟨hw.inner_range _ ?_, d, rfl, by have := List.mem_range.1 hd; omega⟩
  exact (List.of_mem_zip (List.mem_of_mem_take (List.mem_of_mem_drop hp))).1

/-- C91, exactly: for a pattern without duplicates, the Eigen object has the coefficients of the matrix of the pattern (with every standard library)
if and only if the rows of each column are sorted, and each entry of a symmetric pattern has its mirror image stored, too. -/
theorem as_eigen_denotes_iff (dbg : Bool) (s : CSC) (hw : s.Wf) (hu : s.Unique) (hsq : s.symmetry ≠ .unsymmetric → s.rows = s.cols)
    (values : List Int) (hv : values.length = s.innerIdx.length) :
    (∃ e, asEigen dbg s values = .ok e ∧ Denotes e s.symmetry (s.entries values)) ↔
    s.RowsSorted ∧ (s.symmetry ≠ .unsymmetric → ∀ r c v, (r, c, v) ∈ s.entries values → (c, r, v) ∈ s.entries values) := by
  constructor
  · rintro ⟨e, he, hd⟩
    have he' : e = ⟨s.rows, s.cols, s.outerPtr, s.innerIdx, values, none⟩ := by
      unfold asEigen at he
      obtain ⟨n, -, h⟩ := res_bind_ok.1 he
      exact (Except.ok.inj h).symm
    subst he'
    constructor
    · intro c hc
      by_contra hns
      have hkeys : (slice (s.innerIdx.zip values) (s.start c) (s.start (c + 1))).map (·.1) =
          slice s.innerIdx (s.start c) (s.start (c + 1)) := by
        rw [← slice_map]
        congr 1
        exact List.map_fst_zip (by omega)
      have hco : ∀ zero r, (⟨s.rows, s.cols, s.outerPtr, s.innerIdx, values, none⟩ : ESparse Int).coeff badStd zero r c = zero := by
        intro zero r
        rw [coeff_eq]
        have hb : badStd.lowerBound ((slice (s.innerIdx.zip values) (s.start c) (s.start (c + 1))).map (·.1)) r =
            (slice (s.innerIdx.zip values) (s.start c) (s.start (c + 1))).length := by
          show (if _ then _ else _) = _
          rw [if_neg (by rw [hkeys]; exact hns), List.length_map]
        rw [hb, List.getElem?_eq_none (Nat.le_refl _)]
      cases hcol : slice (s.innerIdx.zip values) (s.start c) (s.start (c + 1)) with
      | nil =>
        rw [hcol] at hkeys
        rw [← hkeys] at hns
        exact hns List.Pairwise.nil
      | cons x col =>
        have hm : (x.1, (c : Int), x.2) ∈ s.entries values := by rw [mem_entries hc, hcol]; simp
        obtain ⟨⟨h1, h2⟩, -⟩ := entries_range hw hm
        have := (hd badStd badStd_ok (x.2 + 1) x.1 c h1 h2 hc).1 x.2 (.inl hm)
        rw [hco] at this
        omega
    · intro hsym r c v hm
      obtain ⟨⟨h1, h2⟩, d, rfl, h3⟩ := entries_range hw hm
      obtain ⟨r, rfl⟩ := Int.eq_ofNat_of_zero_le h1
      have hsq' := hsq hsym
      have hr : (r : Int) < s.cols := by omega
      have := (hd someStd someStd_ok (v + 1) (d : Int) r (by omega) (show (d : Int) < s.rows by omega) hr).1 v (.inr ⟨hsym, hm⟩)
      have hmem := coeff_mem someStd (v + 1) s values (d : Int) r hr (by rw [this]; omega)
      rwa [this] at hmem
  · rintro ⟨hs, hmir⟩
    obtain ⟨e, he, -, -, -, -, hh⟩ := as_eigen_entries_partial dbg s hw hs hu values hv
    refine ⟨e, he, fun std hstd zero r c h1 h2 h3 => ?_⟩
    obtain ⟨ha, hb⟩ := hh std hstd zero r c h1 h2 h3
    exact ⟨fun v hv => ha v (hv.elim id fun h => hmir h.1 _ _ _ h.2), fun hno => hb fun v hm => hno v (.inl hm)⟩

/-- In particular, a symmetric pattern that stores one triangle is only right if nothing is outside the diagonal. -/
theorem as_eigen_triangle_iff (dbg : Bool) (s : CSC) (hw : s.Wf) (hu : s.Unique) (hsq : s.rows = s.cols) (hsym : s.symmetry ≠ .unsymmetric)
    (values : List Int) (hv : values.length = s.innerIdx.length) (htri : ∀ r c v, (r, c, v) ∈ s.entries values → InTriangle s.symmetry r c) :
    (∃ e, asEigen dbg s values = .ok e ∧ Denotes e s.symmetry (s.entries values)) ↔
    s.RowsSorted ∧ ∀ r c v, (r, c, v) ∈ s.entries values → r = c := by
  rw [as_eigen_denotes_iff dbg s hw hu (fun _ => hsq) values hv]
  constructor
  · rintro ⟨h1, h2⟩
    refine ⟨h1, fun r c v h => ?_⟩
    have a := htri r c v h
    have b := htri c r v (h2 hsym r c v h)
    revert a b hsym
    cases s.symmetry <;> simp only [InTriangle] <;> intros <;> first | omega | contradiction
  · rintro ⟨h1, h2⟩
    refine ⟨h1, fun _ r c v h => ?_⟩
    have := h2 r c v h
    subst this
    exact h

example : exSym.Wf ∧ exSym.Unique ∧ exSym.rows = exSym.cols ∧ exSym.symmetry ≠ .unsymmetric ∧
    ¬ (∀ r c v, (r, c, v) ∈ exSym.entries [5, 6, 7] → r = c) := by
  refine ⟨exSym_wf, by unfold CSC.Unique; decide, rfl, by decide, fun h => ?_⟩
  have := h 0 1 6 (by decide)
  exact absurd this (by decide)

end Guanaqo.Sparsity
