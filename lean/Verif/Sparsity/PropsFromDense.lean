import Verif.Sparsity.FromDense

/-!
# C03, C04 and the from-dense part of C09 and C10
-/

namespace Guanaqo.Sparsity

variable {T : Type}

theorem FitsIdx.nat {I : IntTy} {rows cols base : Int} (h : FitsIdx I rows cols base) {r : Int}
    (h1 : 0 ≤ r) (h2 : r ≤ rows ∨ r ≤ cols) :
    I.cast r = r ∧ I.add r base = .ok (r + base) := by
  rcases h2 with h2 | h2
  · have f1 : I.fits r := IntTy.fits_between I.fits_zero h.rows_fit h1 h2
    have f2 : I.fits (r + base) := IntTy.fits_between h.base_fit h.rows_base_fit (by omega) (by omega)
    exact ⟨IntTy.cast_eq f1, IntTy.add_ok f2⟩
  · have f1 : I.fits r := IntTy.fits_between I.fits_zero h.cols_fit h1 h2
    have f2 : I.fits (r + base) := IntTy.fits_between h.base_fit h.cols_base_fit (by omega) (by omega)
    exact ⟨IntTy.cast_eq f1, IntTy.add_ok f2⟩

theorem dense_indices {I : IntTy} {Δ : Int} {m n : Nat} (hfit : FitsIdx I m n Δ) {hi : Nat → Nat}
    {hiI : Int → Int} (hhi : ∀ c : Nat, hiI c = (hi c : Int)) (hh : ∀ c, c < n → hi c ≤ m) :
    DenseToCoo.indices I Δ n hiI (off hi n) =
      .ok (off hi n, (dpos hi n).map (fun p => (p.1 : Int) + Δ),
        (dpos hi n).map (fun p => (p.2 : Int) + Δ)) := by
  have h1 : DenseToCoo.indices I Δ n hiI (off hi n) =
      (dpos hi n).foldlM (fun s p => DenseToCoo.body I Δ (p.2 : Int) (p.1 : Int) s)
        (0, List.replicate (off hi n) 0, List.replicate (off hi n) 0) := by
    rw [DenseToCoo.indices, forRange_eq_foldlM, rangeI_zero, foldlM_map', dpos, foldlM_flatMap']
    congr 1
    funext s c
    rw [hhi, forRange_eq_foldlM, rangeI_zero, foldlM_map', foldlM_map']
  have h2 := fill2 (f := fun (p : Nat × Nat) s => DenseToCoo.body I Δ (p.2 : Int) (p.1 : Int) s)
    (g := fun p => (p.1 : Int) + Δ) (h := fun p => (p.2 : Int) + Δ)
    (S := fun p => p ∈ dpos hi n)
    (by
      intro p l v w hp hl hl'
      obtain ⟨hc, hr⟩ := mem_dpos.1 hp
      have hrm := hh _ hc
      obtain ⟨c1, a1⟩ := hfit.nat (r := (p.1 : Int)) (by omega) (.inl (by omega))
      obtain ⟨c2, a2⟩ := hfit.nat (r := (p.2 : Int)) (by omega) (.inr (by omega))
      simp only [DenseToCoo.body, c1, a1, c2, a2, res_ok_bind, wr_ok _ hl, wr_ok _ hl'])
    (dpos hi n) (fun _ h => h) [] [] (List.replicate (off hi n) 0) (List.replicate (off hi n) 0)
    rfl (by simp [dpos_length]) (by simp [dpos_length])
  rw [h1]
  simp only [List.length_nil, List.nil_append, dpos_length, Nat.zero_add] at h2
  exact h2

/-- The COO pattern made from the positions of a dense matrix. -/
def dcoo (d : Dense) (m n : Nat) (hi : Nat → Nat) (base : Int) : COO :=
  { rows := m, cols := n, symmetry := d.symmetry,
    rowIndices := (dpos hi n).map (fun p => (p.1 : Int) + base),
    colIndices := (dpos hi n).map (fun p => (p.2 : Int) + base),
    order := .sortedByColsAndRows, firstIndex := base }

theorem dcoo_positions (d : Dense) (m n : Nat) (hi : Nat → Nat) (base : Int) :
    (dcoo d m n hi base).positions = (dpos hi n).map (fun p => ((p.1 : Int), (p.2 : Int))) := by
  simp only [COO.positions, dcoo]
  apply List.ext_getElem
  · simp
  · intro i a b; simp

theorem dcoo_entries (d : Dense) (m n : Nat) (hi : Nat → Nat) (base : Int) (vals : List T) :
    (dcoo d m n hi base).entries (dvals m hi n vals) = dentries m hi n vals := by
  simp only [COO.entries, dcoo, dentries]
  apply List.ext_getElem
  · simp
  · intro i a b; simp

theorem dcoo_wf (d : Dense) (m n : Nat) (hi : Nat → Nat) (base : Int)
    (hh : ∀ c, c < n → hi c ≤ m) : (dcoo d m n hi base).Wf := by
  refine ⟨by simp [dcoo], by simp [dcoo], by simp [dcoo], ?_, ?_⟩
  · intro x hx
    obtain ⟨p, hp, rfl⟩ := List.mem_map.1 hx
    obtain ⟨h1, h2⟩ := mem_dpos.1 hp
    have := hh _ h1
    simp only [dcoo]; omega
  · intro x hx
    obtain ⟨p, hp, rfl⟩ := List.mem_map.1 hx
    obtain ⟨h1, h2⟩ := mem_dpos.1 hp
    simp only [dcoo]; omega

theorem dcoo_order (d : Dense) (m n : Nat) (hi : Nat → Nat) (base : Int) :
    (dcoo d m n hi base).OrderTrue := by
  simp only [COO.OrderTrue, dcoo_positions]
  change List.Pairwise colRowLe _
  rw [List.pairwise_map]
  exact (dpos_sorted hi n).imp (by
    intro p q h; simp only [colRowLe]; omega)

/-- A dense sparsity that the converters to sparse accept. -/
def DenseOk (d : Dense) : Prop :=
  0 ≤ d.rows ∧ 0 ≤ d.cols ∧
    (d.symmetry = .unsymmetric ∨ (d.symmetry = .upper ∧ d.rows = d.cols))

/-- The entries of the unsymmetric case. -/
theorem entriesOfDense_full {m n : Nat} {vals : List T} (hv : vals.length = m * n) :
    EntriesOfDense m n .unsymmetric vals (dentries m (fun _ => m) n vals) := by
  refine ⟨dentries_nodup hv (fun _ _ => le_refl _), ?_⟩
  intro r c v
  rw [mem_dentries hv (fun _ _ => le_refl _)]
  simp only [InTriangle, true_and]
  constructor
  · rintro ⟨h1, h2, h3, h4, h5⟩; exact ⟨h1, by omega, h2, by omega, h5⟩
  · rintro ⟨h1, h2, h3, h4, h5⟩; exact ⟨h1, h3, by omega, by omega, h5⟩

/-- The entries of the upper triangular case. -/
theorem entriesOfDense_upper {n : Nat} {vals : List T} (hv : vals.length = n * n) :
    EntriesOfDense n n .upper vals (dentries n (fun c => c + 1) n vals) := by
  refine ⟨dentries_nodup hv (fun c hc => hc), ?_⟩
  intro r c v
  rw [mem_dentries hv (fun c hc => hc)]
  simp only [InTriangle]
  constructor
  · rintro ⟨h1, h2, h3, h4, h5⟩; exact ⟨h1, by omega, h2, by omega, by omega, h5⟩
  · rintro ⟨h1, h2, h3, h4, h5, h6⟩; exact ⟨h1, h3, by omega, by omega, h6⟩

/-- C03. Dense to COO: for every accepted dense sparsity, every requested index base and every
index type that can hold the indices, the produced COO pattern is well-formed, has the requested
base and a truthful order flag, and the converted values pair every position of the (upper
triangle of the) matrix with its value, each position exactly once. -/
theorem dense_to_coo (dbg : Bool) (I : IntTy) (d : Dense) (req : Option Int) (hd : DenseOk d)
    (hfit : FitsIdx I d.rows d.cols (req.getD 0)) (vals : List T)
    (hv : (vals.length : Int) = d.rows * d.cols) :
    ∃ sp, DenseToCoo.construct dbg I d req = .ok sp ∧
      sp.rows = d.rows ∧ sp.cols = d.cols ∧ sp.symmetry = d.symmetry ∧
      sp.firstIndex = req.getD 0 ∧ sp.Wf ∧ sp.order = .sortedByColsAndRows ∧ sp.OrderTrue ∧
      ∀ work : List T,
        work.length = DenseToCoo.workSize sp.symmetry sp.rowIndices.length →
        ∃ o, DenseToCoo.convertValues dbg sp vals work = .ok o ∧
          (o.values vals).length = sp.rowIndices.length ∧
          EntriesOfDense d.rows d.cols d.symmetry vals (sp.entries (o.values vals)) := by
  obtain ⟨drows, dcols, dsym⟩ := d
  obtain ⟨h1, h2, h3⟩ := hd
  simp only at h1 h2 h3 hfit hv ⊢
  obtain ⟨m, rfl⟩ := Int.eq_ofNat_of_zero_le h1
  obtain ⟨n, rfl⟩ := Int.eq_ofNat_of_zero_le h2
  have hv' : vals.length = m * n := by exact_mod_cast hv
  have hsz : (m : Int) * (n : Int) = ((m * n : Nat) : Int) := by norm_cast
  rcases h3 with rfl | ⟨rfl, h3⟩
  · refine ⟨dcoo ⟨m, n, .unsymmetric⟩ m n (fun _ => m) (req.getD 0), ?_, rfl, rfl, rfl, rfl,
      dcoo_wf _ _ _ _ _ (fun _ _ => le_refl _), rfl, dcoo_order _ _ _ _ _, ?_⟩
    · simp only [DenseToCoo.construct, castSz_nat, res_ok_bind]
      rw [← off_const m n, dense_indices hfit (fun _ => rfl) (fun _ _ => le_refl _)]
      rfl
    · intro work hw
      refine ⟨⟨.fromValues, work⟩, ?_, ?_, ?_⟩
      · have hl : (dcoo ⟨m, n, .unsymmetric⟩ m n (fun _ => m) (req.getD 0)).rowIndices.length =
            (dcoo ⟨m, n, .unsymmetric⟩ m n (fun _ => m) (req.getD 0)).colIndices.length := by
          simp [dcoo]
        rw [DenseToCoo.convertValues, show castSz dbg _ = .ok (m * n) from hsz ▸ castSz_nat _,
          res_ok_bind, assertM_dec hv', res_ok_bind, COO.nnz_ok hl, res_ok_bind, assertM_dec hw]
        rfl
      · simp only [Out.values, dcoo, List.length_map, dpos_length, off_const, hv']
      · have e := dcoo_entries ⟨m, n, .unsymmetric⟩ m n (fun _ => m) (req.getD 0) vals
        rw [dvals_full hv'] at e
        simp only [Out.values]
        rw [e]
        exact entriesOfDense_full hv'
  · have hmn : m = n := by exact_mod_cast h3
    subst hmn
    have hh : ∀ c, c < m → c + 1 ≤ m := fun c hc => hc
    refine ⟨dcoo ⟨m, m, .upper⟩ m m (fun c => c + 1) (req.getD 0), ?_, rfl, rfl, rfl, rfl,
      dcoo_wf _ _ _ _ _ hh, rfl, dcoo_order _ _ _ _ _, ?_⟩
    · simp only [DenseToCoo.construct, ne_eq, not_true_eq_false, if_false, castSz_nat, res_ok_bind]
      rw [castSz_ok (by omega), res_ok_bind, show ((m : Int) + 1).toNat = m + 1 by omega,
        ← off_tri m, dense_indices hfit (hi := fun c => c + 1) (fun c => by simp) hh]
      rfl
    · intro work hw
      have hlen : (dcoo ⟨m, m, .upper⟩ m m (fun c => c + 1) (req.getD 0)).rowIndices.length =
          off (fun c => c + 1) m := by simp [dcoo, dpos_length]
      rw [hlen] at hw
      have hw' : work.length = off (fun c => c + 1) m := by
        simpa [DenseToCoo.workSize, dcoo] using hw
      refine ⟨⟨.work, dvals m (fun c => c + 1) m vals⟩, ?_, ?_, ?_⟩
      · have hl : (dcoo ⟨m, m, .upper⟩ m m (fun c => c + 1) (req.getD 0)).rowIndices.length =
            (dcoo ⟨m, m, .upper⟩ m m (fun c => c + 1) (req.getD 0)).colIndices.length := by
          simp [dcoo]
        rw [DenseToCoo.convertValues, show castSz dbg _ = .ok (m * m) from hsz ▸ castSz_nat _,
          res_ok_bind, assertM_dec hv', res_ok_bind, COO.nnz_ok hl, res_ok_bind, hlen,
          assertM_dec hw]
        change (forRange 0 m (DenseToCoo.packBody dbg m vals) (0, work) >>= _) = _
        rw [packLoop dbg hv' rfl hw']
        rfl
      · rw [hlen]; exact dvals_length hv' hh
      · simp only [Out.values]
        rw [dcoo_entries]
        exact entriesOfDense_upper hv'

/-! ## Dense to CSC -/

/-- The CSC pattern made from the positions of a dense matrix. -/
def dcsc (d : Dense) (m n : Nat) (hi : Nat → Nat) : CSC :=
  { rows := m, cols := n, symmetry := d.symmetry,
    innerIdx := (dpos hi n).map (fun p => (p.1 : Int)),
    outerPtr := (List.range (n + 1)).map (fun c => (off hi c : Int)),
    order := .sortedRows }

theorem dcsc_start (d : Dense) (m n : Nat) (hi : Nat → Nat) {c : Nat} (hc : c ≤ n) :
    (dcsc d m n hi).start c = off hi c := by
  have : c < n + 1 := by omega
  simp [CSC.start, dcsc, List.getD, this]

theorem dcsc_getD (d : Dense) (m n : Nat) (hi : Nat → Nat) {c : Nat} (hc : c ≤ n) :
    (dcsc d m n hi).outerPtr.getD c 0 = (off hi c : Int) := by
  have : c < n + 1 := by omega
  simp [dcsc, List.getD, this]

theorem dcsc_wf (d : Dense) (m n : Nat) (hi : Nat → Nat) (hh : ∀ c, c < n → hi c ≤ m) :
    (dcsc d m n hi).Wf := by
  refine ⟨by simp [dcsc], by simp [dcsc], by simp [dcsc], ?_, ?_, ?_, ?_⟩
  · rw [dcsc_getD _ _ _ _ (by omega)]; rfl
  · intro c hc
    have hc : c < n := by simp [dcsc] at hc; exact hc
    rw [dcsc_getD _ _ _ _ (by omega), dcsc_getD _ _ _ _ (by omega)]
    have : off hi c ≤ off hi (c + 1) := off_mono (by omega)
    omega
  · have : (dcsc d m n hi).cols.toNat = n := by simp [dcsc]
    rw [this, dcsc_getD _ _ _ _ (le_refl _)]
    simp [dcsc, dpos_length]
  · intro x hx
    obtain ⟨p, hp, rfl⟩ := List.mem_map.1 hx
    obtain ⟨h1, h2⟩ := mem_dpos.1 hp
    have := hh _ h1
    simp only [dcsc]; omega

theorem dcsc_inner_eq (hi : Nat → Nat) (n : Nat) :
    (dpos hi n).map (fun p => (p.1 : Int)) =
      (List.range n).flatMap (fun c => (List.range (hi c)).map (fun r : Nat => (r : Int))) := by
  simp [dpos, List.map_flatMap, Function.comp_def]

theorem dcsc_slice (d : Dense) (m n : Nat) (hi : Nat → Nat) {c : Nat} (hc : c < n) :
    slice (dcsc d m n hi).innerIdx ((dcsc d m n hi).start c) ((dcsc d m n hi).start (c + 1)) =
      (List.range (hi c)).map (fun r : Nat => (r : Int)) := by
  rw [dcsc_start _ _ _ _ (by omega), dcsc_start _ _ _ _ (by omega)]
  change slice ((dpos hi n).map (fun p => (p.1 : Int))) _ _ = _
  rw [dcsc_inner_eq]
  exact slice_flatMap (hi := hi)
    (f := fun c => (List.range (hi c)).map (fun r : Nat => (r : Int))) (fun c _ => by simp) hc

theorem dcsc_order (d : Dense) (m n : Nat) (hi : Nat → Nat) : (dcsc d m n hi).OrderTrue := by
  change (dcsc d m n hi).RowsSorted
  intro c hc
  have hc : c < n := by simp [dcsc] at hc; exact hc
  rw [dcsc_slice _ _ _ _ hc, List.pairwise_map]
  exact List.pairwise_lt_range.imp (by intro a b h; omega)

theorem dcsc_entries (d : Dense) (m n : Nat) (hi : Nat → Nat) (vals : List T)
    (hv : vals.length = m * n) (hh : ∀ c, c < n → hi c ≤ m) :
    (dcsc d m n hi).entries (dvals m hi n vals) = dentries m hi n vals := by
  have hlen : ∀ c ∈ List.range n, ((List.range (hi c)).map (fun r : Nat => (r, c))).length =
      ((vals.drop (c * m)).take (hi c)).length := by
    intro c hc
    have hc := List.mem_range.1 hc
    have := hh c hc
    have h1 : (c + 1) * m ≤ n * m := Nat.mul_le_mul_right _ hc
    have h2 : (c + 1) * m = c * m + m := by ring
    have h3 : n * m = m * n := by ring
    simp; omega
  rw [dentries, dpos, dvals, zip_flatMap hlen, List.map_flatMap, CSC.entries]
  have hcols : (dcsc d m n hi).cols.toNat = n := by simp [dcsc]
  rw [hcols]
  apply List.flatMap_congr
  intro c hc
  have hc' := List.mem_range.1 hc
  have hl := hlen c hc
  rw [slice_zip, dcsc_slice _ _ _ _ hc', dcsc_start _ _ _ _ (by omega),
    dcsc_start _ _ _ _ (by omega)]
  rw [slice_flatMap (hi := hi) (f := fun c => (vals.drop (c * m)).take (hi c)) (fun c hc => by
    have := hlen c (List.mem_range.2 hc)
    simpa using this.symm) hc']
  apply List.ext_getElem
  · simp
  · intro i a b; simp

theorem denseCsc_inner {I : IntTy} {m : Nat} (hI : I.fits m) (k : Nat) (hk : k ≤ m)
    (pre junk rest outer : List Int) (hj : junk.length = k) :
    forRange 0 k (DenseToCsc.innerBody I) (pre.length, pre ++ junk ++ rest, outer) =
      .ok (pre.length + k, pre ++ (List.range k).map (fun r : Nat => (r : Int)) ++ rest, outer) := by
  rw [forRange_eq_foldlM, rangeI_zero, foldlM_map']
  have key : ∀ (P : List Nat), (∀ r ∈ P, r ≤ m) → ∀ (pre junk : List Int),
      junk.length = P.length →
      P.foldlM (fun s (r : Nat) => DenseToCsc.innerBody I (r : Int) s)
        (pre.length, pre ++ junk ++ rest, outer) =
      .ok (pre.length + P.length, pre ++ P.map (fun r : Nat => (r : Int)) ++ rest, outer) := by
    intro P
    induction P with
    | nil =>
      intro _ pre junk hj
      have : junk = [] := List.length_eq_zero_iff.1 hj
      subst this; simp
    | cons a P ih =>
      intro hP pre junk hj
      match junk, hj with
      | y :: junk, hj =>
        have hj : junk.length = P.length := by simpa using hj
        have ha := hP a (by simp)
        have hf : I.cast (a : Int) = a :=
          IntTy.cast_eq (IntTy.fits_between I.fits_zero hI (by omega) (by omega))
        have e : (pre ++ y :: junk ++ rest).set pre.length (a : Int)
            = pre ++ [(a : Int)] ++ junk ++ rest := by simp
        rw [List.foldlM_cons, DenseToCsc.innerBody, wr_ok _ (by simp), res_ok_bind, hf, e,
          res_ok_bind]
        have := ih (fun r hr => hP r (by simp [hr])) (pre ++ [(a : Int)]) junk hj
        rw [List.length_append, List.length_singleton] at this
        simp only [this]
        simp; omega
  have := key (List.range k) (fun r hr => by have := List.mem_range.1 hr; omega) pre junk (by simpa using hj)
  rw [this]; simp

theorem set_append_at {α : Type} (l r : List α) (x y : α) {n : Nat} (h : l.length = n) :
    (l ++ x :: r).set n y = l ++ [y] ++ r := by
  subst h; simp

theorem dense_csc_indices {I J : IntTy} {m n : Nat} (dbg : Bool) (hI : I.fits m) {hi : Nat → Nat}
    (hJ : J.fits (off hi n)) {hiI : Int → Int} (hhi : ∀ c : Nat, hiI c = (hi c : Int))
    (hh : ∀ c, c < n → hi c ≤ m) :
    DenseToCsc.indices dbg I J n hiI (off hi n) =
      .ok ((dpos hi n).map (fun p => (p.1 : Int)),
        (List.range (n + 1)).map (fun c => (off hi c : Int))) := by
  have hcastJ : ∀ c, c ≤ n → J.cast (off hi c : Int) = off hi c := by
    intro c hc
    have : off hi c ≤ off hi n := off_mono hc
    exact IntTy.cast_eq (IntTy.fits_between J.fits_zero hJ (by omega) (by omega))
  rw [DenseToCsc.indices, castSz_nat, res_ok_bind, forRange_eq_foldlM, rangeI_zero, foldlM_map']
  have key : ∀ k, k ≤ n → (List.range k).foldlM
      (fun s (c : Nat) => DenseToCsc.outerBody dbg I J hiI (c : Int) s)
      (0, List.replicate (off hi n) 0, List.replicate (n + 1) 0) =
      .ok (off hi k, (dpos hi k).map (fun p => (p.1 : Int)) ++ List.replicate (off hi n - off hi k) 0,
        (List.range k).map (fun c => (off hi c : Int)) ++ List.replicate (n + 1 - k) 0) := by
    intro k
    induction k with
    | zero => intro _; simp [off, dpos]
    | succ k ih =>
      intro hk
      rw [List.range_succ, foldlM_append', ih (by omega), res_ok_bind, List.foldlM_cons,
        DenseToCsc.outerBody, castSz_nat, res_ok_bind,
        wr_ok _ (by simp; omega), res_ok_bind, hhi, hcastJ k (by omega)]
      have hoff : off hi (k + 1) = off hi k + hi k := rfl
      have hle : off hi (k + 1) ≤ off hi n := off_mono hk
      have hsplit : List.replicate (off hi n - off hi k) (0 : Int) =
          List.replicate (hi k) 0 ++ List.replicate (off hi n - off hi (k + 1)) 0 := by
        rw [List.replicate_append_replicate]; congr 1; omega
      have hl : ((dpos hi k).map (fun p => (p.1 : Int))).length = off hi k := by
        simp [dpos_length]
      have := denseCsc_inner hI (hi k) (hh k (by omega))
        ((dpos hi k).map (fun p => (p.1 : Int))) (List.replicate (hi k) 0)
        (List.replicate (off hi n - off hi (k + 1)) 0)
        (((List.range k).map (fun c => (off hi c : Int)) ++
          List.replicate (n + 1 - k) 0).set k (off hi k : Int)) (by simp)
      rw [hl] at this
      simp only [hsplit, ← List.append_assoc]
      rw [this]
      simp only [res_ok_bind, List.foldlM_nil, res_pure]
      congr 3
      · simp [dpos, List.range_succ, List.flatMap_append, Function.comp_def]
      · rw [List.map_append, show n + 1 - k = (n + 1 - (k + 1)) + 1 from by omega,
          List.replicate_succ, set_append_at _ _ _ _ (by simp)]
        rfl
  rw [key n (le_refl _), res_ok_bind, wr_ok _ (by simp), res_ok_bind, hcastJ n (le_refl _)]
  congr 2
  · simp
  · rw [List.range_succ, List.map_append, Nat.add_sub_cancel_left]
    change (_ ++ (0 : Int) :: []).set n _ = _
    rw [set_append_at _ _ _ _ (by simp)]
    simp

/-- C04. Dense to CSC: for every accepted dense sparsity and index types that can hold the
indices and the number of entries, the produced CSC pattern is well-formed with sorted rows, and
its entries with the converted values list every position of the (upper triangle of the) matrix
exactly once with its value. -/
theorem dense_to_csc (dbg : Bool) (I J : IntTy) (d : Dense) (hd : DenseOk d)
    (hI : I.fits d.rows) (hJ : J.fits (d.rows * d.cols)) (vals : List T)
    (hv : (vals.length : Int) = d.rows * d.cols) :
    ∃ sp, DenseToCsc.construct dbg I J d = .ok sp ∧
      sp.rows = d.rows ∧ sp.cols = d.cols ∧ sp.symmetry = d.symmetry ∧
      sp.Wf ∧ sp.order = .sortedRows ∧ sp.OrderTrue ∧
      ∀ work : List T,
        work.length = DenseToCoo.workSize sp.symmetry sp.innerIdx.length →
        ∃ o, DenseToCsc.convertValues dbg sp vals work = .ok o ∧
          (o.values vals).length = sp.innerIdx.length ∧
          EntriesOfDense d.rows d.cols d.symmetry vals (sp.entries (o.values vals)) := by
  obtain ⟨drows, dcols, dsym⟩ := d
  obtain ⟨h1, h2, h3⟩ := hd
  simp only at h1 h2 h3 hI hJ hv ⊢
  obtain ⟨m, rfl⟩ := Int.eq_ofNat_of_zero_le h1
  obtain ⟨n, rfl⟩ := Int.eq_ofNat_of_zero_le h2
  have hv' : vals.length = m * n := by exact_mod_cast hv
  have hsz : (m : Int) * (n : Int) = ((m * n : Nat) : Int) := by norm_cast
  rw [hsz] at hJ
  rcases h3 with rfl | ⟨rfl, h3⟩
  · refine ⟨dcsc ⟨m, n, .unsymmetric⟩ m n (fun _ => m), ?_, rfl, rfl, rfl,
      dcsc_wf _ _ _ _ (fun _ _ => le_refl _), rfl, dcsc_order _ _ _ _, ?_⟩
    · simp only [DenseToCsc.construct, castSz_nat, res_ok_bind]
      rw [← off_const m n, dense_csc_indices dbg hI (by rw [off_const]; exact hJ) (fun _ => rfl)
        (fun _ _ => le_refl _)]
      rfl
    · intro work hw
      have hwf := dcsc_wf ⟨m, n, .unsymmetric⟩ m n (fun _ => m) (fun _ _ => le_refl _)
      refine ⟨⟨.fromValues, work⟩, ?_, ?_, ?_⟩
      · rw [DenseToCsc.convertValues, show castSz dbg _ = .ok (m * n) from hsz ▸ castSz_nat _,
          res_ok_bind, assertM_dec hv', res_ok_bind, CSC.nnz_ok hwf, res_ok_bind, assertM_dec hw]
        rfl
      · simp only [Out.values, dcsc, List.length_map, dpos_length, off_const, hv']
      · have e := dcsc_entries ⟨m, n, .unsymmetric⟩ m n (fun _ => m) vals hv' (fun _ _ => le_refl _)
        rw [dvals_full hv'] at e
        simp only [Out.values]
        rw [e]
        exact entriesOfDense_full hv'
  · have hmn : m = n := by exact_mod_cast h3
    subst hmn
    have hh : ∀ c, c < m → c + 1 ≤ m := fun c hc => hc
    have hJ' : J.fits (off (fun c => c + 1) m) := by
      refine IntTy.fits_between J.fits_zero hJ (by omega) ?_
      have a : 2 * (m * (m + 1) / 2) ≤ m * (m + 1) := Nat.mul_div_le _ _
      rw [off_tri]
      have c : m * (m + 1) = m * m + m := by ring
      have d : m ≤ m * m := by nlinarith [Nat.zero_le m, sq_nonneg ((m : Int) - 1)]
      omega
    refine ⟨dcsc ⟨m, m, .upper⟩ m m (fun c => c + 1), ?_, rfl, rfl, rfl,
      dcsc_wf _ _ _ _ hh, rfl, dcsc_order _ _ _ _, ?_⟩
    · simp only [DenseToCsc.construct, ne_eq, not_true_eq_false, if_false, castSz_nat, res_ok_bind]
      rw [← off_tri m, dense_csc_indices dbg hI hJ' (hi := fun c => c + 1) (fun c => by simp) hh]
      rfl
    · intro work hw
      have hwf := dcsc_wf ⟨m, m, .upper⟩ m m (fun c => c + 1) hh
      have hlen : (dcsc ⟨m, m, .upper⟩ m m (fun c => c + 1)).innerIdx.length =
          off (fun c => c + 1) m := by simp [dcsc, dpos_length]
      rw [hlen] at hw
      have hw' : work.length = off (fun c => c + 1) m := by
        simpa [DenseToCoo.workSize, dcsc] using hw
      refine ⟨⟨.work, dvals m (fun c => c + 1) m vals⟩, ?_, ?_, ?_⟩
      · rw [DenseToCsc.convertValues, show castSz dbg _ = .ok (m * m) from hsz ▸ castSz_nat _,
          res_ok_bind, assertM_dec hv', res_ok_bind, CSC.nnz_ok hwf, res_ok_bind, hlen,
          assertM_dec hw]
        change (forRange 0 m (DenseToCoo.packBody dbg m vals) (0, work) >>= _) = _
        rw [packLoop dbg hv' rfl hw']
        rfl
      · rw [hlen]; exact dvals_length hv' hh
      · simp only [Out.values]
        rw [dcsc_entries _ _ _ _ _ hv' hh]
        exact entriesOfDense_upper hv'

example : DenseOk ⟨3, 3, .upper⟩ ∧ FitsIdx .int 3 3 1 ∧ IntTy.fits .int (3 * 3) ∧
    dentries 2 (fun c => c + 1) 2 [1, 2, 3, 4] = [(0, 0, 1), (0, 1, 3), (1, 1, 4)] := by
  refine ⟨⟨by decide, by decide, .inr ⟨rfl, rfl⟩⟩,
    ⟨by decide, by decide, by decide, by decide, by decide⟩, by decide, by decide⟩

/-- C09. Dense matrices that the converters to sparse do not support are refused with
`std::invalid_argument`: lower-triangular symmetry, invalid symmetry, symmetric non-square. -/
theorem dense_to_sparse_refused (dbg : Bool) (I J : IntTy) (d : Dense) (req : Option Int)
    (h : d.symmetry = .lower ∨ d.symmetry = .invalid ∨
      (d.symmetry = .upper ∧ d.rows ≠ d.cols)) :
    DenseToCoo.construct dbg I d req = .error (.throw .invalidArgument) ∧
    DenseToCsc.construct dbg I J d = .error (.throw .invalidArgument) := by
  rcases h with h | h | ⟨h, hne⟩
  · simp [DenseToCoo.construct, DenseToCsc.construct, h]
  · simp [DenseToCoo.construct, DenseToCsc.construct, h]
  · simp [DenseToCoo.construct, DenseToCsc.construct, h, hne]

end Guanaqo.Sparsity
