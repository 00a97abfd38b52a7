import Verif.Sparsity.Lemmas

/-!
# Helper lemmas for the conversions to dense
-/

namespace Guanaqo.Sparsity

variable {T : Type}

/-- Column-major position. -/
def pos (rows r c : Int) : Nat := (r + c * rows).toNat

theorem pos_eq {rows r c : Int} (hr : 0 ≤ r) (hc : 0 ≤ c) (hn : 0 ≤ rows) :
    r.toNat + c.toNat * rows.toNat = pos rows r c := by
  obtain ⟨a, rfl⟩ := Int.eq_ofNat_of_zero_le hr
  obtain ⟨b, rfl⟩ := Int.eq_ofNat_of_zero_le hc
  obtain ⟨n, rfl⟩ := Int.eq_ofNat_of_zero_le hn
  simp only [pos, Int.toNat_natCast]
  norm_cast

theorem pos_lt {rows cols r c : Int} (hr : 0 ≤ r) (hr' : r < rows) (hc : 0 ≤ c) (hc' : c < cols) :
    (pos rows r c : Int) < rows * cols := by
  have h1 : 0 ≤ c * rows := Int.mul_nonneg hc (by omega)
  have h2 : (pos rows r c : Int) = r + c * rows := by simp only [pos]; omega
  rw [h2]
  have h3 : (c + 1) * rows ≤ cols * rows := Int.mul_le_mul_of_nonneg_right (by omega) (by omega)
  have h4 : (c + 1) * rows = c * rows + rows := by ring
  have h5 : cols * rows = rows * cols := by ring
  omega

theorem pos_inj {rows r c r' c' : Int} (hr : 0 ≤ r) (hr' : r < rows) (hc : 0 ≤ c)
    (hs : 0 ≤ r') (hs' : r' < rows) (hd : 0 ≤ c') (h : pos rows r c = pos rows r' c') :
    r = r' ∧ c = c' := by
  have h1 : 0 ≤ c * rows := Int.mul_nonneg hc (by omega)
  have h2 : 0 ≤ c' * rows := Int.mul_nonneg hd (by omega)
  have e : r + c * rows = r' + c' * rows := by simp only [pos] at h; omega
  have hrr : r = r' := by
    have := congrArg (· % rows) e
    simpa [Int.add_mul_emod_self_right, Int.emod_eq_of_lt hr hr', Int.emod_eq_of_lt hs hs'] using this
  subst hrr
  refine ⟨rfl, ?_⟩
  have : c * rows = c' * rows := by omega
  exact Int.eq_of_mul_eq_mul_right (by omega) this

theorem writeW_ok {dbg : Bool} {rows cols r c : Int} (v : T) {w : List T}
    (hr : 0 ≤ r) (hr' : r < rows) (hc : 0 ≤ c) (hc' : c < cols)
    (hw : (w.length : Int) = rows * cols) :
    writeW dbg rows r c v w = .ok (w.set (pos rows r c) v) := by
  have h := pos_lt hr hr' hc hc'
  simp only [writeW, castSz_ok hr, castSz_ok hc, castSz_ok (show 0 ≤ rows by omega), res_ok_bind]
  rw [pos_eq hr hc (by omega), wr_ok _ (by omega)]

/-- One iteration of the conversion to dense: check, then assign. -/
def place (dbg : Bool) (sym : Symmetry) (rows : Int) (w : List T) (e : Int × Int × T) :
    Res (List T) := do
  checkTriangle sym e.1 e.2.1
  placeEntry dbg sym rows e.1 e.2.1 e.2.2 w

theorem checkTriangle_ok {sym : Symmetry} {r c : Int} (h : InTriangle sym r c) :
    checkTriangle sym r c = .ok () := by
  cases sym <;> simp_all [checkTriangle, InTriangle]

theorem checkTriangle_bad {sym : Symmetry} {r c : Int} (h : ¬ InTriangle sym r c) :
    checkTriangle sym r c = .error (.throw .invalidArgument) := by
  cases sym <;> simp_all [checkTriangle, InTriangle]

/-- The entry is inside the matrix. -/
def InBounds (rows cols : Int) (e : Int × Int × T) : Prop :=
  0 ≤ e.1 ∧ e.1 < rows ∧ 0 ≤ e.2.1 ∧ e.2.1 < cols

/-- The assignments of one entry. -/
def mirrorSet (sym : Symmetry) (rows : Int) (w : List T) (e : Int × Int × T) : List T :=
  if sym = .unsymmetric then w.set (pos rows e.1 e.2.1) e.2.2
  else (w.set (pos rows e.1 e.2.1) e.2.2).set (pos rows e.2.1 e.1) e.2.2

theorem placeEntry_ok {dbg : Bool} {sym : Symmetry} {rows cols : Int} {e : Int × Int × T}
    {w : List T} (hs : ShapeOk sym rows cols) (he : InBounds rows cols e)
    (hw : (w.length : Int) = rows * cols) :
    placeEntry dbg sym rows e.1 e.2.1 e.2.2 w = .ok (mirrorSet sym rows w e) := by
  obtain ⟨h1, h2, h3, h4⟩ := he
  by_cases hu : sym = .unsymmetric
  · subst hu
    simp only [placeEntry, mirrorSet, if_true]
    exact writeW_ok _ h1 h2 h3 h4 hw
  · have hsq := hs.2 hu
    have key : placeEntry dbg sym rows e.1 e.2.1 e.2.2 w =
        (writeW dbg rows e.1 e.2.1 e.2.2 w >>= fun work => writeW dbg rows e.2.1 e.1 e.2.2 work) := by
      cases sym <;> first | exact absurd rfl hu | rfl
    rw [key, writeW_ok _ h1 h2 h3 h4 hw, res_ok_bind,
      writeW_ok (cols := cols) _ h3 (by omega) h1 (by omega) (by simpa using hw), mirrorSet,
      if_neg hu]

theorem mirrorSet_length (sym : Symmetry) (rows : Int) (w : List T) (e : Int × Int × T) :
    (mirrorSet sym rows w e).length = w.length := by
  unfold mirrorSet; split <;> simp

theorem place_ok {dbg : Bool} {sym : Symmetry} {rows cols : Int} {e : Int × Int × T}
    {w : List T} (hs : ShapeOk sym rows cols) (he : InBounds rows cols e)
    (ht : InTriangle sym e.1 e.2.1) (hw : (w.length : Int) = rows * cols) :
    place dbg sym rows w e = .ok (mirrorSet sym rows w e) := by
  rw [place, checkTriangle_ok ht, res_ok_bind, placeEntry_ok hs he hw]

theorem places_ok {dbg : Bool} {sym : Symmetry} {rows cols : Int} {E : List (Int × Int × T)}
    {w : List T} (hs : ShapeOk sym rows cols) (he : ∀ e ∈ E, InBounds rows cols e)
    (ht : ∀ e ∈ E, InTriangle sym e.1 e.2.1) (hw : (w.length : Int) = rows * cols) :
    E.foldlM (place dbg sym rows) w = .ok (E.foldl (mirrorSet sym rows) w) := by
  induction E generalizing w with
  | nil => rfl
  | cons e E ih =>
    rw [List.foldlM_cons, place_ok hs (he e (by simp)) (ht e (by simp)) hw, res_ok_bind,
      ih (fun x hx => he x (by simp [hx])) (fun x hx => ht x (by simp [hx]))
        (by rw [mirrorSet_length]; exact hw)]
    rfl

/-- An entry in the wrong triangle makes the conversion throw. -/
theorem places_throw {dbg : Bool} {sym : Symmetry} {rows cols : Int} {E : List (Int × Int × T)}
    {w : List T} (hs : sym = .invalid ∨ ShapeOk sym rows cols)
    (he : ∀ e ∈ E, InBounds rows cols e)
    (ht : ∃ e ∈ E, ¬ InTriangle sym e.1 e.2.1) (hw : (w.length : Int) = rows * cols) :
    E.foldlM (place dbg sym rows) w = .error (.throw .invalidArgument) := by
  induction E generalizing w with
  | nil => obtain ⟨e, he, _⟩ := ht; cases he
  | cons e E ih =>
    rw [List.foldlM_cons]
    by_cases hte : InTriangle sym e.1 e.2.1
    · have hs' : ShapeOk sym rows cols := by
        rcases hs with rfl | hs
        · exact absurd hte (by simp [InTriangle])
        · exact hs
      rw [place_ok hs' (he e (by simp)) hte hw, res_ok_bind]
      apply ih (fun x hx => he x (by simp [hx])) ?_ (by rw [mirrorSet_length]; exact hw)
      obtain ⟨x, hx, hb⟩ := ht
      rcases List.mem_cons.1 hx with rfl | hx
      · exact absurd hte hb
      · exact ⟨x, hx, hb⟩
    · rw [place, checkTriangle_bad hte]; rfl

theorem denseAt_mirrorSet {sym : Symmetry} {rows cols : Int} {e : Int × Int × T} {w : List T}
    (hs : ShapeOk sym rows cols) (he : InBounds rows cols e)
    (hw : (w.length : Int) = rows * cols) {r c : Int}
    (hr : 0 ≤ r) (hr' : r < rows) (hc : 0 ≤ c) (hc' : c < cols) :
    (((r = e.1 ∧ c = e.2.1) ∨ (sym ≠ .unsymmetric ∧ c = e.1 ∧ r = e.2.1)) →
      denseAt rows (mirrorSet sym rows w e) r c = some e.2.2) ∧
    (¬ ((r = e.1 ∧ c = e.2.1) ∨ (sym ≠ .unsymmetric ∧ c = e.1 ∧ r = e.2.1)) →
      denseAt rows (mirrorSet sym rows w e) r c = denseAt rows w r c) := by
  obtain ⟨h1, h2, h3, h4⟩ := he
  have hp := pos_lt hr hr' hc hc'
  have hp' : pos rows r c < w.length := by omega
  have hne : ∀ {r' c'}, 0 ≤ r' → r' < rows → 0 ≤ c' → ¬ (r = r' ∧ c = c') →
      pos rows r' c' ≠ pos rows r c := by
    intro r' c' a b d hn heq
    obtain ⟨e1, e2⟩ := pos_inj hr hr' hc a b d heq.symm
    exact hn ⟨e1, e2⟩
  unfold mirrorSet denseAt
  by_cases hu : sym = .unsymmetric
  · rw [if_pos hu]
    constructor
    · rintro (⟨rfl, rfl⟩ | ⟨h, _⟩)
      · change (w.set (pos rows e.1 e.2.1) e.2.2)[pos rows e.1 e.2.1]? = _
        simp [hp']
      · exact absurd hu h
    · intro hn
      have := hne h1 h2 h3 (fun h => hn (.inl h))
      exact List.getElem?_set_ne this
  · have hsq := hs.2 hu
    rw [if_neg hu]
    constructor
    · rintro (⟨rfl, rfl⟩ | ⟨_, rfl, rfl⟩)
      · change ((w.set (pos rows e.1 e.2.1) e.2.2).set (pos rows e.2.1 e.1) e.2.2)[pos rows e.1 e.2.1]? = _
        rw [List.getElem?_set]
        split
        · rename_i h; simp [h, hp']
        · simp [hp']
      · change ((w.set (pos rows e.1 e.2.1) e.2.2).set (pos rows e.2.1 e.1) e.2.2)[pos rows e.2.1 e.1]? = _
        rw [List.getElem?_set]
        simp [hp']
    · intro hn
      have a1 := hne h1 h2 h3 (fun h => hn (.inl h))
      have a2 := hne h3 (by omega) h1 (fun h => hn (.inr ⟨hu, h.2, h.1⟩))
      rw [show (r + c * rows).toNat = pos rows r c from rfl, List.getElem?_set_ne a2,
        List.getElem?_set_ne a1]

/-- No two entries at the same position. -/
def PosNodup (E : List (Int × Int × T)) : Prop := (E.map (fun e => (e.1, e.2.1))).Nodup

theorem stored_cons {e : Int × Int × T} {E : List (Int × Int × T)} {sym : Symmetry} {r c : Int}
    {v : T} : Stored (e :: E) sym r c v ↔
      (((r = e.1 ∧ c = e.2.1) ∨ (sym ≠ .unsymmetric ∧ c = e.1 ∧ r = e.2.1)) ∧ v = e.2.2) ∨
        Stored E sym r c v := by
  obtain ⟨a, b, x⟩ := e
  simp only [Stored, List.mem_cons, Prod.mk.injEq]
  tauto

theorem dense_foldl {sym : Symmetry} {rows cols : Int} {E : List (Int × Int × T)}
    {w : List T} (hs : ShapeOk sym rows cols) (he : ∀ e ∈ E, InBounds rows cols e)
    (ht : ∀ e ∈ E, InTriangle sym e.1 e.2.1) (hd : PosNodup E)
    (hw : (w.length : Int) = rows * cols) {r c : Int}
    (hr : 0 ≤ r) (hr' : r < rows) (hc : 0 ≤ c) (hc' : c < cols) :
    (∀ v, Stored E sym r c v → denseAt rows (E.foldl (mirrorSet sym rows) w) r c = some v) ∧
    ((∀ v, ¬ Stored E sym r c v) →
      denseAt rows (E.foldl (mirrorSet sym rows) w) r c = denseAt rows w r c) := by
  induction E generalizing w with
  | nil => exact ⟨fun v h => by simp [Stored] at h, fun _ => rfl⟩
  | cons e E ih =>
    have he0 := he e (by simp)
    have ht0 := ht e (by simp)
    have hd' : (e.1, e.2.1) ∉ E.map (fun e => (e.1, e.2.1)) ∧ PosNodup E := by
      simpa [PosNodup] using hd
    obtain ⟨i1, i2⟩ := ih (w := mirrorSet sym rows w e) (fun x hx => he x (by simp [hx]))
      (fun x hx => ht x (by simp [hx])) hd'.2 (by rw [mirrorSet_length]; exact hw)
    obtain ⟨m1, m2⟩ := denseAt_mirrorSet hs he0 hw hr hr' hc hc'
    rw [List.foldl_cons]
    constructor
    · intro v hv
      rcases stored_cons.1 hv with ⟨hp, rfl⟩ | hv
      · by_cases hex : ∃ v', Stored E sym r c v'
        · exfalso
          obtain ⟨v', hv'⟩ := hex
          apply hd'.1
          have hmem : ∀ {x y : Int}, (x, y, v') ∈ E →
              (x, y) ∈ E.map (fun e => (e.1, e.2.1)) :=
            fun h => List.mem_map.2 ⟨_, h, rfl⟩
          have htri : ∀ {x y : Int}, (x, y, v') ∈ E → InTriangle sym x y := fun {x y} h => ht (x, y, v') (List.mem_cons_of_mem _ h)
          have hdiag : ∀ {x y : Int}, sym ≠ .unsymmetric → InTriangle sym x y → InTriangle sym y x →
              x = y := by
            intro x y hu h h'
            cases sym <;> simp_all [InTriangle] <;> omega
          rcases hp with ⟨rfl, rfl⟩ | ⟨hu, rfl, rfl⟩ <;> rcases hv' with hv' | ⟨hu', hv'⟩
          · exact hmem hv'
          · have := hdiag hu' ht0 (htri hv')
            rw [this] at hv' ⊢
            exact hmem hv'
          · have := hdiag hu ht0 (htri hv')
            rw [this] at hv' ⊢
            exact hmem hv'
          · exact hmem hv'
        · rw [i2 (fun v' hv' => hex ⟨v', hv'⟩)]
          exact m1 hp
      · exact i1 v hv
    · intro hn
      rw [i2 (fun v hv => hn v (stored_cons.2 (.inr hv)))]
      apply m2
      intro hp
      exact hn e.2.2 (stored_cons.2 (.inl ⟨hp, rfl⟩))

theorem foldl_mirrorSet_length (sym : Symmetry) (rows : Int) (E : List (Int × Int × T))
    (w : List T) : (E.foldl (mirrorSet sym rows) w).length = w.length := by
  induction E generalizing w with
  | nil => rfl
  | cons e E ih => rw [List.foldl_cons, ih, mirrorSet_length]

/-- Starting from zeros, the loop produces the denoted matrix. -/
theorem denseOf_foldl {zero : T} {sym : Symmetry} {rows cols : Int} {E : List (Int × Int × T)}
    {n : Nat} (hs : ShapeOk sym rows cols) (he : ∀ e ∈ E, InBounds rows cols e)
    (ht : ∀ e ∈ E, InTriangle sym e.1 e.2.1) (hd : PosNodup E)
    (hn : (n : Int) = rows * cols) :
    DenseOf zero rows cols sym E (E.foldl (mirrorSet sym rows) (List.replicate n zero)) := by
  refine ⟨by rw [foldl_mirrorSet_length]; simpa using hn, ?_⟩
  intro r c hr hr' hc hc'
  obtain ⟨h1, h2⟩ := dense_foldl (w := List.replicate n zero) hs he ht hd (by simpa using hn)
    hr hr' hc hc'
  refine ⟨h1, fun h => ?_⟩
  rw [h2 h]
  have := pos_lt hr hr' hc hc'
  unfold denseAt
  change (List.replicate n zero)[pos rows r c]? = _
  rw [List.getElem?_replicate, if_pos (by omega)]

/-- `DenseOf` determines the array (when the entries are consistent). -/
theorem denseOf_unique {zero : T} {sym : Symmetry} {rows cols : Int} {E : List (Int × Int × T)}
    {M N : List T} (hr : 0 ≤ rows) (hM : DenseOf zero rows cols sym E M)
    (hN : DenseOf zero rows cols sym E N) : M = N := by
  have hl : M.length = N.length := by have := hM.1; have := hN.1; omega
  apply List.ext_getElem? 
  intro i
  by_cases hi : i < M.length
  · have hMl := hM.1
    have hrows : 0 < rows := by
      by_contra h
      have h0 : rows = 0 := by omega
      rw [h0] at hMl; simp at hMl; simp [hMl] at hi
    have h1 : (0 : Int) ≤ i % rows := Int.emod_nonneg _ (by omega)
    have h2 : (i : Int) % rows < rows := Int.emod_lt_of_pos _ hrows
    have h3 : (0 : Int) ≤ i / rows := Int.ediv_nonneg (by omega) hr
    have h4 : (i : Int) / rows < cols := by
      apply Int.ediv_lt_of_lt_mul hrows
      rw [Int.mul_comm, ← hMl]; omega
    have hidx : ((i : Int) % rows + i / rows * rows).toNat = i := by
      rw [Int.mul_comm, Int.emod_add_mul_ediv]; simp
    have a := hM.2 _ _ h1 h2 h3 h4
    have b := hN.2 _ _ h1 h2 h3 h4
    have ea : denseAt rows M ((i : Int) % rows) (i / rows) = M[i]? := by rw [denseAt, hidx]
    have eb : denseAt rows N ((i : Int) % rows) (i / rows) = N[i]? := by rw [denseAt, hidx]
    rw [ea] at a; rw [eb] at b
    by_cases hex : ∃ v, Stored E sym ((i : Int) % rows) (i / rows) v
    · obtain ⟨v, hv⟩ := hex
      rw [a.1 v hv, b.1 v hv]
    · have hex' : ∀ v, ¬ Stored E sym ((i : Int) % rows) (i / rows) v := fun v hv => hex ⟨v, hv⟩
      rw [a.2 hex', b.2 hex']
  · rw [List.getElem?_eq_none (by omega), List.getElem?_eq_none (by omega)]

end Guanaqo.Sparsity
