import Verif.MatView.Lemmas2

/-!
# Properties of `MatrixView` (C16–C22)
-/

namespace Guanaqo.MatView

variable {α : Type}

/-! ## C16: subviews -/

/-- What a correct sub-view is: `w` has the given shape and its element `(i, j)` is element
`(r + i, c + j)` of `v`. -/
def IsSubview (v w : View) (r c nr nc : Int) : Prop :=
  w.rows = nr ∧ w.cols = nc ∧
  (∀ i j, w.data + i * w.inner + j * w.outer =
      v.data + (r + i) * v.inner + (c + j) * v.outer) ∧
  (∀ i j, w.HasElem i j → v.HasElem (r + i) (c + j))

/-- C16. `block(r, c, nr, nc)` yields exactly the requested block when it lies inside the
view, and is refused by the asserts otherwise. -/
theorem block_correct (v : View) (r c nr nc : Int) :
    ((0 ≤ r ∧ 0 ≤ nr ∧ r + nr ≤ v.rows ∧ 0 ≤ c ∧ 0 ≤ nc ∧ c + nc ≤ v.cols) →
      ∃ w, v.block r c nr nc = .ok w ∧ IsSubview v w r c nr nc) ∧
    (¬ (0 ≤ r ∧ 0 ≤ nr ∧ r + nr ≤ v.rows ∧ 0 ≤ c ∧ 0 ≤ nc ∧ c + nc ≤ v.cols) →
      v.block r c nr nc = .error .assertFail) := by
  constructor
  · rintro ⟨h1, h2, h3, h4, h5, h6⟩
    refine ⟨{ data := v.data + v.inner * r + v.outer * c, rows := nr, cols := nc,
              inner := v.inner, outer := v.outer }, ?_, rfl, rfl, ?_, ?_⟩
    · have a1 : 0 ≤ v.rows - r ∧ v.rows - r ≤ v.rows := by omega
      have a2 : 0 ≤ nr ∧ nr ≤ v.rows - r := by omega
      have a3 : 0 ≤ v.cols - c ∧ v.cols - c ≤ v.cols := by omega
      have a4 : 0 ≤ nc ∧ nc ≤ v.cols - c := by omega
      simp only [View.block, View.middleRows, View.middleCols, View.bottomRows, View.topRows,
        View.rightCols, View.leftCols, assertThat, a1, a2, a3, a4, pure, Except.pure, and_self,
        decide_true, if_true, ok_bind, Int.sub_sub_self]
    · intro i j; simp only; ring
    · rintro i j ⟨k1, k2, k3, k4⟩
      simp only at k2 k4
      exact ⟨by omega, by omega, by omega, by omega⟩
  · intro h
    simp only [View.block, View.middleRows, View.middleCols, View.bottomRows, View.topRows,
      View.rightCols, View.leftCols, assertThat, pure, Except.pure]
    by_cases a1 : 0 ≤ v.rows - r ∧ v.rows - r ≤ v.rows
    · by_cases a2 : 0 ≤ nr ∧ nr ≤ v.rows - r
      · by_cases a3 : 0 ≤ v.cols - c ∧ v.cols - c ≤ v.cols
        · have a4 : ¬ (0 ≤ nc ∧ nc ≤ v.cols - c) := by omega
          simp only [a1, a2, a3, a4, and_self, decide_true, decide_false, if_true, ok_bind,
            error_bind, Bool.false_eq_true, if_false]
        · simp only [a1, a2, a3, and_self, decide_true, decide_false, if_true, ok_bind,
            error_bind, Bool.false_eq_true, if_false]
      · simp only [a1, a2, and_self, decide_true, decide_false, if_true, ok_bind,
            error_bind, Bool.false_eq_true, if_false]
    · simp only [a1, decide_false, error_bind, Bool.false_eq_true, if_false]

/-- C16. Each of the other sub-view functions is the corresponding block. -/
theorem subviews_are_blocks (v : View) (n r c nr nc : Int)
    (hrows : 0 ≤ v.rows) (hcols : 0 ≤ v.cols) :
    v.topRows n = v.block 0 0 n v.cols ∧
    v.leftCols n = v.block 0 0 v.rows n ∧
    v.bottomRows n = v.block (v.rows - n) 0 n v.cols ∧
    v.rightCols n = v.block 0 (v.cols - n) v.rows n ∧
    v.middleRows r n = v.block r 0 n v.cols ∧
    v.middleCols c n = v.block 0 c v.rows n ∧
    v.topLeft nr nc = v.block 0 0 nr nc ∧
    v.topRight nr nc = v.block 0 (v.cols - nc) nr nc ∧
    v.bottomLeft nr nc = v.block (v.rows - nr) 0 nr nc ∧
    v.bottomRight nr nc = v.block (v.rows - nr) (v.cols - nc) nr nc := by
  refine ⟨?_, ?_, ?_, ?_, ?_, ?_, ?_, ?_, ?_, ?_⟩ <;>
    simp only [View.block, View.middleRows, View.middleCols, View.bottomRows, View.topRows,
      View.rightCols, View.leftCols, View.topLeft, View.topRight, View.bottomLeft,
      View.bottomRight, assertThat, pure, Except.pure] <;>
    (repeat' (split <;> simp_all <;> try omega))

/-- C16. Element access: an index in range gives the address of the element (data + row times the inner stride + column times the outer
stride), any other index is refused by an assert. -/
theorem at_correct (v : View) (r c : Int) :
    (v.HasElem r c → v.at r c = .ok (v.data + r * v.inner + c * v.outer)) ∧ (¬ v.HasElem r c → v.at r c = .error .assertFail) := by
  unfold View.HasElem View.at assertThat
  constructor
  · rintro ⟨h1, h2, h3, h4⟩
    simp [h1, h2, h3, h4, View.addr, pure, Except.pure, Int.add_assoc]
  · intro h
    by_cases a1 : 0 ≤ r ∧ r < v.rows
    · have a2 : ¬ (0 ≤ c ∧ c < v.cols) := fun h' => h ⟨a1.1, a1.2, h'.1, h'.2⟩
      simp only [a1, a2, and_self, decide_true, decide_false, if_true, ok_bind, error_bind, Bool.false_eq_true, if_false, pure, Except.pure]
    · simp only [a1, decide_false, error_bind, Bool.false_eq_true, if_false, pure, Except.pure]

example : View.at { data := 10, rows := 2, cols := 3, inner := 1, outer := 4 } 1 2 = .ok 19 ∧
    View.at { data := 10, rows := 2, cols := 3, inner := 1, outer := 4 } 1 3 = .error .assertFail := by
  constructor <;> rfl

/-- `empty()` tells whether the view has no elements. -/
theorem empty_iff (v : View) (hr : 0 ≤ v.rows) (hc : 0 ≤ v.cols) : v.empty = true ↔ ∀ r c, ¬ v.HasElem r c := by
  unfold View.empty View.HasElem
  rw [decide_eq_true_eq]
  constructor
  · intro h r c hh; omega
  · intro h
    have := h 0 0
    omega

/-- A sub-view operation with its arguments. -/
inductive SubOp where
  | top (n : Int) | bottom (n : Int) | left (n : Int) | right (n : Int)
  | midRows (r n : Int) | midCols (c n : Int) | block (r c nr nc : Int)

/-- Apply one sub-view operation. -/
def SubOp.apply (v : View) : SubOp → Res View
  | .top n => v.topRows n
  | .bottom n => v.bottomRows n
  | .left n => v.leftCols n
  | .right n => v.rightCols n
  | .midRows r n => v.middleRows r n
  | .midCols c n => v.middleCols c n
  | .block r c nr nc => v.block r c nr nc

/-- Apply a chain of sub-view operations. -/
def applyChain : View → List SubOp → Res View
  | v, [] => .ok v
  | v, op :: ops => do applyChain (← op.apply v) ops

theorem isSubview_trans {u v w : View} {r c nr nc r' c' nr' nc' : Int}
    (h : IsSubview u v r c nr nc) (h' : IsSubview v w r' c' nr' nc') :
    IsSubview u w (r + r') (c + c') nr' nc' := by
  obtain ⟨_, _, h3, h4⟩ := h
  obtain ⟨g1, g2, g3, g4⟩ := h'
  refine ⟨g1, g2, ?_, ?_⟩
  · intro i j; rw [g3, h3]; ring
  · intro i j hij
    have := h4 _ _ (g4 i j hij)
    rwa [← add_assoc, ← add_assoc] at this

theorem apply_isSubview {v w : View} (op : SubOp) (hr : 0 ≤ v.rows) (hc : 0 ≤ v.cols)
    (h : op.apply v = .ok w) :
    ∃ r c nr nc, 0 ≤ nr ∧ 0 ≤ nc ∧ IsSubview v w r c nr nc := by
  have key : ∀ r c nr nc, v.block r c nr nc = .ok w →
      ∃ r c nr nc, 0 ≤ nr ∧ 0 ≤ nc ∧ IsSubview v w r c nr nc := by
    intro r c nr nc hb
    by_cases hh : (0 ≤ r ∧ 0 ≤ nr ∧ r + nr ≤ v.rows ∧ 0 ≤ c ∧ 0 ≤ nc ∧ c + nc ≤ v.cols)
    · obtain ⟨w', h1, h2⟩ := (block_correct v r c nr nc).1 hh
      rw [hb] at h1
      cases h1
      exact ⟨r, c, nr, nc, hh.2.1, hh.2.2.2.2.1, h2⟩
    · rw [(block_correct v r c nr nc).2 hh] at hb
      cases hb
  obtain ⟨n, r, c, nr, nc, ho⟩ : ∃ n r c nr nc, op = .top n ∨ op = .bottom n ∨ op = .left n ∨
      op = .right n ∨ op = .midRows r n ∨ op = .midCols c n ∨ op = .block r c nr nc := by
    cases op with
    | top n => exact ⟨n, 0, 0, 0, 0, .inl rfl⟩
    | bottom n => exact ⟨n, 0, 0, 0, 0, .inr (.inl rfl)⟩
    | left n => exact ⟨n, 0, 0, 0, 0, .inr (.inr (.inl rfl))⟩
    | right n => exact ⟨n, 0, 0, 0, 0, .inr (.inr (.inr (.inl rfl)))⟩
    | midRows r n => exact ⟨n, r, 0, 0, 0, .inr (.inr (.inr (.inr (.inl rfl))))⟩
    | midCols c n => exact ⟨n, 0, c, 0, 0, .inr (.inr (.inr (.inr (.inr (.inl rfl)))))⟩
    | block r c nr nc => exact ⟨0, r, c, nr, nc, .inr (.inr (.inr (.inr (.inr (.inr rfl)))))⟩
  obtain ⟨e1, e2, e3, e4, e5, e6, _⟩ := subviews_are_blocks v n r c nr nc hr hc
  rcases ho with rfl | rfl | rfl | rfl | rfl | rfl | rfl <;> simp only [SubOp.apply] at h
  · exact key _ _ _ _ (e1 ▸ h)
  · exact key _ _ _ _ (e3 ▸ h)
  · exact key _ _ _ _ (e2 ▸ h)
  · exact key _ _ _ _ (e4 ▸ h)
  · exact key _ _ _ _ (e5 ▸ h)
  · exact key _ _ _ _ (e6 ▸ h)
  · exact key _ _ _ _ h

/-- C16. However sub-views are nested, a successfully created view is a rectangular block of
the original: each of its elements is the original's element at a fixed offset, and none lies
outside the original. -/
theorem nested_subviews (v w : View) (ops : List SubOp) (hr : 0 ≤ v.rows) (hc : 0 ≤ v.cols)
    (h : applyChain v ops = .ok w) : ∃ r c nr nc, IsSubview v w r c nr nc := by
  suffices H : ∃ r c nr nc, 0 ≤ nr ∧ 0 ≤ nc ∧ IsSubview v w r c nr nc by
    obtain ⟨r, c, nr, nc, _, _, h⟩ := H; exact ⟨r, c, nr, nc, h⟩
  induction ops generalizing v with
  | nil =>
    cases h
    exact ⟨0, 0, w.rows, w.cols, hr, hc, rfl, rfl, by intro i j; simp, by intro i j h; simpa using h⟩
  | cons op ops ih =>
    simp only [applyChain] at h
    match ho : op.apply v with
    | .error e => rw [ho] at h; cases h
    | .ok u =>
      rw [ho] at h
      obtain ⟨r, c, nr, nc, h1, h2, h3⟩ := apply_isSubview op hr hc ho
      obtain ⟨r', c', nr', nc', h1', h2', h3'⟩ := ih u (by rw [h3.1]; exact h1)
        (by rw [h3.2.1]; exact h2) h
      exact ⟨_, _, _, _, h1', h2', isSubview_trans h3 h3'⟩

/-- A chain of sub-views of a strided 4×5 view that succeeds. -/
example : applyChain ⟨100, 4, 5, 2, 10⟩ [.block 1 1 3 3, .bottom 2, .right 2] =
    .ok ⟨100 + 2 * 2 + 10 * 2, 2, 2, 2, 10⟩ := by decide

/-! ## C17: set_constant -/

/-- C17. `set_constant(t)` makes every element of the view equal to the value `t` had at the
call (even when `t` refers to an element of the view) and changes no other location. -/
theorem setConstant_exact (v : View) (t : Arg α) (x : α) (m : Mem α) (hb : v.Backed m)
    (ht : t.eval m = .ok x) :
    ∃ m', v.setConstant t m = .ok m' ∧ v.ElemsBecome (fun _ _ => x) m m' := by
  obtain ⟨m', h1, h2⟩ := setConstant_wrote hb ht
  exact ⟨m', h1, fun r c h => (h2 _).1 ⟨r, c, h, trivial, rfl⟩, fun a ha => (h2 a).2 ha⟩

/-- The hypotheses of `setConstant_exact` hold for a strided view with an aliasing argument. -/
example : (⟨10, 2, 2, 3, 7⟩ : View).Backed (fun _ => some (5 : Int)) ∧
    (Arg.ref 10 : Arg Int).eval (fun _ => some 5) = .ok 5 :=
  ⟨fun _ _ _ => ⟨5, rfl⟩, rfl⟩

/-! ## C18: element-wise copy and accumulation -/

/-- No destination element shares its address with a *different* source element. -/
def NoCrossAlias (v other : View) : Prop :=
  ∀ r c r' c', v.HasElem r c → other.HasElem r' c' →
    v.data + r * v.inner + c * v.outer = other.data + r' * other.inner + c' * other.outer →
    r = r' ∧ c = c'

theorem upd_to_become {v : View} {f : Int → Int → α} {m m' : Mem α}
    (h : Upd (fun e : Int × Int => 0 ≤ e.1 ∧ e.1 < v.rows ∧ 0 ≤ e.2 ∧ e.2 < max 0 v.cols)
      (fun e => v.data + e.1 * v.inner + e.2 * v.outer) (fun e => f e.1 e.2) m m') :
    v.ElemsBecome f m m' := by
  refine ⟨?_, ?_⟩
  · rintro r c ⟨h1, h2, h3, h4⟩
    exact h.1 (r, c) ⟨h1, h2, h3, by simp only; omega⟩
  · intro a ha
    refine h.2 a ?_
    rintro ⟨r, c⟩ ⟨h1, h2, h3, h4⟩ hd
    simp only at h1 h2 h3 h4 hd
    exact ha ⟨r, c, ⟨h1, h2, h3, by omega⟩, trivial, hd.symm⟩

/-- C18. Copying values between equally sized views makes every destination element equal to
the corresponding source element and changes nothing else. -/
theorem copyValues_elementwise (v other : View) (f : Int → Int → α) (m : Mem α)
    (hrows : other.rows = v.rows) (hcols : other.cols = v.cols)
    (hinj : v.Injective) (hv : v.Backed m)
    (hsrc : ∀ r c, other.HasElem r c → other.Holds m r c (f r c))
    (halias : NoCrossAlias v other) :
    ∃ m', v.copyValues other m = .ok m' ∧ v.ElemsBecome f m m' := by
  obtain ⟨s', h1, h2⟩ := forRange_inv (lo := 0) (hi := v.cols) (s := (m, other.data, v.data))
    (body := fun _ (s : Mem α × Int × Int) => do
      let m ← copyColumn other.inner v.inner v.rows s.2.1 s.2.2 s.1
      return (m, s.2.1 + other.outer, s.2.2 + v.outer))
    (fun c s => Upd (fun e : Int × Int => 0 ≤ e.1 ∧ e.1 < v.rows ∧ 0 ≤ e.2 ∧ e.2 < c)
        (fun e => v.data + e.1 * v.inner + e.2 * v.outer) (fun e => f e.1 e.2) m s.1 ∧
      s.2.1 = other.data + c * other.outer ∧ s.2.2 = v.data + c * v.outer)
    ⟨upd_empty (by rintro e ⟨_, _, _, _⟩; omega), by simp, by simp⟩
    (by
      rintro c ⟨mk, p, q⟩ hc1 hc2 ⟨hp, hq1, hq2⟩
      simp only at hp hq1 hq2
      subst hq1 hq2
      have hrc : ∀ r, 0 ≤ r → r < v.rows → v.HasElem r c := fun r h1 h2 => ⟨h1, h2, hc1, hc2⟩
      have hrc' : ∀ r, 0 ≤ r → r < v.rows → other.HasElem r c := fun r h1 h2 =>
        ⟨h1, by omega, hc1, by omega⟩
      have hK : ∀ r (e : Int × Int), 0 ≤ r → r < v.rows →
          ((0 ≤ e.1 ∧ e.1 < v.rows ∧ 0 ≤ e.2 ∧ e.2 < c) ∨ (e.2 = c ∧ 0 ≤ e.1 ∧ e.1 < r)) →
          v.HasElem e.1 e.2 ∧ ¬ (e.1 = r ∧ e.2 = c) := by
        rintro r e h1 h2 (h | h)
        · exact ⟨⟨h.1, h.2.1, h.2.2.1, by omega⟩, by omega⟩
        · exact ⟨⟨h.2.1, by omega, by omega, by omega⟩, by omega⟩
      obtain ⟨m', h3, h4⟩ := copyColumn_upd (si := other.inner) (di := v.inner) (rows := v.rows)
        (src := other.data + c * other.outer) (dst := v.data + c * v.outer) (c := c) hp
        (fun r _ _ => by simp only; ring)
        (fun r h1 h2 => by
          have := hsrc r c (hrc' r h1 h2)
          unfold View.Holds at this
          rw [← this]; congr 1; ring)
        (fun r h1 h2 => hv r c (hrc r h1 h2))
        (fun r e h1 h2 he hd => by
          obtain ⟨he1, he2⟩ := hK r e h1 h2 he
          exact absurd (hinj _ _ _ _ he1 (hrc r h1 h2) hd) he2)
        (fun r e h1 h2 he hd => by
          obtain ⟨he1, he2⟩ := hK r e h1 h2 he
          refine he2 (halias _ _ _ _ he1 (hrc' r h1 h2) ?_)
          rw [hd]; ring)
      refine ⟨(m', other.data + c * other.outer + other.outer, v.data + c * v.outer + v.outer),
        ?_, upd_congr h4 ?_, ?_, ?_⟩
      · simp only [h3, ok_bind]; rfl
      · intro e
        constructor
        · rintro (h | h)
          · exact ⟨h.1, h.2.1, h.2.2.1, by omega⟩
          · exact ⟨h.2.1, h.2.2, by omega, by omega⟩
        · rintro ⟨k1, k2, k3, k4⟩
          by_cases hh : e.2 = c
          · exact .inr ⟨hh, k1, k2⟩
          · exact .inl ⟨k1, k2, k3, by omega⟩
      · simp only; ring
      · simp only; ring)
  refine ⟨s'.1, ?_, upd_to_become h2.1⟩
  simp only [View.copyValues, assertThat, hrows, hcols, decide_true, if_true, ok_bind]
  rw [h1]; rfl

/-- C18. `operator=`: as `copy_values`; assigning a view object to itself changes nothing. -/
theorem assign_elementwise (v other : View) (f : Int → Int → α) (m : Mem α)
    (hrows : other.rows = v.rows) (hcols : other.cols = v.cols)
    (hinj : v.Injective) (hv : v.Backed m)
    (hsrc : ∀ r c, other.HasElem r c → other.Holds m r c (f r c))
    (halias : NoCrossAlias v other) (same : Bool) (hsame : same = true → other = v) :
    ∃ m', v.assign other same m = .ok m' ∧ v.ElemsBecome f m m' := by
  cases same with
  | false => exact copyValues_elementwise v other f m hrows hcols hinj hv hsrc halias
  | true =>
    have := hsame rfl
    subst this
    exact ⟨m, rfl, hsrc, fun _ _ => rfl⟩

/-- C18. `operator+=(view)` adds the corresponding source element to every destination
element and changes nothing else (adding a view to itself is allowed). -/
theorem addView_elementwise [Add α] (v other : View) (f g : Int → Int → α) (m : Mem α)
    (hrows : other.rows = v.rows) (hcols : other.cols = v.cols)
    (hinj : v.Injective) (hv : ∀ r c, v.HasElem r c → v.Holds m r c (g r c))
    (hsrc : ∀ r c, other.HasElem r c → other.Holds m r c (f r c))
    (halias : NoCrossAlias v other) :
    ∃ m', v.addView other m = .ok m' ∧ v.ElemsBecome (fun r c => g r c + f r c) m m' := by
  obtain ⟨s', h1, h2⟩ := forRange_inv (lo := 0) (hi := v.cols) (s := (m, other.data, v.data))
    (body := fun _ (s : Mem α × Int × Int) => do
      let m ← addColumn other.inner v.inner v.rows s.2.1 s.2.2 s.1
      return (m, s.2.1 + other.outer, s.2.2 + v.outer))
    (fun c s => Upd (fun e : Int × Int => 0 ≤ e.1 ∧ e.1 < v.rows ∧ 0 ≤ e.2 ∧ e.2 < c)
        (fun e => v.data + e.1 * v.inner + e.2 * v.outer)
        (fun e => g e.1 e.2 + f e.1 e.2) m s.1 ∧
      s.2.1 = other.data + c * other.outer ∧ s.2.2 = v.data + c * v.outer)
    ⟨upd_empty (by rintro e ⟨_, _, _, _⟩; omega), by simp, by simp⟩
    (by
      rintro c ⟨mk, p, q⟩ hc1 hc2 ⟨hp, hq1, hq2⟩
      simp only at hp hq1 hq2
      subst hq1 hq2
      have hrc : ∀ r, 0 ≤ r → r < v.rows → v.HasElem r c := fun r h1 h2 => ⟨h1, h2, hc1, hc2⟩
      have hrc' : ∀ r, 0 ≤ r → r < v.rows → other.HasElem r c := fun r h1 h2 =>
        ⟨h1, by omega, hc1, by omega⟩
      have hK : ∀ r (e : Int × Int), 0 ≤ r → r < v.rows →
          ((0 ≤ e.1 ∧ e.1 < v.rows ∧ 0 ≤ e.2 ∧ e.2 < c) ∨ (e.2 = c ∧ 0 ≤ e.1 ∧ e.1 < r)) →
          v.HasElem e.1 e.2 ∧ ¬ (e.1 = r ∧ e.2 = c) := by
        rintro r e h1 h2 (h | h)
        · exact ⟨⟨h.1, h.2.1, h.2.2.1, by omega⟩, by omega⟩
        · exact ⟨⟨h.2.1, by omega, by omega, by omega⟩, by omega⟩
      obtain ⟨m', h3, h4⟩ := addColumn_upd (si := other.inner) (di := v.inner) (rows := v.rows)
        (src := other.data + c * other.outer) (dst := v.data + c * v.outer) (c := c)
        (dv := fun e => g e.1 e.2) (sv := fun e => f e.1 e.2) hp
        (fun r _ _ => by simp only; ring)
        (fun r h1 h2 => by
          have := hsrc r c (hrc' r h1 h2)
          unfold View.Holds at this
          rw [← this]; congr 1; ring)
        (fun r h1 h2 => hv r c (hrc r h1 h2))
        (fun r e h1 h2 he hd => by
          obtain ⟨he1, he2⟩ := hK r e h1 h2 he
          exact absurd (hinj _ _ _ _ he1 (hrc r h1 h2) hd) he2)
        (fun r e h1 h2 he hd => by
          obtain ⟨he1, he2⟩ := hK r e h1 h2 he
          refine he2 (halias _ _ _ _ he1 (hrc' r h1 h2) ?_)
          rw [hd]; ring)
      refine ⟨(m', other.data + c * other.outer + other.outer, v.data + c * v.outer + v.outer),
        ?_, upd_congr h4 ?_, ?_, ?_⟩
      · simp only [h3, ok_bind]; rfl
      · intro e
        constructor
        · rintro (h | h)
          · exact ⟨h.1, h.2.1, h.2.2.1, by omega⟩
          · exact ⟨h.2.1, h.2.2, by omega, by omega⟩
        · rintro ⟨k1, k2, k3, k4⟩
          by_cases hh : e.2 = c
          · exact .inr ⟨hh, k1, k2⟩
          · exact .inl ⟨k1, k2, k3, by omega⟩
      · simp only; ring
      · simp only; ring)
  refine ⟨s'.1, ?_, upd_to_become h2.1⟩
  simp only [View.addView, assertThat, hrows, hcols, decide_true, if_true, ok_bind]
  rw [h1]; rfl

/-- C18. `operator+=(scalar)` adds the scalar to every element and changes nothing else,
when the argument is not a reference to an element of the view. -/
theorem addScalar_elementwise [Add α] (v : View) (u : Arg α) (x : α) (g : Int → Int → α)
    (m : Mem α) (hinj : v.Injective) (hv : ∀ r c, v.HasElem r c → v.Holds m r c (g r c))
    (hu : u.eval m = .ok x)
    (hua : ∀ a, u = .ref a → ¬ v.IsElemAddr (fun _ _ => True) a) :
    ∃ m', v.addScalar u m = .ok m' ∧ v.ElemsBecome (fun r c => g r c + x) m m' := by
  obtain ⟨s', h1, h2⟩ := forRange_inv (lo := 0) (hi := v.cols) (s := (m, v.data))
    (body := fun _ (s : Mem α × Int) => do
      let m ← addScalarColumn v.inner v.rows s.2 u s.1
      return (m, s.2 + v.outer))
    (fun c s => Upd (fun e : Int × Int => 0 ≤ e.1 ∧ e.1 < v.rows ∧ 0 ≤ e.2 ∧ e.2 < c)
        (fun e => v.data + e.1 * v.inner + e.2 * v.outer)
        (fun e => g e.1 e.2 + x) m s.1 ∧ s.2 = v.data + c * v.outer)
    ⟨upd_empty (by rintro e ⟨_, _, _, _⟩; omega), by simp⟩
    (by
      rintro c ⟨mk, q⟩ hc1 hc2 ⟨hp, hq2⟩
      simp only at hp hq2
      subst hq2
      have hrc : ∀ r, 0 ≤ r → r < v.rows → v.HasElem r c := fun r h1 h2 => ⟨h1, h2, hc1, hc2⟩
      have hK : ∀ r (e : Int × Int), 0 ≤ r → r < v.rows →
          ((0 ≤ e.1 ∧ e.1 < v.rows ∧ 0 ≤ e.2 ∧ e.2 < c) ∨ (e.2 = c ∧ 0 ≤ e.1 ∧ e.1 < r)) →
          v.HasElem e.1 e.2 ∧ ¬ (e.1 = r ∧ e.2 = c) := by
        rintro r e h1 h2 (h | h)
        · exact ⟨⟨h.1, h.2.1, h.2.2.1, by omega⟩, by omega⟩
        · exact ⟨⟨h.2.1, by omega, by omega, by omega⟩, by omega⟩
      obtain ⟨m', h3, h4⟩ := addScalarColumn_upd (di := v.inner) (rows := v.rows) (u := u) (x := x)
        (dst := v.data + c * v.outer) (c := c) (dv := fun e => g e.1 e.2) hp
        (fun r _ _ => by simp only; ring)
        (fun r h1 h2 => hv r c (hrc r h1 h2))
        (fun r e h1 h2 he hd => by
          obtain ⟨he1, he2⟩ := hK r e h1 h2 he
          exact absurd (hinj _ _ _ _ he1 (hrc r h1 h2) hd) he2)
        (fun m₁ L hL hup => by
          cases u with
          | temp y => exact hu
          | ref a =>
            have hna := hua a rfl
            simp only [Arg.eval, Mem.read] at hu ⊢
            rw [hup.2 a]
            · exact hu
            · intro e he hd
              refine hna ⟨e.1, e.2, ?_, trivial, hd.symm⟩
              rcases hL e he with h | h
              · exact ⟨h.1, h.2.1, h.2.2.1, by omega⟩
              · exact ⟨h.2.1, h.2.2, by omega, by omega⟩)
      refine ⟨(m', v.data + c * v.outer + v.outer), ?_, upd_congr h4 ?_, ?_⟩
      · simp only [h3, ok_bind]; rfl
      · intro e
        constructor
        · rintro (h | h)
          · exact ⟨h.1, h.2.1, h.2.2.1, by omega⟩
          · exact ⟨h.2.1, h.2.2, by omega, by omega⟩
        · rintro ⟨k1, k2, k3, k4⟩
          by_cases hh : e.2 = c
          · exact .inr ⟨hh, k1, k2⟩
          · exact .inl ⟨k1, k2, k3, by omega⟩
      · simp only; ring)
  refine ⟨s'.1, ?_, upd_to_become h2.1⟩
  simp only [View.addScalar]
  rw [h1]; rfl

/-- C18, full statement for the scalar overload: also when the argument is an element. -/
def AddScalarAnyArg : Prop :=
  ∀ (v : View) (u : Arg Int) (x : Int) (g : Int → Int → Int) (m : Mem Int),
    v.Injective → (∀ r c, v.HasElem r c → v.Holds m r c (g r c)) → u.eval m = .ok x →
    ∃ m', v.addScalar u m = .ok m' ∧ v.ElemsBecome (fun r c => g r c + x) m m'

/-- C74, for every argument that is not a reference to an element of the view: the scalar's value
before the operation is added to every element. -/
theorem addScalar_separate_partial [Add α] (v : View) (u : Arg α) (x : α) (g : Int → Int → α)
    (m : Mem α) (hinj : v.Injective) (hv : ∀ r c, v.HasElem r c → v.Holds m r c (g r c))
    (hu : u.eval m = .ok x)
    (hua : ∀ a, u = .ref a → ¬ v.IsElemAddr (fun _ _ => True) a) :
    ∃ m', v.addScalar u m = .ok m' ∧ v.ElemsBecome (fun r c => g r c + x) m m' :=
  addScalar_elementwise v u x g m hinj hv hu hua

/-- C18. The full statement is false: in `v += v(0, 0)` the argument changes after the first
element has been updated. -/
theorem not_addScalarAnyArg : ¬ AddScalarAnyArg := by
  intro h
  obtain ⟨m', h1, h2⟩ := h ⟨0, 2, 1, 1, 2⟩ (.ref 0) 1 (fun _ _ => 1)
    (fun a => if a = 0 ∨ a = 1 then some 1 else none)
    (by
      rintro r c r' c' ⟨h1, h2, h3, h4⟩ ⟨h5, h6, h7, h8⟩ h
      simp only at *; omega)
    (by
      rintro r c ⟨h1, h2, h3, h4⟩
      simp only [View.Holds] at *
      have : (0 : Int) + r * 1 + c * 2 = 0 ∨ (0 : Int) + r * 1 + c * 2 = 1 := by omega
      simp only [this, if_true]) rfl
  have h3 := h2.1 1 0 ⟨by decide, by decide, by decide, by decide⟩
  have h4 : (⟨0, 2, 1, 1, 2⟩ : View).addScalar (.ref 0)
      (fun a => if a = 0 ∨ a = 1 then some (1 : Int) else none) = .ok
        (fun a => if a = 1 then some 3 else if a = 0 then some 2 else
          if a = 0 ∨ a = 1 then some 1 else none) := rfl
  rw [h4] at h1
  cases h1
  revert h3
  decide

/-- C18. Mismatched dimensions are refused (in builds with asserts). -/
theorem dimension_mismatch_refused [Add α] (v other : View) (m : Mem α)
    (h : other.rows ≠ v.rows ∨ other.cols ≠ v.cols) :
    v.copyValues other m = .error .assertFail ∧ v.addView other m = .error .assertFail := by
  by_cases hr : other.rows = v.rows
  · have hc : other.cols ≠ v.cols := h.resolve_left (fun h => h hr)
    simp [View.copyValues, View.addView, assertThat, hr, hc]
  · simp [View.copyValues, View.addView, assertThat, hr]

/-- The hypotheses of the C18 theorems hold for two disjoint 2×2 views with different
strides. -/
example : (⟨0, 2, 2, 1, 2⟩ : View).Injective ∧
    NoCrossAlias ⟨0, 2, 2, 1, 2⟩ ⟨100, 2, 2, 2, 5⟩ ∧ NoCrossAlias ⟨0, 2, 2, 1, 2⟩ ⟨0, 2, 2, 1, 2⟩ := by
  refine ⟨?_, ?_, ?_⟩
  all_goals
    rintro r c r' c' ⟨h1, h2, h3, h4⟩ ⟨h5, h6, h7, h8⟩ h
    simp only at *
    omega

/-! ## C19: triangular set_constant -/

/-- Shapes for which the loop bounds of the code describe exactly the triangle. -/
def TriShapeOk (v : View) : Triangular → Prop
  | .lower => v.rows ≤ v.cols
  | .strictlyLower => v.rows ≤ v.cols + 1
  | .upper => v.rows = v.cols
  | .strictlyUpper => v.rows = v.cols ∨ v.cols = v.rows + 1 ∨ (v.rows = 1 ∧ v.cols = 0)

/-- C19, full statement: for every shape, `set_constant(t, tr)` writes `t` to exactly the
elements in the triangle. -/
def TriangularExact (α : Type) : Prop :=
  ∀ (v : View) (tr : Triangular) (t : Arg α) (x : α) (m : Mem α), v.inner = 1 →
    0 ≤ v.rows → 0 ≤ v.cols → v.rows ≤ v.outer → v.Backed m → t.eval m = .ok x →
    ∃ m', v.setConstantTri t tr m = .ok m' ∧ WroteExactly (v.IsElemAddr tr.Contains) x m m'

/-- C19. The statement holds for square views, and more generally for the shapes in
`TriShapeOk`. -/
theorem setConstantTri_exact_partial (v : View) (tr : Triangular) (t : Arg α) (x : α)
    (m : Mem α) (hi : v.inner = 1)
    (hshape : TriShapeOk v tr) (hb : v.Backed m) (ht : t.eval m = .ok x) :
    ∃ m', v.setConstantTri t tr m = .ok m' ∧ WroteExactly (v.IsElemAddr tr.Contains) x m m' := by
  have hr := ready_of_backed hb ht
  cases tr with
  | lower =>
    simp only [TriShapeOk] at hshape
    refine columns_wrote hi hr 0 (max v.rows v.cols) _ (fun c => c) (fun c => v.rows - c)
      (fun c => rfl) ?_ _ ?_
    · intro c r h1 h2 h3 h4; exact ⟨by omega, by omega, by omega, by omega⟩
    · rintro r c ⟨h1, h2, h3, h4⟩; simp only [Triangular.Contains]; omega
  | strictlyLower =>
    simp only [TriShapeOk] at hshape
    refine columns_wrote hi hr 0 (max v.rows v.cols - 1) _ (fun c => c + 1)
      (fun c => v.rows - c - 1) (fun c => by ring) ?_ _ ?_
    · intro c r h1 h2 h3 h4; exact ⟨by omega, by omega, by omega, by omega⟩
    · rintro r c ⟨h1, h2, h3, h4⟩; simp only [Triangular.Contains]; omega
  | upper =>
    simp only [TriShapeOk] at hshape
    refine columns_wrote hi hr 0 (max v.rows v.cols) _ (fun _ => 0) (fun c => 1 + c)
      (fun c => by ring) ?_ _ ?_
    · intro c r h1 h2 h3 h4; exact ⟨by omega, by omega, by omega, by omega⟩
    · rintro r c ⟨h1, h2, h3, h4⟩; simp only [Triangular.Contains]; omega
  | strictlyUpper =>
    simp only [TriShapeOk] at hshape
    refine columns_wrote hi hr 1 (max v.rows v.cols) _ (fun _ => 0) (fun c => c)
      (fun c => by ring) ?_ _ ?_
    · intro c r h1 h2 h3 h4; exact ⟨by omega, by omega, by omega, by omega⟩
    · rintro r c ⟨h1, h2, h3, h4⟩; simp only [Triangular.Contains]; omega

/-- C19. Square views always satisfy the shape condition. -/
theorem triShapeOk_of_square (v : View) (tr : Triangular) (h : v.rows = v.cols) :
    TriShapeOk v tr := by
  cases tr <;> simp only [TriShapeOk] <;> omega

/-- C19. The full statement is false: on a 3×1 view the `Lower` variant runs past the last
column and accesses memory outside the view. -/
theorem not_triangularExact : ¬ TriangularExact Int := by
  intro h
  obtain ⟨m', h1, _⟩ := h ⟨0, 3, 1, 1, 3⟩ .lower (.temp 7) 7
    (fun a => if a = 0 ∨ a = 1 ∨ a = 2 then some 1 else none) rfl (by decide) (by decide)
    (by decide)
    (by
      rintro r c ⟨h1, h2, h3, h4⟩
      simp only at *
      have : (0 : Int) + r * 1 + c * 3 = 0 ∨ (0 : Int) + r * 1 + c * 3 = 1 ∨
        (0 : Int) + r * 1 + c * 3 = 2 := by omega
      exact ⟨1, by simp only [this, if_true]⟩) rfl
  have h4 : (⟨0, 3, 1, 1, 3⟩ : View).setConstantTri (.temp 7) .lower
      (fun a => if a = 0 ∨ a = 1 ∨ a = 2 then some (1 : Int) else none) = .error .ub := rfl
  rw [h4] at h1
  cases h1

/-- C19. Also wrong without leaving the allocation: in the middle block of a larger matrix,
`Upper` on a 1×3 view overwrites elements of other rows. -/
theorem upper_wide_clobbers :
    ∃ m', (⟨0, 1, 3, 1, 3⟩ : View).setConstantTri (.temp 7) .upper
        (fun a => if 0 ≤ a ∧ a < 9 then some (1 : Int) else none) = .ok m' ∧
      m' 4 = some 7 ∧ ¬ (⟨0, 1, 3, 1, 3⟩ : View).IsElemAddr (fun _ _ => True) 4 := by
  refine ⟨_, rfl, by decide, ?_⟩
  rintro ⟨r, c, ⟨h1, h2, h3, h4⟩, _, h⟩
  simp only at *; omega

example : (⟨0, 3, 3, 1, 4⟩ : View).inner = 1 ∧ TriShapeOk ⟨0, 3, 3, 1, 4⟩ .strictlyUpper ∧
    (⟨0, 3, 3, 1, 4⟩ : View).Backed (fun _ => some (5 : Int)) :=
  ⟨rfl, .inl rfl, fun _ _ _ => ⟨5, rfl⟩⟩

/-! ## C20: diagonal -/

/-- C20. On a square view `set_diagonal(t)` writes `t` to exactly the diagonal elements. -/
theorem setDiagonal_exact_partial (v : View) (t : Arg α) (x : α) (m : Mem α)
    (hsq : v.rows = v.cols) (hb : v.Backed m) (ht : t.eval m = .ok x) :
    ∃ m', v.setDiagonal t m = .ok m' ∧ WroteExactly (v.IsElemAddr (fun r c => r = c)) x m m' := by
  have hr := ready_of_backed hb ht
  obtain ⟨s', h1, h2⟩ := forRange_inv (lo := 0) (hi := max v.rows v.cols) (s := (m, v.data))
    (body := fun _ (s : Mem α × Int) => do
      let m ← s.1.write s.2 (← t.eval s.1)
      return (m, s.2 + (v.outer + v.inner)))
    (fun k s => WroteExactly (fun a => ∃ i, 0 ≤ i ∧ i < k ∧ a = v.data + i * v.inner + i * v.outer)
        x m s.1 ∧ s.2 = v.data + k * (v.outer + v.inner))
    ⟨wrote_empty (by rintro a ⟨i, _, _, _⟩; omega), by simp⟩
    (by
      rintro k ⟨mk, p⟩ hk1 hk2 ⟨hw, hp⟩
      simp only at hw hp
      have hr' := ready_wrote hr hw
      have he : v.HasElem k k := ⟨by omega, by omega, by omega, by omega⟩
      have hpe : p = v.data + k * v.inner + k * v.outer := by rw [hp]; ring
      obtain ⟨y, hy⟩ := hr'.1 p ⟨k, k, he, trivial, hpe⟩
      obtain ⟨m', h3, h4⟩ := wrote_one x hy
      refine ⟨(m', p + (v.outer + v.inner)), ?_, wrote_congr (wrote_trans hw h4) ?_, ?_⟩
      · simp only [hr'.2, ok_bind, h3]; rfl
      · intro a
        constructor
        · rintro (⟨i, h5, h6, h7⟩ | h5)
          · exact ⟨i, h5, by omega, h7⟩
          · exact ⟨k, hk1, by omega, h5.trans hpe⟩
        · rintro ⟨i, h5, h6, h7⟩
          by_cases hik : i = k
          · right; subst hik; exact h7.trans hpe.symm
          · exact .inl ⟨i, h5, by omega, h7⟩
      · simp only [hp]; ring)
  refine ⟨s'.1, ?_, wrote_congr h2.1 ?_⟩
  · simp only [View.setDiagonal]; rw [h1]; rfl
  · intro a
    constructor
    · rintro ⟨i, h5, h6, rfl⟩
      exact ⟨i, i, ⟨h5, by omega, h5, by omega⟩, rfl, rfl⟩
    · rintro ⟨r, c, ⟨h5, h6, h7, h8⟩, rfl, rfl⟩
      exact ⟨r, h5, by omega, rfl⟩

/-- C20. On a square view with distinct diagonal addresses, `add_to_diagonal(t)` adds `t` to
exactly the diagonal elements, when `t` is not a reference to a diagonal element. -/
theorem addToDiagonal_exact_partial [Add α] (v : View) (t : Arg α) (x : α) (g : Int → α)
    (m : Mem α) (hsq : v.rows = v.cols) (hinj : v.Injective)
    (hv : ∀ i, v.HasElem i i → v.Holds m i i (g i)) (ht : t.eval m = .ok x)
    (hta : ∀ a, t = .ref a → ¬ v.IsElemAddr (fun r c => r = c) a) :
    ∃ m', v.addToDiagonal t m = .ok m' ∧
      (∀ i, v.HasElem i i → v.Holds m' i i (g i + x)) ∧
      (∀ a, ¬ v.IsElemAddr (fun r c => r = c) a → m' a = m a) := by
  obtain ⟨s', h1, h2⟩ := forRange_inv (lo := 0) (hi := max v.rows v.cols) (s := (m, v.data))
    (body := fun _ (s : Mem α × Int) => do
      let x ← s.1.read s.2
      let m ← s.1.write s.2 (x + (← t.eval s.1))
      return (m, s.2 + (v.outer + v.inner)))
    (fun k s => Upd (fun i : Int => 0 ≤ i ∧ i < k) (fun i => v.data + i * v.inner + i * v.outer)
        (fun i => g i + x) m s.1 ∧ s.2 = v.data + k * (v.outer + v.inner))
    ⟨upd_empty (by rintro a ⟨_, _⟩; omega), by simp⟩
    (by
      rintro k ⟨mk, p⟩ hk1 hk2 ⟨hw, hp⟩
      simp only at hw hp
      have he : v.HasElem k k := ⟨by omega, by omega, by omega, by omega⟩
      have hpe : p = v.data + k * v.inner + k * v.outer := by rw [hp]; ring
      have hne : ∀ e, (0 ≤ e ∧ e < k) → v.data + e * v.inner + e * v.outer ≠
          v.data + k * v.inner + k * v.outer := by
        intro e h hd
        have := hinj _ _ _ _ ⟨h.1, by omega, h.1, by omega⟩ he hd
        omega
      have hrd : mk p = some (g k) := by
        rw [hpe]; exact upd_read hw hne (hv k he)
      have hx : t.eval mk = .ok x := by
        cases t with
        | temp y => exact ht
        | ref a =>
          have hna := hta a rfl
          simp only [Arg.eval, Mem.read] at ht ⊢
          rw [hw.2 a]
          · exact ht
          · intro e he hd
            exact hna ⟨e, e, ⟨he.1, by omega, he.1, by omega⟩, rfl, hd.symm⟩
      obtain ⟨m', h3, h4⟩ := upd_step hw k _ (hv k he) (fun e h hd => absurd hd (hne e h))
      rw [← hpe] at h3
      refine ⟨(m', p + (v.outer + v.inner)), ?_, upd_congr h4 ?_, ?_⟩
      · simp only [read_ok hrd, hx, ok_bind, h3]; rfl
      · intro e; constructor
        · rintro (h | h) <;> omega
        · intro h; omega
      · simp only [hp]; ring)
  refine ⟨s'.1, ?_, ?_, ?_⟩
  · simp only [View.addToDiagonal]; rw [h1]; rfl
  · rintro i ⟨h3, h4, h5, h6⟩
    exact h2.1.1 i ⟨h3, by omega⟩
  · intro a ha
    refine h2.1.2 a ?_
    rintro i ⟨h3, h4⟩ hd
    exact ha ⟨i, i, ⟨h3, by omega, h3, by omega⟩, rfl, hd.symm⟩

/-- C20. On a square view, `diagonal()` is a column whose `i`-th element is element `(i, i)`
of the view, for exactly the diagonal positions. -/
theorem diagonal_correct_partial (v : View) (hsq : v.rows = v.cols) :
    v.diagonal.cols = 1 ∧ (∀ i, v.diagonal.HasElem i 0 ↔ v.HasElem i i) ∧
    (∀ i, v.diagonal.addr i 0 = v.addr i i) := by
  refine ⟨rfl, ?_, ?_⟩
  · intro i
    simp only [View.HasElem, View.diagonal, View.withDefaultOuter]
    constructor <;> (rintro ⟨h1, h2, h3, h4⟩; exact ⟨by omega, by omega, by omega, by omega⟩)
  · intro i
    simp only [View.addr, View.diagonal, View.withDefaultOuter]; ring

/-- C20, full statement: for every shape `set_diagonal` writes exactly the diagonal. -/
def DiagonalExact (α : Type) : Prop :=
  ∀ (v : View) (t : Arg α) (x : α) (m : Mem α), 0 ≤ v.rows → 0 ≤ v.cols →
    v.Backed m → t.eval m = .ok x →
    ∃ m', v.setDiagonal t m = .ok m' ∧ WroteExactly (v.IsElemAddr (fun r c => r = c)) x m m'

/-- C20. The full statement is false: on a 2×1 view `set_diagonal` writes past the view. -/
theorem not_diagonalExact : ¬ DiagonalExact Int := by
  intro h
  obtain ⟨m', h1, _⟩ := h ⟨0, 2, 1, 1, 2⟩ (.temp 7) 7
    (fun a => if a = 0 ∨ a = 1 then some 1 else none) (by decide) (by decide)
    (by
      rintro r c ⟨h1, h2, h3, h4⟩
      simp only at *
      have : (0 : Int) + r * 1 + c * 2 = 0 ∨ (0 : Int) + r * 1 + c * 2 = 1 := by omega
      exact ⟨1, by simp only [this, if_true]⟩) rfl
  have h4 : (⟨0, 2, 1, 1, 2⟩ : View).setDiagonal (.temp 7)
      (fun a => if a = 0 ∨ a = 1 then some (1 : Int) else none) = .error .ub := rfl
  rw [h4] at h1
  cases h1

/-- C20. On every non-square view, `diagonal()` has positions that are not elements of the
view. -/
theorem diagonal_too_long (v : View) (h1 : 0 < v.rows) (h2 : 0 < v.cols) (h : v.rows ≠ v.cols) :
    ∃ i, v.diagonal.HasElem i 0 ∧ ¬ v.HasElem i i := by
  refine ⟨max v.rows v.cols - 1, ?_, ?_⟩
  · simp only [View.HasElem, View.diagonal, View.withDefaultOuter]; omega
  · simp only [View.HasElem]; omega

example : (⟨0, 2, 2, 1, 3⟩ : View).rows = (⟨0, 2, 2, 1, 3⟩ : View).cols ∧
    (⟨0, 2, 2, 1, 3⟩ : View).Injective ∧
    ¬ (⟨0, 2, 2, 1, 3⟩ : View).IsElemAddr (fun r c => r = c) 1 := by
  refine ⟨rfl, ?_, ?_⟩
  · rintro r c r' c' ⟨h1, h2, h3, h4⟩ ⟨h5, h6, h7, h8⟩ h
    simp only at *; omega
  · rintro ⟨r, c, ⟨h1, h2, h3, h4⟩, rfl, h⟩
    simp only at *; omega

/-! ## C21: distinct addresses -/

/-- C21. Strides with `0 < inner` and `inner * rows ≤ outer` (columns do not overlap) place
distinct elements at distinct addresses; likewise with the roles swapped. -/
theorem valid_strides_injective (v : View)
    (h : (0 < v.inner ∧ v.inner * v.rows ≤ v.outer) ∨ (0 < v.outer ∧ v.outer * v.cols ≤ v.inner)) :
    v.Injective := by
  rintro r c r' c' ⟨h1, h2, h3, h4⟩ ⟨h5, h6, h7, h8⟩ he
  have he' : (r - r') * v.inner + (c - c') * v.outer = 0 := by linarith
  rcases h with ⟨hp, hs⟩ | ⟨hp, hs⟩
  · have hc : c = c' := by
      rcases lt_trichotomy c c' with hlt | heq | hgt
      · exfalso
        have : (r - r') * v.inner < v.inner * v.rows := by nlinarith
        have h0 : 0 ≤ v.outer := le_trans (by nlinarith) hs
        nlinarith
      · exact heq
      · exfalso
        have : (r' - r) * v.inner < v.inner * v.rows := by nlinarith
        have h0 : 0 ≤ v.outer := le_trans (by nlinarith) hs
        nlinarith
    subst hc
    have : (r - r') * v.inner = 0 := by linarith
    rcases Int.mul_eq_zero.1 this with h | h <;> omega
  · have hr : r = r' := by
      rcases lt_trichotomy r r' with hlt | heq | hgt
      · exfalso
        have : (c - c') * v.outer < v.outer * v.cols := by nlinarith
        have h0 : 0 ≤ v.inner := le_trans (by nlinarith) hs
        nlinarith
      · exact heq
      · exfalso
        have : (c' - c) * v.outer < v.outer * v.cols := by nlinarith
        have h0 : 0 ≤ v.inner := le_trans (by nlinarith) hs
        nlinarith
    subst hr
    have : (c - c') * v.outer = 0 := by linarith
    rcases Int.mul_eq_zero.1 this with h | h <;> omega

/-- C21. The default outer stride always gives distinct addresses. -/
theorem default_stride_injective (data rows cols inner : Int) (hi : 0 < inner) :
    (View.withDefaultOuter data rows cols inner).Injective :=
  valid_strides_injective _ (.inl ⟨hi, le_refl _⟩)

/-- C21. With default strides the elements occupy exactly the offsets `0 .. rows*cols - 1`,
in column-major order. -/
theorem default_stride_contiguous (data rows cols : Int) (hr : 0 < rows) (k : Int) :
    (0 ≤ k ∧ k < rows * cols) ↔
      ∃ r c, (View.withDefaultOuter data rows cols 1).HasElem r c ∧
        (View.withDefaultOuter data rows cols 1).addr r c = data + k ∧
        r = k % rows ∧ c = k / rows := by
  have e := Int.emod_add_mul_ediv k rows
  have e1 := Int.emod_nonneg k (by omega : rows ≠ 0)
  have e2 := Int.emod_lt_of_pos k hr
  constructor
  · rintro ⟨h1, h2⟩
    refine ⟨k % rows, k / rows, ⟨e1, e2, Int.ediv_nonneg h1 (by omega), ?_⟩, ?_, rfl, rfl⟩
    · exact Int.ediv_lt_of_lt_mul hr (by simpa [View.withDefaultOuter, mul_comm] using h2)
    · simp only [View.addr, View.withDefaultOuter]; nlinarith
  · rintro ⟨r, c, ⟨h1, h2, h3, h4⟩, _, rfl, rfl⟩
    simp only [View.withDefaultOuter] at h2 h4
    constructor <;> nlinarith

/-- C21. `as_column` is the span itself: element `(i, 0)` is the `i`-th element. -/
theorem asColumn_correct (data size : Int) :
    (View.asColumn data size).rows = size ∧ (View.asColumn data size).cols = 1 ∧
    ∀ i, (View.asColumn data size).addr i 0 = data + i := by
  refine ⟨rfl, rfl, ?_⟩
  intro i; simp [View.asColumn, View.addr, View.withDefaultOuter]

example : (0 < (⟨0, 3, 2, 2, 6⟩ : View).inner ∧
    (⟨0, 3, 2, 2, 6⟩ : View).inner * (⟨0, 3, 2, 2, 6⟩ : View).rows ≤ (⟨0, 3, 2, 2, 6⟩ : View).outer) := by
  decide

/-! ## C22: generate -/

/-- C22. `generate(gen)` stores the `k`-th generated value in the `k`-th element in
column-major order, calls `gen` exactly `rows * cols` times and changes nothing else. -/
theorem generate_columnMajor {σ : Type} (v : View) (gen : σ → α × σ) (g : σ) (m : Mem α)
    (hr : 0 ≤ v.rows) (hc : 0 ≤ v.cols) (hinj : v.Injective) (hb : v.Backed m) :
    ∃ m', v.generate gen g m = .ok (m', genState gen g (v.rows * v.cols).toNat) ∧
      v.ElemsBecome (fun r c => genValue gen g (c * v.rows + r).toNat) m m' := by
  obtain ⟨s', h1, h2⟩ := forRange_inv (lo := 0) (hi := v.cols) (s := (m, g))
    (body := fun c s =>
      forRange 0 v.rows (fun r (s : Mem α × σ) => do
        let (x, g) := gen s.2
        let m ← s.1.write (← v.at r c) x
        return (m, g)) s)
    (fun c s => Upd (fun e : Int × Int => 0 ≤ e.1 ∧ e.1 < v.rows ∧ 0 ≤ e.2 ∧ e.2 < c)
        (fun e => v.data + e.1 * v.inner + e.2 * v.outer)
        (fun e => genValue gen g (e.2 * v.rows + e.1).toNat) m s.1 ∧
      s.2 = genState gen g (c * v.rows).toNat)
    ⟨upd_empty (by rintro e ⟨_, _, _, _⟩; omega), by simp [genState]⟩
    (by
      rintro c ⟨mk, q⟩ hc1 hc2 ⟨hp, hq⟩
      simp only at hp hq
      obtain ⟨s', h3, h4⟩ := forRange_inv (lo := 0) (hi := v.rows) (s := (mk, q))
        (body := fun r (s : Mem α × σ) => do
          let (x, g) := gen s.2
          let m ← s.1.write (← v.at r c) x
          return (m, g))
        (fun r s => Upd (fun e : Int × Int => (0 ≤ e.1 ∧ e.1 < v.rows ∧ 0 ≤ e.2 ∧ e.2 < c) ∨
              (e.2 = c ∧ 0 ≤ e.1 ∧ e.1 < r))
            (fun e => v.data + e.1 * v.inner + e.2 * v.outer)
            (fun e => genValue gen g (e.2 * v.rows + e.1).toNat) m s.1 ∧
          s.2 = genState gen g (c * v.rows + r).toNat)
        ⟨upd_congr hp (fun e => ⟨.inl, by rintro (h | h); exact h; omega⟩), by simpa using hq⟩
        (by
          rintro r ⟨mk, q⟩ hr1 hr2 ⟨hp, hq⟩
          simp only at hp hq
          have he : v.HasElem r c := ⟨hr1, hr2, hc1, hc2⟩
          obtain ⟨y, hy⟩ := hb r c he
          obtain ⟨m', h5, h6⟩ := upd_step hp (r, c) y hy (by
            rintro e he' hd
            have : e.1 = r ∧ e.2 = c := by
              refine hinj _ _ _ _ ?_ he hd
              rcases he' with h | h
              · exact ⟨h.1, h.2.1, h.2.2.1, by omega⟩
              · exact ⟨h.2.1, by omega, by omega, by omega⟩
            rw [this.1, this.2])
          have hnn : 0 ≤ c * v.rows + r := by nlinarith
          have hsucc : (c * v.rows + (r + 1)).toNat = (c * v.rows + r).toNat + 1 := by omega
          refine ⟨(m', (gen q).2), ?_, upd_congr h6 ?_, ?_⟩
          · simp only [at_ok he, ok_bind]
            have hg : (gen q).1 = genValue gen g (c * v.rows + r).toNat := by
              rw [hq]; rfl
            simp only [hg, h5]; rfl
          · intro e
            constructor
            · rintro ((h | h) | rfl)
              · exact .inl h
              · exact .inr ⟨h.1, h.2.1, by omega⟩
              · exact .inr ⟨rfl, hr1, by simp⟩
            · rintro (h | ⟨h3, h4, h5⟩)
              · exact .inl (.inl h)
              · by_cases he : e.1 = r
                · right; exact Prod.ext he h3
                · left; right; exact ⟨h3, h4, by omega⟩
          · simp only [hsucc, genState, hq])
      refine ⟨s', h3, upd_congr h4.1 ?_, ?_⟩
      · intro e
        constructor
        · rintro (h | h)
          · exact ⟨h.1, h.2.1, h.2.2.1, by omega⟩
          · exact ⟨h.2.1, by omega, by omega, by omega⟩
        · rintro ⟨k1, k2, k3, k4⟩
          by_cases hh : e.2 = c
          · exact .inr ⟨hh, k1, by omega⟩
          · exact .inl ⟨k1, k2, k3, by omega⟩
      · rw [h4.2]; congr 2; rw [max_eq_right hr]; ring)
  refine ⟨s'.1, ?_, upd_to_become h2.1⟩
  simp only [View.generate]
  rw [h1]
  have : s'.2 = genState gen g (v.rows * v.cols).toNat := by
    rw [h2.2, max_eq_right hc, mul_comm]
  rw [← this]

example : (⟨0, 2, 3, 1, 2⟩ : View).Injective ∧
    (⟨0, 2, 3, 1, 2⟩ : View).Backed (fun _ => some (0 : Int)) :=
  ⟨default_stride_injective 0 2 3 1 (by decide), fun _ _ _ => ⟨0, rfl⟩⟩

/-! ## reassign, conversion to const -/

/-- C16. `reassign` and the conversion to a view of `const` denote the same elements as their
source and touch no memory. -/
theorem reassign_toConst (v other : View) :
    v.reassign other = other ∧ v.toConst = v := ⟨rfl, rfl⟩

end Guanaqo.MatView
