import Verif.TypeErased.Ops

/-!
# The effect of the member functions, continued: construction and moves
-/

namespace Guanaqo.TypeErased

variable {V : Type} {cfg : Cfg}

theorem modW_inv {s s' : St V} {w : Nat} {f : Wrapper V → Wrapper V}
    (h : (modW w f).run s = .ok () s') : ∃ W, s.wr w = some W ∧ s'.wr w = some (f W) := by
  unfold modW at h
  dsimp only at h
  split at h
  · rename_i W hW
    cases h
    exact ⟨W, hW, by simp⟩
  · cases h

/-! ## Construction -/

/-- The constructor of the vtable chooses the methods that the specification says. -/
theorem make_eq (t : Nat) (c : Bool) (provides : Nat → Bool) :
    VTable.make cfg t c provides = .of t c (cfg.own t provides) := by
  have key : ∀ n, (List.range n).foldl (fun vt k => VTable.optional vt (cfg.decl t k) k (provides k))
      (.of t c fun _ => false) =
      .of t c (fun k => decide (k < n) && (cfg.decl t k).has && (!(cfg.decl t k).prov || provides k)) := by
    intro n
    induction n with
    | zero => simp
    | succ n ih =>
      rw [List.range_succ, List.foldl_append, ih]
      simp only [List.foldl_cons, List.foldl_nil]
      unfold VTable.optional VTable.of
      have aux : ∀ (b : Bool), ((cfg.decl t n).has && (!(cfg.decl t n).prov || provides n)) = b →
          (fun k => decide (k < n + 1) && (cfg.decl t k).has && (!(cfg.decl t k).prov || provides k)) =
          fun i => if i = n then b
            else decide (i < n) && (cfg.decl t i).has && (!(cfg.decl t i).prov || provides i) := by
        intro b hb
        funext i
        by_cases hi : i = n
        · subst hi; simp [← hb]
        · rw [if_neg hi]
          have : decide (i < n + 1) = decide (i < n) := by
            rw [decide_eq_decide]; omega
          rw [this]
      have aux2 : (fun i => if i = n then false
            else decide (i < n) && (cfg.decl t i).has && (!(cfg.decl t i).prov || provides i)) =
          fun i => decide (i < n) && (cfg.decl t i).has && (!(cfg.decl t i).prov || provides i) := by
        funext i
        by_cases hi : i = n
        · subst hi; simp
        · rw [if_neg hi]
      cases h1 : (cfg.decl t n).has with
      | false => simp only [Bool.false_eq_true, if_false]; rw [aux false (by simp [h1]), aux2]
      | true =>
        cases h2 : (cfg.decl t n).prov with
        | false => simp only [Bool.false_eq_true, if_false, if_true]; rw [aux true (by simp [h1, h2])]
        | true =>
          cases h3 : provides n with
          | false => simp only [Bool.false_eq_true, if_false, if_true]; rw [aux false (by simp [h1, h2, h3]), aux2]
          | true => simp only [if_true]; rw [aux true (by simp [h1, h2, h3])]
  exact key cfg.nOpt

theorem constructInplace_ok (ok : cfg.Ok) {s : St V} {C : Nat → Option (Mid V)} (hc : Cells cfg s C)
    {w : Nat} {m : Mid V} (hm : C w = some m) (hcell : m.cell = .empty) (t : Nat) (v : V)
    (th : Throws) :
    match storeThrows cfg t th.alloc (th.ctor || th.vtable) with
    | none => ∃ s' m', (constructInplace cfg w t v th).run s = .ok () s' ∧
        Cells cfg s' (upd C w (some m')) ∧ Fr w s s' ∧ m'.alloc = m.alloc ∧
        Held cfg s.ext m' (.owned t v (cfg.own t th.provides))
    | some e => ∃ s' m', (constructInplace cfg w t v th).run s = .thrown e s' ∧
        Cells cfg s' (upd C w (some m')) ∧ Fr w s s' ∧ m'.alloc = m.alloc ∧ m'.cell = .empty := by
  unfold constructInplace
  rw [make_eq]
  by_cases hheap : cfg.NeedsHeap t ∧ th.alloc = true
  · simp only [storeThrows, if_pos hheap]
    rw [hheap.2, bind_thrown (allocate_throws hc hm hcell (ok.size_pos t) (ok.size_max t) hheap.1)]
    exact ⟨s, m, rfl, by rw [upd_self hm]; exact hc, .refl _ _, rfl, hcell⟩
  · obtain ⟨s₁, e1, c1, x1⟩ := allocate_ok hc hm hcell (ok.size_pos t) (ok.size_max t)
      (fails := th.alloc) (fun hs => by
          cases ha : th.alloc with
          | false => rfl
          | true => exact absurd ⟨hs, ha⟩ hheap)
    rw [bind_ok e1]
    obtain ⟨W, g, hW, hmW⟩ := getW_ok c1 (upd_same _ _ _)
    cases hct : th.ctor with
    | true =>
      simp only [storeThrows, if_neg hheap, Bool.true_or, if_true]
      obtain ⟨s₂, e2, c2, x2⟩ := deallocate_ok c1 (upd_same _ _ _) rfl rfl (ok.size_pos t)
        (ok.size_max t)
      rw [upd_upd] at c2
      refine ⟨s₂, _, onThrow_thrown (s' := s₁) ?_ e2, c2, x1.trans x2, rfl, rfl⟩
      rw [bind_ok g]
      exact bind_thrown rfl
    | false =>
      obtain ⟨s₂, e2, c2, x2, W₂, hW2, hs2⟩ := construct_ok c1 (upd_same _ _ _) (o := ⟨t, v⟩) rfl hW
      rw [upd_upd] at c2
      have e2' : (constructOrThrow cfg W.self ⟨t, v⟩ false).run s₁ = .ok () s₂ := e2
      cases hvt : th.vtable with
      | true =>
        simp only [storeThrows, if_neg hheap, Bool.or_true, if_true]
        obtain ⟨s₃, e3, c3, x3, _⟩ := destroy_ok c2 (upd_same _ _ _) (o := ⟨t, v⟩) rfl hW2
        rw [upd_upd] at c3
        obtain ⟨s₄, e4, c4, x4⟩ := deallocate_ok c3 (upd_same _ _ _) rfl rfl (ok.size_pos t)
          (ok.size_max t)
        rw [upd_upd] at c4
        rw [hs2] at e3
        refine ⟨s₄, _, onThrow_thrown (s' := s₃) ?_ e4, c4,
          ((x1.trans x2).trans x3).trans x4, rfl, rfl⟩
        rw [bind_ok g, bind_ok e2']
        exact onThrow_thrown (s' := s₂) rfl e3
      | false =>
        simp only [storeThrows, if_neg hheap, Bool.or_false]
        obtain ⟨s₃, e3, c3, x3⟩ := modMeta_ok c2 (upd_same _ _ _)
          (fun W => { W with vt := .of t false (cfg.own t th.provides) })
          ⟨m.alloc, cfg.sizeOf t, .of t false (cfg.own t th.provides), .store (cfg.sizeOf t) (some ⟨t, v⟩)⟩
          (fun _ => ⟨rfl, rfl⟩) (fun W h1 h2 h3 => ⟨h1, h2, rfl⟩) rfl (.inl rfl)
        rw [upd_upd] at c3
        refine ⟨s₃, _, onThrow_ok (s' := s₃) ?_, c3, (x1.trans x2).trans x3, rfl, rfl, rfl, rfl⟩
        rw [bind_ok g, bind_ok e2']
        exact onThrow_ok e3

theorem constructRef_ok {s : St V} {C : Nat → Option (Mid V)} (hc : Cells cfg s C)
    {w : Nat} {m : Mid V} (hm : C w = some m) (hcell : m.cell = .empty) (e : Nat) (c : Bool)
    (th : Throws) :
    if th.vtable then
      ∃ s' m', (constructRef cfg w e c th).run s = .thrown .user s' ∧
        Cells cfg s' (upd C w (some m')) ∧ Fr w s s' ∧ m'.alloc = m.alloc ∧ m'.cell = .empty
    else
      ∃ s' m', (constructRef cfg w e c th).run s = .ok () s' ∧
        Cells cfg s' (upd C w (some m')) ∧ Fr w s s' ∧ m'.alloc = m.alloc ∧
        Held cfg s.ext m' (.ref e c (cfg.own (s.ext e).ty th.provides)) := by
  unfold constructRef
  simp only [make_eq]
  obtain ⟨s₁, e1, c1, x1⟩ := modMeta_ok hc hm
    (fun W => { W with size := if c then constRefSize else mutRefSize })
    { m with size := if c then constRefSize else mutRefSize }
    (fun _ => ⟨rfl, rfl⟩) (fun W h1 h2 h3 => ⟨h1, rfl, h3⟩) rfl (.inl rfl)
  rw [bind_ok e1]
  cases hvt : th.vtable with
  | true =>
    rw [if_pos rfl]
    exact ⟨s₁, _, bind_thrown rfl, c1, x1, rfl, hcell⟩
  | false =>
    rw [if_neg (by simp)]
    obtain ⟨s₂, e2, c2, x2⟩ := modMeta_ok c1 (upd_same _ _ _)
      (fun W => { W with vt := .of (s₁.ext e).ty c (cfg.own (s₁.ext e).ty th.provides) })
      ⟨m.alloc, if c then constRefSize else mutRefSize, .of (s₁.ext e).ty c (cfg.own (s₁.ext e).ty th.provides), m.cell⟩
      (fun _ => ⟨rfl, rfl⟩) (fun W h1 h2 h3 => ⟨h1, h2, rfl⟩) rfl (.inl rfl)
    rw [upd_upd] at c2
    rw [bind_ok (a := ()) (s' := s₂) (by exact e2)]
    obtain ⟨s₃, e3, c3, x3⟩ := setRef_ok c2 (upd_same _ _ _) hcell e
    rw [upd_upd] at c3
    exact ⟨s₃, _, e3, c3, (x1.trans x2).trans x3, rfl, rfl, rfl, by rw [← x1.ext]⟩

/-! ## Moves -/

/-- The object of `src` goes to the raw storage of `w`; `src` keeps raw storage. -/
theorem moveObj_ok {s : St V} {C : Nat → Option (Mid V)} (hc : Cells cfg s C) {w src : Nat}
    {m o : Mid V} (hne : src ≠ w) (hm : C w = some m) (ho : C src = some o) {t : Nat} {v : V} {own : Nat → Bool}
    (hmc : m.cell = .store (cfg.sizeOf t) none)
    (hoc : o.cell = .store (cfg.sizeOf t) (some ⟨t, v⟩)) {W O : Wrapper V} (hW : s.wr w = some W)
    (hO : s.wr src = some O) :
    ∃ s₁ s₂, (vtMove cfg (.of t false own) O.self W.self).run s = .ok () s₁ ∧
      (vtDestroy cfg (.of t false own) O.self).run s₁ = .ok () s₂ ∧
      Cells cfg s₂ (upd (upd C w (some { m with cell := o.cell })) src
        (some { o with cell := .store (cfg.sizeOf t) none })) ∧ s₂.ext = s.ext ∧
      ∃ O₂, s₂.wr src = some O₂ ∧ O₂.self = O.self := by
  have hread := read_ok hc ho hoc hO
  obtain ⟨s₁, e1, c1, x1, _⟩ := construct_ok hc hm (o := ⟨t, v⟩) hmc hW
  have ho1 : ∀ x, upd C w x src = some o := fun x => by rw [upd_ne _ _ hne]; exact ho
  have hO1 : s₁.wr src = some O := (x1.wr src hne).trans hO
  obtain ⟨s₂, e2, c2, x2, O₂, hO2, hs2⟩ := destroy_ok c1 (ho1 _) hoc hO1
  refine ⟨s₁, s₂, ?_, e2, ?_, x2.ext.trans x1.ext, O₂, hO2, hs2⟩
  · show (readAs O.self t >>= fun v => construct cfg W.self ⟨t, v⟩).run s = _
    rw [bind_ok hread]
    exact e1
  · rw [hoc]; exact c2

theorem moveSmall_ok {s : St V} {C : Nat → Option (Mid V)} (hc : Cells cfg s C) {w src : Nat}
    {m o : Mid V} (hne : src ≠ w) (hm : C w = some m) (ho : C src = some o) {t : Nat} {v : V} {own : Nat → Bool}
    (hmc : m.cell = .empty) (hvt : m.vt = .of t false own)
    (hoc : o.cell = .store (cfg.sizeOf t) (some ⟨t, v⟩)) (hs : cfg.sizeOf t ≤ cfg.sbs) :
    ∃ s', (moveSmall cfg w src).run s = .ok () s' ∧
      Cells cfg s' (upd (upd C w (some { m with cell := o.cell })) src
        (some { o with cell := .empty })) ∧ s'.ext = s.ext := by
  have ho1 : ∀ x, upd C w x src = some o := fun x => by rw [upd_ne _ _ hne]; exact ho
  unfold moveSmall
  obtain ⟨s₁, e1, c1, x1⟩ := setSmall_ok hc hm hmc hs
  obtain ⟨W, gW, hW, hmW⟩ := getW_ok c1 (upd_same _ _ _)
  obtain ⟨O, gO, hO, hmO⟩ := getW_ok c1 (ho1 _)
  obtain ⟨s₂, s₃, e2, e3, c3, x3, _⟩ := moveObj_ok c1 hne (upd_same _ _ _) (ho1 _) rfl hoc hW hO
  have hWvt : W.vt = .of t false own := hmW.vt.trans hvt
  rw [bind_ok e1, bind_ok gW, bind_ok gO, hWvt, bind_ok e2, bind_ok e3]
  rw [upd_upd] at c3
  obtain ⟨s₄, e4, c4, x4⟩ := setNull_ok c3 (upd_same _ _ _) (.inr (.inr ⟨_, hs, rfl⟩))
  rw [upd_upd] at c4
  exact ⟨s₄, e4, c4, (x4.ext.trans x3).trans x1.ext⟩

/-- The part the two moves between unequal allocators have in common. -/
theorem moveHeap_common {s : St V} {C : Nat → Option (Mid V)} (hc : Cells cfg s C) {w src : Nat}
    {m o : Mid V} (hne : src ≠ w) (hm : C w = some m) (ho : C src = some o) {t : Nat} {v : V} {own : Nat → Bool}
    (hmc : m.cell = .empty) (hoc : o.cell = .store (cfg.sizeOf t) (some ⟨t, v⟩))
    (hs : cfg.sbs < cfg.sizeOf t) {O : Wrapper V} (hO : s.wr src = some O) :
    ∃ s₁ s₂ s₃ s₄, (malloc m.alloc (cfg.sizeOf t) false).run s = .ok (.heap s.next) s₁ ∧
      (modW w (fun W => { W with self := .heap s.next })).run s₁ = .ok () s₂ ∧
      (vtMove cfg (.of t false own) O.self (.heap s.next)).run s₂ = .ok () s₃ ∧
      (vtDestroy cfg (.of t false own) O.self).run s₃ = .ok () s₄ ∧
      Cells cfg s₄ (upd (upd C w (some { m with cell := o.cell })) src
        (some { o with cell := .store (cfg.sizeOf t) none })) ∧ s₄.ext = s.ext ∧
      ∃ O₂, s₄.wr src = some O₂ ∧ O₂.self = O.self := by
  have ho1 : ∀ x, upd C w x src = some o := fun x => by rw [upd_ne _ _ hne]; exact ho
  obtain ⟨s₁, s₂, e1, e2, c2, x2⟩ := malloc_ok hc hm hmc hs
  obtain ⟨W₁, _, hW2⟩ := modW_inv e2
  have hO2 : s₂.wr src = some O := (x2.wr src hne).trans hO
  obtain ⟨s₃, s₄, e3, e4, c4, x4, h4⟩ := moveObj_ok c2 hne (upd_same _ _ _) (ho1 _) rfl hoc hW2 hO2
  rw [upd_upd] at c4
  exact ⟨s₁, s₂, s₃, s₄, e1, e2, e3, e4, c4, x4.trans x2.ext, h4⟩

theorem moveHeap_ok (ok : cfg.Ok) {s : St V} {C : Nat → Option (Mid V)} (hc : Cells cfg s C)
    {w src : Nat} {m o : Mid V} (hne : src ≠ w) (hm : C w = some m) (ho : C src = some o) {t : Nat}
    {v : V} {own : Nat → Bool} (hmc : m.cell = .empty) (hvt : m.vt = .of t false own) (hms : m.size = cfg.sizeOf t)
    (hos : o.size = cfg.sizeOf t) (hoc : o.cell = .store (cfg.sizeOf t) (some ⟨t, v⟩))
    (hs : cfg.sbs < cfg.sizeOf t) (th : Throws) :
    if th.alloc then ∃ s', (moveHeap cfg w src th).run s = .thrown .badAlloc s'
    else ∃ s', (moveHeap cfg w src th).run s = .ok () s' ∧
      Cells cfg s' (upd (upd C w (some { m with cell := o.cell })) src
        (some { o with cell := .empty })) ∧ s'.ext = s.ext := by
  unfold moveHeap
  obtain ⟨W, gW, hW, hmW⟩ := getW_ok hc hm
  obtain ⟨O, gO, hO, hmO⟩ := getW_ok hc ho
  rw [bind_ok gW, bind_ok gO]
  cases hal : th.alloc with
  | true => rw [if_pos rfl]; exact ⟨s, bind_thrown rfl⟩
  | false =>
    rw [if_neg (by simp)]
    obtain ⟨s₁, s₂, s₃, s₄, e1, e2, e3, e4, c4, x4, _⟩ := moveHeap_common hc hne hm ho hmc hoc hs hO
    rw [hmW.alloc, hmW.size.trans hms, hmW.vt.trans hvt, bind_ok e1, bind_ok e2, bind_ok e3,
      bind_ok e4]
    obtain ⟨s₅, e5, c5, x5⟩ := deallocate_ok c4 (upd_same _ _ _) rfl hos (ok.size_pos t)
      (ok.size_max t)
    rw [upd_upd] at c5
    exact ⟨s₅, e5, c5, x5.ext.trans x4⟩

theorem moveHeapAssign_ok {s : St V} {C : Nat → Option (Mid V)} (hc : Cells cfg s C)
    {w src : Nat} {m o : Mid V} (hne : src ≠ w) (hm : C w = some m) (ho : C src = some o) {t : Nat}
    {v : V} {own : Nat → Bool} (hmc : m.cell = .empty) (hvt : m.vt = .of t false own) (hms : m.size = cfg.sizeOf t)
    (hoc : o.cell = .store (cfg.sizeOf t) (some ⟨t, v⟩))
    (hs : cfg.sbs < cfg.sizeOf t) (th : Throws) :
    if th.alloc then ∃ s', (moveHeapAssign cfg w src th).run s = .thrown .badAlloc s'
    else ∃ s', (moveHeapAssign cfg w src th).run s = .ok () s' ∧
      Cells cfg s' (upd (upd C w (some { m with cell := o.cell })) src
        (some { o with cell := .empty })) ∧ s'.ext = s.ext := by
  unfold moveHeapAssign
  obtain ⟨W, gW, hW, hmW⟩ := getW_ok hc hm
  obtain ⟨O, gO, hO, hmO⟩ := getW_ok hc ho
  rw [bind_ok gW, bind_ok gO]
  cases hal : th.alloc with
  | true => rw [if_pos rfl]; exact ⟨s, bind_thrown rfl⟩
  | false =>
    rw [if_neg (by simp)]
    obtain ⟨s₁, s₂, s₃, s₄, e1, e2, e3, e4, c4, x4, O₂, hO2, hs2⟩ :=
      moveHeap_common hc hne hm ho hmc hoc hs hO
    rw [hmW.alloc, hmW.size.trans hms, hmW.vt.trans hvt, bind_ok e1, bind_ok e2, bind_ok e3,
      bind_ok e4]
    obtain ⟨O₃, s₅, s₆, hO3, e5, e6, c6, x6⟩ := mfree_ok c4 (upd_same _ _ _) hs rfl
    rw [hO2] at hO3; cases hO3
    rw [hs2] at e5
    rw [hmO.alloc, bind_ok (show (mfree o.alloc O.self (cfg.sizeOf t)).run s₄ = .ok () s₅ from e5)]
    rw [upd_upd] at c6
    exact ⟨s₆, e6, c6, x6.ext.trans x4⟩

end Guanaqo.TypeErased
