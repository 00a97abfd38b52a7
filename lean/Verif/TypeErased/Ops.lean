import Verif.TypeErased.Cells

/-!
# The effect of the member functions on the ownership description
-/

namespace Guanaqo.TypeErased

variable {V : Type} {cfg : Cfg}

/-- A wrapper's members describe what it holds. -/
def Held (cfg : Cfg) (ext : Nat → Obj V) (m : Mid V) : Content V → Prop
  | .empty => m.cell = .empty
  | .owned t v own => m.cell = .store (cfg.sizeOf t) (some ⟨t, v⟩) ∧ m.size = cfg.sizeOf t ∧
      m.vt = .of t false own
  | .ref e c own => m.cell = .ref e ∧ m.size = (if c then constRefSize else mutRefSize) ∧
      m.vt = .of (ext e).ty c own

theorem owns_of_lt {n : Nat} (h : n < 2 ^ 63) : sizeIndicatesOwnership n = true := by
  have h1 : n ≠ constRefSize := by unfold constRefSize; omega
  have h2 : n ≠ mutRefSize := by unfold mutRefSize; omega
  simp [sizeIndicatesOwnership, h1, h2]

theorem owns_ref (c : Bool) :
    sizeIndicatesOwnership (if c then constRefSize else mutRefSize) = false := by
  cases c <;> decide

theorem ne_invalid {n : Nat} (h : n < 2 ^ 63) : n ≠ invalidSize := by
  unfold invalidSize; omega

theorem not_const_of_lt {n : Nat} (h : n < 2 ^ 63) : sizeIndicatesConst n = false := by
  have : n ≠ constRefSize := by unfold constRefSize; omega
  simp [sizeIndicatesConst, this]

theorem assertM_true {b : Bool} (h : b = true) (s : St V) : (assertM cfg b).run s = .ok () s := by
  subst h; unfold assertM; rw [Bool.or_true]; rfl

theorem pure_eq {α : Type} (a : α) (s : St V) : (pure a : M V α).run s = .ok a s := rfl

/-! ## allocate, deallocate, cleanup -/

theorem allocate_ok {s : St V} {C : Nat → Option (Mid V)} (hc : Cells cfg s C) {w : Nat} {m : Mid V}
    (h : C w = some m) (hcell : m.cell = .empty) {n : Nat} (hn : 0 < n) (hn' : n < 2 ^ 63)
    {fails : Bool} (hf : cfg.sbs < n → fails = false) :
    ∃ s', (allocate cfg w n fails).run s = .ok () s' ∧
      Cells cfg s' (upd C w (some { m with size := n, cell := .store n none })) ∧ Fr w s s' := by
  obtain ⟨W, g, hW, hm⟩ := getW_ok hc h
  have hnull := (self_null hm).2 hcell
  unfold allocate
  rw [bind_ok g, bind_ok (assertM_true (by simp [hnull]) s),
    bind_ok (assertM_true (by simpa using ne_invalid hn') s),
    bind_ok (assertM_true (by simpa using hn) s),
    bind_ok (assertM_true (owns_of_lt hn') s)]
  by_cases hs : n ≤ cfg.sbs
  · rw [bind_ok (show (storageFor cfg w W.alloc n fails).run s = .ok (.small w) s by
      rw [storageFor, if_pos hs]; rfl)]
    obtain ⟨s₁, e1, c1, x1⟩ := setSmall_ok hc h hcell hs
    rw [bind_ok e1]
    obtain ⟨s₂, e2, c2, x2⟩ := modMeta_ok c1 (upd_same _ _ _) (fun W => { W with size := n })
      { m with size := n, cell := .store n none } (fun _ => ⟨rfl, rfl⟩)
      (fun W h1 h2 h3 => ⟨h1, rfl, h3⟩) rfl (.inl rfl)
    rw [upd_upd] at c2
    exact ⟨s₂, e2, c2, x1.trans x2⟩
  · obtain ⟨s₁, s₂, e1, e2, c2, x2⟩ := malloc_ok hc h hcell (n := n) (by omega)
    rw [bind_ok (show (storageFor cfg w W.alloc n fails).run s = .ok (.heap s.next) s₁ by
      rw [storageFor, if_neg hs, hf (by omega), hm.alloc]; exact e1), bind_ok e2]
    obtain ⟨s₃, e3, c3, x3⟩ := modMeta_ok c2 (upd_same _ _ _) (fun W => { W with size := n })
      { m with size := n, cell := .store n none } (fun _ => ⟨rfl, rfl⟩)
      (fun W h1 h2 h3 => ⟨h1, rfl, h3⟩) rfl (.inl rfl)
    rw [upd_upd] at c3
    exact ⟨s₃, e3, c3, x2.trans x3⟩

theorem allocate_throws {s : St V} {C : Nat → Option (Mid V)} (hc : Cells cfg s C) {w : Nat}
    {m : Mid V} (h : C w = some m) (hcell : m.cell = .empty) {n : Nat} (hn : 0 < n)
    (hn' : n < 2 ^ 63) (hs : cfg.sbs < n) :
    (allocate cfg w n true).run s = .thrown .badAlloc s := by
  obtain ⟨W, g, hW, hm⟩ := getW_ok hc h
  have hnull := (self_null hm).2 hcell
  unfold allocate
  rw [bind_ok g, bind_ok (assertM_true (by simp [hnull]) s),
    bind_ok (assertM_true (by simpa using ne_invalid hn') s),
    bind_ok (assertM_true (by simpa using hn) s),
    bind_ok (assertM_true (owns_of_lt hn') s)]
  exact bind_thrown (by rw [storageFor, if_neg (by omega)]; rfl)

theorem deallocate_ok {s : St V} {C : Nat → Option (Mid V)} (hc : Cells cfg s C) {w : Nat}
    {m : Mid V} (h : C w = some m) {n : Nat} (hcell : m.cell = .store n none) (hsize : m.size = n)
    (hn : 0 < n) (hn' : n < 2 ^ 63) :
    ∃ s', (deallocate cfg w).run s = .ok () s' ∧
      Cells cfg s' (upd C w (some { m with cell := .empty })) ∧ Fr w s s' := by
  obtain ⟨W, g, hW, hm⟩ := getW_ok hc h
  unfold deallocate
  have hWs : W.size = n := hm.size.trans hsize
  rw [bind_ok g, bind_ok (assertM_true (by rw [hWs]; simpa using ne_invalid hn') s),
    bind_ok (assertM_true (by rw [hWs]; simpa using hn) s),
    bind_ok (assertM_true (by rw [hWs]; exact owns_of_lt hn') s)]
  by_cases hs : cfg.sbs < n
  · obtain ⟨W', s₁, s₂, hW', e1, e2, c2, x2⟩ := mfree_ok hc h hs hcell
    rw [hW] at hW'; cases hW'
    rw [bind_ok (show (releaseBlock cfg W).run s = .ok () s₁ by
      rw [releaseBlock, if_pos (by omega), hm.alloc, hWs]; exact e1)]
    exact ⟨s₂, e2, c2, x2⟩
  · rw [bind_ok (show (releaseBlock cfg W).run s = .ok () s by
      rw [releaseBlock, if_neg (by omega)]; rfl)]
    exact setNull_ok hc h (.inr (.inr ⟨n, by omega, hcell⟩))

theorem cleanup_ok (ok : cfg.Ok) {s : St V} {C : Nat → Option (Mid V)} (hc : Cells cfg s C) {w : Nat}
    {m : Mid V} (h : C w = some m) {c : Content V} (hh : Held cfg s.ext m c) :
    ∃ s', (cleanup cfg w).run s = .ok () s' ∧
      Cells cfg s' (upd C w (some { m with cell := .empty })) ∧ Fr w s s' := by
  obtain ⟨W, g, hW, hm⟩ := getW_ok hc h
  unfold cleanup
  rw [bind_ok g]
  have hWs := hm.size
  cases c with
  | empty =>
    by_cases ho : sizeIndicatesOwnership m.size = true
    · rw [hWs, ho, if_neg (by simp), if_pos ((self_null hm).2 hh)]
      refine ⟨s, rfl, ?_, .refl _ _⟩
      have hcell : m.cell = .empty := hh
      have : upd C w (some { m with cell := Cell.empty }) = C := by
        funext v
        by_cases hv : v = w
        · subst hv; rw [upd_same, h, ← hcell]
        · rw [upd_ne _ _ hv]
      rw [this]; exact hc
    · have ho' : sizeIndicatesOwnership m.size = false := by simpa using ho
      rw [hWs, ho', if_pos (by simp)]
      exact setNull_ok hc h (.inl hh)
  | ref e k =>
    obtain ⟨h1, h2, _⟩ := hh
    rw [hWs.trans h2, owns_ref, if_pos (by simp)]
    exact setNull_ok hc h (.inr (.inl ⟨e, h1⟩))
  | owned t v own =>
    obtain ⟨h1, h2, h3⟩ := hh
    have hne : W.self ≠ .null := by
      intro hnull
      rw [(self_null hm).1 hnull] at h1; cases h1
    rw [hWs.trans h2, owns_of_lt (ok.size_max t), if_neg (by simp), if_neg hne, hm.vt.trans h3]
    obtain ⟨s₁, e1, c1, x1, _⟩ := destroy_ok hc h h1 hW
    rw [bind_ok (show (vtDestroy cfg (.of t false own) W.self).run s = .ok () s₁ from e1)]
    obtain ⟨s₂, e2, c2, x2⟩ := deallocate_ok c1 (upd_same _ _ _) rfl h2 (ok.size_pos t) (ok.size_max t)
    rw [upd_upd] at c2
    exact ⟨s₂, e2, c2, x1.trans x2⟩

/-! ## Copying -/

theorem onThrow_ok {α : Type} {m : M V α} {c : M V Unit} {s s' : St V} {a : α}
    (h : m.run s = .ok a s') : (onThrow m c).run s = .ok a s' := by simp [onThrow, h]

theorem onThrow_thrown {α : Type} {m : M V α} {c : M V Unit} {s s' s'' : St V} {e : Exn}
    (h : m.run s = .thrown e s') (h' : c.run s' = .ok () s'') : (onThrow m c).run s = .thrown e s'' := by
  simp [onThrow, h, h']

theorem noexcept_ok {α : Type} {m : M V α} {s s' : St V} {a : α}
    (h : m.run s = .ok a s') : (noexcept m).run s = .ok a s' := by simp [noexcept, h]

theorem noexcept_thrown {α : Type} {m : M V α} {s s' : St V} {e : Exn}
    (h : m.run s = .thrown e s') : (noexcept m).run s = .fault .terminate := by simp [noexcept, h]

theorem upd_self {α : Type} {f : Nat → α} {i : Nat} {v : α} (h : f i = v) : upd f i v = f := by
  funext k
  by_cases hk : k = i
  · subst hk; rw [upd_same, h]
  · rw [upd_ne _ _ hk]

/-- Everything after the allocator has been assigned. -/
theorem doCopy_ok (ok : cfg.Ok) {s : St V} {C : Nat → Option (Mid V)} (hc : Cells cfg s C)
    {w src : Nat} {m o : Mid V} (hne : src ≠ w) (hm : C w = some m) (ho : C src = some o)
    (hcell : m.cell = .empty) (hvt : m.vt = o.vt) {c : Content V} (hh : Held cfg s.ext o c)
    (th : Throws) (copyAlloc : Bool) :
    let al := if copyAlloc && cfg.pocca then o.alloc else m.alloc
    match copyThrows cfg c th with
    | none => ∃ s' m', (doCopyAssign cfg copyAlloc w src th).run s = .ok () s' ∧
        Cells cfg s' (upd C w (some m')) ∧ Fr w s s' ∧ m'.alloc = al ∧ Held cfg s.ext m' c
    | some e => ∃ s' m', (doCopyAssign cfg copyAlloc w src th).run s = .thrown e s' ∧
        Cells cfg s' (upd C w (some m')) ∧ Fr w s s' ∧ m'.alloc = al ∧ m'.cell = .empty := by
  intro al
  obtain ⟨O, gO, hO, hmO⟩ := getW_ok hc ho
  -- the allocator
  have hal : ∃ s₁, (propagateAlloc (copyAlloc && cfg.pocca) w O.alloc).run s = .ok () s₁ ∧ Cells cfg s₁ (upd C w (some { m with alloc := al })) ∧
      Fr w s s₁ := by
    by_cases hb : (copyAlloc && cfg.pocca) = true
    · rw [propagateAlloc, if_pos hb]
      have : al = o.alloc := if_pos hb
      rw [this]
      exact modMeta_ok hc hm _ _ (fun _ => ⟨rfl, rfl⟩) (fun W h1 h2 h3 => ⟨hmO.alloc, h2, h3⟩) rfl
        (.inr (by simp [hcell]))
    · rw [propagateAlloc, if_neg hb]
      have : al = m.alloc := if_neg hb
      refine ⟨s, rfl, ?_, .refl _ _⟩
      rw [this, upd_self hm]
      exact hc
  obtain ⟨s₁, e1, c1, x1⟩ := hal
  have ho1 : upd C w (some { m with alloc := al }) src = some o := by rw [upd_ne _ _ hne]; exact ho
  have hprog : (doCopyAssign cfg copyAlloc w src th).run s =
      (if O.self = .null then pure ()
       else if !sizeIndicatesOwnership O.size then do
        modW w fun W => { W with size := O.size }
        modW w fun W => { W with self := O.self }
       else do
        allocate cfg w O.size th.alloc
        onThrow (do
          let W ← getW w
          vtCopy cfg W.vt O.self W.self th.copy)
          (deallocate cfg w) : M V Unit).run s₁ := by
    unfold doCopyAssign
    rw [bind_ok gO, bind_ok e1]
  rw [hprog]
  cases c with
  | empty =>
    simp only [copyThrows]
    rw [if_pos ((self_null hmO).2 hh)]
    exact ⟨s₁, _, rfl, c1, x1, rfl, hcell⟩
  | ref e k =>
    obtain ⟨h1, h2, h3⟩ := hh
    have hself : O.self = .ext e := by have := hmO.cell; rw [h1] at this; exact this.1
    simp only [copyThrows]
    rw [hself, if_neg (by simp), hmO.size, h2, owns_ref, if_pos (by simp)]
    obtain ⟨s₂, e2, c2, x2⟩ := modMeta_ok c1 (upd_same _ _ _)
      (fun W => { W with size := if k then constRefSize else mutRefSize })
      { m with alloc := al, size := if k then constRefSize else mutRefSize } (fun _ => ⟨rfl, rfl⟩)
      (fun W h1 h2 h3 => ⟨h1, rfl, h3⟩) rfl (.inl rfl)
    rw [upd_upd] at c2
    rw [bind_ok e2]
    obtain ⟨s₃, e3, c3, x3⟩ := setRef_ok c2 (upd_same _ _ _) hcell e
    rw [upd_upd] at c3
    exact ⟨s₃, _, e3, c3, (x1.trans x2).trans x3, rfl, rfl, rfl, hvt.trans h3⟩
  | owned t v own =>
    obtain ⟨h1, h2, h3⟩ := hh
    have hnn : O.self ≠ .null := by
      intro hnull
      rw [(self_null hmO).1 hnull] at h1; cases h1
    rw [if_neg hnn, hmO.size, h2, owns_of_lt (ok.size_max t), if_neg (by simp)]
    by_cases hheap : cfg.NeedsHeap t ∧ th.alloc = true
    · simp only [copyThrows, storeThrows, if_pos hheap]
      rw [hheap.2, bind_thrown (allocate_throws c1 (upd_same _ _ _) hcell (ok.size_pos t)
        (ok.size_max t) hheap.1)]
      exact ⟨s₁, _, rfl, c1, x1, rfl, hcell⟩
    · obtain ⟨s₂, e2, c2, x2⟩ := allocate_ok c1 (upd_same _ _ _) hcell (ok.size_pos t) (ok.size_max t)
        (fails := th.alloc) (fun hs => by
          cases ha : th.alloc with
          | false => rfl
          | true => exact absurd ⟨hs, ha⟩ hheap)
      rw [upd_upd] at c2
      rw [bind_ok e2]
      have ho2 : ∀ x, upd C w x src = some o := fun x => by rw [upd_ne _ _ hne]; exact ho
      obtain ⟨W₂, g2, hW2, hm2⟩ := getW_ok c2 (upd_same _ _ _)
      obtain ⟨O₂, _, hO2, hmO2⟩ := getW_ok c2 (ho2 _)
      have hOO : O₂.self = O.self := by
        -- the source's pointer is unchanged
        have a1 := hmO.cell
        have a2 := hmO2.cell
        rw [h1] at a1 a2
        rcases a1 with ⟨b1, b2, _⟩ | ⟨b1, b2, b, b3, b4⟩
        · rcases a2 with ⟨_, b5, _⟩ | ⟨b5, _⟩
          · rw [b2, b5]
          · omega
        · have : s₂.wr src = s.wr src := by
            -- allocate and the allocator assignment only touch `w`
            exact ((x1.trans x2).wr src hne)
          rw [this, hO] at hO2
          cases hO2; rfl
      have hread := read_ok c2 (ho2 _) h1 hO2
      rw [hOO] at hread
      have hvt2 : W₂.vt = .of t false own := by rw [hm2.vt]; exact hvt.trans h3
      cases hcopy : th.copy with
      | true =>
        simp only [copyThrows, storeThrows, if_neg hheap, hcopy, if_true]
        obtain ⟨s₃, e3, c3, x3⟩ := deallocate_ok c2 (upd_same _ _ _) rfl rfl (ok.size_pos t)
          (ok.size_max t)
        rw [upd_upd] at c3
        refine ⟨s₃, _, onThrow_thrown (s' := s₂) ?_ e3, c3, (x1.trans x2).trans x3, rfl, rfl⟩
        rw [bind_ok g2, hvt2]
        show (readAs O.self t >>= fun v => constructOrThrow cfg W₂.self ⟨t, v⟩ true).run s₂ = _
        rw [bind_ok hread]
        rfl
      | false =>
        simp only [copyThrows, storeThrows, if_neg hheap, hcopy]
        obtain ⟨s₃, e3, c3, x3, _⟩ := construct_ok c2 (upd_same _ _ _) (o := ⟨t, v⟩) rfl hW2
        rw [upd_upd] at c3
        refine ⟨s₃, _, onThrow_ok (s' := s₃) ?_, c3, (x1.trans x2).trans x3, rfl, rfl, rfl,
          hvt.trans h3⟩
        rw [bind_ok g2, hvt2]
        show (readAs O.self t >>= fun v => constructOrThrow cfg W₂.self ⟨t, v⟩ false).run s₂ = _
        rw [bind_ok hread]
        exact e3

end Guanaqo.TypeErased
