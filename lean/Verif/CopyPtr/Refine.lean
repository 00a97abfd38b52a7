import Verif.CopyPtr.Rep

/-! Every operation refines its specification. -/

namespace Guanaqo.CopyPtr

def VarRel (h : Nat → Option Cell) : Option (Option Nat) → Option Tree → (Nat → Prop) → Prop
  | none, none, S => ∀ x, ¬ S x
  | some p, some t, S => Rep h p t S
  | _, _, _ => False

/-- The variables hold the trees `a`, a temporary pointer `p` holds `t`; variable `v` owns the blocks `S v`, the
temporary `Sp`; these are disjoint, and nothing else is allocated. -/
structure RelW (s : St) (a : Vals) (p : Option Nat) (t : Tree) (S : Nat → Nat → Prop) (Sp : Nat → Prop) : Prop where
  vars : ∀ v, VarRel s.heap (s.vars v) (a v) (S v)
  disj : ∀ v w x, v ≠ w → S v x → ¬ S w x
  temp : Rep s.heap p t Sp
  tdisj : ∀ v x, S v x → ¬ Sp x
  live : ∀ x, s.heap x ≠ none → Sp x ∨ ∃ v, S v x
  fresh : ∀ x, s.next ≤ x → s.heap x = none

def RelF (s : St) (a : Vals) (p : Option Nat) (t : Tree) : Prop := ∃ S Sp, RelW s a p t S Sp

/-- The variables hold the trees `a`; each block of the heap belongs to exactly one of them. -/
def Rel (s : St) (a : Vals) : Prop := RelF s a none .null

theorem VarRel.frame {h h' : Nat → Option Cell} {o : Option (Option Nat)} {o' : Option Tree} {S : Nat → Prop}
    (hr : VarRel h o o' S) (hh : ∀ x, S x → h' x = h x) : VarRel h' o o' S := by
  cases o <;> cases o' <;> first | exact hr | exact Rep.frame hr hh

theorem VarRel.live {h : Nat → Option Cell} {o : Option (Option Nat)} {o' : Option Tree} {S : Nat → Prop}
    (hr : VarRel h o o' S) (x : Nat) (hx : S x) : ∃ n, h x = some (.obj n) := by
  cases o <;> cases o' <;> first | exact absurd hx (hr x) | exact hr.elim | exact Rep.live hr x hx

theorem written_ne (h : Nat → Option Cell) (p : Option Nat) {c x : Nat} (b : Bool) (hx : x ≠ c) :
    written h p (.fld c b) x = h x := by
  cases hc : h c with
  | none => simp only [written, hc]
  | some m => cases m <;> simp only [written, hc, upd_ne _ _ hx]

theorem written_none (h : Nat → Option Cell) (p : Option Nat) (sl : Slot) (x : Nat) :
    written h p sl x = none ↔ h x = none := by
  cases sl with
  | var v => rfl
  | fld a b =>
    by_cases hx : x = a
    · subst hx
      cases hc : h x with
      | none => simp only [written, hc]
      | some m => cases m <;> simp [written, hc, upd_same]
    · rw [written_ne _ _ _ hx]

theorem RelW.var {s : St} {a : Vals} {p : Option Nat} {t : Tree} {S : Nat → Nat → Prop} {Sp : Nat → Prop}
    (hr : RelW s a p t S Sp) {v : Nat} {t₀ : Tree} (ha : a v = some t₀) :
    ∃ p₀, s.vars v = some p₀ ∧ Rep s.heap p₀ t₀ (S v) := by
  have := hr.vars v
  rw [ha] at this
  cases hv : s.vars v with
  | none => rw [hv] at this; exact this.elim
  | some p₀ => rw [hv] at this; exact ⟨p₀, rfl, this⟩

theorem RelW.dead {s : St} {a : Vals} {p : Option Nat} {t : Tree} {S : Nat → Nat → Prop} {Sp : Nat → Prop}
    (hr : RelW s a p t S Sp) {v : Nat} (ha : a v = none) : s.vars v = none ∧ ∀ x, ¬ S v x := by
  have := hr.vars v
  rw [ha] at this
  cases hv : s.vars v with
  | none => rw [hv] at this; exact ⟨rfl, this⟩
  | some p₀ => rw [hv] at this; exact this.elim

theorem readVar {s : St} {v : Nat} {p : Option Nat} (h : s.vars v = some p) : readSlot (.var v) s = .ok p s := by
  simp only [readSlot, h]

/-- Everything about a place that is used: where it is, what is there, and that it can be replaced. -/
theorem resolve_spec {s : St} {a : Vals} {p : Option Nat} {t : Tree} {S : Nat → Nat → Prop} {Sp : Nat → Prop}
    (hr : RelW s a p t S Sp) {x : Loc} {u : Tree} (hu : a.get x = some u) :
    ∃ sl q Sq p₀ t₀, a x.var = some t₀ ∧ t₀.get x.path = some u ∧ s.vars x.var = some p₀ ∧
      Rep s.heap p₀ t₀ (S x.var) ∧ resolve x s = .ok sl s ∧ readSlot sl s = .ok q s ∧
      Rep s.heap q u Sq ∧ (∀ y, Sq y → S x.var y) ∧
      ((x.path = [] ∧ sl = .var x.var) ∨ (x.path ≠ [] ∧ ∃ c b, sl = .fld c b ∧ S x.var c ∧ ¬ Sq c)) ∧
      ∀ (h' : Nat → Option Cell) (q' : Option Nat) (u' : Tree) (Sq' : Nat → Prop), Rep h' q' u' Sq' →
        (∀ y, Sq' y → S x.var y → Sq y) → (∀ y, S x.var y → ¬ Sq y → h' y = written s.heap q' sl y) →
        Rep h' (if x.path = [] then q' else p₀) (t₀.put x.path u') (fun y => (S x.var y ∧ ¬ Sq y) ∨ Sq' y) := by
  unfold Vals.get at hu
  cases ha : a x.var with
  | none => rw [ha] at hu; cases hu
  | some t₀ =>
    rw [ha] at hu
    have hu' : t₀.get x.path = some u := hu
    obtain ⟨p₀, hv, hrep⟩ := hr.var ha
    obtain ⟨sl, q, Sq, e1, e2, e3, e4, e5, e6⟩ := follow_spec s x.path (.var x.var) p₀ t₀ u (S x.var) (readVar hv) hrep hu'
    exact ⟨sl, q, Sq, p₀, t₀, rfl, hu', hv, hrep, by unfold resolve; rw [bind_ok (readVar hv)]; exact e1, e2, e3, e4, e5, e6⟩

theorem put_eq (a : Vals) {x : Loc} {t₀ : Tree} (ha : a x.var = some t₀) (u : Tree) :
    a.put x u = upd a x.var (some (t₀.put x.path u)) := by
  funext v
  unfold Vals.put upd
  split
  · rename_i hv; rw [hv, ha]; rfl
  · rfl

/-- The variables after `p` has been written to a place. -/
def writtenVars (f : Nat → Option (Option Nat)) (p : Option Nat) : Slot → (Nat → Option (Option Nat))
  | .var v => upd f v (some p)
  | .fld _ _ => f

/-- The blocks change hands: the temporary is written to the place `x`, what was there becomes the temporary. -/
theorem exchange {s : St} {a : Vals} {p : Option Nat} {t : Tree} (hr : RelF s a p t) {x : Loc} {u : Tree}
    (hu : a.get x = some u) {sl : Slot} (hsl : resolve x s = .ok sl s) :
    ∃ q s1, readSlot sl s = .ok q s ∧ writeSlot p sl s = .ok () s1 ∧ RelF s1 (a.put x t) q u ∧
      s1.throws = s.throws ∧ s1.next = s.next ∧ s1.heap = written s.heap p sl ∧
      s1.vars = writtenVars s.vars p sl := by
  obtain ⟨S, Sp, hr⟩ := hr
  obtain ⟨sl', q, Sq, p₀, t₀, h1, h2, h3, h4, h5, h6, h7, h8, h9, h10⟩ := resolve_spec hr hu
  rw [hsl] at h5
  cases h5
  have hR := h10 (written s.heap p sl) p t Sp
    (hr.temp.frame fun y hy => by
      rcases h9 with ⟨_, rfl⟩ | ⟨_, c, b, rfl, hc, _⟩
      · rfl
      · refine written_ne _ _ _ ?_
        rintro rfl; exact hr.tdisj _ _ hc hy)
    (fun y hy hs => absurd hy (hr.tdisj _ y hs)) (fun y _ _ => rfl)
  have hq : Rep (written s.heap p sl) q u Sq := h7.frame fun y hy => by
    rcases h9 with ⟨_, rfl⟩ | ⟨_, c, b, rfl, hc, hcq⟩
    · rfl
    · refine written_ne _ _ _ ?_
      rintro rfl; exact hcq hy
  have hother : ∀ w y, w ≠ x.var → S w y → written s.heap p sl y = s.heap y := by
    intro w y hw hy
    rcases h9 with ⟨_, rfl⟩ | ⟨_, c, b, rfl, hc, hcq⟩
    · rfl
    · refine written_ne _ _ _ ?_
      rintro rfl; exact hr.disj _ _ _ hw hy hc
  have key : ∀ vars', (∀ w, w ≠ x.var → vars' w = s.vars w) →
      vars' x.var = some (if x.path = [] then p else p₀) →
      RelF ⟨written s.heap p sl, vars', s.next, s.throws⟩ (a.put x t) q u := by
    intro vars' hv1 hv2
    refine ⟨upd S x.var (fun y => (S x.var y ∧ ¬ Sq y) ∨ Sp y), Sq, ?_, ?_, hq, ?_, ?_, ?_⟩
    · intro w
      dsimp only
      rw [put_eq a h1]
      by_cases hw : w = x.var
      · subst hw; rw [upd_same, upd_same, hv2]; exact hR
      · rw [upd_ne _ _ hw, upd_ne _ _ hw, hv1 w hw]
        exact (hr.vars w).frame fun y hy => hother w y hw hy
    · intro v w y hvw hvy hwy
      by_cases hv : v = x.var
      · subst hv
        rw [upd_same] at hvy
        rw [upd_ne _ _ (Ne.symm hvw)] at hwy
        rcases hvy with ⟨hy, _⟩ | hy
        · exact hr.disj _ _ _ hvw hy hwy
        · exact hr.tdisj _ _ hwy hy
      · rw [upd_ne _ _ hv] at hvy
        by_cases hw : w = x.var
        · subst hw
          rw [upd_same] at hwy
          rcases hwy with ⟨hy, _⟩ | hy
          · exact hr.disj _ _ _ hvw hvy hy
          · exact hr.tdisj _ _ hvy hy
        · rw [upd_ne _ _ hw] at hwy
          exact hr.disj _ _ _ hvw hvy hwy
    · intro v y hvy hqy
      by_cases hv : v = x.var
      · subst hv
        rw [upd_same] at hvy
        rcases hvy with ⟨_, hy⟩ | hy
        · exact hy hqy
        · exact hr.tdisj _ _ (h8 y hqy) hy
      · rw [upd_ne _ _ hv] at hvy
        exact hr.disj _ _ _ hv hvy (h8 y hqy)
    · intro y hy
      dsimp only at hy
      have hy' : s.heap y ≠ none := fun e => hy ((written_none _ _ _ _).2 e)
      by_cases hqy : Sq y
      · exact .inl hqy
      · right
        rcases hr.live y hy' with hp | ⟨v, hv⟩
        · exact ⟨x.var, by rw [upd_same]; exact .inr hp⟩
        · by_cases hvx : v = x.var
          · subst hvx; exact ⟨x.var, by rw [upd_same]; exact .inl ⟨hv, hqy⟩⟩
          · exact ⟨v, by rw [upd_ne _ _ hvx]; exact hv⟩
    · intro y hy
      exact (written_none _ _ _ _).2 (hr.fresh y hy)
  rcases h9 with ⟨hπ, rfl⟩ | ⟨hπ, c, b, rfl, hc, hcq⟩
  · refine ⟨q, ⟨written s.heap p (.var x.var), upd s.vars x.var (some p), s.next, s.throws⟩, h6, ?_, key _ ?_ ?_, rfl, rfl,
      rfl, rfl⟩
    · simp only [writeSlot, h3]; rfl
    · intro w hw; rw [upd_ne _ _ hw]
    · rw [upd_same, if_pos hπ]
  · obtain ⟨n, hn⟩ := h4.live c hc
    refine ⟨q, ⟨written s.heap p (.fld c b), s.vars, s.next, s.throws⟩, h6, ?_, key _ ?_ ?_, rfl, rfl, rfl, rfl⟩
    · simp only [writeSlot, hn, written]
    · intro w _; rfl
    · rw [h3, if_neg hπ]

/-- A place stays where it is when other blocks are allocated or changed. -/
theorem resolve_frame {s s' : St} (hv : s'.vars = s.vars) (hh : ∀ y, s.heap y ≠ none → s'.heap y = s.heap y)
    {x : Loc} {sl : Slot} (hsl : resolve x s = .ok sl s) : resolve x s' = .ok sl s' := by
  have hload : ∀ c n, load c s = .ok n s → load c s' = .ok n s' := by
    intro c n hc
    unfold load at hc ⊢
    split at hc
    · rename_i m hm
      cases hc
      rw [hh c (by rw [hm]; simp), hm]
    · cases hc
  have hload' : ∀ c, (∃ n, load c s = .ok n s) ∨ load c s = .ub := by
    intro c
    unfold load
    split
    · rename_i m hm; exact .inl ⟨m, rfl⟩
    · exact .inr rfl
  have bind_ub : ∀ {α β : Type} {m : M α} {f : α → M β}, m s = .ub → (m >>= f) s = .ub := by
    intro α β m f hm
    show M.bind m f s = _
    rw [M.bind, hm]
  have hread : ∀ c p, readSlot c s = .ok p s → readSlot c s' = .ok p s' := by
    intro c p hc
    cases c with
    | var v =>
      unfold readSlot at hc ⊢
      dsimp only at hc ⊢
      rw [hv]
      split at hc
      · cases hc; rfl
      · cases hc
    | fld c b =>
      simp only [readSlot] at hc ⊢
      rcases hload' c with ⟨n, hn⟩ | hn
      · rw [bind_ok hn] at hc
        rw [bind_ok (hload c n hn)]
        cases hc; rfl
      · rw [bind_ub hn] at hc; cases hc
  have hread' : ∀ c, (∃ p, readSlot c s = .ok p s) ∨ readSlot c s = .ub := by
    intro c
    cases c with
    | var v =>
      unfold readSlot; dsimp only
      split
      · rename_i q hq; exact .inl ⟨q, rfl⟩
      · exact .inr rfl
    | fld c b =>
      simp only [readSlot]
      rcases hload' c with ⟨n, hn⟩ | hn
      · rw [bind_ok hn]; exact .inl ⟨_, rfl⟩
      · rw [bind_ub hn]; exact .inr rfl
  have hfollow : ∀ (π : List Bool) c, follow c π s = .ok sl s → follow c π s' = .ok sl s' := by
    intro π
    induction π with
    | nil => intro c hc; cases hc; rfl
    | cons b π ih =>
      intro c hc
      unfold follow at hc ⊢
      rcases hread' c with ⟨p, hp⟩ | hp
      · rw [bind_ok hp] at hc
        rw [bind_ok (hread c p hp)]
        cases p with
        | none => cases hc
        | some d =>
          dsimp only at hc ⊢
          rcases hload' d with ⟨n, hn⟩ | hn
          · rw [bind_ok hn] at hc
            rw [bind_ok (hload d n hn)]
            exact ih _ hc
          · rw [bind_ub hn] at hc; cases hc
      · rw [bind_ub hp] at hc; cases hc
  unfold resolve at hsl ⊢
  rcases hread' (.var x.var) with ⟨p, hp⟩ | hp
  · rw [bind_ok hp] at hsl
    rw [bind_ok (hread _ p hp)]
    exact hfollow _ _ hsl
  · rw [bind_ub hp] at hsl; cases hsl

end Guanaqo.CopyPtr
