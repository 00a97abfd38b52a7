import Verif.Weak.TraceLemmas
import Mathlib.Data.Finset.Card
import Mathlib.Data.Fintype.Pi

/-!
# `TraceLogger` under the C++ memory model: which records events get, races, what `get_logs` returns (C124)
-/

namespace Guanaqo.Weak.Trace

variable {C : Type} {r : Run C} {x : Exec r.Ev Loc Nat}

/-- No call of `reset`. -/
def Run.NoReset (r : Run C) : Prop := ∀ c, r.call c ≠ .reset

/-- `reset` is called when nothing else is going on: every other call comes before or after it in the program, and scopes do
not stay open across it. -/
structure Run.QuietReset (r : Run C) : Prop where
  alone : ∀ R c, r.call R = .reset → c ≠ R → r.ord c R ∨ r.ord R c
  closed : ∀ R c t, r.call R = .reset → r.closes c t → r.ord t R → r.ord c R

/-- A `reset` comes between `c` and `d` in the program. -/
def Run.resetAfter (r : Run C) (c d : C) : Prop := ∃ R, r.call R = .reset ∧ r.ord c R ∧ r.ord R d

theorem NoReset.quiet (h : r.NoReset) : r.QuietReset :=
  ⟨fun R _ hR => absurd hR (h R), fun R _ _ hR => absurd hR (h R)⟩

/-! ## Races -/

/-- Which accesses of two calls conflict. -/
theorem race_calls (hv : r.Valid) (hx : r.Executes x) {a b : r.Ev} :
    x.Race a b ↔ a.1 ≠ b.1 ∧ (x.act a).conflicts (x.act b) ∧ ¬ ((x.act a).atomic ∧ (x.act b).atomic) ∧
      ¬ r.ord a.1 b.1 ∧ ¬ r.ord b.1 a.1 := by
  constructor
  · rintro ⟨h1, h2, h3, h4, h5⟩
    have hne : a.1 ≠ b.1 := by
      intro he
      rcases Nat.lt_trichotomy a.2.val b.2.val with hl | hl | hl
      · exact h4 ((hb_iff hv hx).2 (.inr ⟨he, hl⟩))
      · apply h1
        obtain ⟨c, i, hi⟩ := a
        obtain ⟨d, j, hj⟩ := b
        dsimp only at he hl
        subst he; subst hl; rfl
      · exact h5 ((hb_iff hv hx).2 (.inr ⟨he.symm, hl⟩))
    refine ⟨hne, h2, h3, ?_, ?_⟩
    · rwa [hb_ord hv hx hne] at h4
    · rwa [hb_ord hv hx hne.symm] at h5
  · rintro ⟨h1, h2, h3, h4, h5⟩
    refine ⟨fun h => h1 (h ▸ rfl), h2, h3, ?_, ?_⟩
    · rwa [hb_ord hv hx h1]
    · rwa [hb_ord hv hx h1.symm]

/-- Exactly when an execution has no data race: events, ends of scopes and readers that use the same record are ordered by
the program. -/
theorem raceFree_iff (hv : r.Valid) (hx : r.Executes x) :
    x.RaceFree ↔
      (∀ c d, r.isTrace c → r.isTrace d → c ≠ d → r.old c = r.old d → r.old c < r.cap → r.ord c d ∨ r.ord d c) ∧
      (∀ c c' t t', r.closes c t → r.closes c' t' → c ≠ c' → r.old t = r.old t' → r.old t < r.cap →
        r.ord c c' ∨ r.ord c' c) ∧
      (∀ l d, r.call l = .logs → r.isTrace d → r.old d < min r.cap (r.old l) → r.ord d l ∨ r.ord l d) ∧
      (∀ l c t, r.call l = .logs → r.closes c t → r.old t < min r.cap (r.old l) → r.ord c l ∨ r.ord l c) := by
  have key : ∀ {c d : C} {a b : Act Loc Nat}, x.RaceFree → a ∈ r.acts c → b ∈ r.acts d → c ≠ d → a.conflicts b →
      ¬ (a.atomic ∧ b.atomic) → r.ord c d ∨ r.ord d c := by
    intro c d a b hr ha hb hne hcf hat
    obtain ⟨e, rfl, he⟩ := hx.exists_ev ha
    obtain ⟨f, rfl, hf⟩ := hx.exists_ev hb
    by_contra hcon
    exact hr e f ((race_calls hv hx).2 ⟨hne, by rw [he, hf]; exact hcf, by rw [he, hf]; exact hat,
      fun h => hcon (.inl h), fun h => hcon (.inr h)⟩)
  constructor
  · intro hr
    refine ⟨?_, ?_, ?_, ?_⟩
    · rintro c d ⟨v, hc⟩ ⟨w, hd⟩ hne he hlt
      refine key (a := .write (.fld (r.old c) .name) (v .name)) (b := .write (.fld (r.old d) .name) (w .name)) hr ?_ ?_ hne
        ⟨by rw [he]; rfl, .inl (by simp [Act.writes, Act.put])⟩ (fun h => h.1)
      · rw [acts_trace hc]; exact traceActs_write hlt (by decide)
      · rw [acts_trace hd]; exact traceActs_write (he ▸ hlt) (by decide)
    · rintro c c' t t' ⟨v, hc⟩ ⟨w, hd⟩ hne he hlt
      refine key (a := .write (.fld (r.old t) .dur) v) (b := .write (.fld (r.old t') .dur) w) hr ?_ ?_ hne
        ⟨by rw [he]; rfl, .inl (by simp [Act.writes, Act.put])⟩ (fun h => h.1)
      · rw [acts_close hc]; unfold closeActs; rw [if_neg (by omega)]; exact List.mem_cons_self
      · rw [acts_close hd]; unfold closeActs; rw [if_neg (by omega)]; exact List.mem_cons_self
    · rintro l d hl ⟨v, hd⟩ hlt
      refine (key (a := .read (.fld (r.old d) .name) (r.seen l (r.old d) .name))
        (b := .write (.fld (r.old d) .name) (v .name)) hr ?_ ?_ ?_
        ⟨rfl, .inr (by simp [Act.writes, Act.put])⟩ (fun h => h.1)).symm
      · rw [acts_logs hl]; exact logsActs_read hlt _
      · rw [acts_trace hd]; exact traceActs_write (by omega) (by decide)
      · rintro rfl; rw [hl] at hd; cases hd
    · rintro l c t hl ⟨v, hc⟩ hlt
      refine (key (a := .read (.fld (r.old t) .dur) (r.seen l (r.old t) .dur))
        (b := .write (.fld (r.old t) .dur) v) hr ?_ ?_ ?_
        ⟨rfl, .inr (by simp [Act.writes, Act.put])⟩ (fun h => h.1)).symm
      · rw [acts_logs hl]; exact logsActs_read hlt _
      · rw [acts_close hc]; unfold closeActs; rw [if_neg (by omega)]; exact List.mem_cons_self
      · rintro rfl; rw [hl] at hc; cases hc
  · rintro ⟨h1, h2, h3, h4⟩ a b hr
    obtain ⟨hne, hcf, hat, ho1, ho2⟩ := (race_calls hv hx).1 hr
    have ha := hx.mem a
    have hb := hx.mem b
    generalize hA : x.act a = A at ha hcf hat
    generalize hB : x.act b = B at hb hcf hat
    obtain ⟨c, i⟩ := a
    obtain ⟨d, j⟩ := b
    dsimp only at ha hb hne ho1 ho2
    obtain ⟨hloc, hwr⟩ := hcf
    rcases acts_cases ha with ⟨v, hc, rfl⟩ | ⟨v, f, hc, hlt, hf, rfl⟩ | ⟨t, v, hc, hlt, rfl⟩ | ⟨hc, rfl⟩ |
      ⟨k, f, hc, hk, hk', rfl⟩ | ⟨hc, rfl⟩ <;>
    rcases acts_cases hb with ⟨v', hc', rfl⟩ | ⟨v', f', hc', hlt', hf', rfl⟩ | ⟨t', v', hc', hlt', rfl⟩ | ⟨hc', rfl⟩ |
      ⟨k', f', hc', hl1, hl2, rfl⟩ | ⟨hc', rfl⟩ <;>
    simp only [Act.loc, Act.atomic, Act.writes, Act.put, reduceCtorEq, not_true_eq_false, Loc.fld.injEq,
      and_self, not_false_eq_true, or_false, ne_eq, and_true, or_self] at hloc hat hwr
    · exact (h1 c d ⟨_, hc⟩ ⟨_, hc'⟩ hne hloc.1 hlt).elim ho1 ho2
    · exact hf hloc.2
    · exact (h3 d c hc' ⟨_, hc⟩ (by omega)).elim ho1 ho2
    · exact hf' hloc.2.symm
    · exact (h2 c d t t' ⟨_, hc⟩ ⟨_, hc'⟩ hne hloc hlt).elim ho1 ho2
    · exact (h4 d c t hc' ⟨_, hc⟩ (by omega)).elim ho1 ho2
    · exact (h3 c d hc ⟨_, hc'⟩ (by omega)).elim ho2 ho1
    · exact (h4 c d t' hc ⟨_, hc'⟩ (by omega)).elim ho2 ho1

/-! ## The values of the counter -/

section
set_option linter.unusedSectionVars false
variable [Fintype C]
open Classical

/-- The events before `c` in the modification order since the last reset. -/
noncomputable def since (r : Run C) (mo : C → C → Prop) (c : C) : Finset C :=
  Finset.univ.filter fun d => r.isTrace d ∧ mo d c ∧ ¬ ∃ R, r.call R = .reset ∧ mo d R ∧ mo R c

theorem mem_since {mo : C → C → Prop} {c d : C} :
    d ∈ since r mo c ↔ r.isTrace d ∧ mo d c ∧ ¬ ∃ R, r.call R = .reset ∧ mo d R ∧ mo R c := by
  simp [since]

theorem wf_mo {mo : C → C → Prop} (h : Counter r mo) : WellFounded mo := by
  have : IsTrans C mo := ⟨fun _ _ _ => h.trans _ _ _⟩
  have : Std.Irrefl mo := ⟨h.irrefl⟩
  exact Finite.wellFounded_of_trans_of_irrefl mo

theorem trace_not_reset {c : C} (h : r.isTrace c) : r.call c ≠ .reset := by
  rintro h'; obtain ⟨v, h⟩ := h; rw [h'] at h; cases h

theorem since_card_lt {mo : C → C → Prop} (h : Counter r mo) (c : C) :
    (since r mo c).card < Fintype.card C := by
  apply Finset.card_lt_univ_of_notMem (x := c)
  intro hc
  exact h.irrefl c (mem_since.1 hc).2.1

theorem out_trace {c : C} (h : r.isTrace c) : r.out c = wrap (r.old c + 1) := by
  obtain ⟨v, h⟩ := h; unfold Run.out; rw [h]

theorem out_reset {c : C} (h : r.call c = .reset) : r.out c = 0 := by
  unfold Run.out; rw [h]

/-- The events up to and including `w`. -/
theorem since_insert {mo : C → C → Prop} (h : Counter r mo) {w : C} :
    w ∉ since r mo w := fun hc => h.irrefl w (mem_since.1 hc).2.1

theorem since_step {mo : C → C → Prop} (h : Counter r mo) {w c : C} (hw : r.isTrace w) (hwc : mo w c)
    (hno : ∀ d, mo w d → ¬ mo d c) : since r mo c = insert w (since r mo w) := by
  ext d
  rw [Finset.mem_insert, mem_since, mem_since]
  constructor
  · rintro ⟨hd, hdc, hR⟩
    by_cases he : d = w
    · exact .inl he
    · refine .inr ⟨hd, ?_, ?_⟩
      · rcases h.total d w he (.inl hd) (.inl hw) with h' | h'
        · exact h'
        · exact absurd hdc (hno d h')
      · rintro ⟨R, h1, h2, h3⟩
        exact hR ⟨R, h1, h2, h.trans _ _ _ h3 hwc⟩
  · rintro (rfl | ⟨hd, hdw, hR⟩)
    · refine ⟨hw, hwc, ?_⟩
      rintro ⟨R, -, h2, h3⟩
      exact hno R h2 h3
    · refine ⟨hd, h.trans _ _ _ hdw hwc, ?_⟩
      rintro ⟨R, h1, h2, h3⟩
      have hne : R ≠ w := fun he => trace_not_reset hw (he ▸ h1)
      rcases h.total R w hne (.inr h1) (.inl hw) with h' | h'
      · exact hR ⟨R, h1, h2, h'⟩
      · exact hno R h' h3

/-- Each event finds in the counter the number of events since the last reset, in the modification order. -/
theorem old_eq {mo : C → C → Prop} (h : Counter r mo) (hn : Fintype.card C < 2 ^ 64) (c : C) (hc : r.isTrace c) :
    r.old c = (since r mo c).card := by
  induction c using (wf_mo h).induction with
  | _ c ih =>
    rcases h.trace c hc with ⟨h0, hno⟩ | ⟨w, hw, hwc, hno, ho⟩
    · rw [h0]; symm
      rw [Finset.card_eq_zero, Finset.eq_empty_iff_forall_notMem]
      intro d hd
      exact hno d (mem_since.1 hd).2.1
    · rw [ho]
      rcases hw with hw | hw
      · rw [since_step h hw hwc hno, Finset.card_insert_of_notMem (since_insert h), out_trace hw, ih w hwc hw]
        have := since_card_lt h w
        unfold wrap
        rw [Nat.mod_eq_of_lt (by omega)]
      · rw [out_reset hw]; symm
        rw [Finset.card_eq_zero, Finset.eq_empty_iff_forall_notMem]
        intro d hd
        obtain ⟨h1, h2, h3⟩ := mem_since.1 hd
        have hne : d ≠ w := fun he => trace_not_reset h1 (he ▸ hw)
        rcases h.total d w hne (.inl h1) (.inr hw) with h' | h'
        · exact h3 ⟨w, hw, h', hwc⟩
        · exact hno d h' h2

theorem old_lt {mo : C → C → Prop} (h : Counter r mo) (hn : Fintype.card C < 2 ^ 64) {c d : C} (hc : r.isTrace c)
    (hd : r.isTrace d) (hcd : mo c d) (hR : ¬ ∃ R, r.call R = .reset ∧ mo c R ∧ mo R d) : r.old c < r.old d := by
  rw [old_eq h hn c hc, old_eq h hn d hd, Nat.lt_iff_add_one_le, ← Finset.card_insert_of_notMem (since_insert h)]
  apply Finset.card_le_card
  intro e he
  rcases Finset.mem_insert.1 he with rfl | he
  · exact mem_since.2 ⟨hc, hcd, hR⟩
  · obtain ⟨h1, h2, h3⟩ := mem_since.1 he
    refine mem_since.2 ⟨h1, h.trans _ _ _ h2 hcd, ?_⟩
    rintro ⟨R, hr1, hr2, hr3⟩
    have hne : R ≠ c := fun he => trace_not_reset hc (he ▸ hr1)
    rcases h.total R c hne (.inr hr1) (.inl hc) with h' | h'
    · exact h3 ⟨R, hr1, hr2, h'⟩
    · exact hR ⟨R, hr1, h', hr3⟩

/-- With quiet resets, the modification order agrees with the program about them. -/
theorem quiet_before {mo : C → C → Prop} (h : Counter r mo) (hq : r.QuietReset) {c R : C} (hc : r.isTrace c)
    (hR : r.call R = .reset) (hm : mo c R) : r.ord c R := by
  rcases hq.alone R c hR (fun he => trace_not_reset hc (he ▸ hR)) with h' | h'
  · exact h'
  · exact absurd (h.trans _ _ _ hm (h.ord R c (.inr hR) (.inl hc) h')) (h.irrefl c)

theorem quiet_after {mo : C → C → Prop} (h : Counter r mo) (hq : r.QuietReset) {c R : C} (hc : r.isTrace c)
    (hR : r.call R = .reset) (hm : mo R c) : r.ord R c := by
  rcases hq.alone R c hR (fun he => trace_not_reset hc (he ▸ hR)) with h' | h'
  · exact absurd (h.trans _ _ _ hm (h.ord c R (.inl hc) (.inr hR) h')) (h.irrefl R)
  · exact h'

/-- Two events with the same number are separated by a reset, in the program. -/
theorem same_index {mo : C → C → Prop} (h : Counter r mo) (hn : Fintype.card C < 2 ^ 64) (hq : r.QuietReset) {c d : C}
    (hc : r.isTrace c) (hd : r.isTrace d) (hne : c ≠ d) (he : r.old c = r.old d) :
    r.resetAfter c d ∨ r.resetAfter d c := by
  have key : ∀ {c d : C}, r.isTrace c → r.isTrace d → r.old c = r.old d → mo c d → r.resetAfter c d := by
    intro c d hc hd he hm
    by_contra hno
    refine absurd (old_lt h hn hc hd hm ?_) (by omega)
    rintro ⟨R, h1, h2, h3⟩
    exact hno ⟨R, h1, quiet_before h hq hc h1 h2, quiet_after h hq hd h1 h3⟩
  rcases h.total c d hne (.inl hc) (.inl hd) with h' | h'
  · exact .inl (key hc hd he h')
  · exact .inr (key hd hc he.symm h')

theorem resetAfter_ord (hv : r.Valid) {c d : C} (h : r.resetAfter c d) : r.ord c d := by
  obtain ⟨R, -, h1, h2⟩ := h
  exact hv.trans _ _ _ h1 h2

/-- **Events never share a record** unless a reset comes between them: under every execution that the memory model allows,
two calls of `trace` that no `reset` separates find different numbers in the counter. -/
theorem events_distinct (hv : r.Valid) (hx : r.Executes x) (hn : Fintype.card C < 2 ^ 64) (hq : r.QuietReset)
    (c d : C) (hc : r.isTrace c) (hd : r.isTrace d) (hne : c ≠ d) (h1 : ¬ r.resetAfter c d) (h2 : ¬ r.resetAfter d c) :
    r.old c ≠ r.old d :=
  fun he => (same_index (counter hv hx) hn hq hc hd hne he).elim h1 h2

/-- **Recording events is free of data races**: whatever the number of threads, if `reset` is called only when nothing else
is going on, and records are read only by callers that are ordered with the events, no execution has a data race. -/
theorem recording_raceFree (hv : r.Valid) (hx : r.Executes x) (hn : Fintype.card C < 2 ^ 64) (hq : r.QuietReset)
    (hl : ∀ l c, r.call l = .logs → (r.isTrace c ∨ ∃ t, r.closes c t) → r.ord c l ∨ r.ord l c) : x.RaceFree := by
  have hcnt := counter hv hx
  refine (raceFree_iff hv hx).2 ⟨?_, ?_, ?_, ?_⟩
  · intro c d hc hd hne he _
    exact (same_index hcnt hn hq hc hd hne he).imp (resetAfter_ord hv) (resetAfter_ord hv)
  · intro c c' t t' hc hc' hne he _
    obtain ⟨ht, hto⟩ := hv.close_after c t hc
    obtain ⟨ht', hto'⟩ := hv.close_after c' t' hc'
    have hne' : t ≠ t' := fun h => hne (hv.close_once c c' t hc (h ▸ hc'))
    rcases same_index hcnt hn hq ht ht' hne' he with ⟨R, h1, h2, h3⟩ | ⟨R, h1, h2, h3⟩
    · exact .inl (hv.trans _ _ _ (hq.closed R c t h1 hc h2) (hv.trans _ _ _ h3 hto'))
    · exact .inr (hv.trans _ _ _ (hq.closed R c' t' h1 hc' h2) (hv.trans _ _ _ h3 hto))
  · exact fun l d h1 h2 _ => hl l d h1 (.inl h2)
  · exact fun l c t h1 h2 _ => hl l c h1 (.inr ⟨t, h2⟩)

/-- **Exactly when reading the records is a race** (without `reset`): a record that `get_logs` returned must be that of an
event whose call of `trace` comes before `get_logs` in the program, and whose scope ends before or after. -/
theorem reading_raceFree_iff (hv : r.Valid) (hx : r.Executes x) (hn : Fintype.card C < 2 ^ 64) (h0 : r.NoReset) :
    x.RaceFree ↔ ∀ l d, r.call l = .logs → r.isTrace d → r.old d < min r.cap (r.old l) →
      r.ord d l ∧ ∀ c, r.closes c d → r.ord c l ∨ r.ord l c := by
  have hcnt := counter hv hx
  have hdist : ∀ c d, r.isTrace c → r.isTrace d → r.old c = r.old d → c = d := by
    intro c d hc hd he
    by_contra hne
    rcases same_index hcnt hn (NoReset.quiet h0) hc hd hne he with ⟨R, h1, -⟩ | ⟨R, h1, -⟩ <;> exact h0 R h1
  rw [raceFree_iff hv hx]
  constructor
  · rintro ⟨-, -, h3, h4⟩ l d hl hd hlt
    refine ⟨?_, fun c hc => h4 l c d hl hc hlt⟩
    rcases h3 l d hl hd hlt with h | h
    · exact h
    · exfalso
      rcases hcnt.logs l hl with ⟨h5, -⟩ | ⟨w, hw, h5, -, h6⟩
      · omega
      · have hwd := h6 d (.inl hd) h
        have hwt : r.isTrace w := hw.resolve_right (h0 w)
        have := old_lt hcnt hn hwt hd hwd (by rintro ⟨R, h1, -⟩; exact h0 R h1)
        have hc := since_card_lt hcnt w
        rw [out_trace hwt, old_eq hcnt hn w hwt] at h5
        rw [old_eq hcnt hn w hwt] at this
        unfold wrap at h5
        rw [Nat.mod_eq_of_lt (by omega)] at h5
        omega
  · intro h
    refine ⟨?_, ?_, ?_, ?_⟩
    · intro c d hc hd hne he _
      exact absurd (hdist c d hc hd he) hne
    · intro c c' t t' hc hc' hne he _
      have := hdist t t' (hv.close_after c t hc).1 (hv.close_after c' t' hc').1 he
      subst this
      exact absurd (hv.close_once c c' t hc hc') hne
    · exact fun l d h1 h2 h3 => .inl (h l d h1 h2 h3).1
    · exact fun l c t h1 h2 h3 => (h l t h1 (hv.close_after c t h2).1 h3).2 c h2

/-! ## What `get_logs` returns -/

/-- The events before `l` since the last reset, in the program. -/
noncomputable def Run.before (r : Run C) (l : C) : Finset C :=
  Finset.univ.filter fun d => r.isTrace d ∧ r.ord d l ∧ ¬ r.resetAfter d l

/-- The events since the last reset that do not come after `l` in the program. -/
noncomputable def Run.notAfter (r : Run C) (l : C) : Finset C :=
  Finset.univ.filter fun d => r.isTrace d ∧ ¬ r.ord l d ∧ ¬ r.resetAfter d l

theorem mem_before {l d : C} : d ∈ r.before l ↔ r.isTrace d ∧ r.ord d l ∧ ¬ r.resetAfter d l := by
  simp [Run.before]

theorem mem_notAfter {l d : C} : d ∈ r.notAfter l ↔ r.isTrace d ∧ ¬ r.ord l d ∧ ¬ r.resetAfter d l := by
  simp [Run.notAfter]

/-- What a reader of the counter found: nothing since the last reset, or the events up to some event `w`. -/
theorem logs_since {mo : C → C → Prop} (h : Counter r mo) (hn : Fintype.card C < 2 ^ 64) (hq : r.QuietReset)
    (l : C) (hl : r.call l = .logs) :
    ∃ s : Finset C, r.before l ⊆ s ∧ s ⊆ r.notAfter l ∧ r.old l = s.card ∧
      (s = ∅ ∨ ∃ w, r.isTrace w ∧ s = insert w (since r mo w)) := by
  rcases h.logs l hl with ⟨h0, hno⟩ | ⟨w, hw, ho, hbef, haft⟩
  · refine ⟨∅, ?_, Finset.empty_subset _, by simpa using h0, .inl rfl⟩
    intro d hd
    obtain ⟨h1, h2, -⟩ := mem_before.1 hd
    exact absurd h2 (hno d (.inl h1))
  · rcases hw with hw | hw
    · refine ⟨insert w (since r mo w), ?_, ?_, ?_, .inr ⟨w, hw, rfl⟩⟩
      · intro d hd
        obtain ⟨h1, h2, h3⟩ := mem_before.1 hd
        rcases hbef d (.inl h1) h2 with rfl | hdw
        · exact Finset.mem_insert_self _ _
        · refine Finset.mem_insert_of_mem (mem_since.2 ⟨h1, hdw, ?_⟩)
          rintro ⟨R, hR, hdR, hRw⟩
          refine h3 ⟨R, hR, quiet_before h hq h1 hR hdR, ?_⟩
          rcases hq.alone R l hR (by rintro rfl; rw [hl] at hR; cases hR) with h' | h'
          · exact absurd (h.trans _ _ _ (haft R (.inr hR) h') hRw) (h.irrefl w)
          · exact h'
      · intro d hd
        have hdw : d = w ∨ mo d w := (Finset.mem_insert.1 hd).imp_right fun h => (mem_since.1 h).2.1
        have hdt : r.isTrace d := by
          rcases Finset.mem_insert.1 hd with rfl | hd
          · exact hw
          · exact (mem_since.1 hd).1
        refine mem_notAfter.2 ⟨hdt, ?_, ?_⟩
        · intro hld
          have hwd := haft d (.inl hdt) hld
          rcases hdw with rfl | hdw
          · exact h.irrefl _ hwd
          · exact h.irrefl _ (h.trans _ _ _ hwd hdw)
        · rintro ⟨R, hR, hdR, hRl⟩
          have hdR' := h.ord d R (.inl hdt) (.inr hR) hdR
          rcases hbef R (.inr hR) hRl with rfl | hRw
          · exact trace_not_reset hw hR
          · rcases Finset.mem_insert.1 hd with rfl | hd
            · exact h.irrefl _ (h.trans _ _ _ hdR' hRw)
            · exact (mem_since.1 hd).2.2 ⟨R, hR, hdR', hRw⟩
      · rw [Finset.card_insert_of_notMem (since_insert h), ho, out_trace hw, old_eq h hn w hw]
        have := since_card_lt h w
        unfold wrap
        rw [Nat.mod_eq_of_lt (by omega)]
    · refine ⟨∅, ?_, Finset.empty_subset _, by rw [ho, out_reset hw]; rfl, .inl rfl⟩
      intro d hd
      obtain ⟨h1, h2, h3⟩ := mem_before.1 hd
      exfalso
      have hwl : r.ord w l := by
        rcases hq.alone w l hw (by rintro rfl; rw [hl] at hw; cases hw) with h' | h'
        · exact absurd (haft w (.inr hw) h') (h.irrefl w)
        · exact h'
      rcases hbef d (.inl h1) h2 with rfl | hdw
      · exact trace_not_reset h1 hw
      · exact h3 ⟨w, hw, quiet_before h hq h1 hw hdw, hwl⟩

/-- **`get_logs` counts every event that comes before it, and none that comes after it**; events of other threads that are
not ordered with it may or may not be counted. -/
theorem get_logs_bounds (hv : r.Valid) (hx : r.Executes x) (hn : Fintype.card C < 2 ^ 64) (hq : r.QuietReset)
    (l : C) (hl : r.call l = .logs) :
    (r.before l).card ≤ r.old l ∧ r.old l ≤ (r.notAfter l).card := by
  obtain ⟨s, h1, h2, h3, -⟩ := logs_since (counter hv hx) hn hq l hl
  rw [h3]
  exact ⟨Finset.card_le_card h1, Finset.card_le_card h2⟩

/-- **When all events are ordered with `get_logs`**, it counts exactly those before it since the last reset. -/
theorem get_logs_exact (hv : r.Valid) (hx : r.Executes x) (hn : Fintype.card C < 2 ^ 64) (hq : r.QuietReset)
    (l : C) (hl : r.call l = .logs) (ho : ∀ d, r.isTrace d → r.ord d l ∨ r.ord l d) :
    r.old l = (r.before l).card := by
  obtain ⟨h1, h2⟩ := get_logs_bounds hv hx hn hq l hl
  have : r.notAfter l ⊆ r.before l := by
    intro d hd
    obtain ⟨h3, h4, h5⟩ := mem_notAfter.1 hd
    exact mem_before.2 ⟨h3, (ho d h3).resolve_right h4, h5⟩
  have := Finset.card_le_card this
  omega

/-- The records up to that of an event are taken. -/
theorem index_taken {mo : C → C → Prop} (h : Counter r mo) (hn : Fintype.card C < 2 ^ 64) (w : C) (hw : r.isTrace w)
    (i : Nat) (hi : i ≤ r.old w) : ∃ d ∈ insert w (since r mo w), r.isTrace d ∧ r.old d = i := by
  induction w using (wf_mo h).induction with
  | _ w ih =>
    by_cases he : i = r.old w
    · exact ⟨w, Finset.mem_insert_self _ _, hw, he.symm⟩
    · rcases h.trace w hw with ⟨h0, -⟩ | ⟨v, hv, hvw, hno, ho⟩
      · omega
      · rcases hv with hv | hv
        · have hlt : i ≤ r.old v := by
            have := since_card_lt h v
            rw [out_trace hv, old_eq h hn v hv] at ho
            rw [old_eq h hn v hv]
            unfold wrap at ho
            rw [Nat.mod_eq_of_lt (by omega)] at ho
            omega
          obtain ⟨d, hd, h1, h2⟩ := ih v hvw hv hlt
          refine ⟨d, Finset.mem_insert_of_mem ?_, h1, h2⟩
          rw [since_step h hv hvw hno]
          exact hd
        · rw [out_reset hv] at ho
          omega

/-- **Each record that `get_logs` returns is that of one event** since the last reset. -/
theorem record_event (hv : r.Valid) (hx : r.Executes x) (hn : Fintype.card C < 2 ^ 64) (hq : r.QuietReset)
    (l : C) (hl : r.call l = .logs) (i : Nat) (hi : i < r.old l) :
    ∃ d, r.isTrace d ∧ ¬ r.ord l d ∧ ¬ r.resetAfter d l ∧ r.old d = i := by
  have h := counter hv hx
  obtain ⟨s, -, h2, h3, h4⟩ := logs_since h hn hq l hl
  rcases h4 with rfl | ⟨w, hw, rfl⟩
  · simp at h3; omega
  · rw [Finset.card_insert_of_notMem (since_insert h), ← old_eq h hn w hw] at h3
    obtain ⟨d, hd, h5, h6⟩ := index_taken h hn w hw i (by omega)
    obtain ⟨-, h7, h8⟩ := mem_notAfter.1 (h2 hd)
    exact ⟨d, h5, h7, h8, h6⟩

/-- The write that a reader of a record sees. -/
theorem seen_write (hv : r.Valid) (hx : r.Executes x) {l : C} (hl : r.call l = .logs) {i : Nat}
    (hi : i < min r.cap (r.old l)) (f : Field) :
    (r.seen l i f = 0 ∧ ∀ c v, .write (.fld i f) v ∈ r.acts c → ¬ r.ord c l) ∨
    ∃ c v, .write (.fld i f) v ∈ r.acts c ∧ r.seen l i f = v ∧ r.ord c l ∧
      ∀ c' v', c' ≠ c → .write (.fld i f) v' ∈ r.acts c' → r.ord c c' → ¬ r.ord c' l := by
  have hc := hx.consistent
  obtain ⟨e, rfl, he⟩ := hx.exists_ev (c := l) (a := .read (.fld i f) (r.seen l i f))
    (by rw [acts_logs hl]; exact logsActs_read hi f)
  have hna : ¬ (x.act e).atomic := by rw [he]; exact id
  cases hrf : x.rf e with
  | none =>
    refine .inl ⟨?_, ?_⟩
    · have := hc.rf_none e hrf (by rw [he]; simp [Act.reads, Act.got])
      rw [he] at this
      exact Option.some.inj this
    · intro c v hm ho
      obtain ⟨w, rfl, hw⟩ := hx.exists_ev hm
      exact hc.na_none e hna (by rw [he]; simp [Act.reads, Act.got]) hrf w (by rw [hw]; simp [Act.writes, Act.put])
        (by rw [hw, he]; rfl) (hb_of_ord hv hx ho)
  | some w =>
    obtain ⟨-, h2, h3⟩ := hc.rf_some w e hrf
    obtain ⟨h4, h5⟩ := hc.na_some w e hna hrf
    have hm := hx.mem w
    rw [he] at h2 h3
    have hne : w.1 ≠ e.1 := by
      intro hwe
      rw [hwe] at hm
      generalize x.act w = a at hm h2 h3
      rcases acts_cases hm with ⟨_, h, rfl⟩ | ⟨_, _, h, _, _, rfl⟩ | ⟨_, _, h, _, rfl⟩ | ⟨_, rfl⟩ |
        ⟨_, _, _, _, _, rfl⟩ | ⟨h, rfl⟩
      · rw [hl] at h; cases h
      · rw [hl] at h; cases h
      · rw [hl] at h; cases h
      · cases h2
      · cases h3
      · rw [hl] at h; cases h
    have hact : x.act w = .write (.fld i f) (r.seen e.1 i f) := by
      generalize x.act w = a at hm h2 h3
      rcases acts_cases hm with ⟨_, _, rfl⟩ | ⟨_, _, _, _, _, rfl⟩ | ⟨_, _, _, _, rfl⟩ | ⟨_, rfl⟩ |
        ⟨_, _, _, _, _, rfl⟩ | ⟨_, rfl⟩
      · cases h2
      · simp only [Act.loc] at h2; simp only [Act.put, Act.got, Option.some.injEq] at h3; rw [h2, h3]
      · simp only [Act.loc] at h2; simp only [Act.put, Act.got, Option.some.injEq] at h3; rw [h2, h3]
      · cases h2
      · cases h3
      · cases h2
    rw [hact] at hm
    refine .inr ⟨w.1, _, hm, rfl, (hb_ord hv hx hne).1 h4, ?_⟩
    intro c' v' hne' hm' ho' hol
    obtain ⟨w', rfl, hw'⟩ := hx.exists_ev hm'
    exact h5 w' (by rw [hw']; simp [Act.writes, Act.put]) (by rw [hw', he]; rfl) (hb_of_ord hv hx ho')
      (hb_of_ord hv hx hol)

/-- **The records hold the events**: the reader of a record sees in the five fields what the event of this record wrote, if
that event comes before the reader in the program. -/
theorem record_fields (hv : r.Valid) (hx : r.Executes x) (hn : Fintype.card C < 2 ^ 64) (hq : r.QuietReset)
    (l d : C) (val : Field → Nat) (hl : r.call l = .logs) (hd : r.call d = .trace val)
    (hlt : r.old d < min r.cap (r.old l)) (ho : r.ord d l) (hr : ¬ r.resetAfter d l) (f : Field) (hf : f ≠ .dur) :
    r.seen l (r.old d) f = val f := by
  have hmd : Act.write (.fld (r.old d) f) (val f) ∈ r.acts d := by
    rw [acts_trace hd]; exact traceActs_write (by omega) hf
  rcases seen_write hv hx hl hlt f with ⟨-, h⟩ | ⟨c, v, hm, he, hol, hlast⟩
  · exact absurd ho (h d _ hmd)
  · by_cases hcd : c = d
    · subst hcd
      rcases acts_cases hm with ⟨_, _, h⟩ | ⟨w, f', hw, _, _, h⟩ | ⟨_, _, hw, _, _⟩ | ⟨_, h⟩ | ⟨_, _, _, _, _, h⟩ | ⟨_, h⟩
      · cases h
      · rw [hd] at hw
        cases hw
        cases h
        exact he
      · rw [hd] at hw; cases hw
      · cases h
      · cases h
      · cases h
    · exfalso
      rcases acts_cases hm with ⟨_, _, h⟩ | ⟨w, f', hw, _, _, h⟩ | ⟨_, _, hw, _, h⟩ | ⟨_, h⟩ | ⟨_, _, _, _, _, h⟩ | ⟨_, h⟩
      · cases h
      · have hi : r.old d = r.old c := (Loc.fld.inj (Act.write.inj h).1).1
        rcases same_index (counter hv hx) hn hq ⟨_, hw⟩ ⟨_, hd⟩ hcd hi.symm with h1 | ⟨R, h1, h2, h3⟩
        · exact hlast d _ (Ne.symm hcd) hmd (resetAfter_ord hv h1) ho
        · exact hr ⟨R, h1, h2, hv.trans _ _ _ h3 hol⟩
      · exact hf (Loc.fld.inj (Act.write.inj h).1).2
      · cases h
      · cases h
      · cases h

/-- **and the duration of the scope**, if it has ended before the reader. -/
theorem record_duration (hv : r.Valid) (hx : r.Executes x) (hn : Fintype.card C < 2 ^ 64) (hq : r.QuietReset)
    (l d c : C) (t : Nat) (hl : r.call l = .logs) (hc : r.call c = .close d t)
    (hlt : r.old d < min r.cap (r.old l)) (ho : r.ord c l) (hr : ¬ r.resetAfter d l) :
    r.seen l (r.old d) .dur = t := by
  obtain ⟨hdt, hdc⟩ := hv.close_after c d ⟨t, hc⟩
  have hmc : Act.write (.fld (r.old d) .dur) t ∈ r.acts c := by
    rw [acts_close hc]; unfold closeActs; rw [if_neg (by omega)]; exact List.mem_cons_self
  rcases seen_write hv hx hl hlt .dur with ⟨-, h⟩ | ⟨c', v, hm, he, hol, hlast⟩
  · exact absurd ho (h c _ hmc)
  · rcases acts_cases hm with ⟨_, _, h⟩ | ⟨w, f', hw, _, hf', h⟩ | ⟨d', t', hw, _, h⟩ | ⟨_, h⟩ | ⟨_, _, _, _, _, h⟩ | ⟨_, h⟩
    · cases h
    · exact absurd (Loc.fld.inj (Act.write.inj h).1).2.symm hf'
    · have hi : r.old d = r.old d' := (Loc.fld.inj (Act.write.inj h).1).1
      have ht : v = t' := (Act.write.inj h).2
      by_cases hdd : d' = d
      · subst hdd
        have := hv.close_once c c' d' ⟨_, hc⟩ ⟨_, hw⟩
        subst this
        rw [hc] at hw
        cases hw
        rw [he, ht]
      · exfalso
        obtain ⟨hdt', hdc'⟩ := hv.close_after c' d' ⟨_, hw⟩
        rcases same_index (counter hv hx) hn hq hdt' hdt hdd hi.symm with ⟨R, h1, h2, h3⟩ | ⟨R, h1, h2, h3⟩
        · refine hlast c t ?_ hmc (hv.trans _ _ _ (hq.closed R c' d' h1 ⟨_, hw⟩ h2) (hv.trans _ _ _ h3 hdc)) ho
          rintro rfl
          rw [hc] at hw; cases hw; exact hdd rfl
        · exact hr ⟨R, h1, h2, hv.trans _ _ _ h3 (hv.trans _ _ _ hdc' hol)⟩
    · cases h
    · cases h
    · cases h

/-- Without `reset`, the duration of a scope that does not end before the reader is zero. -/
theorem record_open (hv : r.Valid) (hx : r.Executes x) (hn : Fintype.card C < 2 ^ 64) (h0 : r.NoReset)
    (l d : C) (hl : r.call l = .logs) (hd : r.isTrace d) (hlt : r.old d < min r.cap (r.old l))
    (hc : ∀ c, r.closes c d → ¬ r.ord c l) : r.seen l (r.old d) .dur = 0 := by
  rcases seen_write hv hx hl hlt .dur with ⟨h, -⟩ | ⟨c', v, hm, he, hol, -⟩
  · exact h
  · exfalso
    rcases acts_cases hm with ⟨_, _, h⟩ | ⟨w, f', hw, _, hf', h⟩ | ⟨d', t', hw, _, h⟩ | ⟨_, h⟩ | ⟨_, _, _, _, _, h⟩ | ⟨_, h⟩
    · cases h
    · exact absurd (Loc.fld.inj (Act.write.inj h).1).2.symm hf'
    · have hi : r.old d = r.old d' := (Loc.fld.inj (Act.write.inj h).1).1
      have hdd : d' = d := by
        by_contra hne
        rcases same_index (counter hv hx) hn (NoReset.quiet h0) (hv.close_after c' d' ⟨_, hw⟩).1 hd hne hi.symm with
          ⟨R, h1, -⟩ | ⟨R, h1, -⟩ <;> exact h0 R h1
      subst hdd
      exact hc c' ⟨_, hw⟩ hol
    · cases h
    · cases h
    · cases h

end

end Guanaqo.Weak.Trace
