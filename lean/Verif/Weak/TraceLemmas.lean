import Verif.Weak.Trace

/-!
# Lemmas on runs of `TraceLogger`: from memory accesses to calls
-/

namespace Guanaqo.Weak.Trace

variable {C : Type} {r : Run C} {x : Exec r.Ev Loc Nat}

/-- The calls that write the counter. -/
def Run.writer (r : Run C) (c : C) : Prop := r.isTrace c ∨ r.call c = .reset

/-- What a call leaves in the counter. -/
def Run.out (r : Run C) (c : C) : Nat :=
  match r.call c with
  | .trace _ => wrap (r.old c + 1)
  | _ => 0

theorem mem_traceActs {cap n : Nat} {val : Field → Nat} {a : Act Loc Nat} (h : a ∈ traceActs cap n val) :
    a = .rmw .relaxed .count n (wrap (n + 1)) ∨
      n < cap ∧ ∃ f, f ≠ .dur ∧ a = .write (.fld n f) (val f) := by
  unfold traceActs at h
  rcases List.mem_cons.1 h with h | h
  · exact .inl h
  · by_cases hc : cap ≤ n
    · rw [if_pos hc] at h; simp at h
    · rw [if_neg hc] at h
      obtain ⟨f, hf, rfl⟩ := List.mem_map.1 h
      refine .inr ⟨by omega, f, ?_, rfl⟩
      intro hd; subst hd; simp [written] at hf

theorem mem_closeActs {cap n d : Nat} {a : Act Loc Nat} (h : a ∈ closeActs cap n d) :
    n < cap ∧ a = .write (.fld n .dur) d := by
  unfold closeActs at h
  by_cases hc : cap ≤ n
  · rw [if_pos hc] at h; simp at h
  · rw [if_neg hc] at h
    exact ⟨by omega, by simpa using h⟩

theorem mem_logsActs {cap n : Nat} {s : Nat → Field → Nat} {a : Act Loc Nat} (h : a ∈ logsActs cap n s) :
    a = .load .relaxed .count n ∨ ∃ i f, i < cap ∧ i < n ∧ a = .read (.fld i f) (s i f) := by
  unfold logsActs at h
  rcases List.mem_cons.1 h with h | h
  · exact .inl h
  · obtain ⟨i, hi, h⟩ := List.mem_flatMap.1 h
    obtain ⟨f, -, rfl⟩ := List.mem_map.1 h
    have := List.mem_range.1 hi
    exact .inr ⟨i, f, by omega, by omega, rfl⟩

theorem traceActs_write {cap n : Nat} {val : Field → Nat} (hn : n < cap) {f : Field} (hf : f ≠ .dur) :
    .write (.fld n f) (val f) ∈ traceActs cap n val := by
  unfold traceActs
  rw [if_neg (by omega)]
  refine List.mem_cons_of_mem _ (List.mem_map.2 ⟨f, ?_, rfl⟩)
  cases f <;> simp [written] at hf ⊢

theorem logsActs_read {cap n : Nat} {s : Nat → Field → Nat} {i : Nat} (hi : i < min cap n) (f : Field) :
    .read (.fld i f) (s i f) ∈ logsActs cap n s := by
  unfold logsActs
  refine List.mem_cons_of_mem _ (List.mem_flatMap.2 ⟨i, List.mem_range.2 hi, List.mem_map.2 ⟨f, ?_, rfl⟩⟩)
  cases f <;> simp [fields]

theorem acts_trace {c : C} {val : Field → Nat} (h : r.call c = .trace val) :
    r.acts c = traceActs r.cap (r.old c) val := by unfold Run.acts; rw [h]

theorem acts_close {c t : C} {d : Nat} (h : r.call c = .close t d) :
    r.acts c = closeActs r.cap (r.old t) d := by unfold Run.acts; rw [h]

theorem acts_logs {c : C} (h : r.call c = .logs) :
    r.acts c = logsActs r.cap (r.old c) (r.seen c) := by unfold Run.acts; rw [h]

theorem acts_reset {c : C} (h : r.call c = .reset) : r.acts c = [.store .relaxed .count 0] := by
  unfold Run.acts; rw [h]

/-- The accesses of a call, by kind. -/
theorem acts_cases {c : C} {a : Act Loc Nat} (h : a ∈ r.acts c) :
    (∃ val, r.call c = .trace val ∧ a = .rmw .relaxed .count (r.old c) (wrap (r.old c + 1))) ∨
    (∃ val f, r.call c = .trace val ∧ r.old c < r.cap ∧ f ≠ .dur ∧ a = .write (.fld (r.old c) f) (val f)) ∨
    (∃ t d, r.call c = .close t d ∧ r.old t < r.cap ∧ a = .write (.fld (r.old t) .dur) d) ∨
    (r.call c = .logs ∧ a = .load .relaxed .count (r.old c)) ∨
    (∃ i f, r.call c = .logs ∧ i < r.cap ∧ i < r.old c ∧ a = .read (.fld i f) (r.seen c i f)) ∨
    (r.call c = .reset ∧ a = .store .relaxed .count 0) := by
  cases hc : r.call c with
  | trace val =>
    rw [acts_trace hc] at h
    rcases mem_traceActs h with h | ⟨h1, f, h2, h3⟩
    · exact .inl ⟨val, rfl, h⟩
    · exact .inr (.inl ⟨val, f, rfl, h1, h2, h3⟩)
  | close t d =>
    rw [acts_close hc] at h
    obtain ⟨h1, h2⟩ := mem_closeActs h
    exact .inr (.inr (.inl ⟨t, d, rfl, h1, h2⟩))
  | logs =>
    rw [acts_logs hc] at h
    rcases mem_logsActs h with h | ⟨i, f, h1, h2, h3⟩
    · exact .inr (.inr (.inr (.inl ⟨rfl, h⟩)))
    · exact .inr (.inr (.inr (.inr (.inl ⟨i, f, rfl, h1, h2, h3⟩))))
  | reset =>
    rw [acts_reset hc] at h
    exact .inr (.inr (.inr (.inr (.inr ⟨rfl, by simpa using h⟩))))

theorem Run.Executes.mem (hx : r.Executes x) (e : r.Ev) : x.act e ∈ r.acts e.1 := by
  rw [hx.act]; exact List.getElem_mem _

theorem Run.Executes.exists_ev (hx : r.Executes x) {c : C} {a : Act Loc Nat} (h : a ∈ r.acts c) :
    ∃ e : r.Ev, e.1 = c ∧ x.act e = a := by
  obtain ⟨i, hi, rfl⟩ := List.mem_iff_getElem.1 h
  exact ⟨⟨c, i, hi⟩, rfl, hx.act _⟩

theorem relaxed_only (hx : r.Executes x) (e : r.Ev) : ¬ (x.act e).releases := by
  have h := hx.mem e
  generalize x.act e = a at h
  rcases acts_cases h with ⟨_, _, rfl⟩ | ⟨_, _, _, _, _, rfl⟩ | ⟨_, _, _, _, rfl⟩ | ⟨_, rfl⟩ | ⟨_, _, _, _, _, rfl⟩ |
    ⟨_, rfl⟩ <;> simp [Act.releases, Order.releases]

/-- All atomic accesses are relaxed: only the program orders the accesses. -/
theorem hb_iff (hv : r.Valid) (hx : r.Executes x) {a b : r.Ev} :
    x.hb a b ↔ r.ord a.1 b.1 ∨ (a.1 = b.1 ∧ a.2.val < b.2.val) := by
  rw [x.hb_eq_sb, hx.sb]
  · intro a b h; exact relaxed_only hx a h.1
  · intro a b c h1 h2
    rw [hx.sb] at h1 h2 ⊢
    rcases h1 with h1 | ⟨h1, h1'⟩ <;> rcases h2 with h2 | ⟨h2, h2'⟩
    · exact .inl (hv.trans _ _ _ h1 h2)
    · exact .inl (h2 ▸ h1)
    · exact .inl (h1.symm ▸ h2)
    · exact .inr ⟨h1.trans h2, by omega⟩

/-- Between accesses of different calls. -/
theorem hb_ord (hv : r.Valid) (hx : r.Executes x) {a b : r.Ev} (hne : a.1 ≠ b.1) :
    x.hb a b ↔ r.ord a.1 b.1 := by
  rw [hb_iff hv hx]
  constructor
  · rintro (h | ⟨h, -⟩)
    · exact h
    · exact absurd h hne
  · exact .inl

theorem hb_of_ord (hv : r.Valid) (hx : r.Executes x) {a b : r.Ev} (h : r.ord a.1 b.1) : x.hb a b :=
  (hb_iff hv hx).2 (.inl h)

/-- Every call has at most one atomic access, its first. -/
theorem atomic_first (hx : r.Executes x) (e : r.Ev) (h : (x.act e).atomic) : e.2.val = 0 := by
  obtain ⟨c, i, hi⟩ := e
  rw [hx.act] at h
  dsimp only at h ⊢
  cases i with
  | zero => rfl
  | succ i =>
    exfalso
    cases hc : r.call c with
    | trace val =>
      have ha := acts_trace hc
      have hm : (r.acts c)[i + 1] ∈ (r.acts c).tail := by
        rw [List.mem_iff_getElem]
        exact ⟨i, by rw [List.length_tail]; omega, by rw [List.getElem_tail]⟩
      have : (traceActs r.cap (r.old c) val).tail = (if r.cap ≤ r.old c then [] else
          written.map fun f => .write (.fld (r.old c) f) (val f)) := rfl
      have hh : (r.acts c)[i + 1].atomic := h
      generalize (r.acts c)[i + 1] = a at hm hh
      rw [ha, this] at hm
      by_cases hcap : r.cap ≤ r.old c
      · rw [if_pos hcap] at hm; simp at hm
      · rw [if_neg hcap] at hm
        obtain ⟨f, -, rfl⟩ := List.mem_map.1 hm
        exact hh
    | close t d =>
      have hm : (r.acts c)[i + 1] ∈ r.acts c := List.getElem_mem _
      have hh : (r.acts c)[i + 1].atomic := h
      generalize (r.acts c)[i + 1] = a at hm hh
      rw [acts_close hc] at hm
      rw [(mem_closeActs hm).2] at hh
      exact hh
    | logs =>
      have ha := acts_logs hc
      have hm : (r.acts c)[i + 1] ∈ (r.acts c).tail := by
        rw [List.mem_iff_getElem]
        exact ⟨i, by rw [List.length_tail]; omega, by rw [List.getElem_tail]⟩
      have : (logsActs r.cap (r.old c) (r.seen c)).tail = ((List.range (min r.cap (r.old c))).flatMap fun i =>
          fields.map fun f => .read (.fld i f) (r.seen c i f)) := rfl
      have hh : (r.acts c)[i + 1].atomic := h
      generalize (r.acts c)[i + 1] = a at hm hh
      rw [ha, this] at hm
      obtain ⟨j, -, hm⟩ := List.mem_flatMap.1 hm
      obtain ⟨f, -, rfl⟩ := List.mem_map.1 hm
      exact hh
    | reset =>
      have := acts_reset hc
      have hl : (r.acts c).length = 1 := by rw [this]; rfl
      omega

theorem atomic_unique (hx : r.Executes x) {a b : r.Ev} (h : a.1 = b.1) (ha : (x.act a).atomic)
    (hb : (x.act b).atomic) : a = b := by
  have h1 := atomic_first hx a ha
  have h2 := atomic_first hx b hb
  obtain ⟨c, i, hi⟩ := a
  obtain ⟨d, j, hj⟩ := b
  dsimp only at h h1 h2
  subst h; subst h1; subst h2; rfl

/-- The access of a writer to the counter. -/
theorem writer_ev (hx : r.Executes x) {c : C} (h : r.writer c) :
    ∃ e : r.Ev, e.1 = c ∧ (x.act e).atomic ∧ (x.act e).loc = .count ∧ (x.act e).put = some (r.out c) := by
  rcases h with ⟨val, h⟩ | h
  · obtain ⟨e, h1, h2⟩ := hx.exists_ev (c := c) (a := .rmw .relaxed .count (r.old c) (wrap (r.old c + 1)))
      (by rw [acts_trace h]; exact List.mem_cons_self)
    refine ⟨e, h1, ?_, ?_, ?_⟩ <;> rw [h2]
    · trivial
    · rfl
    · unfold Run.out; rw [h]; rfl
  · obtain ⟨e, h1, h2⟩ := hx.exists_ev (c := c) (a := .store .relaxed .count 0)
      (by rw [acts_reset h]; exact List.mem_cons_self)
    refine ⟨e, h1, ?_, ?_, ?_⟩ <;> rw [h2]
    · trivial
    · rfl
    · unfold Run.out; rw [h]; rfl

theorem atomic_write_writer (hx : r.Executes x) {e : r.Ev} (ha : (x.act e).atomic) (hw : (x.act e).writes) :
    r.writer e.1 ∧ (x.act e).loc = .count := by
  have h := hx.mem e
  generalize x.act e = a at h ha hw
  rcases acts_cases h with ⟨v, h', rfl⟩ | ⟨_, _, _, _, _, rfl⟩ | ⟨_, _, _, _, rfl⟩ | ⟨_, rfl⟩ | ⟨_, _, _, _, _, rfl⟩ |
    ⟨h', rfl⟩
  · exact ⟨.inl ⟨v, h'⟩, rfl⟩
  · exact absurd ha id
  · exact absurd ha id
  · exact absurd rfl hw
  · exact absurd ha id
  · exact ⟨.inr h', rfl⟩

/-- The access of a call that reads the counter. -/
theorem reader_ev (hx : r.Executes x) {c : C} (h : r.isTrace c ∨ r.call c = .logs) :
    ∃ e : r.Ev, e.1 = c ∧ (x.act e).atomic ∧ (x.act e).loc = .count ∧ (x.act e).got = some (r.old c) ∧
      (r.isTrace c → (x.act e).isRmw) := by
  rcases h with ⟨val, h⟩ | h
  · obtain ⟨e, h1, h2⟩ := hx.exists_ev (c := c) (a := .rmw .relaxed .count (r.old c) (wrap (r.old c + 1)))
      (by rw [acts_trace h]; exact List.mem_cons_self)
    refine ⟨e, h1, ?_, ?_, ?_, fun _ => ?_⟩ <;> rw [h2]
    · trivial
    · rfl
    · rfl
    · trivial
  · obtain ⟨e, h1, h2⟩ := hx.exists_ev (c := c) (a := .load .relaxed .count (r.old c))
      (by rw [acts_logs h]; exact List.mem_cons_self)
    refine ⟨e, h1, ?_, ?_, ?_, fun ⟨v, h'⟩ => ?_⟩
    · rw [h2]; trivial
    · rw [h2]; rfl
    · rw [h2]; rfl
    · rw [h] at h'; cases h'

/-- The modification order of the counter, between calls. -/
def moC (x : Exec r.Ev Loc Nat) (c d : C) : Prop := ∃ a b : r.Ev, a.1 = c ∧ b.1 = d ∧ x.mo a b

/-- What the memory model says about the counter. -/
structure Counter (r : Run C) (mo : C → C → Prop) : Prop where
  writers : ∀ c d, mo c d → r.writer c ∧ r.writer d
  irrefl : ∀ c, ¬ mo c c
  trans : ∀ c d e, mo c d → mo d e → mo c e
  total : ∀ c d, c ≠ d → r.writer c → r.writer d → mo c d ∨ mo d c
  ord : ∀ c d, r.writer c → r.writer d → r.ord c d → mo c d
  trace : ∀ c, r.isTrace c → (r.old c = 0 ∧ ∀ d, ¬ mo d c) ∨
    ∃ w, r.writer w ∧ mo w c ∧ (∀ d, mo w d → ¬ mo d c) ∧ r.old c = r.out w
  logs : ∀ c, r.call c = .logs → (r.old c = 0 ∧ ∀ d, r.writer d → ¬ r.ord d c) ∨
    ∃ w, r.writer w ∧ r.old c = r.out w ∧ (∀ d, r.writer d → r.ord d c → d = w ∨ mo d w) ∧
      (∀ d, r.writer d → r.ord c d → mo w d)

theorem writes_of_put {a : Act Loc Nat} {v : Nat} (h : a.put = some v) : a.writes := by
  unfold Act.writes; rw [h]; simp

theorem reads_of_got {a : Act Loc Nat} {v : Nat} (h : a.got = some v) : a.reads := by
  unfold Act.reads; rw [h]; simp

theorem counter (hv : r.Valid) (hx : r.Executes x) : Counter r (moC x) := by
  have hc := hx.consistent
  refine ⟨?_, ?_, ?_, ?_, ?_, ?_, ?_⟩
  · rintro c d ⟨a, b, rfl, rfl, h⟩
    obtain ⟨h1, h2, h3, h4, -⟩ := hc.mo_writes a b h
    exact ⟨(atomic_write_writer hx h3 h1).1, (atomic_write_writer hx h4 h2).1⟩
  · rintro c ⟨a, b, rfl, h', h⟩
    obtain ⟨-, -, h3, h4, -⟩ := hc.mo_writes a b h
    have := atomic_unique hx h' h4 h3
    subst this
    exact hc.mo_irrefl _ h
  · rintro c d e ⟨a, b, rfl, rfl, h⟩ ⟨a', b', h', rfl, h''⟩
    obtain ⟨-, -, -, h4, -⟩ := hc.mo_writes a b h
    obtain ⟨-, -, h3, -, -⟩ := hc.mo_writes a' b' h''
    have := atomic_unique hx h' h3 h4
    subst this
    exact ⟨_, _, rfl, rfl, hc.mo_trans _ _ _ h h''⟩
  · intro c d hne h1 h2
    obtain ⟨a, ha1, ha2, ha3, ha4⟩ := writer_ev hx h1
    obtain ⟨b, hb1, hb2, hb3, hb4⟩ := writer_ev hx h2
    have hab : a ≠ b := by rintro rfl; exact hne (ha1.symm.trans hb1)
    rcases hc.mo_total a b hab (writes_of_put ha4) (writes_of_put hb4) ha2 hb2 (ha3.trans hb3.symm) with h | h
    · exact .inl ⟨a, b, ha1, hb1, h⟩
    · exact .inr ⟨b, a, hb1, ha1, h⟩
  · intro c d h1 h2 h
    obtain ⟨a, ha1, ha2, ha3, ha4⟩ := writer_ev hx h1
    obtain ⟨b, hb1, hb2, hb3, hb4⟩ := writer_ev hx h2
    exact ⟨a, b, ha1, hb1, hc.co_ww a b (hb_of_ord hv hx (by rw [ha1, hb1]; exact h)) (writes_of_put ha4)
      (writes_of_put hb4) ha2 hb2 (ha3.trans hb3.symm)⟩
  · intro c ht
    obtain ⟨e, h1, h2, h3, h4, h5⟩ := reader_ev hx (.inl ht)
    have h5 := h5 ht
    cases hrf : x.rf e with
    | none =>
      refine .inl ⟨?_, ?_⟩
      · have := hc.rf_none e hrf (reads_of_got h4)
        rw [h4] at this
        exact Option.some.inj this
      · rintro d ⟨a, b, rfl, hb, h⟩
        obtain ⟨-, -, -, hb4, -⟩ := hc.mo_writes a b h
        have := atomic_unique hx (hb.trans h1.symm) hb4 h2
        subst this
        exact hc.rmw_none _ h5 hrf a h
    | some w =>
      obtain ⟨h6, h7⟩ := hc.rmw_some w e h5 hrf
      obtain ⟨hw1, -, hw3, -, hw5⟩ := hc.mo_writes w e h6
      have hww := (atomic_write_writer hx hw3 hw1).1
      obtain ⟨w', hw'1, hw'2, hw'3, hw'4⟩ := writer_ev hx hww
      have := atomic_unique hx hw'1 hw'2 hw3
      subst this
      refine .inr ⟨w'.1, hww, ⟨w', e, rfl, h1, h6⟩, ?_, ?_⟩
      · rintro d ⟨a, b, ha, rfl, h⟩ ⟨a', b', ha', hb', h'⟩
        obtain ⟨-, -, ha3, hb4, -⟩ := hc.mo_writes a b h
        obtain ⟨-, -, ha3', hb4', -⟩ := hc.mo_writes a' b' h'
        have e1 := atomic_unique hx ha ha3 hw3
        have e2 := atomic_unique hx ha' ha3' hb4
        have e3 := atomic_unique hx (hb'.trans h1.symm) hb4' h2
        subst e1; subst e2; subst e3
        exact h7 _ h h'
      · have := (hc.rf_some _ _ hrf).2.2
        rw [hw'4, h4] at this
        exact (Option.some.inj this).symm
  · intro c hl
    obtain ⟨e, h1, h2, h3, h4, -⟩ := reader_ev hx (.inr hl)
    cases hrf : x.rf e with
    | none =>
      refine .inl ⟨?_, ?_⟩
      · have := hc.rf_none e hrf (reads_of_got h4)
        rw [h4] at this
        exact Option.some.inj this
      · intro d hd ho
        obtain ⟨a, ha1, ha2, ha3, ha4⟩ := writer_ev hx hd
        obtain ⟨w', hw', -⟩ := hc.co_wr a e (hb_of_ord hv hx (by rw [ha1, h1]; exact ho)) (writes_of_put ha4)
          (reads_of_got h4) ha2 h2 (ha3.trans h3.symm)
        rw [hrf] at hw'; cases hw'
    | some w =>
      obtain ⟨-, h6, h7⟩ := hc.rf_some w e hrf
      rw [h4] at h7
      rw [h3] at h6
      have hwr : (x.act w).writes := writes_of_put h7
      have hwa : (x.act w).atomic := by
        have hm := hx.mem w
        generalize x.act w = a at hm h6
        rcases acts_cases hm with ⟨_, _, rfl⟩ | ⟨_, _, _, _, _, rfl⟩ | ⟨_, _, _, _, rfl⟩ | ⟨_, rfl⟩ |
          ⟨_, _, _, _, _, rfl⟩ | ⟨_, rfl⟩
        · trivial
        · cases h6
        · cases h6
        · trivial
        · cases h6
        · trivial
      have hww := (atomic_write_writer hx hwa hwr).1
      obtain ⟨w', hw'1, hw'2, hw'3, hw'4⟩ := writer_ev hx hww
      have := atomic_unique hx hw'1 hw'2 hwa
      subst this
      refine .inr ⟨w'.1, hww, ?_, ?_, ?_⟩
      · rw [hw'4] at h7
        exact (Option.some.inj h7).symm
      · intro d hd ho
        obtain ⟨a, ha1, ha2, ha3, ha4⟩ := writer_ev hx hd
        obtain ⟨v, hv1, hv2⟩ := hc.co_wr a e (hb_of_ord hv hx (by rw [ha1, h1]; exact ho)) (writes_of_put ha4)
          (reads_of_got h4) ha2 h2 (ha3.trans h3.symm)
        rw [hrf] at hv1
        cases hv1
        rcases hv2 with rfl | hv2
        · exact .inl ha1.symm
        · exact .inr ⟨a, _, ha1, rfl, hv2⟩
      · intro d hd ho
        obtain ⟨a, ha1, ha2, ha3, ha4⟩ := writer_ev hx hd
        exact ⟨_, a, rfl, ha1, hc.co_rw e a _ (hb_of_ord hv hx (by rw [ha1, h1]; exact ho)) h2 ha2
          (writes_of_put ha4) (h3.trans ha3.symm) hrf⟩

end Guanaqo.Weak.Trace
