import Verif.Sparsity.MemoryProps

/-! # `convert_values_into` and `convert_values_copy` on memory (C13)

In `Variant.lean` the evaluator is the list of the values it writes, and spans are compared by name. Here the evaluator is an arbitrary program on
memory that gets a span, vectors live in storage from an allocator, and `data()` pointers are addresses that are compared as such. -/

namespace Guanaqo.Sparsity.Memory

variable {T : Type}

/-! ## Vectors -/

/-- What is assumed of `std::vector<T>::resize` of a vector in storage: it throws and changes nothing, or there are `n` elements then. They are in the old storage or in
memory that was not in use, and nothing else changes. -/
def ResizeOk (resize : Span → Nat → MM T Span) : Prop :=
  ∀ (v : Span) (n : Nat) (m : Mem T), (∃ l, Holds v l m) → (∃ e, resize v n m = (.error e, m)) ∨
    ∃ w m', resize v n m = (.ok w, m') ∧ w.len = n ∧ (∃ l, Holds w l m') ∧ (∀ a, w.Has a → v.Has a ∨ m a = none) ∧
      ∀ a, ¬ v.Has a → ¬ w.Has a → m' a = m a

/-- What is assumed of `std::vector<T>(n)`: it throws and changes nothing, or has `n` value-initialized elements in memory that was not in use.
Nothing else changes. `data()` is not the address of another object, also if `n` is zero. -/
def NewOk (zero : T) (new : Nat → MM T Span) : Prop :=
  ∀ (n : Nat) (m : Mem T), (∃ e, new n m = (.error e, m)) ∨
    ∃ w m', new n m = (.ok w, m') ∧ w.len = n ∧ Holds w (List.replicate n zero) m' ∧ m w.base = none ∧ (∀ a, w.Has a → m a = none) ∧
      ∀ a, ¬ w.Has a → m' a = m a

/-- Destructor of a vector. -/
def free (v : Span) : MM T Unit := fun m => (.ok (), fun a => if v.base ≤ a ∧ a < v.base + v.len then none else m a)

/-! ## The functions -/

/-- `convert_values_into(result, evaluator, work)`, sparsity-conversions.hpp:785-812. The parameters are `nnz_from()` and `work_size()` of the
converter, its `convert_values`, `resize` of the vector, and the evaluator. Simplified: if an exception is thrown, the storage of the
vector is not given back. -/
def convertValuesInto (dbg : Bool) (nnzFrom : Res Int) (workSize : Res Nat) (f : Span → Span → MM T Span) (resize : Span → Nat → MM T Span)
    (result : Span) (evaluator : Span → MM T Unit) (work : Span) : MM T Span :=
  lift nnzFrom >>= fun nnz => lift (castSz dbg nnz) >>= fun evalSize => lift workSize >>= fun ws =>
    if ws = 0 ∧ evalSize ≤ result.len then
      evaluator ⟨result.base, evalSize⟩ >>= fun _ => f result work >>= fun r =>
        lift (assertM dbg (.ok (decide (r.base = result.base)))) >>= fun _ => pure work
    else
      resize work evalSize >>= fun work' => evaluator work' >>= fun _ => f work' result >>= fun r =>
        lift (assertM dbg (.ok (decide (r.base = result.base)))) >>= fun _ => pure work'

/-- `convert_values_copy(from_values)`, sparsity-conversions.hpp:813-821: `work = {result.begin(), result.end()}` makes a new vector and
copies the elements. -/
def convertValuesCopy (workSize : Res Nat) (f : Span → Span → MM T Span) (new : Nat → MM T Span) (fv : Span) : MM T Span :=
  lift workSize >>= fun ws => new ws >>= fun work => f fv work >>= fun r =>
    if r.base ≠ work.base then
      new r.len >>= fun v => forM 0 r.len (fun i _ => r.get i.toNat >>= fun x => v.put i.toNat x) () >>= fun _ =>
        free work >>= fun _ => pure v
    else pure work

/-! ## `convert_values_into` -/

theorem run_ok {X Y : Type} {f : MM T X} {k : X → MM T Y} {m m' : Mem T} {x : X} (h : f m = (.ok x, m')) : (f >>= k) m = k x m' := by
  change MM.bind f k m = _
  unfold MM.bind
  rw [h]

theorem run_err {X Y : Type} {f : MM T X} {k : X → MM T Y} {m m' : Mem T} {e : Fault} (h : f m = (.error e, m')) :
    (f >>= k) m = (.error e, m') := by
  change MM.bind f k m = _
  unfold MM.bind
  rw [h]

theorem run_lift {X Y : Type} {x : X} {k : X → MM T Y} {m : Mem T} {r : Res X} (h : r = .ok x) : (lift r >>= k) m = k x m := by
  rw [h]; rfl

/-- What `convert_values_into` has done, if `evaluator` was called with `sp` in memory `m₁` and that has given `r` and `m₂`. -/
structure IntoDone (zero : T) (p : Pattern) (c : AnyConv T) (into : MM T Span) (evaluator : Span → MM T Unit) (result work : Span) (m : Mem T)
    (sp : Span) (m₁ : Mem T) (r : Res Unit) (m₂ : Mem T) : Prop where
  /-- One call of the evaluator, -/
  call : evaluator sp m₁ = (r, m₂)
  /-- with a span of one element for each value of the source, -/
  size : sp.len = p.count
  /-- in storage, -/
  storage : ∃ l, Holds sp l m₁
  /-- part of the result or of the vector, -/
  place : ∀ a, sp.Has a → result.Has a ∨ work.Has a ∨ m a = none
  /-- when nothing but the vector has changed. -/
  before : ∀ a, m a ≠ none → ¬ work.Has a → m₁ a = m a
  /-- An exception of the evaluator is passed on. -/
  throws : ∀ e, r = .error e → into m = (.error e, m₂)
  /-- If it returns, and has left the storage alone, the result is then the converted matrix, and all other memory as the evaluator has left it;
  the vector returned does not overlap the result. -/
  returns : r = .ok () → ∀ vals : List T, Holds sp vals m₂ → (∃ l, Holds result l m₂) →
    ∃ w m', into m = (.ok w, m') ∧ (w = work ∨ w = sp) ∧ w.Disjoint result ∧ (∀ a, ¬ result.Has a → m' a = m₂ a) ∧
      ∃ out, Holds result out m' ∧ ∀ M, p.Denotes zero vals M → c.sparsity.Denotes zero out M

theorem holds_empty {s : Span} {l : List T} {m : Mem T} (h : s.len = 0) (hl : l.length = 0) : Holds s l m :=
  ⟨by omega, fun i hi => by omega⟩

/-- **C13**, on memory, for every supported conversion of a valid matrix, every allocator, evaluator and memory: `convert_values_into` throws
because there is no memory for the vector, and nothing has changed; or `IntoDone`. The result has one element for each value of the converted
matrix. If no workspace is needed, the vector passed is empty (as the one returned by a previous call is). -/
theorem convert_values_into_memory (zero : T) (std : StdLib) (hstd : std.Ok) (dbg : Bool) (p : Pattern) (tgt : Target) (hv : p.Valid)
    (hs : Supported dbg p tgt) :
    ∃ c f ws, Sparsity.convert zero std dbg p tgt = .ok c ∧ convert zero std dbg p tgt = .ok f ∧ c.workSize = .ok ws ∧
      ∀ (resize : Span → Nat → MM T Span) (evaluator : Span → MM T Unit) (result work : Span) (m : Mem T), ResizeOk resize →
        result.len = c.sparsity.count → (∃ l, Holds result l m) → (∃ l, Holds work l m) → work.Disjoint result → (ws = 0 → work.len = 0) →
        (c.sparsity.count = 0 → dbg = true → result.base = work.base) →
        (∃ e, resize work p.count m = (.error e, m) ∧
          convertValuesInto dbg c.nnzFrom c.workSize f resize result evaluator work m = (.error e, m)) ∨
        ∃ sp m₁ r m₂, IntoDone zero p c (convertValuesInto dbg c.nnzFrom c.workSize f resize result evaluator work) evaluator result work m
          sp m₁ r m₂ := by
  obtain ⟨c, hc, hf⟩ := convert_faithful zero std hstd dbg p tgt hv hs
  obtain ⟨f, hcm, href⟩ := (convert_refines zero std dbg p tgt).1 c hc
  obtain ⟨ws, hws, hws0, hrun⟩ := hf.work
  refine ⟨c, f, ws, hc, hcm, hws, ?_⟩
  intro resize ev result work m hrs hlen ⟨lr, hlr⟩ ⟨lw, hlw⟩ hdis hw0 hemp
  have step : ∀ m, convertValuesInto dbg c.nnzFrom c.workSize f resize result ev work m =
      (if ws = 0 ∧ p.count ≤ result.len then
        ev ⟨result.base, p.count⟩ >>= fun _ => f result work >>= fun r =>
          lift (assertM dbg (.ok (decide (r.base = result.base)))) >>= fun _ => pure work
      else
        resize work p.count >>= fun work' => ev work' >>= fun _ => f work' result >>= fun r =>
          lift (assertM dbg (.ok (decide (r.base = result.base)))) >>= fun _ => pure work') m := by
    intro m
    unfold convertValuesInto
    rw [run_lift hf.nnzFrom, run_lift (castSz_nat ..), run_lift hws]
  by_cases h1 : ws = 0 ∧ p.count ≤ result.len
  · right
    obtain ⟨rfl, hle⟩ := h1
    have hwl := hw0 rfl
    obtain ⟨r, m₂, hev⟩ : ∃ r m₂, ev ⟨result.base, p.count⟩ m = (r, m₂) := ⟨_, _, rfl⟩
    refine ⟨⟨result.base, p.count⟩, m, r, m₂, hev, rfl, ⟨lr.take p.count, ?_, fun i hi => ?_⟩, ?_, fun _ _ _ => rfl, ?_, ?_⟩
    · simp [hlr.1]; omega
    · dsimp only at hi ⊢
      rw [hlr.2 i (by omega), List.getElem?_take_of_lt hi]
    · rintro a ⟨h1, h2⟩
      dsimp only at h1 h2
      exact .inl ⟨h1, by omega⟩
    · rintro e rfl
      rw [step, if_pos ⟨rfl, hle⟩, run_err hev]
    · rintro rfl vals hvals ⟨l2, hl2⟩
      have hvl : vals.length = p.count := hvals.1
      obtain ⟨o, ho, o1, o2, o3, o4⟩ := hrun vals [] hvl rfl
      have hcnt : p.count = result.len := by
        cases hl : o.loc with
        | fromValues => have := (o1 hl).2.1; omega
        | work => have := o2 hl; omega
      have hvals' : Holds result vals m₂ := by
        have e : (⟨result.base, p.count⟩ : Span) = result := by rw [hcnt]
        rw [e] at hvals; exact hvals
      have hwk : Holds work [] m₂ := holds_empty hwl rfl
      have hd' : result.Disjoint work := fun a h1 h2 => hdis a h2 h1
      have R := href result work vals [] m₂ hd' hvals' hwk
      obtain ⟨x, m', hfm⟩ : ∃ x m', f result work m₂ = (x, m') := ⟨_, _, rfl⟩
      rw [hfm] at R
      obtain ⟨e1, e2⟩ := R.ok o ho
      dsimp only at e1 e2
      subst e1
      have hbase : dbg = true → (Ret result work o).base = result.base := by
        intro hd
        cases hl : o.loc with
        | fromValues => unfold Ret; rw [hl]
        | work =>
          have := o2 hl
          unfold Ret; rw [hl]; exact (hemp this.symm hd).symm
      refine ⟨work, m', ?_, .inl rfl, hdis, fun a _ => R.frame a (fun h => ?_), vals, ?_, ?_⟩
      · rw [step, if_pos ⟨rfl, hle⟩, run_ok hev, run_ok hfm]
        have : assertM dbg (.ok (decide ((Ret result work o).base = result.base))) = .ok () := by
          cases dbg with
          | false => rfl
          | true => exact assertM_dec (hbase rfl)
        rw [run_lift this]; rfl
      · obtain ⟨h1, h2⟩ := h; omega
      · exact hvals'.frame hd' R.frame
      · intro M hM
        have := o4 M hM
        cases hl : o.loc with
        | fromValues => unfold Out.values at this; rw [hl] at this; exact this
        | work =>
          have h0 := o2 hl
          have hv0 : vals = [] := List.eq_nil_of_length_eq_zero (by omega)
          have hov : o.values vals = [] := List.eq_nil_of_length_eq_zero (by omega)
          rw [hov] at this; rw [hv0]; exact this
  · rcases hrs work p.count m ⟨lw, hlw⟩ with ⟨e, he⟩ | ⟨w, m₁, hw, hwl, ⟨l1, hl1⟩, hfresh, hframe⟩
    · left
      refine ⟨e, he, ?_⟩
      rw [step, if_neg h1, run_err he]
    · right
      have hallo : ∀ a, result.Has a → m a ≠ none := by
        rintro a ⟨h1, h2⟩
        have h3 := hlr.2 (a - result.base).toNat (by omega)
        have ea : result.base + ((a - result.base).toNat : Int) = a := by omega
        rw [ea] at h3
        rw [h3, List.getElem?_eq_getElem (by rw [hlr.1]; omega)]
        simp
      have hd' : w.Disjoint result := by
        intro a h2 h3
        rcases hfresh a h2 with h | h
        · exact hdis a h h3
        · exact hallo a h3 h
      obtain ⟨r, m₂, hev⟩ : ∃ r m₂, ev w m₁ = (r, m₂) := ⟨_, _, rfl⟩
      refine ⟨w, m₁, r, m₂, hev, hwl, ⟨l1, hl1⟩, fun a ha => .inr (hfresh a ha), ?_, ?_, ?_⟩
      · intro a ha hna
        by_cases hwa : w.Has a
        · exact absurd ((hfresh a hwa).resolve_left hna) ha
        · exact hframe a hna hwa
      · rintro e rfl
        rw [step, if_neg h1, run_ok hw, run_err hev]
      · rintro rfl vals hvals ⟨l2, hl2⟩
        have hvl : vals.length = p.count := by rw [hvals.1, hwl]
        have hwc : ws = c.sparsity.count := by
          rcases hws0 with h0 | h0
          · obtain ⟨o, ho, o1, o2, o3, o4⟩ := hrun vals (List.replicate ws zero) hvl (by simp)
            cases hl : o.loc with
            | fromValues => have := (o1 hl).2.1; exact absurd ⟨h0, by omega⟩ h1
            | work => exact o2 hl
          · exact h0
        obtain ⟨o, ho, o1, o2, o3, o4⟩ := hrun vals l2 hvl (by rw [hl2.1, hlen, hwc])
        have hloc : o.loc = .work := by
          cases hl : o.loc with
          | fromValues => have := (o1 hl); exact absurd ⟨this.1, by omega⟩ h1
          | work => rfl
        have R := href w result vals l2 m₂ hd' hvals hl2
        obtain ⟨x, m', hfm⟩ : ∃ x m', f w result m₂ = (x, m') := ⟨_, _, rfl⟩
        rw [hfm] at R
        obtain ⟨e1, e2⟩ := R.ok o ho
        dsimp only at e1 e2
        have hret : Ret w result o = result := by unfold Ret; rw [hloc]
        rw [hret] at e1
        subst e1
        refine ⟨w, m', ?_, .inr rfl, hd', R.frame, o.work, e2, ?_⟩
        · rw [step, if_neg h1, run_ok hw, run_ok hev, run_ok hfm, run_lift (assertM_dec rfl)]; rfl
        · intro M hM
          have := o4 M hM
          unfold Out.values at this; rw [hloc] at this; exact this

/-- The address of an empty result matters: with assertions, `convert_values_into` fails for a matrix without elements if `result.data()` is not
the (null) pointer of the empty vector, although there is nothing to write. In a release build it succeeds. -/
theorem convert_values_into_empty (resize : Span → Nat → MM Int Span) (result work : Span) (hr : result.len = 0) (hw : work.len = 0)
    (m : Mem Int) (dbg : Bool) :
    ∃ c f, Sparsity.convert (0 : Int) someStd dbg (.csc .int .int ⟨0, 0, .unsymmetric, [], [0], .unsorted⟩) .dense = .ok c ∧
      convert (0 : Int) someStd dbg (.csc .int .int ⟨0, 0, .unsymmetric, [], [0], .unsorted⟩) .dense = .ok f ∧
      convertValuesInto dbg c.nnzFrom c.workSize f resize result (fun _ => pure ()) work m =
        if dbg = true ∧ work.base ≠ result.base then (.error .assertFail, m) else (.ok work, m) := by
  obtain ⟨rb, rl⟩ := result
  obtain ⟨wb, wl⟩ := work
  dsimp only at hr hw
  subst hr; subst hw
  cases dbg with
  | false => exact ⟨_, _, rfl, rfl, rfl⟩
  | true =>
    refine ⟨_, _, rfl, rfl, ?_⟩
    refine Eq.trans (b := ((lift (assertM true (.ok (decide (wb = rb)))) >>= fun _ => pure ⟨wb, 0⟩ : MM Int Span) m)) rfl ?_
    by_cases h : wb = rb
    · rw [if_neg (by simp [h]), run_lift (assertM_dec h)]; rfl
    · rw [if_pos ⟨rfl, h⟩, decide_eq_false h]; rfl

/-! ## `convert_values_copy` -/

/-- Copying a span into another one. -/
theorem copy_loop {r v : Span} {l : List T} {m : Mem T} (hd : r.Disjoint v) (hr : Holds r l m) {l₀ : List T} (hv : Holds v l₀ m)
    (hl : r.len = v.len) : ∃ m', forM 0 r.len (fun i _ => r.get i.toNat >>= fun x => v.put i.toNat x) () m = (.ok (), m') ∧
      Holds v l m' ∧ ∀ a, ¬ v.Has a → m' a = m a := by
  have R := refines_for (x := fun _ => ()) (w := id) hd
    (body := fun i (_ : Unit) => r.get i.toNat >>= fun x => v.put i.toNat x)
    (body' := fun i w => rd l i.toNat >>= fun x => wr w i.toNat x)
    (fun i y m hv hw => refines_get hw hv fun x => refines_put hw) 0 r.len l₀ m hr hv
  have hll : l₀.length = l.length := by rw [hv.1, hr.1, hl]
  obtain ⟨w, e1, e2⟩ := forRange_inv (body := fun (i : Int) w => rd l i.toNat >>= fun x => wr w i.toNat x) (lo := 0) (hi := r.len) (s := l₀)
    (fun (k : Int) (w : List T) => w.length = l.length ∧ ∀ j : Nat, w[j]? = if j < k.toNat then l[j]? else l₀[j]?)
    ⟨hll, by simp⟩
    (by
      rintro i w h0 hi ⟨hwl, hw⟩
      obtain ⟨k, rfl⟩ := Int.eq_ofNat_of_zero_le h0
      simp only [Int.toNat_natCast]
      have hk : k < l.length := by rw [hr.1]; omega
      refine ⟨w.set k l[k], ?_, by simp [hwl], ?_⟩
      · have : rd l k = .ok l[k] := by unfold rd; rw [List.getElem?_eq_getElem hk]
        rw [this, res_ok_bind]; unfold wr; rw [if_pos (by omega)]
      · intro j
        rw [List.getElem?_set]
        by_cases hj : k = j
        · subst hj
          rw [if_pos rfl, if_pos (by omega), if_pos (by omega), List.getElem?_eq_getElem hk]
        · rw [if_neg hj, hw j]
          simp only [Int.toNat_natCast]
          by_cases hc : j < k
          · rw [if_pos hc, if_pos (by omega)]
          · rw [if_neg hc, if_neg (by omega)])
  have hw : w = l := by
    apply List.ext_getElem?
    intro j
    rw [e2.2 j]
    by_cases hj : j < l.length
    · rw [if_pos (by have := hr.1; omega)]
    · rw [List.getElem?_eq_none (by omega)]
      split
      · rfl
      · rw [List.getElem?_eq_none (by omega)]
  subst hw
  obtain ⟨x, m', hfm⟩ : ∃ x m', forM 0 r.len (fun i _ => r.get i.toNat >>= fun x => v.put i.toNat x) () m = (x, m') := ⟨_, _, rfl⟩
  rw [hfm] at R
  obtain ⟨q1, q2⟩ := R.ok _ e1
  dsimp only at q1 q2
  subst q1
  exact ⟨m', hfm, q2, R.frame⟩

/-- **C13**, on memory, for every supported conversion of a valid matrix, every allocator and memory: `convert_values_copy` throws because there
is no memory, or returns a vector, in memory that was not in use, with the values of the converted matrix. Whatever was in memory is unchanged. -/
theorem convert_values_copy_memory (zero : T) (std : StdLib) (hstd : std.Ok) (dbg : Bool) (p : Pattern) (tgt : Target) (hv : p.Valid)
    (hs : Supported dbg p tgt) :
    ∃ c f, Sparsity.convert zero std dbg p tgt = .ok c ∧ convert zero std dbg p tgt = .ok f ∧
      ∀ (new : Nat → MM T Span) (fv : Span) (vals : List T) (m : Mem T), NewOk zero new → fv.len = p.count → Holds fv vals m →
        (∃ e m', convertValuesCopy c.workSize f new fv m = (.error e, m') ∧ (∃ n m₀, new n m₀ = (.error e, m₀)) ∧ ∀ a, m a ≠ none → m' a = m a) ∨
        ∃ v m', convertValuesCopy c.workSize f new fv m = (.ok v, m') ∧ (∀ a, v.Has a → m a = none) ∧ (∀ a, ¬ v.Has a → m' a = m a) ∧
          ∃ out, Holds v out m' ∧ out.length = c.sparsity.count ∧ ∀ M, p.Denotes zero vals M → c.sparsity.Denotes zero out M := by
  obtain ⟨c, hc, hf⟩ := convert_faithful zero std hstd dbg p tgt hv hs
  obtain ⟨f, hcm, href⟩ := (convert_refines zero std dbg p tgt).1 c hc
  obtain ⟨ws, hws, hws0, hrun⟩ := hf.work
  refine ⟨c, f, hc, hcm, ?_⟩
  intro new fv vals m hnew hlen hvals
  have hvl : vals.length = p.count := by rw [hvals.1, hlen]
  have halloc : ∀ a, fv.Has a → m a ≠ none := by
    rintro a ⟨h1, h2⟩
    have h3 := hvals.2 (a - fv.base).toNat (by omega)
    have ea : fv.base + ((a - fv.base).toNat : Int) = a := by omega
    rw [ea] at h3
    rw [h3, List.getElem?_eq_getElem (by rw [hvals.1]; omega)]
    simp
  unfold convertValuesCopy
  rw [run_lift hws]
  rcases hnew ws m with ⟨e, he⟩ | ⟨w, m₁, hw, hwl, hwh, hwb, hfr, hframe⟩
  · left
    exact ⟨e, m, run_err he, ⟨ws, m, he⟩, fun _ _ => rfl⟩
  · rw [run_ok hw]
    have hd : fv.Disjoint w := fun a h1 h2 => halloc a h1 (hfr a h2)
    have hv1 : Holds fv vals m₁ := hvals.frame hd hframe
    obtain ⟨o, ho, o1, o2, o3, o4⟩ := hrun vals (List.replicate ws zero) hvl (by simp)
    have R := href fv w vals _ m₁ hd hv1 hwh
    obtain ⟨x, m₂, hfm⟩ : ∃ x m₂, f fv w m₁ = (x, m₂) := ⟨_, _, rfl⟩
    rw [hfm] at R
    obtain ⟨e1, e2⟩ := R.ok o ho
    dsimp only at e1 e2
    subst e1
    have hv2 : Holds fv vals m₂ := hv1.frame hd R.frame
    rw [run_ok hfm]
    cases hl : o.loc with
    | work =>
      have hret : Ret fv w o = w := by unfold Ret; rw [hl]
      have hov : o.values vals = o.work := by unfold Out.values; rw [hl]
      rw [hov] at o3 o4
      rw [hret, if_neg (fun h => h rfl)]
      right
      exact ⟨w, m₂, rfl, hfr, fun a ha => (R.frame a ha).trans (hframe a ha), o.work, e2, o3, o4⟩
    | fromValues =>
      obtain ⟨h0, hcnt, _⟩ := o1 hl
      have hret : Ret fv w o = fv := by unfold Ret; rw [hl]
      have hov : o.values vals = vals := by unfold Out.values; rw [hl]
      rw [hov] at o3 o4
      have hw0 : ∀ a, ¬ w.Has a := by rintro a ⟨h1, h2⟩; omega
      have hm2 : ∀ a, m₂ a = m a := fun a => (R.frame a (hw0 a)).trans (hframe a (hw0 a))
      rw [hret]
      by_cases hb : fv.base ≠ w.base
      · rw [if_pos hb]
        rcases hnew fv.len m₂ with ⟨e, he⟩ | ⟨v, m₃, hn, hnl, hnh, _, hnf, hnframe⟩
        · left
          exact ⟨e, m₂, run_err he, ⟨_, _, he⟩, fun a _ => hm2 a⟩
        · right
          rw [run_ok hn]
          have hd2 : fv.Disjoint v := fun a h1 h2 => halloc a h1 ((hm2 a).symm.trans (hnf a h2))
          obtain ⟨m₄, hcp, hh, hfr4⟩ := copy_loop hd2 (hv2.frame hd2 hnframe) hnh hnl.symm
          rw [run_ok hcp]
          have hfree : (free w : MM T Unit) m₄ = (.ok (), m₄) := by
            unfold free
            congr 1
            funext a
            exact if_neg (hw0 a)
          rw [run_ok hfree]
          refine ⟨v, m₄, rfl, fun a ha => (hm2 a).symm.trans (hnf a ha), fun a ha => ?_, vals, hh, o3, o4⟩
          rw [hfr4 a ha, hnframe a ha, hm2 a]
      · rw [if_neg hb]
        have hb : fv.base = w.base := Classical.not_not.1 hb
        have hz : fv.len = 0 := by
          rcases Nat.eq_zero_or_pos fv.len with h | h
          · exact h
          · exact absurd hwb (hb ▸ halloc fv.base ⟨Int.le_refl _, by omega⟩)
        right
        exact ⟨w, m₂, rfl, hfr, fun a _ => hm2 a, vals, holds_empty (by omega) (by omega), o3, o4⟩

/-! ## Examples -/

/-- An allocator with storage at address 500 that never reuses the old storage. -/
def someNew : Nat → MM Int Span := fun n m =>
  if (∀ i ∈ List.range n, m (500 + (i : Int)) = none) ∧ m 500 = none then (.ok ⟨500, n⟩, fun (a : Int) => if 500 ≤ a ∧ a < 500 + n then some 0 else m a)
  else (.error (.throw .badAlloc), m)

theorem someNew_cases (n : Nat) (m : Mem Int) : someNew n m = (.error (.throw .badAlloc), m) ∨
    someNew n m = ((.ok ⟨500, n⟩ : Res Span), fun (a : Int) => if 500 ≤ a ∧ a < 500 + n then some 0 else m a) ∧ m 500 = none ∧
      ∀ a, (⟨500, n⟩ : Span).Has a → m a = none := by
  unfold someNew
  by_cases h : (∀ i ∈ List.range n, m (500 + (i : Int)) = none) ∧ m 500 = none
  · rw [if_pos h]
    refine .inr ⟨rfl, h.2, ?_⟩
    rintro a ⟨h1, h2⟩
    dsimp only at h1 h2
    have := h.1 (a - 500).toNat (List.mem_range.2 (by omega))
    have e : 500 + ((a - 500).toNat : Int) = a := by omega
    rwa [e] at this
  · rw [if_neg h]; exact .inl rfl

/-- The assumptions about vectors can be met. -/
theorem someNew_ok : NewOk 0 someNew := by
  intro n m
  rcases someNew_cases n m with h | ⟨h, h0, hf⟩
  · exact .inl ⟨_, h⟩
  · refine .inr ⟨_, _, h, rfl, ⟨by simp, fun i hi => ?_⟩, h0, hf, fun a ha => if_neg ha⟩
    dsimp only at hi ⊢
    rw [if_pos ⟨by omega, by omega⟩, List.getElem?_replicate, if_pos hi]

/-- `resize` with that allocator. -/
def someResize : Span → Nat → MM Int Span := fun v n m => if v.len = n then (.ok v, m) else
  match someNew n m with
  | (.ok w, m') => (.ok w, fun a => if v.base ≤ a ∧ a < v.base + v.len ∧ ¬ (w.base ≤ a ∧ a < w.base + w.len) then none else m' a)
  | (.error e, _) => (.error e, m)

/-- `evaluator` that writes 10, 20, … and counts its calls at address 50. -/
def someEval : Span → MM Int Unit := fun sp =>
  forM 0 sp.len (fun i _ => sp.put i.toNat (10 * (i + 1))) () >>= fun _ => (⟨50, 1⟩ : Span).get 0 >>= fun k => (⟨50, 1⟩ : Span).put 0 (k + 1)

/-- Memory with nine elements at 100 for the result and the counter of `someEval`. -/
def someMem : Mem Int := fun a => if a = 50 then some 0 else if 100 ≤ a ∧ a < 109 then some 7 else none

/-- `convert_values_into`, from CSC to dense: the vector, the result and the number of calls of the evaluator. -/
example : ∃ c f, Sparsity.convert (0 : Int) someStd true (.csc .int .int exampleCsc) .dense = .ok c ∧
    convert (0 : Int) someStd true (.csc .int .int exampleCsc) .dense = .ok f ∧
    (convertValuesInto true c.nnzFrom c.workSize f someResize ⟨100, 9⟩ someEval ⟨0, 0⟩ someMem).1 = .ok ⟨500, 3⟩ ∧
    (List.range 9).map (fun k : Nat => (convertValuesInto true c.nnzFrom c.workSize f someResize ⟨100, 9⟩ someEval ⟨0, 0⟩ someMem).2 (100 + k))
      = [some 10, some 0, some 30, some 0, some 0, some 0, some 30, some 0, some 20] ∧
    (convertValuesInto true c.nnzFrom c.workSize f someResize ⟨100, 9⟩ someEval ⟨0, 0⟩ someMem).2 50 = some 1 :=
  ⟨_, _, rfl, rfl, by decide +kernel, by decide +kernel, by decide +kernel⟩

/-- `convert_values_copy`, from dense to dense: a new vector. -/
example : ∃ c f, Sparsity.convert (0 : Int) someStd true (.dense ⟨2, 1, .unsymmetric⟩) .dense = .ok c ∧
    convert (0 : Int) someStd true (.dense ⟨2, 1, .unsymmetric⟩) .dense = .ok f ∧
    (convertValuesCopy c.workSize f someNew ⟨100, 2⟩ (memOf [4, 5])).1 = .ok ⟨500, 2⟩ ∧
    (List.range 2).map (fun k : Nat => (convertValuesCopy c.workSize f someNew ⟨100, 2⟩ (memOf [4, 5])).2 (500 + k)) = [some 4, some 5] :=
  ⟨_, _, rfl, rfl, by decide +kernel, by decide +kernel⟩

theorem someResize_ok : ResizeOk someResize := by
  intro v n m ⟨l, hl⟩
  unfold someResize
  by_cases hn : v.len = n
  · rw [if_pos hn]
    exact .inr ⟨v, m, rfl, hn, ⟨l, hl⟩, fun a ha => .inl ha, fun _ _ _ => rfl⟩
  · rw [if_neg hn]
    rcases someNew_cases n m with h | ⟨h, h0, hf⟩
    · rw [h]; exact .inl ⟨_, rfl⟩
    · rw [h]
      refine .inr ⟨_, _, rfl, rfl, ⟨List.replicate n 0, by simp, fun i hi => ?_⟩, fun a ha => .inr (hf a ha), fun a h1 h2 => ?_⟩
      · dsimp only at hi ⊢
        rw [if_neg (by omega), if_pos ⟨by omega, by omega⟩, List.getElem?_replicate, if_pos hi]
      · dsimp only
        rw [if_neg (fun h => h1 ⟨h.1, h.2.1⟩)]
        exact if_neg h2

end Guanaqo.Sparsity.Memory
