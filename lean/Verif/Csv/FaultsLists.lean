import Verif.Csv.FaultsLemmas

/-!
# Input errors while reading CSV: the values that are stored (C118, C119)
-/

namespace Guanaqo.Csv

variable {F : Type}

/-! ### One number -/

theorem fillF_sim (eager dbg : Bool) (rd : Reader) {s : FStream} (h : s.hit = false) : SimR (fillF eager dbg rd s) (fillF eager dbg rd s.calm) := by
  unfold fillF
  split
  · exact readChunkF_sim eager dbg rd h
  · exact .inl ⟨h, rfl⟩

/-- The parsing part of `read` (csv.tpp:31-45). -/
def parseF (single : Parser F) (sep : Char) (rd : Reader) (s : FStream) : Res (F × Reader × FStream) :=
  match single rd.buf with
  | none => throwCsv
  | some (v, []) => .ok (v, { rd with buf := [] }, s)
  | some (v, c :: tail) => if c ≠ sep then throwCsv else .ok (v, { rd with buf := tail }, s)

theorem readF_eq (single : Parser F) (eager dbg : Bool) (sep : Char) (rd : Reader) (s : FStream) :
    readF single eager dbg sep rd s = fillF eager dbg rd s >>= fun p => parseF single sep p.1 p.2 := rfl

/-- Parsing depends on the buffer only. -/
theorem parseF_cases (single : Parser F) (sep : Char) (buf : List Char) :
    (∀ keep s, parseF single sep ⟨buf, keep⟩ s = .error csvErr) ∨
    (∃ v buf', ∀ keep s, parseF single sep ⟨buf, keep⟩ s = .ok (v, ⟨buf', keep⟩, s)) := by
  unfold parseF
  dsimp only
  cases h : single buf with
  | none => exact .inl fun _ _ => rfl
  | some p =>
    obtain ⟨v, t⟩ := p
    cases t with
    | nil => exact .inr ⟨v, [], fun _ _ => rfl⟩
    | cons c tail =>
      by_cases hc : c ≠ sep
      · exact .inl fun _ _ => if_pos hc
      · exact .inr ⟨v, tail, fun _ _ => if_neg hc⟩

/-- A number is read as without errors; or it is, and the stream is broken after it; or the reader throws. -/
def SimV (x y : Res (F × Reader × FStream)) : Prop :=
  match x with
  | .ok (v, rd, s) => (s.hit = false ∧ y = .ok (v, rd, s.calm)) ∨ (Broken s ∧ rd.keep = true ∧ ∃ rd' s', y = .ok (v, rd', s'))
  | .error e => e = csvErr

theorem readF_sim (single : Parser F) (eager dbg : Bool) (sep : Char) (rd : Reader) {s : FStream} (h : s.hit = false) :
    SimV (readF single eager dbg sep rd s) (readF single eager dbg sep rd s.calm) := by
  rw [readF_eq, readF_eq]
  have hs := fillF_sim eager dbg rd h
  cases hf : fillF eager dbg rd s with
  | error e => rw [hf] at hs; exact hs
  | ok p =>
    obtain ⟨rd1, s1⟩ := p
    rw [hf] at hs
    rcases hs with ⟨g1, g2⟩ | ⟨g1, g2, rd2, s2, g3, g4⟩
    · rw [g2]
      simp only [res_ok_bind]
      rcases parseF_cases single sep rd1.buf with h1 | ⟨v, b, h1⟩
      · rw [h1 rd1.keep s1]; rfl
      · rw [h1 rd1.keep s1, h1 rd1.keep s1.calm]; exact .inl ⟨g1, rfl⟩
    · rw [g3]
      simp only [res_ok_bind]
      rcases parseF_cases single sep rd1.buf with h1 | ⟨v, b, h1⟩
      · rw [h1 rd1.keep s1]; rfl
      · have h2 : parseF single sep rd2 s2 = .ok (v, ⟨b, rd2.keep⟩, s2) := by have := h1 rd2.keep s2; rw [← g4] at this; exact this
        rw [h1 rd1.keep s1, h2]
        exact .inr ⟨g1, g2, _, _, rfl⟩

theorem readF_broken (single : Parser F) (eager dbg : Bool) (sep : Char) {rd : Reader} {s : FStream} (h : Broken s) (hk : rd.keep = true) :
    readF single eager dbg sep rd s = .error csvErr := by
  rw [readF_eq, fillF, if_pos hk, readChunkF_broken _ _ _ h]; rfl

/-! ### Values, as lists -/

/-- The values read, also before an exception. -/
def readsF (single : Parser F) (eager dbg : Bool) (sep : Char) : Nat → Reader → FStream → List F × Res (Reader × FStream)
  | 0, rd, s => ([], .ok (rd, s))
  | n + 1, rd, s =>
    match readF single eager dbg sep rd s with
    | .error e => ([], .error e)
    | .ok (v, rd, s) => (v :: (readsF single eager dbg sep n rd s).1, (readsF single eager dbg sep n rd s).2)

def endRow (vs : List F) (rd : Reader) (s : FStream) : List F × Res (Reader × FStream) :=
  match nextLineF rd s with
  | .error e => (vs, .error e)
  | .ok s => (vs, .ok (rd, s))

def rowF (single : Parser F) (eager dbg : Bool) (sep : Char) (n : Nat) (rd : Reader) (s : FStream) : List F × Res (Reader × FStream) :=
  match skipCommentsF eager dbg rd s with
  | .error e => ([], .error e)
  | .ok (rd, s) =>
    match readsF single eager dbg sep n rd s with
    | (vs, .error e) => (vs, .error e)
    | (vs, .ok (rd, s)) => endRow vs rd s

def rowsF (single : Parser F) (eager dbg : Bool) (sep : Char) (cols : Nat) : Nat → Reader → FStream → List F × Res FStream
  | 0, _, s => ([], .ok s)
  | n + 1, rd, s =>
    match rowF single eager dbg sep cols rd s with
    | (vs, .error e) => (vs, .error e)
    | (vs, .ok (rd, s)) => (vs ++ (rowsF single eager dbg sep cols n rd s).1, (rowsF single eager dbg sep cols n rd s).2)

/-- The values are those read without errors, or the first of them. -/
def SimVs {A : Type} (p q : List F × Res (A × FStream)) : Prop :=
  match p.2 with
  | .ok (a, s) => (s.hit = false ∧ p.1 = q.1 ∧ q.2 = .ok (a, s.calm)) ∨ (Broken s ∧ p.1 <+: q.1)
  | .error e => e = csvErr ∧ p.1 <+: q.1

theorem readsF_broken (single : Parser F) (eager dbg : Bool) (sep : Char) (n : Nat) {rd : Reader} {s : FStream} (h : Broken s) (hk : rd.keep = true) :
    readsF single eager dbg sep n rd s = ([], .ok (rd, s)) ∨ readsF single eager dbg sep n rd s = ([], .error csvErr) := by
  cases n with
  | zero => exact .inl rfl
  | succ n => right; simp only [readsF, readF_broken single eager dbg sep h hk]

theorem readsF_sim (single : Parser F) (eager dbg : Bool) (sep : Char) : ∀ (n : Nat) (rd : Reader) (s : FStream), s.hit = false →
    SimVs (readsF single eager dbg sep n rd s) (readsF single eager dbg sep n rd s.calm)
  | 0, rd, s, h => .inl ⟨h, rfl, rfl⟩
  | n + 1, rd, s, h => by
    have hs := readF_sim single eager dbg sep rd h
    simp only [readsF]
    cases hr : readF single eager dbg sep rd s with
    | error e => rw [hr] at hs; exact ⟨hs, List.nil_prefix⟩
    | ok p =>
      obtain ⟨v, rd1, s1⟩ := p
      rw [hr] at hs
      rcases hs with ⟨g1, g2⟩ | ⟨g1, g2, rd2, s2, g3⟩
      · rw [g2]
        dsimp only
        have ih := readsF_sim single eager dbg sep n rd1 s1 g1
        revert ih
        generalize readsF single eager dbg sep n rd1 s1 = p1
        generalize readsF single eager dbg sep n rd1 s1.calm = q1
        obtain ⟨vs, x⟩ := p1
        cases x with
        | error e => exact fun ih => ⟨ih.1, List.cons_prefix_cons.2 ⟨rfl, ih.2⟩⟩
        | ok x =>
          rintro (⟨h1, h2, h3⟩ | ⟨h1, h2⟩)
          · refine .inl ⟨h1, ?_, h3⟩
            dsimp only at h2 ⊢
            rw [h2]
          · exact .inr ⟨h1, List.cons_prefix_cons.2 ⟨rfl, h2⟩⟩
      · rw [g3]
        dsimp only
        rcases readsF_broken single eager dbg sep n g1 g2 with e | e
        · rw [e]; exact .inr ⟨g1, List.cons_prefix_cons.2 ⟨rfl, List.nil_prefix⟩⟩
        · rw [e]; exact ⟨rfl, List.cons_prefix_cons.2 ⟨rfl, List.nil_prefix⟩⟩

/-- A row is read as without errors, or the reader throws. -/
def SimRow (p q : List F × Res (Reader × FStream)) : Prop :=
  match p.2 with
  | .ok (rd, s) => s.hit = false ∧ p.1 = q.1 ∧ q.2 = .ok (rd, s.calm) ∧ rd.buf = []
  | .error e => e = csvErr ∧ p.1 <+: q.1

theorem nextLineF_buf {rd : Reader} {s s' : FStream} (h : nextLineF rd s = .ok s') : rd.buf = [] := by
  unfold nextLineF at h
  split at h
  · cases h
  · next h0 => exact List.eq_nil_of_length_eq_zero (by omega)

theorem endRow_fst (vs : List F) (rd : Reader) (s : FStream) : (endRow vs rd s).1 = vs := by
  unfold endRow; split <;> rfl

theorem endRow_sim (vs : List F) (rd : Reader) {s : FStream} (h : s.hit = false) : SimRow (endRow vs rd s) (endRow vs rd s.calm) := by
  have hs := nextLineF_sim rd h
  cases hn : nextLineF rd s with
  | error e =>
    rw [hn] at hs
    unfold SimRow
    rw [endRow_fst, endRow_fst]
    simp only [endRow, hn]
    exact ⟨hs, List.prefix_refl _⟩
  | ok s' =>
    rw [hn] at hs
    unfold SimRow
    simp only [endRow, hn, hs.2]
    exact ⟨hs.1, trivial, trivial, nextLineF_buf hn⟩

theorem rowF_sim (single : Parser F) (eager dbg : Bool) (sep : Char) (n : Nat) {rd : Reader} {s : FStream} (h : s.hit = false) (hb : rd.buf = []) :
    SimRow (rowF single eager dbg sep n rd s) (rowF single eager dbg sep n rd s.calm) := by
  have hs := skipCommentsF_sim eager dbg h hb
  unfold rowF
  cases hr : skipCommentsF eager dbg rd s with
  | error e => rw [hr] at hs; exact ⟨hs, List.nil_prefix⟩
  | ok p =>
    obtain ⟨rd1, s1⟩ := p
    rw [hr] at hs
    rcases hs with ⟨g1, g2⟩ | ⟨g1, g2, -⟩
    · rw [g2]
      dsimp only
      have h2 := readsF_sim single eager dbg sep n rd1 s1 g1
      revert h2
      generalize readsF single eager dbg sep n rd1 s1 = p1
      generalize readsF single eager dbg sep n rd1 s1.calm = q1
      obtain ⟨vs, x⟩ := p1
      have hq : ∀ q : List F × Res (Reader × FStream),
          (match q with
            | (vs, .error e) => (vs, .error e)
            | (vs, .ok (rd, s)) => endRow vs rd s : List F × Res (Reader × FStream)).1 = q.1 := by
        rintro ⟨vs, e | ⟨rd, s⟩⟩
        · rfl
        · exact endRow_fst _ _ _
      cases x with
      | error e =>
        intro h2
        refine ⟨h2.1, ?_⟩
        rw [hq q1]
        exact h2.2
      | ok x =>
        obtain ⟨rd2, s2⟩ := x
        rintro (⟨h1, h2, h3⟩ | ⟨h1, h2⟩)
        · obtain ⟨ws, y⟩ := q1
          dsimp only at h2 h3 ⊢
          subst h2 h3
          exact endRow_sim vs rd2 h1
        · dsimp only at h2 ⊢
          simp only [endRow, nextLineF_broken rd2 h1]
          refine ⟨rfl, ?_⟩
          have := hq q1
          dsimp only [endRow] at this
          rw [this]
          exact h2
    · dsimp only
      rcases readsF_broken single eager dbg sep n g1 g2 with e | e
      · rw [e]
        simp only [endRow, nextLineF_broken rd1 g1]
        exact ⟨rfl, List.nil_prefix⟩
      · rw [e]
        exact ⟨rfl, List.nil_prefix⟩

/-- A matrix is read as without errors, or the reader throws. -/
def SimRows (p q : List F × Res FStream) : Prop :=
  match p.2 with
  | .ok s => s.hit = false ∧ p.1 = q.1 ∧ q.2 = .ok s.calm
  | .error e => e = csvErr ∧ p.1 <+: q.1

theorem rowsF_sim (single : Parser F) (eager dbg : Bool) (sep : Char) (cols : Nat) : ∀ (n : Nat) (rd : Reader) (s : FStream), s.hit = false → rd.buf = [] →
    SimRows (rowsF single eager dbg sep cols n rd s) (rowsF single eager dbg sep cols n rd s.calm)
  | 0, rd, s, h, _ => ⟨h, rfl, rfl⟩
  | n + 1, rd, s, h, hb => by
    have hs := rowF_sim single eager dbg sep cols h hb
    simp only [rowsF]
    revert hs
    generalize rowF single eager dbg sep cols rd s = p1
    generalize rowF single eager dbg sep cols rd s.calm = q1
    obtain ⟨vs, x⟩ := p1
    cases x with
    | error e =>
      rintro ⟨h1, h2⟩
      refine ⟨h1, ?_⟩
      obtain ⟨ws, y⟩ := q1
      cases y with
      | error e' => exact h2
      | ok y => exact List.IsPrefix.trans h2 (List.prefix_append _ _)
    | ok x =>
      obtain ⟨rd1, s1⟩ := x
      rintro ⟨h1, h2, h3, h4⟩
      obtain ⟨ws, y⟩ := q1
      dsimp only at h2 h3 ⊢
      subst h2 h3
      dsimp only
      have ih := rowsF_sim single eager dbg sep cols n rd1 s1 h1 h4
      revert ih
      generalize rowsF single eager dbg sep cols n rd1 s1 = p2
      generalize rowsF single eager dbg sep cols n rd1 s1.calm = q2
      obtain ⟨vs2, x2⟩ := p2
      cases x2 with
      | error e =>
        rintro ⟨i1, i2⟩
        exact ⟨i1, List.prefix_append_right_inj _ |>.2 i2⟩
      | ok x2 =>
        rintro ⟨i1, i2, i3⟩
        refine ⟨i1, ?_, i3⟩
        dsimp only at i2 ⊢
        rw [i2]

end Guanaqo.Csv
