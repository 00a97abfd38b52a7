import Verif.Csv.FaultsVector

/-!
# C118: without input errors, what C40 specifies is stored

The converse of `csv_read_stores`: whenever the values of C40 exist and no error occurs, the functions that store into memory return.
-/

namespace Guanaqo.Csv

open MatView

variable {F : Type}

theorem readsF_of_readN (single : Parser F) (eager dbg : Bool) (sep : Char) : ∀ {n : Nat} {rd rd' : Reader} {is is' : IStream} {vs : List F},
    readNBy single eager dbg sep n rd is = .ok (vs, rd', is') → readsF single eager dbg sep n rd (lift is) = (vs, .ok (rd', lift is'))
  | 0, _, _, _, _, _, h => by cases h; rfl
  | n + 1, rd, rd', is, is', vs, h => by
    simp only [readNBy] at h
    obtain ⟨⟨v, rd1, is1⟩, h1, h⟩ := res_bind_ok.1 h
    obtain ⟨⟨ws, rd2, is2⟩, h2, h⟩ := res_bind_ok.1 h
    cases h
    simp only [readsF, readF_lift, h1, res_ok_bind]
    rw [readsF_of_readN single eager dbg sep h2]

theorem rowF_of_readRow (single : Parser F) (eager dbg : Bool) (sep : Char) {n : Nat} {rd rd' : Reader} {is is' : IStream} {vs : List F}
    (h : readRowWithBy single eager dbg sep n rd is = .ok (vs, rd', is')) : rowF single eager dbg sep n rd (lift is) = (vs, .ok (rd', lift is')) := by
  unfold readRowWithBy at h
  obtain ⟨⟨rd1, is1⟩, h1, h⟩ := res_bind_ok.1 h
  obtain ⟨⟨ws, rd2, is2⟩, h2, h⟩ := res_bind_ok.1 h
  obtain ⟨is3, h3, h⟩ := res_bind_ok.1 h
  cases h
  unfold rowF
  rw [skipCommentsF_lift, h1]
  simp only [up, res_ok_bind]
  rw [readsF_of_readN single eager dbg sep h2]
  simp only [endRow, nextLineF_lift, h3, res_ok_bind]

theorem rowsF_of_readRows (single : Parser F) (eager dbg : Bool) (sep : Char) (cols : Nat) : ∀ {n : Nat} {rd : Reader} {is is' : IStream} {vss : List (List F)},
    readRowsBy single eager dbg sep cols n rd is = .ok (vss, is') → rowsF single eager dbg sep cols n rd (lift is) = (vss.flatten, .ok (lift is'))
  | 0, _, _, _, _, h => by cases h; rfl
  | n + 1, rd, is, is', vss, h => by
    simp only [readRowsBy] at h
    obtain ⟨⟨vs, rd1, is1⟩, h1, h⟩ := res_bind_ok.1 h
    obtain ⟨⟨wss, is2⟩, h2, h⟩ := res_bind_ok.1 h
    cases h
    simp only [rowsF]
    rw [rowF_of_readRow single eager dbg sep h1]
    dsimp only
    rw [rowsF_of_readRows single eager dbg sep cols h2]
    rfl

/-- C118. If the text has the rows (C40) and no error occurs, `csv_read` returns, the view holds the rows, and no other memory has changed. -/
theorem csv_read_returns (single : Parser F) (eager dbg : Bool) (sep : Char) (v : View) (m : Mem F) (hi : v.Injective) (hb : v.Backed m)
    {is is' : IStream} {vss : List (List F)} (h : csvReadBy single eager dbg sep v.rows.toNat v.cols.toNat is = .ok (vss, is')) :
    ∃ m', csvReadInto single eager dbg sep v (lift is) m = (m', .ok (lift is')) ∧ Stored v vss.flatten m m' := by
  obtain ⟨h1, h2⟩ := csvReadInto_values single eager dbg sep v (lift is) m hi hb
  rw [rowsF_of_readRows single eager dbg sep _ h] at h1 h2
  exact ⟨_, Prod.ext rfl h1, h2⟩

/-- C118. The same for `csv_read_row`. -/
theorem csv_row_returns (single : Parser F) (eager dbg : Bool) (sep : Char) (data : Int) (n : Nat) (m : Mem F)
    (hb : ∀ k < n, ∃ x, m (data + (k : Nat)) = some x) {is is' : IStream} {vs : List F} (h : csvReadRowBy single eager dbg sep n is = .ok (vs, is')) :
    ∃ m', csvReadRowInto single eager dbg sep data n (lift is) m = (m', .ok (lift is')) ∧ vs.length = n ∧
      (∀ (k : Nat) (h : k < vs.length), m' (data + k) = some vs[k]) ∧ ∀ a, (∀ k < n, a ≠ data + (k : Nat)) → m' a = m a := by
  have hp : Places (fun k => data + (k : Nat)) n m := ⟨fun i _ j _ e => by omega, hb⟩
  unfold csvReadRowBy at h
  obtain ⟨⟨ws, rd', is1⟩, h1, h⟩ := res_bind_ok.1 h
  cases h
  have hr := rowF_of_readRow single eager dbg sep h1
  obtain ⟨k1, k2⟩ := rowInto_eq single eager dbg sep (addr := fun k => data + (k : Nat)) (target := fun i => .ok (data + (i : Nat))) 0 n {} (lift is) m
    hp (by omega) (fun j _ => by rw [Nat.zero_add])
  have hl := (rowF_length single eager dbg sep n {} (lift is)).2 _ (by rw [hr])
  rw [hr] at k1 k2 hl
  unfold csvReadRowInto
  rcases hx : rowInto single eager dbg sep (fun i => .ok (data + (i : Nat))) n {} (lift is) m with ⟨m', x⟩
  rw [hx] at k1 k2
  dsimp only at k1
  subst k1
  refine ⟨m', rfl, hl, fun k hk => ?_, fun a ha => ?_⟩
  · have := k2.1 k hk
    simpa only [Nat.zero_add] using this
  · refine k2.2 a fun j hj => ?_
    rw [Nat.zero_add]
    refine ha j ?_
    dsimp only at hl hj
    omega

/-- C119. Without errors `csv_read_row_std_vector` is that of C40. -/
theorem csv_vector_returns (single : Parser F) (eager dbg : Bool) (sep : Char) {is is' : IStream} {vs : List F}
    (h : csvReadRowVectorBy single eager dbg sep is = .ok (vs, is')) : csvReadRowVectorF single eager dbg sep (lift is) = .ok (vs, lift is') := by
  unfold csvReadRowVectorBy at h
  obtain ⟨⟨rd1, is1⟩, h1, h⟩ := res_bind_ok.1 h
  obtain ⟨⟨ws, rd2, is2⟩, h2, h⟩ := res_bind_ok.1 h
  obtain ⟨is3, h3, h⟩ := res_bind_ok.1 h
  cases h
  unfold csvReadRowVectorF
  rw [skipCommentsF_lift, h1]
  simp only [up, res_ok_bind]
  rw [show (lift is1).is = is1 from rfl, readAllF_lift, h2]
  simp only [res_ok_bind]
  rw [nextLineF_lift, h3]
  rfl

/-- Rows followed by more text, in both configurations. -/
example : let v : View := { data := 10, rows := 2, cols := 2, inner := 1, outer := 3 }
    csvReadBy (readSingle (fromCharsInt 32)) true true ',' v.rows.toNat v.cols.toNat { rest := "#x\n1,2\n3,4\n9".toList } =
      .ok ([[1, 2], [3, 4]], { rest := ['9'] }) ∧
    csvReadBy (strtolSingle .int) true true ',' v.rows.toNat v.cols.toNat { rest := "#x\n1,2\n3,4\n9".toList } =
      .ok ([[1, 2], [3, 4]], { rest := ['9'] }) := by
  exact ⟨rfl, rfl⟩

/-! ## The two configurations -/

/-- With `std::from_chars` (csv.tpp:84-96) the rows are those of `csvRead` (C40). -/
theorem csv_read_returns_std (fc : Parser F) (eager dbg : Bool) (sep : Char) (v : View) (m : Mem F) (hi : v.Injective) (hb : v.Backed m)
    {is is' : IStream} {vss : List (List F)} (h : csvRead fc eager dbg sep v.rows.toNat v.cols.toNat is = .ok (vss, is')) :
    ∃ m', csvReadInto (readSingle fc) eager dbg sep v (lift is) m = (m', .ok (lift is')) ∧ Stored v vss.flatten m m' :=
  csv_read_returns (readSingle fc) eager dbg sep v m hi hb (by rw [csvReadBy_std]; exact h)

end Guanaqo.Csv
