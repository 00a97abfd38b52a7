import Verif.Csv.FaultsLists
import Verif.Csv.Spec
import Verif.Csv.Fallback
import Verif.MatView.Spec

/-!
# Reading CSV into memory, and input errors (C118, C119)
-/

namespace Guanaqo.Csv

open Guanaqo.MatView (View)

variable {F : Type}

/-! ### Without errors: the functions of `Csv/Model` -/

/-- A stream whose buffer does not fail. -/
def lift (is : IStream) : FStream := { is := is, plan := [], hit := false }

theorem calm_eq (s : FStream) : s.calm = lift s.is := rfl

theorem getBuf_lift (eager : Bool) (is : IStream) (n : Nat) : (lift is).getBuf eager n = ((is.getBuf eager n).1, lift (is.getBuf eager n).2) := by
  unfold FStream.getBuf
  by_cases h : is.good = true <;> simp [lift, h, FStream.next, FStream.went]

theorem peek_lift (is : IStream) : (lift is).peek = (is.peek.1, lift is.peek.2) := by
  unfold FStream.peek
  by_cases h : is.good = true <;> simp [lift, h, FStream.next, FStream.went]

theorem get_lift (is : IStream) : (lift is).get = (is.get.1, lift is.get.2) := by
  unfold FStream.get
  by_cases h : is.good = true <;> simp [lift, h, FStream.next, FStream.went]

/-- The result with the stream lifted. -/
def up {A : Type} (x : Res (A × IStream)) : Res (A × FStream) := x >>= fun p => .ok (p.1, lift p.2)

theorem readChunkF_lift (eager dbg : Bool) (rd : Reader) (is : IStream) : readChunkF eager dbg rd (lift is) = up (readChunk eager dbg rd is) := by
  unfold readChunkF readChunk
  rw [getBuf_lift]
  have h : (lift is).is = is := rfl
  rw [h]
  dsimp only
  rw [peek_lift]
  by_cases h1 : is.fail = true
  · rw [if_pos h1, if_pos h1]; rfl
  · rw [if_neg h1, if_neg h1]
    by_cases h2 : rd.buf.length = bufmaxsize
    · rw [if_pos h2, if_pos h2]; rfl
    · rw [if_neg h2, if_neg h2]
      by_cases h3 : (is.getBuf eager (bufmaxsize - rd.buf.length)).2.fail = true
      · rw [if_pos h3, if_pos (show (lift _).is.fail = true from h3)]; rfl
      · rw [if_neg h3, if_neg (show ¬ (lift _).is.fail = true from h3)]
        dsimp only
        split <;> rfl

theorem nextLineF_lift (rd : Reader) (is : IStream) : nextLineF rd (lift is) = nextLine rd is >>= fun is => .ok (lift is) := by
  unfold nextLineF nextLine
  rw [get_lift]
  have h : (lift is).is = is := rfl
  rw [h]
  by_cases h1 : 0 < rd.buf.length
  · rw [if_pos h1, if_pos h1]; rfl
  · rw [if_neg h1, if_neg h1]
    by_cases h2 : is.eof = true
    · rw [if_pos h2, if_pos h2]; rfl
    · rw [if_neg h2, if_neg h2]
      dsimp only
      split <;> rfl

theorem skipRestF_lift (eager dbg : Bool) : ∀ (n : Nat) (rd : Reader) (is : IStream), skipRestF eager dbg n rd (lift is) = up (skipRest eager dbg n rd is)
  | 0, _, _ => rfl
  | n + 1, rd, is => by
    simp only [skipRestF, skipRest]
    by_cases h : rd.keep = true
    · rw [if_pos h, if_pos h, readChunkF_lift]
      cases hr : readChunk eager dbg { rd with buf := [] } is with
      | error e => rfl
      | ok p => exact skipRestF_lift eager dbg n p.1 p.2
    · rw [if_neg h, if_neg h]; rfl

theorem skipLoopF_lift (eager dbg : Bool) : ∀ (n : Nat) (rd : Reader) (is : IStream), skipLoopF eager dbg n rd (lift is) = up (skipLoop eager dbg n rd is)
  | 0, _, _ => rfl
  | n + 1, rd, is => by
    simp only [skipLoopF, skipLoop]
    have h : (lift is).is = is := rfl
    rw [h, readChunkF_lift]
    by_cases h1 : is.eof = true
    · rw [if_pos h1, if_pos h1]; rfl
    · rw [if_neg h1, if_neg h1]
      cases hr : readChunk eager dbg rd is with
      | error e => rfl
      | ok p =>
        obtain ⟨rd1, is1⟩ := p
        simp only [up, res_ok_bind]
        have key : (∃ t, rd1.buf = '#' :: t) ∨ ∀ t, rd1.buf ≠ '#' :: t := by
          by_cases hk : ∃ t, rd1.buf = '#' :: t
          · exact .inl hk
          · exact .inr fun t ht => hk ⟨t, ht⟩
        rcases key with ⟨t, ht⟩ | ht
        · simp only [ht]
          have h2 : (lift is1).is = is1 := rfl
          rw [h2, skipRestF_lift]
          cases hr2 : skipRest eager dbg (is1.rest.length + 1) rd1 is1 with
          | error e => rfl
          | ok p2 =>
            obtain ⟨rd2, is2⟩ := p2
            simp only [up, res_ok_bind, nextLineF_lift]
            cases hr3 : nextLine { rd2 with buf := [] } is2 with
            | error e => rfl
            | ok is3 => exact skipLoopF_lift eager dbg n _ is3
        · split
          · next t hb => exact absurd hb (ht t)
          · split
            · next t hb => exact absurd hb (ht t)
            · rfl

theorem skipCommentsF_lift (eager dbg : Bool) (rd : Reader) (is : IStream) :
    skipCommentsF eager dbg rd (lift is) = up (skipComments eager dbg rd is) := by
  unfold skipCommentsF skipComments
  have h : (lift is).is = is := rfl
  rw [h, peek_lift]
  by_cases h0 : (dbg && decide (rd.buf.length ≠ 0)) = true
  · rw [if_pos h0, if_pos h0]; rfl
  · rw [if_neg h0, if_neg h0]
    by_cases h1 : is.eof = true
    · rw [if_pos h1, if_pos h1]; rfl
    · rw [if_neg h1, if_neg h1]
      dsimp only
      by_cases h2 : is.peek.1 = some '\n'
      · rw [if_pos h2, if_pos h2]; rfl
      · rw [if_neg h2, if_neg h2]
        exact skipLoopF_lift eager dbg _ rd _

theorem readF_lift (single : Parser F) (eager dbg : Bool) (sep : Char) (rd : Reader) (is : IStream) :
    readF single eager dbg sep rd (lift is) = readBy single eager dbg sep rd is >>= fun p => .ok (p.1, p.2.1, lift p.2.2) := by
  unfold readF readBy
  have hf : fillF eager dbg rd (lift is) = up (fill eager dbg rd is) := by
    unfold fillF fill
    split
    · exact readChunkF_lift _ _ _ _
    · rfl
  rw [hf]
  cases hr : fill eager dbg rd is with
  | error e => rfl
  | ok p =>
    simp only [up, res_ok_bind]
    cases hp : single p.1.buf with
    | none => rfl
    | some q =>
      obtain ⟨v, t⟩ := q
      cases t with
      | nil => rfl
      | cons c tail =>
        dsimp only
        split <;> rfl

theorem readsF_lift (single : Parser F) (eager dbg : Bool) (sep : Char) : ∀ (n : Nat) (rd : Reader) (is : IStream) (vs : List F) (rd' : Reader) (s' : FStream),
    readsF single eager dbg sep n rd (lift is) = (vs, .ok (rd', s')) → readNBy single eager dbg sep n rd is = .ok (vs, rd', s'.is) ∧ s' = lift s'.is
  | 0, rd, is, vs, rd', s', h => by
    simp only [readsF, Prod.mk.injEq] at h
    obtain ⟨rfl, h2⟩ := h
    cases h2
    exact ⟨rfl, rfl⟩
  | n + 1, rd, is, vs, rd', s', h => by
    simp only [readsF, readF_lift] at h
    simp only [readNBy]
    cases hr : readBy single eager dbg sep rd is with
    | error e => rw [hr] at h; simp at h
    | ok p =>
      obtain ⟨v, rd1, is1⟩ := p
      rw [hr] at h
      simp only [res_ok_bind, Prod.mk.injEq] at h
      obtain ⟨rfl, h2⟩ := h
      obtain ⟨i1, i2⟩ := readsF_lift single eager dbg sep n rd1 is1 _ rd' s' (Prod.ext rfl h2)
      simp only [res_ok_bind, i1]
      exact ⟨trivial, i2⟩

theorem rowF_lift (single : Parser F) (eager dbg : Bool) (sep : Char) (n : Nat) (rd : Reader) (is : IStream) (vs : List F) (rd' : Reader) (s' : FStream)
    (h : rowF single eager dbg sep n rd (lift is) = (vs, .ok (rd', s'))) :
    readRowWithBy single eager dbg sep n rd is = .ok (vs, rd', s'.is) ∧ s' = lift s'.is := by
  unfold rowF at h
  unfold readRowWithBy
  rw [skipCommentsF_lift] at h
  cases hr : skipComments eager dbg rd is with
  | error e => rw [hr] at h; simp [up] at h
  | ok p =>
    obtain ⟨rd1, is1⟩ := p
    rw [hr] at h
    simp only [up, res_ok_bind] at h ⊢
    rcases hx : readsF single eager dbg sep n rd1 (lift is1) with ⟨ws, x⟩
    rw [hx] at h
    cases x with
    | error e => simp at h
    | ok x =>
      obtain ⟨rd2, s2⟩ := x
      obtain ⟨i1, i2⟩ := readsF_lift single eager dbg sep n rd1 is1 ws rd2 s2 hx
      rw [i1]
      simp only [res_ok_bind] at h ⊢
      rw [i2] at h
      simp only [endRow, nextLineF_lift] at h
      cases hn : nextLine rd2 s2.is with
      | error e => rw [hn] at h; simp at h
      | ok is3 =>
        rw [hn] at h
        simp only [res_ok_bind, Prod.mk.injEq] at h
        obtain ⟨rfl, h2⟩ := h
        cases h2
        exact ⟨rfl, rfl⟩

/-- Every row has its number of values. -/
theorem readsF_length (single : Parser F) (eager dbg : Bool) (sep : Char) : ∀ (n : Nat) (rd : Reader) (s : FStream),
    (readsF single eager dbg sep n rd s).1.length ≤ n ∧ ∀ x, (readsF single eager dbg sep n rd s).2 = .ok x → (readsF single eager dbg sep n rd s).1.length = n
  | 0, _, _ => ⟨Nat.le_refl _, fun _ _ => rfl⟩
  | n + 1, rd, s => by
    simp only [readsF]
    cases hr : readF single eager dbg sep rd s with
    | error e => exact ⟨Nat.zero_le _, fun _ h => nomatch h⟩
    | ok p =>
      obtain ⟨h1, h2⟩ := readsF_length single eager dbg sep n p.2.1 p.2.2
      exact ⟨by simpa using h1, fun x hx => by simpa using h2 x hx⟩

theorem rowF_length (single : Parser F) (eager dbg : Bool) (sep : Char) (n : Nat) (rd : Reader) (s : FStream) :
    (rowF single eager dbg sep n rd s).1.length ≤ n ∧ ∀ x, (rowF single eager dbg sep n rd s).2 = .ok x → (rowF single eager dbg sep n rd s).1.length = n := by
  unfold rowF
  cases hr : skipCommentsF eager dbg rd s with
  | error e => exact ⟨Nat.zero_le _, fun _ h => nomatch h⟩
  | ok p =>
    obtain ⟨rd1, s1⟩ := p
    dsimp only
    obtain ⟨h1, h2⟩ := readsF_length single eager dbg sep n rd1 s1
    revert h1 h2
    generalize readsF single eager dbg sep n rd1 s1 = p1
    obtain ⟨vs, x⟩ := p1
    cases x with
    | error e => exact fun h1 _ => ⟨h1, fun _ h => nomatch h⟩
    | ok x =>
      intro h1 h2
      dsimp only at h1 h2 ⊢
      rw [endRow_fst]
      exact ⟨h1, fun _ _ => h2 x rfl⟩

theorem rowsF_lift (single : Parser F) (eager dbg : Bool) (sep : Char) (cols : Nat) : ∀ (n : Nat) (rd : Reader) (is : IStream) (vs : List F) (s' : FStream),
    rowsF single eager dbg sep cols n rd (lift is) = (vs, .ok s') →
      ∃ vss, readRowsBy single eager dbg sep cols n rd is = .ok (vss, s'.is) ∧ vss.flatten = vs ∧ vss.length = n ∧ (∀ row ∈ vss, row.length = cols)
  | 0, rd, is, vs, s', h => by
    simp only [rowsF, Prod.mk.injEq] at h
    obtain ⟨rfl, h2⟩ := h
    cases h2
    exact ⟨[], rfl, rfl, rfl, by simp⟩
  | n + 1, rd, is, vs, s', h => by
    simp only [rowsF] at h
    simp only [readRowsBy]
    rcases hx : rowF single eager dbg sep cols rd (lift is) with ⟨ws, x⟩
    rw [hx] at h
    cases x with
    | error e => simp at h
    | ok x =>
      obtain ⟨rd1, s1⟩ := x
      obtain ⟨i1, i2⟩ := rowF_lift single eager dbg sep cols rd is ws rd1 s1 hx
      have hl : ws.length = cols := by
        have := (rowF_length single eager dbg sep cols rd (lift is)).2 (rd1, s1)
        rw [hx] at this
        exact this rfl
      rw [i1]
      simp only [res_ok_bind, Prod.mk.injEq] at h ⊢
      obtain ⟨rfl, h2⟩ := h
      rw [i2] at h2
      obtain ⟨vss, j1, j2, j3, j4⟩ := rowsF_lift single eager dbg sep cols n rd1 s1.is _ s' (Prod.ext rfl h2)
      rw [j1]
      refine ⟨ws :: vss, rfl, ?_, by simp [j3], ?_⟩
      · rw [List.flatten_cons, j2, i2]; rfl
      · rintro row hrow
        rcases List.mem_cons.1 hrow with rfl | hrow
        · exact hl
        · exact j4 row hrow

/-! ### Memory -/

/-- From position `b` on, these values have been assigned, and nothing else has changed. -/
def AssignedFrom (addr : Nat → Int) (b : Nat) (vals : List F) (m m' : Mem F) : Prop :=
  (∀ (j : Nat) (h : j < vals.length), m' (addr (b + j)) = some vals[j]) ∧ ∀ a, (∀ j < vals.length, a ≠ addr (b + j)) → m' a = m a

/-- Positions below `N` have different addresses, which are allocated. -/
structure Places (addr : Nat → Int) (N : Nat) (m : Mem F) : Prop where
  inj : ∀ i < N, ∀ j < N, addr i = addr j → i = j
  live : ∀ i < N, ∃ x, m (addr i) = some x

theorem AssignedFrom.nil (addr : Nat → Int) (b : Nat) (m : Mem F) : AssignedFrom addr b [] m m :=
  ⟨fun j h => absurd h (by simp), fun _ _ => rfl⟩

theorem Places.after {addr : Nat → Int} {N b : Nat} {vals : List F} {m m' : Mem F} (hp : Places addr N m) (h : AssignedFrom addr b vals m m')
    : Places addr N m' := by
  refine ⟨hp.inj, fun i hi => ?_⟩
  by_cases he : ∃ j, ∃ _ : j < vals.length, addr i = addr (b + j)
  · obtain ⟨j, hj, he⟩ := he
    exact ⟨_, by rw [he]; exact h.1 j hj⟩
  · rw [h.2 (addr i) fun j hj e => he ⟨j, hj, e⟩]
    exact hp.live i hi

theorem AssignedFrom.append {addr : Nat → Int} {N b : Nat} {vs ws : List F} {m m1 m2 : Mem F} (hp : Places addr N m) (hN : b + (vs ++ ws).length ≤ N)
    (h1 : AssignedFrom addr b vs m m1) (h2 : AssignedFrom addr (b + vs.length) ws m1 m2) : AssignedFrom addr b (vs ++ ws) m m2 := by
  rw [List.length_append] at hN
  refine ⟨fun j hj => ?_, fun a ha => ?_⟩
  · rw [List.length_append] at hj
    by_cases hjv : j < vs.length
    · rw [List.getElem_append_left hjv, h2.2 _ fun k hk e => ?_]
      · exact h1.1 j hjv
      · have := hp.inj _ (by omega) _ (by omega) e
        omega
    · rw [List.getElem_append_right (by omega)]
      have := h2.1 (j - vs.length) (by omega)
      rw [show b + vs.length + (j - vs.length) = b + j by omega] at this
      exact this
  · rw [h2.2 a fun k hk e => ?_, h1.2 a fun k hk e => ?_]
    · exact ha k (by rw [List.length_append]; omega) e
    · exact ha (vs.length + k) (by rw [List.length_append]; omega) (by rw [e]; congr 1; omega)

theorem readInto_eq (single : Parser F) (eager dbg : Bool) (sep : Char) {addr : Nat → Int} {N : Nat} {target : Nat → Res Int} (b : Nat) :
    ∀ (n i : Nat) (rd : Reader) (s : FStream) (m : Mem F), Places addr N m → b + i + n ≤ N → (∀ j, i ≤ j → j < i + n → target j = .ok (addr (b + j))) →
      (readInto single eager dbg sep target n i rd s m).2 = (readsF single eager dbg sep n rd s).2 ∧
      AssignedFrom addr (b + i) (readsF single eager dbg sep n rd s).1 m (readInto single eager dbg sep target n i rd s m).1
  | 0, i, rd, s, m, _, _, _ => ⟨rfl, AssignedFrom.nil _ _ _⟩
  | n + 1, i, rd, s, m, hp, hN, ht => by
    simp only [readInto, readsF]
    cases hr : readF single eager dbg sep rd s with
    | error e => exact ⟨rfl, AssignedFrom.nil _ _ _⟩
    | ok p =>
      obtain ⟨v, rd1, s1⟩ := p
      simp only [thenMem]
      rw [ht i (Nat.le_refl _) (by omega)]
      obtain ⟨x, hx⟩ := hp.live (b + i) (by omega)
      simp only [Mem.write, hx]
      have h1 : AssignedFrom addr (b + i) [v] m (fun a => if a = addr (b + i) then some v else m a) := by
        refine ⟨fun j hj => ?_, fun a ha => ?_⟩
        · have : j = 0 := by simpa using hj
          subst this
          simp
        · exact if_neg (ha 0 (by simp))
      obtain ⟨i1, i2⟩ := readInto_eq single eager dbg sep (target := target) b n (i + 1) rd1 s1 _ (hp.after h1) (by omega)
        (fun j hj hj' => ht j (by omega) (by omega))
      refine ⟨i1, ?_⟩
      have hl := (readsF_length single eager dbg sep n rd1 s1).1
      exact AssignedFrom.append (vs := [v]) hp (by rw [List.length_append, List.length_singleton]; omega) h1 i2

theorem rowInto_eq (single : Parser F) (eager dbg : Bool) (sep : Char) {addr : Nat → Int} {N : Nat} {target : Nat → Res Int} (b n : Nat)
    (rd : Reader) (s : FStream) (m : Mem F) (hp : Places addr N m) (hN : b + n ≤ N) (ht : ∀ j < n, target j = .ok (addr (b + j))) :
    (rowInto single eager dbg sep target n rd s m).2 = (rowF single eager dbg sep n rd s).2 ∧
    AssignedFrom addr b (rowF single eager dbg sep n rd s).1 m (rowInto single eager dbg sep target n rd s m).1 := by
  unfold rowInto rowF
  cases hr : skipCommentsF eager dbg rd s with
  | error e => exact ⟨rfl, AssignedFrom.nil _ _ _⟩
  | ok p =>
    obtain ⟨rd1, s1⟩ := p
    simp only [thenMem]
    obtain ⟨h1, h2⟩ := readInto_eq single eager dbg sep (target := target) b n 0 rd1 s1 m hp (by omega) (fun j _ hj => ht j (by omega))
    revert h1 h2
    generalize readInto single eager dbg sep target n 0 rd1 s1 m = q
    generalize readsF single eager dbg sep n rd1 s1 = r
    obtain ⟨m', x⟩ := q
    obtain ⟨vs, y⟩ := r
    dsimp only
    rintro rfl h2
    cases x with
    | error e => exact ⟨rfl, h2⟩
    | ok x =>
      obtain ⟨rd2, s2⟩ := x
      dsimp only [endRow]
      cases hn : nextLineF rd2 s2 with
      | error e => exact ⟨rfl, h2⟩
      | ok s3 => exact ⟨rfl, h2⟩

theorem rowsInto_eq (single : Parser F) (eager dbg : Bool) (sep : Char) {addr : Nat → Int} {target : Nat → Nat → Res Int} (cols R : Nat) :
    ∀ (n r : Nat) (rd : Reader) (s : FStream) (m : Mem F), Places addr (R * cols) m → r + n = R →
      (∀ i < R, ∀ j < cols, target i j = .ok (addr (i * cols + j))) →
      (rowsInto single eager dbg sep target cols n r rd s m).2 = (rowsF single eager dbg sep cols n rd s).2 ∧
      AssignedFrom addr (r * cols) (rowsF single eager dbg sep cols n rd s).1 m (rowsInto single eager dbg sep target cols n r rd s m).1 ∧
      (rowsF single eager dbg sep cols n rd s).1.length ≤ n * cols
  | 0, r, rd, s, m, _, _, _ => ⟨rfl, AssignedFrom.nil _ _ _, Nat.zero_le _⟩
  | n + 1, r, rd, s, m, hp, hR, ht => by
    have hrow : r * cols + cols ≤ R * cols := by
      have : (r + 1) * cols ≤ R * cols := Nat.mul_le_mul_right _ (by omega)
      rw [Nat.succ_mul] at this; exact this
    obtain ⟨h1, h2⟩ := rowInto_eq single eager dbg sep (target := target r) (r * cols) cols rd s m hp hrow (fun j hj => ht r (by omega) j hj)
    obtain ⟨h3, h4⟩ := rowF_length single eager dbg sep cols rd s
    simp only [rowsInto, rowsF]
    revert h1 h2 h3 h4
    generalize rowInto single eager dbg sep (target r) cols rd s m = q
    generalize rowF single eager dbg sep cols rd s = p
    obtain ⟨m', x⟩ := q
    obtain ⟨vs, y⟩ := p
    dsimp only
    rintro rfl h2 h3 h4
    cases x with
    | error e => exact ⟨rfl, h2, by rw [Nat.succ_mul]; dsimp only; omega⟩
    | ok x =>
      obtain ⟨rd1, s1⟩ := x
      have hl := h4 _ rfl
      dsimp only
      obtain ⟨i1, i2, i3⟩ := rowsInto_eq single eager dbg sep (target := target) cols R n (r + 1) rd1 s1 m' (hp.after h2) (by omega) ht
      refine ⟨i1, ?_, by rw [List.length_append, Nat.succ_mul]; omega⟩
      have hN : r * cols + (vs ++ (rowsF single eager dbg sep cols n rd1 s1).1).length ≤ R * cols := by
        rw [List.length_append]
        have : (r + 1 + n) * cols ≤ R * cols := Nat.mul_le_mul_right _ (by omega)
        rw [Nat.add_mul, Nat.succ_mul] at this
        omega
      refine AssignedFrom.append hp hN h2 ?_
      rw [hl, ← Nat.succ_mul]
      exact i2

/-! ## Statements -/

/-- The first elements of the view (row by row) have been assigned these values; nothing else has changed. -/
def Stored (v : View) (vals : List F) (m m' : Mem F) : Prop :=
  (∀ r c : Nat, v.HasElem r c → ∀ h : r * v.cols.toNat + c < vals.length, v.Holds m' r c vals[r * v.cols.toNat + c]) ∧
  (∀ a, (∀ r c : Nat, v.HasElem r c → r * v.cols.toNat + c < vals.length → a ≠ v.data + r * v.inner + c * v.outer) → m' a = m a)

/-- Element number `k`, row by row. -/
def elemAddr (v : View) (k : Nat) : Int := v.data + ((k / v.cols.toNat : Nat) : Int) * v.inner + ((k % v.cols.toNat : Nat) : Int) * v.outer

theorem elemAddr_at {v : View} {r c : Nat} (h : v.HasElem r c) : elemAddr v (r * v.cols.toNat + c) = v.data + r * v.inner + c * v.outer := by
  obtain ⟨h1, h2, h3, h4⟩ := h
  have hc : c < v.cols.toNat := by omega
  have e1 : (r * v.cols.toNat + c) / v.cols.toNat = r := by
    rw [Nat.mul_comm, Nat.mul_add_div (by omega), Nat.div_eq_of_lt hc]; rfl
  have e2 : (r * v.cols.toNat + c) % v.cols.toNat = c := by
    rw [Nat.mul_comm, Nat.mul_add_mod, Nat.mod_eq_of_lt hc]
  rw [elemAddr, e1, e2]

theorem position {v : View} {k : Nat} (h : k < v.rows.toNat * v.cols.toNat) :
    v.HasElem ((k / v.cols.toNat : Nat) : Int) ((k % v.cols.toNat : Nat) : Int) ∧ k / v.cols.toNat * v.cols.toNat + k % v.cols.toNat = k := by
  have hc : 0 < v.cols.toNat := by
    rcases Nat.eq_zero_or_pos v.cols.toNat with h0 | h0
    · rw [h0, Nat.mul_zero] at h; omega
    · exact h0
  have h1 : k / v.cols.toNat < v.rows.toNat := (Nat.div_lt_iff_lt_mul hc).2 h
  have h2 := Nat.mod_lt k hc
  generalize hq : k / v.cols.toNat = q at h1 ⊢
  refine ⟨⟨by omega, by omega, by omega, by omega⟩, ?_⟩
  rw [← hq, Nat.mul_comm]
  exact Nat.div_add_mod _ _

theorem places_of_view {v : View} {m : Mem F} (hi : v.Injective) (hb : v.Backed m) : Places (elemAddr v) (v.rows.toNat * v.cols.toNat) m := by
  refine ⟨fun i hi1 j hj1 e => ?_, fun i hi1 => hb _ _ (position hi1).1⟩
  obtain ⟨p1, p2⟩ := position hi1
  obtain ⟨q1, q2⟩ := position hj1
  obtain ⟨e1, e2⟩ := hi _ _ _ _ p1 q1 e
  have e1 : i / v.cols.toNat = j / v.cols.toNat := by omega
  have e2 : i % v.cols.toNat = j % v.cols.toNat := by omega
  rw [← p2, ← q2, e1, e2]

theorem stored_of_assigned {v : View} {vals : List F} {m m' : Mem F} (hl : vals.length ≤ v.rows.toNat * v.cols.toNat)
    (h : AssignedFrom (elemAddr v) 0 vals m m') : Stored v vals m m' := by
  refine ⟨fun r c he hlt => ?_, fun a ha => h.2 a fun j hj e => ?_⟩
  · have := h.1 _ hlt
    rw [Nat.zero_add, elemAddr_at he] at this
    exact this
  · rw [Nat.zero_add] at e
    obtain ⟨p1, p2⟩ := position (v := v) (k := j) (by omega)
    exact ha _ _ p1 (by rw [p2]; exact hj) e

theorem csvReadInto_values (single : Parser F) (eager dbg : Bool) (sep : Char) (v : View) (s : FStream) (m : Mem F) (hi : v.Injective) (hb : v.Backed m) :
    (csvReadInto single eager dbg sep v s m).2 = (rowsF single eager dbg sep v.cols.toNat v.rows.toNat {} s).2 ∧
    Stored v (rowsF single eager dbg sep v.cols.toNat v.rows.toNat {} s).1 m (csvReadInto single eager dbg sep v s m).1 := by
  unfold csvReadInto
  obtain ⟨h1, h2, h3⟩ := rowsInto_eq single eager dbg sep (addr := elemAddr v) (target := fun r c => v.at r c) v.cols.toNat v.rows.toNat
    v.rows.toNat 0 {} s m (places_of_view hi hb) (by omega) (fun i hi1 j hj => by
      have he : v.HasElem i j := ⟨by omega, by omega, by omega, by omega⟩
      rw [elemAddr_at he]
      simp only [View.at, assertThat]
      rw [if_pos (decide_eq_true ⟨he.1, he.2.1⟩), if_pos (decide_eq_true ⟨he.2.2.1, he.2.2.2⟩)]
      simp only [res_ok_bind, View.addr]
      show Except.ok _ = _
      congr 1
      omega)
  rw [Nat.zero_mul] at h2
  exact ⟨h1, stored_of_assigned h3 h2⟩

/-- C118. `csv_read` into a view, whatever the stream holds and whatever errors occur on the way: the first elements of the view, row by row,
are assigned, and no other memory changes. If it returns, all elements have been assigned, with the rows that C40 specifies; otherwise it
throws `csv_read_error`. -/
theorem csv_read_stores (single : Parser F) (eager dbg : Bool) (sep : Char) (v : View) (s : FStream) (hs : s.hit = false) (m : Mem F)
    (hi : v.Injective) (hb : v.Backed m) :
    ∃ vals m' res, csvReadInto single eager dbg sep v s m = (m', res) ∧ Stored v vals m m' ∧
      ((∃ s' vss, res = .ok s' ∧ csvReadBy single eager dbg sep v.rows.toNat v.cols.toNat s.is = .ok (vss, s'.is) ∧ vss.flatten = vals ∧
        vss.length = v.rows.toNat ∧ ∀ row ∈ vss, row.length = v.cols.toNat) ∨
      res = .error csvErr) := by
  obtain ⟨h1, h2⟩ := csvReadInto_values single eager dbg sep v s m hi hb
  refine ⟨_, (csvReadInto single eager dbg sep v s m).1, (csvReadInto single eager dbg sep v s m).2, rfl, h2, ?_⟩
  rw [h1]
  have hsim := rowsF_sim single eager dbg sep v.cols.toNat v.rows.toNat {} s hs rfl
  unfold SimRows at hsim
  cases hr : (rowsF single eager dbg sep v.cols.toNat v.rows.toNat {} s).2 with
  | error e => rw [hr] at hsim; right; rw [hsim.1]
  | ok s' =>
    rw [hr] at hsim
    obtain ⟨g1, g2, g3⟩ := hsim
    left
    obtain ⟨vss, j1, j2, j3, j4⟩ := rowsF_lift single eager dbg sep v.cols.toNat v.rows.toNat {} s.is _ s'.calm (Prod.ext g2.symm g3)
    exact ⟨s', vss, rfl, j1, j2, j3, j4⟩

/-- C119. No error goes unnoticed: if `csv_read` returns although errors were possible, it has done what it does on the same input without
errors. Otherwise it throws, after storing a part of what it stores without errors. -/
theorem csv_read_faults (single : Parser F) (eager dbg : Bool) (sep : Char) (v : View) (s : FStream) (hs : s.hit = false) (m : Mem F)
    (hi : v.Injective) (hb : v.Backed m) :
    (∃ m' s', csvReadInto single eager dbg sep v s m = (m', .ok s') ∧ s'.hit = false ∧
      ∃ m0 s0, csvReadInto single eager dbg sep v (lift s.is) m = (m0, .ok s0) ∧ s0.is = s'.is ∧ ∃ vals, Stored v vals m m' ∧ Stored v vals m m0) ∨
    (∃ m' vals vals0, csvReadInto single eager dbg sep v s m = (m', .error csvErr) ∧ Stored v vals m m' ∧
      Stored v vals0 m (csvReadInto single eager dbg sep v (lift s.is) m).1 ∧ vals <+: vals0) := by
  obtain ⟨h1, h2⟩ := csvReadInto_values single eager dbg sep v s m hi hb
  obtain ⟨k1, k2⟩ := csvReadInto_values single eager dbg sep v (lift s.is) m hi hb
  have hsim := rowsF_sim single eager dbg sep v.cols.toNat v.rows.toNat {} s hs rfl
  rw [calm_eq] at hsim
  unfold SimRows at hsim
  cases hr : (rowsF single eager dbg sep v.cols.toNat v.rows.toNat {} s).2 with
  | error e =>
    rw [hr] at hsim
    right
    refine ⟨_, _, _, Prod.ext rfl ?_, h2, k2, hsim.2⟩
    rw [h1, hr, hsim.1]
  | ok s' =>
    rw [hr] at hsim
    obtain ⟨g1, g2, g3⟩ := hsim
    left
    exact ⟨_, s', Prod.ext rfl (h1.trans hr), g1, _, s'.calm, Prod.ext rfl (k1.trans g3), rfl, _, h2, by rw [g2]; exact k2⟩

end Guanaqo.Csv
