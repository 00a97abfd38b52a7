import Verif.Sparsity.PropsDense

/-!
# Helper lemmas for the conversions from dense

`hi c` is the number of stored rows of column `c` (all rows, or `c + 1` for the upper triangle).
-/

namespace Guanaqo.Sparsity

variable {T : Type}

/-- Number of stored elements before column `c`. -/
def off (hi : Nat → Nat) : Nat → Nat
  | 0 => 0
  | c + 1 => off hi c + hi c

theorem off_mono {hi : Nat → Nat} {a b : Nat} (h : a ≤ b) : off hi a ≤ off hi b := by
  induction b with
  | zero => have : a = 0 := by omega
            subst this; exact le_refl _
  | succ b ih =>
    rcases Nat.lt_or_ge a (b + 1) with h' | h'
    · exact le_trans (ih (by omega)) (by simp [off])
    · have : a = b + 1 := by omega
      subst this; exact le_refl _

theorem off_const (m n : Nat) : off (fun _ => m) n = m * n := by
  induction n with
  | zero => simp [off]
  | succ n ih => rw [off, ih]; ring

theorem off_tri (n : Nat) : off (fun c => c + 1) n = n * (n + 1) / 2 := by
  have : 2 * off (fun c => c + 1) n = n * (n + 1) := by
    induction n with
    | zero => simp [off]
    | succ n ih => rw [off, Nat.mul_add, ih]; ring
  omega

theorem length_flatMap_off {α : Type} {hi : Nat → Nat} {f : Nat → List α} {n : Nat}
    (hf : ∀ c, c < n → (f c).length = hi c) : ((List.range n).flatMap f).length = off hi n := by
  induction n with
  | zero => simp [off]
  | succ n ih =>
    rw [List.range_succ, List.flatMap_append, List.length_append, ih (fun c hc => hf c (by omega))]
    simp [off, hf n (by omega)]

theorem slice_flatMap {α : Type} {hi : Nat → Nat} {f : Nat → List α} {n : Nat}
    (hf : ∀ c, c < n → (f c).length = hi c) {c : Nat} (hc : c < n) :
    slice ((List.range n).flatMap f) (off hi c) (off hi (c + 1)) = f c := by
  have hsplit : List.range n = List.range c ++ c :: List.range' (c + 1) (n - c - 1) := by
    rw [← List.range'_succ (s := c) (n := n - c - 1) (step := 1), List.range_eq_range',
      List.range_eq_range', show n - c - 1 + 1 = n - c from by omega]
    have := List.range'_append_1 (s := 0) (m := c) (n := n - c)
    rw [show c + (n - c) = n from by omega] at this
    simpa using this.symm
  have hl := length_flatMap_off (n := c) (f := f) (hi := hi) (fun j hj => hf j (by omega))
  have hfc := hf c hc
  rw [hsplit, List.flatMap_append, List.flatMap_cons, slice]
  rw [List.take_append, List.drop_append]
  simp only [hl, off]
  have e1 : List.drop (off hi c) (List.take (off hi c + hi c) (List.flatMap f (List.range c))) = [] := by
    rw [List.take_of_length_le (by rw [hl]; omega), List.drop_of_length_le (by rw [hl])]
  rw [e1]
  simp only [List.length_take, hl, Nat.add_sub_cancel_left]
  rw [show off hi c - min (off hi c + hi c) (off hi c) = 0 from by omega, List.drop_zero,
    List.take_append]
  rw [List.take_of_length_le (by omega), hfc, Nat.sub_self]
  simp

theorem zip_flatMap {α β γ : Type} {l : List γ} {f : γ → List α} {g : γ → List β}
    (h : ∀ a ∈ l, (f a).length = (g a).length) :
    (l.flatMap f).zip (l.flatMap g) = l.flatMap (fun a => (f a).zip (g a)) := by
  induction l with
  | nil => rfl
  | cons a l ih =>
    rw [List.flatMap_cons, List.flatMap_cons, List.flatMap_cons, List.zip_append (h a (by simp)),
      ih (fun b hb => h b (by simp [hb]))]

/-! ## Filling -/

/-- A loop that appends to a preallocated array through a counter. -/
theorem fill1 {α β : Type} {f : α → Nat × List β → Res (Nat × List β)} {g : α → β}
    (hf : ∀ a l v, l < v.length → f a (l, v) = .ok (l + 1, v.set l (g a)))
    (P : List α) (pre junk rest : List β) (hj : junk.length = P.length) :
    P.foldlM (fun s a => f a s) (pre.length, pre ++ junk ++ rest) =
      .ok (pre.length + P.length, pre ++ P.map g ++ rest) := by
  induction P generalizing pre junk with
  | nil =>
    have : junk = [] := List.length_eq_zero_iff.1 hj
    subst this; simp
  | cons a P ih =>
    match junk, hj with
    | y :: junk, hj =>
      have hj : junk.length = P.length := by simpa using hj
      rw [List.foldlM_cons, hf _ _ _ (by simp), res_ok_bind]
      have := ih (pre ++ [g a]) junk hj
      rw [List.length_append, List.length_singleton] at this
      have e : (pre ++ y :: junk ++ rest).set pre.length (g a) = pre ++ [g a] ++ junk ++ rest := by
        simp
      rw [e, this]
      simp; omega

/-- The same with two arrays. -/
theorem fill2 {α : Type} {f : α → Nat × List Int × List Int → Res (Nat × List Int × List Int)}
    {g h : α → Int} {S : α → Prop}
    (hf : ∀ a l v w, S a → l < v.length → l < w.length →
      f a (l, v, w) = .ok (l + 1, v.set l (g a), w.set l (h a)))
    (P : List α) (hS : ∀ a ∈ P, S a) (p1 p2 j1 j2 : List Int) (hp : p1.length = p2.length)
    (h1 : j1.length = P.length) (h2 : j2.length = P.length) :
    P.foldlM (fun s a => f a s) (p1.length, p1 ++ j1, p2 ++ j2) =
      .ok (p1.length + P.length, p1 ++ P.map g, p2 ++ P.map h) := by
  induction P generalizing p1 p2 j1 j2 with
  | nil =>
    have : j1 = [] := List.length_eq_zero_iff.1 h1
    have : j2 = [] := List.length_eq_zero_iff.1 h2
    subst j1 j2; simp
  | cons a P ih =>
    match j1, j2, h1, h2 with
    | y :: j1, z :: j2, h1, h2 =>
      have h1 : j1.length = P.length := by simpa using h1
      have h2 : j2.length = P.length := by simpa using h2
      rw [List.foldlM_cons, hf _ _ _ _ (hS a (by simp)) (by simp) (by simp [hp]), res_ok_bind]
      have := ih (fun b hb => hS b (by simp [hb])) (p1 ++ [g a]) (p2 ++ [h a]) j1 j2 (by simp [hp])
        h1 h2
      rw [List.length_append, List.length_singleton] at this
      have e1 : (p1 ++ y :: j1).set p1.length (g a) = p1 ++ [g a] ++ j1 := by simp
      have e2 : (p2 ++ z :: j2).set p1.length (h a) = p2 ++ [h a] ++ j2 := by
        rw [hp]; simp
      rw [e1, e2, this]
      simp; omega

/-! ## The positions in column-major order -/

/-- Positions (row, column) of the stored part, column by column. -/
def dpos (hi : Nat → Nat) (n : Nat) : List (Nat × Nat) :=
  (List.range n).flatMap (fun c => (List.range (hi c)).map (fun r => (r, c)))

theorem dpos_length (hi : Nat → Nat) (n : Nat) : (dpos hi n).length = off hi n :=
  length_flatMap_off (fun c _ => by simp)

theorem mem_dpos {hi : Nat → Nat} {n : Nat} {p : Nat × Nat} :
    p ∈ dpos hi n ↔ p.2 < n ∧ p.1 < hi p.2 := by
  obtain ⟨r, c⟩ := p
  simp only [dpos, List.mem_flatMap, List.mem_range, List.mem_map, Prod.mk.injEq]
  constructor
  · rintro ⟨c', hc, r', hr, rfl, rfl⟩; exact ⟨hc, hr⟩
  · rintro ⟨hc, hr⟩; exact ⟨c, hc, r, hr, rfl, rfl⟩

theorem dpos_sorted (hi : Nat → Nat) (n : Nat) :
    (dpos hi n).Pairwise (fun p q => p.2 < q.2 ∨ (p.2 = q.2 ∧ p.1 < q.1)) := by
  induction n with
  | zero => simp [dpos]
  | succ n ih =>
    have : dpos hi (n + 1) = dpos hi n ++ (List.range (hi n)).map (fun r => (r, n)) := by
      simp [dpos, List.range_succ, List.flatMap_append]
    rw [this, List.pairwise_append]
    refine ⟨ih, ?_, ?_⟩
    · rw [List.pairwise_map]
      exact List.pairwise_lt_range.imp (fun h => .inr ⟨rfl, h⟩)
    · intro p hp q hq
      obtain ⟨r, hr, rfl⟩ := List.mem_map.1 hq
      exact .inl (mem_dpos.1 hp).1

/-- The stored values, column by column. -/
def dvals (m : Nat) (hi : Nat → Nat) (n : Nat) (vals : List T) : List T :=
  (List.range n).flatMap (fun c => (vals.drop (c * m)).take (hi c))

theorem dvals_length {m : Nat} {hi : Nat → Nat} {n : Nat} {vals : List T}
    (hv : vals.length = m * n) (hh : ∀ c, c < n → hi c ≤ m) :
    (dvals m hi n vals).length = off hi n := by
  apply length_flatMap_off
  intro c hc
  have := hh c hc
  have h1 : (c + 1) * m ≤ n * m := Nat.mul_le_mul_right _ hc
  have h2 : (c + 1) * m = c * m + m := by ring
  have h3 : n * m = m * n := by ring
  simp; omega

theorem dvals_full {m n : Nat} {vals : List T} (hv : vals.length = m * n) :
    dvals m (fun _ => m) n vals = vals := by
  have h := tile (o := fun c => c * m) (k := n) (by simp)
    (fun c _ => by nlinarith) vals (by rw [hv]; nlinarith) (fun _ x => x)
  have e : ∀ c, (slice vals (c * m) ((c + 1) * m)).map (fun x => x) = (vals.drop (c * m)).take m := by
    intro c
    rw [List.map_id', slice, List.drop_take]
    congr 1
    have : (c + 1) * m = c * m + m := by ring
    omega
  have : dvals m (fun _ => m) n vals =
      (List.range n).flatMap (fun c => (slice vals (c * m) ((c + 1) * m)).map (fun x => x)) := by
    simp only [e]; rfl
  rw [this, h]
  have hl : (colList (fun c => c * m) n).length = n * m :=
    colList_length (by simp) (fun c _ => by nlinarith)
  rw [List.take_of_length_le (by rw [hv]; nlinarith)]
  apply List.ext_getElem
  · simp [hl, hv]; nlinarith
  · intro i a b; simp

/-- The entries listed by position and value arrays. -/
def dentries (m : Nat) (hi : Nat → Nat) (n : Nat) (vals : List T) : List (Int × Int × T) :=
  ((dpos hi n).zip (dvals m hi n vals)).map (fun p => ((p.1.1 : Int), (p.1.2 : Int), p.2))

theorem mem_dentries {m : Nat} {hi : Nat → Nat} {n : Nat} {vals : List T}
    (hv : vals.length = m * n) (hh : ∀ c, c < n → hi c ≤ m) {r c : Int} {v : T} :
    (r, c, v) ∈ dentries m hi n vals ↔
      (0 ≤ r ∧ 0 ≤ c ∧ c.toNat < n ∧ r.toNat < hi c.toNat ∧ denseAt m vals r c = some v) := by
  have hlen : ∀ c ∈ List.range n, ((List.range (hi c)).map (fun r => (r, c))).length =
      ((vals.drop (c * m)).take (hi c)).length := by
    intro c hc
    have hc := List.mem_range.1 hc
    have := hh c hc
    have h1 : (c + 1) * m ≤ n * m := Nat.mul_le_mul_right _ hc
    have h2 : (c + 1) * m = c * m + m := by ring
    have h3 : n * m = m * n := by ring
    simp; omega
  have hidx : ∀ (a b : Nat), ((a : Int) + (b : Int) * (m : Int)).toNat = b * m + a := by
    intro a b
    have : (a : Int) + (b : Int) * (m : Int) = ((b * m + a : Nat) : Int) := by push_cast; ring
    rw [this, Int.toNat_natCast]
  rw [dentries, dpos, dvals, zip_flatMap hlen]
  simp only [List.mem_map, List.mem_flatMap, List.mem_range, Prod.mk.injEq]
  constructor
  · rintro ⟨⟨⟨a, b⟩, x⟩, ⟨c', hc', hz⟩, rfl, rfl, rfl⟩
    obtain ⟨i, hi1, hi2⟩ := List.mem_iff_getElem.1 hz
    simp only [List.getElem_zip, List.getElem_map, List.getElem_range, List.getElem_take,
      List.getElem_drop, Prod.mk.injEq] at hi2
    obtain ⟨⟨rfl, rfl⟩, h3⟩ := hi2
    have hi1' : i < hi c' := by simp at hi1; omega
    refine ⟨by simp, by simp, by simpa using hc', by simpa using hi1', ?_⟩
    have hlt : c' * m + i < vals.length := by simp at hi1; omega
    rw [denseAt, hidx, List.getElem?_eq_getElem hlt]
    exact congrArg some h3
  · rintro ⟨h1, h2, h3, h4, h5⟩
    obtain ⟨a, rfl⟩ := Int.eq_ofNat_of_zero_le h1
    obtain ⟨b, rfl⟩ := Int.eq_ofNat_of_zero_le h2
    simp only [Int.toNat_natCast] at h3 h4
    rw [denseAt, hidx] at h5
    refine ⟨((a, b), v), ⟨b, h3, ?_⟩, rfl, rfl, rfl⟩
    have hl := hlen b (List.mem_range.2 h3)
    simp only [List.length_map, List.length_range] at hl
    have ha : a < ((vals.drop (b * m)).take (hi b)).length := by omega
    have hlt : b * m + a < vals.length := by
      rw [List.length_take, List.length_drop] at ha; omega
    have hva : vals[b * m + a] = v := by
      rw [List.getElem?_eq_getElem hlt] at h5; exact Option.some.inj h5
    refine List.mem_iff_getElem.2 ⟨a, by rw [List.length_zip, List.length_map, List.length_range]; omega, ?_⟩
    simp [hva]

theorem dentries_positions {m : Nat} {hi : Nat → Nat} {n : Nat} {vals : List T}
    (hv : vals.length = m * n) (hh : ∀ c, c < n → hi c ≤ m) :
    (dentries m hi n vals).map (fun e => (e.1, e.2.1)) =
      (dpos hi n).map (fun p => ((p.1 : Int), (p.2 : Int))) := by
  have h1 := dpos_length hi n
  have h2 := dvals_length hv hh
  apply List.ext_getElem
  · simp [dentries, h1, h2]
  · intro i a b; simp [dentries]

theorem dentries_nodup {m : Nat} {hi : Nat → Nat} {n : Nat} {vals : List T}
    (hv : vals.length = m * n) (hh : ∀ c, c < n → hi c ≤ m) :
    ((dentries m hi n vals).map (fun e => (e.1, e.2.1))).Nodup := by
  rw [dentries_positions hv hh, List.Nodup, List.pairwise_map]
  exact (dpos_sorted hi n).imp (fun {p q} h e => by simp only [Prod.mk.injEq] at e; omega)

/-! ## Packing loop -/

theorem packLoop {m : Nat} {n : Nat} {vals work : List T} (dbg : Bool)
    (hv : vals.length = m * n) (hmn : m = n) (hw : work.length = off (fun c => c + 1) n) :
    forRange 0 n (DenseToCoo.packBody dbg m vals) (0, work) =
      .ok (off (fun c => c + 1) n, dvals m (fun c => c + 1) n vals) := by
  rw [forRange_eq_foldlM, rangeI_zero, foldlM_map']
  have key : ∀ k, k ≤ n → (List.range k).foldlM
      (fun s (c : Nat) => DenseToCoo.packBody dbg m vals (c : Int) s) (0, work) =
      .ok (off (fun c => c + 1) k,
        dvals m (fun c => c + 1) k vals ++ work.drop (off (fun c => c + 1) k)) := by
    intro k
    induction k with
    | zero => intro _; simp [off, dvals]
    | succ k ih =>
      intro hk
      rw [List.range_succ, foldlM_append', ih (by omega), res_ok_bind, List.foldlM_cons,
        DenseToCoo.packBody, castSz_nat, res_ok_bind, castSz_nat, res_ok_bind]
      have h1 : off (fun c => c + 1) (k + 1) ≤ off (fun c => c + 1) n := off_mono hk
      have h1' : off (fun c => c + 1) (k + 1) = off (fun c => c + 1) k + (k + 1) := rfl
      have h2 : (k + 1) * m ≤ n * m := Nat.mul_le_mul_right _ hk
      have h2' : (k + 1) * m = k * m + m := by ring
      have h2'' : n * m = m * n := by ring
      have hdl : (dvals m (fun c => c + 1) k vals).length = off (fun c => c + 1) k := by
        apply length_flatMap_off
        intro c hc
        have a1 : (c + 1) * m ≤ n * m := Nat.mul_le_mul_right _ (by omega)
        have a2 : (c + 1) * m = c * m + m := by ring
        simp; omega
      have ht : ((k : Int) + 1).toNat = k + 1 := by omega
      simp only [ht]
      rw [DenseToCoo.copyBackward, if_pos (by
        refine ⟨by omega, by omega, ?_⟩
        rw [List.length_append, hdl, List.length_drop]; omega)]
      simp only [res_ok_bind, List.foldlM_nil, res_pure]
      congr 2
      have e : dvals m (fun c => c + 1) (k + 1) vals =
          dvals m (fun c => c + 1) k vals ++ (vals.drop (k * m)).take (k + 1) := by
        simp [dvals, List.range_succ, List.flatMap_append]
      rw [e]
      congr 1
      · congr 1
        rw [Nat.add_sub_cancel, List.take_append, hdl, List.take_of_length_le (by omega)]
        simp
      · rw [List.drop_append, List.drop_of_length_le (by omega), hdl, List.nil_append,
          List.drop_drop]
        congr 1
        omega
  have := key n (le_refl _)
  rw [this, List.drop_of_length_le (by omega)]
  simp

end Guanaqo.Sparsity
