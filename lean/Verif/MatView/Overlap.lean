import Verif.Tactics
import Verif.MatView.Model
import Verif.MatView.Spec
import Verif.Loops
import Mathlib.Data.List.Induction
import Mathlib.Data.List.Pairwise

/-!
# C144: assignment between overlapping views (mat-view.hpp:216-273)

`A.left_cols(n - k) = A.right_cols(n - k)` and the like: the source and the destination share elements. Nothing in the code checks for it. The property asked for is that
the assignment acts as if all elements of the source were read before any is written.

`std::copy_n` is specified element by element, in order; the libraries implement it with `memmove` for trivially copyable elements. Both are modelled: the parameter `mm` says whether a
contiguous column is moved at once.
-/

namespace Guanaqo.MatView.Overlap

open Guanaqo.MatView

variable {α : Type}

/-! ## Model -/

/-- `std::copy_n(src, n, dst)` (called at mat-view.hpp:223): with `mm` as a `memmove`, which reads everything before it writes anything, otherwise element by element. -/
def copyNW (mm : Bool) (src n dst : Int) (m : Mem α) : Res (Mem α) :=
  forRange 0 n (fun i s => do s.write (dst + i) (← (if mm then m else s).read (src + i))) m

/-- Body of the column loop of `copy_values`, mat-view.hpp:222-232. -/
def copyColumnW (mm : Bool) (srcInner dstInner rows src dst : Int) (m : Mem α) : Res (Mem α) :=
  if srcInner = 1 ∧ dstInner = 1 then copyNW mm src rows dst m
  else copyColumn srcInner dstInner rows src dst m

/-- `copy_values(other)`, mat-view.hpp:216-236 (also `operator=`, lines 238-250). -/
def copyValuesW (mm : Bool) (v other : View) (m : Mem α) : Res (Mem α) := do
  assertThat (decide (other.rows = v.rows))
  assertThat (decide (other.cols = v.cols))
  let s ← forRange 0 v.cols (fun _ (s : Mem α × Int × Int) => do
    let m ← copyColumnW mm other.inner v.inner v.rows s.2.1 s.2.2 s.1
    return (m, s.2.1 + other.outer, s.2.2 + v.outer)) (m, other.data, v.data)
  return s.1

/-- Element by element, this is the model of `copy_values` used elsewhere. -/
theorem copyValuesW_false (v other : View) (m : Mem α) : copyValuesW false v other m = v.copyValues other m := by
  have h : ∀ a b c d e (m : Mem α), copyColumnW false a b c d e m = copyColumn a b c d e m := by
    intro a b c d e m
    unfold copyColumnW copyColumn copyNW copyN
    split <;> rfl
  simp only [copyValuesW, View.copyValues, h]

/-! ## Specification -/

/-- Run on memories in which all elements of both views are storage, `run` makes every element `(r, c)` of `v` equal to `f` of its own old value and the value that element `(r, c)`
of `other` had *before* the run, and changes nothing else. -/
def ActsAtOnce (f : Option α → Option α → Option α) (v other : View) (run : Mem α → Res (Mem α)) : Prop :=
  ∀ m, v.Backed m → other.Backed m → ∃ m', run m = .ok m' ∧
    (∀ r c, v.HasElem r c →
      m' (v.data + r * v.inner + c * v.outer) = f (m (v.data + r * v.inner + c * v.outer)) (m (other.data + r * other.inner + c * other.outer))) ∧
    ∀ a, ¬ v.IsElemAddr (fun _ _ => True) a → m' a = m a

/-- The new value of an element after an assignment: the source. -/
def assigned (_ : Option α) (y : Option α) : Option α := y

/-- The new value of an element after `+=`: the sum. -/
def added [Add α] : Option α → Option α → Option α
  | some x, some y => some (x + y)
  | _, _ => none

/-- Element `(r, c)` is written before `(r', c')` is read: in an earlier column, or earlier in the same column, unless columns are moved at once. -/
def Earlier (atOnce : Bool) (r c r' c' : Int) : Prop := c < c' ∨ (c = c' ∧ r < r' ∧ atOnce = false)

/-- Whenever an element is written before the same place is read as part of the source, writing it has not changed it. -/
def OverlapOk (mm : Bool) (v other : View) : Prop :=
  ∀ r c r' c', v.HasElem r c → v.HasElem r' c' → Earlier (mm && decide (other.inner = 1 ∧ v.inner = 1)) r c r' c' →
    v.data + r * v.inner + c * v.outer = other.data + r' * other.inner + c' * other.outer →
    other.data + r * other.inner + c * other.outer = v.data + r * v.inner + c * v.outer

/-- No element is written before the same place is read as part of the source. -/
def AddOk (v other : View) : Prop :=
  ∀ r c r' c', v.HasElem r c → v.HasElem r' c' → Earlier false r c r' c' →
    v.data + r * v.inner + c * v.outer ≠ other.data + r' * other.inner + c' * other.outer

/-! ## Sequences of element moves -/

section seq

variable {ε : Type} (D S : ε → Int)

/-- One element. -/
def put (f : Option α → Option α → Option α) (src m : Mem α) (e : ε) : Mem α := fun a => if a = D e then f (m (D e)) (src (S e)) else m a

/-- A block of elements, all read at the start. -/
def block (f : Option α → Option α → Option α) (m : Mem α) (b : List ε) : Mem α := b.foldl (put D S f m) m

/-- Blocks, one after the other. -/
def blocks (f : Option α → Option α → Option α) (m : Mem α) (bs : List (List ε)) : Mem α := bs.foldl (block D S f) m

variable {D S}
variable {f : Option α → Option α → Option α}

theorem put_self (src m : Mem α) (e : ε) : put D S f src m e (D e) = f (m (D e)) (src (S e)) := by simp [put]

theorem put_other (src m : Mem α) (e : ε) {a : Int} (h : a ≠ D e) : put D S f src m e a = m a := by simp [put, h]

theorem fold_other (src : Mem α) (b : List ε) (m : Mem α) {a : Int} (h : ∀ e ∈ b, a ≠ D e) : b.foldl (put D S f src) m a = m a := by
  induction b generalizing m with
  | nil => rfl
  | cons e b ih =>
    rw [List.foldl_cons, ih _ fun e' he' => h e' (by simp [he']), put_other _ _ _ (h e (by simp))]

theorem fold_mem (src : Mem α) (b : List ε) (m : Mem α) (hd : b.Pairwise (fun e e' => D e ≠ D e')) {e : ε} (he : e ∈ b) :
    b.foldl (put D S f src) m (D e) = f (m (D e)) (src (S e)) := by
  induction b generalizing m with
  | nil => simp at he
  | cons x b ih =>
    rw [List.pairwise_cons] at hd
    rw [List.foldl_cons]
    rcases List.mem_cons.1 he with rfl | he'
    · rw [fold_other _ _ _ fun e' he' => hd.1 e' he', put_self]
    · rw [ih _ hd.2 he', put_other _ _ _ fun h => hd.1 e he' h.symm]

theorem blocks_other (bs : List (List ε)) (m : Mem α) {a : Int} (h : ∀ b ∈ bs, ∀ e ∈ b, a ≠ D e) : blocks D S f m bs a = m a := by
  induction bs generalizing m with
  | nil => rfl
  | cons b bs ih =>
    have := ih (block D S f m b) fun b' hb' => h b' (by simp [hb'])
    simp only [blocks, List.foldl_cons] at this ⊢
    rw [this]
    exact fold_other _ _ _ (h b (by simp))

theorem blocks_snoc (bs : List (List ε)) (b : List ε) (m : Mem α) : blocks D S f m (bs ++ [b]) = block D S f (blocks D S f m bs) b := by
  simp [blocks, List.foldl_append]

/-- All destinations of the blocks are different. -/
def Apart (D : ε → Int) (bs : List (List ε)) : Prop := bs.flatten.Pairwise (fun e e' => D e ≠ D e')

theorem apart_snoc {bs : List (List ε)} {b : List ε} (h : Apart D (bs ++ [b])) :
    Apart D bs ∧ b.Pairwise (fun e e' => D e ≠ D e') ∧ ∀ b' ∈ bs, ∀ e' ∈ b', ∀ e ∈ b, D e' ≠ D e := by
  simp only [Apart, List.flatten_append, List.pairwise_append, List.flatten_cons, List.flatten_nil, List.append_nil] at h
  refine ⟨h.1, h.2.1, fun b' hb' e' he' e he => h.2.2 e' (List.mem_flatten.2 ⟨b', hb', he'⟩) e he⟩

/-- What the blocks should do, on every memory in which everything is storage. -/
def Right (f : Option α → Option α → Option α) (D S : ε → Int) (m : Mem α) (bs : List (List ε)) : Prop :=
  ∀ b ∈ bs, ∀ e ∈ b, blocks D S f m bs (D e) = f (m (D e)) (m (S e))

/-- If reads see old values, the result is right. -/
theorem right_of_reads (bs : List (List ε)) (hd : Apart D bs) (m : Mem α)
    (h : ∀ pre b post, bs = pre ++ b :: post → ∀ e ∈ b, blocks D S f m pre (S e) = m (S e)) : Right f D S m bs := by
  induction bs using List.reverseRecOn with
  | nil => intro b hb; simp at hb
  | append_singleton bs b ih =>
    obtain ⟨h1, h2, h3⟩ := apart_snoc hd
    have hr : Right f D S m bs := ih h1 fun pre b' post hb e he => h pre b' (post ++ [b]) (by simp [hb]) e he
    intro b' hb' e he
    rw [blocks_snoc]
    rcases List.mem_append.1 hb' with hb' | hb'
    · rw [block, fold_other _ _ _ fun e' he' => h3 b' hb' e he e' he', hr b' hb' e he]
    · rw [List.mem_singleton] at hb'
      subst hb'
      rw [block, fold_mem _ _ _ h2 he, h bs b' [] rfl e he]
      rw [blocks_other bs m fun b'' hb'' e'' he'' heq => h3 b'' hb'' e'' he'' e he heq.symm]

/-- Sufficient for assignments: a place written before it is read keeps its value. -/
theorem copy_right (bs : List (List ε)) (hd : Apart D bs) (hok : bs.Pairwise (fun b b' => ∀ e ∈ b, ∀ e' ∈ b', D e = S e' → S e = D e)) (m : Mem α) :
    Right assigned D S m bs := by
  induction bs using List.reverseRecOn with
  | nil => intro b hb; simp at hb
  | append_singleton bs b ih =>
    obtain ⟨h1, h2, h3⟩ := apart_snoc hd
    rw [List.pairwise_append] at hok
    have hr := ih h1 hok.1
    intro b' hb' e he
    rw [blocks_snoc]
    rcases List.mem_append.1 hb' with hb' | hb'
    · rw [block, fold_other _ _ _ fun e' he' => h3 b' hb' e he e' he', hr b' hb' e he]
    · rw [List.mem_singleton] at hb'
      subst hb'
      rw [block, fold_mem _ _ _ h2 he]
      show blocks D S assigned m bs (S e) = m (S e)
      by_cases hw : ∃ b'' ∈ bs, ∃ e'' ∈ b'', D e'' = S e
      · obtain ⟨b'', hb'', e'', he'', hds⟩ := hw
        have hs := hok.2.2 b'' hb'' b' (by simp) e'' he'' e he hds
        rw [← hds, hr b'' hb'' e'' he'']
        show m (S e'') = m (D e'')
        rw [hs]
      · exact blocks_other bs m fun b'' hb'' e'' he'' heq => hw ⟨b'', hb'', e'', he'', heq.symm⟩

/-- Sufficient for sums: no place is written before it is read. -/
theorem add_right (bs : List (List ε)) (hd : Apart D bs) (hok : bs.Pairwise (fun b b' => ∀ e ∈ b, ∀ e' ∈ b', D e ≠ S e')) (m : Mem α) :
    Right f D S m bs := by
  refine right_of_reads bs hd m ?_
  rintro pre b post rfl e he
  refine blocks_other pre m fun b' hb' e' he' heq => ?_
  rw [List.pairwise_append] at hok
  exact hok.2.2 b' hb' b (by simp) e' he' e he heq.symm

/-- Necessary for assignments. -/
theorem copy_wrong [Nontrivial α] (bs : List (List ε)) (hd : Apart D bs)
    (hr : ∀ m : Mem α, (∀ a, (m a).isSome) → Right assigned D S m bs) :
    bs.Pairwise (fun b b' => ∀ e ∈ b, ∀ e' ∈ b', D e = S e' → S e = D e) := by
  induction bs using List.reverseRecOn with
  | nil => exact List.Pairwise.nil
  | append_singleton bs b ih =>
    obtain ⟨h1, h2, h3⟩ := apart_snoc hd
    have hr' : ∀ m : Mem α, (∀ a, (m a).isSome) → Right assigned D S m bs := by
      intro m hm b' hb' e he
      have := hr m hm b' (by simp [hb']) e he
      rwa [blocks_snoc, block, fold_other _ _ _ fun e' he' => h3 b' hb' e he e' he'] at this
    rw [List.pairwise_append]
    refine ⟨ih h1 hr', List.pairwise_singleton _ _, ?_⟩
    intro b' hb' b'' hb'' e he e' he' hds
    rw [List.mem_singleton] at hb''
    subst hb''
    by_contra hne
    obtain ⟨x, y, hxy⟩ := exists_pair_ne α
    set m : Mem α := fun a => if a = S e then some y else some x with hm
    have hms : ∀ a, (m a).isSome := by intro a; simp only [hm]; split <;> rfl
    have ha := hr m hms b'' (by simp) e' he'
    rw [blocks_snoc, block, fold_mem _ _ _ h2 he'] at ha
    have hb := hr' m hms b' hb' e he
    have hc : blocks D S assigned m bs (S e') = m (S e') := ha
    rw [← hds, hb] at hc
    have hc' : m (S e) = m (D e) := hc
    simp only [hm, if_true] at hc'
    rw [if_neg (Ne.symm hne)] at hc'
    exact hxy (Option.some.inj hc').symm

/-- Necessary for sums. -/
theorem add_wrong [Add α] (y : α) (hy : y + (y + y) ≠ y + y) (bs : List (List ε)) (hd : Apart D bs)
    (hr : ∀ m : Mem α, (∀ a, (m a).isSome) → Right added D S m bs) :
    bs.Pairwise (fun b b' => ∀ e ∈ b, ∀ e' ∈ b', D e ≠ S e') := by
  induction bs using List.reverseRecOn with
  | nil => exact List.Pairwise.nil
  | append_singleton bs b ih =>
    obtain ⟨h1, h2, h3⟩ := apart_snoc hd
    have hr' : ∀ m : Mem α, (∀ a, (m a).isSome) → Right added D S m bs := by
      intro m hm b' hb' e he
      have := hr m hm b' (by simp [hb']) e he
      rwa [blocks_snoc, block, fold_other _ _ _ fun e' he' => h3 b' hb' e he e' he'] at this
    rw [List.pairwise_append]
    refine ⟨ih h1 hr', List.pairwise_singleton _ _, ?_⟩
    intro b' hb' b'' hb'' e he e' he' hds
    rw [List.mem_singleton] at hb''
    subst hb''
    have hms : ∀ a : Int, ((fun _ => some y : Mem α) a).isSome := fun _ => rfl
    have ha := hr _ hms b'' (by simp) e' he'
    rw [blocks_snoc, block, fold_mem _ _ _ h2 he'] at ha
    have hb := hr' _ hms b' hb' e he
    rw [← hds, hb, blocks_other bs _ fun b₁ hb₁ e₁ he₁ heq => h3 b₁ hb₁ e₁ he₁ e' he' heq.symm] at ha
    simp only [added, Option.some.injEq] at ha
    exact hy ha

end seq

/-! ## The loops as sequences of blocks -/

theorem rangeI_snoc (k : Int) (hk : 0 ≤ k) : rangeI 0 (k + 1) = rangeI 0 k ++ [k] := by
  obtain ⟨n, rfl⟩ := Int.eq_ofNat_of_zero_le hk
  have : ((n : Int) + 1) = ((n + 1 : Nat) : Int) := by omega
  show rangeI 0 ((n : Int) + 1) = rangeI 0 (n : Int) ++ [(n : Int)]
  rw [this, rangeI_zero, rangeI_zero, List.range_succ, List.map_append]
  rfl

theorem rangeI_max (n : Int) : rangeI 0 (max 0 n) = rangeI 0 n := by
  unfold rangeI
  congr 2
  omega

theorem pairwise_rangeI {R : Int → Int → Prop} (n : Int) : (rangeI 0 n).Pairwise R ↔ ∀ i j, 0 ≤ i → i < j → j < n → R i j := by
  rw [List.pairwise_iff_getElem]
  constructor
  · intro h i j h0 hij hj
    have := h i.toNat j.toNat (by rw [rangeI_length]; omega) (by rw [rangeI_length]; omega) (by omega)
    simp only [rangeI, List.getElem_map, List.getElem_range] at this
    rwa [show (0 : Int) + (i.toNat : Int) = i by omega, show (0 : Int) + (j.toNat : Int) = j by omega] at this
  · intro h i j hi hj hij
    rw [rangeI_length] at hi hj
    simp only [rangeI, List.getElem_map, List.getElem_range]
    exact h _ _ (by omega) (by omega) (by omega)

/-- The address of an element. -/
def adr (v : View) (e : Int × Int) : Int := v.data + e.1 * v.inner + e.2 * v.outer

/-- The elements of a column. -/
def cells (rows c : Int) : List (Int × Int) := (rangeI 0 rows).map fun r => (r, c)

/-- A column as one block, or as one block per element. -/
def colBlocks (atOnce : Bool) (rows c : Int) : List (List (Int × Int)) := if atOnce then [cells rows c] else (cells rows c).map fun e => [e]

/-- All blocks. -/
def allBlocks (atOnce : Bool) (rows cols : Int) : List (List (Int × Int)) := (rangeI 0 cols).flatMap (colBlocks atOnce rows)

theorem mem_cells {rows c : Int} {e : Int × Int} : e ∈ cells rows c ↔ 0 ≤ e.1 ∧ e.1 < rows ∧ e.2 = c := by
  obtain ⟨r, c'⟩ := e
  simp only [cells, List.mem_map, mem_rangeI, Prod.mk.injEq]
  constructor
  · rintro ⟨r', h, rfl, rfl⟩; exact ⟨h.1, h.2, rfl⟩
  · rintro ⟨h1, h2, rfl⟩; exact ⟨r, ⟨h1, h2⟩, rfl, rfl⟩

theorem mem_colBlocks {b : Bool} {rows c : Int} {e : Int × Int} : (∃ l ∈ colBlocks b rows c, e ∈ l) ↔ 0 ≤ e.1 ∧ e.1 < rows ∧ e.2 = c := by
  rw [← mem_cells]
  cases b with
  | true => simp [colBlocks]
  | false =>
    simp only [colBlocks, Bool.false_eq_true, if_false, List.mem_map]
    constructor
    · rintro ⟨l, ⟨e', h, rfl⟩, he⟩
      rw [List.mem_singleton.1 he]
      exact h
    · intro h
      exact ⟨[e], ⟨e, h, rfl⟩, by simp⟩

theorem mem_allBlocks {b : Bool} (v : View) {e : Int × Int} : (∃ l ∈ allBlocks b v.rows v.cols, e ∈ l) ↔ v.HasElem e.1 e.2 := by
  simp only [allBlocks, List.mem_flatMap, mem_rangeI]
  constructor
  · rintro ⟨l, ⟨c, hc, hl⟩, he⟩
    obtain ⟨h1, h2, h3⟩ := mem_colBlocks.1 ⟨l, hl, he⟩
    exact ⟨h1, h2, by omega, by omega⟩
  · rintro ⟨h1, h2, h3, h4⟩
    obtain ⟨l, hl, he⟩ := (mem_colBlocks (b := b) (rows := v.rows) (c := e.2) (e := e)).2 ⟨h1, h2, rfl⟩
    exact ⟨l, ⟨e.2, ⟨h3, h4⟩, hl⟩, he⟩

/-- Pairs of elements in different blocks. -/
theorem pairwise_allBlocks {P : Int × Int → Int × Int → Prop} (atOnce : Bool) (v : View) :
    (allBlocks atOnce v.rows v.cols).Pairwise (fun b b' => ∀ e ∈ b, ∀ e' ∈ b', P e e') ↔
      ∀ r c r' c', v.HasElem r c → v.HasElem r' c' → Earlier atOnce r c r' c' → P (r, c) (r', c') := by
  rw [allBlocks, List.pairwise_flatMap, pairwise_rangeI]
  constructor
  · rintro ⟨h1, h2⟩ r c r' c' ⟨a1, a2, a3, a4⟩ ⟨b1, b2, b3, b4⟩ hE
    rcases hE with hlt | ⟨rfl, hr, rfl⟩
    · obtain ⟨l, hl, he⟩ := (mem_colBlocks (b := atOnce) (rows := v.rows) (c := c) (e := (r, c))).2 ⟨a1, a2, rfl⟩
      obtain ⟨l', hl', he'⟩ := (mem_colBlocks (b := atOnce) (rows := v.rows) (c := c') (e := (r', c'))).2 ⟨b1, b2, rfl⟩
      exact h2 c c' a3 hlt b4 l hl l' hl' _ he _ he'
    · have := h1 c (mem_rangeI.2 ⟨a3, a4⟩)
      simp only [colBlocks, cells, Bool.false_eq_true, if_false, List.map_map, List.pairwise_map, pairwise_rangeI, Function.comp] at this
      exact this r r' a1 hr b2 _ (by simp) _ (by simp)
  · intro h
    constructor
    · intro c hc
      rw [mem_rangeI] at hc
      cases atOnce with
      | true => simp [colBlocks]
      | false =>
        simp only [colBlocks, cells, Bool.false_eq_true, if_false, List.map_map, List.pairwise_map, pairwise_rangeI, Function.comp]
        intro r r' h0 hr hr' e he e' he'
        rw [List.mem_singleton] at he he'
        subst he he'
        exact h r c r' c ⟨h0, by omega, hc.1, hc.2⟩ ⟨by omega, hr', hc.1, hc.2⟩ (.inr ⟨rfl, hr, rfl⟩)
    · intro c c' h0 hlt hc l hl l' hl' e he e' he'
      obtain ⟨a1, a2, a3⟩ := mem_colBlocks.1 ⟨l, hl, he⟩
      obtain ⟨b1, b2, b3⟩ := mem_colBlocks.1 ⟨l', hl', he'⟩
      have := h e.1 e.2 e'.1 e'.2 ⟨a1, a2, by omega, by omega⟩ ⟨b1, b2, by omega, by omega⟩ (.inl (by omega))
      exact this

theorem flatten_allBlocks (atOnce : Bool) (rows cols : Int) : (allBlocks atOnce rows cols).flatten = (rangeI 0 cols).flatMap (cells rows) := by
  unfold allBlocks
  induction rangeI 0 cols with
  | nil => rfl
  | cons c l ih =>
    rw [List.flatMap_cons, List.flatten_append, ih, List.flatMap_cons]
    congr 1
    cases atOnce with
    | true => simp [colBlocks]
    | false =>
      simp only [colBlocks, Bool.false_eq_true, if_false]
      induction cells rows c with
      | nil => rfl
      | cons e l ih' => rw [List.map_cons, List.flatten_cons, ih']; rfl

theorem apart_allBlocks (atOnce : Bool) (v : View) (hinj : v.Injective) : Apart (adr v) (allBlocks atOnce v.rows v.cols) := by
  rw [Apart, flatten_allBlocks, List.pairwise_flatMap, pairwise_rangeI]
  constructor
  · intro c hc
    rw [mem_rangeI] at hc
    rw [cells, List.pairwise_map, pairwise_rangeI]
    intro r r' h0 hr hr' heq
    have := hinj r c r' c ⟨h0, by omega, hc.1, hc.2⟩ ⟨by omega, hr', hc.1, hc.2⟩ heq
    omega
  · intro c c' h0 hlt hc e he e' he' heq
    rw [mem_cells] at he he'
    have := hinj e.1 e.2 e'.1 e'.2 ⟨he.1, he.2.1, by omega, by omega⟩ ⟨he'.1, he'.2.1, by omega, by omega⟩ heq
    omega

/-- `m'` has storage wherever `m` has. -/
def Stays (m m' : Mem α) : Prop := ∀ a, (m a).isSome → (m' a).isSome

theorem put_stays {f : Option α → Option α → Option α} {D S : Int × Int → Int} (hf : ∀ x y, (f (some x) (some y)).isSome) {src m : Mem α} {e : Int × Int} (h1 : (m (D e)).isSome) (h2 : (src (S e)).isSome) :
    Stays m (put D S f src m e) := by
  intro a ha
  obtain ⟨x, hx⟩ := Option.isSome_iff_exists.1 h1
  obtain ⟨y, hy⟩ := Option.isSome_iff_exists.1 h2
  simp only [put, hx, hy]
  split
  · exact hf x y
  · exact ha

/-- The loop over a column, element by element. -/
theorem column_run {f : Option α → Option α → Option α} (hf : ∀ x y, (f (some x) (some y)).isSome) (v other : View) (c : Int) (m : Mem α)
    (body : Int → Mem α × Int × Int → Res (Mem α × Int × Int))
    (hb : ∀ i (s : Mem α) e, (s (adr v e)).isSome → (s (adr other e)).isSome →
      body i (s, adr other e, adr v e) = .ok (put (adr v) (adr other) f s s e, adr other e + other.inner, adr v e + v.inner))
    (hv : ∀ r, 0 ≤ r → r < v.rows → (m (adr v (r, c))).isSome ∧ (m (adr other (r, c))).isSome) :
    ∃ q, forRange 0 v.rows body (m, adr other (0, c), adr v (0, c)) = .ok (blocks (adr v) (adr other) f m (colBlocks false v.rows c), q) ∧
      Stays m (blocks (adr v) (adr other) f m (colBlocks false v.rows c)) := by
  obtain ⟨s', h1, h2, h3, h4⟩ := forRange_inv (lo := 0) (hi := v.rows) (s := (m, adr other (0, c), adr v (0, c))) (body := body)
    (fun k s => s.1 = blocks (adr v) (adr other) f m (colBlocks false k c) ∧ Stays m s.1 ∧ s.2 = (adr other (k, c), adr v (k, c)))
    ⟨rfl, fun _ h => h, rfl⟩
    (by
      rintro i ⟨s, q⟩ h0 hi ⟨h1, h2, h3⟩
      dsimp only at h1 h2 h3
      subst h3
      obtain ⟨a1, a2⟩ := hv i h0 hi
      refine ⟨_, hb i s (i, c) (h2 _ a1) (h2 _ a2), ?_, ?_, ?_⟩
      · dsimp only
        simp only [colBlocks, cells, Bool.false_eq_true, if_false, rangeI_snoc i h0, List.map_append, List.map_cons, List.map_nil] at h1 ⊢
        rw [blocks_snoc, ← h1]
        rfl
      · exact fun a ha => put_stays hf (h2 _ a1) (h2 _ a2) a (h2 a ha)
      · simp only [adr, Prod.mk.injEq]
        constructor <;> ring)
  have hm : colBlocks false (max 0 v.rows) c = colBlocks false v.rows c := by simp only [colBlocks, cells, rangeI_max]
  rw [hm] at h2
  refine ⟨s'.2, ?_, ?_⟩
  · rw [h1, ← h2]
  · rw [← h2]; exact h3

/-- The column moved at once, or as `std::copy_n` is specified. -/
theorem copyN_run (mm : Bool) (v other : View) (c : Int) (m : Mem α) (hi : other.inner = 1 ∧ v.inner = 1)
    (hv : ∀ r, 0 ≤ r → r < v.rows → (m (adr v (r, c))).isSome ∧ (m (adr other (r, c))).isSome) :
    copyNW mm (adr other (0, c)) v.rows (adr v (0, c)) m = .ok (blocks (adr v) (adr other) assigned m (colBlocks mm v.rows c)) ∧
      Stays m (blocks (adr v) (adr other) assigned m (colBlocks mm v.rows c)) := by
  obtain ⟨s', h1, h2, h3⟩ := forRange_inv (lo := 0) (hi := v.rows) (s := m)
    (body := fun i (s : Mem α) => do s.write (adr v (0, c) + i) (← (if mm then m else s).read (adr other (0, c) + i)))
    (fun k s => s = blocks (adr v) (adr other) assigned m (colBlocks mm k c) ∧ Stays m s)
    ⟨by cases mm <;> rfl, fun _ h => h⟩
    (by
      intro i s h0 hir ⟨h1, h2⟩
      obtain ⟨a1, a2⟩ := hv i h0 hir
      have e1 : adr v (0, c) + i = adr v (i, c) := by simp only [adr, hi.2]; ring
      have e2 : adr other (0, c) + i = adr other (i, c) := by simp only [adr, hi.1]; ring
      obtain ⟨x, hx⟩ := Option.isSome_iff_exists.1 (h2 _ a1)
      obtain ⟨z, hz⟩ : ∃ z, (if mm then m else s) (adr other (i, c)) = some z := by
        cases mm with
        | true => exact Option.isSome_iff_exists.1 a2
        | false => exact Option.isSome_iff_exists.1 (h2 _ a2)
      refine ⟨put (adr v) (adr other) assigned (if mm then m else s) s (i, c), ?_, ?_, ?_⟩
      · rw [e1, e2]
        simp only [Mem.read, Mem.write, hz, hx, res_ok_bind]
        congr 1
        funext a
        simp only [put, assigned, hz]
      · cases mm with
        | true =>
          simp only [colBlocks, cells, if_true, rangeI_snoc i h0, List.map_append, List.map_cons, List.map_nil] at h1 ⊢
          simp only [blocks, List.foldl_cons, List.foldl_nil, block, List.foldl_append] at h1 ⊢
          rw [← h1]
        | false =>
          simp only [colBlocks, cells, Bool.false_eq_true, if_false, rangeI_snoc i h0, List.map_append, List.map_cons, List.map_nil] at h1 ⊢
          rw [blocks_snoc, ← h1]
          rfl
      · exact fun a ha => put_stays (fun x y => rfl) (h2 _ a1) (by rw [hz]; rfl) a (h2 a ha))
  have hm : colBlocks mm (max 0 v.rows) c = colBlocks mm v.rows c := by simp only [colBlocks, cells, rangeI_max]
  rw [hm] at h2
  rw [← h2]
  exact ⟨h1, h3⟩

/-- The loop over the columns. -/
theorem columns_run {f : Option α → Option α → Option α} (v other : View) (atOnce : Bool) (m : Mem α) (col : Int → Int → Mem α → Res (Mem α))
    (hcol : ∀ c (s : Mem α), (∀ r, 0 ≤ r → r < v.rows → (s (adr v (r, c))).isSome ∧ (s (adr other (r, c))).isSome) →
      col (adr other (0, c)) (adr v (0, c)) s = .ok (blocks (adr v) (adr other) f s (colBlocks atOnce v.rows c)) ∧
      Stays s (blocks (adr v) (adr other) f s (colBlocks atOnce v.rows c)))
    (hrows : other.rows = v.rows) (hcols : other.cols = v.cols) (hv : v.Backed m) (ho : other.Backed m) :
    (do
      assertThat (decide (other.rows = v.rows))
      assertThat (decide (other.cols = v.cols))
      let s ← forRange 0 v.cols (fun _ (s : Mem α × Int × Int) => do
        let m ← col s.2.1 s.2.2 s.1
        return (m, s.2.1 + other.outer, s.2.2 + v.outer)) (m, other.data, v.data)
      return s.1) = Except.ok (blocks (adr v) (adr other) f m (allBlocks atOnce v.rows v.cols)) := by
  obtain ⟨s', h1, h2, h3, h4⟩ := forRange_inv (lo := 0) (hi := v.cols) (s := (m, other.data, v.data))
    (body := fun _ (s : Mem α × Int × Int) => do
        let m ← col s.2.1 s.2.2 s.1
        return (m, s.2.1 + other.outer, s.2.2 + v.outer))
    (fun k s => s.1 = blocks (adr v) (adr other) f m (allBlocks atOnce v.rows k) ∧ Stays m s.1 ∧ s.2 = (adr other (0, k), adr v (0, k)))
    ⟨rfl, fun _ h => h, by simp [adr]⟩
    (by
      rintro c ⟨s, q⟩ h0 hc ⟨h1, h2, h3⟩
      dsimp only at h1 h2 h3
      subst h3
      obtain ⟨k1, k2⟩ := hcol c s (by
        intro r hr0 hr
        obtain ⟨x, hx⟩ := hv r c ⟨hr0, hr, h0, hc⟩
        obtain ⟨y, hy⟩ := ho r c ⟨hr0, by omega, h0, by omega⟩
        exact ⟨h2 _ (by simp only [adr]; rw [hx]; rfl), h2 _ (by simp only [adr]; rw [hy]; rfl)⟩)
      refine ⟨(blocks (adr v) (adr other) f s (colBlocks atOnce v.rows c), adr other (0, c) + other.outer, adr v (0, c) + v.outer), ?_, ?_, ?_, ?_⟩
      · dsimp only
        rw [k1]
        rfl
      · dsimp only
        rw [h1]
        simp only [allBlocks, rangeI_snoc c h0, List.flatMap_append, List.flatMap_cons, List.flatMap_nil, List.append_nil, blocks, List.foldl_append]
      · exact fun a ha => k2 a (h2 a ha)
      · simp only [adr, Prod.mk.injEq]
        constructor <;> ring)
  simp only [hrows, hcols, assertThat, decide_true, if_true, res_ok_bind]
  rw [h1]
  simp only [allBlocks, rangeI_max] at h2
  show Except.ok s'.1 = _
  rw [h2]
  rfl

theorem copyValuesW_run (mm : Bool) (v other : View) (m : Mem α) (hrows : other.rows = v.rows) (hcols : other.cols = v.cols) (hv : v.Backed m) (ho : other.Backed m) :
    copyValuesW mm v other m = .ok (blocks (adr v) (adr other) assigned m (allBlocks (mm && decide (other.inner = 1 ∧ v.inner = 1)) v.rows v.cols)) := by
  refine columns_run (f := assigned) v other (mm && decide (other.inner = 1 ∧ v.inner = 1)) m (fun a b s => copyColumnW mm other.inner v.inner v.rows a b s) ?_ hrows hcols hv ho
  intro c s hs
  by_cases hi : other.inner = 1 ∧ v.inner = 1
  · have := copyN_run mm v other c s hi hs
    simp only [hi, and_self, decide_true, Bool.and_true, copyColumnW, if_true]
    exact this
  · obtain ⟨q, h1, h2⟩ := column_run (f := assigned) (fun _ _ => rfl) v other c s
      (fun _ (s : Mem α × Int × Int) => do
        let m ← s.1.write s.2.2 (← s.1.read s.2.1)
        return (m, s.2.1 + other.inner, s.2.2 + v.inner))
      (by
        intro i s e a1 a2
        obtain ⟨x, hx⟩ := Option.isSome_iff_exists.1 a1
        obtain ⟨y, hy⟩ := Option.isSome_iff_exists.1 a2
        simp only [Mem.read, Mem.write, hx, hy, res_ok_bind, res_pure]
        congr 2
        funext a
        simp only [put, assigned, hy]) hs
    simp only [hi, decide_false, Bool.and_false, copyColumnW, copyColumn, if_false]
    refine ⟨?_, h2⟩
    rw [h1]
    rfl

theorem addView_run [Add α] (v other : View) (m : Mem α) (hrows : other.rows = v.rows) (hcols : other.cols = v.cols) (hv : v.Backed m) (ho : other.Backed m) :
    v.addView other m = .ok (blocks (adr v) (adr other) added m (allBlocks false v.rows v.cols)) := by
  refine columns_run (f := added) v other false m (fun a b s => addColumn other.inner v.inner v.rows a b s) ?_ hrows hcols hv ho
  intro c s hs
  obtain ⟨q, h1, h2⟩ := column_run (f := added) (fun _ _ => rfl) v other c s
    (fun _ (s : Mem α × Int × Int) => do
      let y ← s.1.read s.2.1
      let x ← s.1.read s.2.2
      let m ← s.1.write s.2.2 (x + y)
      return (m, s.2.1 + other.inner, s.2.2 + v.inner))
    (by
      intro i s e a1 a2
      obtain ⟨x, hx⟩ := Option.isSome_iff_exists.1 a1
      obtain ⟨y, hy⟩ := Option.isSome_iff_exists.1 a2
      simp only [Mem.read, Mem.write, hx, hy, res_ok_bind, res_pure]
      congr 2
      funext a
      simp only [put, added, hx, hy]) hs
  refine ⟨?_, h2⟩
  simp only [addColumn]
  rw [h1]
  rfl

/-- For runs that are sequences of blocks. -/
theorem acts_iff {f : Option α → Option α → Option α} {v other : View} {run : Mem α → Res (Mem α)} (bs : List (List (Int × Int))) (hbs : ∀ e, (∃ l ∈ bs, e ∈ l) ↔ v.HasElem e.1 e.2)
    (hrun : ∀ m, v.Backed m → other.Backed m → run m = .ok (blocks (adr v) (adr other) f m bs)) :
    ActsAtOnce f v other run ↔ ∀ m, v.Backed m → other.Backed m → Right f (adr v) (adr other) m bs := by
  constructor
  · intro h m hv ho l hl e he
    obtain ⟨m', h1, h2, -⟩ := h m hv ho
    rw [hrun m hv ho] at h1
    cases h1
    exact h2 e.1 e.2 ((hbs e).1 ⟨l, hl, he⟩)
  · intro h m hv ho
    refine ⟨_, hrun m hv ho, ?_, ?_⟩
    · intro r c hrc
      obtain ⟨l, hl, he⟩ := (hbs (r, c)).2 hrc
      exact h m hv ho l hl (r, c) he
    · intro a ha
      refine blocks_other _ _ fun l hl e he heq => ha ?_
      exact ⟨e.1, e.2, (hbs e).1 ⟨l, hl, he⟩, trivial, heq⟩

theorem backed_of_total (v : View) (m : Mem α) (h : ∀ a, (m a).isSome) : v.Backed m := fun _ _ _ => Option.isSome_iff_exists.1 (h _)

/-! ## C144 -/

/-- C144 (partial: an assignment between overlapping views does not always act as if the source were read first). Exactly when it does: no place may be written before it is read
as part of the source, unless the write does not change it. -/
theorem assign_overlap_partial [Nontrivial α] (mm : Bool) (v other : View) (hrows : other.rows = v.rows) (hcols : other.cols = v.cols) (hinj : v.Injective) :
    ActsAtOnce (α := α) assigned v other (copyValuesW mm v other) ↔ OverlapOk mm v other := by
  rw [acts_iff _ (fun e => mem_allBlocks v) fun m hv ho => copyValuesW_run mm v other m hrows hcols hv ho]
  have hd := apart_allBlocks (mm && decide (other.inner = 1 ∧ v.inner = 1)) v hinj
  have hp := pairwise_allBlocks (P := fun e e' => adr v e = adr other e' → adr other e = adr v e) (mm && decide (other.inner = 1 ∧ v.inner = 1)) v
  constructor
  · intro h
    exact hp.1 (copy_wrong (α := α) _ hd fun m hm => h m (backed_of_total v m hm) (backed_of_total other m hm))
  · intro h m _ _
    exact copy_right _ hd (hp.2 h) m

/-- C144 for `+=`: exactly when it acts as if both operands were read first (`1 + (1 + 1) ≠ 1 + 1` in the usual element types). -/
theorem add_overlap_partial [Add α] (y : α) (hy : y + (y + y) ≠ y + y) (v other : View) (hrows : other.rows = v.rows) (hcols : other.cols = v.cols) (hinj : v.Injective) :
    ActsAtOnce (α := α) added v other (v.addView other) ↔ AddOk v other := by
  rw [acts_iff _ (fun e => mem_allBlocks v) fun m hv ho => addView_run v other m hrows hcols hv ho]
  have hd := apart_allBlocks false v hinj
  have hp := pairwise_allBlocks (P := fun e e' => adr v e ≠ adr other e') false v
  constructor
  · intro h
    exact hp.1 (add_wrong (α := α) y hy _ hd fun m hm => h m (backed_of_total v m hm) (backed_of_total other m hm))
  · intro h m _ _
    exact add_right _ hd (hp.2 h) m

/-! ## Shifting a matrix -/

/-- The elements of the matrix, column after column, have increasing addresses. -/
def ColumnMajor (v : View) : Prop := 1 ≤ v.inner ∧ (v.rows - 1) * v.inner + 1 ≤ v.outer

theorem lex_lt {v : View} (h : ColumnMajor v) {r c r' c' : Int} (h1 : v.HasElem r c) (h2 : v.HasElem r' c') (hlt : c < c' ∨ (c = c' ∧ r < r')) :
    r * v.inner + c * v.outer < r' * v.inner + c' * v.outer := by
  obtain ⟨hi, ho⟩ := h
  obtain ⟨a1, a2, a3, a4⟩ := h1
  obtain ⟨b1, b2, b3, b4⟩ := h2
  rcases hlt with hc | ⟨rfl, hr⟩
  · have e1 : r * v.inner ≤ (v.rows - 1) * v.inner := Int.mul_le_mul_of_nonneg_right (by omega) (by omega)
    have e2 : 0 ≤ r' * v.inner := Int.mul_nonneg b1 (by omega)
    have e0 : 0 ≤ (v.rows - 1) * v.inner := Int.mul_nonneg (by omega) (by omega)
    have e3 : (c + 1) * v.outer ≤ c' * v.outer := Int.mul_le_mul_of_nonneg_right (by omega) (by omega)
    rw [Int.add_mul] at e3
    omega
  · have : r * v.inner < r' * v.inner := Int.mul_lt_mul_of_pos_right hr (by omega)
    omega

theorem lex_inj {v : View} (h : ColumnMajor v) {r c r' c' : Int} (h1 : v.HasElem r c) (h2 : v.HasElem r' c')
    (he : r * v.inner + c * v.outer = r' * v.inner + c' * v.outer) : r = r' ∧ c = c' := by
  by_contra hne
  have : (c < c' ∨ (c = c' ∧ r < r')) ∨ (c' < c ∨ (c' = c ∧ r' < r)) := by omega
  rcases this with hl | hl
  · have := lex_lt h h1 h2 hl; omega
  · have := lex_lt h h2 h1 hl; omega

theorem injective_of_columnMajor {v : View} (h : ColumnMajor v) : v.Injective := by
  intro r c r' c' h1 h2 he
  exact lex_inj h h1 h2 (by omega)

theorem earlier_lex {b : Bool} {r c r' c' : Int} (h : Earlier b r c r' c') : c < c' ∨ (c = c' ∧ r < r') := by
  rcases h with h | ⟨h1, h2, -⟩
  · exact .inl h
  · exact .inr ⟨h1, h2⟩

/-- C144: with equal strides, a source that starts at or after the destination is always read in time: shifting a column-major matrix towards its start works, whatever
the overlap, for `=` and for `+=`. -/
theorem overlap_forward [Add α] (mm : Bool) (v other : View) (hrows : other.rows = v.rows) (hcols : other.cols = v.cols) (hi : other.inner = v.inner) (ho : other.outer = v.outer)
    (hl : ColumnMajor v) (hd : v.data ≤ other.data) :
    ActsAtOnce (α := α) assigned v other (copyValuesW mm v other) ∧ ActsAtOnce (α := α) added v other (v.addView other) := by
  have key : ∀ {r c r' c' : Int}, v.HasElem r c → v.HasElem r' c' → (c < c' ∨ (c = c' ∧ r < r')) →
      v.data + r * v.inner + c * v.outer ≠ other.data + r' * other.inner + c' * other.outer := by
    intro r c r' c' h1 h2 h3 he
    have := lex_lt hl h1 h2 h3
    rw [hi, ho] at he
    omega
  have hinj := injective_of_columnMajor hl
  constructor
  · rw [acts_iff _ (fun e => mem_allBlocks v) fun m hv ho => copyValuesW_run mm v other m hrows hcols hv ho]
    intro m _ _
    refine copy_right _ (apart_allBlocks _ v hinj) ((pairwise_allBlocks (P := fun e e' => adr v e = adr other e' → adr other e = adr v e) _ v).2 ?_) m
    intro r c r' c' h1 h2 hE he
    exact absurd he (key h1 h2 (earlier_lex hE))
  · rw [acts_iff _ (fun e => mem_allBlocks v) fun m hv ho => addView_run v other m hrows hcols hv ho]
    intro m _ _
    refine add_right _ (apart_allBlocks _ v hinj) ((pairwise_allBlocks (P := fun e e' => adr v e ≠ adr other e') _ v).2 ?_) m
    intro r c r' c' h1 h2 hE
    exact key h1 h2 (earlier_lex hE)

theorem leftCols_ok {A : View} {n : Int} (h0 : 0 ≤ n) (h1 : n ≤ A.cols) : A.leftCols n = .ok { A with cols := n } := by
  simp only [View.leftCols, assertThat, h0, h1, and_self, decide_true, if_true, res_ok_bind]; rfl

theorem rightCols_ok {A : View} {n : Int} (h0 : 0 ≤ n) (h1 : n ≤ A.cols) :
    A.rightCols n = .ok { A with data := A.data + A.outer * (A.cols - n), cols := n } := by
  simp only [View.rightCols, assertThat, h0, h1, and_self, decide_true, if_true, res_ok_bind]; rfl

theorem topRows_ok {A : View} {n : Int} (h0 : 0 ≤ n) (h1 : n ≤ A.rows) : A.topRows n = .ok { A with rows := n } := by
  simp only [View.topRows, assertThat, h0, h1, and_self, decide_true, if_true, res_ok_bind]; rfl

theorem bottomRows_ok {A : View} {n : Int} (h0 : 0 ≤ n) (h1 : n ≤ A.rows) :
    A.bottomRows n = .ok { A with data := A.data + A.inner * (A.rows - n), rows := n } := by
  simp only [View.bottomRows, assertThat, h0, h1, and_self, decide_true, if_true, res_ok_bind]; rfl

/-- C144: `A.left_cols(n - k) = A.right_cols(n - k)` moves the columns, for all `k`. -/
theorem shift_cols_left [Add α] (mm : Bool) (A L R : View) (k : Int) (hk : 0 ≤ k) (hn : k ≤ A.cols) (hA : ColumnMajor A) (hr : 1 ≤ A.rows)
    (hL : A.leftCols (A.cols - k) = .ok L) (hR : A.rightCols (A.cols - k) = .ok R) :
    ActsAtOnce (α := α) assigned L R (copyValuesW mm L R) ∧ ActsAtOnce (α := α) added L R (L.addView R) := by
  rw [leftCols_ok (by omega) (by omega)] at hL
  rw [rightCols_ok (by omega) (by omega)] at hR
  cases hL; cases hR
  refine overlap_forward mm _ _ rfl rfl rfl rfl hA ?_
  have e0 : 0 ≤ (A.rows - 1) * A.inner := Int.mul_nonneg (by omega) (by have := hA.1; omega)
  have : 0 ≤ A.outer * (A.cols - (A.cols - k)) := Int.mul_nonneg (by have := hA.2; omega) (by omega)
  dsimp only
  omega

/-- C144: `A.right_cols(n - k) = A.left_cols(n - k)` moves the columns only if the two sides do not overlap, or are the same. -/
theorem shift_cols_right_iff [Nontrivial α] (mm : Bool) (A L R : View) (k : Int) (hk : 0 ≤ k) (hn : k ≤ A.cols) (hA : ColumnMajor A) (hr : 1 ≤ A.rows)
    (hL : A.leftCols (A.cols - k) = .ok L) (hR : A.rightCols (A.cols - k) = .ok R) :
    ActsAtOnce (α := α) assigned R L (copyValuesW mm R L) ↔ k = 0 ∨ A.cols ≤ 2 * k := by
  rw [leftCols_ok (by omega) (by omega)] at hL
  rw [rightCols_ok (by omega) (by omega)] at hR
  cases hL; cases hR
  have hm : A.outer * (A.cols - (A.cols - k)) = k * A.outer := by rw [show A.cols - (A.cols - k) = k by omega]; exact Int.mul_comm _ _
  have hinj : ({ A with data := A.data + A.outer * (A.cols - (A.cols - k)), cols := A.cols - k } : View).Injective := by
    intro r c r' c' h1 h2 he
    dsimp only [View.HasElem] at h1 h2 he
    exact lex_inj hA (r := r) (c := c) (r' := r') (c' := c') ⟨h1.1, h1.2.1, h1.2.2.1, by omega⟩ ⟨h2.1, h2.2.1, h2.2.2.1, by omega⟩ (by omega)
  rw [assign_overlap_partial mm ({ A with data := A.data + A.outer * (A.cols - (A.cols - k)), cols := A.cols - k } : View) ({ A with cols := A.cols - k } : View) rfl rfl hinj]
  constructor
  · intro h
    by_contra hne
    have := h 0 0 0 k ⟨Int.le_refl _, by dsimp only; omega, Int.le_refl _, by dsimp only; omega⟩ ⟨Int.le_refl _, by dsimp only; omega, hk, by dsimp only; omega⟩
      (.inl (by omega)) (by dsimp only; rw [hm]; ring)
    dsimp only at this
    have := lex_inj hA (r := 0) (c := 0) (r' := 0) (c' := k) ⟨Int.le_refl _, by omega, Int.le_refl _, by omega⟩ ⟨Int.le_refl _, by omega, by omega, by omega⟩ (by omega)
    omega
  · intro h r c r' c' h1 h2 hE he
    dsimp only [View.HasElem] at h1 h2 he ⊢
    have hlex := earlier_lex hE
    rw [hm] at he ⊢
    have := lex_inj hA (r := r) (c := c + k) (r' := r') (c' := c') ⟨h1.1, h1.2.1, by omega, by omega⟩ ⟨h2.1, h2.2.1, by omega, by omega⟩
      (by rw [Int.add_mul]; omega)
    rcases h with rfl | h
    · omega
    · omega

/-- C144: `A.top_rows(n - k) = A.bottom_rows(n - k)` moves the rows, for all `k`. -/
theorem shift_rows_up [Add α] (mm : Bool) (A T B : View) (k : Int) (hk : 0 ≤ k) (hn : k ≤ A.rows) (hA : ColumnMajor A)
    (hT : A.topRows (A.rows - k) = .ok T) (hB : A.bottomRows (A.rows - k) = .ok B) :
    ActsAtOnce (α := α) assigned T B (copyValuesW mm T B) ∧ ActsAtOnce (α := α) added T B (T.addView B) := by
  rw [topRows_ok (by omega) (by omega)] at hT
  rw [bottomRows_ok (by omega) (by omega)] at hB
  cases hT; cases hB
  have h1 := hA.1
  have h2 := hA.2
  refine overlap_forward mm _ _ rfl rfl rfl rfl ⟨h1, ?_⟩ ?_
  · have : (A.rows - k - 1) * A.inner ≤ (A.rows - 1) * A.inner := Int.mul_le_mul_of_nonneg_right (by omega) (by omega)
    dsimp only
    omega
  · have : 0 ≤ A.inner * (A.rows - (A.rows - k)) := Int.mul_nonneg (by omega) (by omega)
    dsimp only
    omega

/-- C144: `A.bottom_rows(n - k) = A.top_rows(n - k)` moves the rows only if the two sides do not overlap, or are the same, or `std::copy_n` is a `memmove` and elements are adjacent. -/
theorem shift_rows_down_iff [Nontrivial α] (mm : Bool) (A T B : View) (k : Int) (hk : 0 ≤ k) (hn : k ≤ A.rows) (hA : ColumnMajor A) (hc : 1 ≤ A.cols)
    (hT : A.topRows (A.rows - k) = .ok T) (hB : A.bottomRows (A.rows - k) = .ok B) :
    ActsAtOnce (α := α) assigned B T (copyValuesW mm B T) ↔ k = 0 ∨ A.rows ≤ 2 * k ∨ (mm = true ∧ A.inner = 1) := by
  rw [topRows_ok (by omega) (by omega)] at hT
  rw [bottomRows_ok (by omega) (by omega)] at hB
  cases hT; cases hB
  have hm : A.inner * (A.rows - (A.rows - k)) = k * A.inner := by rw [show A.rows - (A.rows - k) = k by omega]; exact Int.mul_comm _ _
  have hinj : ({ A with data := A.data + A.inner * (A.rows - (A.rows - k)), rows := A.rows - k } : View).Injective := by
    intro r c r' c' h1 h2 he
    dsimp only [View.HasElem] at h1 h2 he
    exact lex_inj hA (r := r) (c := c) (r' := r') (c' := c') ⟨h1.1, by omega, h1.2.2⟩ ⟨h2.1, by omega, h2.2.2⟩ (by omega)
  rw [assign_overlap_partial mm ({ A with data := A.data + A.inner * (A.rows - (A.rows - k)), rows := A.rows - k } : View) ({ A with rows := A.rows - k } : View) rfl rfl hinj]
  constructor
  · intro h
    by_contra hne
    have := h 0 0 k 0 ⟨Int.le_refl _, by dsimp only; omega, Int.le_refl _, by dsimp only; omega⟩ ⟨hk, by dsimp only; omega, Int.le_refl _, by dsimp only; omega⟩
      (.inr ⟨rfl, by omega, by cases mm <;> simp_all⟩) (by dsimp only; rw [hm]; ring)
    dsimp only at this
    have := lex_inj hA (r := 0) (c := 0) (r' := k) (c' := 0) ⟨Int.le_refl _, by omega, Int.le_refl _, by omega⟩ ⟨by omega, by omega, by omega, by omega⟩ (by omega)
    omega
  · intro h r c r' c' h1 h2 hE he
    dsimp only [View.HasElem] at h1 h2 he ⊢
    rw [hm] at he ⊢
    have := lex_inj hA (r := r + k) (c := c) (r' := r') (c' := c') ⟨by omega, by omega, h1.2.2⟩ ⟨h2.1, by omega, h2.2.2⟩
      (by rw [Int.add_mul]; omega)
    rcases h with rfl | h | ⟨rfl, hi⟩
    · rcases earlier_lex hE with h3 | h3 <;> omega
    · omega
    · rcases hE with h3 | ⟨-, -, h3⟩
      · omega
      · simp [hi] at h3

/-- The hypotheses are met by a 3 × 4 matrix with columns 5 apart. -/
example : ColumnMajor ⟨100, 3, 4, 1, 5⟩ ∧ (⟨100, 3, 4, 1, 5⟩ : View).leftCols 3 = .ok ⟨100, 3, 3, 1, 5⟩ ∧ (⟨100, 3, 4, 1, 5⟩ : View).rightCols 3 = .ok ⟨105, 3, 3, 1, 5⟩ ∧
    ((1 : Int) + (1 + 1) ≠ 1 + 1) := by
  refine ⟨by constructor <;> decide, by decide, by decide, by decide⟩

/-- Shifting the columns of that matrix to the right by one does not work, by two it does; shifting the rows down works if `copy_n` is a `memmove`. -/
example : (¬ ActsAtOnce (α := Int) assigned ⟨105, 3, 3, 1, 5⟩ ⟨100, 3, 3, 1, 5⟩ (copyValuesW true ⟨105, 3, 3, 1, 5⟩ ⟨100, 3, 3, 1, 5⟩)) ∧
    ActsAtOnce (α := Int) assigned ⟨110, 3, 2, 1, 5⟩ ⟨100, 3, 2, 1, 5⟩ (copyValuesW true ⟨110, 3, 2, 1, 5⟩ ⟨100, 3, 2, 1, 5⟩) ∧
    ActsAtOnce (α := Int) assigned ⟨101, 2, 4, 1, 5⟩ ⟨100, 2, 4, 1, 5⟩ (copyValuesW true ⟨101, 2, 4, 1, 5⟩ ⟨100, 2, 4, 1, 5⟩) := by
  have hA : ColumnMajor ⟨100, 3, 4, 1, 5⟩ := by constructor <;> decide
  refine ⟨fun h => ?_, ?_, ?_⟩
  · have := (shift_cols_right_iff (α := Int) true ⟨100, 3, 4, 1, 5⟩ _ _ 1 (by decide) (by decide) hA (by decide) rfl rfl).1 h
    revert this; decide
  · exact (shift_cols_right_iff (α := Int) true ⟨100, 3, 4, 1, 5⟩ _ _ 2 (by decide) (by decide) hA (by decide) rfl rfl).2 (.inr (by decide))
  · exact (shift_rows_down_iff (α := Int) true ⟨100, 3, 4, 1, 5⟩ _ _ 1 (by decide) (by decide) hA (by decide) rfl rfl).2 (.inr (.inr ⟨rfl, rfl⟩))

end Guanaqo.MatView.Overlap
