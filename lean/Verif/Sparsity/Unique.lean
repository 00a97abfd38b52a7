import Verif.Sparsity.ToDense
import Mathlib.Data.List.Nodup

/-!
# Helper lemmas about the uniqueness checks
-/

namespace Guanaqo.Sparsity

theorem mapM_ok {α β : Type} {f : α → Res β} {g : α → β} {l : List α}
    (h : ∀ x ∈ l, f x = .ok (g x)) : l.mapM f = .ok (l.map g) := by
  induction l with
  | nil => rfl
  | cons a l ih =>
    rw [List.mapM_cons, h a (by simp), ih (fun x hx => h x (by simp [hx]))]
    rfl

theorem foldl_and (l : List Bool) (b : Bool) : l.foldl (· && ·) b = (b && l.all id) := by
  induction l generalizing b with
  | nil => simp
  | cons a l ih => rw [List.foldl_cons, ih]; simp [Bool.and_assoc]

theorem outer_zip_tail {s : CSC} (h : s.Wf) :
    s.outerPtr.zip s.outerPtr.tail =
      (List.range s.cols.toNat).map (fun c => ((s.start c : Int), (s.start (c + 1) : Int))) := by
  have hl := h.outer_length
  have hc := h.cols_nonneg
  apply List.ext_getElem
  · simp; omega
  · intro i h1 h2
    have hi : i < s.cols.toNat := by simpa using h2
    have e : ∀ {j}, j ≤ s.cols.toNat → ∀ (hj : j < s.outerPtr.length),
        s.outerPtr[j] = (s.start j : Int) := by
      intro j hj hj'
      rw [← h.outer_start hj]
      simp [List.getD, hj']
    simp [e (show i ≤ s.cols.toNat by omega), e (show i + 1 ≤ s.cols.toNat by omega)]

theorem checkUniquenessCsc_eq {s : CSC} (h : s.Wf) :
    checkUniquenessCsc s.outerPtr s.innerIdx =
      .ok ((List.range s.cols.toNat).all
        (fun c => noAdjacentEqual (slice s.innerIdx (s.start c) (s.start (c + 1))))) := by
  rw [checkUniquenessCsc, outer_zip_tail h,
    mapM_ok (g := fun p => noAdjacentEqual (slice s.innerIdx p.1.toNat p.2.toNat))]
  · rw [res_ok_bind, foldl_and]
    simp [List.all_map, Function.comp_def]
  · intro p hp
    obtain ⟨c, hc, rfl⟩ := List.mem_map.1 hp
    have hc := List.mem_range.1 hc
    have h1 := h.start_mono c hc
    have h2 := h.start_le (c := c + 1) (by omega)
    simp only [isUniqueCol]
    rw [if_pos (by omega)]
    rfl

theorem noAdjacentEqual_of_nodup {α : Type} [DecidableEq α] {l : List α} (h : l.Nodup) :
    noAdjacentEqual l = true := by
  induction l with
  | nil => rfl
  | cons a l ih =>
    cases l with
    | nil => rfl
    | cons b l =>
      have h' := List.nodup_cons.1 h
      have hne : a ≠ b := fun e => h'.1 (by simp [e])
      simp only [noAdjacentEqual, if_neg hne]
      exact ih h'.2

/-- For sorted lists, no adjacent equal elements means no equal elements. -/
theorem nodup_of_noAdjacentEqual {α : Type} [DecidableEq α] {le : α → α → Prop}
    (antisymm : ∀ a b, le a b → le b a → a = b) {l : List α} (hs : l.Pairwise le)
    (h : noAdjacentEqual l = true) : l.Nodup := by
  induction l with
  | nil => simp
  | cons a l ih =>
    have hs' := List.pairwise_cons.1 hs
    cases l with
    | nil => simp
    | cons b l =>
      by_cases hab : a = b
      · simp [noAdjacentEqual, hab] at h
      · simp only [noAdjacentEqual, if_neg hab] at h
        refine List.nodup_cons.2 ⟨?_, ih hs'.2 h⟩
        intro hmem
        rcases List.mem_cons.1 hmem with e | hm
        · exact hab e
        · have h1 := hs'.1 b (by simp)
          have h2 := (List.pairwise_cons.1 hs'.2).1 a hm
          exact hab (antisymm _ _ h1 h2)

theorem positions_nodup_iff {s : CSC} :
    s.positions.Nodup ↔
      ∀ c : Nat, c < s.cols.toNat → (slice s.innerIdx (s.start c) (s.start (c + 1))).Nodup := by
  unfold CSC.positions
  rw [List.nodup_flatMap]
  constructor
  · intro ⟨h, _⟩ c hc
    have := h c (List.mem_range.2 hc)
    exact (List.nodup_map_iff (fun a b hab => (Prod.mk.injEq .. ▸ hab).1)).1 this
  · intro h
    refine ⟨fun c hc => ?_, ?_⟩
    · exact (List.nodup_map_iff (fun a b hab => (Prod.mk.injEq .. ▸ hab).1)).2
        (h c (List.mem_range.1 hc))
    · refine List.nodup_range.imp ?_
      intro a b hab p hp hq
      obtain ⟨x, _, rfl⟩ := List.mem_map.1 hp
      obtain ⟨y, _, e⟩ := List.mem_map.1 hq
      have := congrArg Prod.snd e
      simp only at this
      omega

theorem checkUnique_of_nodup {s : CSC} (h : s.Wf) (hn : s.positions.Nodup) :
    checkUniquenessCsc s.outerPtr s.innerIdx = .ok true := by
  rw [checkUniquenessCsc_eq h]
  congr 1
  rw [List.all_eq_true]
  intro c hc
  exact noAdjacentEqual_of_nodup (positions_nodup_iff.1 hn c (List.mem_range.1 hc))

theorem mapM_ok_iff {α β : Type} {f : α → Res β} {l : List α} :
    (∃ r, l.mapM f = .ok r) ↔ ∀ x ∈ l, ∃ y, f x = .ok y := by
  induction l with
  | nil => simp [pure, Except.pure]
  | cons a l ih =>
    rw [List.mapM_cons]
    constructor
    · rintro ⟨r, h⟩
      rw [res_bind_ok] at h
      obtain ⟨y, h1, h2⟩ := h
      rw [res_bind_ok] at h2
      obtain ⟨ys, h3, _⟩ := h2
      intro x hx
      rcases List.mem_cons.1 hx with rfl | hx
      · exact ⟨y, h1⟩
      · exact ih.1 ⟨ys, h3⟩ x hx
    · intro h
      obtain ⟨y, hy⟩ := h a (by simp)
      obtain ⟨ys, hys⟩ := ih.2 (fun x hx => h x (by simp [hx]))
      exact ⟨y :: ys, by rw [hy, hys]; rfl⟩

/-- C12: `check_uniqueness_csc` is defined exactly if consecutive column pointers delimit parts of the row indices. -/
theorem uniqueness_csc_defined_iff (outer inner : List Int) :
    (∃ b, checkUniquenessCsc outer inner = .ok b) ↔
      ∀ c : Nat, ∀ st en : Int, outer[c]? = some st → outer[c + 1]? = some en → 0 ≤ st ∧ st ≤ en ∧ en ≤ inner.length := by
  have h1 : (∃ b, checkUniquenessCsc outer inner = .ok b) ↔
      ∃ us, (outer.zip outer.tail).mapM (fun p => isUniqueCol inner p.1 p.2) = .ok us := by
    unfold checkUniquenessCsc
    constructor
    · rintro ⟨b, h⟩
      rw [res_bind_ok] at h
      obtain ⟨us, h, _⟩ := h
      exact ⟨us, h⟩
    · rintro ⟨us, h⟩
      exact ⟨_, by rw [h]; rfl⟩
  rw [h1, mapM_ok_iff]
  have h2 : ∀ p : Int × Int, (∃ y, isUniqueCol inner p.1 p.2 = .ok y) ↔ 0 ≤ p.1 ∧ p.1 ≤ p.2 ∧ p.2 ≤ inner.length := by
    intro p
    unfold isUniqueCol
    split
    · rename_i h; simp [h]
    · rename_i h; simp [h]
  simp only [h2]
  constructor
  · intro h c st en e1 e2
    refine h (st, en) ?_
    rw [List.mem_iff_getElem?]
    refine ⟨c, ?_⟩
    rw [List.getElem?_zip_eq_some]
    exact ⟨e1, by rw [List.getElem?_tail]; exact e2⟩
  · intro h p hp
    obtain ⟨c, hc⟩ := List.mem_iff_getElem?.1 hp
    rw [List.getElem?_zip_eq_some, List.getElem?_tail] at hc
    exact h c p.1 p.2 hc.1 hc.2

example : (∃ b, checkUniquenessCsc [0, 2, 3] [1, 4, 4] = .ok b) ∧ ¬ (∃ b, checkUniquenessCsc [0, 2, 4] [1, 4, 4] = .ok b) := by
  constructor
  · exact ⟨true, rfl⟩
  · rw [uniqueness_csc_defined_iff]
    intro h
    have := h 1 2 4 rfl rfl
    simp at this

end Guanaqo.Sparsity
