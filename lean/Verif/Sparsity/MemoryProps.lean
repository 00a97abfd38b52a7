import Verif.Sparsity.Memory
import Verif.Sparsity.PropsChain

/-! # `convert_values` on memory does what the list model says (C131) -/

namespace Guanaqo.Sparsity.Memory

variable {T : Type}

/-! ## Refinement -/

/-- `p` is what the memory program `p` has done from memory `m`, and `r` the outcome of the list program. The memory program writes the workspace
only, which stays allocated; it fails if and only if the list program fails, in the same way; if not, the results correspond and the workspace has
the contents that the list program says. -/
structure Refines (wk : Span) {X Y : Type} (m : Mem T) (p : Res X × Mem T) (r : Res Y) (x : Y → X) (w : Y → List T) : Prop where
  frame : ∀ a, ¬ wk.Has a → p.2 a = m a
  backed : ∃ l, Holds wk l p.2
  ok : ∀ y, r = .ok y → p.1 = .ok (x y) ∧ Holds wk (w y) p.2
  err : ∀ e, r = .error e → p.1 = .error e

theorem Holds.frame {s wk : Span} {l : List T} {m m' : Mem T} (h : Holds s l m) (hd : s.Disjoint wk)
    (hf : ∀ a, ¬ wk.Has a → m' a = m a) : Holds s l m' := by
  refine ⟨h.1, fun i hi => ?_⟩
  rw [hf _ (hd _ ⟨by omega, by omega⟩)]
  exact h.2 i hi

theorem refines_pure {wk : Span} {X Y : Type} {m : Mem T} (y : Y) {x : Y → X} {w : Y → List T} (hw : Holds wk (w y) m) :
    Refines wk m ((pure (x y) : MM T X) m) (.ok y) x w := by
  refine ⟨fun _ _ => rfl, ⟨_, hw⟩, ?_, ?_⟩
  · intro z hz; cases hz; exact ⟨rfl, hw⟩
  · intro e he; cases he

theorem refines_error {wk : Span} {X Y : Type} {m : Mem T} (e : Fault) {x : Y → X} {w : Y → List T} {l : List T} (hw : Holds wk l m) :
    Refines wk m ((lift (.error e) : MM T X) m) (.error e) x w := by
  refine ⟨fun _ _ => rfl, ⟨_, hw⟩, ?_, ?_⟩
  · intro z hz; cases hz
  · intro e' he; cases he; rfl

/-- A step that does not touch memory. -/
theorem refines_lift {wk : Span} {X Y Z : Type} {m : Mem T} {r : Res Z} {k : Z → MM T X} {h : Z → Res Y} {x : Y → X} {w : Y → List T}
    {l : List T} (hw : Holds wk l m) (hk : ∀ z, r = .ok z → Refines wk m (k z m) (h z) x w) :
    Refines wk m ((lift r >>= k) m) (r >>= h) x w := by
  cases hr : r with
  | ok z => exact hk z hr
  | error e => exact refines_error e hw

/-- Reading an element of the input. -/
theorem refines_get {fv wk : Span} {X Y : Type} {m : Mem T} {vals : List T} {i : Nat} {k : T → MM T X} {h : T → Res Y} {x : Y → X}
    {w : Y → List T} {l : List T} (hw : Holds wk l m) (hv : Holds fv vals m) (hk : ∀ v, Refines wk m (k v m) (h v) x w) :
    Refines wk m ((fv.get i >>= k) m) (rd vals i >>= h) x w := by
  have e : fv.get i m = (rd vals i, m) := by
    unfold Span.get rd
    by_cases hi : i < fv.len
    · have hi' : i < vals.length := by rw [hv.1]; exact hi
      rw [if_pos hi]
      unfold Mem.read
      rw [hv.2 i hi, List.getElem?_eq_getElem hi']
    · rw [if_neg hi, List.getElem?_eq_none (by rw [hv.1]; omega)]
  have : (fv.get i >>= k) m = (lift (rd vals i) >>= k) m := by
    change MM.bind _ _ m = MM.bind _ _ m
    unfold MM.bind
    rw [e]; rfl
  rw [this]
  exact refines_lift hw (fun v _ => hk v)

/-- Writing an element of the workspace. -/
theorem refines_put {wk : Span} {m : Mem T} {work : List T} {i : Nat} {v : T} (hw : Holds wk work m) :
    Refines wk m (wk.put i v m) (wr work i v) (fun _ => ()) id := by
  by_cases hi : i < wk.len
  · have hi' : i < work.length := by rw [hw.1]; exact hi
    obtain ⟨y, hy⟩ : ∃ y, m (wk.base + i) = some y := ⟨work[i], by rw [hw.2 i hi, List.getElem?_eq_getElem hi']⟩
    have hput : wk.put i v m = (.ok (), fun a => if a = wk.base + i then some v else m a) := by
      unfold Span.put Mem.write
      rw [if_pos hi, hy]
    have hwr : wr work i v = .ok (work.set i v) := by unfold wr; rw [if_pos hi']
    have hh : Holds wk (work.set i v) (fun a => if a = wk.base + i then some v else m a) := by
      refine ⟨by simp [hw.1], fun j hj => ?_⟩
      dsimp only
      by_cases hji : j = i
      · subst hji
        rw [if_pos rfl, List.getElem?_set_self hi']
      · rw [if_neg (by omega), List.getElem?_set_ne (by omega)]
        exact hw.2 j hj
    rw [hput, hwr]
    refine ⟨fun a ha => ?_, ⟨_, hh⟩, ?_, ?_⟩
    · dsimp only
      rw [if_neg]; rintro rfl; exact ha ⟨by omega, by omega⟩
    · intro z hz; cases hz; exact ⟨rfl, hh⟩
    · intro e he; cases he
  · have hput : wk.put i v m = (.error .ub, m) := by unfold Span.put; rw [if_neg hi]
    have hwr : wr work i v = .error .ub := by unfold wr; rw [if_neg (by rw [hw.1]; exact hi)]
    rw [hput, hwr]
    exact refines_error .ub hw

/-- Sequence. -/
theorem refines_bind' {fv wk : Span} {vals : List T} {X X' Y Y' : Type} {m : Mem T} {f : MM T X} {k : X → MM T X'} {r : Res Y} {h : Y → Res Y'}
    {x : Y → X} {w : Y → List T} {x' : Y' → X'} {w' : Y' → List T} (hd : fv.Disjoint wk) (hv : Holds fv vals m)
    (h1 : Refines wk m (f m) r x w)
    (h2 : ∀ y m', r = .ok y → Holds fv vals m' → Holds wk (w y) m' → Refines wk m' (k (x y) m') (h y) x' w') :
    Refines wk m ((f >>= k) m) (r >>= h) x' w' := by
  change Refines wk m (MM.bind f k m) _ x' w'
  obtain ⟨res, m', hf⟩ : ∃ res m', f m = (res, m') := ⟨_, _, rfl⟩
  rw [hf] at h1
  cases hr : r with
  | ok y =>
    obtain ⟨ho, hh⟩ := h1.ok y hr
    have e : MM.bind f k m = k (x y) m' := by
      unfold MM.bind; rw [hf]; dsimp only at ho; rw [ho]
    rw [e]
    have h3 := h2 y m' hr (hv.frame hd h1.frame) hh
    exact ⟨fun a ha => (h3.frame a ha).trans (h1.frame a ha), h3.backed, h3.ok, h3.err⟩
  | error e =>
    have ho := h1.err e hr
    have he : MM.bind f k m = (.error e, m') := by
      unfold MM.bind; rw [hf]; dsimp only at ho; rw [ho]
    rw [he]
    exact ⟨h1.frame, h1.backed, fun y hy => (by cases hy), fun e' h' => by cases h'; rfl⟩

theorem refines_bind {fv wk : Span} {vals : List T} {X X' Y Y' : Type} {m : Mem T} {f : MM T X} {k : X → MM T X'} {r : Res Y} {h : Y → Res Y'}
    {x : Y → X} {w : Y → List T} {x' : Y' → X'} {w' : Y' → List T} (hd : fv.Disjoint wk) (hv : Holds fv vals m)
    (h1 : Refines wk m (f m) r x w)
    (h2 : ∀ y m', Holds fv vals m' → Holds wk (w y) m' → Refines wk m' (k (x y) m') (h y) x' w') :
    Refines wk m ((f >>= k) m) (r >>= h) x' w' := refines_bind' hd hv h1 (fun y m' _ => h2 y m')

/-- Loops. -/
theorem refines_loop {fv wk : Span} {vals : List T} {σ Y : Type} {x : Y → σ} {w : Y → List T} {body : Int → σ → MM T σ} {body' : Int → Y → Res Y}
    (hd : fv.Disjoint wk)
    (hb : ∀ i y m, Holds fv vals m → Holds wk (w y) m → Refines wk m (body i (x y) m) (body' i y) x w) :
    ∀ (n : Nat) (lo : Int) (y : Y) (m : Mem T), Holds fv vals m → Holds wk (w y) m →
      Refines wk m (loopM body lo n (x y) m) (forLoop body' lo n y) x w := by
  intro n
  induction n with
  | zero => intro lo y m _ hw; exact refines_pure y hw
  | succ n ih =>
    intro lo y m hv hw
    exact refines_bind hd hv (hb lo y m hv hw) (fun y' m' hv' hw' => ih (lo + 1) y' m' hv' hw')

theorem refines_for {fv wk : Span} {vals : List T} {σ Y : Type} {x : Y → σ} {w : Y → List T} {body : Int → σ → MM T σ} {body' : Int → Y → Res Y}
    (hd : fv.Disjoint wk)
    (hb : ∀ i y m, Holds fv vals m → Holds wk (w y) m → Refines wk m (body i (x y) m) (body' i y) x w)
    (lo hi : Int) (y : Y) (m : Mem T) (hv : Holds fv vals m) (hw : Holds wk (w y) m) :
    Refines wk m (forM lo hi body (x y) m) (forRange lo hi body' y) x w := refines_loop hd hb _ lo y m hv hw

/-- As `refines_for`, for loops whose bodies agree only inside of the range. -/
theorem refines_loop_range {fv wk : Span} {vals : List T} {σ Y : Type} {x : Y → σ} {w : Y → List T} {body : Int → σ → MM T σ}
    {body' : Int → Y → Res Y} (hd : fv.Disjoint wk) :
    ∀ (n : Nat) (lo : Int) (y : Y) (m : Mem T), Holds fv vals m → Holds wk (w y) m →
      (∀ i y m, lo ≤ i → i < lo + n → Holds fv vals m → Holds wk (w y) m → Refines wk m (body i (x y) m) (body' i y) x w) →
      Refines wk m (loopM body lo n (x y) m) (forLoop body' lo n y) x w := by
  intro n
  induction n with
  | zero => intro lo y m _ hw _; exact refines_pure y hw
  | succ n ih =>
    intro lo y m hv hw hb
    refine refines_bind hd hv (hb lo y m (by omega) (by omega) hv hw) (fun y' m' hv' hw' => ih (lo + 1) y' m' hv' hw' ?_)
    intro i y m h1 h2; exact hb i y m (by omega) (by omega)

/-! ## The standard algorithms -/

/-- `fill`, one element at a time, on lists. -/
theorem fillList (zero : T) (work : List T) :
    forRange 0 work.length (fun i w => wr w i.toNat zero) work = .ok (List.replicate work.length zero) := by
  obtain ⟨s', h1, h2⟩ := forRange_inv (body := fun i w => wr w i.toNat zero) (lo := 0) (hi := work.length) (s := work)
    (fun i (w : List T) => w = List.replicate i.toNat zero ++ work.drop i.toNat) (by simp) (by
      rintro i s h0 hi rfl
      refine ⟨List.replicate (i + 1).toNat zero ++ work.drop (i + 1).toNat, ?_, rfl⟩
      obtain ⟨k, rfl⟩ := Int.eq_ofNat_of_zero_le h0
      have hk : k < work.length := by omega
      unfold wr
      rw [if_pos (by simp; omega)]
      congr 1
      have e : ((k : Int) + 1).toNat = k + 1 := by omega
      rw [e]
      simp only [Int.toNat_natCast]
      rw [List.set_append_right _ _ (by simp)]
      simp only [List.length_replicate, Nat.sub_self]
      rw [List.drop_eq_getElem_cons hk, List.set_cons_zero, List.replicate_succ', List.append_assoc]
      rfl)
  rw [h1, h2]
  have : (max 0 (work.length : Int)).toNat = work.length := by omega
  rw [this]; simp

theorem refines_fill {fv wk : Span} {vals work : List T} {m : Mem T} {zero : T} (hd : fv.Disjoint wk) (hv : Holds fv vals m)
    (hw : Holds wk work m) :
    Refines wk m (fill wk zero m) (.ok (List.replicate work.length zero) : Res (List T)) (fun _ => ()) id := by
  rw [← fillList]
  unfold fill
  rw [← hw.1]
  exact refines_for (x := fun _ => ()) (w := id) hd (body' := fun i w => wr w i.toNat zero) (fun i y m _ hw => refines_put hw) _ _ work m hv hw

theorem refines_after_fill {fv wk : Span} {vals work : List T} {X Y : Type} {m : Mem T} {zero : T} {k : MM T X} {h : Res Y} {x : Y → X}
    {w : Y → List T} (hd : fv.Disjoint wk) (hv : Holds fv vals m) (hw : Holds wk work m)
    (hk : ∀ m', Holds fv vals m' → Holds wk (List.replicate work.length zero) m' → Refines wk m' (k m') h x w) :
    Refines wk m ((fill wk zero >>= fun _ => k) m) h x w :=
  refines_bind' (r := .ok (List.replicate work.length zero)) (h := fun _ => h) hd hv (refines_fill hd hv hw)
    (fun y m' hy hv' hw' => by cases hy; exact hk m' hv' hw')

/-- `copy_backward`, one element at a time, on lists. -/
theorem copyBackwardList (src dst : List T) (off cnt t : Nat) (h : off + cnt ≤ src.length ∧ cnt ≤ t ∧ t ≤ dst.length) :
    forRange 0 cnt (fun k w => rd src (off + cnt - 1 - k.toNat) >>= fun v => wr w (t - 1 - k.toNat) v) dst
      = .ok (dst.take (t - cnt) ++ (src.drop off).take cnt ++ dst.drop t) := by
  obtain ⟨h1, h2, h3⟩ := h
  obtain ⟨s', e1, e2⟩ := forRange_inv (body := fun (k : Int) w => rd src (off + cnt - 1 - k.toNat) >>= fun v => wr w (t - 1 - k.toNat) v)
    (lo := 0) (hi := cnt) (s := dst)
    (fun i (w : List T) => w.length = dst.length ∧ ∀ j : Nat, w[j]? = if t - i.toNat ≤ j ∧ j < t then src[j + off + cnt - t]? else dst[j]?) (by
      refine ⟨rfl, fun j => ?_⟩
      rw [if_neg (by omega)]) (by
      rintro i w h0 hi ⟨hl, hw⟩
      obtain ⟨k, rfl⟩ := Int.eq_ofNat_of_zero_le h0
      simp only [Int.toNat_natCast]
      have hk : k < cnt := by omega
      have hr : rd src (off + cnt - 1 - k) = .ok src[off + cnt - 1 - k] := by
        unfold rd; rw [List.getElem?_eq_getElem (by omega)]
      refine ⟨w.set (t - 1 - k) src[off + cnt - 1 - k], ?_, by simp [hl], fun j => ?_⟩
      · rw [hr, res_ok_bind]; unfold wr; rw [if_pos (by omega)]
      · have e : ((k : Int) + 1).toNat = k + 1 := by omega
        rw [e, List.getElem?_set]
        by_cases hj : t - 1 - k = j
        · rw [if_pos hj, if_pos (by omega), if_pos (by omega), ← List.getElem?_eq_getElem]
          congr 1; omega
        · rw [if_neg hj, hw j]
          simp only [Int.toNat_natCast]
          by_cases hc : t - k ≤ j ∧ j < t
          · rw [if_pos hc, if_pos (by omega)]
          · rw [if_neg hc, if_neg (by omega)])
  obtain ⟨hl, hw⟩ := e2
  rw [e1]
  congr 1
  apply List.ext_getElem?
  intro j
  rw [hw j]
  have ec : (max 0 (cnt : Int)).toNat = cnt := by omega
  rw [ec]
  by_cases ha : j < t - cnt
  · rw [if_neg (by omega), List.append_assoc, List.getElem?_append_left (by simp; omega), List.getElem?_take_of_lt ha]
  · by_cases hb : j < t
    · rw [if_pos (by omega), List.getElem?_append_left (by simp; omega), List.getElem?_append_right (by simp; omega),
        List.getElem?_take_of_lt (by simp; omega), List.getElem?_drop]
      congr 1; simp; omega
    · rw [if_neg (by omega), List.getElem?_append_right (by simp; omega), List.getElem?_drop]
      congr 1; simp; omega

theorem refines_copyBackward {fv wk : Span} {vals work : List T} {m : Mem T} {off cnt t : Nat} (hd : fv.Disjoint wk) (hv : Holds fv vals m)
    (hw : Holds wk work m) :
    Refines wk m (copyBackward fv wk off cnt t m) (DenseToCoo.copyBackward vals off cnt work t) (fun _ => ()) id := by
  unfold copyBackward DenseToCoo.copyBackward
  rw [← hv.1, ← hw.1]
  by_cases h : off + cnt ≤ vals.length ∧ cnt ≤ t ∧ t ≤ work.length
  · rw [if_pos h, if_pos h, ← copyBackwardList vals work off cnt t h]
    exact refines_for (x := fun _ => ()) (w := id) hd
      (fun i y m hv hw => refines_get hw hv fun v => refines_put hw) _ _ work m hv hw
  · rw [if_neg h, if_neg h]
    exact refines_error .ub hw

/-! ## The conversions -/

theorem refines_writeW {wk : Span} {m : Mem T} {work : List T} {dbg : Bool} {rows r c : Int} {v : T} (hw : Holds wk work m) :
    Refines wk m (writeW dbg rows wk r c v m) (Sparsity.writeW dbg rows r c v work) (fun _ => ()) id :=
  refines_lift hw fun _ _ => refines_lift hw fun _ _ => refines_lift hw fun _ _ => refines_put hw

theorem refines_placeEntry {fv wk : Span} {vals : List T} {m : Mem T} {work : List T} {dbg : Bool} {sym : Symmetry} {rows r c : Int} {v : T}
    (hd : fv.Disjoint wk) (hv : Holds fv vals m) (hw : Holds wk work m) :
    Refines wk m (placeEntry dbg sym rows wk r c v m) (Sparsity.placeEntry dbg sym rows r c v work) (fun _ => ()) id := by
  cases sym with
  | unsymmetric => exact refines_writeW hw
  | _ => exact refines_bind hd hv (refines_writeW hw) (fun y m' _ hw' => refines_writeW hw')

/-- The span that is returned. -/
def Ret (fv wk : Span) (o : Out T) : Span := match o.loc with | .fromValues => fv | .work => wk

theorem refines_work {fv wk : Span} {l : List T} {m : Mem T} (h : Holds wk l m) :
    Refines wk m ((pure wk : MM T Span) m) (.ok (⟨.work, l⟩ : Out T)) (Ret fv wk) Out.work :=
  refines_pure (x := Ret fv wk) (w := Out.work) (⟨.work, l⟩ : Out T) h

theorem refines_from {fv wk : Span} {l : List T} {m : Mem T} (h : Holds wk l m) :
    Refines wk m ((pure fv : MM T Span) m) (.ok (⟨.fromValues, l⟩ : Out T)) (Ret fv wk) Out.work :=
  refines_pure (x := Ret fv wk) (w := Out.work) (⟨.fromValues, l⟩ : Out T) h

theorem refines_cscToDense {fv wk : Span} {vals : List T} {m : Mem T} {work : List T} {zero : T} {dbg : Bool} {frm : CSC} {sp : Dense}
    (hd : fv.Disjoint wk) (hv : Holds fv vals m) (hw : Holds wk work m) :
    Refines wk m (cscToDense zero dbg frm sp fv wk m) (CscToDense.convertValues zero dbg frm sp vals work) (Ret fv wk) Out.work := by
  unfold cscToDense CscToDense.convertValues
  rw [← hv.1, ← hw.1]
  refine refines_lift hw fun _ _ => refines_lift hw fun _ _ => refines_lift hw fun _ _ => refines_lift hw fun _ _ => ?_
  refine refines_after_fill hd hv hw fun m' hv' hw' => ?_
  refine refines_bind (x := Prod.fst) (w := Prod.snd) hd hv' ?_ (fun s m'' _ hw'' => refines_work hw'')
  refine refines_for (x := Prod.fst) (w := Prod.snd) hd (fun c s m hv hw => ?_) _ _ (0, List.replicate work.length zero) m' hv' hw'
  refine refines_lift hw fun _ _ => refines_lift hw fun _ _ => refines_lift hw fun _ _ => ?_
  refine refines_for (x := Prod.fst) (w := Prod.snd) hd (fun i s m hv hw => ?_) _ _ s m hv hw
  refine refines_lift hw fun _ _ => refines_lift hw fun _ _ => refines_lift hw fun _ _ => refines_get hw hv fun v => ?_
  exact refines_bind hd hv (refines_placeEntry hd hv hw) fun y m' _ hw' => refines_pure (x := Prod.fst) (w := Prod.snd) (s.1 + 1, y) hw'

theorem refines_cooToDense {fv wk : Span} {vals : List T} {m : Mem T} {work : List T} {zero : T} {dbg : Bool} {I : IntTy} {frm : COO} {sp : Dense}
    (hd : fv.Disjoint wk) (hv : Holds fv vals m) (hw : Holds wk work m) :
    Refines wk m (cooToDense zero dbg I frm sp fv wk m) (CooToDense.convertValues zero dbg I frm sp vals work) (Ret fv wk) Out.work := by
  unfold cooToDense CooToDense.convertValues
  rw [← hv.1, ← hw.1]
  refine refines_lift hw fun nnz _ => refines_lift hw fun _ _ => refines_lift hw fun _ _ => refines_lift hw fun _ _ => ?_
  refine refines_after_fill hd hv hw fun m' hv' hw' => ?_
  refine refines_bind (x := fun _ => ()) (w := id) hd hv' ?_ (fun s m'' _ hw'' => refines_work hw'')
  refine refines_for (x := fun _ => ()) (w := id) hd (fun c s m hv hw => ?_) _ _ (List.replicate work.length zero) m' hv' hw'
  exact refines_lift hw fun _ _ => refines_lift hw fun _ _ => refines_lift hw fun _ _ => refines_lift hw fun _ _ => refines_lift hw fun _ _ =>
    refines_get hw hv fun v => refines_placeEntry hd hv hw

theorem refines_pack {fv wk : Span} {vals : List T} {m : Mem T} {work : List T} {dbg : Bool} {rows cols : Int}
    (hd : fv.Disjoint wk) (hv : Holds fv vals m) (hw : Holds wk work m) :
    Refines wk m ((forM 0 cols (packBody dbg rows fv wk) 0 >>= fun _ => pure wk) m)
      (forRange 0 cols (DenseToCoo.packBody dbg rows vals) (0, work) >>= fun s => .ok (⟨.work, s.2⟩ : Out T)) (Ret fv wk) Out.work := by
  refine refines_bind (x := Prod.fst) (w := Prod.snd) hd hv ?_ (fun s m'' _ hw'' => refines_work hw'')
  refine refines_for (x := Prod.fst) (w := Prod.snd) hd (fun c s m hv hw => ?_) _ _ (0, work) m hv hw
  refine refines_lift hw fun c' _ => refines_lift hw fun n _ => ?_
  exact refines_bind hd hv (refines_copyBackward hd hv hw) fun y m' _ hw' => refines_pure (x := Prod.fst) (w := Prod.snd) (s.1 + (c + 1).toNat, y) hw'

theorem refines_toCsc {fv wk : Span} {vals : List T} {m : Mem T} {work : List T} {dbg : Bool} {cv : CscConv}
    (hd : fv.Disjoint wk) (hv : Holds fv vals m) (hw : Holds wk work m) :
    Refines wk m (toCsc dbg cv fv wk m) (cv.convertValues dbg vals work) (Ret fv wk) Out.work := by
  unfold toCsc CscConv.convertValues
  rw [← hv.1, ← hw.1]
  refine refines_lift hw fun _ _ => refines_lift hw fun _ _ => refines_lift hw fun _ _ => refines_lift hw fun _ _ => ?_
  by_cases hp : cv.permutation = []
  · rw [if_pos hp, if_pos hp]
    exact refines_from hw
  · rw [if_neg hp, if_neg hp]
    refine refines_bind (x := fun _ => ()) (w := id) hd hv ?_ (fun s m'' _ hw'' => refines_work hw'')
    refine refines_for (x := fun _ => ()) (w := id) hd (fun c s m hv hw => ?_) _ _ work m hv hw
    exact refines_lift hw fun _ _ => refines_lift hw fun _ _ => refines_get hw hv fun v => refines_put hw

theorem bind_ok_error {A B : Type} {x : Res A} {g : A → B} {e : Fault} : (x >>= fun a => (.ok (g a) : Res B)) = .error e ↔ x = .error e := by
  cases x with
  | ok a => exact ⟨fun h => (by cases h), fun h => (by cases h)⟩
  | error e' => exact ⟨fun h => (by cases h; rfl), fun h => (by cases h; rfl)⟩

/-- **C131**: for every pattern, target, request and build: the memory program is constructed if and only if the converter of `Model.lean` is,
and refines it on all spans that do not overlap. -/
theorem convert_refines (zero : T) (std : StdLib) (dbg : Bool) (p : Pattern) (tgt : Target) :
    (∀ c, Sparsity.convert zero std dbg p tgt = .ok c → ∃ f, convert zero std dbg p tgt = .ok f ∧
      ∀ (fv wk : Span) (vals work : List T) (m : Mem T), fv.Disjoint wk → Holds fv vals m → Holds wk work m →
        Refines wk m (f fv wk m) (c.run vals work) (Ret fv wk) Out.work) ∧
    (∀ e, Sparsity.convert (T := T) zero std dbg p tgt = .error e → convert zero std dbg p tgt = .error e) := by
  constructor
  · intro c hc
    cases p <;> cases tgt <;> simp only [Sparsity.convert, res_bind_ok, Except.ok.injEq] at hc <;> obtain ⟨sp, hsp, rfl⟩ := hc <;>
      simp only [convert, hsp, res_ok_bind] <;> refine ⟨_, rfl, fun fv wk vals work m hd hv hw => ?_⟩
    · unfold denseToDense DenseToDense.convertValues
      rw [← hv.1]
      exact refines_lift hw fun _ _ => refines_lift hw fun _ _ => refines_from hw
    · unfold denseToCoo DenseToCoo.convertValues
      rw [← hv.1, ← hw.1]
      refine refines_lift hw fun _ _ => refines_lift hw fun _ _ => refines_lift hw fun _ _ => refines_lift hw fun _ _ => ?_
      cases sp.symmetry with
      | unsymmetric => exact refines_from hw
      | upper => exact refines_pack hd hv hw
      | lower => exact refines_error _ hw
      | invalid => exact refines_error _ hw
    · unfold denseToCsc DenseToCsc.convertValues
      rw [← hv.1, ← hw.1]
      refine refines_lift hw fun _ _ => refines_lift hw fun _ _ => refines_lift hw fun _ _ => refines_lift hw fun _ _ => ?_
      cases sp.symmetry with
      | unsymmetric => exact refines_from hw
      | upper => exact refines_pack hd hv hw
      | lower => exact refines_error _ hw
      | invalid => exact refines_error _ hw
    · exact refines_cscToDense hd hv hw
    · unfold toCoo CscToCoo.convertValues
      rw [← hv.1]
      exact refines_lift hw fun _ _ => refines_lift hw fun _ _ => refines_lift hw fun _ _ => refines_from hw
    · exact refines_toCsc hd hv hw
    · exact refines_cooToDense hd hv hw
    · unfold toCoo CscToCoo.convertValues
      rw [← hv.1]
      exact refines_lift hw fun _ _ => refines_lift hw fun _ _ => refines_lift hw fun _ _ => refines_from hw
    · exact refines_toCsc hd hv hw
  · intro e he
    cases p <;> cases tgt <;> simp only [Sparsity.convert, bind_ok_error] at he <;> simp only [convert, bind_ok_error] <;> exact he

/-! ## What a user sees -/

/-- **C131**: every supported conversion of a valid matrix, of whatever format, succeeds on all memories in which the values and a workspace of
`work_size()` elements are in two spans that do not overlap. It returns one of the two spans. Memory outside of the workspace is as before, the
values are untouched, and so is the workspace if it is not the result. The values in the span that is returned are those of the same matrix in
the new format, whatever was in the workspace. -/
theorem convert_values_memory (zero : T) (std : StdLib) (hstd : std.Ok) (dbg : Bool) (p : Pattern) (tgt : Target) (hv : p.Valid)
    (hs : Supported dbg p tgt) :
    ∃ c f ws, Sparsity.convert zero std dbg p tgt = .ok c ∧ convert zero std dbg p tgt = .ok f ∧ c.workSize = .ok ws ∧
      ∀ (fv wk : Span) (vals work : List T) (m : Mem T), fv.Disjoint wk → fv.len = p.count → wk.len = ws → Holds fv vals m → Holds wk work m →
        ∃ s m', f fv wk m = (.ok s, m') ∧ ((s = fv ∧ m' = m) ∨ s = wk) ∧ (∀ a, ¬ wk.Has a → m' a = m a) ∧ Holds fv vals m' ∧
          ∃ out, Holds s out m' ∧ out.length = c.sparsity.count ∧ ∀ M, p.Denotes zero vals M → c.sparsity.Denotes zero out M := by
  obtain ⟨c, hc, hf⟩ := convert_faithful zero std hstd dbg p tgt hv hs
  obtain ⟨f, hcm, href⟩ := (convert_refines zero std dbg p tgt).1 c hc
  obtain ⟨ws, hws, _, hrun⟩ := hf.work
  refine ⟨c, f, ws, hc, hcm, hws, ?_⟩
  intro fv wk vals work m hd hlf hlw hvm hwm
  obtain ⟨o, ho, h1, h2, h3, h4⟩ := hrun vals work (by rw [hvm.1, hlf]) (by rw [hwm.1, hlw])
  have R := href fv wk vals work m hd hvm hwm
  obtain ⟨s, m', hfm⟩ : ∃ s m', f fv wk m = (s, m') := ⟨_, _, rfl⟩
  rw [hfm] at R
  obtain ⟨e1, e2⟩ := R.ok o ho
  dsimp only at e1 e2
  refine ⟨Ret fv wk o, m', by rw [hfm, e1], ?_, R.frame, hvm.frame hd R.frame, o.values vals, ?_, h3, h4⟩
  · cases hl : o.loc with
    | fromValues =>
      left
      refine ⟨by unfold Ret; rw [hl], ?_⟩
      funext a
      by_cases ha : wk.Has a
      · obtain ⟨ha1, ha2⟩ := ha
        rw [(h1 hl).2.2] at e2
        have q1 := e2.2 (a - wk.base).toNat (by omega)
        have q2 := hwm.2 (a - wk.base).toNat (by omega)
        have ea : wk.base + ((a - wk.base).toNat : Int) = a := by omega
        rw [ea] at q1 q2
        rw [q1, q2]
      · exact R.frame a ha
    | work => right; unfold Ret; rw [hl]
  · cases hl : o.loc with
    | fromValues =>
      have : Ret fv wk o = fv := by unfold Ret; rw [hl]
      rw [this]
      unfold Out.values
      rw [hl]
      exact hvm.frame hd R.frame
    | work =>
      have : Ret fv wk o = wk := by unfold Ret; rw [hl]
      rw [this]
      unfold Out.values
      rw [hl]
      exact e2

/-- **C131**, when `convert_values` throws (e.g. an element in the wrong triangle): the values are untouched. Also for patterns that are not
valid. -/
theorem convert_values_throws (zero : T) (std : StdLib) (dbg : Bool) (p : Pattern) (tgt : Target) {f : Span → Span → MM T Span}
    (hf : convert zero std dbg p tgt = .ok f) (fv wk : Span) (vals : List T) (m : Mem T) (hd : fv.Disjoint wk) (hv : Holds fv vals m) :
    Holds fv vals (f fv wk m).2 :=
  hv.frame hd (fun a ha => convert_values_frame zero std dbg p tgt hf fv wk m a ha)

/-- A memory with the given values from address 100 on. -/
def memOf (l : List Int) : Mem Int := fun a => if 100 ≤ a then l[(a - 100).toNat]? else none

/-- The spans must not overlap: sorting two entries "in place" loses one of the values. -/
theorem in_place_wrong :
    ∃ f, convert (0 : Int) someStd false (.coo .int ⟨2, 2, .unsymmetric, [1, 0], [1, 0], .unsorted, 0⟩) (.csc .int .int none) = .ok f ∧
      ((f ⟨100, 2⟩ ⟨102, 2⟩ (memOf [7, 8, 0, 0])).2 102 = some 8 ∧ (f ⟨100, 2⟩ ⟨102, 2⟩ (memOf [7, 8, 0, 0])).2 103 = some 7) ∧
      ((f ⟨100, 2⟩ ⟨100, 2⟩ (memOf [7, 8])).2 100 = some 8 ∧ (f ⟨100, 2⟩ ⟨100, 2⟩ (memOf [7, 8])).2 101 = some 8) :=
  ⟨_, rfl, by decide +kernel, by decide +kernel⟩

example : ∃ f, convert (0 : Int) someStd true (.csc .int .int exampleCsc) .dense = .ok f ∧
    (f ⟨100, 3⟩ ⟨103, 9⟩ (memOf (List.replicate 12 10))).1 = .ok ⟨103, 9⟩ := ⟨_, rfl, by decide +kernel⟩

/-- Upper triangle of a dense matrix, packed. -/
example : ∃ f, convert (0 : Int) someStd true (.dense ⟨2, 2, .upper⟩) (.coo .int none) = .ok f ∧
    (List.range 3).map (fun k : Nat => (f ⟨100, 4⟩ ⟨104, 3⟩ (memOf [1, 2, 2, 3, 0, 0, 0])).2 (104 + k)) = [some 1, some 2, some 3] :=
  ⟨_, rfl, by decide +kernel⟩

example : Holds ⟨100, 3⟩ [1, 2, 3] (memOf [1, 2, 3, 4]) := by
  refine ⟨rfl, fun i hi => ?_⟩
  have : i = 0 ∨ i = 1 ∨ i = 2 := by dsimp only at hi; omega
  rcases this with rfl | rfl | rfl <;> rfl

example : (⟨100, 3⟩ : Span).Disjoint ⟨103, 9⟩ := by
  rintro a ⟨h1, h2⟩ ⟨h3, h4⟩
  dsimp only at *
  omega

end Guanaqo.Sparsity.Memory
