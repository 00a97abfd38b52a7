import Verif.Sparsity.PropsVariant

/-! # `convert_values` on memory (C131)

In `Model.lean` the value arrays are lists, and a converter returns the new contents of the workspace. Here the two spans are ranges of one flat
memory, every element is read and written one at a time, and the memory is there also when the function ends by an exception. The index arrays are
not in that memory: they are of integer types, the values of a type `T` that is not one of them (or they do not overlap).

`std::ranges::fill` and `copy_backward` are the loops of the standard: forward, and from the last element to the first. -/

namespace Guanaqo.Sparsity.Memory

variable {T : Type}

/-! ## Programs on memory -/

/-- A `std::span`: `data()` and `size()`. -/
structure Span where
  base : Int
  len : Nat
  deriving DecidableEq, Repr

/-- `a` is the address of an element of the span. -/
def Span.Has (s : Span) (a : Int) : Prop := s.base ≤ a ∧ a < s.base + s.len

/-- The elements of the span have the given values. -/
def Holds (s : Span) (l : List T) (m : Mem T) : Prop :=
  l.length = s.len ∧ ∀ i : Nat, i < s.len → m (s.base + i) = l[i]?

/-- No element in common. -/
def Span.Disjoint (s t : Span) : Prop := ∀ a, s.Has a → ¬ t.Has a

/-- A function on memory: the outcome, and the memory when it has returned or thrown. -/
def MM (T R : Type) := Mem T → Res R × Mem T

/-- First `f`, and then `k` unless `f` has failed. -/
def MM.bind {X Y : Type} (f : MM T X) (k : X → MM T Y) : MM T Y := fun m =>
  match f m with
  | (.ok x, m') => k x m'
  | (.error e, m') => (.error e, m')

instance : Monad (MM T) where
  pure x := fun m => (.ok x, m)
  bind := MM.bind

/-- A step that does not use the value memory. -/
def lift {X : Type} (r : Res X) : MM T X := fun m => (r, m)

/-- `s[i]` -/
def Span.get (s : Span) (i : Nat) : MM T T := fun m =>
  if i < s.len then (m.read (s.base + i), m) else (.error .ub, m)

/-- `s[i] = v` -/
def Span.put (s : Span) (i : Nat) (v : T) : MM T Unit := fun m =>
  if i < s.len then
    match m.write (s.base + i) v with
    | .ok m' => (.ok (), m')
    | .error e => (.error e, m)
  else (.error .ub, m)

/-- `for (i = lo; i < lo + n; ++i)` -/
def loopM {σ : Type} (body : Int → σ → MM T σ) : Int → Nat → σ → MM T σ
  | _, 0, s => pure s
  | lo, n + 1, s => body lo s >>= fun s' => loopM body (lo + 1) n s'

/-- `for (i = lo; i < hi; ++i)` -/
def forM {σ : Type} (lo hi : Int) (body : Int → σ → MM T σ) (s : σ) : MM T σ := loopM body lo (hi - lo).toNat s

/-! ## The functions -/

/-- `std::ranges::fill(work, T{})`, sparsity-conversions.hpp:99, 169. -/
def fill (wk : Span) (zero : T) : MM T Unit := forM 0 wk.len (fun i _ => wk.put i.toNat zero) ()

/-- `W(r, c) = v`, sparsity-conversions.hpp:100-102, 170-172. -/
def writeW (dbg : Bool) (rows : Int) (wk : Span) (r c : Int) (v : T) : MM T Unit :=
  lift (castSz dbg r) >>= fun r' => lift (castSz dbg c) >>= fun c' => lift (castSz dbg rows) >>= fun n => wk.put (r' + c' * n) v

/-- The assignments of the `switch`, sparsity-conversions.hpp:110, 117, 125. -/
def placeEntry (dbg : Bool) (sym : Symmetry) (rows : Int) (wk : Span) (r c : Int) (v : T) : MM T Unit :=
  match sym with
  | .unsymmetric => writeW dbg rows wk r c v
  | _ => writeW dbg rows wk r c v >>= fun _ => writeW dbg rows wk c r v

/-- sparsity-conversions.hpp:59-65. -/
def denseToDense (dbg : Bool) (sp : Dense) (fv _wk : Span) : MM T Span :=
  lift (castSz dbg (sp.rows * sp.cols)) >>= fun n => lift (assertM dbg (.ok (decide (fv.len = n)))) >>= fun _ => pure fv

/-- Body of the inner loop of CSC to dense, sparsity-conversions.hpp:108-129; the state is `l`. -/
def cscInner (dbg : Bool) (frm : CSC) (sp : Dense) (fv wk : Span) (c i : Int) (l : Nat) : MM T Nat :=
  lift (castSz dbg i) >>= fun i' => lift (rd frm.innerIdx i') >>= fun r => lift (checkTriangle frm.symmetry r c) >>= fun _ =>
    fv.get l >>= fun v => placeEntry dbg frm.symmetry sp.rows wk r c v >>= fun _ => pure (l + 1)

/-- sparsity-conversions.hpp:105-130. -/
def cscOuter (dbg : Bool) (frm : CSC) (sp : Dense) (fv wk : Span) (c : Int) (l : Nat) : MM T Nat :=
  lift (castSz dbg c) >>= fun c' => lift (rd frm.outerPtr c') >>= fun st => lift (rd frm.outerPtr (c' + 1)) >>= fun en =>
    forM st en (cscInner dbg frm sp fv wk c) l

/-- sparsity-conversions.hpp:93-133. -/
def cscToDense (zero : T) (dbg : Bool) (frm : CSC) (sp : Dense) (fv wk : Span) : MM T Span :=
  lift (frm.nnz dbg) >>= fun nnz => lift (assertM dbg (.ok (decide (fv.len = nnz.toNat)))) >>= fun _ =>
    lift (CscToDense.workSize dbg sp) >>= fun n => lift (assertM dbg (.ok (decide (wk.len = n)))) >>= fun _ =>
      fill wk zero >>= fun _ => forM 0 frm.cols (cscOuter dbg frm sp fv wk) 0 >>= fun _ => pure wk

/-- Body of the loop of COO to dense, sparsity-conversions.hpp:174-195. -/
def cooBody (dbg : Bool) (I : IntTy) (frm : COO) (sp : Dense) (fv wk : Span) (l : Int) (_ : Unit) : MM T Unit :=
  lift (rd frm.rowIndices l.toNat) >>= fun r₀ => lift (I.sub r₀ frm.firstIndex) >>= fun r =>
    lift (rd frm.colIndices l.toNat) >>= fun c₀ => lift (I.sub c₀ frm.firstIndex) >>= fun c =>
      lift (checkTriangle frm.symmetry r c) >>= fun _ => fv.get l.toNat >>= fun v => placeEntry dbg frm.symmetry sp.rows wk r c v

/-- sparsity-conversions.hpp:163-198. -/
def cooToDense (zero : T) (dbg : Bool) (I : IntTy) (frm : COO) (sp : Dense) (fv wk : Span) : MM T Span :=
  lift (frm.nnz dbg) >>= fun nnz => lift (assertM dbg (.ok (decide (fv.len = nnz.toNat)))) >>= fun _ =>
    lift (CscToDense.workSize dbg sp) >>= fun n => lift (assertM dbg (.ok (decide (wk.len = n)))) >>= fun _ =>
      fill wk zero >>= fun _ => forM 0 nnz (cooBody dbg I frm sp fv wk) () >>= fun _ => pure wk

/-- `copy_backward(from_values.subspan(off, cnt), t)`, sparsity-conversions.hpp:284-290, 718-724: the range is checked, then the elements are
copied, the last one first. -/
def copyBackward (fv wk : Span) (off cnt t : Nat) : MM T Unit :=
  if off + cnt ≤ fv.len ∧ cnt ≤ t ∧ t ≤ wk.len then
    forM 0 cnt (fun k _ => fv.get (off + cnt - 1 - k.toNat) >>= fun v => wk.put (t - 1 - k.toNat) v) ()
  else lift (.error .ub)

/-- The column loop, sparsity-conversions.hpp:288-290, 722-724; the state is `t`. -/
def packBody (dbg : Bool) (rows : Int) (fv wk : Span) (c : Int) (t : Nat) : MM T Nat :=
  lift (castSz dbg c) >>= fun c' => lift (castSz dbg rows) >>= fun n =>
    copyBackward fv wk (c' * n) (c' + 1) (t + (c + 1).toNat) >>= fun _ => pure (t + (c + 1).toNat)

/-- sparsity-conversions.hpp:275-296. -/
def denseToCoo (dbg : Bool) (sp : COO) (fv wk : Span) : MM T Span :=
  lift (castSz dbg (sp.rows * sp.cols)) >>= fun n => lift (assertM dbg (.ok (decide (fv.len = n)))) >>= fun _ =>
    lift (sp.nnz dbg) >>= fun nnz => lift (assertM dbg (.ok (decide (wk.len = DenseToCoo.workSize sp.symmetry nnz)))) >>= fun _ =>
      match sp.symmetry with
      | .unsymmetric => pure fv
      | .upper => forM 0 sp.cols (packBody dbg sp.rows fv wk) 0 >>= fun _ => pure wk
      | _ => lift (.error (.throw .logicError))

/-- sparsity-conversions.hpp:347-353, 400-406. -/
def toCoo (dbg : Bool) (sp : COO) (fv _wk : Span) : MM T Span :=
  lift (sp.nnz dbg) >>= fun nnz => lift (castSz dbg nnz) >>= fun n => lift (assertM dbg (.ok (decide (fv.len = n)))) >>= fun _ => pure fv

/-- Body of the loop over the permutation, sparsity-conversions.hpp:516-527, 623-636. -/
def permBody (dbg : Bool) (perm : List Int) (fv wk : Span) (i : Int) (_ : Unit) : MM T Unit :=
  lift (rd perm i.toNat) >>= fun p => lift (castSz dbg p) >>= fun p' => fv.get p' >>= fun v => wk.put i.toNat v

/-- sparsity-conversions.hpp:516-527, 623-636. -/
def toCsc (dbg : Bool) (cv : CscConv) (fv wk : Span) : MM T Span :=
  lift (cv.sparsity.nnz dbg) >>= fun nnz => lift (castSz dbg nnz) >>= fun n => lift (assertM dbg (.ok (decide (fv.len = n)))) >>= fun _ =>
    lift (assertM dbg (.ok (decide (wk.len = cv.permutation.length)))) >>= fun _ =>
      if cv.permutation = [] then pure fv
      else forM 0 cv.permutation.length (permBody dbg cv.permutation fv wk) () >>= fun _ => pure wk

/-- sparsity-conversions.hpp:709-730. -/
def denseToCsc (dbg : Bool) (sp : CSC) (fv wk : Span) : MM T Span :=
  lift (castSz dbg (sp.rows * sp.cols)) >>= fun n => lift (assertM dbg (.ok (decide (fv.len = n)))) >>= fun _ =>
    lift (sp.nnz dbg) >>= fun nnz => lift (assertM dbg (.ok (decide (wk.len = DenseToCoo.workSize sp.symmetry nnz)))) >>= fun _ =>
      match sp.symmetry with
      | .unsymmetric => pure fv
      | .upper => forM 0 sp.cols (packBody dbg sp.rows fv wk) 0 >>= fun _ => pure wk
      | _ => lift (.error (if dbg then .assertFail else .ub))

/-- `SparsityConverter<Sparsity, To>`: construction, sparsity-conversions.hpp:754-755, 823-828, and the `convert_values` of the converter held,
768-779. -/
def convert (zero : T) (std : StdLib) (dbg : Bool) : Pattern → Target → Res (Span → Span → MM T Span)
  | .dense d, .dense => do
    let sp ← DenseToDense.construct d
    .ok (denseToDense dbg sp)
  | .csc _ _ s, .dense => do
    let sp ← CscToDense.construct dbg s
    .ok (cscToDense zero dbg s sp)
  | .coo I s, .dense => do
    let sp ← CooToDense.construct dbg s
    .ok (cooToDense zero dbg I s sp)
  | .dense d, .coo I f => do
    let sp ← DenseToCoo.construct dbg I d f
    .ok (denseToCoo dbg sp)
  | .csc _ _ s, .coo I f => do
    let sp ← CscToCoo.construct dbg I s f
    .ok (toCoo dbg sp)
  | .coo I' s, .coo I f => do
    let sp ← CooToCoo.construct dbg I' I s f
    .ok (toCoo dbg sp)
  | .dense d, .csc I J _ => do
    let sp ← DenseToCsc.construct dbg I J d
    .ok (denseToCsc dbg sp)
  | .csc I' J' s, .csc I J o => do
    let cv ← CscToCsc.construct std dbg I' J' I J s o
    .ok (toCsc dbg cv)
  | .coo I' s, .csc I J o => do
    let cv ← CooToCsc.construct std dbg I' I J s o
    .ok (toCsc dbg cv)

/-! ## Only the workspace is written -/

/-- Whatever happens, memory outside of the span is as before. -/
def OnlyWrites (wk : Span) {X : Type} (f : MM T X) : Prop := ∀ (m : Mem T) (a : Int), ¬ wk.Has a → (f m).2 a = m a

theorem ow_bind {wk : Span} {X Y : Type} {f : MM T X} {k : X → MM T Y} (hf : OnlyWrites wk f) (hk : ∀ x, OnlyWrites wk (k x)) :
    OnlyWrites wk (f >>= k) := by
  intro m a ha
  have h1 := hf m a ha
  change (MM.bind f k m).2 a = m a
  unfold MM.bind
  cases hfm : f m with
  | mk r m' =>
    rw [hfm] at h1
    cases r with
    | ok x => exact (hk x m' a ha).trans h1
    | error e => exact h1

theorem ow_lift {wk : Span} {X : Type} (r : Res X) : OnlyWrites (T := T) wk (lift r) := fun _ _ _ => rfl

theorem ow_pure {wk : Span} {X : Type} (x : X) : OnlyWrites (T := T) wk (pure x) := fun _ _ _ => rfl

theorem ow_get {wk : Span} (s : Span) (i : Nat) : OnlyWrites (T := T) wk (s.get i) := by
  intro m a _
  unfold Span.get
  split <;> rfl

theorem ow_put {wk : Span} (i : Nat) (v : T) : OnlyWrites wk (wk.put i v) := by
  intro m a ha
  unfold Span.put
  split
  · next hi =>
    unfold Mem.write
    cases hm : m (wk.base + i) with
    | none => rfl
    | some y =>
      dsimp only
      rw [if_neg]
      rintro rfl
      exact ha ⟨by omega, by omega⟩
  · rfl

theorem ow_loop {wk : Span} {σ : Type} {body : Int → σ → MM T σ} (hb : ∀ i s, OnlyWrites wk (body i s)) (n : Nat) (lo : Int) (s : σ) :
    OnlyWrites wk (loopM body lo n s) := by
  induction n generalizing lo s with
  | zero => exact ow_pure s
  | succ n ih => exact ow_bind (hb lo s) (fun s' => ih (lo + 1) s')

theorem ow_for {wk : Span} {σ : Type} {body : Int → σ → MM T σ} (hb : ∀ i s, OnlyWrites wk (body i s)) (lo hi : Int) (s : σ) :
    OnlyWrites wk (forM lo hi body s) := ow_loop hb _ _ _

theorem ow_writeW {dbg : Bool} {rows : Int} {wk : Span} {r c : Int} {v : T} : OnlyWrites wk (writeW dbg rows wk r c v) :=
  ow_bind (ow_lift _) fun _ => ow_bind (ow_lift _) fun _ => ow_bind (ow_lift _) fun _ => ow_put _ _

theorem ow_placeEntry {dbg : Bool} {sym : Symmetry} {rows : Int} {wk : Span} {r c : Int} {v : T} :
    OnlyWrites wk (placeEntry dbg sym rows wk r c v) := by
  unfold placeEntry
  split
  · exact ow_writeW
  · exact ow_bind (ow_writeW) fun _ => ow_writeW

theorem ow_fill (wk : Span) (zero : T) : OnlyWrites wk (fill wk zero) := ow_for (fun _ _ => ow_put _ _) _ _ _

theorem ow_pack {dbg : Bool} {rows : Int} {fv wk : Span} {c : Int} {t : Nat} : OnlyWrites (T := T) wk (packBody dbg rows fv wk c t) := by
  refine ow_bind (ow_lift _) fun _ => ow_bind (ow_lift _) fun _ => ow_bind ?_ fun _ => ow_pure _
  unfold copyBackward
  split
  · exact ow_for (fun _ _ => ow_bind (ow_get _ _) fun _ => ow_put _ _) _ _ _
  · exact ow_lift _

/-- **C131**: whatever the pattern (valid or not), the target, the request, the build, the spans (also if they overlap) and the memory, and
whether it returns or throws, `convert_values` leaves everything outside of the workspace as it was. -/
theorem convert_values_frame (zero : T) (std : StdLib) (dbg : Bool) (p : Pattern) (tgt : Target) {f : Span → Span → MM T Span}
    (hf : convert zero std dbg p tgt = .ok f) (fv wk : Span) (m : Mem T) (a : Int) (ha : ¬ wk.Has a) : (f fv wk m).2 a = m a := by
  have key : OnlyWrites wk (f fv wk) := by
    cases p <;> cases tgt <;> simp only [convert, res_bind_ok, Except.ok.injEq] at hf <;> obtain ⟨sp, _, rfl⟩ := hf
    · exact ow_bind (ow_lift _) fun _ => ow_bind (ow_lift _) fun _ => ow_pure _
    · refine ow_bind (ow_lift _) fun _ => ow_bind (ow_lift _) fun _ => ow_bind (ow_lift _) fun _ => ow_bind (ow_lift _) fun _ => ?_
      split
      · exact ow_pure _
      · exact ow_bind (ow_for (fun _ _ => ow_pack) _ _ _) fun _ => ow_pure _
      · exact ow_lift _
    · refine ow_bind (ow_lift _) fun _ => ow_bind (ow_lift _) fun _ => ow_bind (ow_lift _) fun _ => ow_bind (ow_lift _) fun _ => ?_
      split
      · exact ow_pure _
      · exact ow_bind (ow_for (fun _ _ => ow_pack) _ _ _) fun _ => ow_pure _
      · exact ow_lift _
    · refine ow_bind (ow_lift _) fun _ => ow_bind (ow_lift _) fun _ => ow_bind (ow_lift _) fun _ => ow_bind (ow_lift _) fun _ =>
        ow_bind (ow_fill _ _) fun _ => ow_bind (ow_for (fun c l => ?_) _ _ _) fun _ => ow_pure _
      refine ow_bind (ow_lift _) fun _ => ow_bind (ow_lift _) fun _ => ow_bind (ow_lift _) fun _ => ow_for (fun i l => ?_) _ _ _
      exact ow_bind (ow_lift _) fun _ => ow_bind (ow_lift _) fun _ => ow_bind (ow_lift _) fun _ => ow_bind (ow_get _ _) fun _ =>
        ow_bind (ow_placeEntry) fun _ => ow_pure _
    · exact ow_bind (ow_lift _) fun _ => ow_bind (ow_lift _) fun _ => ow_bind (ow_lift _) fun _ => ow_pure _
    · refine ow_bind (ow_lift _) fun _ => ow_bind (ow_lift _) fun _ => ow_bind (ow_lift _) fun _ => ow_bind (ow_lift _) fun _ => ?_
      split
      · exact ow_pure _
      · exact ow_bind (ow_for (fun _ _ => ow_bind (ow_lift _) fun _ => ow_bind (ow_lift _) fun _ => ow_bind (ow_get _ _) fun _ =>
          ow_put _ _) _ _ _) fun _ => ow_pure _
    · refine ow_bind (ow_lift _) fun _ => ow_bind (ow_lift _) fun _ => ow_bind (ow_lift _) fun _ => ow_bind (ow_lift _) fun _ =>
        ow_bind (ow_fill _ _) fun _ => ow_bind (ow_for (fun c l => ?_) _ _ _) fun _ => ow_pure _
      exact ow_bind (ow_lift _) fun _ => ow_bind (ow_lift _) fun _ => ow_bind (ow_lift _) fun _ => ow_bind (ow_lift _) fun _ =>
        ow_bind (ow_lift _) fun _ => ow_bind (ow_get _ _) fun _ => ow_placeEntry
    · exact ow_bind (ow_lift _) fun _ => ow_bind (ow_lift _) fun _ => ow_bind (ow_lift _) fun _ => ow_pure _
    · refine ow_bind (ow_lift _) fun _ => ow_bind (ow_lift _) fun _ => ow_bind (ow_lift _) fun _ => ow_bind (ow_lift _) fun _ => ?_
      split
      · exact ow_pure _
      · exact ow_bind (ow_for (fun _ _ => ow_bind (ow_lift _) fun _ => ow_bind (ow_lift _) fun _ => ow_bind (ow_get _ _) fun _ =>
          ow_put _ _) _ _ _) fun _ => ow_pure _
  exact key m a ha

end Guanaqo.Sparsity.Memory
