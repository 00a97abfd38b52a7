import Verif.Tactics
import Verif.MatView.Props
import Verif.Loops
import Mathlib.Algebra.BigOperators.Group.Finset.Basic
import Mathlib.Data.Fintype.Basic

/-!
# C145: threads working on separate parts of a matrix (mat-view.hpp)

The operations of a view as the sequence of memory accesses they make, one access per step, run by several threads in any order. The operations are proved to be the ones of
`Verif.MatView.Model` when run without interruption.
-/

namespace Guanaqo.MatView.Threads

open Guanaqo.MatView

variable {α σ τ : Type}

/-! ## Programs of memory accesses -/

/-- A computation as its memory accesses. -/
inductive Prog (α σ : Type) where
  | ret (s : σ)
  | fail (f : Fault)
  | read (a : Int) (k : α → Prog α σ)
  | write (a : Int) (x : α) (k : Prog α σ)

/-- One computation after another. -/
def Prog.bind : Prog α σ → (σ → Prog α τ) → Prog α τ
  | .ret s, f => f s
  | .fail e, _ => .fail e
  | .read a k, f => .read a fun x => (k x).bind f
  | .write a x k, f => .write a x (k.bind f)

/-- `assert` -/
def passert (b : Bool) : Prog α Unit := if b then .ret () else .fail .assertFail

/-- `for (i = lo; i < lo + n; ++i)` -/
def pforLoop (body : Int → σ → Prog α σ) : Int → Nat → σ → Prog α σ
  | _, 0, s => .ret s
  | lo, n + 1, s => (body lo s).bind fun s' => pforLoop body (lo + 1) n s'

/-- `for (i = lo; i < hi; ++i)` -/
def pfor (lo hi : Int) (body : Int → σ → Prog α σ) (s : σ) : Prog α σ := pforLoop body lo (hi - lo).toNat s

/-- Run without interruption. -/
def Prog.run : Prog α σ → Mem α → Res (Mem α × σ)
  | .ret s, m => .ok (m, s)
  | .fail f, _ => .error f
  | .read a k, m => do
    let x ← m.read a
    (k x).run m
  | .write a x k, m => do
    let m ← m.write a x
    k.run m

/-! ## The operations -/

/-- Reading a `const value_type &`. -/
def evalP : Arg α → Prog α α
  | .temp x => .ret x
  | .ref a => .read a .ret

/-- `operator()`, mat-view.hpp:61-65. -/
def atP (v : View) (r c : Int) : Prog α Int :=
  (passert (decide (0 ≤ r ∧ r < v.rows))).bind fun _ => (passert (decide (0 ≤ c ∧ c < v.cols))).bind fun _ => .ret (v.addr r c)

/-- `std::fill_n`, as called at mat-view.hpp:160. -/
def fillNP (p n : Int) (t : Arg α) : Prog α Unit :=
  pfor 0 n (fun i _ => (evalP t).bind fun x => .write (p + i) x (.ret ())) ()

/-- `set_constant(t)`, mat-view.hpp:157-165. -/
def setConstantP (v : View) (t : Arg α) : Prog α Unit :=
  if v.inner = 1 then pfor 0 v.cols (fun c _ => fillNP (v.data + c * v.outer) v.rows t) ()
  else pfor 0 v.cols (fun c _ => pfor 0 v.rows (fun r _ => (atP v r c).bind fun a => (evalP t).bind fun x => .write a x (.ret ())) ()) ()

/-- `std::copy_n`, mat-view.hpp:223. -/
def copyNP (src n dst : Int) : Prog α Unit := pfor 0 n (fun i _ => .read (src + i) fun x => .write (dst + i) x (.ret ())) ()

/-- A column of `copy_values`, mat-view.hpp:222-232. -/
def copyColumnP (srcInner dstInner rows src dst : Int) : Prog α Unit :=
  if srcInner = 1 ∧ dstInner = 1 then copyNP src rows dst
  else (pfor 0 rows (fun _ (q : Int × Int) => .read q.1 fun x => .write q.2 x (.ret (q.1 + srcInner, q.2 + dstInner))) (src, dst)).bind fun _ => .ret ()

/-- `copy_values(other)`, mat-view.hpp:216-236. -/
def copyValuesP (v other : View) : Prog α Unit :=
  (passert (decide (other.rows = v.rows))).bind fun _ => (passert (decide (other.cols = v.cols))).bind fun _ =>
    (pfor 0 v.cols (fun _ (q : Int × Int) => (copyColumnP other.inner v.inner v.rows q.1 q.2).bind fun _ => .ret (q.1 + other.outer, q.2 + v.outer)) (other.data, v.data)).bind fun _ => .ret ()

/-- A column of `operator+=(MatrixView)`, mat-view.hpp:262-268. -/
def addColumnP [Add α] (srcInner dstInner rows src dst : Int) : Prog α Unit :=
  (pfor 0 rows (fun _ (q : Int × Int) => .read q.1 fun y => .read q.2 fun x => .write q.2 (x + y) (.ret (q.1 + srcInner, q.2 + dstInner))) (src, dst)).bind fun _ => .ret ()

/-- `operator+=(MatrixView)`, mat-view.hpp:256-273. -/
def addViewP [Add α] (v other : View) : Prog α Unit :=
  (passert (decide (other.rows = v.rows))).bind fun _ => (passert (decide (other.cols = v.cols))).bind fun _ =>
    (pfor 0 v.cols (fun _ (q : Int × Int) => (addColumnP other.inner v.inner v.rows q.1 q.2).bind fun _ => .ret (q.1 + other.outer, q.2 + v.outer)) (other.data, v.data)).bind fun _ => .ret ()

/-- A column of `operator+=(const U &)`, mat-view.hpp:279-283. -/
def addScalarColumnP [Add α] (dstInner rows dst : Int) (u : Arg α) : Prog α Unit :=
  (pfor 0 rows (fun _ (q : Int) => .read q fun x => (evalP u).bind fun y => .write q (x + y) (.ret (q + dstInner))) dst).bind fun _ => .ret ()

/-- `operator+=(const U &)`, mat-view.hpp:275-287. -/
def addScalarP [Add α] (v : View) (u : Arg α) : Prog α Unit :=
  (pfor 0 v.cols (fun _ (q : Int) => (addScalarColumnP v.inner v.rows q u).bind fun _ => .ret (q + v.outer)) v.data).bind fun _ => .ret ()

/-- `generate(gen)`, mat-view.hpp:288-293, with the generator's state. -/
def generateP (v : View) (gen : σ → α × σ) (g : σ) : Prog α σ :=
  pfor 0 v.cols (fun c g => pfor 0 v.rows (fun r g => (atP v r c).bind fun a => .write a (gen g).1 (.ret (gen g).2)) g) g

/-- What a thread does with its view. -/
inductive Op (α σ : Type) where
  | setConstant (t : Arg α)
  | copy (other : View)
  | addView (other : View)
  | addScalar (u : Arg α)
  | generate (gen : σ → α × σ) (g : σ)

/-- The thread's accesses. -/
def Op.prog [Add α] (v : View) : Op α σ → Prog α Unit
  | .setConstant t => setConstantP v t
  | .copy other => copyValuesP v other
  | .addView other => addViewP v other
  | .addScalar u => addScalarP v u
  | .generate gen g => (generateP v gen g).bind fun _ => .ret ()

/-- The operation on its own: the functions of `Verif.MatView.Model`. -/
def Op.alone [Add α] (v : View) (m : Mem α) : Op α σ → Res (Mem α)
  | .setConstant t => v.setConstant t m
  | .copy other => v.copyValues other m
  | .addView other => v.addView other m
  | .addScalar u => v.addScalar u m
  | .generate gen g => do return (← v.generate gen g m).1

/-! ## Threads -/

section threads

variable {ι : Type} [DecidableEq ι]

/-- The memory and what each thread still has to do. -/
structure Config (α ι : Type) where
  mem : Mem α
  prog : ι → Prog α Unit

/-- The next access of a program: the address, and whether it writes. -/
def Prog.next : Prog α σ → Option (Int × Bool)
  | .read a _ => some (a, false)
  | .write a _ _ => some (a, true)
  | _ => none

/-- Thread `i` makes its next access. Accesses outside of storage are `none`, as are failed assertions. -/
def step (c : Config α ι) (i : ι) : Option (Config α ι) :=
  match c.prog i with
  | .ret _ => none
  | .fail _ => none
  | .read a k => match c.mem a with
    | some x => some { c with prog := Function.update c.prog i (k x) }
    | none => none
  | .write a x k => match c.mem a with
    | some _ => some { mem := fun b => if b = a then some x else c.mem b, prog := Function.update c.prog i k }
    | none => none

/-- Reached by letting the threads of the list make one access each. -/
def after : Config α ι → List ι → Option (Config α ι)
  | c, [] => some c
  | c, i :: l => (step c i).bind fun c' => after c' l

/-- Thread `i` has finished. -/
def Finished (c : Config α ι) (i : ι) : Prop := c.prog i = .ret ()

/-- Two threads are about to access the same place, and one of them writes. -/
def Race (c : Config α ι) : Prop :=
  ∃ i j a w w', i ≠ j ∧ (c.prog i).next = some (a, w) ∧ (c.prog j).next = some (a, w') ∧ (w = true ∨ w' = true)

end threads

/-! ## Running programs -/

theorem run_bind (p : Prog α σ) (f : σ → Prog α τ) (m : Mem α) : (p.bind f).run m = p.run m >>= fun r => (f r.2).run r.1 := by
  induction p generalizing m with
  | ret s => rfl
  | fail e => rfl
  | read a k ih =>
    simp only [Prog.bind, Prog.run, res_bind_assoc]
    congr 1
    funext x
    exact ih x m
  | write a x k ih =>
    simp only [Prog.bind, Prog.run, res_bind_assoc]
    congr 1
    funext m'
    exact ih m'

theorem run_pfor (lo hi : Int) (body : Int → σ → Prog α σ) (body' : Int → Mem α × σ → Res (Mem α × σ)) (h : ∀ i s m, (body i s).run m = body' i (m, s)) (s : σ) (m : Mem α) :
    (pfor lo hi body s).run m = forRange lo hi body' (m, s) := by
  unfold pfor forRange
  generalize (hi - lo).toNat = n
  induction n generalizing lo s m with
  | zero => rfl
  | succ n ih =>
    simp only [pforLoop, forLoop, run_bind, h]
    congr 1
    funext r
    exact ih (lo + 1) r.2 r.1

theorem run_pforU (lo hi : Int) (body : Int → Unit → Prog α Unit) (body' : Int → Mem α → Res (Mem α)) (h : ∀ i m, (body i ()).run m = body' i m >>= fun m' => .ok (m', ())) (m : Mem α) :
    (pfor lo hi body ()).run m = forRange lo hi body' m >>= fun m' => .ok (m', ()) := by
  unfold pfor forRange
  generalize (hi - lo).toNat = n
  induction n generalizing lo m with
  | zero => rfl
  | succ n ih =>
    simp only [pforLoop, forLoop, run_bind, h, res_bind_assoc]
    congr 1
    funext r
    exact ih (lo + 1) r

theorem run_passert (b : Bool) (m : Mem α) : (passert b).run m = assertThat b >>= fun u => .ok (m, u) := by
  cases b <;> rfl

theorem run_evalP (t : Arg α) (m : Mem α) : (evalP t).run m = t.eval m >>= fun x => .ok (m, x) := by
  cases t with
  | temp x => rfl
  | ref a => rfl

theorem run_atP (v : View) (r c : Int) (m : Mem α) : (atP v r c).run m = v.at r c >>= fun a => .ok (m, a) := by
  simp only [atP, run_bind, run_passert, View.at, res_bind_assoc, res_ok_bind, res_pure]
  rfl

theorem run_fillNP (p n : Int) (t : Arg α) (m : Mem α) : (fillNP p n t).run m = fillN p n t m >>= fun m' => .ok (m', ()) := by
  refine run_pforU _ _ _ _ (fun i m => ?_) m
  simp only [run_bind, run_evalP, res_bind_assoc, res_ok_bind, Prog.run]

theorem run_setConstantP (v : View) (t : Arg α) (m : Mem α) : (setConstantP v t).run m = v.setConstant t m >>= fun m' => .ok (m', ()) := by
  unfold setConstantP View.setConstant
  split
  · exact run_pforU _ _ _ _ (fun c m => run_fillNP _ _ _ m) m
  · refine run_pforU _ _ _ _ (fun c m => run_pforU _ _ _ _ (fun r m => ?_) m) m
    simp only [run_bind, run_atP, run_evalP, res_bind_assoc, res_ok_bind, Prog.run]

theorem run_copyColumnP (si di rows src dst : Int) (m : Mem α) : (copyColumnP si di rows src dst).run m = copyColumn si di rows src dst m >>= fun m' => .ok (m', ()) := by
  unfold copyColumnP copyColumn
  split
  · refine run_pforU _ _ _ _ (fun i m => ?_) m
    simp only [Prog.run, res_bind_assoc]
  · rw [run_bind, run_pfor (body' := fun _ (s : Mem α × Int × Int) => do
        let m ← s.1.write s.2.2 (← s.1.read s.2.1)
        return (m, s.2.1 + si, s.2.2 + di))]
    · simp only [Prog.run, res_bind_assoc, res_pure, res_ok_bind]
    · intro i s m
      simp only [Prog.run, res_pure]

theorem run_copyValuesP (v other : View) (m : Mem α) : (copyValuesP v other).run m = v.copyValues other m >>= fun m' => .ok (m', ()) := by
  simp only [copyValuesP, View.copyValues, run_bind, run_passert, res_bind_assoc, res_ok_bind, res_pure]
  congr 1; funext _; congr 1; funext _
  rw [run_pfor (body' := fun _ (s : Mem α × Int × Int) => do
    let m ← copyColumn other.inner v.inner v.rows s.2.1 s.2.2 s.1
    return (m, s.2.1 + other.outer, s.2.2 + v.outer))]
  · rfl
  · intro i s m
    simp only [run_bind, run_copyColumnP, res_bind_assoc, res_ok_bind, Prog.run, res_pure]

theorem run_addColumnP [Add α] (si di rows src dst : Int) (m : Mem α) : (addColumnP si di rows src dst).run m = addColumn si di rows src dst m >>= fun m' => .ok (m', ()) := by
  unfold addColumnP addColumn
  rw [run_bind, run_pfor (body' := fun _ (s : Mem α × Int × Int) => do
    let y ← s.1.read s.2.1
    let x ← s.1.read s.2.2
    let m ← s.1.write s.2.2 (x + y)
    return (m, s.2.1 + si, s.2.2 + di))]
  · simp only [Prog.run, res_bind_assoc, res_pure, res_ok_bind]
  · intro i s m
    simp only [Prog.run, res_pure]

theorem run_addViewP [Add α] (v other : View) (m : Mem α) : (addViewP v other).run m = v.addView other m >>= fun m' => .ok (m', ()) := by
  simp only [addViewP, View.addView, run_bind, run_passert, res_bind_assoc, res_ok_bind, res_pure]
  congr 1; funext _; congr 1; funext _
  rw [run_pfor (body' := fun _ (s : Mem α × Int × Int) => do
    let m ← addColumn other.inner v.inner v.rows s.2.1 s.2.2 s.1
    return (m, s.2.1 + other.outer, s.2.2 + v.outer))]
  · rfl
  · intro i s m
    simp only [run_bind, run_addColumnP, res_bind_assoc, res_ok_bind, Prog.run, res_pure]

theorem run_addScalarColumnP [Add α] (di rows dst : Int) (u : Arg α) (m : Mem α) : (addScalarColumnP di rows dst u).run m = addScalarColumn di rows dst u m >>= fun m' => .ok (m', ()) := by
  unfold addScalarColumnP addScalarColumn
  rw [run_bind, run_pfor (body' := fun _ (s : Mem α × Int) => do
    let x ← s.1.read s.2
    let m ← s.1.write s.2 (x + (← u.eval s.1))
    return (m, s.2 + di))]
  · simp only [Prog.run, res_bind_assoc, res_pure, res_ok_bind]
  · intro i s m
    simp only [Prog.run, run_bind, run_evalP, res_bind_assoc, res_ok_bind, res_pure]

theorem run_addScalarP [Add α] (v : View) (u : Arg α) (m : Mem α) : (addScalarP v u).run m = v.addScalar u m >>= fun m' => .ok (m', ()) := by
  unfold addScalarP View.addScalar
  rw [run_bind, run_pfor (body' := fun _ (s : Mem α × Int) => do
    let m ← addScalarColumn v.inner v.rows s.2 u s.1
    return (m, s.2 + v.outer))]
  · simp only [Prog.run, res_bind_assoc, res_pure, res_ok_bind]
  · intro i s m
    simp only [run_bind, run_addScalarColumnP, res_bind_assoc, res_ok_bind, Prog.run, res_pure]

theorem run_generateP (v : View) (gen : σ → α × σ) (g : σ) (m : Mem α) : (generateP v gen g).run m = v.generate gen g m := by
  unfold generateP View.generate
  refine run_pfor _ _ _ _ (fun c g m => ?_) g m
  refine run_pfor _ _ _ _ (fun r g m => ?_) g m
  simp only [run_bind, run_atP, res_bind_assoc, res_ok_bind, Prog.run, res_pure]

/-- Run without interruption, the accesses of an operation are the operation. -/
theorem run_op [Add α] (v : View) (op : Op α σ) (m : Mem α) : (op.prog v).run m = op.alone v m >>= fun m' => .ok (m', ()) := by
  cases op with
  | setConstant t => exact run_setConstantP v t m
  | copy o => exact run_copyValuesP v o m
  | addView o => exact run_addViewP v o m
  | addScalar u => exact run_addScalarP v u m
  | generate gen g =>
    simp only [Op.prog, Op.alone, run_bind, run_generateP, res_bind_assoc, Prog.run, res_pure, res_ok_bind]

/-! ## What a program may access -/

/-- The program only writes in `W` and only reads in `R`, and what it returns satisfies `Q`. -/
def Prog.Within (W R : Int → Prop) (Q : σ → Prop) : Prog α σ → Prop
  | .ret s => Q s
  | .fail _ => True
  | .read a k => R a ∧ ∀ x, (k x).Within W R Q
  | .write a _ k => W a ∧ k.Within W R Q

variable {W R : Int → Prop}

theorem within_bind {Q : σ → Prop} {Q' : τ → Prop} {p : Prog α σ} {f : σ → Prog α τ} (h : p.Within W R Q) (hf : ∀ s, Q s → (f s).Within W R Q') : (p.bind f).Within W R Q' := by
  induction p with
  | ret s => exact hf s h
  | fail e => trivial
  | read a k ih => exact ⟨h.1, fun x => ih x (h.2 x)⟩
  | write a x k ih => exact ⟨h.1, ih h.2⟩

theorem within_pfor {lo hi : Int} {body : Int → σ → Prog α σ} (Q : Int → σ → Prop) {s : σ} (h0 : Q lo s)
    (hb : ∀ i s, lo ≤ i → i < hi → Q i s → (body i s).Within W R (Q (i + 1))) : (pfor lo hi body s).Within W R (fun _ => True) := by
  unfold pfor
  generalize hn : (hi - lo).toNat = n
  induction n generalizing lo s with
  | zero => trivial
  | succ n ih =>
    refine within_bind (Q := Q (lo + 1)) (hb lo s (by omega) (by omega) h0) fun s' hs' => ?_
    exact ih hs' (fun i s h1 h2 => hb i s (by omega) h2) (by omega)

theorem within_passert (b : Bool) : (passert (α := α) b).Within W R (fun _ => b = true) := by
  cases b with
  | true => exact (rfl : true = true)
  | false => trivial

/-- The places an argument refers to. -/
def ArgAt (t : Arg α) (a : Int) : Prop := t = .ref a

theorem within_evalP {t : Arg α} (h : ∀ a, ArgAt t a → R a) : (evalP t).Within W R (fun _ => True) := by
  cases t with
  | temp x => exact trivial
  | ref a => exact ⟨h a rfl, fun _ => trivial⟩

theorem elem_addr {v : View} {r c a : Int} (hr : 0 ≤ r ∧ r < v.rows) (hc : 0 ≤ c ∧ c < v.cols) (ha : a = v.data + r * v.inner + c * v.outer) : v.IsElemAddr (fun _ _ => True) a :=
  ⟨r, c, ⟨hr.1, hr.2, hc.1, hc.2⟩, trivial, ha⟩

theorem within_setConstantP {v : View} {t : Arg α} (hW : ∀ a, v.IsElemAddr (fun _ _ => True) a → W a) (hR : ∀ a, ArgAt t a → R a) : (setConstantP v t).Within W R (fun _ => True) := by
  unfold setConstantP
  split
  · rename_i h1
    refine within_pfor (fun _ _ => True) trivial fun c _ hc0 hc _ => ?_
    refine within_pfor (fun _ _ => True) trivial fun r _ hr0 hr _ => ?_
    refine within_bind (within_evalP hR) fun x _ => ⟨hW _ (elem_addr (r := r) (c := c) ⟨hr0, hr⟩ ⟨hc0, hc⟩ (by rw [h1]; ring)), trivial⟩
  · refine within_pfor (fun _ _ => True) trivial fun c _ hc0 hc _ => ?_
    refine within_pfor (fun _ _ => True) trivial fun r _ hr0 hr _ => ?_
    refine within_bind (Q := fun a => a = v.addr r c) ?_ fun a ha => within_bind (within_evalP hR) fun x _ => ⟨hW _ (elem_addr (r := r) (c := c) ⟨hr0, hr⟩ ⟨hc0, hc⟩ ?_), trivial⟩
    · exact within_bind (within_passert _) fun _ _ => within_bind (within_passert _) fun _ _ => rfl
    · rw [ha, View.addr]; ring

theorem within_copyColumnP {v other : View} {c : Int} (hc : 0 ≤ c ∧ c < v.cols) (hrows : other.rows = v.rows) (hcols : other.cols = v.cols)
    (hW : ∀ a, v.IsElemAddr (fun _ _ => True) a → W a) (hR : ∀ a, other.IsElemAddr (fun _ _ => True) a → R a) :
    (copyColumnP (α := α) other.inner v.inner v.rows (other.data + c * other.outer) (v.data + c * v.outer)).Within W R (fun _ => True) := by
  unfold copyColumnP
  split
  · rename_i h1
    refine within_pfor (fun _ _ => True) trivial fun r _ hr0 hr _ => ?_
    exact ⟨hR _ (elem_addr (r := r) (c := c) ⟨hr0, by omega⟩ ⟨hc.1, by omega⟩ (by rw [h1.1]; ring)),
      fun x => ⟨hW _ (elem_addr (r := r) (c := c) ⟨hr0, hr⟩ hc (by rw [h1.2]; ring)), trivial⟩⟩
  · refine within_bind (Q := fun _ => True) ?_ fun _ _ => trivial
    refine within_pfor (fun r q => q = (other.data + c * other.outer + r * other.inner, v.data + c * v.outer + r * v.inner)) (by simp) fun r q hr0 hr hq => ?_
    subst hq
    refine ⟨hR _ (elem_addr (r := r) (c := c) ⟨hr0, by omega⟩ ⟨hc.1, by omega⟩ (by dsimp only; ring)),
      fun x => ⟨hW _ (elem_addr (r := r) (c := c) ⟨hr0, hr⟩ hc (by dsimp only; ring)), ?_⟩⟩
    simp only [Prog.Within, Prod.mk.injEq]
    constructor <;> ring

theorem within_copyValuesP {v other : View} (hW : ∀ a, v.IsElemAddr (fun _ _ => True) a → W a) (hR : ∀ a, other.IsElemAddr (fun _ _ => True) a → R a) :
    (copyValuesP (α := α) v other).Within W R (fun _ => True) := by
  refine within_bind (within_passert _) fun _ h1 => within_bind (within_passert _) fun _ h2 => within_bind (Q := fun _ => True) ?_ fun _ _ => trivial
  rw [decide_eq_true_iff] at h1 h2
  refine within_pfor (fun c q => q = (other.data + c * other.outer, v.data + c * v.outer)) (by simp) fun c q hc0 hc hq => ?_
  subst hq
  refine within_bind (within_copyColumnP ⟨hc0, hc⟩ h1 h2 hW hR) fun _ _ => ?_
  simp only [Prog.Within, Prod.mk.injEq]
  constructor <;> ring

theorem within_addViewP [Add α] {v other : View} (hW : ∀ a, v.IsElemAddr (fun _ _ => True) a → W a ∧ R a) (hR : ∀ a, other.IsElemAddr (fun _ _ => True) a → R a) :
    (addViewP (α := α) v other).Within W R (fun _ => True) := by
  refine within_bind (within_passert _) fun _ h1 => within_bind (within_passert _) fun _ h2 => within_bind (Q := fun _ => True) ?_ fun _ _ => trivial
  rw [decide_eq_true_iff] at h1 h2
  refine within_pfor (fun c q => q = (other.data + c * other.outer, v.data + c * v.outer)) (by simp) fun c q hc0 hc hq => ?_
  subst hq
  refine within_bind (Q := fun _ => True) ?_ fun _ _ => ?_
  · refine within_bind (Q := fun _ => True) ?_ fun _ _ => trivial
    refine within_pfor (fun r q => q = (other.data + c * other.outer + r * other.inner, v.data + c * v.outer + r * v.inner)) (by simp) fun r q hr0 hr hq => ?_
    subst hq
    have hv := hW (v.data + c * v.outer + r * v.inner) (elem_addr (r := r) (c := c) ⟨hr0, hr⟩ ⟨hc0, hc⟩ (by ring))
    refine ⟨hR _ (elem_addr (r := r) (c := c) ⟨hr0, by omega⟩ ⟨hc0, by omega⟩ (by dsimp only; ring)), fun y => ⟨hv.2, fun x => ⟨hv.1, ?_⟩⟩⟩
    simp only [Prog.Within, Prod.mk.injEq]
    constructor <;> ring
  · simp only [Prog.Within, Prod.mk.injEq]
    constructor <;> ring

theorem within_addScalarP [Add α] {v : View} {u : Arg α} (hW : ∀ a, v.IsElemAddr (fun _ _ => True) a → W a ∧ R a) (hR : ∀ a, ArgAt u a → R a) :
    (addScalarP v u).Within W R (fun _ => True) := by
  refine within_bind (Q := fun _ => True) ?_ fun _ _ => trivial
  refine within_pfor (fun c q => q = v.data + c * v.outer) (by simp) fun c q hc0 hc hq => ?_
  subst hq
  refine within_bind (Q := fun _ => True) ?_ fun _ _ => ?_
  · refine within_bind (Q := fun _ => True) ?_ fun _ _ => trivial
    refine within_pfor (fun r q => q = v.data + c * v.outer + r * v.inner) (by simp) fun r q hr0 hr hq => ?_
    subst hq
    have hv := hW (v.data + c * v.outer + r * v.inner) (elem_addr (r := r) (c := c) ⟨hr0, hr⟩ ⟨hc0, hc⟩ (by ring))
    refine ⟨hv.2, fun x => within_bind (within_evalP hR) fun y _ => ⟨hv.1, ?_⟩⟩
    simp only [Prog.Within]
    ring
  · simp only [Prog.Within]
    ring

theorem within_generateP {v : View} {gen : σ → α × σ} {g : σ} (hW : ∀ a, v.IsElemAddr (fun _ _ => True) a → W a) : (generateP v gen g).Within W R (fun _ => True) := by
  refine within_pfor (fun _ _ => True) trivial fun c g hc0 hc _ => ?_
  refine within_pfor (fun _ _ => True) trivial fun r g hr0 hr _ => ?_
  refine within_bind (Q := fun a => a = v.addr r c) ?_ fun a ha => ⟨hW _ (elem_addr (r := r) (c := c) ⟨hr0, hr⟩ ⟨hc0, hc⟩ ?_), trivial⟩
  · exact within_bind (within_passert _) fun _ _ => within_bind (within_passert _) fun _ _ => rfl
  · rw [ha, View.addr]; ring

/-! ## Specification -/

/-- The places an operation reads besides the elements of its view: those of the source, or the scalar. -/
def Op.Reads : Op α σ → Int → Prop
  | .setConstant t, a => t = .ref a
  | .copy other, a => other.IsElemAddr (fun _ _ => True) a
  | .addView other, a => other.IsElemAddr (fun _ _ => True) a
  | .addScalar u, a => u = .ref a
  | .generate _ _, _ => False

/-- No element of a thread's view is an element of another thread's view, or read by another thread. -/
def Separate {ι : Type} (v : ι → View) (op : ι → Op α σ) : Prop :=
  ∀ i j, i ≠ j → ∀ a, (v i).IsElemAddr (fun _ _ => True) a → ¬ (v j).IsElemAddr (fun _ _ => True) a ∧ ¬ (op j).Reads a

theorem within_op [Add α] (v : View) (op : Op α σ) :
    (op.prog v).Within (fun a => v.IsElemAddr (fun _ _ => True) a) (fun a => v.IsElemAddr (fun _ _ => True) a ∨ op.Reads a) (fun _ => True) := by
  cases op with
  | setConstant t => exact within_setConstantP (fun a h => h) fun a h => .inr h
  | copy o => exact within_copyValuesP (fun a h => h) fun a h => .inr h
  | addView o => exact within_addViewP (fun a h => ⟨h, .inl h⟩) fun a h => .inr h
  | addScalar u => exact within_addScalarP (fun a h => ⟨h, .inl h⟩) fun a h => .inr h
  | generate gen g => exact within_bind (within_generateP fun a h => h) fun _ _ => trivial

/-! ## Schedules -/

/-- The number of accesses of a run without interruption. -/
def Prog.accesses : Prog α σ → Mem α → Nat
  | .ret _, _ => 0
  | .fail _, _ => 0
  | .read a k, m => match m a with
    | some x => (k x).accesses m + 1
    | none => 0
  | .write a x k, m => k.accesses (fun b => if b = a then some x else m b) + 1

variable {ι : Type} [DecidableEq ι]

/-- Each thread has a memory of its own in which it has done alone what it has done so far; the common memory agrees with it where the thread reads and writes. -/
structure Inv (W R : ι → Int → Prop) (p₀ : ι → Prog α Unit) (m₀ : Mem α) (c : Config α ι) (own : ι → Mem α) : Prop where
  run : ∀ i, (c.prog i).run (own i) = (p₀ i).run m₀
  within : ∀ i, (c.prog i).Within (W i) (R i) (fun _ => True)
  here : ∀ i a, W i a ∨ R i a → c.mem a = own i a
  outside : ∀ i a, ¬ W i a → own i a = m₀ a
  untouched : ∀ a, (∀ i, ¬ W i a) → c.mem a = m₀ a

omit [DecidableEq ι] in
theorem inv_init {W R : ι → Int → Prop} {p₀ : ι → Prog α Unit} (m₀ : Mem α) (h : ∀ i, (p₀ i).Within (W i) (R i) (fun _ => True)) : Inv W R p₀ m₀ ⟨m₀, p₀⟩ (fun _ => m₀) :=
  ⟨fun _ => rfl, h, fun _ _ _ => rfl, fun _ _ _ => rfl, fun _ _ => rfl⟩

/-- A step keeps the invariant and takes one access off. -/
theorem inv_step {W R : ι → Int → Prop} {p₀ : ι → Prog α Unit} {m₀ : Mem α} (hsep : ∀ i j, i ≠ j → ∀ a, W i a → ¬ W j a ∧ ¬ R j a)
    {c c' : Config α ι} {own : ι → Mem α} (h : Inv W R p₀ m₀ c own) {i : ι} (hs : step c i = some c') :
    ∃ own', Inv W R p₀ m₀ c' own' ∧ (c.prog i).accesses (own i) = (c'.prog i).accesses (own' i) + 1 ∧ ∀ j, j ≠ i → (c'.prog j).accesses (own' j) = (c.prog j).accesses (own j) := by
  have hrun := h.run i
  have hwith := h.within i
  unfold step at hs
  cases hp : c.prog i with
  | ret s => simp [hp] at hs
  | fail e => simp [hp] at hs
  | read a k =>
    rw [hp] at hs hrun hwith
    dsimp only at hs
    cases hm : c.mem a with
    | none => simp [hm] at hs
    | some x =>
      rw [hm] at hs
      dsimp only at hs
      cases hs
      have hown : own i a = some x := by rw [← h.here i a (.inr hwith.1), hm]
      refine ⟨own, ⟨?_, ?_, h.here, h.outside, h.untouched⟩, ?_, ?_⟩
      · intro j
        by_cases hj : j = i
        · subst hj
          simp only [Function.update_self]
          rw [← hrun]
          simp [Prog.run, Mem.read, hown]
        · simp only [Function.update_of_ne hj]
          exact h.run j
      · intro j
        by_cases hj : j = i
        · subst hj
          simp only [Function.update_self]
          exact hwith.2 x
        · simp only [Function.update_of_ne hj]
          exact h.within j
      · simp only [Function.update_self, Prog.accesses, hown]
      · intro j hj
        simp only [Function.update_of_ne hj]
  | write a x k =>
    rw [hp] at hs hrun hwith
    dsimp only at hs
    cases hm : c.mem a with
    | none => simp [hm] at hs
    | some y =>
      rw [hm] at hs
      dsimp only at hs
      cases hs
      have hown : own i a = some y := by rw [← h.here i a (.inl hwith.1), hm]
      refine ⟨Function.update own i (fun b => if b = a then some x else own i b), ⟨?_, ?_, ?_, ?_, ?_⟩, ?_, ?_⟩
      · intro j
        by_cases hj : j = i
        · subst hj
          simp only [Function.update_self]
          rw [← hrun]
          simp [Prog.run, Mem.write, hown]
        · simp only [Function.update_of_ne hj]
          exact h.run j
      · intro j
        by_cases hj : j = i
        · subst hj
          simp only [Function.update_self]
          exact hwith.2
        · simp only [Function.update_of_ne hj]
          exact h.within j
      · intro j b hb
        by_cases hj : j = i
        · subst hj
          simp only [Function.update_self]
          split
          · rfl
          · exact h.here j b hb
        · simp only [Function.update_of_ne hj]
          have hne : b ≠ a := by
            rintro rfl
            have := hsep i j (Ne.symm hj) b hwith.1
            tauto
          rw [if_neg hne]
          exact h.here j b hb
      · intro j b hb
        by_cases hj : j = i
        · subst hj
          simp only [Function.update_self]
          have hne : b ≠ a := by rintro rfl; exact hb hwith.1
          rw [if_neg hne]
          exact h.outside j b hb
        · simp only [Function.update_of_ne hj]
          exact h.outside j b hb
      · intro b hb
        dsimp only
        have hne : b ≠ a := by rintro rfl; exact hb i hwith.1
        rw [if_neg hne]
        exact h.untouched b hb
      · simp only [Function.update_self, Prog.accesses]
      · intro j hj
        simp only [Function.update_of_ne hj]

theorem inv_after {W R : ι → Int → Prop} {p₀ : ι → Prog α Unit} {m₀ : Mem α} (hsep : ∀ i j, i ≠ j → ∀ a, W i a → ¬ W j a ∧ ¬ R j a) [Fintype ι]
    (l : List ι) {c c' : Config α ι} {own : ι → Mem α} (h : Inv W R p₀ m₀ c own) (hs : after c l = some c') :
    ∃ own', Inv W R p₀ m₀ c' own' ∧ (∑ i, (c.prog i).accesses (own i)) = (∑ i, (c'.prog i).accesses (own' i)) + l.length := by
  induction l generalizing c own with
  | nil => cases hs; exact ⟨own, h, rfl⟩
  | cons i l ih =>
    simp only [after, Option.bind_eq_some_iff] at hs
    obtain ⟨c₁, h1, h2⟩ := hs
    obtain ⟨own₁, k1, k2, k3⟩ := inv_step hsep h h1
    obtain ⟨own', g1, g2⟩ := ih k1 h2
    refine ⟨own', g1, ?_⟩
    have e1 := Finset.add_sum_erase Finset.univ (fun j => (c.prog j).accesses (own j)) (Finset.mem_univ i)
    have e2 := Finset.add_sum_erase Finset.univ (fun j => (c₁.prog j).accesses (own₁ j)) (Finset.mem_univ i)
    have e3 : ∑ j ∈ Finset.univ.erase i, (c₁.prog j).accesses (own₁ j) = ∑ j ∈ Finset.univ.erase i, (c.prog j).accesses (own j) :=
      Finset.sum_congr rfl fun j hj => k3 j (Finset.ne_of_mem_erase hj)
    rw [List.length_cons]
    omega

/-- If every thread alone runs to its end, no thread is stuck before its end. -/
theorem inv_progress {W R : ι → Int → Prop} {p₀ : ι → Prog α Unit} {m₀ : Mem α} {c : Config α ι} {own : ι → Mem α} (h : Inv W R p₀ m₀ c own) (i : ι)
    (hok : ∃ m, (p₀ i).run m₀ = .ok (m, ())) : Finished c i ∨ ∃ c', step c i = some c' := by
  obtain ⟨m, hm⟩ := hok
  have hrun := h.run i
  have hwith := h.within i
  unfold Finished step
  cases hp : c.prog i with
  | ret s => exact .inl rfl
  | fail e =>
    rw [hp, hm] at hrun
    cases hrun
  | read a k =>
    rw [hp, hm] at hrun
    rw [hp] at hwith
    cases hx : c.mem a with
    | some y => exact .inr ⟨_, by dsimp only; rw [hx]⟩
    | none =>
      have : own i a = none := by rw [← h.here i a (.inr hwith.1), hx]
      simp [Prog.run, Mem.read, this] at hrun
  | write a x k =>
    rw [hp, hm] at hrun
    rw [hp] at hwith
    cases hx : c.mem a with
    | some y => exact .inr ⟨_, by dsimp only; rw [hx]⟩
    | none =>
      have : own i a = none := by rw [← h.here i a (.inl hwith.1), hx]
      simp [Prog.run, Mem.write, this] at hrun

omit [DecidableEq ι] in
theorem inv_race {W R : ι → Int → Prop} {p₀ : ι → Prog α Unit} {m₀ : Mem α} (hsep : ∀ i j, i ≠ j → ∀ a, W i a → ¬ W j a ∧ ¬ R j a)
    {c : Config α ι} {own : ι → Mem α} (h : Inv W R p₀ m₀ c own) : ¬ Race c := by
  have key : ∀ i a w, (c.prog i).next = some (a, w) → (w = true → W i a) ∧ (W i a ∨ R i a) := by
    intro i a w hn
    have hw := h.within i
    cases hp : c.prog i with
    | ret s => rw [hp] at hn; cases hn
    | fail e => rw [hp] at hn; cases hn
    | read b k =>
      rw [hp] at hn hw
      cases hn
      exact ⟨by simp, .inr hw.1⟩
    | write b x k =>
      rw [hp] at hn hw
      cases hn
      exact ⟨fun _ => hw.1, .inl hw.1⟩
  rintro ⟨i, j, a, w, w', hij, h1, h2, h3⟩
  have k1 := key i a w h1
  have k2 := key j a w' h2
  rcases h3 with h3 | h3
  · have := hsep i j hij a (k1.1 h3); tauto
  · have := hsep j i (Ne.symm hij) a (k2.1 h3); tauto

/-! ## C145 -/

/-- C145: threads that work on separate views, each with an operation that succeeds on its own. Whatever the schedule: there is no data race; no thread faults before its end; the schedule ends;
and when all threads are done, every element of every view is what the thread alone would have made it, and no other memory has changed. -/
theorem threads_separate [Fintype ι] [Add α] (v : ι → View) (op : ι → Op α σ) (m : Mem α) (res : ι → Mem α) (hok : ∀ i, (op i).alone (v i) m = .ok (res i)) (hsep : Separate v op) :
    (∀ l c, after ⟨m, fun i => (op i).prog (v i)⟩ l = some c →
      ¬ Race c ∧ (∀ i, Finished c i ∨ ∃ c', step c i = some c') ∧
      ((∀ i, Finished c i) → (∀ i a, (v i).IsElemAddr (fun _ _ => True) a → c.mem a = res i a) ∧ ∀ a, (∀ i, ¬ (v i).IsElemAddr (fun _ _ => True) a) → c.mem a = m a)) ∧
    ∃ N, ∀ l c, after ⟨m, fun i => (op i).prog (v i)⟩ l = some c → l.length ≤ N := by
  have hsep' : ∀ i j, i ≠ j → ∀ a, (v i).IsElemAddr (fun _ _ => True) a → ¬ (v j).IsElemAddr (fun _ _ => True) a ∧ ¬ ((v j).IsElemAddr (fun _ _ => True) a ∨ (op j).Reads a) := by
    intro i j hij a ha
    obtain ⟨h1, h2⟩ := hsep i j hij a ha
    exact ⟨h1, by tauto⟩
  have hinit := inv_init (ι := ι) (W := fun i a => (v i).IsElemAddr (fun _ _ => True) a) (R := fun i a => (v i).IsElemAddr (fun _ _ => True) a ∨ (op i).Reads a)
    (p₀ := fun i => (op i).prog (v i)) m fun i => within_op (v i) (op i)
  have hrun : ∀ i, ((op i).prog (v i)).run m = .ok (res i, ()) := by
    intro i
    rw [run_op, hok i]
    rfl
  constructor
  · intro l c hl
    obtain ⟨own, hinv, -⟩ := inv_after hsep' l hinit hl
    refine ⟨inv_race hsep' hinv, fun i => inv_progress hinv i ⟨_, hrun i⟩, fun hfin => ⟨fun i a ha => ?_, hinv.untouched⟩⟩
    have := hinv.run i
    rw [hfin i, hrun i] at this
    simp only [Prog.run, Except.ok.injEq, Prod.mk.injEq, and_true] at this
    rw [← this]
    exact hinv.here i a (.inl ha)
  · refine ⟨∑ i, ((op i).prog (v i)).accesses m, fun l c hl => ?_⟩
    obtain ⟨own, -, hlen⟩ := inv_after hsep' l hinit hl
    dsimp only at hlen
    omega

omit [DecidableEq ι] in
/-- C145 for parts of one matrix whose elements have addresses of their own: threads that work on parts that have no element in common,
and read nothing else of the matrix (sources and scalars are elsewhere), are separate.
`pos i` are the first row and column of thread `i`'s part and its size. -/
theorem threads_parts (A : View) (hA : A.Injective) (v : ι → View) (pos : ι → Int × Int × Int × Int)
    (hpart : ∀ i, IsSubview A (v i) (pos i).1 (pos i).2.1 (pos i).2.2.1 (pos i).2.2.2)
    (hdis : ∀ i j, i ≠ j → (pos i).1 + (pos i).2.2.1 ≤ (pos j).1 ∨ (pos j).1 + (pos j).2.2.1 ≤ (pos i).1 ∨
      (pos i).2.1 + (pos i).2.2.2 ≤ (pos j).2.1 ∨ (pos j).2.1 + (pos j).2.2.2 ≤ (pos i).2.1)
    (op : ι → Op α σ) (hop : ∀ i a, (op i).Reads a → ¬ A.IsElemAddr (fun _ _ => True) a) : Separate v op := by
  rintro i j hij a ⟨r, c, hrc, -, rfl⟩
  refine ⟨?_, fun hr => hop j _ hr ?_⟩
  rotate_left
  · obtain ⟨a1, a2, a3, a4⟩ := hpart i
    obtain ⟨k1, k2, k3, k4⟩ := a4 r c hrc
    exact ⟨_, _, ⟨k1, k2, k3, k4⟩, trivial, a3 r c⟩
  rintro ⟨r', c', hrc', -, he⟩
  obtain ⟨a1, a2, a3, a4⟩ := hpart i
  obtain ⟨b1, b2, b3, b4⟩ := hpart j
  rw [a3, b3] at he
  have := hA _ _ _ _ (a4 r c hrc) (b4 r' c' hrc') he
  obtain ⟨h1, h2, h3, h4⟩ := hrc
  obtain ⟨g1, g2, g3, g4⟩ := hrc'
  have := hdis i j hij
  omega

/-- The hypotheses are met: the two halves of a 2 × 4 matrix, one filled with a constant, one with numbers. -/
example : ∃ (v : Bool → View) (op : Bool → Op Int Int) (m : Mem Int) (res : Bool → Mem Int), Separate v op ∧
    (∀ i, (op i).alone (v i) m = .ok (res i)) ∧ v true = ⟨10, 2, 2, 1, 2⟩ ∧ v false = ⟨14, 2, 2, 1, 2⟩ := by
  have hA : (⟨10, 2, 4, 1, 2⟩ : View).Injective := by
    rintro r c r' c' ⟨h1, h2, h3, h4⟩ ⟨g1, g2, g3, g4⟩ he
    simp only at *
    omega
  refine ⟨fun b => if b then ⟨10, 2, 2, 1, 2⟩ else ⟨14, 2, 2, 1, 2⟩, fun b => if b then .setConstant (.temp 7) else .generate (fun k => (k, k + 1)) 0,
    fun _ => some 1, fun b => if b then ?_ else ?_, ?_, ?_, rfl, rfl⟩
  rotate_left 2
  · refine threads_parts ⟨10, 2, 4, 1, 2⟩ hA _ (fun b => if b then (0, 0, 2, 2) else (0, 2, 2, 2)) ?_ ?_ _ ?_
    · rintro (_ | _)
      · refine ⟨rfl, rfl, fun i j => ?_, fun i j ⟨h1, h2, h3, h4⟩ => ?_⟩
        · simp only [Bool.false_eq_true, if_false]; ring
        · simp only [Bool.false_eq_true, if_false] at *
          exact ⟨by omega, by simp only; omega, by omega, by simp only; omega⟩
      · refine ⟨rfl, rfl, fun i j => ?_, fun i j ⟨h1, h2, h3, h4⟩ => ?_⟩
        · simp only [if_true]; ring
        · simp only [if_true] at *
          exact ⟨by omega, by simp only; omega, by omega, by simp only; omega⟩
    · rintro (_ | _) (_ | _) hij <;> simp_all
    · rintro (_ | _) a <;> simp [Op.Reads]
  · rintro (_ | _)
    · exact (rfl : Op.alone (α := Int) (σ := Int) (⟨14, 2, 2, 1, 2⟩ : View) (fun _ => some 1) (.generate (fun k => (k, k + 1)) 0) = .ok _)
    · exact (rfl : Op.alone (α := Int) (σ := Int) (⟨10, 2, 2, 1, 2⟩ : View) (fun _ => some 1) (.setConstant (.temp 7)) = .ok _)

end Guanaqo.MatView.Threads
