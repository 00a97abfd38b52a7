import Verif.Base

/-! # `omp parallel for`

A parallel loop, as it is used in `/repo/src/blas/src/blas-interface.cpp`: the iterations are distributed over the threads in some way,
and the threads take turns in some order, one access of the memory or of a shared variable at a time (sequential consistency; a program
with a data race has no meaning at all in C++, so that this is generous to it). -/

namespace Guanaqo.Par

/-- Variables that are shared by the threads: the pointers `A`, `B` and `C` (parameters of the function around the loop). -/
inductive PVar where | A | B | C
  deriving DecidableEq

/-- What the threads share. -/
structure Shared (α : Type) where
  mem : Mem α
  ptr : PVar → Int

/-- The code of one iteration, with a result. -/
inductive Prog (α β : Type) where
  | ret (b : β)
  | read (a : Int) (k : Option α → Prog α β)
  | write (a : Int) (v : α) (k : Prog α β)
  | load (x : PVar) (k : Int → Prog α β)
  | store (x : PVar) (v : Int) (k : Prog α β)

variable {α β : Type}

/-- A memory with another value at one address. -/
def Mem.put (m : Mem α) (a : Int) (v : α) : Mem α := fun b => if b = a then some v else m b

/-- Other variables with another value for one of them. -/
def setVar (f : PVar → Int) (x : PVar) (v : Int) : PVar → Int := fun y => if y = x then v else f y

/-- One access, if there is any left. -/
def Prog.micro : Prog α β → Shared α → Option (Prog α β × Shared α)
  | .ret _, _ => none
  | .read a k, s => some (k (s.mem a), s)
  | .write a v k, s => some (k, { s with mem := Mem.put s.mem a v })
  | .load x k, s => some (k (s.ptr x), s)
  | .store x v k, s => some (k, { s with ptr := setVar s.ptr x v })

/-- All of it, without interruption. -/
def Prog.run : Prog α β → Shared α → Shared α × β
  | .ret b, s => (s, b)
  | .read a k, s => (k (s.mem a)).run s
  | .write a v k, s => k.run { s with mem := Mem.put s.mem a v }
  | .load x k, s => (k (s.ptr x)).run s
  | .store x v k, s => k.run { s with ptr := setVar s.ptr x v }

/-- One after the other. -/
def Prog.bind {γ : Type} : Prog α β → (β → Prog α γ) → Prog α γ
  | .ret b, f => f b
  | .read a k, f => .read a fun v => (k v).bind f
  | .write a v k, f => .write a v (k.bind f)
  | .load x k, f => .load x fun v => (k v).bind f
  | .store x v k, f => .store x v (k.bind f)

/-- The number of accesses when it is run without interruption. -/
def Prog.len : Prog α β → Shared α → Nat
  | .ret _, _ => 0
  | .read a k, s => (k (s.mem a)).len s + 1
  | .write a v k, s => k.len { s with mem := Mem.put s.mem a v } + 1
  | .load x k, s => (k (s.ptr x)).len s + 1
  | .store x v k, s => k.len { s with ptr := setVar s.ptr x v } + 1

/-- It has returned this. -/
def Prog.Is (p : Prog α β) (b : β) : Prop := p = .ret b

/-- A state of the loop: what is shared, what is left of each iteration, and for each thread the iterations that it has not finished. -/
structure Conf (α β : Type) where
  sh : Shared α
  rem : Nat → Prog α β
  ths : List (List Nat)

/-- What is left of one iteration changes. -/
def setRem (f : Nat → Prog α β) (i : Nat) (p : Prog α β) : Nat → Prog α β := fun j => if j = i then p else f j

/-- A thread takes a step: an access, or it goes on to its next iteration. -/
inductive Step : Conf α β → Conf α β → Prop where
  | micro {c : Conf α β} {t i : Nat} {rest : List Nat} {p : Prog α β} {s : Shared α} : c.ths[t]? = some (i :: rest) →
      (c.rem i).micro c.sh = some (p, s) → Step c { c with sh := s, rem := setRem c.rem i p }
  | next {c : Conf α β} {t i : Nat} {rest : List Nat} {b : β} : c.ths[t]? = some (i :: rest) → c.rem i = .ret b →
      Step c { c with ths := c.ths.set t rest }

/-- A number of steps. -/
inductive Steps : Nat → Conf α β → Conf α β → Prop where
  | zero {c : Conf α β} : Steps 0 c c
  | succ {k : Nat} {c d e : Conf α β} : Step c d → Steps k d e → Steps (k + 1) c e

/-- The state before the loop `for (i = 0; i < n; ++i) body(i)`, with the iterations of each thread. -/
def start (body : Nat → Prog α β) (threads : List (List Nat)) (s : Shared α) : Conf α β := { sh := s, rem := body, ths := threads }

/-- Each of the iterations `0, ..., n - 1` has been given to one thread. -/
def Distributed (n : Nat) (threads : List (List Nat)) : Prop := threads.flatten.Perm (List.range n)

/-- All the threads have finished all their iterations. -/
def Conf.Done (c : Conf α β) : Prop := ∀ l ∈ c.ths, l = []

/-- `#pragma omp parallel for`, from `s` to `s'`, where iteration `i` gives `r i`: some distribution and some order. -/
def ParFor (n : Nat) (body : Nat → Prog α β) (s s' : Shared α) (r : Nat → β) : Prop :=
  ∃ threads k c, Distributed n threads ∧ Steps k (start body threads s) c ∧ c.Done ∧ c.sh = s' ∧ ∀ i < n, c.rem i = .ret (r i)

/-- The same with one thread, which takes the iterations in order. -/
def OneThread (n : Nat) (body : Nat → Prog α β) (s s' : Shared α) (r : Nat → β) : Prop :=
  ∃ k c, Steps k (start body [List.range n] s) c ∧ c.Done ∧ c.sh = s' ∧ ∀ i < n, c.rem i = .ret (r i)

/-- The loop without the pragma, with the results. -/
def seqFor (body : Nat → Prog α β) : Nat → Shared α → Shared α × List β
  | 0, s => (s, [])
  | n + 1, s => (((body n).run (seqFor body n s).1).1, (seqFor body n s).2 ++ [((body n).run (seqFor body n s).1).2])

/-- It reads only in `R` and `W`, writes only in `W`, and does not touch the shared variables. -/
def Prog.Touches (R W : Int → Prop) : Prog α β → Prop
  | .ret _ => True
  | .read a k => (R a ∨ W a) ∧ ∀ v, (k v).Touches R W
  | .write a _ k => W a ∧ k.Touches R W
  | .load _ _ => False
  | .store _ _ _ => False

/-! ## Facts about programs -/

theorem run_bind {γ : Type} (p : Prog α β) (f : β → Prog α γ) (s : Shared α) : (p.bind f).run s = (f (p.run s).2).run (p.run s).1 := by
  induction p generalizing s with
  | ret b => rfl
  | read a k ih => exact ih _ s
  | write a v k ih => exact ih _
  | load x k ih => exact ih _ s
  | store x v k ih => exact ih _

theorem run_micro {p q : Prog α β} {s t : Shared α} (h : p.micro s = some (q, t)) : p.run s = q.run t ∧ p.len s = q.len t + 1 := by
  cases p with
  | ret b => cases h
  | read a k => cases h; exact ⟨rfl, rfl⟩
  | write a v k => cases h; exact ⟨rfl, rfl⟩
  | load x k => cases h; exact ⟨rfl, rfl⟩
  | store x v k => cases h; exact ⟨rfl, rfl⟩

theorem run_ptr {R W : Int → Prop} {p : Prog α β} (h : p.Touches R W) (s : Shared α) : (p.run s).1.ptr = s.ptr := by
  induction p generalizing s with
  | ret b => rfl
  | read a k ih => exact ih _ (h.2 _) s
  | write a v k ih => exact ih h.2 _
  | load x k ih => exact h.elim
  | store x v k ih => exact h.elim

theorem run_frame {R W : Int → Prop} {p : Prog α β} (h : p.Touches R W) (s : Shared α) {a : Int} (ha : ¬ W a) :
    (p.run s).1.mem a = s.mem a := by
  induction p generalizing s with
  | ret b => rfl
  | read b k ih => exact ih _ (h.2 _) s
  | write b v k ih =>
    rw [Prog.run, ih h.2]
    have : a ≠ b := by rintro rfl; exact ha h.1
    exact if_neg this
  | load x k ih => exact h.elim
  | store x v k ih => exact h.elim

theorem run_local {R W : Int → Prop} {p : Prog α β} (h : p.Touches R W) {s t : Shared α} (hst : ∀ a, R a ∨ W a → s.mem a = t.mem a) :
    (p.run s).2 = (p.run t).2 ∧ ∀ a, R a ∨ W a → (p.run s).1.mem a = (p.run t).1.mem a := by
  induction p generalizing s t with
  | ret b => exact ⟨rfl, hst⟩
  | read b k ih => rw [Prog.run, Prog.run, hst b h.1]; exact ih _ (h.2 _) hst
  | write b v k ih =>
    rw [Prog.run, Prog.run]
    refine ih h.2 fun a ha => ?_
    show (if a = b then _ else _) = (if a = b then _ else _)
    rw [hst a ha]
  | load x k ih => exact h.elim
  | store x v k ih => exact h.elim

/-- A thread can be left alone until its iteration is over. -/
theorem steps_alone {c : Conf α β} {t i : Nat} {rest : List Nat} (h : c.ths[t]? = some (i :: rest)) :
    ∃ k, Steps k c { sh := ((c.rem i).run c.sh).1, rem := setRem c.rem i (.ret ((c.rem i).run c.sh).2), ths := c.ths.set t rest } := by
  obtain ⟨sh, rem, ths⟩ := c
  dsimp only at *
  generalize hp : rem i = p
  induction p generalizing sh rem with
  | ret b =>
    refine ⟨1, ?_⟩
    have e : setRem rem i (.ret ((Prog.ret (α := α) b).run sh).2) = rem := by
      funext j; unfold setRem; by_cases hj : j = i
      · rw [if_pos hj, hj, hp]; rfl
      · rw [if_neg hj]
    rw [e]
    exact .succ (.next (c := ⟨sh, rem, ths⟩) h hp) .zero
  | read a k ih =>
    obtain ⟨n, hn⟩ := ih (sh.mem a) sh (setRem rem i (k (sh.mem a))) (by simp [setRem])
    refine ⟨n + 1, .succ (.micro (c := ⟨sh, rem, ths⟩) h (show (rem i).micro sh = _ by rw [hp]; rfl)) ?_⟩
    have e : ∀ q, setRem (setRem rem i (k (sh.mem a))) i q = setRem rem i q := by
      intro q; funext j; unfold setRem; by_cases hj : j = i <;> simp [hj]
    rw [e] at hn
    exact hn
  | write a v k ih =>
    obtain ⟨n, hn⟩ := ih { sh with mem := Mem.put sh.mem a v } (setRem rem i k) (by simp [setRem])
    refine ⟨n + 1, .succ (.micro (c := ⟨sh, rem, ths⟩) h (show (rem i).micro sh = _ by rw [hp]; rfl)) ?_⟩
    have e : ∀ q, setRem (setRem rem i k) i q = setRem rem i q := by
      intro q; funext j; unfold setRem; by_cases hj : j = i <;> simp [hj]
    rw [e] at hn
    exact hn
  | load x k ih =>
    obtain ⟨n, hn⟩ := ih (sh.ptr x) sh (setRem rem i (k (sh.ptr x))) (by simp [setRem])
    refine ⟨n + 1, .succ (.micro (c := ⟨sh, rem, ths⟩) h (show (rem i).micro sh = _ by rw [hp]; rfl)) ?_⟩
    have e : ∀ q, setRem (setRem rem i (k (sh.ptr x))) i q = setRem rem i q := by
      intro q; funext j; unfold setRem; by_cases hj : j = i <;> simp [hj]
    rw [e] at hn
    exact hn
  | store x v k ih =>
    obtain ⟨n, hn⟩ := ih { sh with ptr := setVar sh.ptr x v } (setRem rem i k) (by simp [setRem])
    refine ⟨n + 1, .succ (.micro (c := ⟨sh, rem, ths⟩) h (show (rem i).micro sh = _ by rw [hp]; rfl)) ?_⟩
    have e : ∀ q, setRem (setRem rem i k) i q = setRem rem i q := by
      intro q; funext j; unfold setRem; by_cases hj : j = i <;> simp [hj]
    rw [e] at hn
    exact hn

theorem Steps.trans {k l : Nat} {c d e : Conf α β} (h : Steps k c d) (g : Steps l d e) : Steps (k + l) c e := by
  induction h with
  | zero => rw [Nat.zero_add]; exact g
  | succ hs _ ih => rw [Nat.add_right_comm]; exact .succ hs (ih g)

/-- As long as a thread has something to do, a step can be taken. -/
theorem progress {c : Conf α β} (h : ¬ c.Done) : ∃ d, Step c d := by
  unfold Conf.Done at h
  obtain ⟨l, hl, hne⟩ : ∃ l ∈ c.ths, l ≠ [] := Classical.byContradiction fun hn => h fun l hl => Classical.byContradiction fun hne => hn ⟨l, hl, hne⟩
  obtain ⟨t, ht⟩ := List.mem_iff_getElem?.1 hl
  cases l with
  | nil => exact absurd rfl hne
  | cons i rest =>
    cases hm : (c.rem i).micro c.sh with
    | some q => exact ⟨_, .micro ht (show _ = some (q.1, q.2) from hm)⟩
    | none =>
      cases hr : c.rem i with
      | ret b => exact ⟨_, .next ht hr⟩
      | read => rw [hr] at hm; cases hm
      | write => rw [hr] at hm; cases hm
      | load => rw [hr] at hm; cases hm
      | store => rw [hr] at hm; cases hm

/-! ## Iterations that do not interfere -/

/-- What an iteration writes is not touched by the others. -/
def Independent (n : Nat) (R W : Nat → Int → Prop) : Prop := ∀ i < n, ∀ j < n, i ≠ j → ∀ a, W i a → ¬ R j a ∧ ¬ W j a

structure Inv (n : Nat) (body : Nat → Prog α β) (s0 : Shared α) (R W : Nat → Int → Prop) (ml : Nat → Shared α) (c : Conf α β) : Prop where
  run : ∀ i < n, (c.rem i).run (ml i) = (body i).run s0
  touches : ∀ i < n, (c.rem i).Touches (R i) (W i)
  agree : ∀ i < n, ∀ a, R i a ∨ W i a → c.sh.mem a = (ml i).mem a
  other : ∀ a, (∀ i < n, ¬ W i a) → c.sh.mem a = s0.mem a
  ptr : c.sh.ptr = s0.ptr
  ids : ∀ l ∈ c.ths, ∀ i ∈ l, i < n
  left : ∀ i < n, (∃ b, c.rem i = .ret b) ∨ ∃ l ∈ c.ths, i ∈ l

/-- The number of steps that are left. -/
def sumTo (f : Nat → Nat) : Nat → Nat
  | 0 => 0
  | n + 1 => sumTo f n + f n

theorem sumTo_congr {f g : Nat → Nat} : ∀ n, (∀ i < n, f i = g i) → sumTo f n = sumTo g n
  | 0, _ => rfl
  | n + 1, h => by rw [sumTo, sumTo, sumTo_congr n fun i hi => h i (by omega), h n (by omega)]

theorem sumTo_dec {f g : Nat → Nat} {i : Nat} : ∀ n, i < n → f i = g i + 1 → (∀ j < n, j ≠ i → f j = g j) → sumTo f n = sumTo g n + 1
  | n + 1, hi, he, h => by
    rw [sumTo, sumTo]
    by_cases hn : i = n
    · subst hn
      rw [sumTo_congr i fun j hj => h j (by omega) (by omega), he]; omega
    · rw [sumTo_dec n (by omega) he fun j hj => h j (by omega), h n (by omega) (fun e => hn e.symm)]; omega

def measure (n : Nat) (ml : Nat → Shared α) (c : Conf α β) : Nat :=
  sumTo (fun i => (c.rem i).len (ml i)) n + (c.ths.map List.length).sum

theorem sum_set {l : List (List Nat)} {t : Nat} {i : Nat} {rest : List Nat} (h : l[t]? = some (i :: rest)) :
    (l.map List.length).sum = ((l.set t rest).map List.length).sum + 1 := by
  induction l generalizing t with
  | nil => cases h
  | cons x xs ih =>
    cases t with
    | zero =>
      have : x = i :: rest := by simpa using h
      subst this
      simp; omega
    | succ t =>
      have := ih (t := t) (by simpa using h)
      rw [List.set_cons_succ, List.map_cons, List.map_cons, List.sum_cons, List.sum_cons]
      omega

theorem inv_step {n : Nat} {body : Nat → Prog α β} {s0 : Shared α} {R W : Nat → Int → Prop} (hI : Independent n R W) {ml : Nat → Shared α}
    {c d : Conf α β} (h : Inv n body s0 R W ml c) (hs : Step c d) : ∃ ml', Inv n body s0 R W ml' d ∧ measure n ml c = measure n ml' d + 1 := by
  cases hs with
  | @micro t i rest p s ht hm =>
    have hi : i < n := h.ids _ (List.mem_of_getElem? ht) i (List.mem_cons_self ..)
    have htch := h.touches i hi
    have hagr := h.agree i hi
    -- the same access in the memory of this iteration
    obtain ⟨s', hm', hsub⟩ : ∃ s', (c.rem i).micro (ml i) = some (p, s') ∧ (p.Touches (R i) (W i) ∧ s.ptr = c.sh.ptr ∧
        (∀ a, R i a ∨ W i a → s.mem a = s'.mem a) ∧ ∀ a, ¬ W i a → s.mem a = c.sh.mem a) := by
      cases hr : c.rem i with
      | ret b => rw [hr] at hm; cases hm
      | read a k =>
        rw [hr] at hm htch; cases hm
        exact ⟨_, by rw [hagr a htch.1]; rfl, htch.2 _, rfl, hagr, fun _ _ => rfl⟩
      | write a v k =>
        rw [hr] at hm htch; cases hm
        refine ⟨_, rfl, htch.2, rfl, ?_, ?_⟩
        · intro b hb
          show (if b = a then _ else _) = (if b = a then _ else _)
          rw [hagr b hb]
        · intro b hb
          exact if_neg (by rintro rfl; exact hb htch.1)
      | load x k => rw [hr] at htch; exact htch.elim
      | store x v k => rw [hr] at htch; exact htch.elim
    obtain ⟨h1, h2, h3, h4⟩ := hsub
    obtain ⟨e1, e2⟩ := run_micro hm'
    refine ⟨fun j => if j = i then s' else ml j, ⟨?_, ?_, ?_, ?_, ?_, h.ids, ?_⟩, ?_⟩
    · intro j hj
      by_cases hji : j = i
      · subst hji; simp only [setRem, if_true]; rw [← e1]; exact h.run j hj
      · simp only [setRem, if_neg hji]; exact h.run j hj
    · intro j hj
      by_cases hji : j = i
      · subst hji; simp only [setRem, if_true]; exact h1
      · simp only [setRem, if_neg hji]; exact h.touches j hj
    · intro j hj a ha
      by_cases hji : j = i
      · subst hji; simp only [if_true]; exact h3 a ha
      · simp only [if_neg hji]
        rw [← h.agree j hj a ha]
        refine h4 a fun hw => ?_
        obtain ⟨g1, g2⟩ := hI i hi j hj (fun e => hji e.symm) a hw
        exact ha.elim g1 g2
    · intro a ha
      rw [← h.other a ha]
      exact h4 a (ha i hi)
    · exact h2.trans h.ptr
    · intro j hj
      by_cases hji : j = i
      · exact Or.inr ⟨_, List.mem_of_getElem? ht, by rw [hji]; exact List.mem_cons_self ..⟩
      · simp only [setRem, if_neg hji]; exact h.left j hj
    · unfold measure
      dsimp only
      rw [sumTo_dec (i := i) (g := fun j => (setRem c.rem i p j).len (if j = i then s' else ml j)) n hi]
      · omega
      · simp only [setRem, if_true]; exact e2
      · intro j hj hji
        simp only [setRem, if_neg hji]
  | @next t i rest b ht hr =>
    refine ⟨ml, ⟨h.run, h.touches, h.agree, h.other, h.ptr, ?_, ?_⟩, ?_⟩
    · intro l hl j hj
      rcases List.mem_or_eq_of_mem_set hl with hl | rfl
      · exact h.ids l hl j hj
      · exact h.ids _ (List.mem_of_getElem? ht) j (List.mem_cons_of_mem _ hj)
    · intro j hj
      rcases h.left j hj with hb | ⟨l, hl, hjl⟩
      · exact Or.inl hb
      · by_cases hji : j = i
        · exact Or.inl ⟨b, by rw [hji]; exact hr⟩
        · obtain ⟨u, hu⟩ := List.mem_iff_getElem?.1 hl
          by_cases hut : u = t
          · subst hut
            rw [ht] at hu
            have : l = i :: rest := (Option.some.inj hu).symm
            subst this
            have hlt : u < c.ths.length := (List.getElem?_eq_some_iff.1 ht).1
            exact Or.inr ⟨rest, List.mem_iff_getElem?.2 ⟨u, by rw [List.getElem?_set_self hlt]⟩, (List.mem_cons.1 hjl).resolve_left hji⟩
          · exact Or.inr ⟨l, List.mem_iff_getElem?.2 ⟨u, by rw [List.getElem?_set_ne (fun e => hut e.symm)]; exact hu⟩, hjl⟩
    · unfold measure
      dsimp only
      rw [sum_set ht]
      omega

theorem inv_steps {n : Nat} {body : Nat → Prog α β} {s0 : Shared α} {R W : Nat → Int → Prop} (hI : Independent n R W) {k : Nat}
    {c d : Conf α β} (hs : Steps k c d) : ∀ {ml : Nat → Shared α}, Inv n body s0 R W ml c →
      ∃ ml', Inv n body s0 R W ml' d ∧ measure n ml c = measure n ml' d + k := by
  induction hs with
  | zero => intro ml h; exact ⟨ml, h, rfl⟩
  | succ h1 _ ih =>
    intro ml h
    obtain ⟨m1, g1, e1⟩ := inv_step hI h h1
    obtain ⟨m2, g2, e2⟩ := ih g1
    exact ⟨m2, g2, by omega⟩

theorem inv_start {n : Nat} {body : Nat → Prog α β} {s0 : Shared α} {R W : Nat → Int → Prop} (hT : ∀ i < n, (body i).Touches (R i) (W i))
    {threads : List (List Nat)} (hd : Distributed n threads) : Inv n body s0 R W (fun _ => s0) (start body threads s0) where
  run _ _ := rfl
  touches := hT
  agree _ _ _ _ := rfl
  other _ _ := rfl
  ptr := rfl
  ids l hl i hi := List.mem_range.1 (hd.mem_iff.1 (List.mem_flatten.2 ⟨l, hl, hi⟩))
  left i hi := Or.inr (List.mem_flatten.1 (hd.mem_iff.2 (List.mem_range.2 hi)))

/-- The loop without the pragma gives, where an iteration writes, what that iteration gives when it is run at the beginning. -/
theorem seqFor_spec {n : Nat} {body : Nat → Prog α β} {s0 : Shared α} {R W : Nat → Int → Prop} (hI : Independent n R W)
    (hT : ∀ i < n, (body i).Touches (R i) (W i)) : ∀ k ≤ n, (seqFor body k s0).1.ptr = s0.ptr ∧
      (∀ i < k, ∀ a, W i a → (seqFor body k s0).1.mem a = ((body i).run s0).1.mem a) ∧
      (∀ a, (∀ i < k, ¬ W i a) → (seqFor body k s0).1.mem a = s0.mem a) ∧
      (seqFor body k s0).2 = (List.range k).map fun i => ((body i).run s0).2
  | 0, _ => ⟨rfl, fun i hi => absurd hi (Nat.not_lt_zero i), fun _ _ => rfl, rfl⟩
  | k + 1, hk => by
    obtain ⟨h0, h1, h2, h3⟩ := seqFor_spec hI hT k (by omega)
    have hloc := run_local (hT k (by omega)) (s := (seqFor body k s0).1) (t := s0) (by
      intro a ha
      refine h2 a fun i hi hw => ?_
      obtain ⟨g1, g2⟩ := hI i (by omega) k (by omega) (by omega) a hw
      exact ha.elim g1 g2)
    refine ⟨?_, ?_, ?_, ?_⟩
    · rw [seqFor, run_ptr (hT k (by omega)), h0]
    · intro i hi a hw
      rw [seqFor]
      by_cases hik : i = k
      · subst hik; exact hloc.2 a (Or.inr hw)
      · dsimp only
        rw [run_frame (hT k (by omega)) _ (hI i (by omega) k (by omega) hik a hw).2]
        exact h1 i (by omega) a hw
    · intro a ha
      rw [seqFor]
      dsimp only
      rw [run_frame (hT k (by omega)) _ (ha k (by omega))]
      exact h2 a fun i hi => ha i (by omega)
    · rw [seqFor, h3, hloc.1, List.range_succ, List.map_append]; rfl

/-- Whatever the distribution and the order, the loop ends in the state of the loop without the pragma, with the same results. -/
theorem parFor_eq_seqFor {n : Nat} {body : Nat → Prog α β} {R W : Nat → Int → Prop} (hI : Independent n R W)
    (hT : ∀ i < n, (body i).Touches (R i) (W i)) {s s' : Shared α} {r : Nat → β} (h : ParFor n body s s' r) :
    s' = (seqFor body n s).1 ∧ (List.range n).map r = (seqFor body n s).2 := by
  obtain ⟨threads, k, c, hd, hs, hdone, rfl, hr⟩ := h
  obtain ⟨ml, hi, -⟩ := inv_steps hI hs (inv_start hT hd)
  obtain ⟨g0, g1, g2, g3⟩ := seqFor_spec (s0 := s) hI hT n (Nat.le_refl n)
  have hml : ∀ i < n, ml i = ((body i).run s).1 ∧ r i = ((body i).run s).2 := by
    intro i hin
    have := hi.run i hin
    rw [hr i hin] at this
    rw [← this]; exact ⟨rfl, rfl⟩
  constructor
  · have hmem : c.sh.mem = (seqFor body n s).1.mem := by
      funext a
      by_cases hw : ∃ i, i < n ∧ W i a
      · obtain ⟨i, hin, hw⟩ := hw
        rw [g1 i hin a hw, hi.agree i hin a (Or.inr hw), (hml i hin).1]
      · have hw : ∀ i < n, ¬ W i a := fun i hin h => hw ⟨i, hin, h⟩
        rw [g2 a hw, hi.other a hw]
    have hptr : c.sh.ptr = (seqFor body n s).1.ptr := by rw [hi.ptr, g0]
    generalize (seqFor body n s).1 = q at *
    cases hc : c.sh with
    | mk m p => rw [hc] at hmem hptr; cases q; dsimp only at *; rw [hmem, hptr]
  · rw [g3]
    refine List.map_congr_left fun i hin => (hml i (List.mem_range.1 hin)).2

/-- There is a bound on the number of steps that can be taken, and when no more can be taken the loop is over: it does not get stuck and
it does not go on for ever. -/
theorem parFor_ends {n : Nat} {body : Nat → Prog α β} {R W : Nat → Int → Prop} (hI : Independent n R W)
    (hT : ∀ i < n, (body i).Touches (R i) (W i)) (s : Shared α) {threads : List (List Nat)} (hd : Distributed n threads) :
    (∃ K, ∀ k c, Steps k (start body threads s) c → k ≤ K) ∧
    ∀ k c, Steps k (start body threads s) c → (¬ ∃ d, Step c d) → ∃ r, c.Done ∧ ParFor n body s c.sh r := by
  refine ⟨⟨measure n (fun _ => s) (start body threads s), fun k c h => ?_⟩, fun k c h hn => ?_⟩
  · obtain ⟨ml, -, e⟩ := inv_steps hI h (inv_start hT hd)
    omega
  · have hdone : c.Done := Classical.byContradiction fun hd => hn (progress hd)
    obtain ⟨ml, hi, -⟩ := inv_steps hI h (inv_start hT hd)
    refine ⟨fun i => ((c.rem i).run c.sh).2, hdone, threads, k, c, hd, h, hdone, rfl, fun i hin => ?_⟩
    rcases hi.left i hin with ⟨b, hb⟩ | ⟨l, hl, hil⟩
    · show _ = Prog.ret ((c.rem i).run c.sh).2
      rw [hb]; rfl
    · rw [hdone l hl] at hil; cases hil

/-- One thread that has all the iterations, in order. -/
theorem one_thread {body : Nat → Prog α β} {n : Nat} {s s' : Shared α} {r : Nat → β}
    (h : OneThread n body s s' r) :
    s' = (seqFor body n s).1 ∧ (List.range n).map r = (seqFor body n s).2 := by
  obtain ⟨k, c, hs, hdone, rfl, hr⟩ := h
  -- after `j` iterations
  have key : ∀ k (c d : Conf α β), Steps k c d → d.Done → (∀ i < n, d.rem i = .ret (r i)) → ∀ j ≤ n, c.ths = [(List.range n).drop j] →
      (∀ i, j < i → c.rem i = body i) → (j < n → (c.rem j).run c.sh = (body j).run (seqFor body j s).1) → (j = n → c.sh = (seqFor body n s).1) →
      (∀ i < j, c.rem i = .ret (r i) → (seqFor body j s).2[i]? = some (r i)) → (∀ i < j, ∃ b, c.rem i = .ret b) →
      d.sh = (seqFor body n s).1 ∧ ∀ i < n, (seqFor body n s).2[i]? = some (r i) := by
    intro k c d hs
    induction hs with
    | zero =>
      intro hd hr j hj ht _ _ hn hl _
      have : j = n := by
        have := hd _ (by rw [ht]; exact List.mem_cons_self ..)
        have := congrArg List.length this
        simp at this; omega
      subst this
      exact ⟨hn rfl, fun i hi => hl i hi (hr i hi)⟩
    | @succ k c c' d h1 h2 ih =>
      intro hd hr j hj ht hb hrun hn hl hret
      have hjn : j < n := by
        rcases Nat.lt_or_ge j n with h | h
        · exact h
        · exfalso
          rw [List.drop_of_length_le (by simp; omega)] at ht
          cases h1 with
          | @micro t i rest p q he _ => rw [ht] at he; cases t <;> simp at he
          | @next t i rest b he _ => rw [ht] at he; cases t <;> simp at he
      have hcons : (List.range n).drop j = j :: (List.range n).drop (j + 1) := by
        rw [List.drop_eq_getElem_cons (by simp; omega), List.getElem_range]
      cases h1 with
      | @micro t i rest p q he hm =>
        rw [ht, hcons] at he
        have ⟨h0, hi⟩ : t = 0 ∧ i = j := by
          cases t with
          | zero => simp at he; exact ⟨rfl, he.1.symm⟩
          | succ t => simp at he
        subst hi
        refine ih hd hr i hj ht ?_ ?_ (fun e => absurd e (by omega)) ?_ ?_
        · intro l hl'; simp only [setRem, if_neg (show l ≠ i by omega)]; exact hb l hl'
        · intro _; simp only [setRem, if_true]; rw [← (run_micro hm).1]; exact hrun hjn
        · intro l hl'; simp only [setRem, if_neg (show l ≠ i by omega)]; exact hl l hl'
        · intro l hl'; simp only [setRem, if_neg (show l ≠ i by omega)]; exact hret l hl'
      | @next t i rest b he hb' =>
        rw [ht, hcons] at he
        have ⟨h0, hi, hrest⟩ : t = 0 ∧ i = j ∧ rest = (List.range n).drop (j + 1) := by
          cases t with
          | zero => simp at he; exact ⟨rfl, he.1.symm, he.2.symm⟩
          | succ t => simp at he
        subst hi h0 hrest
        have hr' := hrun hjn
        rw [hb'] at hr'
        have e1 : c.sh = ((body i).run (seqFor body i s).1).1 := by rw [← hr']; rfl
        have e2 : b = ((body i).run (seqFor body i s).1).2 := by rw [← hr']; rfl
        have e3 : c.sh = (seqFor body (i + 1) s).1 := e1
        have hlen : ∀ k, (seqFor body k s).2.length = k := by
          intro k; induction k with
          | zero => rfl
          | succ k ih => rw [seqFor]; simp [ih]
        refine ih hd hr (i + 1) hjn ?_ (fun l hl' => hb l (by omega)) ?_ ?_ ?_ ?_
        · simp only [ht, List.set_cons_zero]
        · intro h; rw [show c.rem (i + 1) = body (i + 1) from hb _ (by omega), e3]
        · intro h; subst h; exact e3
        · intro l hl' hl''
          rw [seqFor]
          by_cases hli : l = i
          · subst hli
            rw [hb'] at hl''
            have hbr : b = r l := by injection hl''
            rw [List.getElem?_append_right (by rw [hlen]; omega), hlen]
            simp [← hbr, e2]
          · rw [List.getElem?_append_left (by rw [hlen]; omega)]
            exact hl l (by omega) hl''
        · intro l hl'
          by_cases hli : l = i
          · subst hli; exact ⟨b, hb'⟩
          · exact hret l (by omega)
  have hlen : (seqFor body n s).2.length = n := by
    have : ∀ k, (seqFor body k s).2.length = k := by
      intro k; induction k with
      | zero => rfl
      | succ k ih => rw [seqFor]; simp [ih]
    exact this n
  obtain ⟨g1, g2⟩ := key k _ c hs hdone hr 0 (Nat.zero_le n) rfl (fun _ _ => rfl) (fun _ => rfl)
    (fun e => by subst e; cases hs with
      | zero => rfl
      | succ h1 _ => exfalso; cases h1 with
        | @micro t _ rest p q he _ => cases t <;> simp [start] at he
        | @next t _ rest b he _ => cases t <;> simp [start] at he)
    (fun i hi => absurd hi (Nat.not_lt_zero i)) (fun i hi => absurd hi (Nat.not_lt_zero i))
  refine ⟨g1, List.ext_getElem? fun i => ?_⟩
  rcases Nat.lt_or_ge i n with h | h
  · rw [g2 i h]; simp [h]
  · rw [List.getElem?_eq_none (by simp; omega), List.getElem?_eq_none (by omega)]

end Guanaqo.Par
