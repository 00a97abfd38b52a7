import Verif.TypeErased.Args
import Mathlib.Data.List.Nodup
import Mathlib.Data.List.Range
import Mathlib.Data.List.Perm.Basic

/-! # C133: proofs -/

namespace Guanaqo.TypeErased.Args

variable {V R : Type}

/-! ## Specification -/

/-- Argument `a` is given for by-value parameter `i`. -/
def ByValue (ps : List PTy) (args : List Arg) (i : Nat) (a : Arg) : Prop :=
  ∃ p, ps[i]? = some p ∧ args[i]? = some a ∧ p.mode = .val

/-- Argument `a` is given for parameter `i`, which is a reference. -/
def ByRef (ps : List PTy) (args : List Arg) (i : Nat) (a : Arg) : Prop :=
  ∃ p, ps[i]? = some p ∧ args[i]? = some a ∧ p.mode ≠ .val

/-- All arguments are objects of the caller, and alive. -/
def AliveArgs (args : List Arg) (s : St V) : Prop :=
  ∀ a ∈ args, (∃ n, a.1 = .obj n) ∧ (s.mem a.1).isDead = false

/-- No object is moved into a parameter and also used for another by-value parameter (otherwise the result depends on the order). -/
def NoReuse (ps : List PTy) (args : List Arg) : Prop :=
  ∀ i j a b, ByValue ps args i a → ByValue ps args j b → i ≠ j → a.2 = .xvalue → a.1 ≠ b.1

/-- What the method finds, when it was given `args` in the state `s`: `locs` are its parameters and `s1` is the state. -/
structure Delivered (ps : List PTy) (args : List Arg) (s : St V) (locs : List Loc) (s1 : St V) : Prop where
  count : locs.length = ps.length
  /-- By-value parameters are objects of the method, with the values that the arguments had. -/
  value : ∀ i a, ByValue ps args i a → locs[i]? = some (.inner i) ∧ s1.mem (.inner i) = s.mem a.1
  /-- Reference parameters are bound to the very objects of the caller. -/
  ref : ∀ i a, ByRef ps args i a → locs[i]? = some a.1
  /-- Objects of the caller are moved from if they were given as rvalues for by-value parameters, and else untouched. -/
  taken : ∀ i n, ByValue ps args i (.obj n, .xvalue) → s1.mem (.obj n) = .moved
  kept : ∀ n, (∀ i, ¬ ByValue ps args i (.obj n, .xvalue)) → s1.mem (.obj n) = s.mem (.obj n)

/-- A method that leaves the storage of the parameters alone, as all C++ functions do: it does not end or begin their lives. -/
def Leaves (body : List Loc → St V → Out R × St V) : Prop :=
  ∀ locs s, (body locs s).1.isUb = false ∧
    ∀ i, ((body locs s).2.mem (.outer i)).isDead = (s.mem (.outer i)).isDead ∧ ((body locs s).2.mem (.inner i)).isDead = (s.mem (.inner i)).isDead

/-- No parameter is alive. -/
def NoParams (s : St V) : Prop := ∀ i, s.mem (.outer i) = .dead ∧ s.mem (.inner i) = .dead

/-- The orders are orders of all parameters. -/
structure Orders (sc : Sched) (outer inner : Nat) : Prop where
  outer : sc.ordOuter.Perm (List.range outer)
  inner : sc.ordInner.Perm (List.range inner)

/-- No constructor that is needed throws. -/
def Quiet (sc : Sched) (ps : List PTy) (args : List Arg) : Prop :=
  ∀ i a, ByValue ps args i a → sc.thOuter i = none ∧ sc.thInner i = none

/-- The two ways to wrap: required and optional methods. A required method must not have the vtable as its last parameter, as `call` would add it. -/
def Wrapping (ps extra : List PTy) : Prop := (extra = [] ∧ ps.getLast? ≠ some vtRef) ∨ extra = [vtRef]

/-- Argument `i` is given by value, with the category. -/
def isBy (ps : List PTy) (args : List Arg) (c : Cat) (i : Nat) : Bool :=
  match ps[i]?, args[i]? with
  | some p, some a => decide (p.mode = .val ∧ a.2 = c)
  | _, _ => false

/-- The number of lvalues (or of rvalues) that are given for by-value parameters. -/
def numBy (ps : List PTy) (args : List Arg) (c : Cat) : Nat := (List.range ps.length).countP (isBy ps args c)

def Ev.isCopy : Ev → Bool
  | .copy _ _ => true
  | _ => false

def Ev.isMove : Ev → Bool
  | .move _ _ => true
  | _ => false

/-! ## One level -/

section Level
variable (frame : Nat → Loc) (ps : List PTy) (as : List Arg)

/-- The argument that parameter `i` is constructed from. -/
def valOf (i : Nat) : Option Arg :=
  match ps[i]?, as[i]? with
  | some p, some a => if p.mode = .val then some a else none
  | _, _ => none

theorem valOf_iff (i : Nat) (a : Arg) : valOf ps as i = some a ↔ ByValue ps as i a := by
  unfold valOf ByValue
  cases hp : ps[i]? with
  | none => simp
  | some p =>
    cases ha : as[i]? with
    | none => simp
    | some b =>
      by_cases hm : p.mode = .val <;> simp [hm]

/-- The state after parameter `i` is initialized. -/
def place (s : St V) (i : Nat) : St V :=
  match valOf ps as i with
  | none => s
  | some (l, .lvalue) => ⟨setMem s.mem (frame i) (s.mem l), s.ev ++ [.copy l (frame i)]⟩
  | some (l, .xvalue) => ⟨setMem (setMem s.mem l .moved) (frame i) (s.mem l), s.ev ++ [.move l (frame i)]⟩

variable {frame ps as}

theorem setMem_same (m : Loc → Cell V) (l : Loc) (c : Cell V) : setMem m l c l = c := by simp [setMem]

theorem setMem_ne (m : Loc → Cell V) {l l' : Loc} (h : l' ≠ l) (c : Cell V) : setMem m l c l' = m l' := by simp [setMem, h]

theorem initParam_ret {th : Nat → Option Nat} {s : St V} {i : Nat} (hi : i < ps.length) (hl : ps.length = as.length)
    (hth : ∀ a, valOf ps as i = some a → th i = none) (hal : ∀ a, valOf ps as i = some a → (s.mem a.1).isDead = false) :
    initParam th frame ps as i s = (.ret (), place frame ps as s i) := by
  have h1 : ps[i]? = some ps[i] := List.getElem?_eq_getElem hi
  have h2 : as[i]? = some (as[i]'(hl ▸ hi)) := List.getElem?_eq_getElem _
  by_cases hm : ps[i].mode = .val
  · have hv : valOf ps as i = some (as[i]'(hl ▸ hi)) := by simp [valOf, h1, h2, hm]
    have h3 := hth _ hv
    have h4 := hal _ hv
    unfold initParam place
    rw [hv, h1, h2]
    rcases hc : (as[i]'(hl ▸ hi)) with ⟨l, c⟩
    rw [hc] at h4
    cases c <;> simp [hm, h3, h4]
  · have hv : valOf ps as i = none := by simp [valOf, h1, h2, hm]
    unfold initParam place
    rw [hv, h1, h2]
    simp [hm]

theorem initParam_throw {th : Nat → Option Nat} {s : St V} {i e : Nat} {a : Arg} (hv : valOf ps as i = some a) (hth : th i = some e)
    (hal : (s.mem a.1).isDead = false) : initParam th frame ps as i s = (.threw e, s) := by
  obtain ⟨p, h1, h2, hm⟩ := (valOf_iff ps as i a).1 hv
  unfold initParam
  rw [h1, h2]
  simp [hm, hal, hth]

/-- The arguments are not in the frame. -/
def Outside (frame : Nat → Loc) (as : List Arg) : Prop := ∀ a ∈ as, ∀ j, a.1 ≠ frame j

theorem valOf_mem {i : Nat} {a : Arg} (h : valOf ps as i = some a) : a ∈ as := by
  obtain ⟨p, _, h2, _⟩ := (valOf_iff ps as i a).1 h
  exact List.mem_of_getElem? h2

theorem place_mem_frame {s : St V} {i : Nat} {a : Arg} (h : valOf ps as i = some a) : (place frame ps as s i).mem (frame i) = s.mem a.1 := by
  unfold place
  rw [h]
  rcases a with ⟨l, c⟩
  cases c <;> exact setMem_same _ _ _

theorem place_mem_other {s : St V} {i : Nat} {l : Loc} (h : l ≠ frame i ∨ valOf ps as i = none) (h' : valOf ps as i ≠ some (l, .xvalue)) :
    (place frame ps as s i).mem l = s.mem l := by
  unfold place
  split
  · rfl
  · rename_i l' hv
    rcases h with h | h
    · exact setMem_ne _ h _
    · rw [h] at hv; cases hv
  · rename_i l' hv
    have h1 : l ≠ l' := by rintro rfl; exact h' hv
    rcases h with h | h
    · show setMem (setMem s.mem l' .moved) (frame i) (s.mem l') l = s.mem l
      rw [setMem_ne _ h, setMem_ne _ h1]
    · rw [h] at hv; cases hv

theorem place_mem_taken {s : St V} {i : Nat} {l : Loc} (h : l ≠ frame i) (h' : valOf ps as i = some (l, .xvalue)) :
    (place frame ps as s i).mem l = .moved := by
  unfold place
  rw [h']
  dsimp only
  rw [setMem_ne _ h, setMem_same]

theorem place_alive {s : St V} {i : Nat} (ho : Outside frame as) {a : Arg} (ha : a ∈ as) (h : (s.mem a.1).isDead = false) :
    ((place frame ps as s i).mem a.1).isDead = false := by
  by_cases h' : valOf ps as i = some (a.1, .xvalue)
  · rw [place_mem_taken (ho a ha i) h']; rfl
  · rw [place_mem_other (.inl (ho a ha i)) h']; exact h

/-- Initialization that does not throw: the parameters are placed, the body runs, and they are destroyed. -/
theorem enter_quiet {th : Nat → Option Nat} (hl : ps.length = as.length) (ho : Outside frame as) (body : St V → Out R × St V) :
    ∀ (ord : List Nat) (s : St V), (∀ i ∈ ord, i < ps.length) → (∀ i ∈ ord, ∀ a, valOf ps as i = some a → th i = none) →
      (∀ k a, valOf ps as k = some a → (s.mem a.1).isDead = false) →
      enter th frame ps as ord body s = ord.foldr (endParam frame ps) (body (ord.foldl (place frame ps as) s))
  | [], s, _, _, _ => rfl
  | i :: rest, s, h1, h2, h3 => by
    have ih := enter_quiet hl ho body rest (place frame ps as s i) (fun j hj => h1 j (.tail _ hj)) (fun j hj => h2 j (.tail _ hj))
      (fun k a ha => place_alive ho (valOf_mem ha) (h3 k a ha))
    unfold enter
    rw [initParam_ret (h1 i (.head _)) hl (h2 i (.head _)) (fun a ha => h3 i a ha)]
    dsimp only
    rw [ih]
    rfl

/-- By-value parameters get the values of the arguments, whatever the order. -/
theorem foldl_place_mem (inj : ∀ i j, frame i = frame j → i = j) (ho : Outside frame as) :
    ∀ (ord : List Nat) (s : St V), ord.Nodup →
      (∀ i ∈ ord, ∀ j ∈ ord, ∀ a b, valOf ps as i = some a → valOf ps as j = some b → i ≠ j → a.2 = .xvalue → a.1 ≠ b.1) →
      (∀ i ∈ ord, ∀ a, valOf ps as i = some a → (ord.foldl (place frame ps as) s).mem (frame i) = s.mem a.1) ∧
      (∀ i ∈ ord, ∀ l, valOf ps as i = some (l, .xvalue) → (ord.foldl (place frame ps as) s).mem l = .moved) ∧
      (∀ l, (∀ i ∈ ord, l ≠ frame i ∨ valOf ps as i = none) → (∀ i ∈ ord, valOf ps as i ≠ some (l, .xvalue)) →
        (ord.foldl (place frame ps as) s).mem l = s.mem l)
  | [], s, _, _ => ⟨by simp, by simp, by simp⟩
  | i :: rest, s, hn, hr => by
    obtain ⟨hi, hn'⟩ := List.nodup_cons.1 hn
    obtain ⟨i1, i2, i3⟩ := foldl_place_mem inj ho rest (place frame ps as s i) hn'
      (fun j hj k hk => hr j (.tail _ hj) k (.tail _ hk))
    have hne : ∀ j ∈ rest, i ≠ j := fun j hj e => hi (e ▸ hj)
    refine ⟨?_, ?_, ?_⟩
    · intro j hj a ha
      rw [List.foldl_cons]
      rcases List.mem_cons.1 hj with rfl | hj'
      · rw [i3 (frame j) (fun k hk => .inl fun e => hne k hk (inj _ _ e)) (fun k hk e => ho _ (valOf_mem e) j rfl)]
        exact place_mem_frame ha
      · rw [i1 j hj' a ha]
        refine place_mem_other (.inl (ho a (valOf_mem ha) i)) (fun e => ?_)
        exact hr i (.head _) j hj _ _ e ha (hne j hj') rfl rfl
    · intro j hj l hl
      rw [List.foldl_cons]
      rcases List.mem_cons.1 hj with rfl | hj'
      · by_cases h : ∃ k ∈ rest, valOf ps as k = some (l, .xvalue)
        · obtain ⟨k, hk, hk'⟩ := h; exact i2 k hk l hk'
        · rw [i3 l (fun k hk => .inl (ho _ (valOf_mem hl) k)) (fun k hk e => h ⟨k, hk, e⟩)]
          exact place_mem_taken (ho _ (valOf_mem hl) j) hl
      · exact i2 j hj' l hl
    · intro l h1 h2
      rw [List.foldl_cons, i3 l (fun k hk => h1 k (.tail _ hk)) (fun k hk => h2 k (.tail _ hk))]
      exact place_mem_other (h1 i (.head _)) (h2 i (.head _))

/-- The events of the initialization. -/
def evOf (frame : Nat → Loc) (ps : List PTy) (as : List Arg) (i : Nat) : List Ev :=
  match valOf ps as i with
  | none => []
  | some (l, .lvalue) => [.copy l (frame i)]
  | some (l, .xvalue) => [.move l (frame i)]

theorem place_ev (s : St V) (i : Nat) : (place frame ps as s i).ev = s.ev ++ evOf frame ps as i := by
  unfold place evOf
  split <;> simp

theorem foldl_place_ev : ∀ (ord : List Nat) (s : St V), (ord.foldl (place frame ps as) s).ev = s.ev ++ ord.flatMap (evOf frame ps as)
  | [], s => by simp
  | i :: rest, s => by
    rw [List.foldl_cons, foldl_place_ev rest, place_ev, List.flatMap_cons, List.append_assoc]

/-- Parameter `i` is by value. -/
def isVal (ps : List PTy) (i : Nat) : Bool := decide (ps[i]?.map (·.mode) = some .val)

theorem isVal_iff (hl : ps.length = as.length) {i : Nat} : isVal ps i = true ↔ ∃ a, valOf ps as i = some a := by
  unfold isVal valOf
  rw [decide_eq_true_iff]
  cases hp : ps[i]? with
  | none => simp
  | some p =>
    have : i < as.length := by
      have := (List.getElem?_eq_some_iff.1 hp).1; omega
    rw [List.getElem?_eq_getElem this]
    by_cases hm : p.mode = .val <;> simp [hm]

/-- The end of the lives of the parameters. -/
theorem foldr_endParam (inj : ∀ i j, frame i = frame j → i = j) : ∀ (ord : List Nat) (r : Out R × St V), ord.Nodup → r.1.isUb = false →
    (∀ i ∈ ord, isVal ps i = true → (r.2.mem (frame i)).isDead = false) →
    ∃ s', ord.foldr (endParam frame ps) r = (r.1, s') ∧
      (∀ i ∈ ord, isVal ps i = true → s'.mem (frame i) = .dead) ∧
      (∀ l, (∀ i ∈ ord, isVal ps i = true → l ≠ frame i) → s'.mem l = r.2.mem l) ∧
      s'.ev = r.2.ev ++ (ord.reverse.filter (isVal ps)).map fun i => .destroy (frame i)
  | [], r, _, _, _ => ⟨r.2, rfl, by simp, by simp, by simp⟩
  | i :: rest, r, hn, hu, ha => by
    obtain ⟨hi, hn'⟩ := List.nodup_cons.1 hn
    obtain ⟨s', e, h1, h2, h3⟩ := foldr_endParam inj rest r hn' hu (fun j hj => ha j (.tail _ hj))
    rw [List.foldr_cons, e]
    have hne : ∀ j ∈ rest, frame i ≠ frame j := fun j hj e => hi (inj _ _ e ▸ hj)
    by_cases hv : isVal ps i = true
    · have hd : (s'.mem (frame i)).isDead = false := by
        rw [h2 (frame i) fun j hj _ => hne j hj]; exact ha i (.head _) hv
      refine ⟨⟨setMem s'.mem (frame i) .dead, s'.ev ++ [.destroy (frame i)]⟩, ?_, ?_, ?_, ?_⟩
      · unfold endParam
        have := of_decide_eq_true hv
        simp [hu, this, hd]
      · intro j hj hj'
        rcases List.mem_cons.1 hj with rfl | hj2
        · exact setMem_same _ _ _
        · show setMem s'.mem (frame i) .dead (frame j) = _
          rw [setMem_ne _ (hne j hj2).symm]; exact h1 j hj2 hj'
      · intro l hl
        show setMem s'.mem (frame i) .dead l = _
        rw [setMem_ne _ (hl i (.head _) hv)]
        exact h2 l fun j hj => hl j (.tail _ hj)
      · show s'.ev ++ [.destroy (frame i)] = _
        rw [h3, List.reverse_cons, List.filter_append, List.map_append]
        simp [hv]
    · refine ⟨s', ?_, ?_, ?_, ?_⟩
      · unfold endParam
        have : ¬ (ps[i]?.map (·.mode) = some .val) := fun h => hv (decide_eq_true h)
        simp [this]
      · intro j hj hj'
        rcases List.mem_cons.1 hj with rfl | hj2
        · exact absurd hj' hv
        · exact h1 j hj2 hj'
      · intro l hl; exact h2 l fun j hj => hl j (.tail _ hj)
      · rw [h3, List.reverse_cons, List.filter_append]; simp [hv]

/-- Initialization that throws: the body does not run, the parameters that were made are gone, and nothing else changed but what was moved from. -/
theorem enter_throw {th : Nat → Option Nat} (inj : ∀ i j, frame i = frame j → i = j) (hl : ps.length = as.length) (ho : Outside frame as) :
    ∀ (ord : List Nat) (s : St V), ord.Nodup → (∀ i ∈ ord, i < ps.length) → (∃ i ∈ ord, ∃ a e, valOf ps as i = some a ∧ th i = some e) →
      (∀ k a, valOf ps as k = some a → (s.mem a.1).isDead = false) →
      ∃ e s', (∀ body : St V → Out R × St V, enter th frame ps as ord body s = (.threw e, s')) ∧
        (∃ i ∈ ord, th i = some e) ∧
        (∀ i ∈ ord, isVal ps i = true → s'.mem (frame i) = .dead ∨ s'.mem (frame i) = s.mem (frame i)) ∧
        (∀ l, (∀ i ∈ ord, isVal ps i = true → l ≠ frame i) → s'.mem l = s.mem l ∨ s'.mem l = .moved ∧ ∃ i ∈ ord, valOf ps as i = some (l, .xvalue))
  | [], s, _, _, h, _ => by simp at h
  | i :: rest, s, hn, h1, h2, h3 => by
    obtain ⟨hi, hn'⟩ := List.nodup_cons.1 hn
    by_cases hthrow : ∃ a e, valOf ps as i = some a ∧ th i = some e
    · obtain ⟨a, e, hv, he⟩ := hthrow
      refine ⟨e, s, fun body => ?_, ⟨i, .head _, he⟩, fun j _ _ => .inr rfl, fun l _ => .inl rfl⟩
      unfold enter
      rw [initParam_throw hv he (h3 i a hv)]
    · have hq : ∀ a, valOf ps as i = some a → th i = none := by
        intro a ha
        cases ht : th i with
        | none => rfl
        | some e => exact absurd ⟨a, e, ha, ht⟩ hthrow
      have h2' : ∃ j ∈ rest, ∃ a e, valOf ps as j = some a ∧ th j = some e := by
        obtain ⟨j, hj, a, e, hv, he⟩ := h2
        rcases List.mem_cons.1 hj with rfl | hj
        · exact absurd ⟨a, e, hv, he⟩ hthrow
        · exact ⟨j, hj, a, e, hv, he⟩
      obtain ⟨e, s', hrun, ⟨k, hk, hke⟩, hfr, hot⟩ := enter_throw inj hl ho rest (place frame ps as s i) hn' (fun j hj => h1 j (.tail _ hj)) h2'
        (fun k a ha => place_alive ho (valOf_mem ha) (h3 k a ha))
      have hne : ∀ j ∈ rest, frame i ≠ frame j := fun j hj e => hi (inj _ _ e ▸ hj)
      have hrun' : ∀ body : St V → Out R × St V, enter th frame ps as (i :: rest) body s = endParam frame ps i (.threw e, s') := by
        intro body
        rw [← hrun body]
        conv_lhs => unfold enter
        rw [initParam_ret (h1 i (.head _)) hl hq (fun a ha => h3 i a ha)]
      by_cases hv : isVal ps i = true
      · obtain ⟨a, ha⟩ := (isVal_iff hl).1 hv
        have hd : (s'.mem (frame i)).isDead = false := by
          rcases hot (frame i) (fun j hj _ => hne j hj) with h | ⟨h, _⟩
          · rw [h, place_mem_frame ha]; exact h3 i a ha
          · rw [h]; rfl
        refine ⟨e, ⟨setMem s'.mem (frame i) .dead, s'.ev ++ [.destroy (frame i)]⟩, fun body => ?_, ⟨k, .tail _ hk, hke⟩, ?_, ?_⟩
        · rw [hrun' body]
          unfold endParam
          have := of_decide_eq_true hv
          simp [Out.isUb, this, hd]
        · intro j hj hj'
          show setMem s'.mem (frame i) .dead (frame j) = _ ∨ setMem s'.mem (frame i) .dead (frame j) = _
          rcases List.mem_cons.1 hj with rfl | hj2
          · exact .inl (setMem_same _ _ _)
          · rw [setMem_ne _ (hne j hj2).symm]
            rcases hfr j hj2 hj' with h | h
            · exact .inl h
            · right
              rw [h]
              exact place_mem_other (.inl (hne j hj2).symm) (fun e => ho _ (valOf_mem e) j rfl)
        · intro l hl'
          show setMem s'.mem (frame i) .dead l = _ ∨ setMem s'.mem (frame i) .dead l = _ ∧ _
          have hli := hl' i (.head _) hv
          rw [setMem_ne _ hli]
          rcases hot l (fun j hj => hl' j (.tail _ hj)) with h | ⟨h, j, hj, hj'⟩
          · by_cases hx : valOf ps as i = some (l, .xvalue)
            · exact .inr ⟨by rw [h]; exact place_mem_taken hli hx, i, .head _, hx⟩
            · exact .inl (by rw [h]; exact place_mem_other (.inl hli) hx)
          · exact .inr ⟨h, j, .tail _ hj, hj'⟩
      · have hno : valOf ps as i = none := by
          cases h : valOf ps as i with
          | none => rfl
          | some a => exact absurd ((isVal_iff hl).2 ⟨a, h⟩) hv
        have hpl : place frame ps as s i = s := by unfold place; rw [hno]
        rw [hpl] at hfr hot
        refine ⟨e, s', fun body => ?_, ⟨k, .tail _ hk, hke⟩, ?_, ?_⟩
        · rw [hrun' body]
          unfold endParam
          have : ¬ (ps[i]?.map (·.mode) = some .val) := fun h => hv (decide_eq_true h)
          simp [this]
        · intro j hj hj'
          rcases List.mem_cons.1 hj with rfl | hj2
          · exact absurd hj' hv
          · exact hfr j hj2 hj'
        · intro l hl'
          rcases hot l (fun j hj => hl' j (.tail _ hj)) with h | ⟨h, j, hj, hj'⟩
          · exact .inl h
          · exact .inr ⟨h, j, .tail _ hj, hj'⟩

end Level

/-! ## Both levels -/

section Two
variable {ps extra : List PTy} {args : List Arg}

theorem passed_req (h : ps.getLast? ≠ some vtRef) : passed (ps ++ []) args = args := by
  unfold passed; rw [List.append_nil, lastType_eq, if_neg h]

theorem passed_opt : passed (ps ++ [vtRef]) args = args ++ [(.vtable, .lvalue)] := by
  unfold passed; rw [lastType_eq, if_pos (by simp)]

theorem outer_length (hw : Wrapping ps extra) (hl : ps.length = args.length) : (ps ++ extra).length = (passed (ps ++ extra) args).length := by
  rcases hw with ⟨rfl, h⟩ | rfl
  · rw [passed_req h]; simpa using hl
  · rw [passed_opt]; simp [hl]

theorem outer_get (hw : Wrapping ps extra) (hl : ps.length = args.length) {i : Nat} (hi : i < ps.length) :
    (ps ++ extra)[i]? = ps[i]? ∧ (passed (ps ++ extra) args)[i]? = args[i]? := by
  refine ⟨List.getElem?_append_left hi, ?_⟩
  rcases hw with ⟨rfl, h⟩ | rfl
  · rw [passed_req h]
  · rw [passed_opt, List.getElem?_append_left (by omega)]

theorem outer_valOf (hw : Wrapping ps extra) (hl : ps.length = args.length) (i : Nat) :
    valOf (ps ++ extra) (passed (ps ++ extra) args) i = valOf ps args i := by
  by_cases hi : i < ps.length
  · obtain ⟨h1, h2⟩ := outer_get hw hl hi
    unfold valOf; rw [h1, h2]
  · have h0 : ps[i]? = none := List.getElem?_eq_none (by omega)
    have h1 : valOf ps args i = none := by unfold valOf; rw [h0]
    rw [h1]
    rcases hw with ⟨rfl, h⟩ | rfl
    · unfold valOf; rw [List.append_nil, h0]
    · by_cases he : i = ps.length
      · subst he
        unfold valOf
        rw [passed_opt, List.getElem?_append_right (by omega), List.getElem?_append_right (by omega), hl]
        simp [vtRef]
      · have : (ps ++ [vtRef])[i]? = none := List.getElem?_eq_none (by simp; omega)
        unfold valOf; rw [this]

theorem outer_isVal (hw : Wrapping ps extra) (hl : ps.length = args.length) (i : Nat) : isVal (ps ++ extra) i = isVal ps i := by
  rw [Bool.eq_iff_iff, isVal_iff (outer_length hw hl), isVal_iff hl]
  simp only [outer_valOf hw hl]

theorem outer_outside (hw : Wrapping ps extra) (ha : ∀ a ∈ args, ∃ n, a.1 = .obj n) : Outside .outer (passed (ps ++ extra) args) := by
  intro a h j
  have : a ∈ args ∨ a = (.vtable, .lvalue) := by
    rcases hw with ⟨rfl, h'⟩ | rfl
    · rw [passed_req h'] at h; exact .inl h
    · rw [passed_opt] at h; simpa using h
  rcases this with h | rfl
  · obtain ⟨n, e⟩ := ha a h; rw [e]; simp
  · simp

/-- The arguments of the method. -/
def innerArgs (ps extra : List PTy) (args : List Arg) : List Arg :=
  forwarded ps ((bounds .outer (ps ++ extra) (passed (ps ++ extra) args)).take ps.length)

theorem innerArgs_get (hw : Wrapping ps extra) (hl : ps.length = args.length) {i : Nat} {p : PTy} {a : Arg} (hp : ps[i]? = some p)
    (ha : args[i]? = some a) :
    (innerArgs ps extra args)[i]? =
      some (if p.mode = .val then .outer i else a.1, if p.mode = .lref ∨ p.mode = .cref then Cat.lvalue else Cat.xvalue) := by
  have hi : i < ps.length := (List.getElem?_eq_some_iff.1 hp).1
  unfold innerArgs forwarded bounds
  obtain ⟨h1, h2⟩ := outer_get (args := args) hw hl hi
  have hr : (List.take ps.length (List.map (bound Loc.outer (ps ++ extra) (passed (ps ++ extra) args)) (List.range (ps ++ extra).length)))[i]? =
      some (bound Loc.outer (ps ++ extra) (passed (ps ++ extra) args) i) := by
    rw [List.getElem?_take, if_pos hi, List.getElem?_map, List.getElem?_range (by simp; omega)]; rfl
  rw [List.getElem?_zipWith, hp, hr]
  unfold bound
  rw [h1, h2, hp, ha]

theorem innerArgs_length : ps.length = (innerArgs ps extra args).length := by
  unfold innerArgs forwarded bounds
  simp

theorem getArg (hl : ps.length = args.length) {i : Nat} {p : PTy} (hp : ps[i]? = some p) : ∃ a, args[i]? = some a := by
  have hi : i < ps.length := (List.getElem?_eq_some_iff.1 hp).1
  exact ⟨_, List.getElem?_eq_getElem (hl ▸ hi)⟩

theorem inner_valOf (hw : Wrapping ps extra) (hl : ps.length = args.length) (i : Nat) :
    valOf ps (innerArgs ps extra args) i = (valOf ps args i).map fun _ => (.outer i, .xvalue) := by
  cases hp : ps[i]? with
  | none => unfold valOf; rw [hp]; rfl
  | some p =>
    obtain ⟨a, ha⟩ := getArg hl hp
    have h := innerArgs_get hw hl hp ha
    unfold valOf
    rw [hp, ha, h]
    by_cases hm : p.mode = .val <;> simp [hm]

theorem inner_outside (hw : Wrapping ps extra) (hl : ps.length = args.length) (ha : ∀ a ∈ args, ∃ n, a.1 = .obj n) :
    Outside .inner (innerArgs ps extra args) := by
  intro b hb j
  obtain ⟨i, hi⟩ := List.getElem?_of_mem hb
  have hlt : i < ps.length := by
    rw [innerArgs_length (extra := extra) (args := args)]; exact (List.getElem?_eq_some_iff.1 hi).1
  have hp : ps[i]? = some ps[i] := List.getElem?_eq_getElem hlt
  obtain ⟨a, ha'⟩ := getArg hl hp
  rw [innerArgs_get hw hl hp ha'] at hi
  obtain ⟨n, e⟩ := ha a (List.mem_of_getElem? ha')
  cases hi
  by_cases hm : ps[i].mode = .val <;> simp [hm, e]

theorem mem_perm {ord : List Nat} {n : Nat} (h : ord.Perm (List.range n)) {i : Nat} : i ∈ ord ↔ i < n := by
  rw [h.mem_iff, List.mem_range]

theorem valOf_lt {i : Nat} {a : Arg} (h : valOf ps args i = some a) : i < ps.length := by
  obtain ⟨p, h1, _⟩ := (valOf_iff ps args i a).1 h
  exact (List.getElem?_eq_some_iff.1 h1).1

theorem outer_inj : ∀ i j, Loc.outer i = Loc.outer j → i = j := fun _ _ h => Loc.outer.inj h

theorem inner_inj : ∀ i j, Loc.inner i = Loc.inner j → i = j := fun _ _ h => Loc.inner.inj h

/-- The state in which the method runs. -/
def atMethod (sc : Sched) (ps extra : List PTy) (args : List Arg) (s : St V) : St V :=
  sc.ordInner.foldl (place .inner ps (innerArgs ps extra args)) (sc.ordOuter.foldl (place .outer (ps ++ extra) (passed (ps ++ extra) args)) s)

/-- The parameters of the method. -/
def methodLocs (ps extra : List PTy) (args : List Arg) : List Loc := bounds .inner ps (innerArgs ps extra args)

section Run
variable {sc : Sched} {s : St V}

theorem outerFacts (hw : Wrapping ps extra) (hl : ps.length = args.length) (ha : AliveArgs args s) (hr : NoReuse ps args)
    (hord : Orders sc (ps ++ extra).length ps.length) :
    let s0 := sc.ordOuter.foldl (place .outer (ps ++ extra) (passed (ps ++ extra) args)) s
    (∀ i a, valOf ps args i = some a → s0.mem (.outer i) = s.mem a.1) ∧
    (∀ i l, valOf ps args i = some (l, .xvalue) → s0.mem l = .moved) ∧
    (∀ l, (∀ i, valOf ps args i ≠ none → l ≠ .outer i) → (∀ i, valOf ps args i ≠ some (l, .xvalue)) → s0.mem l = s.mem l) := by
  intro s0
  have hmem : ∀ i, i < ps.length → i ∈ sc.ordOuter := fun i hi => (mem_perm hord.outer).2 (by simp; omega)
  obtain ⟨h1, h2, h3⟩ := foldl_place_mem (V := V) outer_inj (outer_outside hw fun a h => (ha a h).1) sc.ordOuter s
    (hord.outer.nodup_iff.2 List.nodup_range) (by
      intro i _ j _ a b h1 h2 h3 h4
      rw [outer_valOf hw hl] at h1 h2
      exact hr i j a b ((valOf_iff ..).1 h1) ((valOf_iff ..).1 h2) h3 h4)
  simp only [outer_valOf hw hl] at h1 h2 h3
  refine ⟨fun i a h => h1 i (hmem i (valOf_lt h)) a h, fun i l h => h2 i (hmem i (valOf_lt h)) l h, fun l h h' => ?_⟩
  refine h3 l (fun i _ => ?_) (fun i _ => h' i)
  by_cases hn : valOf ps args i = none
  · exact .inr hn
  · exact .inl (h i hn)

theorem innerFacts (hw : Wrapping ps extra) (hl : ps.length = args.length) (ha : AliveArgs args s) (hord : Orders sc (ps ++ extra).length ps.length)
    (s0 : St V) :
    let s1 := sc.ordInner.foldl (place .inner ps (innerArgs ps extra args)) s0
    (∀ i a, valOf ps args i = some a → s1.mem (.inner i) = s0.mem (.outer i)) ∧
    (∀ i a, valOf ps args i = some a → s1.mem (.outer i) = .moved) ∧
    (∀ n, s1.mem (.obj n) = s0.mem (.obj n)) ∧
    (∀ i, valOf ps args i = none → s1.mem (.inner i) = s0.mem (.inner i) ∧ s1.mem (.outer i) = s0.mem (.outer i)) := by
  intro s1
  have hmem : ∀ i, i < ps.length → i ∈ sc.ordInner := fun i hi => (mem_perm hord.inner).2 hi
  obtain ⟨h1, h2, h3⟩ := foldl_place_mem (V := V) inner_inj (inner_outside hw hl fun a h => (ha a h).1) sc.ordInner s0
    (hord.inner.nodup_iff.2 List.nodup_range) (by
      intro i _ j _ a b h1 h2 h3 h4 h5
      rw [inner_valOf hw hl] at h1 h2
      obtain ⟨_, _, rfl⟩ := Option.map_eq_some_iff.1 h1
      obtain ⟨_, _, rfl⟩ := Option.map_eq_some_iff.1 h2
      exact h3 (outer_inj _ _ h5))
  refine ⟨fun i a h => ?_, fun i a h => ?_, fun n => ?_, fun i h => ⟨?_, ?_⟩⟩
  · exact h1 i (hmem i (valOf_lt h)) (.outer i, .xvalue) (by rw [inner_valOf hw hl, h]; rfl)
  · exact h2 i (hmem i (valOf_lt h)) (.outer i) (by rw [inner_valOf hw hl, h]; rfl)
  · refine h3 _ (fun i _ => .inl (by simp)) (fun i _ h => ?_)
    rw [inner_valOf hw hl] at h
    obtain ⟨_, _, h⟩ := Option.map_eq_some_iff.1 h
    cases h
  · refine h3 _ (fun j _ => ?_) (fun j _ h' => ?_)
    · by_cases e : i = j
      · subst e; right; rw [inner_valOf hw hl, h]; rfl
      · left; exact fun e' => e (inner_inj _ _ e')
    · rw [inner_valOf hw hl] at h'
      obtain ⟨_, _, h'⟩ := Option.map_eq_some_iff.1 h'
      cases h'
  · refine h3 _ (fun j _ => .inl (by simp)) (fun j _ h' => ?_)
    rw [inner_valOf hw hl] at h'
    obtain ⟨_, h4, h'⟩ := Option.map_eq_some_iff.1 h'
    cases h'
    rw [h] at h4; cases h4

theorem delivered (hw : Wrapping ps extra) (hl : ps.length = args.length) (ha : AliveArgs args s) (hr : NoReuse ps args)
    (hord : Orders sc (ps ++ extra).length ps.length) :
    Delivered ps args s (methodLocs ps extra args) (atMethod sc ps extra args s) := by
  obtain ⟨o1, o2, o3⟩ := outerFacts hw hl ha hr hord
  obtain ⟨i1, _, i3, _⟩ := innerFacts hw hl ha hord (sc.ordOuter.foldl (place .outer (ps ++ extra) (passed (ps ++ extra) args)) s)
  have hloc : ∀ (i : Nat) (p : PTy) (a : Arg), ps[i]? = some p → args[i]? = some a →
      (methodLocs ps extra args)[i]? = some (if p.mode = .val then Loc.inner i else a.1) := by
    intro i p a hp ha'
    have hi : i < ps.length := (List.getElem?_eq_some_iff.1 hp).1
    unfold methodLocs bounds
    rw [List.getElem?_map, List.getElem?_range hi]
    show some (bound Loc.inner ps (innerArgs ps extra args) i) = _
    unfold bound
    rw [hp, innerArgs_get hw hl hp ha']
    by_cases hm : p.mode = .val <;> simp [hm]
  refine ⟨by simp [methodLocs, bounds], ?_, ?_, ?_, ?_⟩
  · rintro i a ⟨p, hp, ha', hm⟩
    have hv := (valOf_iff ps args i a).2 ⟨p, hp, ha', hm⟩
    refine ⟨by rw [hloc i p a hp ha', if_pos hm], ?_⟩
    exact (i1 i a hv).trans (o1 i a hv)
  · rintro i a ⟨p, hp, ha', hm⟩
    rw [hloc i p a hp ha', if_neg hm]
  · intro i n h
    exact (i3 n).trans (o2 i _ ((valOf_iff ps args i _).2 h))
  · intro n h
    exact (i3 n).trans (o3 _ (fun i _ => by simp) fun i e => h i ((valOf_iff ps args i _).1 e))

theorem outer_alive (hw : Wrapping ps extra) (hl : ps.length = args.length) (ha : AliveArgs args s) :
    ∀ k a, valOf (ps ++ extra) (passed (ps ++ extra) args) k = some a → (s.mem a.1).isDead = false := by
  intro k a h
  rw [outer_valOf hw hl] at h
  exact (ha a (valOf_mem h)).2

theorem inner_alive (hw : Wrapping ps extra) (hl : ps.length = args.length) (ha : AliveArgs args s) (hr : NoReuse ps args)
    (hord : Orders sc (ps ++ extra).length ps.length) :
    ∀ k a, valOf ps (innerArgs ps extra args) k = some a →
      ((sc.ordOuter.foldl (place .outer (ps ++ extra) (passed (ps ++ extra) args)) s).mem a.1).isDead = false := by
  intro k a h
  rw [inner_valOf hw hl] at h
  obtain ⟨b, hb, rfl⟩ := Option.map_eq_some_iff.1 h
  obtain ⟨o1, _, _⟩ := outerFacts hw hl ha hr hord
  rw [o1 k b hb]
  exact (ha b (valOf_mem hb)).2

/-- Without exceptions, the call is the method, between the initialization and the destruction of the parameters. -/
theorem call_eq (hw : Wrapping ps extra) (hl : ps.length = args.length) (ha : AliveArgs args s) (hr : NoReuse ps args)
    (hord : Orders sc (ps ++ extra).length ps.length) (hq : Quiet sc ps args) {isConst methodConst : Bool}
    (hc : methodConst = false → isConst = false) (body : List Loc → St V → Out R × St V) :
    call sc isConst methodConst ps extra args body s =
      sc.ordOuter.foldr (endParam .outer (ps ++ extra)) (sc.ordInner.foldr (endParam .inner ps)
        (body (methodLocs ps extra args) (atMethod sc ps extra args s))) := by
  unfold call
  rw [if_neg (by rintro ⟨h1, h2⟩; rw [hc h1] at h2; cases h2)]
  dsimp only
  rw [enter_quiet (outer_length hw hl) (outer_outside hw fun a h => (ha a h).1) _ sc.ordOuter s
    (fun i hi => (mem_perm hord.outer).1 hi)
    (fun i _ a h => (hq i a ((valOf_iff ..).1 (by rwa [outer_valOf hw hl] at h))).1) (outer_alive hw hl ha)]
  congr 1
  unfold doInvoke
  dsimp only
  refine enter_quiet (as := innerArgs ps extra args) innerArgs_length (inner_outside hw hl fun a h => (ha a h).1) _ sc.ordInner _
    (fun i hi => (mem_perm hord.inner).1 hi) (fun i _ a h => ?_) (inner_alive hw hl ha hr hord)
  rw [inner_valOf hw hl] at h
  obtain ⟨b, hb, _⟩ := Option.map_eq_some_iff.1 h
  exact (hq i b ((valOf_iff ..).1 hb)).2

theorem countP_evOf {frame : Nat → Loc} {ps' : List PTy} {as' : List Arg} : ∀ l : List Nat,
    (l.flatMap (evOf frame ps' as')).countP Ev.isCopy = l.countP (isBy ps' as' .lvalue) ∧
    (l.flatMap (evOf frame ps' as')).countP Ev.isMove = l.countP (isBy ps' as' .xvalue)
  | [] => by simp
  | i :: l => by
    obtain ⟨h1, h2⟩ := countP_evOf (frame := frame) (ps' := ps') (as' := as') l
    rw [List.flatMap_cons, List.countP_append, List.countP_append, h1, h2, List.countP_cons, List.countP_cons]
    have : (evOf frame ps' as' i).countP Ev.isCopy = (if isBy ps' as' .lvalue i then 1 else 0) ∧
        (evOf frame ps' as' i).countP Ev.isMove = (if isBy ps' as' .xvalue i then 1 else 0) := by
      unfold evOf valOf isBy
      cases hp : ps'[i]? with
      | none => simp
      | some p =>
        cases ha : as'[i]? with
        | none => simp
        | some a =>
          rcases a with ⟨l', c⟩
          by_cases hm : p.mode = .val <;> cases c <;> simp [hm, Ev.isCopy, Ev.isMove]
    rw [this.1, this.2]
    omega

theorem isBy_iff {ps' : List PTy} {as' : List Arg} {c : Cat} {i : Nat} : isBy ps' as' c i = true ↔ ∃ l, valOf ps' as' i = some (l, c) := by
  unfold isBy valOf
  cases hp : ps'[i]? with
  | none => simp
  | some p =>
    cases ha : as'[i]? with
    | none => simp
    | some a =>
      rcases a with ⟨l', c'⟩
      by_cases hm : p.mode = .val <;> simp [hm]

theorem outer_isBy (hw : Wrapping ps extra) (hl : ps.length = args.length) (c : Cat) (i : Nat) :
    isBy (ps ++ extra) (passed (ps ++ extra) args) c i = isBy ps args c i := by
  rw [Bool.eq_iff_iff, isBy_iff, isBy_iff, outer_valOf hw hl]

theorem inner_isBy (hw : Wrapping ps extra) (hl : ps.length = args.length) (i : Nat) :
    isBy ps (innerArgs ps extra args) .lvalue i = false ∧
    isBy ps (innerArgs ps extra args) .xvalue i = (isBy ps args .lvalue i || isBy ps args .xvalue i) := by
  constructor
  · rw [Bool.eq_false_iff, Ne, isBy_iff]
    rintro ⟨l, h⟩
    rw [inner_valOf hw hl] at h
    obtain ⟨_, _, h⟩ := Option.map_eq_some_iff.1 h
    cases h
  · rw [Bool.eq_iff_iff, Bool.or_eq_true, isBy_iff, isBy_iff, isBy_iff, inner_valOf hw hl]
    cases hv : valOf ps args i with
    | none => simp
    | some a => rcases a with ⟨l, c⟩; cases c <;> simp

theorem countP_or (l : List Nat) : l.countP (fun i => isBy ps args .lvalue i || isBy ps args .xvalue i) =
    l.countP (isBy ps args .lvalue) + l.countP (isBy ps args .xvalue) := by
  induction l with
  | nil => rfl
  | cons i l ih =>
    rw [List.countP_cons, List.countP_cons, List.countP_cons, ih]
    have : ¬ (isBy ps args .lvalue i = true ∧ isBy ps args .xvalue i = true) := by
      rw [isBy_iff, isBy_iff]; rintro ⟨⟨l, h⟩, l', h'⟩; rw [h] at h'; cases h'
    cases h1 : isBy ps args .lvalue i <;> cases h2 : isBy ps args .xvalue i <;> simp_all <;> omega

theorem outer_numBy (hw : Wrapping ps extra) (hl : ps.length = args.length) (c : Cat) {ord : List Nat}
    (ho : ord.Perm (List.range (ps ++ extra).length)) : ord.countP (isBy (ps ++ extra) (passed (ps ++ extra) args) c) = numBy ps args c := by
  rw [ho.countP_eq, List.length_append, List.range_add, List.countP_append, numBy]
  have e : isBy (ps ++ extra) (passed (ps ++ extra) args) c = isBy ps args c := funext fun i => outer_isBy hw hl c i
  rw [e]
  have : (List.map (fun x => ps.length + x) (List.range extra.length)).countP (isBy ps args c) = 0 := by
    rw [List.countP_eq_zero]
    intro i hi h
    obtain ⟨j, _, rfl⟩ := List.mem_map.1 hi
    obtain ⟨l, hl'⟩ := isBy_iff.1 h
    have := valOf_lt hl'
    omega
  omega

end Run

end Two

/-! ## The theorems -/

section Main
variable {ps extra : List PTy} {args : List Arg} {sc : Sched} {s : St V} {isConst methodConst : Bool}

/-- The positions of the by-value parameters. -/
def valPositions (ps : List PTy) : List Nat := (List.range ps.length).filter (isVal ps)

theorem outer_positions (hw : Wrapping ps extra) (hl : ps.length = args.length) {ord : List Nat} (ho : ord.Perm (List.range (ps ++ extra).length)) :
    (ord.reverse.filter (isVal (ps ++ extra))).Perm (valPositions ps) := by
  have e : isVal (ps ++ extra) = isVal ps := funext fun i => outer_isVal hw hl i
  rw [e]
  refine (((List.reverse_perm ord).trans ho).filter _).trans ?_
  rw [List.length_append, List.range_add, List.filter_append, valPositions]
  have : List.filter (isVal ps) (List.map (fun x => ps.length + x) (List.range extra.length)) = [] := by
    rw [List.filter_eq_nil_iff]
    intro i hi h
    obtain ⟨j, _, rfl⟩ := List.mem_map.1 hi
    obtain ⟨a, ha⟩ := (isVal_iff hl).1 h
    have := valOf_lt ha
    omega
  rw [this, List.append_nil]

/-- **C133**: the method gets the arguments that the caller gave: by-value parameters are equal to them and references are to the very objects; lvalues
given by value are copied once and everything else only moved; after the call all parameters are destroyed, each once, and what the method did
to objects of the caller and what it returned (or threw) is what the caller sees. This holds for all orders of initialization. -/
theorem call_delivers (hw : Wrapping ps extra) (hl : ps.length = args.length) (ha : AliveArgs args s) (hr : NoReuse ps args)
    (hord : Orders sc (ps ++ extra).length ps.length) (hq : Quiet sc ps args) (hn : NoParams s) (hc : methodConst = false → isConst = false) :
    ∃ locs s1, Delivered ps args s locs s1 ∧
      (∃ es, s1.ev = s.ev ++ es ∧ es.countP Ev.isCopy = numBy ps args .lvalue ∧
        es.countP Ev.isMove = numBy ps args .lvalue + 2 * numBy ps args .xvalue) ∧
      ∀ (R : Type) (body : List Loc → St V → Out R × St V), Leaves body →
        ∃ s2 ds, call sc isConst methodConst ps extra args body s = ((body locs s1).1, s2) ∧ NoParams s2 ∧
          (∀ n, s2.mem (.obj n) = (body locs s1).2.mem (.obj n)) ∧ s2.ev = (body locs s1).2.ev ++ ds ∧
          ds.Perm ((valPositions ps).map (fun i => .destroy (.inner i)) ++ (valPositions ps).map fun i => .destroy (.outer i)) := by
  refine ⟨methodLocs ps extra args, atMethod sc ps extra args s, delivered hw hl ha hr hord, ?_, ?_⟩
  · refine ⟨sc.ordOuter.flatMap (evOf .outer (ps ++ extra) (passed (ps ++ extra) args)) ++
      sc.ordInner.flatMap (evOf .inner ps (innerArgs ps extra args)), ?_, ?_, ?_⟩
    · unfold atMethod
      rw [foldl_place_ev, foldl_place_ev, List.append_assoc]
    · rw [List.countP_append, (countP_evOf _).1, (countP_evOf _).1, outer_numBy hw hl _ hord.outer]
      have : sc.ordInner.countP (isBy ps (innerArgs ps extra args) .lvalue) = 0 := by
        rw [List.countP_eq_zero]; intro i _ h; rw [(inner_isBy hw hl i).1] at h; cases h
      omega
    · rw [List.countP_append, (countP_evOf _).2, (countP_evOf _).2, outer_numBy hw hl _ hord.outer]
      have e : isBy ps (innerArgs ps extra args) .xvalue = fun i => isBy ps args .lvalue i || isBy ps args .xvalue i :=
        funext fun i => (inner_isBy hw hl i).2
      rw [e, countP_or, hord.inner.countP_eq, hord.inner.countP_eq]
      unfold numBy
      omega
  · intro R body hb
    rw [call_eq hw hl ha hr hord hq hc body]
    obtain ⟨o1, o2, o3⟩ := outerFacts hw hl ha hr hord
    obtain ⟨i1, i2, i3, i4⟩ := innerFacts hw hl ha hord (sc.ordOuter.foldl (place .outer (ps ++ extra) (passed (ps ++ extra) args)) s)
    have hval : ∀ i, isVal ps i = true → ∃ a, valOf ps args i = some a := fun i h => (isVal_iff hl).1 h
    have halive : ∀ i a, valOf ps args i = some a → (s.mem a.1).isDead = false := fun i a h => (ha a (valOf_mem h)).2
    generalize hL : methodLocs ps extra args = locs
    have hS : ∀ i, isVal ps i = true → ((atMethod sc ps extra args s).mem (.inner i)).isDead = false ∧
        ((atMethod sc ps extra args s).mem (.outer i)).isDead = false := by
      intro i hi
      obtain ⟨a, h⟩ := hval i hi
      constructor
      · rw [show (atMethod sc ps extra args s).mem (.inner i) = _ from i1 i a h, o1 i a h]; exact halive i a h
      · rw [show (atMethod sc ps extra args s).mem (.outer i) = _ from i2 i a h]; rfl
    have hD : ∀ i, isVal ps i = false → (atMethod sc ps extra args s).mem (.inner i) = .dead ∧ (atMethod sc ps extra args s).mem (.outer i) = .dead := by
      intro i hi
      have hno : valOf ps args i = none := by
        cases h : valOf ps args i with
        | none => rfl
        | some a => rw [(isVal_iff hl).2 ⟨a, h⟩] at hi; cases hi
      obtain ⟨j1, j2⟩ := i4 i hno
      have k1 := o3 (.inner i) (fun _ _ => by simp) (fun j e => by
        obtain ⟨n, hn'⟩ := (ha _ (valOf_mem e)).1; cases hn')
      have k2 := o3 (.outer i) (fun j hj e => by cases e; exact hj hno) (fun j e => by
        obtain ⟨n, hn'⟩ := (ha _ (valOf_mem e)).1; cases hn')
      exact ⟨j1.trans (k1.trans (hn i).2), j2.trans (k2.trans (hn i).1)⟩
    generalize atMethod sc ps extra args s = s1 at hS hD
    obtain ⟨hub, hlv⟩ := hb locs s1
    obtain ⟨s', e1, a1, a2, a3⟩ := foldr_endParam (ps := ps) inner_inj sc.ordInner (body locs s1) (hord.inner.nodup_iff.2 List.nodup_range) hub
      (fun i _ hi => by rw [(hlv i).2]; exact (hS i hi).1)
    rw [e1]
    have hiv := outer_isVal hw hl
    obtain ⟨s'', e2, b1, b2, b3⟩ := foldr_endParam (ps := ps ++ extra) outer_inj sc.ordOuter ((body locs s1).1, s')
      (hord.outer.nodup_iff.2 List.nodup_range) hub
      (fun i _ hi => by
        show (s'.mem _).isDead = false
        rw [a2 (.outer i) (fun _ _ _ => by simp), (hlv i).1]
        exact (hS i (by rw [← hiv]; exact hi)).2)
    dsimp only at b2 b3
    have hdead : ∀ c : Cell V, c.isDead = true → c = .dead := by intro c; cases c <;> simp [Cell.isDead]
    refine ⟨s'', (sc.ordInner.reverse.filter (isVal ps)).map (fun i => .destroy (.inner i)) ++
      (sc.ordOuter.reverse.filter (isVal (ps ++ extra))).map (fun i => .destroy (.outer i)), e2, ?_, ?_, ?_, ?_⟩
    · intro i
      cases hi : isVal ps i with
      | true =>
        have hlt : i < ps.length := by obtain ⟨a, h⟩ := hval i hi; exact valOf_lt h
        refine ⟨b1 i ((mem_perm hord.outer).2 (by simp; omega)) (by rw [hiv]; exact hi), ?_⟩
        rw [b2 _ (fun _ _ _ => by simp)]
        exact a1 i ((mem_perm hord.inner).2 hlt) hi
      | false =>
        constructor
        · rw [b2 _ (fun j _ hj e => by cases e; rw [hiv, hi] at hj; cases hj), a2 _ (fun _ _ _ => by simp)]
          apply hdead; rw [(hlv i).1, (hD i hi).2]; rfl
        · rw [b2 _ (fun _ _ _ => by simp), a2 _ (fun j _ hj e => by cases e; rw [hi] at hj; cases hj)]
          apply hdead; rw [(hlv i).2, (hD i hi).1]; rfl
    · intro n
      rw [b2 _ (fun _ _ _ => by simp), a2 _ (fun _ _ _ => by simp)]
    · rw [b3, a3, List.append_assoc]
    · exact (((((List.reverse_perm _).trans hord.inner).filter _)).map _).append ((outer_positions hw hl hord.outer).map _)

/-- **C133**, exceptions: if a constructor of a by-value parameter throws, the method does not run, no parameter is left alive, and the objects of the
caller are as before, except that some that were given as rvalues for by-value parameters may have been moved from. -/
theorem call_throws (hw : Wrapping ps extra) (hl : ps.length = args.length) (ha : AliveArgs args s) (hr : NoReuse ps args)
    (hord : Orders sc (ps ++ extra).length ps.length) (hq : ¬ Quiet sc ps args) (hn : NoParams s) (hc : methodConst = false → isConst = false) :
    ∃ e s', (∀ body : List Loc → St V → Out R × St V, call sc isConst methodConst ps extra args body s = (.threw e, s')) ∧
      (∃ i, sc.thOuter i = some e ∨ sc.thInner i = some e) ∧ NoParams s' ∧
      ∀ n, s'.mem (.obj n) = s.mem (.obj n) ∨ s'.mem (.obj n) = .moved ∧ ∃ i, ByValue ps args i (.obj n, .xvalue) := by
  have hcall : ∀ body : List Loc → St V → Out R × St V, call sc isConst methodConst ps extra args body s =
      enter sc.thOuter .outer (ps ++ extra) (passed (ps ++ extra) args) sc.ordOuter
        (doInvoke sc ps (bounds .outer (ps ++ extra) (passed (ps ++ extra) args)) body) s := by
    intro body
    unfold call
    rw [if_neg (by rintro ⟨h1, h2⟩; rw [hc h1] at h2; cases h2)]
  have hnd1 := hord.outer.nodup_iff.2 List.nodup_range
  have hnd2 := hord.inner.nodup_iff.2 List.nodup_range
  have hin : ∀ i, isVal ps i = true → i < ps.length := by
    intro i h; obtain ⟨a, h'⟩ := (isVal_iff hl).1 h; exact valOf_lt h'
  by_cases hA : ∃ i ∈ sc.ordOuter, ∃ a e, valOf (ps ++ extra) (passed (ps ++ extra) args) i = some a ∧ sc.thOuter i = some e
  · obtain ⟨e, s', h1, ⟨k, _, h2⟩, h3, h4⟩ := enter_throw (R := R) (th := sc.thOuter) outer_inj (outer_length hw hl)
      (outer_outside hw fun a h => (ha a h).1) sc.ordOuter s hnd1 (fun i hi => (mem_perm hord.outer).1 hi) hA (outer_alive hw hl ha)
    refine ⟨e, s', fun body => (hcall body).trans (h1 _), ⟨k, .inl h2⟩, fun i => ⟨?_, ?_⟩, fun n => ?_⟩
    · by_cases hi : isVal ps i = true
      · have := hin i hi
        rcases h3 i ((mem_perm hord.outer).2 (by simp; omega)) (by rw [outer_isVal hw hl]; exact hi) with h | h
        · exact h
        · exact h.trans (hn i).1
      · rcases h4 (.outer i) (fun j _ hj e => by cases e; rw [outer_isVal hw hl] at hj; exact hi hj) with h | ⟨_, j, _, h⟩
        · exact h.trans (hn i).1
        · rw [outer_valOf hw hl] at h
          obtain ⟨n, hn'⟩ := (ha _ (valOf_mem h)).1; cases hn'
    · rcases h4 (.inner i) (fun j _ _ => by simp) with h | ⟨_, j, _, h⟩
      · exact h.trans (hn i).2
      · rw [outer_valOf hw hl] at h
        obtain ⟨n, hn'⟩ := (ha _ (valOf_mem h)).1; cases hn'
    · rcases h4 (.obj n) (fun j _ _ => by simp) with h | ⟨h, j, _, h'⟩
      · exact .inl h
      · rw [outer_valOf hw hl] at h'
        exact .inr ⟨h, j, (valOf_iff ..).1 h'⟩
  · have hq1 : ∀ i a, valOf ps args i = some a → sc.thOuter i = none := by
      intro i a h
      cases ht : sc.thOuter i with
      | none => rfl
      | some e =>
        have := valOf_lt h
        exact absurd ⟨i, (mem_perm hord.outer).2 (by simp; omega), a, e, by rw [outer_valOf hw hl]; exact h, ht⟩ hA
    have hB : ∃ i ∈ sc.ordInner, ∃ a e, valOf ps (innerArgs ps extra args) i = some a ∧ sc.thInner i = some e := by
      unfold Quiet at hq
      push Not at hq
      obtain ⟨i, a, hv, h⟩ := hq
      have hv' := (valOf_iff ps args i a).2 hv
      have h2 := h (hq1 i a hv')
      obtain ⟨e, he⟩ := Option.ne_none_iff_exists'.1 h2
      exact ⟨i, (mem_perm hord.inner).2 (valOf_lt hv'), _, e, by rw [inner_valOf hw hl, hv']; rfl, he⟩
    have hO := enter_quiet (R := R) (V := V) (th := sc.thOuter) (outer_length hw hl) (outer_outside hw fun a h => (ha a h).1)
    obtain ⟨o1, o2, o3⟩ := outerFacts hw hl ha hr hord
    have hal := inner_alive hw hl ha hr hord
    generalize hs0 : sc.ordOuter.foldl (place .outer (ps ++ extra) (passed (ps ++ extra) args)) s = s0 at o1 o2 o3 hal
    obtain ⟨e, s', h1, ⟨k, _, h2⟩, h3, h4⟩ := enter_throw (R := R) (th := sc.thInner) inner_inj (innerArgs_length (extra := extra) (args := args))
      (inner_outside hw hl fun a h => (ha a h).1) sc.ordInner s0 hnd2 (fun i hi => (mem_perm hord.inner).1 hi) hB hal
    have hargs : ∀ l c j, valOf ps args j = some (l, c) → ∃ n, l = .obj n := fun l c j h => (ha _ (valOf_mem h)).1
    have hinn : ∀ l j, valOf ps (innerArgs ps extra args) j = some (l, .xvalue) → ∃ i, l = .outer i ∧ isVal ps i = true := by
      intro l j h
      rw [inner_valOf hw hl] at h
      obtain ⟨b, hb, h⟩ := Option.map_eq_some_iff.1 h
      cases h
      exact ⟨j, rfl, (isVal_iff hl).2 ⟨b, hb⟩⟩
    obtain ⟨s'', e2, b1, b2, _⟩ := foldr_endParam (R := R) (ps := ps ++ extra) outer_inj sc.ordOuter (.threw e, s') hnd1 rfl (fun i _ hi => by
      show (s'.mem _).isDead = false
      rw [outer_isVal hw hl] at hi
      obtain ⟨a, hva⟩ := (isVal_iff hl).1 hi
      rcases h4 (.outer i) (fun _ _ _ => by simp) with h | ⟨h, _⟩
      · rw [h, o1 i a hva]; exact (ha a (valOf_mem hva)).2
      · rw [h]; rfl)
    dsimp only at b2
    refine ⟨e, s'', fun body => ?_, ⟨k, .inr h2⟩, fun i => ⟨?_, ?_⟩, fun n => ?_⟩
    · rw [hcall body, hO _ sc.ordOuter s (fun i hi => (mem_perm hord.outer).1 hi)
        (fun i _ a h => hq1 i a (by rwa [outer_valOf hw hl] at h)) (outer_alive hw hl ha), hs0]
      rw [show doInvoke sc ps (bounds .outer (ps ++ extra) (passed (ps ++ extra) args)) body s0 = (.threw e, s') from h1 _]
      exact e2
    · by_cases hi : isVal ps i = true
      · have := hin i hi
        exact b1 i ((mem_perm hord.outer).2 (by simp; omega)) (by rw [outer_isVal hw hl]; exact hi)
      · rw [b2 _ (fun j _ hj e => by cases e; rw [outer_isVal hw hl] at hj; exact hi hj)]
        rcases h4 (.outer i) (fun _ _ _ => by simp) with h | ⟨_, j, _, h⟩
        · rw [h, o3 _ (fun j hj e => by
            cases e
            cases hv : valOf ps args i with
            | none => exact hj hv
            | some a => exact hi ((isVal_iff hl).2 ⟨a, hv⟩)) (fun j e => by obtain ⟨n, hn'⟩ := hargs _ _ _ e; cases hn')]
          exact (hn i).1
        · obtain ⟨i', e', hi'⟩ := hinn _ _ h
          cases e'
          exact absurd hi' hi
    · rw [b2 _ (fun _ _ _ => by simp)]
      have h0 : s0.mem (.inner i) = .dead := by
        rw [o3 _ (fun _ _ => by simp) (fun j e => by obtain ⟨n, hn'⟩ := hargs _ _ _ e; cases hn')]
        exact (hn i).2
      by_cases hi : isVal ps i = true
      · rcases h3 i ((mem_perm hord.inner).2 (hin i hi)) hi with h | h
        · exact h
        · exact h.trans h0
      · rcases h4 (.inner i) (fun j _ hj e => by cases e; exact hi hj) with h | ⟨_, j, _, h⟩
        · exact h.trans h0
        · obtain ⟨i', e', hi'⟩ := hinn _ _ h
          cases e'
    · rw [b2 _ (fun _ _ _ => by simp)]
      have h5 : s'.mem (.obj n) = s0.mem (.obj n) := by
        rcases h4 (.obj n) (fun _ _ _ => by simp) with h | ⟨_, j, _, h⟩
        · exact h
        · obtain ⟨i', e', hi'⟩ := hinn _ _ h
          cases e'
      rw [h5]
      by_cases hx : ∃ i, valOf ps args i = some (.obj n, .xvalue)
      · obtain ⟨i, hx⟩ := hx
        exact .inr ⟨o2 i _ hx, i, (valOf_iff ..).1 hx⟩
      · exact .inl (o3 _ (fun _ _ => by simp) fun i e => hx ⟨i, e⟩)

/-- Where the guarantee ends: if a by-value parameter gets an object that is no longer alive, the call is undefined (whatever the order, if no
constructor throws). -/
theorem call_dead (hw : Wrapping ps extra) (hl : ps.length = args.length) (hobj : ∀ a ∈ args, ∃ n, a.1 = .obj n)
    (hord : Orders sc (ps ++ extra).length ps.length) (hq : ∀ i, sc.thOuter i = none) (hc : methodConst = false → isConst = false)
    {i : Nat} {a : Arg} (hv : ByValue ps args i a) (hd : s.mem a.1 = .dead) (body : List Loc → St V → Out R × St V) :
    (call sc isConst methodConst ps extra args body s).1 = .ub := by
  unfold call
  rw [if_neg (by rintro ⟨h1, h2⟩; rw [hc h1] at h2; cases h2)]
  have hv' : valOf (ps ++ extra) (passed (ps ++ extra) args) i = some a := by
    rw [outer_valOf hw hl]; exact (valOf_iff _ _ _ _).2 hv
  have hi : i ∈ sc.ordOuter := by
    refine (mem_perm hord.outer).2 ?_
    have := valOf_lt ((valOf_iff (ps := ps) (as := args) i a).2 hv)
    simp; omega
  have ho := outer_outside (extra := extra) (ps := ps) hw hobj
  dsimp only
  generalize doInvoke sc ps (bounds .outer (ps ++ extra) (passed (ps ++ extra) args)) body = k
  have hle : ∀ j ∈ sc.ordOuter, j < (ps ++ extra).length := fun j hj => (mem_perm hord.outer).1 hj
  have hlen := outer_length hw hl
  revert hlen hle ho hv' hi hd
  generalize passed (ps ++ extra) args = as
  generalize ps ++ extra = qs
  generalize sc.ordOuter = ord
  intro hd hv' hi ho hle hlen
  induction ord generalizing s with
  | nil => cases hi
  | cons j rest ih =>
    unfold enter
    have key : ∀ (b : Arg), valOf qs as j = some b → (s.mem b.1).isDead = true → (initParam sc.thOuter Loc.outer qs as j s).1 = .ub := by
      intro b hb hbd
      obtain ⟨p, h1, h2, h3⟩ := (valOf_iff _ _ _ _).1 hb
      unfold initParam
      rw [h1, h2]
      dsimp only
      rw [if_pos h3, if_pos hbd]
    cases hin : initParam sc.thOuter Loc.outer qs as j s with
    | mk o s' =>
      cases o with
      | ub => rfl
      | threw e =>
        exfalso
        unfold initParam at hin
        rw [hq j] at hin
        split at hin
        · split at hin
          · split at hin
            · cases hin
            · dsimp only at hin
              split at hin <;> cases hin
          · cases hin
        · cases hin
      | ret u =>
        dsimp only
        have hne : j ≠ i := by
          rintro rfl
          have := key a hv' (by rw [hd]; rfl)
          rw [hin] at this
          cases this
        have hs' : s' = place Loc.outer qs as s j := by
          have := initParam_ret (th := sc.thOuter) (frame := Loc.outer) (s := s) (hle j (by simp)) hlen (fun b hb => hq j) (fun b hb => by
            cases hb' : (s.mem b.1).isDead with
            | false => rfl
            | true =>
              have := key b hb hb'
              rw [hin] at this
              cases this)
          rw [hin] at this
          exact (Prod.mk.inj this).2
        have hd' : s'.mem a.1 = .dead := by
          rw [hs', place_mem_other (Or.inl (ho a (valOf_mem hv') j))]
          · exact hd
          · intro hx
            have := key (a.1, .xvalue) hx (by rw [hd]; rfl)
            rw [hin] at this
            cases this
        have := ih hd' (by
          rcases List.mem_cons.1 hi with e | e
          · exact absurd e.symm hne
          · exact e) (fun k hk => hle k (by simp [hk]))
        unfold endParam
        rw [this]
        simp [Out.isUb, this]

/-- **C133**, const objects: a call of a non-const method of an object held by const reference throws before any argument is copied or moved. -/
theorem call_const (hi : isConst = true) (hm : methodConst = false) (body : List Loc → St V → Out R × St V) :
    call sc isConst methodConst ps extra args body s = (.threw badConstness, s) := by
  unfold call; rw [if_pos ⟨hm, hi⟩]

/-- **C133**, types: a call with as many arguments as the method has parameters compiles exactly if each argument can initialize its parameter, … -/
theorem compiles_iff (cl : Classes) (hw : Wrapping ps extra) :
    Compiles cl (ps ++ extra) args ↔ List.Forall₂ (fun p (a : Arg) => Binds cl p a.2) ps args := by
  unfold Compiles
  rcases hw with ⟨rfl, h⟩ | rfl
  · rw [passed_req h, List.append_nil]
  · rw [passed_opt]
    constructor
    · intro h
      have hlen : ps.length = args.length := by have := h.length_eq; simpa using this
      have := List.forall₂_take ps.length h
      rwa [List.take_append_of_le_length (Nat.le_refl _), List.take_length, hlen, List.take_append_of_le_length (Nat.le_refl _),
        List.take_length] at this
    · intro h
      exact List.rel_append h (.cons (by simp [Binds, vtRef]) .nil)

/-- … and the function made for the method compiles exactly if the classes of the by-value parameters are movable: move-only types can be passed by
value, types that cannot be moved cannot. -/
theorem inner_compiles_iff (cl : Classes) (hw : Wrapping ps extra) (hl : ps.length = args.length) :
    List.Forall₂ (fun p (a : Arg) => Binds cl p a.2) ps (innerArgs ps extra args) ↔ ∀ p ∈ ps, p.mode = .val → cl.movable p.cls = true := by
  have hcat : ∀ (i : Nat) (p : PTy), ps[i]? = some p → ∃ a : Arg, (innerArgs ps extra args)[i]? = some a ∧ (Binds cl p a.2 ↔ (p.mode = .val → cl.movable p.cls = true)) := by
    intro i p hp
    obtain ⟨a, ha⟩ := getArg hl hp
    refine ⟨_, innerArgs_get hw hl hp ha, ?_⟩
    cases hm : p.mode <;> simp [Binds, hm]
  rw [List.forall₂_iff_get]
  constructor
  · rintro ⟨_, h⟩ p hp
    obtain ⟨i, hi⟩ := List.getElem?_of_mem hp
    obtain ⟨a, ha, hb⟩ := hcat i p hi
    obtain ⟨h1, e1⟩ := List.getElem?_eq_some_iff.1 hi
    obtain ⟨h2, e2⟩ := List.getElem?_eq_some_iff.1 ha
    have := h i h1 h2
    simp only [List.get_eq_getElem, e1, e2] at this
    exact hb.1 this
  · intro h
    refine ⟨innerArgs_length, fun i h1 h2 => ?_⟩
    obtain ⟨a, ha, hb⟩ := hcat i ps[i] (List.getElem?_eq_getElem h1)
    obtain ⟨_, e2⟩ := List.getElem?_eq_some_iff.1 ha
    simp only [List.get_eq_getElem]
    rw [e2]
    exact hb.2 (h _ (List.getElem_mem h1))

/-- A required method whose last parameter is a reference to the vtable cannot be called with all its arguments: `call` adds the vtable of the
wrapper. -/
theorem not_compiles_vtable (cl : Classes) (h : ps.getLast? = some vtRef) (hl : args.length = ps.length) : ¬ Compiles cl ps args := by
  intro hc
  have := hc.length_eq
  unfold passed at this
  rw [lastType_eq, if_pos h] at this
  simp at this
  omega

end Main

/-! ## An example -/

/-- `f(X, X &, X &&, X)` called with `(x0, x1, std::move(x2), std::move(x3))`, the second parameter initialized last. -/
def exPs : List PTy := [⟨1, .val⟩, ⟨1, .lref⟩, ⟨1, .rref⟩, ⟨1, .val⟩]

def exArgs : List Arg := [(.obj 0, .lvalue), (.obj 1, .lvalue), (.obj 2, .xvalue), (.obj 3, .xvalue)]

def exSched : Sched := ⟨fun _ => none, fun _ => none, [3, 0, 4, 2, 1], [2, 0, 3, 1]⟩

def exSt : St Nat := ⟨fun l => match l with | .obj n => .has n | .vtable => .has 0 | _ => .dead, []⟩

/-- The method adds what it is given by value to the object it gets by reference. -/
def exBody (locs : List Loc) (s : St Nat) : Out Nat × St Nat :=
  match locs with
  | [a, b, _, d] =>
    match s.mem a, s.mem b, s.mem d, b with
    | .has x, .has y, .has z, .obj n => (.ret (x + y + z), ⟨setMem s.mem (.obj n) (.has (x + y + z)), s.ev⟩)
    | _, _, _, _ => (.ret 0, s)
  | _ => (.ret 0, s)

example : (call exSched false false exPs [vtRef] exArgs exBody exSt).1 = .ret 4 := by decide
example : ((call exSched false false exPs [vtRef] exArgs exBody exSt).2.mem (.obj 1)) = .has 4 := by decide
example : ((call exSched false false exPs [vtRef] exArgs exBody exSt).2.mem (.obj 2)) = .has 2 := by decide
example : ((call exSched false false exPs [vtRef] exArgs exBody exSt).2.mem (.obj 3)) = .moved := by decide

/-- What `NoReuse` excludes: in `f(x0, std::move(x0))` the order decides whether the first parameter gets the value (as in any call of C++). -/
def reusePs : List PTy := [⟨1, .val⟩, ⟨1, .val⟩]

def reuseArgs : List Arg := [(.obj 5, .lvalue), (.obj 5, .xvalue)]

def reuseBody (_ : List Loc) (s : St Nat) : Out (Cell Nat) × St Nat := (.ret (s.mem (.inner 0)), s)

example : (call ⟨fun _ => none, fun _ => none, [0, 1], [0, 1]⟩ false false reusePs [] reuseArgs reuseBody exSt).1 = .ret (.has 5) := by decide
example : (call ⟨fun _ => none, fun _ => none, [1, 0], [0, 1]⟩ false false reusePs [] reuseArgs reuseBody exSt).1 = .ret .moved := by decide

example : Wrapping exPs [vtRef] ∧ exPs.length = exArgs.length ∧ AliveArgs exArgs exSt ∧ NoParams exSt ∧ Quiet exSched exPs exArgs ∧
    Orders exSched (exPs ++ [vtRef]).length exPs.length ∧ NoReuse exPs exArgs := by
  refine ⟨.inr rfl, rfl, ?_, fun i => ⟨rfl, rfl⟩, fun _ _ _ => ⟨rfl, rfl⟩, ⟨by decide, by decide⟩, ?_⟩
  · intro a ha
    simp only [exArgs, List.mem_cons, List.not_mem_nil, or_false] at ha
    rcases ha with rfl | rfl | rfl | rfl <;> exact ⟨⟨_, rfl⟩, rfl⟩
  · rintro i j a b ⟨p, h1, h2, h3⟩ ⟨q, h4, h5, h6⟩ hij hx e
    match i, j with
    | 0, _ => cases h2; cases hx
    | 1, _ => cases h1; cases h3
    | 2, _ => cases h1; cases h3
    | 3, 0 => cases h2; cases h5; cases e
    | 3, 1 => cases h4; cases h6
    | 3, 2 => cases h4; cases h6
    | 3, 3 => exact hij rfl
    | 3, n + 4 => cases h4
    | n + 4, _ => cases h1

theorem exBody_leaves : Leaves exBody := by
  intro locs s
  unfold exBody
  split
  · split
    · exact ⟨rfl, fun i => ⟨rfl, rfl⟩⟩
    · exact ⟨rfl, fun i => ⟨rfl, rfl⟩⟩
  · exact ⟨rfl, fun i => ⟨rfl, rfl⟩⟩

/-- Here the move of the last parameter into the method throws: the parameters are gone, the argument stays moved from. -/
def throwSched : Sched := ⟨fun _ => none, fun i => if i = 3 then some 7 else none, [3, 0, 4, 2, 1], [2, 0, 3, 1]⟩

example : (call throwSched false false exPs [vtRef] exArgs exBody exSt).1 = .threw 7 := by decide
example : (call throwSched false false exPs [vtRef] exArgs exBody exSt).2.mem (.obj 3) = .moved := by decide
example : (call throwSched false false exPs [vtRef] exArgs exBody exSt).2.mem (.inner 0) = .dead := by decide
example : ¬ Quiet throwSched exPs exArgs := fun h => by
  have := (h 3 (.obj 3, .xvalue) ⟨⟨1, .val⟩, rfl, rfl, rfl⟩).2
  cases this

/-- The first argument is gone. -/
example : (call exSched false false exPs [vtRef] exArgs exBody ⟨setMem exSt.mem (.obj 0) .dead, []⟩).1 = .ub :=
  call_dead (.inr rfl) rfl (by
    intro a ha
    simp only [exArgs, List.mem_cons, List.not_mem_nil, or_false] at ha
    rcases ha with rfl | rfl | rfl | rfl <;> exact ⟨_, rfl⟩) ⟨by decide, by decide⟩ (fun _ => rfl) (fun _ => rfl)
    (i := 0) (a := (.obj 0, .lvalue)) ⟨⟨1, .val⟩, rfl, rfl, rfl⟩ rfl exBody

end Guanaqo.TypeErased.Args
