import Verif.TagInvoke.Model
import Verif.TypeErased.ArgsProps

/-! # C136: proofs -/

namespace Guanaqo.TagInvoke

open Guanaqo.TypeErased.Args

variable {V R : Type}

/-- The result of a call that ends normally is passed on. -/
def asEnded (r : Out R × St V) : Out (Ended R) × St V :=
  match r with
  | (.ret x, s) => (.ret (.returned x), s)
  | (.threw e, s) => (.threw e, s)
  | (.ub, s) => (.ub, s)

/-- The arguments of a call are alive. -/
def Alive (as : List Arg) (s : St V) : Prop := ∀ a ∈ as, (s.mem a.1).isDead = false

/-! ## What is passed on -/

theorem fnParams_length (tagCls : Nat) (args : List Arg) : (fnParams tagCls args).length = args.length + 1 := by simp [fnParams]

/-- The overload is called with the parameter that holds the tag, as an rvalue, and with the very objects of the caller, in their categories. -/
theorem passedOn_eq (tagCls : Nat) (tag : Arg) (args : List Arg) : passedOn tagCls tag args = (.outer 0, .xvalue) :: args := by
  have key : ∀ (l : List Arg) (k : Nat) (ps : List PTy) (as : List Arg), (∀ i, ps[k + i]? = (l[i]?).map fun a => (⟨0, match a.2 with | .lvalue => .lref | .xvalue => .rref⟩ : PTy)) →
      (∀ i, as[k + i]? = l[i]?) →
      List.zipWith (fun (p : PTy) (m : Loc) => (m, if p.mode = .lref ∨ p.mode = .cref then Cat.lvalue else Cat.xvalue))
        (l.map fun a => (⟨0, match a.2 with | .lvalue => .lref | .xvalue => .rref⟩ : PTy)) ((List.range' k l.length).map (bound .outer ps as)) = l := by
    intro l
    induction l with
    | nil => intros; rfl
    | cons a l ih =>
      intro k ps as h1 h2
      simp only [List.map_cons, List.length_cons, List.range'_succ, List.zipWith_cons_cons]
      rw [ih (k + 1) ps as (fun i => by
        have := h1 (i + 1)
        rwa [List.getElem?_cons_succ, show k + (i + 1) = k + 1 + i by omega] at this) (fun i => by
        have := h2 (i + 1)
        rwa [List.getElem?_cons_succ, show k + (i + 1) = k + 1 + i by omega] at this)]
      have e1 := h1 0
      have e2 := h2 0
      simp only [Nat.add_zero, List.getElem?_cons_zero, Option.map_some] at e1 e2
      unfold bound
      rw [e1, e2]
      rcases a with ⟨m, c⟩
      cases c <;> simp
  unfold passedOn
  have hr : List.range (fnParams tagCls args).length = 0 :: List.range' 1 args.length := by
    rw [fnParams_length, List.range_eq_range', List.range'_succ]
  unfold forwarded bounds
  dsimp only
  rw [hr]
  simp only [fnParams, List.map_cons, List.zipWith_cons_cons]
  congr 1
  exact key args 1 _ _ (fun i => by rw [Nat.add_comm, List.getElem?_cons_succ, List.getElem?_map]; rfl) (fun i => by rw [Nat.add_comm, List.getElem?_cons_succ])

/-! ## Reference parameters -/

theorem enter_skip {th : Nat → Option Nat} (tagCls : Nat) (tag : Arg) (args : List Arg) (body : St V → Out R × St V) :
    ∀ (ord : List Nat) (s : St V), (∀ i ∈ ord, i < args.length + 1) →
      enter th .outer (fnParams tagCls args) (tag :: args) ord body s = enter th .outer [⟨tagCls, .val⟩] [tag] (ord.filter (· == 0)) body s
  | [], _, _ => rfl
  | 0 :: rest, s, h => by
    rw [List.filter_cons_of_pos (by rfl)]
    unfold enter
    have e1 : initParam th .outer (fnParams tagCls args) (tag :: args) 0 s = initParam th .outer [⟨tagCls, .val⟩] [tag] 0 s := rfl
    have e2 : ∀ r : Out R × St V, endParam .outer (fnParams tagCls args) 0 r = endParam .outer [⟨tagCls, .val⟩] 0 r := fun r => rfl
    rw [e1]
    cases initParam th .outer [⟨tagCls, .val⟩] [tag] 0 s with
    | mk o s' =>
      cases o with
      | ret u =>
        dsimp only
        rw [e2, enter_skip tagCls tag args body rest s' fun i hi => h i (.tail _ hi)]
      | threw e => rfl
      | ub => rfl
  | (i + 1) :: rest, s, h => by
    rw [List.filter_cons_of_neg (by simp)]
    have hi : i < args.length := by have := h (i + 1) (.head _); omega
    have hp : (fnParams tagCls args)[i + 1]? = some ⟨0, match args[i].2 with | .lvalue => .lref | .xvalue => .rref⟩ := by
      rw [fnParams, List.getElem?_cons_succ, List.getElem?_map, List.getElem?_eq_getElem hi]
      rfl
    have hm : (match args[i].2 with | .lvalue => Mode.lref | .xvalue => Mode.rref) ≠ Mode.val := by
      cases args[i].2 <;> simp
    have e1 : initParam th .outer (fnParams tagCls args) (tag :: args) (i + 1) s = (.ret (), s) := by
      unfold initParam
      rw [hp, List.getElem?_cons_succ, List.getElem?_eq_getElem hi]
      dsimp only
      rw [if_neg hm]
    have e2 : ∀ r : Out R × St V, endParam .outer (fnParams tagCls args) (i + 1) r = r := fun r => by
      unfold endParam
      rw [hp]
      by_cases hu : r.1.isUb = true
      · rw [if_pos hu]
      · rw [if_neg hu, if_neg (by simpa using hm)]
    rw [enter, e1]
    dsimp only
    rw [e2]
    exact enter_skip tagCls tag args body rest s fun i hi => h i (.tail _ hi)

theorem filter_zero {ord : List Nat} {n : Nat} (h : ord.Perm (List.range (n + 1))) : ord.filter (· == 0) = [0] := by
  have := h.filter (· == 0)
  rw [List.range_succ_eq_map, List.filter_cons_of_pos (by rfl), List.filter_map] at this
  rw [show (List.range n).filter ((· == 0) ∘ Nat.succ) = [] by rw [List.filter_eq_nil_iff]; intro a _; simp] at this
  exact List.perm_singleton.1 this

/-! ## Exceptions -/

/-- Where the exceptions of a call come from. -/
theorem enter_threw {th : Nat → Option Nat} {frame : Nat → Loc} {ps : List PTy} {as : List Arg} {body : St V → Out R × St V} {e : Nat} :
    ∀ (ord : List Nat) (s : St V), (enter th frame ps as ord body s).1 = .threw e →
      (∃ i p a, ps[i]? = some p ∧ as[i]? = some a ∧ p.mode = .val ∧ th i = some e) ∨ ∃ s1, (body s1).1 = .threw e
  | [], s, h => .inr ⟨s, h⟩
  | i :: rest, s, h => by
    unfold enter at h
    cases hp : ps[i]? with
    | none =>
      have : initParam th frame ps as i s = (.ub, s) := by unfold initParam; rw [hp]
      rw [this] at h
      cases h
    | some p =>
      cases ha : as[i]? with
      | none =>
        have : initParam th frame ps as i s = (.ub, s) := by unfold initParam; rw [hp, ha]
        rw [this] at h
        cases h
      | some a =>
        have hend : ∀ r : Out R × St V, (endParam frame ps i r).1 = .threw e → r.1 = .threw e := by
          intro r hr
          unfold endParam at hr
          split at hr
          · exact hr
          · split at hr
            · split at hr
              · cases hr
              · exact hr
            · exact hr
        cases hin : initParam th frame ps as i s with
        | mk o s' =>
          rw [hin] at h
          cases o with
          | ret u => exact enter_threw rest s' (hend _ h)
          | ub => cases h
          | threw e' =>
            cases (Out.threw.inj h)
            unfold initParam at hin
            rw [hp, ha] at hin
            dsimp only at hin
            split at hin
            · rename_i hm
              split at hin
              · cases hin
              · split at hin
                · rename_i ht
                  cases hin
                  exact .inl ⟨i, p, a, hp, ha, hm, ht⟩
                · split at hin <;> cases hin
            · cases hin

theorem callNothrow_iff {nt : Nothrow} {ps : List PTy} {nx : Bool} {cats : List Cat} :
    callNothrow nt ps nx cats = true ↔ nx = true ∧ ∀ (i : Nat) (p : PTy) (c : Cat), ps[i]? = some p → cats[i]? = some c → initNothrow nt p c = true := by
  unfold callNothrow
  rw [Bool.and_eq_true, List.all_eq_true]
  refine and_congr_right fun _ => ⟨fun h i p c hp hc => ?_, fun h b hb => ?_⟩
  · have : initNothrow nt p c ∈ List.zipWith (initNothrow nt) ps cats := by
      refine List.mem_of_getElem? (i := i) ?_
      rw [List.getElem?_zipWith, hp, hc]
    exact h _ this
  · obtain ⟨i, hi⟩ := List.getElem?_of_mem hb
    rw [List.getElem?_zipWith] at hi
    cases hp : ps[i]? with
    | none => rw [hp] at hi; cases hi
    | some p =>
      cases hc : cats[i]? with
      | none => rw [hp, hc] at hi; cases hi
      | some c =>
        rw [hp, hc] at hi
        have := h i p c hp hc
        rw [Option.some.inj hi] at this
        exact this

/-- Initialization ends no lives. -/
theorem foldl_alive (frame : Nat → Loc) (ps : List PTy) (as : List Arg) (ho : Outside frame as) (hl : ps.length = as.length) :
    ∀ (ord : List Nat) (s : St V), (∀ a ∈ as, (s.mem a.1).isDead = false) →
      (∀ l, (s.mem l).isDead = false → ((ord.foldl (place frame ps as) s).mem l).isDead = false) ∧
      (∀ i ∈ ord, isVal ps i = true → ((ord.foldl (place frame ps as) s).mem (frame i)).isDead = false)
  | [], s, _ => ⟨fun _ h => h, by simp⟩
  | i :: rest, s, h => by
    obtain ⟨h1, h2⟩ := foldl_alive frame ps as ho hl rest (place frame ps as s i) (fun a ha => place_alive ho ha (h a ha))
    have hp : ∀ l, (s.mem l).isDead = false → ((place frame ps as s i).mem l).isDead = false := by
      intro l hd
      cases hv : valOf ps as i with
      | none => unfold place; rw [hv]; exact hd
      | some a =>
        by_cases hlf : l = frame i
        · rw [hlf, place_mem_frame hv]; exact h a (valOf_mem hv)
        · by_cases hx : a = (l, .xvalue)
          · rw [place_mem_taken hlf (by rw [hv, hx])]; rfl
          · rw [place_mem_other (.inl hlf) (by rw [hv]; simpa using hx)]; exact hd
    refine ⟨fun l hd => h1 l (hp l hd), fun j hj hv => ?_⟩
    rcases List.mem_cons.1 hj with rfl | hj'
    · refine h1 _ ?_
      obtain ⟨a, ha⟩ := (isVal_iff hl).1 hv
      rw [place_mem_frame ha]
      exact h a (valOf_mem ha)
    · exact h2 j hj' hv

theorem mayThrow_iff {nt : Nothrow} {p : PTy} {c : Cat} : initNothrow nt p c = false ↔ p.mode = .val ∧ MayThrow nt p.cls c := by
  unfold initNothrow MayThrow
  by_cases hm : p.mode = .val <;> cases c <;> simp [hm]

section Main
variable {nt : Nothrow} {sc : Sched} {tagCls : Nat} {ov : Overload V R} {tag : Arg} {args : List Arg} {s : St V}

theorem cats_get {i : Nat} {a : Arg} (h : (((Loc.outer 0, Cat.xvalue) : Arg) :: args)[i]? = some a) :
    (Cat.xvalue :: args.map (·.2))[i]? = some a.2 := by
  cases i with
  | zero => cases h; rfl
  | succ i =>
    rw [List.getElem?_cons_succ] at h ⊢
    rw [List.getElem?_map, h]
    rfl

/-- The inner call cannot throw if it is `noexcept`. -/
theorem inner_nothrow (hh : Honest nt sc tagCls ov tag args) (hn : fnNoexcept nt ov args = true) (s : St V) (e : Nat) :
    (enter sc.thInner .inner ov.params ((.outer 0, .xvalue) :: args) sc.ordInner
      (ov.body (bounds .inner ov.params ((.outer 0, .xvalue) :: args))) s).1 ≠ .threw e := by
  intro h
  obtain ⟨h1, h2⟩ := callNothrow_iff.1 hn
  rcases enter_threw _ _ h with ⟨i, p, a, hp, ha, hm, ht⟩ | ⟨s1, hb⟩
  · have := mayThrow_iff.2 ⟨hm, hh.params i p a.2 hp (cats_get ha) (by rw [ht]; simp) hm⟩
    rw [h2 i p a.2 hp (cats_get ha)] at this
    cases this
  · exact hh.body h1 _ _ _ hb

/-- **C136**: calling `guanaqo_tag_invoke` does what the direct call of the overload with the arguments does: there is the same result or exception, the
same copies, moves and destructions, in the same order, and the same effects. In particular `noexcept` never ends the program. -/
theorem tagInvoke_direct (hord : sc.ordOuter.Perm (List.range (args.length + 1))) (hh : Honest nt sc tagCls ov tag args) (s : St V) :
    tagInvoke nt sc tagCls ov tag args s = asEnded (direct sc tagCls ov tag args s) := by
  unfold tagInvoke
  rw [enter_skip tagCls tag args _ _ s (fun i hi => (mem_perm hord).1 hi), filter_zero hord]
  dsimp only
  rw [passedOn_eq]
  unfold direct
  have key : ∀ s', guarded (fnNoexcept nt ov args) (enter sc.thInner .inner ov.params ((.outer 0, .xvalue) :: args) sc.ordInner
      (ov.body (bounds .inner ov.params ((.outer 0, .xvalue) :: args))) s') =
      asEnded (enter sc.thInner .inner ov.params ((.outer 0, .xvalue) :: args) sc.ordInner
      (ov.body (bounds .inner ov.params ((.outer 0, .xvalue) :: args))) s') := by
    intro s'
    have h := inner_nothrow (sc := sc) hh
    cases hr : (enter sc.thInner .inner ov.params ((.outer 0, .xvalue) :: args) sc.ordInner
      (ov.body (bounds .inner ov.params ((.outer 0, .xvalue) :: args))) s') with
    | mk o s2 =>
      cases o with
      | ret x => rfl
      | ub => rfl
      | threw e =>
        unfold guarded asEnded
        dsimp only
        rw [if_neg]
        intro hn
        exact h hn s' e (by rw [hr])
  unfold enter
  cases initParam sc.thOuter .outer [⟨tagCls, .val⟩] [tag] 0 s with
  | mk o s' =>
    cases o with
    | threw e => rfl
    | ub => rfl
    | ret u =>
      dsimp only
      unfold enter
      dsimp only
      rw [key]
      cases enter sc.thInner .inner ov.params ((.outer 0, .xvalue) :: args) sc.ordInner
        (ov.body (bounds .inner ov.params ((.outer 0, .xvalue) :: args))) s' with
      | mk o s2 =>
        have hd : ∀ (Q : Type) (o : Out Q), endParam (V := V) .outer [⟨tagCls, .val⟩] 0 (o, s2) = if o.isUb then (o, s2) else if (s2.mem (.outer 0)).isDead then (.ub, s2)
            else (o, ⟨setMem s2.mem (.outer 0) .dead, s2.ev ++ [.destroy (.outer 0)]⟩) := fun Q o => rfl
        cases o with
        | ret x =>
          show endParam .outer _ 0 (Out.ret (Ended.returned x), s2) = _
          rw [hd, hd]
          simp only [Out.isUb]
          by_cases hx : (s2.mem (.outer 0)).isDead = true <;> simp [hx, asEnded]
        | threw e =>
          show endParam .outer _ 0 (Out.threw e, s2) = _
          rw [hd, hd]
          simp only [Out.isUb]
          by_cases hx : (s2.mem (.outer 0)).isDead = true <;> simp [hx, asEnded]
        | ub =>
          show endParam .outer _ 0 (Out.ub, s2) = _
          rw [hd, hd]
          simp [Out.isUb, asEnded]

/-- `noexcept` never ends the program. -/
theorem tagInvoke_not_terminated (hord : sc.ordOuter.Perm (List.range (args.length + 1))) (hh : Honest nt sc tagCls ov tag args) (s : St V) :
    (tagInvoke nt sc tagCls ov tag args s).1 ≠ .ret .terminated := by
  rw [tagInvoke_direct hord hh]
  unfold asEnded
  split <;> simp

theorem nothrowInvocable_iff : NothrowInvocable nt tagCls ov tag.2 args = true ↔
    fnNoexcept nt ov args = true ∧ initNothrow nt ⟨tagCls, .val⟩ tag.2 = true := by
  unfold NothrowInvocable
  rw [callNothrow_iff]
  refine and_congr_right fun _ => ⟨fun h => h 0 _ _ rfl rfl, fun h i p c hp hc => ?_⟩
  cases i with
  | zero => cases hp; cases hc; exact h
  | succ i =>
    rw [fnParams, List.getElem?_cons_succ, List.getElem?_map] at hp
    obtain ⟨a, _, rfl⟩ := Option.map_eq_some_iff.1 hp
    unfold initNothrow
    rw [if_neg]
    cases a.2 <;> simp

/-- **C136**, exceptions: a call for which `nothrow_tag_invocable` holds does not throw. -/
theorem nothrow_sound (hord : sc.ordOuter.Perm (List.range (args.length + 1))) (hh : Honest nt sc tagCls ov tag args)
    (hn : NothrowInvocable nt tagCls ov tag.2 args = true) (s : St V) (e : Nat) : (tagInvoke nt sc tagCls ov tag args s).1 ≠ .threw e := by
  obtain ⟨h1, h2⟩ := nothrowInvocable_iff.1 hn
  rw [tagInvoke_direct hord hh]
  intro h
  have h' : (direct sc tagCls ov tag args s).1 = .threw e := by
    unfold asEnded at h
    split at h
    · cases h
    · rename_i hd; rw [hd]; cases h; rfl
    · cases h
  unfold direct at h'
  rcases enter_threw _ _ h' with ⟨i, p, a, hp, ha, _, ht⟩ | ⟨s1, hb⟩
  · cases i with
    | zero =>
      cases ha
      have := (mayThrow_iff (p := ⟨tagCls, .val⟩)).2 ⟨rfl, hh.tag (by rw [ht]; simp)⟩
      rw [h2] at this
      cases this
    | succ i => rw [List.getElem?_cons_succ] at hp; cases hp
  · exact inner_nothrow hh h1 s1 e hb

/-- **C136**, exceptions, the other direction: if `nothrow_tag_invocable` does not hold, then some constructors and some function of these declarations
throw although they keep what they declare. -/
theorem nothrow_complete (hl : ov.params.length = args.length + 1) (ha : AliveArgs (tag :: args) s) (hn : NothrowInvocable nt tagCls ov tag.2 args = false) (r : R) :
    ∃ (sc : Sched) (body : List Loc → St V → Out R × St V) (e : Nat), Orders sc (args.length + 1) (args.length + 1) ∧
      Honest nt sc tagCls { ov with body := body } tag args ∧ (tagInvoke nt sc tagCls { ov with body := body } tag args s).1 = .threw e := by
  have hlift : ∀ (sc : Sched) (body : List Loc → St V → Out R × St V), Orders sc (args.length + 1) (args.length + 1) →
      Honest nt sc tagCls { ov with body := body } tag args → (direct sc tagCls { ov with body := body } tag args s).1 = .threw 7 →
      (tagInvoke nt sc tagCls { ov with body := body } tag args s).1 = .threw 7 := by
    intro sc body ho hh h
    rw [tagInvoke_direct ho.outer hh]
    unfold asEnded
    cases hd : direct sc tagCls { ov with body := body } tag args s with
    | mk o s2 => rw [hd] at h; cases h; rfl
  have htag := ha tag (by simp)
  have hvtag : valOf [(⟨tagCls, .val⟩ : PTy)] [tag] 0 = some tag := by simp [valOf]
  by_cases h1 : initNothrow nt ⟨tagCls, .val⟩ tag.2 = false
  · refine ⟨⟨fun i => if i = 0 then some 7 else none, fun _ => none, List.range (args.length + 1), List.range (args.length + 1)⟩, fun _ s => (.ret r, s), 7, ⟨.rfl, .rfl⟩, ?_, ?_⟩
    · exact ⟨fun _ => (mayThrow_iff.1 h1).2, fun _ _ _ _ _ h => absurd rfl h, fun _ _ _ _ h => by cases h⟩
    · refine hlift _ _ ⟨.rfl, .rfl⟩ ⟨fun _ => (mayThrow_iff.1 h1).2, fun _ _ _ _ _ h => absurd rfl h, fun _ _ _ _ h => by cases h⟩ ?_
      unfold direct enter
      rw [initParam_throw hvtag (e := 7) (by simp) htag.2]
  · -- the tag is moved into the function without an exception
    have h1' : initNothrow nt ⟨tagCls, .val⟩ tag.2 = true := by simpa using h1
    have hf : fnNoexcept nt ov args = false := by
      cases hf : fnNoexcept nt ov args with
      | false => rfl
      | true => rw [nothrowInvocable_iff.2 ⟨hf, h1'⟩] at hn; cases hn
    have hstart : ∀ (thI : Nat → Option Nat) (body : List Loc → St V → Out R × St V),
        direct ⟨fun _ => none, thI, List.range (args.length + 1), List.range (args.length + 1)⟩ tagCls { ov with body := body } tag args s =
        endParam .outer [⟨tagCls, .val⟩] 0 (enter thI .inner ov.params ((.outer 0, .xvalue) :: args) (List.range (args.length + 1))
          (body (bounds .inner ov.params ((.outer 0, .xvalue) :: args))) (place .outer [⟨tagCls, .val⟩] [tag] s 0)) := by
      intro thI body
      unfold direct
      rw [enter, initParam_ret (by simp) (by simp) (fun _ _ => rfl) (fun a h => by rw [hvtag] at h; cases h; exact htag.2)]
      dsimp only
      rw [enter]
    have hO : Outside (.outer) [tag] := by
      intro a h j e
      obtain ⟨n, hn⟩ := (ha a (by simp at h; simp [h])).1
      rw [hn] at e; cases e
    have hal1 : ∀ a ∈ (((.outer 0, .xvalue) : Arg) :: args), ((place .outer [⟨tagCls, .val⟩] [tag] s 0).mem a.1).isDead = false := by
      intro a h
      rcases List.mem_cons.1 h with rfl | h
      · dsimp only; rw [place_mem_frame hvtag]; exact htag.2
      · obtain ⟨⟨n, hn⟩, hd⟩ := ha a (.tail _ h)
        by_cases he : tag = (a.1, .xvalue)
        · rw [place_mem_taken (by rw [hn]; simp) (by rw [hvtag, he])]; rfl
        · rw [place_mem_other (.inl (by rw [hn]; simp)) (by rw [hvtag]; simpa using he)]; exact hd
    have hOin : Outside (.inner) (((.outer 0, .xvalue) : Arg) :: args) := by
      intro a h j e
      rcases List.mem_cons.1 h with rfl | h
      · cases e
      · obtain ⟨n, hn⟩ := (ha a (.tail _ h)).1
        rw [hn] at e; cases e
    have hll : ov.params.length = (((.outer 0, .xvalue) : Arg) :: args).length := by simpa using hl
    by_cases h2 : ∃ (i : Nat) (p : PTy) (c : Cat), ov.params[i]? = some p ∧ (Cat.xvalue :: args.map (·.2))[i]? = some c ∧ initNothrow nt p c = false
    · obtain ⟨i, p, c, hp, hc, hi⟩ := h2
      have hm : p.mode = .val := by
        unfold initNothrow at hi
        split at hi
        · assumption
        · cases hi
      have hlt : i < args.length + 1 := by rw [← hl]; exact (List.getElem?_eq_some_iff.1 hp).1
      obtain ⟨a, hga⟩ : ∃ a, (((.outer 0, .xvalue) : Arg) :: args)[i]? = some a := ⟨_, List.getElem?_eq_getElem (by simpa using hlt)⟩
      have hca : c = a.2 := by have := cats_get hga; rw [hc] at this; exact Option.some.inj this
      have hv : valOf ov.params (((.outer 0, .xvalue) : Arg) :: args) i = some a := (valOf_iff _ _ _ _).2 ⟨p, hp, hga, hm⟩
      let sc : Sched := ⟨fun _ => none, fun j => if j = i then some 7 else none, List.range (args.length + 1), List.range (args.length + 1)⟩
      have hh : Honest nt sc tagCls { ov with body := fun _ (s : St V) => (.ret r, s) } tag args := by
        refine ⟨fun h => absurd rfl h, fun j q d hq hd hj _ => ?_, fun _ _ _ _ h => by cases h⟩
        have : j = i := by
          by_contra hne
          exact hj (if_neg hne)
        subst this
        dsimp only at hq
        rw [hp] at hq; rw [hc] at hd
        cases hq; cases hd
        exact (mayThrow_iff.1 hi).2
      refine ⟨sc, fun _ s => (.ret r, s), 7, ⟨.rfl, .rfl⟩, hh, hlift _ _ ⟨.rfl, .rfl⟩ hh ?_⟩
      show (direct ⟨fun _ => none, _, _, _⟩ _ _ _ _ _).1 = _
      rw [hstart]
      obtain ⟨e, s', k1, ⟨k, _, k2⟩, _, k4⟩ := enter_throw (R := R) (th := fun j => if j = i then some 7 else none) inner_inj hll hOin
        (List.range (args.length + 1)) (place .outer [⟨tagCls, .val⟩] [tag] s 0) List.nodup_range (fun j hj => by rw [hl]; simpa using hj)
        ⟨i, by simpa using hlt, a, 7, hv, if_pos rfl⟩ (fun k b hb => hal1 b (valOf_mem hb))
      have he : e = 7 := by
        split at k2
        · exact (Option.some.inj k2).symm
        · cases k2
      subst he
      rw [k1]
      unfold endParam
      rw [if_neg (by simp [Out.isUb]), if_pos (by simp)]
      have hd0 : (s'.mem (.outer 0)).isDead = false := by
        rcases k4 (.outer 0) (fun _ _ _ => by simp) with h | ⟨h, _⟩
        · rw [h]; exact hal1 (.outer 0, .xvalue) (.head _)
        · rw [h]; rfl
      dsimp only
      rw [if_neg (by rw [hd0]; simp)]
    · have hnx : ov.noexcept = false := by
        cases hx : ov.noexcept with
        | false => rfl
        | true =>
          have : fnNoexcept nt ov args = true := callNothrow_iff.2 ⟨hx, fun i p c hp hc => by
            cases hi : initNothrow nt p c with
            | true => rfl
            | false => exact absurd ⟨i, p, c, hp, hc, hi⟩ h2⟩
          rw [this] at hf; cases hf
      let sc : Sched := ⟨fun _ => none, fun _ => none, List.range (args.length + 1), List.range (args.length + 1)⟩
      have hh : Honest nt sc tagCls { ov with body := fun _ (s : St V) => ((.threw 7 : Out R), s) } tag args :=
        ⟨fun h => absurd rfl h, fun _ _ _ _ _ h => absurd rfl h, fun h => by dsimp only at h; rw [hnx] at h; cases h⟩
      refine ⟨sc, fun _ s => (.threw 7, s), 7, ⟨.rfl, .rfl⟩, hh, hlift _ _ ⟨.rfl, .rfl⟩ hh ?_⟩
      show (direct ⟨fun _ => none, _, _, _⟩ _ _ _ _ _).1 = _
      rw [hstart]
      rw [enter_quiet hll hOin _ _ _ (fun j hj => by rw [hl]; simpa using hj) (fun _ _ _ _ => rfl) (fun k b hb => hal1 b (valOf_mem hb))]
      obtain ⟨f1, f2⟩ := foldl_alive (V := V) .inner ov.params (((.outer 0, .xvalue) : Arg) :: args) hOin hll (List.range (args.length + 1))
        (place .outer [⟨tagCls, .val⟩] [tag] s 0) hal1
      obtain ⟨s', e1, _, e3, _⟩ := foldr_endParam (R := R) (V := V) (frame := .inner) (ps := ov.params) inner_inj (List.range (args.length + 1))
        (.threw 7, (List.range (args.length + 1)).foldl (place .inner ov.params (((.outer 0, .xvalue) : Arg) :: args)) (place .outer [⟨tagCls, .val⟩] [tag] s 0))
        List.nodup_range rfl (fun i hi hv => f2 i hi hv)
      rw [e1]
      unfold endParam
      rw [if_neg (by simp [Out.isUb]), if_pos (by simp)]
      dsimp only
      rw [if_neg]
      rw [e3 _ (fun _ _ _ => by simp)]
      rw [f1 _ (hal1 (.outer 0, .xvalue) (.head _))]
      simp

end Main

/-- **C136**, constraints: the call is accepted exactly if the tag can be copied or moved into the function object, the first parameter of the overload
takes an rvalue of it, so is not an lvalue reference to non-const, and each other parameter can be initialized from its argument as in a direct call. -/
theorem invocable_iff (cl : Classes) (tagCls : Nat) (params : List PTy) (tag : Cat) (args : List Cat) :
    Invocable cl tagCls params tag args ↔
      (match tag with | .lvalue => cl.copyable tagCls | .xvalue => cl.movable tagCls) = true ∧
      ∃ p ps, params = p :: ps ∧ p.mode ≠ .lref ∧ (p.mode = .val → cl.movable p.cls = true) ∧ List.Forall₂ (Binds cl) ps args := by
  unfold Invocable
  have h1 : Binds cl ⟨tagCls, .val⟩ tag ↔ (match tag with | .lvalue => cl.copyable tagCls | .xvalue => cl.movable tagCls) = true := by
    cases tag <;> simp [Binds]
  have h2 : ∀ p : PTy, Binds cl p .xvalue ↔ p.mode ≠ .lref ∧ (p.mode = .val → cl.movable p.cls = true) := by
    intro p
    cases hm : p.mode <;> simp [Binds, hm]
  rw [h1]
  refine and_congr_right fun _ => ⟨fun h => ?_, ?_⟩
  · cases h with
    | cons hp hr => exact ⟨_, _, rfl, ((h2 _).1 hp).1, ((h2 _).1 hp).2, hr⟩
  · rintro ⟨p, ps, rfl, hm, hv, hr⟩
    exact .cons ((h2 _).2 ⟨hm, hv⟩) hr

/-! ## An example -/

/-- `guanaqo_tag_invoke(T, X &, X, X &&)`, called with `(t, x1, std::move(x2), std::move(x3))`, adds its arguments to the one given by reference. -/
def exOv : Overload Nat Nat where
  params := [⟨1, .val⟩, ⟨2, .lref⟩, ⟨2, .val⟩, ⟨2, .rref⟩]
  noexcept := false
  body locs s :=
    match locs with
    | [t, .obj n, b, c] =>
      match s.mem t, s.mem (.obj n), s.mem b, s.mem c with
      | .has w, .has x, .has y, .has z => (.ret w, ⟨setMem s.mem (.obj n) (.has (x + y + z)), s.ev⟩)
      | _, _, _, _ => (.threw 1, s)
    | _ => (.threw 2, s)

def exTag : Arg := (.obj 0, .lvalue)

def exArgs : List Arg := [(.obj 1, .lvalue), (.obj 2, .xvalue), (.obj 3, .xvalue)]

/-- Moves of class 1 and all constructors of class 2 can throw. -/
def exNt : Nothrow := ⟨fun c => c == 1, fun _ => false⟩

def exSched : Sched := ⟨fun _ => none, fun _ => none, [2, 0, 3, 1], [3, 1, 0, 2]⟩

def exSt : St Nat := ⟨fun l => match l with | .obj n => .has (n + 10) | _ => .dead, []⟩

theorem exHonest : Honest exNt exSched 1 exOv exTag exArgs :=
  ⟨fun h => absurd rfl h, fun _ _ _ _ _ h => absurd rfl h, fun h => by cases h⟩

example : exSched.ordOuter.Perm (List.range (exArgs.length + 1)) := by decide
example : (tagInvoke exNt exSched 1 exOv exTag exArgs exSt).1 = .ret (.returned 10) := by decide
example : (tagInvoke exNt exSched 1 exOv exTag exArgs exSt).2.mem (.obj 1) = .has 36 := by decide
example : (tagInvoke exNt exSched 1 exOv exTag exArgs exSt).2.mem (.obj 2) = .moved := by decide
example : (tagInvoke exNt exSched 1 exOv exTag exArgs exSt).2.ev =
    [.copy (.obj 0) (.outer 0), .move (.outer 0) (.inner 0), .move (.obj 2) (.inner 2), .destroy (.inner 2), .destroy (.inner 0), .destroy (.outer 0)] := by
  decide
example : NothrowInvocable exNt 1 exOv exTag.2 exArgs = false := by decide
example : exOv.params.length = exArgs.length + 1 := rfl
example : AliveArgs (exTag :: exArgs) exSt := by
  intro a ha
  simp only [exArgs, exTag, List.mem_cons, List.not_mem_nil, or_false] at ha
  rcases ha with rfl | rfl | rfl | rfl <;> exact ⟨⟨_, rfl⟩, rfl⟩
example : Invocable ⟨fun c => c == 1, fun _ => true⟩ 1 exOv.params exTag.2 (exArgs.map (·.2)) :=
  (invocable_iff ..).2 ⟨rfl, _, _, rfl, by decide, fun _ => rfl, .cons trivial (.cons rfl (.cons trivial .nil))⟩

/-- With `noexcept` throughout. -/
example : NothrowInvocable ⟨fun _ => true, fun _ => true⟩ 1 { exOv with noexcept := true } exTag.2 exArgs = true := by decide

/-- A copy of the tag that can throw is not hidden by `noexcept` of the overload: the whole expression is not `noexcept`, and the exception reaches the
caller. -/
example : NothrowInvocable ⟨fun _ => false, fun _ => true⟩ 1 { exOv with noexcept := true } exTag.2 exArgs = false := by decide
example : (tagInvoke ⟨fun _ => false, fun _ => true⟩ ⟨fun i => if i = 0 then some 7 else none, fun _ => none, [0, 1, 2, 3], [0, 1, 2, 3]⟩ 1
    { exOv with noexcept := true } exTag exArgs exSt).1 = .threw 7 := by decide

end Guanaqo.TagInvoke
