import Verif.Base

/-! # The fallback `from_chars` for integers (C65, C86)

`/repo/src/include/guanaqo/from_chars-wrapper.hpp:98-150`. Texts are lists of characters, pointers are indices into them. The library
functions `strtol` and `strtoul` are modelled in full for the bases 2 to 36 (in the "C" locale); `long` has 64 bits and `int` 32.
Characters of which the type is none of the ten (the code does not compile) are left out. -/

namespace Guanaqo.FromChars

/-! ## The C library -/

/-- `isspace` in the "C" locale. -/
def isSpace (c : Char) : Bool := [' ', '\t', '\n', '\x0b', '\x0c', '\r'].contains c

/-- The value of a letter or digit. -/
def digitVal (c : Char) : Nat :=
  if '0' ≤ c ∧ c ≤ '9' then c.toNat - '0'.toNat
  else if 'a' ≤ c ∧ c ≤ 'z' then c.toNat - 'a'.toNat + 10
  else if 'A' ≤ c ∧ c ≤ 'Z' then c.toNat - 'A'.toNat + 10
  else 255

def isDig (base : Nat) (c : Char) : Bool := decide (digitVal c < base)

/-- The value of a sequence of digits. -/
def valueOf (base : Nat) (ds : List Char) : Nat := ds.foldl (fun v c => v * base + digitVal c) 0

/-- The number of characters of a sign. -/
def signLen : List Char → Nat
  | '+' :: _ => 1
  | '-' :: _ => 1
  | _ => 0

/-- The number of characters of `0x`, which counts as a prefix only if a digit follows. -/
def prefixLen (base : Nat) : List Char → Nat
  | '0' :: x :: d :: _ => if base = 16 ∧ (x = 'x' ∨ x = 'X') ∧ isDig 16 d = true then 2 else 0
  | _ => 0

/-- The scan that `strtol` and `strtoul` have in common: whether there is a minus sign, the value of the digits, and the end; none
if there is no number. -/
def scan (base : Nat) (text : List Char) : Option (Bool × Nat × Nat) :=
  let ws := text.takeWhile isSpace
  let r1 := text.drop ws.length
  let sg := signLen r1
  let r2 := r1.drop sg
  let pl := prefixLen base r2
  let ds := (r2.drop pl).takeWhile (isDig base)
  if ds = [] then none else some (r1.head? == some '-', valueOf base ds, ws.length + sg + pl + ds.length)

/-- The outcome of `std::stoi` and its relatives: a number and the end, or an exception. -/
inductive Conv where
  | ok (v : Int) (stop : Nat)
  | invalidArgument
  | outOfRange
  deriving DecidableEq

/-- `std::stol`, `std::stoll`: `strtol` fails (`ERANGE`) if the number does not fit. -/
def stol (base : Nat) (text : List Char) : Conv :=
  match scan base text with
  | none => .invalidArgument
  | some (neg, v, k) =>
    let x : Int := if neg then -(v : Int) else v
    if -2 ^ 63 ≤ x ∧ x < 2 ^ 63 then .ok x k else .outOfRange

/-- `std::stoi`: `strtol`, then a check that the result is in the range of `int`. -/
def stoi (base : Nat) (text : List Char) : Conv :=
  match stol base text with
  | .ok x k => if -2 ^ 31 ≤ x ∧ x < 2 ^ 31 then .ok x k else .outOfRange
  | r => r

/-- `std::stoul`, `std::stoull`: `strtoul` fails if the digits do not fit; a minus sign negates modulo `2 ^ 64`. -/
def stoul (base : Nat) (text : List Char) : Conv :=
  match scan base text with
  | none => .invalidArgument
  | some (neg, v, k) =>
    if v < 2 ^ 64 then .ok (if neg then (-(v : Int)) % 2 ^ 64 else v) k else .outOfRange

/-! ## The wrapper -/

inductive Ty where
  | schar | short | int | long | llong | uchar | ushort | uint | ulong | ullong
  deriving DecidableEq

def Ty.signed : Ty → Bool
  | .schar | .short | .int | .long | .llong => true
  | _ => false

def Ty.bits : Ty → Nat
  | .schar | .uchar => 8
  | .short | .ushort => 16
  | .int | .uint => 32
  | _ => 64

/-- `static_cast` to an integer type: modulo `2 ^ bits`, into the range of the type. -/
def Ty.cast (t : Ty) (x : Int) : Int := if t.signed then Int.bmod x (2 ^ t.bits) else x % 2 ^ t.bits

/-- from_chars-wrapper.hpp:107-145: the call for each type, with the conversion of its result. -/
def convert (t : Ty) (base : Nat) (text : List Char) : Conv :=
  match t with
  | .schar => match stoi base text with | .ok x k => .ok (Ty.schar.cast x) k | r => r
  | .short => match stoi base text with | .ok x k => .ok (Ty.short.cast x) k | r => r
  | .int => stoi base text
  | .long => stol base text
  | .llong => stol base text
  | .uchar => match stoul base text with | .ok x k => .ok (Ty.uchar.cast x) k | r => r
  | .ushort => match stoul base text with | .ok x k => .ok (Ty.ushort.cast x) k | r => r
  | .uint => match stoul base text with | .ok x k => .ok (Ty.uint.cast x) k | r => r
  | .ulong => stoul base text
  | .ullong => stoul base text

inductive Errc where
  | ok | invalidArgument | outOfRange
  deriving DecidableEq

/-- The new value of `value` and the returned `ptr` and `ec`. -/
structure Result where
  value : Int
  ptr : Nat
  ec : Errc
  deriving DecidableEq

/-- from_chars-wrapper.hpp:98-150: `from_chars(first, last, value, base)`. The functions that throw have not set `end_index` (it is
set after the checks), nor `value`. -/
def fromChars (t : Ty) (base : Nat) (text : List Char) (old : Int) : Result :=
  match convert t base text with
  | .ok x k => ⟨x, k, .ok⟩
  | .invalidArgument => ⟨old, 0, .invalidArgument⟩
  | .outOfRange => ⟨old, 0, .outOfRange⟩

/-! ## Specification -/

/-- The numbers of the type. -/
def Ty.Fits (t : Ty) (x : Int) : Prop :=
  if t.signed then -2 ^ (t.bits - 1) ≤ x ∧ x < 2 ^ (t.bits - 1) else 0 ≤ x ∧ x < 2 ^ t.bits

instance (t : Ty) (x : Int) : Decidable (t.Fits x) := by unfold Ty.Fits; infer_instance

/-- A text that is a number, with blanks and a sign in front, as for `strtol`. -/
def IsNumber (base : Nat) (text : List Char) (x : Int) : Prop :=
  ∃ ws sg pre ds, text = ws ++ sg ++ pre ++ ds ∧ (∀ c ∈ ws, isSpace c = true) ∧ (sg = [] ∨ sg = ['+'] ∨ sg = ['-']) ∧
    (pre = [] ∨ base = 16 ∧ (pre = ['0', 'x'] ∨ pre = ['0', 'X'])) ∧ ds ≠ [] ∧ (∀ c ∈ ds, isDig base c = true) ∧
    x = if sg = ['-'] then -(valueOf base ds : Int) else valueOf base ds

/-- A text that is a number for `std::from_chars`: only a minus sign, and only for signed types. -/
def IsStdNumber (signed : Bool) (base : Nat) (text : List Char) (x : Int) : Prop :=
  ∃ sg ds, text = sg ++ ds ∧ (sg = [] ∨ signed = true ∧ sg = ['-']) ∧ ds ≠ [] ∧ (∀ c ∈ ds, isDig base c = true) ∧
    x = if sg = ['-'] then -(valueOf base ds : Int) else valueOf base ds

/-- The first `k` characters are the longest number that the text starts with. -/
def Longest (P : List Char → Int → Prop) (text : List Char) (k : Nat) (x : Int) : Prop :=
  k ≤ text.length ∧ P (text.take k) x ∧ ∀ k', k < k' → k' ≤ text.length → ∀ y, ¬ P (text.take k') y

/-- C65, in full: the number that the text starts with, or an error: none, or one that does not fit. -/
def NeverWrapped : Prop := ∀ (t : Ty) (base : Nat) (text : List Char) (old : Int), 2 ≤ base → base ≤ 36 →
  ((∀ k x, ¬ IsNumber base (text.take k) x) → fromChars t base text old = ⟨old, 0, .invalidArgument⟩) ∧
  (∀ k x, Longest (IsNumber base) text k x → t.Fits x → fromChars t base text old = ⟨x, k, .ok⟩) ∧
  (∀ k x, Longest (IsNumber base) text k x → ¬ t.Fits x →
    (fromChars t base text old).value = old ∧ (fromChars t base text old).ec = .outOfRange)

/-- C86, in full: the result of `std::from_chars` ([charconv.from.chars]). -/
def SameAsStd : Prop := ∀ (t : Ty) (base : Nat) (text : List Char) (old : Int), 2 ≤ base → base ≤ 36 →
  ((∀ k x, ¬ IsStdNumber t.signed base (text.take k) x) → fromChars t base text old = ⟨old, 0, .invalidArgument⟩) ∧
  (∀ k x, Longest (IsStdNumber t.signed base) text k x → t.Fits x → fromChars t base text old = ⟨x, k, .ok⟩) ∧
  (∀ k x, Longest (IsStdNumber t.signed base) text k x → ¬ t.Fits x → fromChars t base text old = ⟨old, k, .outOfRange⟩)

/-! ## The scan finds the longest number -/

theorem takeWhile_decomp (p : Char → Bool) (text : List Char) :
    text = text.takeWhile p ++ text.drop (text.takeWhile p).length ∧
    (∀ c ∈ text.takeWhile p, p c = true) ∧ (∀ c r, text.drop (text.takeWhile p).length = c :: r → p c = false) := by
  induction text with
  | nil => simp
  | cons a l ih =>
    obtain ⟨h1, h2, h3⟩ := ih
    by_cases ha : p a = true
    · simp only [List.takeWhile_cons, ha, if_true, List.length_cons, List.drop_succ_cons, List.cons_append]
      exact ⟨by rw [← h1], by simpa [ha] using h2, h3⟩
    · simp [ha]

/-- A prefix of characters with `p`, followed by something that does not start with one, is unique. -/
theorem prefix_unique {p : Char → Bool} : ∀ {a b r s : List Char}, a ++ r = b ++ s → (∀ c ∈ a, p c = true) → (∀ c ∈ b, p c = true) →
    (∀ c t, r = c :: t → p c = false) → (∀ c t, s = c :: t → p c = false) → a = b ∧ r = s := by
  intro a
  induction a with
  | nil =>
    intro b r s h _ hb hr _
    cases b with
    | nil => exact ⟨rfl, h⟩
    | cons c b =>
      have := hr c _ h
      rw [hb c (by simp)] at this; cases this
  | cons x a ih =>
    intro b r s h ha hb hr hs
    cases b with
    | nil =>
      have := hs x _ h.symm
      rw [ha x (by simp)] at this; cases this
    | cons c b =>
      simp only [List.cons_append, List.cons.injEq] at h
      obtain ⟨rfl, h⟩ := h
      obtain ⟨rfl, rfl⟩ := ih h (fun c hc => ha c (by simp [hc])) (fun c hc => hb c (by simp [hc])) hr hs
      exact ⟨rfl, rfl⟩

theorem signLen_cases (r : List Char) :
    (r.take (signLen r) = [] ∧ signLen r = 0 ∧ r.head? ≠ some '+' ∧ r.head? ≠ some '-') ∨
    (r.take (signLen r) = ['+'] ∧ signLen r = 1 ∧ r.head? = some '+') ∨ (r.take (signLen r) = ['-'] ∧ signLen r = 1 ∧ r.head? = some '-') := by
  match r with
  | [] => left; simp [signLen]
  | c :: r =>
    by_cases h1 : c = '+'
    · subst h1; right; left; simp [signLen]
    · by_cases h2 : c = '-'
      · subst h2; right; right; simp [signLen]
      · left
        rw [signLen.eq_def]
        split <;> simp_all

theorem prefixLen_cases (base : Nat) (r : List Char) :
    (prefixLen base r = 0 ∧ ∀ x d t, r = '0' :: x :: d :: t → base = 16 → (x = 'x' ∨ x = 'X') → isDig 16 d = false) ∨
    (prefixLen base r = 2 ∧ base = 16 ∧ ∃ x d t, r = '0' :: x :: d :: t ∧ (x = 'x' ∨ x = 'X') ∧ isDig 16 d = true) := by
  rw [prefixLen.eq_def]
  split
  · rename_i x d t
    split
    · rename_i h
      exact Or.inr ⟨rfl, h.1, x, d, t, rfl, h.2.1, h.2.2⟩
    · rename_i h
      refine Or.inl ⟨rfl, fun x' d' t' e hb hx => ?_⟩
      cases e
      cases hd : isDig 16 d
      · rfl
      · exact absurd ⟨hb, hx, hd⟩ h
  · rename_i h
    refine Or.inl ⟨rfl, fun x d t e => ?_⟩
    exact absurd e (h x d t)

theorem space_not_dig {base : Nat} (hb : base ≤ 36) {c : Char} (h : isDig base c = true) : isSpace c = false := by
  cases hs : isSpace c with
  | false => rfl
  | true =>
    exfalso
    simp only [isSpace, List.contains_iff_mem, List.mem_cons, List.not_mem_nil, or_false] at hs
    simp only [isDig, decide_eq_true_eq] at h
    have h' : digitVal c < 36 := by omega
    rcases hs with rfl | rfl | rfl | rfl | rfl | rfl <;> exact absurd h' (by decide)

theorem sign_not_dig {base : Nat} (hb : base ≤ 36) : isDig base '+' = false ∧ isDig base '-' = false := by
  have h1 : digitVal '+' = 255 := by decide
  have h2 : digitVal '-' = 255 := by decide
  simp [isDig, h1, h2]; omega

theorem x_not_dig : isDig 16 'x' = false ∧ isDig 16 'X' = false := by decide

/-- A sequence of digits that the text starts with is part of the longest one. -/
theorem takeWhile_longest {p : Char → Bool} : ∀ {ds rest : List Char}, (∀ c ∈ ds, p c = true) →
    ∃ e, (ds ++ rest).takeWhile p = ds ++ e := by
  intro ds
  induction ds with
  | nil => intro rest _; exact ⟨_, rfl⟩
  | cons c ds ih =>
    intro rest h
    obtain ⟨e, he⟩ := ih (rest := rest) (fun c hc => h c (by simp [hc]))
    exact ⟨e, by simp [h c (by simp), he]⟩

/-- The number with the sign. -/
def signedVal (neg : Bool) (v : Nat) : Int := if neg then -(v : Int) else v

/-- Any number that the text starts with ends no later than the scan, and is the scanned number if it ends there. -/
theorem scan_max {base : Nat} (h2 : 2 ≤ base) (hb : base ≤ 36) {text ws sg pre ds rest : List Char}
    (ht : text = ws ++ (sg ++ (pre ++ (ds ++ rest)))) (hws : ∀ c ∈ ws, isSpace c = true) (hsg : sg = [] ∨ sg = ['+'] ∨ sg = ['-'])
    (hpre : pre = [] ∨ base = 16 ∧ (pre = ['0', 'x'] ∨ pre = ['0', 'X'])) (hds : ds ≠ []) (hdd : ∀ c ∈ ds, isDig base c = true) :
    ∃ neg v k, scan base text = some (neg, v, k) ∧ (ws ++ sg ++ pre ++ ds).length ≤ k ∧
      ((ws ++ sg ++ pre ++ ds).length = k → (if sg = ['-'] then -(valueOf base ds : Int) else valueOf base ds) = signedVal neg v) := by
  have h0 : isDig base '0' = true := by
    have : digitVal '0' = 0 := by decide
    simp [isDig, this]; omega
  obtain ⟨d0, dt, rfl⟩ : ∃ d0 dt, ds = d0 :: dt := by
    cases ds with
    | nil => exact absurd rfl hds
    | cons a b => exact ⟨a, b, rfl⟩
  -- the head of what follows the blanks
  have hhead : ∀ c t, pre ++ (d0 :: dt ++ rest) = c :: t → isDig base c = true := by
    intro c t e
    rcases hpre with rfl | ⟨rfl, rfl | rfl⟩
    · cases e; exact hdd _ (by simp)
    · cases e; exact h0
    · cases e; exact h0
  have hns : ∀ c t, sg ++ (pre ++ (d0 :: dt ++ rest)) = c :: t → isSpace c = false := by
    intro c t e
    rcases hsg with rfl | rfl | rfl
    · exact space_not_dig hb (hhead c t e)
    · cases e; decide
    · cases e; decide
  obtain ⟨t1, t2, t3⟩ := takeWhile_decomp isSpace text
  obtain ⟨e1, e2⟩ := prefix_unique (t1.symm.trans ht) t2 hws t3 hns
  -- the sign
  have hsl : signLen (sg ++ (pre ++ (d0 :: dt ++ rest))) = sg.length ∧
      ((sg ++ (pre ++ (d0 :: dt ++ rest))).head? == some '-') = decide (sg = ['-']) := by
    rcases hsg with rfl | rfl | rfl
    · rcases signLen_cases ([] ++ (pre ++ (d0 :: dt ++ rest))) with ⟨-, h, -, h'⟩ | ⟨-, -, h⟩ | ⟨-, -, h⟩
      · refine ⟨h, ?_⟩
        simp only [reduceCtorEq, decide_false, beq_eq_false_iff_ne]
        exact h'
      all_goals
        exfalso
        cases hq : ([] ++ (pre ++ (d0 :: dt ++ rest))) with
        | nil => rw [hq] at h; cases h
        | cons c t =>
          rw [hq] at h; cases h
          have h3 := hhead _ t hq
          first
            | (rw [(sign_not_dig hb).1] at h3; cases h3)
            | (rw [(sign_not_dig hb).2] at h3; cases h3)
    · simp [signLen]
    · simp [signLen]
  have hpl : (prefixLen base (pre ++ (d0 :: dt ++ rest)) = pre.length) ∨
      (prefixLen base (pre ++ (d0 :: dt ++ rest)) = 2 ∧ base = 16 ∧ pre = [] ∧ dt = [] ∧ ∃ d t, rest = d :: t ∧
        ∃ d' t', t = d' :: t' ∧ isDig 16 d' = true) := by
    rcases prefixLen_cases base (pre ++ (d0 :: dt ++ rest)) with ⟨h, h'⟩ | ⟨h, rfl, x, d, t, h3, h4, h5⟩
    · left
      rcases hpre with rfl | ⟨rfl, hp⟩
      · exact h
      · exfalso
        have hd0 := hdd d0 (by simp)
        rcases hp with rfl | rfl
        · have := h' 'x' d0 (dt ++ rest) rfl rfl (Or.inl rfl); rw [hd0] at this; cases this
        · have := h' 'X' d0 (dt ++ rest) rfl rfl (Or.inr rfl); rw [hd0] at this; cases this
    · rcases hpre with rfl | ⟨-, hp⟩
      · right
        refine ⟨h, rfl, rfl, ?_⟩
        simp only [List.nil_append, List.cons_append, List.cons.injEq] at h3
        obtain ⟨rfl, h3⟩ := h3
        cases dt with
        | nil => exact ⟨rfl, x, d :: t, h3, d, t, rfl, h5⟩
        | cons c dt =>
          exfalso
          simp only [List.cons_append, List.cons.injEq] at h3
          obtain ⟨rfl, -⟩ := h3
          have hx := hdd c (by simp)
          rcases h4 with rfl | rfl <;> simp [x_not_dig] at hx
      · left; rcases hp with rfl | rfl <;> simpa using h
  rw [e1] at e2
  unfold scan
  dsimp only
  rw [e1, e2, hsl.1, hsl.2, List.drop_left]
  rcases hpl with hpl | ⟨hpl, rfl, rfl, rfl, d, t, rfl, d', t', rfl, hd'⟩
  · rw [hpl, List.drop_left]
    obtain ⟨e, he⟩ := takeWhile_longest (rest := rest) hdd
    rw [he]
    refine ⟨_, _, _, if_neg (by simp), ?_, ?_⟩
    · simp; omega
    · intro hl
      have : e = [] := by
        apply List.eq_nil_of_length_eq_zero
        simp at hl; omega
      subst this
      simp only [List.append_nil, signedVal, decide_eq_true_eq]
  · rw [hpl]
    obtain ⟨e, he⟩ := takeWhile_longest (p := isDig 16) (ds := [d']) (rest := t') (by simpa using hd')
    have hq : ([] ++ ([d0] ++ d :: d' :: t')).drop 2 = [d'] ++ t' := rfl
    rw [hq, he]
    refine ⟨_, _, _, if_neg (by simp), ?_, ?_⟩
    · simp; omega
    · intro hl; simp at hl; omega

/-- What is scanned is a number. -/
theorem scan_number {base : Nat} {text : List Char} {neg : Bool} {v k : Nat} (h : scan base text = some (neg, v, k)) :
    k ≤ text.length ∧ IsNumber base (text.take k) (signedVal neg v) := by
  unfold scan at h
  dsimp only at h
  split at h
  · cases h
  · rename_i hds
    simp only [Option.some.injEq, Prod.mk.injEq] at h
    obtain ⟨h1, h2, h3⟩ := h
    obtain ⟨t1, t2, -⟩ := takeWhile_decomp isSpace text
    generalize text.takeWhile isSpace = ws at *
    generalize text.drop ws.length = r1 at *
    have a1 : r1 = r1.take (signLen r1) ++ r1.drop (signLen r1) := (List.take_append_drop _ _).symm
    have a2 : (r1.take (signLen r1)).length = signLen r1 := by
      rcases signLen_cases r1 with ⟨a, b, -⟩ | ⟨a, b, -⟩ | ⟨a, b, -⟩ <;> rw [a, b] <;> rfl
    generalize hr2 : r1.drop (signLen r1) = r2 at *
    have b1 : r2 = r2.take (prefixLen base r2) ++ r2.drop (prefixLen base r2) := (List.take_append_drop _ _).symm
    have b2 : (r2.take (prefixLen base r2)).length = prefixLen base r2 := by
      rcases prefixLen_cases base r2 with ⟨a, -⟩ | ⟨a, -, x, d, t, rfl, -⟩ <;> rw [a] <;> simp
    obtain ⟨c1, c2, -⟩ := takeWhile_decomp (isDig base) (r2.drop (prefixLen base r2))
    generalize hds' : (r2.drop (prefixLen base r2)).takeWhile (isDig base) = ds at *
    have hk : text.take k = ws ++ r1.take (signLen r1) ++ r2.take (prefixLen base r2) ++ ds ∧ k ≤ text.length := by
      have ht : text = (ws ++ r1.take (signLen r1) ++ r2.take (prefixLen base r2) ++ ds) ++
          (r2.drop (prefixLen base r2)).drop ds.length := by
        rw [List.append_assoc, ← c1, List.append_assoc, ← b1, List.append_assoc, ← a1, ← t1]
      have hl : (ws ++ r1.take (signLen r1) ++ r2.take (prefixLen base r2) ++ ds).length = k := by
        simp only [List.length_append, a2, b2, ← h3]
      constructor
      · have h5 := congrArg (List.take k) ht
        rw [h5, ← hl, List.take_left]
      · have h5 := congrArg List.length ht
        rw [List.length_append, hl] at h5; omega
    refine ⟨hk.2, ws, _, _, ds, hk.1, t2, ?_, ?_, hds, c2, ?_⟩
    · rcases signLen_cases r1 with ⟨a, -⟩ | ⟨a, -⟩ | ⟨a, -⟩ <;> rw [a] <;> simp
    · rcases prefixLen_cases base r2 with ⟨a, -⟩ | ⟨a, hb, x, d, t, rfl, hx, -⟩
      · left; rw [a]; rfl
      · right
        refine ⟨hb, ?_⟩
        rw [a]
        rcases hx with rfl | rfl <;> simp
    · rw [← h1, ← h2]
      unfold signedVal
      rcases signLen_cases r1 with ⟨a, -, b, c⟩ | ⟨a, -, b⟩ | ⟨a, -, b⟩
      · rw [a]
        have : (r1.head? == some '-') = false := by simpa using c
        rw [this]; simp
      · rw [a, b]; simp
      · rw [a, b]; simp

/-- The scan gives the longest number that the text starts with, if there is one. -/
theorem scan_longest {base : Nat} (h2 : 2 ≤ base) (hb : base ≤ 36) (text : List Char) :
    (scan base text = none → ∀ k x, ¬ IsNumber base (text.take k) x) ∧
    (∀ neg v k, scan base text = some (neg, v, k) → Longest (IsNumber base) text k (signedVal neg v)) ∧
    (∀ k x, Longest (IsNumber base) text k x → ∃ neg v, scan base text = some (neg, v, k) ∧ x = signedVal neg v) := by
  have key : ∀ k x, k ≤ text.length → IsNumber base (text.take k) x →
      ∃ neg v k', scan base text = some (neg, v, k') ∧ k ≤ k' ∧ (k = k' → x = signedVal neg v) := by
    rintro k x hk ⟨ws, sg, pre, ds, a1, a2, a3, a4, a5, a6, a7⟩
    have hl : (ws ++ sg ++ pre ++ ds).length = k := by rw [← a1, List.length_take]; omega
    obtain ⟨neg, v, k', b1, b2, b3⟩ := scan_max h2 hb (rest := text.drop k)
      (by rw [← List.append_assoc pre, ← List.append_assoc sg, ← List.append_assoc ws, ← List.append_assoc sg, ← List.append_assoc ws,
            ← List.append_assoc ws, ← a1, List.take_append_drop]) a2 a3 a4 a5 a6
    rw [hl] at b2 b3
    exact ⟨neg, v, k', b1, b2, fun e => a7.trans (b3 e)⟩
  refine ⟨?_, ?_, ?_⟩
  · intro hn k x hx
    by_cases hk : k ≤ text.length
    · obtain ⟨_, _, _, h, -⟩ := key k x hk hx
      rw [hn] at h; cases h
    · rw [List.take_of_length_le (by omega), ← List.take_of_length_le (Nat.le_refl text.length)] at hx
      obtain ⟨_, _, _, h, -⟩ := key text.length x (Nat.le_refl _) hx
      rw [hn] at h; cases h
  · intro neg v k h
    obtain ⟨a, b⟩ := scan_number h
    refine ⟨a, b, fun k' hk' hk'' y hy => ?_⟩
    obtain ⟨_, _, k2, c1, c2, -⟩ := key k' y hk'' hy
    rw [h] at c1; cases c1; omega
  · rintro k x ⟨hk, hx, hmax⟩
    obtain ⟨neg, v, k', c1, c2, c3⟩ := key k x hk hx
    have hkk : k = k' := by
      obtain ⟨a, b⟩ := scan_number c1
      rcases Nat.lt_or_ge k k' with h | h
      · exact absurd b (hmax k' h a _)
      · omega
    subst hkk
    exact ⟨neg, v, c1, c3 rfl⟩

/-! ## C65 -/

/-- The types for which the number is never wrapped, whatever the sign: those that are not narrowed after the conversion. -/
def Ty.exact : Ty → Bool
  | .int | .long | .llong => true
  | _ => false

theorem stol_val {base : Nat} {text : List Char} {neg : Bool} {v k : Nat} (h : scan base text = some (neg, v, k)) :
    stol base text = if -2 ^ 63 ≤ signedVal neg v ∧ signedVal neg v < 2 ^ 63 then .ok (signedVal neg v) k else .outOfRange := by
  unfold stol; rw [h]; rfl

theorem stoi_val {base : Nat} {text : List Char} {neg : Bool} {v k : Nat} (h : scan base text = some (neg, v, k)) :
    stoi base text = if -2 ^ 31 ≤ signedVal neg v ∧ signedVal neg v < 2 ^ 31 then .ok (signedVal neg v) k else .outOfRange := by
  unfold stoi; rw [stol_val h]
  by_cases h1 : -2 ^ 31 ≤ signedVal neg v ∧ signedVal neg v < 2 ^ 31
  · rw [if_pos ⟨by omega, by omega⟩]
  · by_cases h2 : -2 ^ 63 ≤ signedVal neg v ∧ signedVal neg v < 2 ^ 63
    · rw [if_pos h2]
    · rw [if_neg h2, if_neg h1]

theorem stoul_val {base : Nat} {text : List Char} {v k : Nat} (h : scan base text = some (false, v, k)) :
    stoul base text = if v < 2 ^ 64 then .ok (signedVal false v) k else .outOfRange := by
  unfold stoul; rw [h]; rfl

/-- C65. If the text does not start with a number, the result is an error. A number that fits is converted exactly. A number that
does not fit is reported for `int`, `long`, `long long`, and, if it is not negative, for `unsigned long` and `unsigned long long`.
Missing: numbers that do not fit for the other types, which are wrapped (see below). -/
theorem never_wrapped_partial (t : Ty) (base : Nat) (text : List Char) (old : Int) (h2 : 2 ≤ base) (hb : base ≤ 36) :
    ((∀ k x, ¬ IsNumber base (text.take k) x) → fromChars t base text old = ⟨old, 0, .invalidArgument⟩) ∧
    (∀ k x, Longest (IsNumber base) text k x → t.Fits x → fromChars t base text old = ⟨x, k, .ok⟩) ∧
    (∀ k x, Longest (IsNumber base) text k x → ¬ t.Fits x → (t.exact = true ∨ (t = .ulong ∨ t = .ullong) ∧ 0 ≤ x) →
      fromChars t base text old = ⟨old, 0, .outOfRange⟩) := by
  obtain ⟨s1, s2, s3⟩ := scan_longest h2 hb text
  refine ⟨fun hn => ?_, fun k x hl hf => ?_, fun k x hl hf ht => ?_⟩
  · have hs : scan base text = none := by
      cases hs : scan base text with
      | none => rfl
      | some q =>
        obtain ⟨neg, v, k⟩ := q
        exact absurd (scan_number hs).2 (hn _ _)
    unfold fromChars
    cases t <;> simp [convert, stoi, stol, stoul, hs]
  · obtain ⟨neg, v, hs, rfl⟩ := s3 k x hl
    unfold fromChars
    cases t <;> simp only [Ty.Fits, Ty.signed, Ty.bits, if_true, Bool.false_eq_true, if_false] at hf <;>
      simp only [convert]
    · rw [stoi_val hs, if_pos (by omega)]
      simp only [Ty.cast, Ty.signed, Ty.bits, if_true]
      congr 1; rw [Int.bmod_def]; split <;> omega
    · rw [stoi_val hs, if_pos (by omega)]
      simp only [Ty.cast, Ty.signed, Ty.bits, if_true]
      congr 1; rw [Int.bmod_def]; split <;> omega
    · rw [stoi_val hs, if_pos (by omega)]
    · rw [stol_val hs, if_pos (by omega)]
    · rw [stol_val hs, if_pos (by omega)]
    all_goals
      have hv : stoul base text = .ok (signedVal neg v) k := by
        cases neg with
        | false =>
          rw [stoul_val hs, if_pos]
          simp only [signedVal, Bool.false_eq_true, if_false] at hf; omega
        | true =>
          have hv : v = 0 := by simp only [signedVal, if_true] at hf; omega
          subst hv
          unfold stoul; rw [hs]; rfl
      rw [hv]
    all_goals
      simp only [Ty.cast, Ty.signed, Ty.bits, Bool.false_eq_true, if_false]
      congr 1; omega
  · obtain ⟨neg, v, hs, rfl⟩ := s3 k x hl
    unfold fromChars
    rcases ht with ht | ⟨ht, hx⟩
    · cases t <;> cases ht <;> simp only [Ty.Fits, Ty.signed, Ty.bits, if_true] at hf <;> simp only [convert]
      · rw [stoi_val hs, if_neg (by omega)]
      · rw [stol_val hs, if_neg (by omega)]
      · rw [stol_val hs, if_neg (by omega)]
    · have hv : stoul base text = .outOfRange := by
        cases neg with
        | false =>
          rw [stoul_val hs, if_neg]
          rcases ht with rfl | rfl <;>
            simp only [Ty.Fits, Ty.signed, Ty.bits, if_false, Bool.false_eq_true, signedVal] at hf <;> omega
        | true =>
          have hv : v = 0 := by simp only [signedVal, if_true] at hx; omega
          subst hv
          rcases ht with rfl | rfl <;> exact absurd (by decide) hf
      rcases ht with rfl | rfl <;> simp [convert, hv]

theorem longest_of_scan {base : Nat} (h2 : 2 ≤ base) (hb : base ≤ 36) {text : List Char} {neg : Bool} {v k : Nat} {x : Int}
    (h : scan base text = some (neg, v, k)) (hx : signedVal neg v = x) : Longest (IsNumber base) text k x :=
  hx ▸ (scan_longest h2 hb text).2.1 neg v k h

/-- False: 256 becomes 0 for `unsigned char`. -/
theorem not_neverWrapped : ¬ NeverWrapped := by
  intro h
  have := (h .uchar 10 "256".toList 7 (by decide) (by decide)).2.2 3 256
    (longest_of_scan (neg := false) (v := 256) (by decide) (by decide) (by decide +kernel) rfl) (by decide)
  exact absurd this.2 (by decide +kernel)

/-- More numbers that are wrapped: 70000 for `short`, 300 for `signed char`, and -1 for `unsigned int` and `unsigned long`. -/
theorem wrapped_examples :
    fromChars .short 10 "70000".toList 7 = ⟨4464, 5, .ok⟩ ∧ fromChars .schar 10 "300".toList 7 = ⟨44, 3, .ok⟩ ∧
    fromChars .uint 10 "-1".toList 7 = ⟨2 ^ 32 - 1, 2, .ok⟩ ∧ fromChars .ulong 10 "-1".toList 7 = ⟨2 ^ 64 - 1, 2, .ok⟩ := by
  decide +kernel

/-! ## C86 -/

/-- The text does not start with a blank, a plus sign, (for unsigned types) a minus sign, or `0x` after the sign. -/
def Plain (signed : Bool) (base : Nat) (text : List Char) : Prop :=
  (∀ c, text.head? = some c → isSpace c = false ∧ c ≠ '+' ∧ (signed = false → c ≠ '-')) ∧
  (base = 16 → ∀ r, (text = '0' :: 'x' :: r ∨ text = '0' :: 'X' :: r ∨ text = '-' :: '0' :: 'x' :: r ∨ text = '-' :: '0' :: 'X' :: r) → False)

/-- For plain texts, the numbers are those of `std::from_chars`. -/
theorem std_of_plain {signed : Bool} {base : Nat} {text : List Char} (hp : Plain signed base text) (k : Nat) (x : Int) :
    IsNumber base (text.take k) x ↔ IsStdNumber signed base (text.take k) x := by
  constructor
  · rintro ⟨ws, sg, pre, ds, a1, a2, a3, a4, a5, a6, a7⟩
    have htext : text = ws ++ (sg ++ (pre ++ (ds ++ text.drop k))) := by
      rw [← List.append_assoc pre, ← List.append_assoc sg, ← List.append_assoc ws, ← List.append_assoc sg, ← List.append_assoc ws,
            ← List.append_assoc ws, ← a1, List.take_append_drop]
    have hw : ws = [] := by
      cases ws with
      | nil => rfl
      | cons c ws =>
        have := (hp.1 c (by rw [htext]; rfl)).1
        rw [a2 c (by simp)] at this; cases this
    subst hw
    have hs : sg = [] ∨ signed = true ∧ sg = ['-'] := by
      rcases a3 with rfl | rfl | rfl
      · exact Or.inl rfl
      · exact absurd rfl (hp.1 '+' (by rw [htext]; rfl)).2.1
      · refine Or.inr ⟨?_, rfl⟩
        cases hsg : signed with
        | true => rfl
        | false => exact absurd rfl ((hp.1 '-' (by rw [htext]; rfl)).2.2 hsg)
    have hpre : pre = [] := by
      rcases a4 with rfl | ⟨hb, hq⟩
      · rfl
      · exfalso
        apply hp.2 hb (ds ++ text.drop k)
        rcases hs with rfl | ⟨-, rfl⟩ <;> rcases hq with rfl | rfl
        · exact Or.inl htext
        · exact Or.inr (Or.inl htext)
        · exact Or.inr (Or.inr (Or.inl htext))
        · exact Or.inr (Or.inr (Or.inr htext))
    subst hpre
    exact ⟨sg, ds, by simpa using a1, hs, a5, a6, a7⟩
  · rintro ⟨sg, ds, a1, a2, a3, a4, a5⟩
    refine ⟨[], sg, [], ds, by simpa using a1, by simp, ?_, Or.inl rfl, a3, a4, a5⟩
    rcases a2 with rfl | ⟨-, rfl⟩ <;> simp

theorem longest_std {signed : Bool} {base : Nat} {text : List Char} (hp : Plain signed base text) (k : Nat) (x : Int) :
    Longest (IsNumber base) text k x ↔ Longest (IsStdNumber signed base) text k x := by
  unfold Longest
  rw [std_of_plain hp]
  constructor
  · rintro ⟨a, b, c⟩
    exact ⟨a, b, fun k' h h' y hy => c k' h h' y ((std_of_plain hp k' y).2 hy)⟩
  · rintro ⟨a, b, c⟩
    exact ⟨a, b, fun k' h h' y hy => c k' h h' y ((std_of_plain hp k' y).1 hy)⟩

/-- C86. For texts that do not start with a blank, a plus sign, (for unsigned types) a minus sign or `0x`, a number that fits is
converted, with the same end, and a text that does not start with a number is reported, as with `std::from_chars`. For `int`, `long`
and their unsigned and longer relatives except `unsigned int`, a number that does not fit is reported too. Missing: the other texts,
narrow types, and the returned pointer for numbers that do not fit. -/
theorem same_as_std_partial (t : Ty) (base : Nat) (text : List Char) (old : Int) (h2 : 2 ≤ base) (hb : base ≤ 36)
    (hp : Plain t.signed base text) :
    ((∀ k x, ¬ IsStdNumber t.signed base (text.take k) x) → fromChars t base text old = ⟨old, 0, .invalidArgument⟩) ∧
    (∀ k x, Longest (IsStdNumber t.signed base) text k x → t.Fits x → fromChars t base text old = ⟨x, k, .ok⟩) ∧
    (∀ k x, Longest (IsStdNumber t.signed base) text k x → ¬ t.Fits x → (t.exact = true ∨ t = .ulong ∨ t = .ullong) →
      (fromChars t base text old).value = old ∧ (fromChars t base text old).ec = .outOfRange) := by
  obtain ⟨a, b, c⟩ := never_wrapped_partial t base text old h2 hb
  refine ⟨fun h => a fun k x hx => h k x ((std_of_plain hp k x).1 hx), fun k x h => b k x ((longest_std hp k x).2 h), ?_⟩
  intro k x h hf ht
  have : t.exact = true ∨ (t = .ulong ∨ t = .ullong) ∧ 0 ≤ x := by
    rcases ht with ht | ht
    · exact Or.inl ht
    · refine Or.inr ⟨ht, ?_⟩
      obtain ⟨-, ⟨sg, ds, b1, b2, -, -, b5⟩, -⟩ := h
      have hsg : t.signed = false := by rcases ht with rfl | rfl <;> rfl
      rcases b2 with rfl | ⟨e, -⟩
      · rw [b5]; simp
      · rw [hsg] at e; cases e
  rw [c k x ((longest_std hp k x).2 h) hf this]
  exact ⟨rfl, rfl⟩

/-- False: a blank in front is skipped. -/
theorem not_sameAsStd : ¬ SameAsStd := by
  intro h
  have := (h .int 10 " 5".toList 7 (by decide) (by decide)).1 (by
    rintro k x ⟨sg, ds, a1, a2, a3, a4, -⟩
    cases k with
    | zero =>
      rcases a2 with rfl | ⟨-, rfl⟩
      · simp at a1; exact a3 a1
      · simp at a1
    | succ k =>
      rcases a2 with rfl | ⟨-, rfl⟩
      · have : ' ' ∈ ds := by
          have e : ds = ' ' :: "5".toList.take k := by simpa using a1.symm
          rw [e]; simp
        exact absurd (a4 _ this) (by decide)
      · simp at a1)
  exact absurd this (by decide +kernel)

example : Plain true 10 "-128 apples".toList ∧ fromChars .schar 10 "-128 apples".toList 7 = ⟨-128, 4, .ok⟩ := by
  refine ⟨⟨fun c hc => ?_, fun h => absurd h (by decide)⟩, by decide +kernel⟩
  cases hc; decide

example : fromChars .long 16 " +0xfFg".toList 7 = ⟨255, 6, .ok⟩ ∧ fromChars .int 10 "2147483648".toList 7 = ⟨7, 0, .outOfRange⟩ ∧
    fromChars .int 16 "0xg".toList 7 = ⟨0, 1, .ok⟩ ∧ fromChars .uint 10 "x".toList 7 = ⟨7, 0, .invalidArgument⟩ := by decide +kernel

end Guanaqo.FromChars
