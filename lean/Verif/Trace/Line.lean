import Verif.Trace.Model
import Verif.Print.Model

/-! # The text of a record (C62): trace.hpp:108-118

Names and lines are lists of characters. The integers are written with the default format of the stream. -/

namespace Guanaqo.Trace

open Guanaqo.Print (showNat showInt)

/-- The characters that `std::quoted` marks. -/
def special (c : Char) : Bool := c == '"' || c == '\\'

/-- `os << std::quoted(name)`: the characters between double quotes, with a backslash before each double quote and each
backslash. -/
def quoted (name : List Char) : List Char :=
  '"' :: name.flatMap (fun c => if special c then ['\\', c] else [c]) ++ ['"']

/-- trace.hpp:108-112: `operator<<(std::ostream &, const Log &)`. -/
def line (name : List Char) (l : Log) : List Char :=
  quoted name ++ [','] ++ showInt l.inst ++ [','] ++ showInt l.start ++ [','] ++ showInt l.duration ++ [','] ++ showNat l.tid ++ [','] ++
    showInt l.flop

/-- trace.hpp:115-118: `write_column_headings`. -/
def headings : List Char := "name,instance,start_time,duration,thread_id,flop_count".toList

/-! ## Specification: reading -/

/-- The inside of a quoted string (`is >> std::quoted(s)`): up to the first double quote that is not marked. The rest follows
it. -/
def unquoteTail : List Char → Option (List Char × List Char)
  | [] => none
  | '\\' :: c :: cs => (unquoteTail cs).map fun (s, r) => (c :: s, r)
  | '\\' :: [] => none
  | '"' :: cs => some ([], cs)
  | c :: cs => (unquoteTail cs).map fun (s, r) => (c :: s, r)

def unquote : List Char → Option (List Char × List Char)
  | '"' :: cs => unquoteTail cs
  | _ => none

theorem unquoteTail_special {c : Char} (_h : special c = true) (cs : List Char) :
    unquoteTail ('\\' :: c :: cs) = (unquoteTail cs).map fun (s, r) => (c :: s, r) := by
  simp [unquoteTail]

theorem unquoteTail_plain {c : Char} (h : special c = false) (cs : List Char) :
    unquoteTail (c :: cs) = (unquoteTail cs).map fun (s, r) => (c :: s, r) := by
  simp [special] at h
  rw [unquoteTail.eq_def]
  split <;> simp_all

theorem unquote_body (name rest : List Char) :
    unquoteTail (name.flatMap (fun c => if special c then ['\\', c] else [c]) ++ '"' :: rest) = some (name, rest) := by
  induction name with
  | nil => simp [unquoteTail]
  | cons c cs ih =>
    rw [List.flatMap_cons]
    by_cases h : special c = true
    · rw [if_pos h]
      simp only [List.cons_append, List.nil_append]
      rw [unquoteTail_special h, ih]; rfl
    · rw [if_neg h]
      simp only [List.cons_append, List.nil_append]
      rw [unquoteTail_plain (by simpa using h), ih]; rfl

/-- C62. Whatever the name (with quotes, backslashes, commas, newlines), reading the quoted text gives it back, and ends
exactly where it ends. -/
theorem quoted_round_trip (name rest : List Char) : unquote (quoted name ++ rest) = some (name, rest) := by
  unfold quoted unquote
  simp only [List.cons_append, List.append_assoc, List.nil_append]
  exact unquote_body name rest

theorem showInt_no_comma (x : Int) : ∀ c ∈ showInt x, c ≠ ',' := by
  intro c hc
  cases x with
  | ofNat n =>
    rintro rfl
    exact absurd (Nat.isDigit_of_mem_toDigits (b := 10) (n := n) (by decide) (by decide) hc) (by decide)
  | negSucc n =>
    rintro rfl
    rcases List.mem_cons.1 hc with h | h
    · cases h
    · exact absurd (Nat.isDigit_of_mem_toDigits (b := 10) (n := n + 1) (by decide) (by decide) h) (by decide)

theorem showNat_no_comma (x : Nat) : ∀ c ∈ showNat x, c ≠ ',' := by
  rintro c hc rfl
  exact absurd (Nat.isDigit_of_mem_toDigits (b := 10) (n := x) (by decide) (by decide) hc) (by decide)

/-- A field without commas ends at the first comma. -/
theorem field_unique : ∀ {a b r s : List Char}, (∀ c ∈ a, c ≠ ',') → (∀ c ∈ b, c ≠ ',') → a ++ ',' :: r = b ++ ',' :: s → a = b ∧ r = s := by
  intro a
  induction a with
  | nil =>
    intro b r s _ hb h
    cases b with
    | nil => simpa using h
    | cons c b =>
      simp at h
      exact absurd h.1.symm (hb c (by simp))
  | cons x a ih =>
    intro b r s ha hb h
    cases b with
    | nil =>
      simp at h
      exact absurd h.1 (ha x (by simp))
    | cons c b =>
      simp only [List.cons_append, List.cons.injEq] at h
      obtain ⟨rfl, h⟩ := h
      obtain ⟨rfl, rfl⟩ := ih (fun c hc => ha c (by simp [hc])) (fun c hc => hb c (by simp [hc])) h
      exact ⟨rfl, rfl⟩

theorem showNat_inj {a b : Nat} (h : showNat a = showNat b) : a = b := by
  have h1 := Nat.ofDigitChars_ten_toDigits (n := a)
  have h2 := Nat.ofDigitChars_ten_toDigits (n := b)
  unfold showNat at h
  rw [h] at h1
  exact h1.symm.trans h2

theorem showNat_ne_minus (a : Nat) (t : List Char) : showNat a ≠ '-' :: t := by
  intro h
  have : '-' ∈ showNat a := by rw [h]; simp
  exact absurd (Nat.isDigit_of_mem_toDigits (b := 10) (n := a) (by decide) (by decide) this) (by decide)

theorem showInt_inj {a b : Int} (h : showInt a = showInt b) : a = b := by
  cases a with
  | ofNat a =>
    cases b with
    | ofNat b => exact congrArg Int.ofNat (showNat_inj h)
    | negSucc b => exact absurd h (showNat_ne_minus _ _)
  | negSucc a =>
    cases b with
    | ofNat b => exact absurd h.symm (showNat_ne_minus _ _)
    | negSucc b =>
      have : a + 1 = b + 1 := showNat_inj (List.cons.inj h).2
      have : a = b := by omega
      rw [this]

/-- C62. A line determines everything in it: different records have different lines. -/
theorem line_injective (n n' : List Char) (l l' : Log) (h : line n l = line n' l') :
    n = n' ∧ l.inst = l'.inst ∧ l.start = l'.start ∧ l.duration = l'.duration ∧ l.tid = l'.tid ∧ l.flop = l'.flop := by
  unfold line at h
  simp only [List.append_assoc, List.cons_append, List.nil_append] at h
  have h0 := congrArg unquote h
  rw [quoted_round_trip, quoted_round_trip] at h0
  simp only [Option.some.injEq, Prod.mk.injEq, List.cons.injEq, true_and] at h0
  obtain ⟨h1, h2⟩ := h0
  obtain ⟨a1, h2⟩ := field_unique (showInt_no_comma _) (showInt_no_comma _) h2
  obtain ⟨a2, h2⟩ := field_unique (showInt_no_comma _) (showInt_no_comma _) h2
  obtain ⟨a3, h2⟩ := field_unique (showInt_no_comma _) (showInt_no_comma _) h2
  obtain ⟨a4, a5⟩ := field_unique (showNat_no_comma _) (showNat_no_comma _) h2
  exact ⟨h1, showInt_inj a1, showInt_inj a2, showInt_inj a3, showNat_inj a4, showInt_inj a5⟩

/-- The fields of a line, read one after the other, are those of the headings: name, instance, start time, duration, thread and
number of operations. -/
theorem line_fields (n : List Char) (l : Log) : ∃ r, unquote (line n l) = some (n, ',' :: r) ∧
    r.splitOn ',' = [showInt l.inst, showInt l.start, showInt l.duration, showNat l.tid, showInt l.flop] := by
  refine ⟨_, by
    unfold line
    simp only [List.append_assoc, List.cons_append, List.nil_append]
    exact quoted_round_trip n _, ?_⟩
  have key : ∀ (a r : List Char), (∀ c ∈ a, c ≠ ',') → (a ++ ',' :: r).splitOn ',' = a :: r.splitOn ',' := by
    intro a r ha
    exact List.splitOn_append_cons_self_of_not_mem (fun hc => ha ',' hc rfl) r
  have last : ∀ (a : List Char), (∀ c ∈ a, c ≠ ',') → a.splitOn ',' = [a] := by
    intro a ha
    exact List.splitOn_eq_singleton (fun hc => ha ',' hc rfl)
  rw [key _ _ (showInt_no_comma _), key _ _ (showInt_no_comma _), key _ _ (showInt_no_comma _), key _ _ (showNat_no_comma _),
    last _ (showInt_no_comma _)]

example : String.ofList (line "f(\"x\\y\")".toList { inst := -3, start := 120, duration := 7, tid := 9, flop := -1 }) =
    "\"f(\\\"x\\\\y\\\")\",-3,120,7,9,-1" := by decide +kernel

example : headings.splitOn ',' = ["name".toList, "instance".toList, "start_time".toList, "duration".toList, "thread_id".toList,
    "flop_count".toList] := by decide +kernel

end Guanaqo.Trace
