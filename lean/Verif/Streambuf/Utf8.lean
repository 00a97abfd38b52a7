import Verif.Streambuf.Props
import Mathlib.Data.List.Basic

/-!
# C36, C38: chunk boundaries and UTF-8
-/

namespace Guanaqo.Streambuf

theorem isAscii_iff (b : UInt8) : isAscii b = decide (b.toNat < 0x80) := by
  have h : ∀ i : Fin 256, isAscii ⟨⟨i⟩⟩ = decide (i.val < 0x80) := by decide +kernel
  exact h b.toBitVec.toFin

theorem isLeading_iff (b : UInt8) : isLeading b = decide (0xC0 ≤ b.toNat) := by
  have h : ∀ i : Fin 256, isLeading ⟨⟨i⟩⟩ = decide (0xC0 ≤ i.val) := by decide +kernel
  exact h b.toBitVec.toFin

theorem isLeading2b_iff (b : UInt8) : isLeading2b b = decide (b.toNat ≤ 0xDF) := by
  have h : ∀ i : Fin 256, isLeading2b ⟨⟨i⟩⟩ = decide (i.val ≤ 0xDF) := by decide +kernel
  exact h b.toBitVec.toFin

theorem isLeading3b_iff (b : UInt8) : isLeading3b b = decide (b.toNat ≤ 0xEF) := by
  have h : ∀ i : Fin 256, isLeading3b ⟨⟨i⟩⟩ = decide (i.val ≤ 0xEF) := by decide +kernel
  exact h b.toBitVec.toFin

/-- A continuation byte. -/
def Cont (b : UInt8) : Prop := 0x80 ≤ b.toNat ∧ b.toNat < 0xC0

theorem Cont.ascii {b : UInt8} (h : Cont b) : isAscii b = false := by
  rw [isAscii_iff]; simp; exact h.1
theorem Cont.leading {b : UInt8} (h : Cont b) : isLeading b = false := by
  rw [isLeading_iff]; simp; exact h.2

theorem lead_props {b : UInt8} (h : 0xC0 ≤ b.toNat) : isAscii b = false ∧ isLeading b = true := by
  rw [isAscii_iff, isLeading_iff]
  simp only [decide_eq_false_iff_not, decide_eq_true_eq]
  omega

/-- The four forms of an encoded code point. -/
theorem enc_shape (c : Char) :
    (∃ a, String.utf8EncodeChar c = [a] ∧ a.toNat < 0x80) ∨
    (∃ l x, String.utf8EncodeChar c = [l, x] ∧ 0xC0 ≤ l.toNat ∧ l.toNat ≤ 0xDF ∧ Cont x) ∨
    (∃ l x y, String.utf8EncodeChar c = [l, x, y] ∧ 0xE0 ≤ l.toNat ∧ l.toNat ≤ 0xEF ∧ Cont x ∧
      Cont y) ∨
    (∃ l x y z, String.utf8EncodeChar c = [l, x, y, z] ∧ 0xF0 ≤ l.toNat ∧ Cont x ∧ Cont y ∧
      Cont z) := by
  have ofNat : ∀ n, n < 256 → (UInt8.ofNat n).toNat = n := by
    intro n hn
    rw [UInt8.toNat_ofNat']; omega
  have cont : ∀ n, Cont (UInt8.ofNat (n % 0x40 + 0x80)) := by
    intro n
    have := Nat.mod_lt n (by decide : 0x40 > 0)
    refine ⟨?_, ?_⟩ <;> rw [ofNat _ (by omega)] <;> omega
  unfold String.utf8EncodeChar
  simp only
  generalize c.val.toNat = v
  split
  · rename_i h
    exact .inl ⟨_, rfl, by rw [ofNat _ (by omega)]; omega⟩
  · split
    · rename_i h
      have := Nat.mod_lt (v / 64) (by decide : 0x20 > 0)
      exact .inr (.inl ⟨_, _, rfl, by rw [ofNat _ (by omega)]; omega,
        by rw [ofNat _ (by omega)]; omega, cont _⟩)
    · split
      · have := Nat.mod_lt (v / 4096) (by decide : 0x10 > 0)
        exact .inr (.inr (.inl ⟨_, _, _, rfl, by rw [ofNat _ (by omega)]; omega,
          by rw [ofNat _ (by omega)]; omega, cont _, cont _⟩))
      · have := Nat.mod_lt (v / 262144) (by decide : 0x08 > 0)
        exact .inr (.inr (.inr ⟨_, _, _, _, rfl, by rw [ofNat _ (by omega)]; omega,
          cont _, cont _, cont _⟩))

theorem rem_ascii {a : UInt8} (t : List UInt8) (h : a.toNat < 0x80) :
    utf8Remainder (a :: t) = .ok 0 := by
  simp [utf8Remainder, isAscii_iff, h]

theorem rem_lead {l : UInt8} (t : List UInt8) (h : 0xC0 ≤ l.toNat) :
    utf8Remainder (l :: t) = .ok 1 := by
  have h1 := lead_props h
  unfold utf8Remainder
  simp only [List.getElem?_cons_zero, h1.1, Bool.false_eq_true, if_false]
  have : (List.take (if 3 ≤ (l :: t).length then 3 else (l :: t).length) (l :: t)).findIdx
      isLeading = 0 := by
    split <;> simp [List.findIdx_cons, h1.2]
  rw [this]
  simp

theorem rem_two {l x : UInt8} (t : List UInt8) (h : 0xC0 ≤ l.toNat) (hx : Cont x) :
    utf8Remainder (x :: l :: t) = .ok (if l.toNat ≤ 0xDF then 0 else 2) := by
  have h1 := lead_props h
  unfold utf8Remainder
  simp only [List.getElem?_cons_zero, hx.ascii, Bool.false_eq_true, if_false]
  have : (List.take (if 3 ≤ (x :: l :: t).length then 3 else (x :: l :: t).length)
      (x :: l :: t)).findIdx isLeading = 1 := by
    split <;> simp [List.findIdx_cons, h1.2, hx.leading]
  rw [this]
  simp [isLeading2b_iff]

theorem rem_three {l x y : UInt8} (t : List UInt8) (h : 0xC0 ≤ l.toNat) (hx : Cont x)
    (hy : Cont y) :
    utf8Remainder (y :: x :: l :: t) = .ok (if l.toNat ≤ 0xEF then 0 else 3) := by
  have h1 := lead_props h
  unfold utf8Remainder
  simp only [List.getElem?_cons_zero, hy.ascii, Bool.false_eq_true, if_false]
  have : (List.take (if 3 ≤ (y :: x :: l :: t).length then 3 else (y :: x :: l :: t).length)
      (y :: x :: l :: t)).findIdx isLeading = 2 := by
    simp [List.findIdx_cons, h1.2, hx.leading, hy.leading]
  rw [this]
  simp [isLeading3b_iff]

theorem rem_conts {x y z : UInt8} (t : List UInt8) (hx : Cont x) (hy : Cont y) (hz : Cont z) :
    utf8Remainder (x :: y :: z :: t) = .ok 0 := by
  unfold utf8Remainder
  simp only [List.getElem?_cons_zero, hx.ascii, Bool.false_eq_true, if_false]
  have : (List.take (if 3 ≤ (x :: y :: z :: t).length then 3 else (x :: y :: z :: t).length)
      (x :: y :: z :: t)).findIdx isLeading = 3 := by
    simp [List.findIdx_cons, hx.leading, hy.leading, hz.leading]
  rw [this]
  cases t <;> simp

/-- UTF-8 text. -/
abbrev enc (cs : List Char) : List UInt8 := cs.flatMap String.utf8EncodeChar

/-- A beginning (possibly empty) of an encoded code point, not all of it. -/
def IncompleteTail (p : List UInt8) : Prop :=
  p = [] ∨ ∃ c, p <+: String.utf8EncodeChar c ∧ p ≠ String.utf8EncodeChar c

/-- `utf8_remainder` is the length of the incomplete code point at the end. -/
theorem remainder_exact (cs : List Char) (p : List UInt8) (hp : IncompleteTail p)
    (hne : enc cs ++ p ≠ []) : utf8Remainder (enc cs ++ p).reverse = .ok p.length := by
  by_cases h0 : p = []
  · subst h0
    rw [List.append_nil]
    rcases List.eq_nil_or_concat cs with rfl | ⟨ds, c, rfl⟩
    · exact absurd rfl hne
    · have e : (enc (ds ++ [c])).reverse = (String.utf8EncodeChar c).reverse ++ (enc ds).reverse := by
        simp [enc]
      rw [List.concat_eq_append, e]
      rcases enc_shape c with ⟨a, ha, h⟩ | ⟨l, x, ha, h1, h2, hx⟩ | ⟨l, x, y, ha, h1, h2, hx, hy⟩ |
        ⟨l, x, y, z, ha, h1, hx, hy, hz⟩ <;> rw [ha]
      · exact rem_ascii _ h
      · have := rem_two (enc ds).reverse (by omega : 0xC0 ≤ l.toNat) hx
        rw [if_pos h2] at this
        simpa using this
      · have := rem_three (enc ds).reverse (by omega : 0xC0 ≤ l.toNat) hx hy
        rw [if_pos h2] at this
        simpa using this
      · have := rem_conts (l :: (enc ds).reverse) hz hy hx
        simpa using this
  · obtain ⟨c, hpre, hne'⟩ := hp.resolve_left h0
    rw [List.reverse_append]
    obtain ⟨q, hq⟩ := hpre
    have hqne : q ≠ [] := by
      rintro rfl
      exact hne' (by rw [← hq, List.append_nil])
    obtain ⟨b, q', rfl⟩ := List.exists_cons_of_ne_nil hqne
    match p, h0, hq with
    | [a], _, hq =>
      have hl : 0xC0 ≤ a.toNat := by
        rcases enc_shape c with ⟨_, ha, h⟩ | ⟨l, x, ha, h1, h2, hx⟩ |
          ⟨l, x, y, ha, h1, h2, hx, hy⟩ | ⟨l, x, y, z, ha, h1, hx, hy, hz⟩ <;> rw [ha] at hq <;>
          simp only [List.cons_append, List.nil_append, List.cons.injEq, reduceCtorEq,
            and_false] at hq
        all_goals (rw [hq.1]; omega)
      exact rem_lead _ hl
    | [a, a'], _, hq =>
      have hl : 0xE0 ≤ a.toNat ∧ Cont a' := by
        rcases enc_shape c with ⟨_, ha, h⟩ | ⟨l, x, ha, h1, h2, hx⟩ |
          ⟨l, x, y, ha, h1, h2, hx, hy⟩ | ⟨l, x, y, z, ha, h1, hx, hy, hz⟩ <;> rw [ha] at hq <;>
          simp only [List.cons_append, List.nil_append, List.cons.injEq, reduceCtorEq,
            and_false] at hq
        all_goals (rw [hq.1, hq.2.1]; exact ⟨by omega, hx⟩)
      have := rem_two (enc cs).reverse (by omega : 0xC0 ≤ a.toNat) hl.2
      rw [if_neg (by omega)] at this
      exact this
    | [a, a', a''], _, hq =>
      have hl : 0xF0 ≤ a.toNat ∧ Cont a' ∧ Cont a'' := by
        rcases enc_shape c with ⟨_, ha, h⟩ | ⟨l, x, ha, h1, h2, hx⟩ |
          ⟨l, x, y, ha, h1, h2, hx, hy⟩ | ⟨l, x, y, z, ha, h1, hx, hy, hz⟩ <;> rw [ha] at hq <;>
          simp only [List.cons_append, List.nil_append, List.cons.injEq, reduceCtorEq,
            and_false] at hq
        all_goals (rw [hq.1, hq.2.1, hq.2.2.1]; exact ⟨by omega, hx, hy⟩)
      have := rem_three (enc cs).reverse (by omega : 0xC0 ≤ a.toNat) hl.2.1 hl.2.2
      rw [if_neg (by omega)] at this
      exact this
    | a :: a' :: a'' :: a''' :: p', _, hq =>
      exfalso
      have hlen := congrArg List.length hq
      rcases enc_shape c with ⟨_, ha, h⟩ | ⟨l, x, ha, h1, h2, hx⟩ |
        ⟨l, x, y, ha, h1, h2, hx, hy⟩ | ⟨l, x, y, z, ha, h1, hx, hy, hz⟩ <;> rw [ha] at hlen <;>
        simp at hlen

/-- Every beginning of UTF-8 text is complete code points and an incomplete one, and the rest of the
text continues it. -/
theorem prefix_split (ds : List Char) (b rest : List UInt8) (h : b ++ rest = enc ds) :
    ∃ cs p es, b = enc cs ++ p ∧ IncompleteTail p ∧ p ++ rest = enc es := by
  induction ds generalizing b with
  | nil =>
    have : b = [] ∧ rest = [] := by simpa [enc] using h
    exact ⟨[], [], [], by simp [this.1], .inl rfl, by simp [this.2]⟩
  | cons d ds ih =>
    have h' : b ++ rest = String.utf8EncodeChar d ++ enc ds := h
    rcases List.append_eq_append_iff.1 h' with ⟨q, h1, h2⟩ | ⟨q, h1, h2⟩
    · by_cases hb : b = String.utf8EncodeChar d
      · have : q = [] := by rw [hb] at h1; simpa using h1
        subst this
        exact ⟨[d], [], ds, by simp [enc, hb], .inl rfl, by simpa using h2⟩
      · exact ⟨[], b, d :: ds, by simp, .inr ⟨d, ⟨q, h1.symm⟩, hb⟩, h⟩
    · obtain ⟨cs, p, es, k1, k2, k3⟩ := ih q h2.symm
      exact ⟨d :: cs, p, es, by rw [h1, k1]; simp [enc], k2, k3⟩

/-- One `_sync` on a buffer that begins the remaining text `b ++ rest`. -/
theorem sync_utf8 {s s' : SB} {rest : List UInt8} {ds : List Char} (hp : s.pptr ≤ s.mem.length)
    (hb : s.buffered ++ rest = enc ds) (hout : ∀ ch ∈ s.out, Utf8 ch) (h : s.sync = .ok s') :
    (∀ ch ∈ s'.out, Utf8 ch) ∧ IncompleteTail s'.buffered ∧
      ∃ es, s'.buffered ++ rest = enc es := by
  obtain ⟨cs, p, es, k1, k2, k3⟩ := prefix_split ds s.buffered rest hb
  unfold SB.sync at h
  have hlen : s.buffered.length = s.pptr := by rw [SB.buffered, List.length_take]; omega
  by_cases h0 : s.pptr = 0
  · rw [if_neg (by simp [h0])] at h
    cases h
    have : s.buffered = [] := List.length_eq_zero_iff.1 (by omega)
    exact ⟨hout, .inl this, ds, hb⟩
  · rw [if_pos h0] at h
    have hne : enc cs ++ p ≠ [] := by
      rw [← k1]; intro e; rw [e] at hlen; simp at hlen; omega
    have hr := remainder_exact cs p k2 hne
    rw [← k1] at hr
    have hr' : utf8Remainder (s.mem.take s.pptr).reverse = .ok p.length := hr
    rw [hr'] at h
    cases h
    have hpl : (enc cs).length + p.length = s.pptr := by
      rw [← hlen, k1, List.length_append]
    have hbuf : ((s.mem.drop (s.pptr - p.length)).take p.length ++
        s.mem.drop p.length).take p.length = p := by
      rw [List.take_append_of_le_length (by simp; omega), List.take_take, Nat.min_self]
      have e1 : (s.mem.drop (s.pptr - p.length)).take p.length =
          (s.mem.take s.pptr).drop (s.pptr - p.length) := by
        rw [List.drop_take]; congr 1; omega
      have e2 : s.mem.take s.pptr = enc cs ++ p := k1
      rw [e1, e2, show s.pptr - p.length = (enc cs).length by omega, List.drop_left]
    refine ⟨?_, ?_, es, ?_⟩
    · intro ch hch
      simp only at hch
      split at hch
      · rcases List.mem_append.1 hch with h1 | h1
        · exact hout ch h1
        · simp only [List.mem_singleton] at h1
          have e2 : s.mem.take s.pptr = enc cs ++ p := k1
          have : s.mem.take (s.pptr - p.length) = enc cs := by
            have e3 := congrArg (List.take (s.pptr - p.length)) e2
            rw [List.take_take, Nat.min_eq_left (by omega),
              show s.pptr - p.length = (enc cs).length by omega, List.take_left] at e3
            rw [show s.pptr - p.length = (enc cs).length by omega]
            exact e3
          exact ⟨cs, by rw [h1, this]⟩
      · exact hout ch hch
    · simp only [SB.buffered]; rw [hbuf]; exact k2
    · simp only [SB.buffered]; rw [hbuf]; exact k3

theorem run_utf8 {s s' : SB} {ops : List Op} {m : List UInt8} {ds : List Char}
    (hp : s.pptr ≤ s.mem.length) (hb : s.buffered ++ (written ops ++ m) = enc ds)
    (hout : ∀ ch ∈ s.out, Utf8 ch) (h : s.run ops = .ok s') :
    (∀ ch ∈ s'.out, Utf8 ch) ∧ ∃ es, s'.buffered ++ m = enc es := by
  induction ops generalizing s ds with
  | nil => cases h; exact ⟨hout, ds, by simpa [written] using hb⟩
  | cons op ops ih =>
    rw [SB.run, List.foldlM_cons] at h
    obtain ⟨t, h1, h2⟩ := res_bind_ok.1 h
    have hp' := (exec_ok hp h1).2.1
    cases op with
    | flush =>
      obtain ⟨k1, _, es, k3⟩ := sync_utf8 hp hb hout h1
      exact ih hp' k3 k1 h2
    | put c =>
      rw [SB.exec, SB.sputc] at h1
      have hb' : s.buffered ++ [c] ++ (written ops ++ m) = enc ds := by
        rw [← hb, written_cons]; simp [written]
      split at h1
      · obtain ⟨e1, e2, _⟩ := store_ok h1
        exact ih hp' (by rw [e2]; exact hb') (by rw [e1]; exact hout) h2
      · rw [SB.overflow] at h1
        obtain ⟨u, hu, h1⟩ := res_bind_ok.1 h1
        obtain ⟨e1, e2, _, _, _, e6⟩ := store_ok hu
        obtain ⟨k1, _, es, k3⟩ := sync_utf8 e6 (by rw [e2]; exact hb') (by rw [e1]; exact hout) h1
        exact ih hp' k3 k1 h2

/-- C36. If the bytes written are a beginning of UTF-8 text, every chunk passed to the callback is
itself UTF-8 text: no code point is split, whatever the buffer size and wherever flushes happen. -/
theorem chunks_utf8 (size spare : Nat) (ops : List Op) (s : SB)
    (hw : ∃ m, Utf8 (written ops ++ m)) (h : (SB.init size spare).run ops = .ok s) :
    ∀ chunk ∈ s.out, Utf8 chunk := by
  obtain ⟨m, ds, hds⟩ := hw
  exact (run_utf8 (m := m) (ds := ds) (init_ok size spare)
    (by simpa [SB.init, SB.buffered] using hds) (by simp [SB.init]) h).1

/-- C36. A flush delivers everything except an incomplete code point at the end. -/
theorem flush_utf8 (size spare : Nat) (ops : List Op) (s : SB)
    (hw : ∃ m, Utf8 (written ops ++ m))
    (h : (SB.init size spare).run (ops ++ [.flush]) = .ok s) : IncompleteTail s.buffered := by
  rw [SB.run, List.foldlM_append] at h
  obtain ⟨t, h1, h2⟩ := res_bind_ok.1 h
  obtain ⟨m, ds, hds⟩ := hw
  obtain ⟨k1, es, k2⟩ := run_utf8 (m := m) (ds := ds) (init_ok size spare)
    (by simpa [SB.init, SB.buffered] using hds) (by simp [SB.init]) h1
  have hp := (run_ok (init_ok size spare) h1).2.1
  rw [List.foldlM_cons] at h2
  obtain ⟨u, hu, h2⟩ := res_bind_ok.1 h2
  cases h2
  exact (sync_utf8 hp k2 k1 hu).2.1

/-- C38. When the stream buffer is destroyed after any history that wrote complete UTF-8 text, the
chunks the callback has received are exactly the bytes written, and all chunks are UTF-8 text. -/
theorem destroy_delivers (size spare : Nat) (ops : List Op) (s : SB) (hw : Utf8 (written ops))
    (h : (SB.init size spare).run ops = .ok s) :
    ∃ chunks, s.destroy = .ok chunks ∧ chunks.flatten = written ops ∧
      ∀ chunk ∈ chunks, Utf8 chunk := by
  obtain ⟨ds, hds⟩ := hw
  obtain ⟨k1, es, k2⟩ := run_utf8 (m := []) (ds := ds) (init_ok size spare)
    (by simpa [SB.init, SB.buffered] using hds) (by simp [SB.init]) h
  have hp := (run_ok (init_ok size spare) h).2.1
  have hb := bytes_preserved size spare ops s h
  obtain ⟨t, ht, ht2, ht3, ht4, _⟩ := sync_ok hp
  obtain ⟨l1, l2, fs, l3⟩ := sync_utf8 hp k2 k1 ht
  refine ⟨t.out, by rw [SB.destroy, ht]; rfl, ?_, l1⟩
  have hnil : t.buffered = [] := by
    rw [List.append_nil] at k2
    by_cases h0 : s.pptr = 0
    · rw [SB.sync, if_neg (by simp [h0])] at ht
      cases ht
      simp [SB.buffered, h0]
    · have hlen : s.buffered.length = s.pptr := by rw [SB.buffered, List.length_take]; omega
      have hr := remainder_exact es [] (.inl rfl) (by
        rw [List.append_nil, ← k2]; intro e; rw [e] at hlen; simp at hlen; omega)
      rw [List.append_nil, ← k2] at hr
      rw [SB.sync, if_pos h0] at ht
      have hr' : utf8Remainder (s.mem.take s.pptr).reverse = .ok 0 := hr
      rw [hr'] at ht
      cases ht
      rfl
  rw [hnil, List.append_nil, hb] at ht2
  exact ht2

/-- C38. For any bytes at all, destruction withholds at most three bytes from the end. -/
theorem destroy_loses_at_most_three (size spare : Nat) (ops : List Op) (s : SB)
    (h : (SB.init size spare).run ops = .ok s) :
    ∃ chunks lost, s.destroy = .ok chunks ∧ chunks.flatten ++ lost = written ops ∧
      lost.length ≤ 3 := by
  have hp := (run_ok (init_ok size spare) h).2.1
  obtain ⟨t, ht, ht2, ht3, _⟩ := sync_ok hp
  refine ⟨t.out, t.buffered, by rw [SB.destroy, ht]; rfl, ?_, ?_⟩
  · rw [ht2]; exact bytes_preserved size spare ops s h
  · simp only [SB.buffered, List.length_take]; omega

/-! Non-vacuity: the text "aé€" written byte by byte into a buffer of 4 bytes with a spare one, with
a flush in the middle of the last code point. -/
example : (SB.init 4 1).run [.put 0x61, .put 0xC3, .put 0xA9, .put 0xE2, .put 0x82, .flush, .put 0xAC] =
    .ok ⟨4, [0xE2, 0x82, 0xAC, 0xE2, 0x82], 3, [[0x61, 0xC3, 0xA9]]⟩ := by decide +kernel

example : Utf8 [0x61, 0xC3, 0xA9, 0xE2, 0x82, 0xAC] := ⟨['a', 'é', '€'], by decide +kernel⟩

end Guanaqo.Streambuf
