import Verif.Trace.Itt

/-! # Exactly when scopes end their own tasks (C102) -/

namespace Guanaqo.Trace.Itt

/-- Destroying scope `o` by thread `th` after `as` ends the task of the scope, and no other. -/
def EndsOwn (as : List Act) (th o : Nat) : Prop :=
  ∀ s₀ cs₀ s cs, run St.init as = some (s₀, cs₀) → run St.init (as ++ [.close th o]) = some (s, cs) →
    (view cs).ended = (match (owners as).task o with | some n => [n] | none => []) ++ (view cs₀).ended

theorem nested_snoc {w : Owners} {as : List Act} {a : Act} (h1 : Nested w as)
    (h2 : ∀ th o, a = .close th o → NestedClose (as.foldl Owners.step w) th o) : Nested w (as ++ [a]) := by
  induction as generalizing w with
  | nil =>
    refine ⟨?_, trivial⟩
    cases a <;> first | trivial | exact h2 _ _ rfl
  | cons b bs ih => exact ⟨h1.1, ih h1.2 h2⟩

/-- **C102**, exactly: in a program, every destruction of a scope ends the scope's own task if and only if scopes are destroyed by the thread that
opened them, after those that it opened later. -/
theorem itt_ends_own_iff {as : List Act} {s : St} {cs : List Call} (h : run St.init as = some (s, cs)) :
    (∀ pre th o suf, as = pre ++ .close th o :: suf → EndsOwn pre th o) ↔ Nested {} as := by
  constructor
  · intro hall
    -- by induction on the prefixes
    have key : ∀ (n : Nat), n ≤ as.length → Nested {} (as.take n) := by
      intro n
      induction n with
      | zero => intro _; exact trivial
      | succ n ih =>
        intro hn
        have hlt : n < as.length := hn
        have hN := ih (by omega)
        rw [List.take_succ_eq_append_getElem hlt]
        refine nested_snoc hN fun th o e => ?_
        have hsplit : as = as.take n ++ .close th o :: as.drop (n + 1) := by
          rw [← e, List.getElem_cons_drop, List.take_append_drop]
        have hE := hall _ th o _ hsplit
        rw [hsplit] at h
        obtain ⟨s₀, c₁, c₂, h1, h2, -⟩ := run_append h
        simp only [run] at h2
        cases ha : step s₀ (.close th o) with
        | none => rw [ha] at h2; cases h2
        | some q =>
          obtain ⟨s1, c1⟩ := q
          have hrun : run St.init (as.take n ++ [.close th o]) = some (s1, c₁ ++ c1) := by
            have : ∀ (xs : List Act) (t : St) (t' : St) (d : List Call), run t xs = some (t', d) → ∀ a t'' e', step t' a = some (t'', e') →
                run t (xs ++ [a]) = some (t'', d ++ e') := by
              intro xs
              induction xs with
              | nil =>
                intro t t' d hd a t'' e' hs
                cases hd
                simp only [List.nil_append, run, hs, List.append_nil]
              | cons x xs ih =>
                intro t t' d hd a t'' e' hs
                simp only [run, List.cons_append] at hd ⊢
                cases hx : step t x with
                | none => rw [hx] at hd; cases hd
                | some r =>
                  obtain ⟨u, f⟩ := r
                  rw [hx] at hd
                  dsimp only at hd ⊢
                  cases hy : run u xs with
                  | none => rw [hy] at hd; cases hd
                  | some r' =>
                    obtain ⟨u', f'⟩ := r'
                    rw [hy] at hd
                    cases hd
                    rw [ih u _ f' hy a t'' e' hs]
                    simp only [List.append_assoc]
            exact this _ _ _ _ h1 _ _ _ ha
          have hend := hE s₀ c₁ s1 (c₁ ++ c1) h1 hrun
          have ho := run_owns owns_init h1
          rw [List.nil_append] at ho
          have hi := ho.2 inOrder_init hN
          change InOrder (view c₁) (owners (as.take n)) at hi
          intro k hk
          have hk' : (owners (as.take n)).task o = some k := hk
          have hc := (itt_scope_calls h1).2 th o ha
          rw [hk'] at hc
          rw [hk', hc, view_append] at hend
          have hst : ∃ ns, (view c₁).stack th = k :: ns := by
            cases hs : (view c₁).stack th with
            | nil =>
              simp [View.call, hs] at hend
            | cons m ns =>
              simp [View.call, hs] at hend
              exact ⟨ns, by rw [hend]⟩
          obtain ⟨ns, hst⟩ := hst
          obtain ⟨e1, -⟩ := (hi.mem th k).1 (by rw [hst]; simp)
          refine ⟨e1, fun m hm hth o' ho' => ?_⟩
          have hmem := (hi.mem th m).2 ⟨hth, o', ho'⟩
          have hsort := hi.sorted th
          rw [hst] at hmem hsort
          rcases List.mem_cons.1 hmem with e2 | e2
          · omega
          · have := (List.pairwise_cons.1 hsort).1 m e2
            omega
    have := key as.length (Nat.le_refl _)
    rwa [List.take_length] at this
  · intro hN pre th o suf e s₀ cs₀ s' cs' h1 h2
    rw [e] at hN
    have hN' : Nested {} (pre ++ [.close th o]) := by
      have : pre ++ .close th o :: suf = (pre ++ [.close th o]) ++ suf := by simp
      rw [this] at hN
      exact (nested_prefix hN).1
    obtain ⟨s₁, c₁, h3, h4⟩ := itt_ends_own_partial hN' h2
    rw [h1] at h3
    cases h3
    exact h4

/-- The program of `not_endsOwnTask`: the scope opened first is destroyed first. -/
example : ∃ s cs, run St.init [.new 0 true, .trace 5 0 1 "outer" 7, .trace 5 0 2 "inner" 300, .close 5 1] = some (s, cs) ∧
    ¬ Nested {} [.new 0 true, .trace 5 0 1 "outer" 7, .trace 5 0 2 "inner" 300, .close 5 1] := by
  refine ⟨_, _, rfl, fun h => ?_⟩
  exact (h.2.2.2.1 0 rfl).2 1 (by decide) rfl 2 rfl

end Guanaqo.Trace.Itt
