import Verif.Props.Lock
/-! Property C18: when a run's directory can no longer be moved away. -/
namespace CM.Props
open CM.Lock

/-- Nobody but `p` is between finding an older `mutants.out`, or none, and running: the others have not started, or wait
for the lock of `d`, or run already, or have ended. -/
def OutsideWindow (s : State) (p d : Nat) : Prop :=
  ∀ q, q ≠ p → s.pc q = .idle ∨ s.pc q = .sawOut ∨ s.pc q = .opened1 d ∨ (∃ d', s.pc q = .running d') ∨
    s.pc q = .ended

/-- `p` runs in `mutants.out`, which is `d`, and nobody else can move it. -/
structure Settled (s : State) (p d : Nat) : Prop where
  lock : s.lock d = some p
  run : s.pc p = .running d
  out : s.out = some d
  others : OutsideWindow s p d

theorem ended_step {s s' : State} {e : Event} {p : Nat} (h : s.pc p = .ended) (he : exec s e = some s') :
    s'.pc p = .ended := by
  cases e with
  | kill q =>
    simp only [exec, Option.some.injEq] at he
    subst he
    by_cases hq : p = q
    · subst hq; simp [State.fail, upd_same]
    · simp only [State.fail, upd_other _ _ _ _ hq]; exact h
  | step q =>
    by_cases hq : p = q
    · subst hq; simp [exec, step, h] at he
    · have key : s'.pc p = s.pc p := by
        simp only [exec] at he
        unfold step at he
        split at he <;> (try split at he) <;> (try split at he) <;>
          (cases he <;> simp [State.fail, upd_other _ _ _ _ hq])
      rw [key, h]

theorem ended_execAll {s s' : State} {es : List Event} {p : Nat} (h : s.pc p = .ended)
    (he : execAll s es = some s') : s'.pc p = .ended := by
  induction es generalizing s with
  | nil => simp only [execAll, Option.some.injEq] at he; subst he; exact h
  | cons e es ih =>
    simp only [execAll, Option.bind_eq_some_iff] at he
    obtain ⟨s1, h1, h2⟩ := he
    exact ih (ended_step h h1) h2

theorem settled_fail {s : State} {p d q : Nat} (h : Settled s p d) (hq : q ≠ p) : Settled (s.fail q) p d := by
  refine ⟨?_, ?_, h.out, ?_⟩
  · simp only [State.fail, dropLocks, h.lock]; rw [if_neg (by simpa using Ne.symm hq)]
  · simp only [State.fail, upd_other _ _ _ _ (Ne.symm hq)]; exact h.run
  · intro r hr
    by_cases hrq : r = q
    · subst hrq; simp [State.fail, upd_same]
    · simp only [State.fail, upd_other _ _ _ _ hrq]; exact h.others r hr

/-- Every step keeps the directory, or ends `p`. -/
theorem settled_step {s s' : State} {e : Event} {p d : Nat} (h : Settled s p d) (he : exec s e = some s') :
    s'.pc p = .ended ∨
    (Settled s' p d ∧ ∀ q d', q ≠ p → s'.pc q = .running d' → s.pc q = .running d') := by
  have failp : (s.fail p).pc p = .ended := by simp [State.fail, upd_same]
  have failq : ∀ q, q ≠ p → Settled (s.fail q) p d ∧
      ∀ r d', r ≠ p → (s.fail q).pc r = .running d' → s.pc r = .running d' := by
    intro q hq
    refine ⟨settled_fail h hq, ?_⟩
    intro r d' _ hr
    by_cases hrq : r = q
    · subst hrq; simp [State.fail, upd_same] at hr
    · simpa only [State.fail, upd_other _ _ _ _ hrq] using hr
  have move : ∀ q pc, q ≠ p → (pc = .sawOut ∨ pc = .opened1 d) →
      Settled { s with pc := upd s.pc q pc } p d ∧
      ∀ r d', r ≠ p → (upd s.pc q pc) r = .running d' → s.pc r = .running d' := by
    intro q pc hq hpc
    refine ⟨⟨h.lock, ?_, h.out, ?_⟩, ?_⟩
    · simp only [upd_other _ _ _ _ (Ne.symm hq)]; exact h.run
    · intro r hr
      by_cases hrq : r = q
      · subst hrq
        simp only [upd_same]
        rcases hpc with rfl | rfl
        · exact .inr (.inl rfl)
        · exact .inr (.inr (.inl rfl))
      · simp only [upd_other _ _ _ _ hrq]; exact h.others r hr
    · intro r d' _ hr
      by_cases hrq : r = q
      · subst hrq
        rw [upd_same] at hr
        rcases hpc with rfl | rfl <;> cases hr
      · rwa [upd_other _ _ _ _ hrq] at hr
  cases e with
  | kill q =>
    simp only [exec, Option.some.injEq] at he
    subst he
    by_cases hq : q = p
    · subst hq; exact .inl failp
    · exact .inr (failq q hq)
  | step q =>
    simp only [exec] at he
    by_cases hq : q = p
    · subst hq
      simp only [step, h.run, Option.some.injEq] at he
      subst he
      exact .inl failp
    · right
      rcases h.others q hq with hpc | hpc | hpc | ⟨d', hpc⟩ | hpc
      · simp only [step, hpc, h.out, Option.isSome_some, if_true, Option.some.injEq] at he
        subst he
        have := move q _ hq (.inl rfl); rw [h.out] at this; exact this
      · simp only [step, hpc, h.out, Option.some.injEq] at he
        subst he
        have := move q _ hq (.inr rfl); rw [h.out] at this; exact this
      · simp [step, hpc, h.lock] at he
      · simp only [step, hpc, Option.some.injEq] at he
        subst he
        exact failq q hq
      · simp [step, hpc] at he

theorem settled_execAll {s s' : State} {es : List Event} {p d : Nat} (h : Settled s p d)
    (he : execAll s es = some s') :
    s'.pc p = .ended ∨ (Settled s' p d ∧ ∀ q d', q ≠ p → s'.pc q = .running d' → s.pc q = .running d') := by
  induction es generalizing s with
  | nil => simp only [execAll, Option.some.injEq] at he; subst he; exact .inr ⟨h, fun _ _ _ h => h⟩
  | cons e es ih =>
    simp only [execAll, Option.bind_eq_some_iff] at he
    obtain ⟨s1, h1, h2⟩ := he
    rcases settled_step h h1 with hend | ⟨hs, hr⟩
    · exact .inl (ended_execAll hend h2)
    · rcases ih hs h2 with hend | ⟨hs', hr'⟩
      · exact .inl hend
      · exact .inr ⟨hs', fun q d' hq hq' => hr q d' hq (hr' q d' hq hq')⟩

/-- C18, how wide the race is. Take any moment of any interleaving at which a process runs in the directory called
`mutants.out` and no other process is in the course of starting, beyond waiting for the lock of that same directory. From
then on, whatever starts, waits, ends or is killed, until that process ends its directory is the one called `mutants.out`,
and no other process begins to run. Missing from the full statement: processes that had already passed the lock of an
older directory, or had found none, when this one began to run. -/
theorem C18_after_the_window_partial (hasOut hasOld : Bool) (before after : List Event) (s s' : State) (p d : Nat)
    (h : execAll (initial hasOut hasOld) before = some s) (hrun : s.pc p = .running d) (hout : s.out = some d)
    (hothers : OutsideWindow s p d) (h' : execAll s after = some s') (hstill : s'.pc p ≠ .ended) :
    s'.pc p = .running d ∧ s'.out = some d ∧ s'.lock d = some p ∧
    ∀ q d', q ≠ p → s'.pc q = .running d' → s.pc q = .running d' := by
  have inv := lockInv_exec (lockInv_initial hasOut hasOld) h
  rcases settled_execAll ⟨inv p d (.inr (.inr hrun)), hrun, hout, hothers⟩ h' with he | ⟨hs, hr⟩
  · exact absurd he hstill
  · exact ⟨hs.run, hs.out, hs.lock, hr⟩

/-- The same from the other side: if a process runs, its directory is not the one called `mutants.out`, and it once was,
then at every moment at which it was, some other process was already in the course of starting, past waiting for this
directory's lock. -/
theorem C18_only_by_the_window_partial (hasOut hasOld : Bool) (before after : List Event) (s s' : State) (p d : Nat)
    (h : execAll (initial hasOut hasOld) before = some s) (hrun : s.pc p = .running d) (hout : s.out = some d)
    (h' : execAll s after = some s') (hstill : s'.pc p ≠ .ended) (hmoved : s'.out ≠ some d) :
    ∃ q, q ≠ p ∧ PC.starting (s.pc q) ∧ s.pc q ≠ .sawOut ∧ s.pc q ≠ .opened1 d := by
  refine Classical.byContradiction fun hno => hmoved ?_
  refine (C18_after_the_window_partial hasOut hasOld before after s s' p d h hrun hout ?_ h' hstill).2.1
  intro q hq
  refine Classical.byContradiction fun hnot => hno ⟨q, hq, ?_⟩
  cases hpc : s.pc q <;> simp_all [PC.starting]

/-- Process 1 runs; 2 and 3 have not started. Then 2 finds the directory and waits, 3 is killed. -/
example : ∃ s s', execAll (initial true true) (serialSchedule.take 10) = some s ∧ s.pc 1 = .running 2 ∧ s.out = some 2 ∧
    OutsideWindow s 1 2 ∧ execAll s [.step 2, .step 2, .step 3, .kill 3] = some s' ∧ s'.pc 1 = .running 2 ∧
    s'.pc 2 = .opened1 2 := by
  refine ⟨_, _, rfl, by decide, by decide, ?_, rfl, by decide, by decide⟩
  intro q hq
  left
  simp [upd, hq, initial]

end CM.Props
