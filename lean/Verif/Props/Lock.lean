import Verif.Model.Lock
/-! Property C18: concurrent runs in the same output directory. -/
namespace CM.Props
open CM.Lock

/-- C18 in full: in every interleaving, a running process's directory is still the one called
`mutants.out`, and so no two processes run at once in the same output parent. -/
def RunsExclusive : Prop :=
  ∀ hasOut hasOld es s, execAll (initial hasOut hasOld) es = some s →
    (∀ p d, s.pc p = .running d → s.out = some d) ∧
    (∀ p q d d', s.pc p = .running d → s.pc q = .running d' → p = q)

/-- C18: false. Two processes both find an old `mutants.out`, take and drop its lock one after the
other; the first creates and locks its new directory and runs; then the second moves that directory
away and runs too. -/
theorem C18_runs_exclusive_false : ¬ RunsExclusive := by
  intro h
  let es : List Event :=
    [.step 1, .step 1, .step 1, .step 1,          -- 1: exists, open, lock, release
     .step 2, .step 2, .step 2, .step 2,          -- 2: the same
     .step 1, .step 1, .step 1, .step 1, .step 1, .step 1,  -- 1: rotate, create, lock, run
     .step 2, .step 2, .step 2, .step 2, .step 2, .step 2]  -- 2: rotate, create, lock, run
  have hfinal : (execAll (initial true false) es).map (fun s => (s.pc 1, s.pc 2, s.out)) =
      some (.running 2, .running 3, some 3) := by decide
  rw [Option.map_eq_some_iff] at hfinal
  obtain ⟨s, h1, h2⟩ := hfinal
  simp only [Prod.mk.injEq] at h2
  have := (h _ _ _ s h1).1 1 2 h2.1
  rw [h2.2.2] at this
  cases this

/-- Locks are exclusive. -/
def LockInv (s : State) : Prop :=
  ∀ p d, (s.pc p = .locked1 d ∨ s.pc p = .locked2 d ∨ s.pc p = .running d) → s.lock d = some p

theorem upd_same {α β} [DecidableEq α] (f : α → β) (a : α) (b : β) : upd f a b a = b := by simp [upd]
theorem upd_other {α β} [DecidableEq α] (f : α → β) (a x : α) (b : β) (h : x ≠ a) :
    upd f a b x = f x := by simp [upd, h]

theorem lockInv_fail {s : State} (h : LockInv s) (p : Nat) : LockInv (s.fail p) := by
  intro q d hq
  by_cases hqp : q = p
  · subst hqp; simp [State.fail, upd_same] at hq
  · simp only [State.fail, upd_other _ _ _ _ hqp] at hq
    have := h q d hq
    simp only [State.fail, dropLocks, this]
    rw [if_neg (by simpa using hqp)]

/-- Moving one process to a place where it holds no lock keeps the invariant, if locks of others are
kept. -/
theorem lockInv_move {s : State} (h : LockInv s) (p : Nat) (pc : PC) (s' : State)
    (hpc : s'.pc = upd s.pc p pc) (hl : ∀ q d, q ≠ p → s.lock d = some q → s'.lock d = some q)
    (hp : ∀ d, (pc = .locked1 d ∨ pc = .locked2 d ∨ pc = .running d) → s'.lock d = some p) :
    LockInv s' := by
  intro q d hq
  rw [hpc] at hq
  by_cases hqp : q = p
  · subst hqp
    rw [upd_same] at hq
    exact hp d hq
  · rw [upd_other _ _ _ _ hqp] at hq
    exact hl q d hqp (h q d hq)

theorem lockInv_step {s s' : State} {p : Nat} (h : LockInv s) (hs : step s p = some s') :
    LockInv s' := by
  unfold step at hs
  split at hs
  case h_1 =>
    simp only [Option.some.injEq] at hs; subst hs
    refine lockInv_move h p _ _ rfl (fun _ _ _ h => h) ?_
    intro d hd; split at hd <;> simp at hd
  case h_2 =>
    split at hs <;> simp only [Option.some.injEq] at hs <;> subst hs
    · exact lockInv_move h p _ _ rfl (fun _ _ _ h => h) (by simp)
    · exact lockInv_fail h p
  case h_3 d0 _ =>
    split at hs
    · rename_i hfree
      simp only [Option.some.injEq] at hs; subst hs
      refine lockInv_move h p _ _ rfl ?_ ?_
      · intro q d _ hq
        by_cases hd : d = d0
        · subst hd; rw [hfree] at hq; cases hq
        · simp only [upd_other _ _ _ _ hd]; exact hq
      · intro d hd; simp at hd; subst hd; simp [upd_same]
    · cases hs
  case h_4 d0 hpc =>
    simp only [Option.some.injEq] at hs; subst hs
    have hown := h p d0 (.inl hpc)
    refine lockInv_move h p _ _ rfl ?_ (by simp)
    intro q d hq hd
    by_cases hdd : d = d0
    · subst hdd; rw [hown] at hd; exact absurd (Option.some.inj hd).symm hq
    · simp only [upd_other _ _ _ _ hdd]; exact hd
  case h_5 =>
    simp only [Option.some.injEq] at hs; subst hs
    exact lockInv_move h p _ _ rfl (fun _ _ _ h => h) (by simp)
  case h_6 =>
    split at hs <;> simp only [Option.some.injEq] at hs <;> subst hs
    · exact lockInv_move h p _ _ rfl (fun _ _ _ h => h) (by simp)
    · exact lockInv_fail h p
  case h_7 =>
    split at hs <;> simp only [Option.some.injEq] at hs <;> subst hs
    · exact lockInv_move h p _ _ rfl (fun _ _ _ h => h) (by simp)
    · exact lockInv_fail h p
  case h_8 =>
    split at hs <;> simp only [Option.some.injEq] at hs <;> subst hs
    · exact lockInv_move h p _ _ rfl (fun _ _ _ h => h) (by simp)
    · exact lockInv_fail h p
  case h_9 d0 _ =>
    split at hs
    · rename_i hfree
      simp only [Option.some.injEq] at hs; subst hs
      refine lockInv_move h p _ _ rfl ?_ ?_
      · intro q d _ hq
        by_cases hd : d = d0
        · subst hd; rw [hfree] at hq; cases hq
        · simp only [upd_other _ _ _ _ hd]; exact hq
      · intro d hd; simp at hd; subst hd; simp [upd_same]
    · cases hs
  case h_10 d0 hpc =>
    split at hs
    · split at hs <;> simp only [Option.some.injEq] at hs <;> subst hs
      · exact lockInv_fail h p
      · refine lockInv_move h p _ _ rfl (fun _ _ _ h => h) ?_
        intro d hd; simp at hd; subst hd; exact h p _ (.inr (.inl hpc))
    · simp only [Option.some.injEq] at hs; subst hs; exact lockInv_fail h p
  case h_11 => simp only [Option.some.injEq] at hs; subst hs; exact lockInv_fail h p
  case h_12 => cases hs

theorem lockInv_exec {s s' : State} {es : List Event} (h : LockInv s) (he : execAll s es = some s') :
    LockInv s' := by
  induction es generalizing s with
  | nil => simp only [execAll, Option.some.injEq] at he; subst he; exact h
  | cons e es ih =>
    simp only [execAll, Option.bind_eq_some_iff] at he
    obtain ⟨s1, h1, h2⟩ := he
    refine ih ?_ h2
    cases e with
    | step p => exact lockInv_step h h1
    | kill p => simp only [exec, Option.some.injEq] at h1; subst h1; exact lockInv_fail h p

theorem lockInv_initial (a b) : LockInv (initial a b) := by
  intro p d h; simp [initial] at h

/-- C18, the part that holds in every interleaving of any number of processes, killed at any time: two
processes that run hold the locks of different directories; in particular at most one process runs
while holding the lock of the directory called `mutants.out`. Missing from the full statement: that a
running process's directory still is `mutants.out`. -/
theorem C18_one_run_per_directory_partial (hasOut hasOld : Bool) (es : List Event) (s : State)
    (h : execAll (initial hasOut hasOld) es = some s) (p q d : Nat)
    (hp : s.pc p = .running d) (hq : s.pc q = .running d) : p = q := by
  have inv := lockInv_exec (lockInv_initial hasOut hasOld) h
  have h1 := inv p d (.inr (.inr hp))
  have h2 := inv q d (.inr (.inr hq))
  rw [h1] at h2
  exact Option.some.inj h2

/-- In the course of `OutputDir::new`. -/
def PC.starting : PC → Prop
  | .idle | .running _ | .ended => False
  | _ => True

/-- A schedule in which at most one process at a time is in the course of `OutputDir::new`. -/
def SerialStarts : State → List Event → Prop
  | _, [] => True
  | s, e :: es =>
    (∀ p, e = .step p → s.pc p = .idle → ∀ q, ¬ PC.starting (s.pc q)) ∧
    ∀ s', exec s e = some s' → SerialStarts s' es

/-- The places after the first lock was dropped, or no old directory was found. -/
def PC.late : PC → Prop
  | .released | .cleared | .moved | .created | .opened2 _ | .locked2 _ => True
  | _ => False

structure SerialInv (s : State) : Prop where
  locks : LockInv s
  running : ∀ p d, s.pc p = .running d → s.out = some d
  first : ∀ p d, (s.pc p = .opened1 d ∨ s.pc p = .locked1 d) → s.out = some d
  second : ∀ p d, (s.pc p = .opened2 d ∨ s.pc p = .locked2 d) → s.out = some d
  alone : ∀ p, PC.late (s.pc p) → ∀ q d, s.pc q ≠ .running d
  single : ∀ p q, PC.starting (s.pc p) → PC.starting (s.pc q) → p = q

theorem late_starting {pc : PC} (h : PC.late pc) : PC.starting pc := by
  cases pc <;> simp_all [PC.late, PC.starting]

/-- If only `p` moves, within `OutputDir::new`, and no directory is renamed. -/
theorem serial_fail {s : State} (h : SerialInv s) (p : Nat) : SerialInv (s.fail p) := by
  have other : ∀ q, q ≠ p → (s.fail p).pc q = s.pc q := fun q hq => by simp [State.fail, upd_other _ _ _ _ hq]
  have self : (s.fail p).pc p = .ended := by simp [State.fail, upd_same]
  have back : ∀ q pc, (s.fail p).pc q = pc → pc ≠ .ended → s.pc q = pc := by
    intro q pc hq hne
    by_cases hqp : q = p
    · subst hqp; rw [self] at hq; exact absurd hq.symm hne
    · rw [other q hqp] at hq; exact hq
  refine ⟨lockInv_fail h.locks p, ?_, ?_, ?_, ?_, ?_⟩
  · intro q d hq; exact h.running q d (back q _ hq (by simp))
  · intro q d hq
    exact h.first q d (hq.imp (fun x => back q _ x (by simp)) (fun x => back q _ x (by simp)))
  · intro q d hq
    exact h.second q d (hq.imp (fun x => back q _ x (by simp)) (fun x => back q _ x (by simp)))
  · intro q hq r d hr
    have hq' : PC.late (s.pc q) := by
      by_cases hqp : q = p
      · subst hqp; rw [self] at hq; exact absurd hq (by simp [PC.late])
      · rw [other q hqp] at hq; exact hq
    exact h.alone q hq' r d (back r _ hr (by simp))
  · intro q r hq hr
    have f : ∀ q, PC.starting ((s.fail p).pc q) → PC.starting (s.pc q) := by
      intro q hq
      by_cases hqp : q = p
      · subst hqp; rw [self] at hq; exact absurd hq (by simp [PC.starting])
      · rw [other q hqp] at hq; exact hq
    exact h.single q r (f q hq) (f r hr)

theorem serial_move {s s' : State} {p : Nat} {b : PC} (h : SerialInv s) (hl : LockInv s')
    (hpc : s'.pc = upd s.pc p b) (hoth : ∀ q, q ≠ p → ¬ PC.starting (s.pc q))
    (hout : ∀ q d, q ≠ p → s.pc q = .running d → s'.out = some d)
    (hb : ∀ d, (b = .running d ∨ b = .opened1 d ∨ b = .locked1 d ∨ b = .opened2 d ∨ b = .locked2 d) →
      s'.out = some d)
    (hlate : PC.late b → ∀ q d, q ≠ p → s.pc q ≠ .running d) : SerialInv s' := by
  have self : s'.pc p = b := by rw [hpc, upd_same]
  have other : ∀ q, q ≠ p → s'.pc q = s.pc q := fun q hq => by rw [hpc, upd_other _ _ _ _ hq]
  have start : ∀ q, PC.starting (s'.pc q) → q = p := by
    intro q hq
    by_cases hqp : q = p
    · exact hqp
    · rw [other q hqp] at hq; exact absurd hq (hoth q hqp)
  refine ⟨hl, ?_, ?_, ?_, ?_, ?_⟩
  · intro q d hq
    by_cases hqp : q = p
    · subst hqp; rw [self] at hq; exact hb d (.inl hq)
    · rw [other q hqp] at hq; exact hout q d hqp hq
  · intro q d hq
    have : q = p := start q (by rcases hq with hq | hq <;> rw [hq] <;> trivial)
    subst this
    rw [self] at hq
    exact hb d (hq.elim (fun x => .inr (.inl x)) (fun x => .inr (.inr (.inl x))))
  · intro q d hq
    have : q = p := start q (by rcases hq with hq | hq <;> rw [hq] <;> trivial)
    subst this
    rw [self] at hq
    exact hb d (hq.elim (fun x => .inr (.inr (.inr (.inl x)))) (fun x => .inr (.inr (.inr (.inr x)))))
  · intro q hq r d hr
    have : q = p := start q (late_starting hq)
    subst this
    rw [self] at hq
    by_cases hrq : r = q
    · subst hrq; rw [self] at hr; subst hr; exact hq
    · rw [other r hrq] at hr; exact hlate hq r d hrq hr
  · intro q r hq hr; rw [start q hq, start r hr]

theorem serial_step {s s' : State} {p : Nat} (h : SerialInv s) (hs : step s p = some s')
    (hidle : s.pc p = .idle → ∀ q, ¬ PC.starting (s.pc q)) : SerialInv s' := by
  have hl := lockInv_step h.locks hs
  by_cases hfail : s' = s.fail p
  · rw [hfail]; exact serial_fail h p
  have hoth : PC.starting (s.pc p) → ∀ q, q ≠ p → ¬ PC.starting (s.pc q) :=
    fun hp q hq hsq => hq (h.single q p hsq hp)
  have hrun : ∀ q d, q ≠ p → s.pc q = .running d → s.out = some d := fun q d _ hq => h.running q d hq
  -- while `p` is past the lock, nobody runs
  have hnone : PC.late (s.pc p) → ∀ q d, q ≠ p → s.pc q ≠ .running d := fun hp q d _ => h.alone p hp q d
  unfold step at hs
  split at hs
  case h_1 hpc =>
    simp only [Option.some.injEq] at hs; subst hs
    refine serial_move h hl rfl (fun q _ => hidle hpc q) hrun ?_ ?_
    · intro d hd; split at hd <;> simp at hd
    · intro hlate q d _ hq
      have := h.running q d hq
      rw [this] at hlate
      simp [PC.late] at hlate
  case h_2 hpc =>
    split at hs <;> simp only [Option.some.injEq] at hs
    · rename_i d0 hd0
      subst hs
      refine serial_move h hl rfl (hoth (by rw [hpc]; trivial)) hrun ?_ (by simp [PC.late])
      intro d hd; simp at hd; subst hd; exact hd0
    · exact absurd hs.symm hfail
  case h_3 d0 hpc =>
    split at hs
    · simp only [Option.some.injEq] at hs; subst hs
      refine serial_move h hl rfl (hoth (by rw [hpc]; trivial)) hrun ?_ (by simp [PC.late])
      intro d hd; simp at hd; subst hd; exact h.first p _ (.inl hpc)
    · cases hs
  case h_4 d0 hpc =>
    simp only [Option.some.injEq] at hs; subst hs
    refine serial_move h hl rfl (hoth (by rw [hpc]; trivial)) hrun (by simp) ?_
    intro _ q d hqp hq
    have h1 := h.running q d hq
    have h2 := h.first p d0 (.inr hpc)
    rw [h1] at h2
    cases h2
    have h3 := h.locks q d0 (.inr (.inr hq))
    have h4 := h.locks p d0 (.inl hpc)
    rw [h3] at h4
    exact hqp (Option.some.inj h4)
  case h_5 hpc =>
    simp only [Option.some.injEq] at hs; subst hs
    exact serial_move h hl rfl (hoth (by rw [hpc]; trivial)) hrun (by simp)
      (fun _ => hnone (by rw [hpc]; trivial))
  case h_6 hpc =>
    split at hs <;> simp only [Option.some.injEq] at hs
    · subst hs
      exact serial_move h hl rfl (hoth (by rw [hpc]; trivial))
        (fun q d hq hr => absurd hr (hnone (by rw [hpc]; trivial) q d hq)) (by simp)
        (fun _ => hnone (by rw [hpc]; trivial))
    · exact absurd hs.symm hfail
  case h_7 hpc =>
    split at hs <;> simp only [Option.some.injEq] at hs
    · subst hs
      exact serial_move h hl rfl (hoth (by rw [hpc]; trivial))
        (fun q d hq hr => absurd hr (hnone (by rw [hpc]; trivial) q d hq)) (by simp)
        (fun _ => hnone (by rw [hpc]; trivial))
    · exact absurd hs.symm hfail
  case h_8 hpc =>
    split at hs <;> simp only [Option.some.injEq] at hs
    · rename_i d0 hd0
      subst hs
      refine serial_move h hl rfl (hoth (by rw [hpc]; trivial)) hrun ?_
        (fun _ => hnone (by rw [hpc]; trivial))
      intro d hd; simp at hd; subst hd; exact hd0
    · exact absurd hs.symm hfail
  case h_9 d0 hpc =>
    split at hs
    · simp only [Option.some.injEq] at hs; subst hs
      refine serial_move h hl rfl (hoth (by rw [hpc]; trivial)) hrun ?_
        (fun _ => hnone (by rw [hpc]; trivial))
      intro d hd; simp at hd; subst hd; exact h.second p _ (.inl hpc)
    · cases hs
  case h_10 d0 hpc =>
    split at hs
    · split at hs <;> simp only [Option.some.injEq] at hs
      · exact absurd hs.symm hfail
      · subst hs
        refine serial_move h hl rfl (hoth (by rw [hpc]; trivial)) hrun ?_ (by simp [PC.late])
        intro d hd; simp at hd; subst hd; exact h.second p _ (.inr hpc)
    · simp only [Option.some.injEq] at hs; exact absurd hs.symm hfail
  case h_11 => simp only [Option.some.injEq] at hs; exact absurd hs.symm hfail
  case h_12 => cases hs

theorem serial_exec {s s' : State} {es : List Event} (h : SerialInv s) (hser : SerialStarts s es)
    (he : execAll s es = some s') : SerialInv s' := by
  induction es generalizing s with
  | nil => simp only [execAll, Option.some.injEq] at he; subst he; exact h
  | cons e es ih =>
    simp only [execAll, Option.bind_eq_some_iff] at he
    obtain ⟨s1, h1, h2⟩ := he
    refine ih ?_ (hser.2 s1 h1) h2
    cases e with
    | step p => exact serial_step h h1 (hser.1 p rfl)
    | kill p => simp only [exec, Option.some.injEq] at h1; subst h1; exact serial_fail h p

/-- C18 for schedules in which processes create their output directories one at a time (as a lock
outside of the directory would enforce), with runs otherwise overlapping in any way and processes
killed at any time: a running process's directory is the one called `mutants.out`, and at most one
process runs. Missing from the full statement: overlapping starts, for which it is false. -/
theorem C18_runs_exclusive_partial (hasOut hasOld : Bool) (es : List Event) (s : State)
    (hser : SerialStarts (initial hasOut hasOld) es)
    (h : execAll (initial hasOut hasOld) es = some s) :
    (∀ p d, s.pc p = .running d → s.out = some d) ∧
    (∀ p q d d', s.pc p = .running d → s.pc q = .running d' → p = q) := by
  have h0 : SerialInv (initial hasOut hasOld) :=
    ⟨lockInv_initial _ _, by simp [initial], by simp [initial], by simp [initial],
      by simp [initial, PC.late], by simp [initial, PC.starting]⟩
  have inv := serial_exec h0 hser h
  refine ⟨inv.running, ?_⟩
  intro p q d d' hp hq
  have h1 := inv.running p d hp
  have h2 := inv.running q d' hq
  rw [h1] at h2
  cases h2
  exact C18_one_run_per_directory_partial hasOut hasOld es s h p q d hp hq

/-- A schedule that meets the hypothesis: process 1 runs, 2 waits for it, 1 ends, 2 runs. -/
def serialSchedule : List Event :=
  [.step 1, .step 1, .step 1, .step 1, .step 1, .step 1, .step 1, .step 1, .step 1, .step 1,
   .step 2, .step 2, .kill 1, .step 2, .step 2, .step 2, .step 2, .step 2, .step 2, .step 2, .step 2]
example : (execAll (initial true true) serialSchedule).map (fun s => (s.pc 1, s.pc 2, s.out, s.old)) =
    some (.ended, .running 3, some 3, some 2) := by decide
/-- While process 1 runs, process 2 cannot get past the lock. -/
example : execAll (initial true true) (serialSchedule.take 12 ++ [.step 2]) = none := by decide

end CM.Props
