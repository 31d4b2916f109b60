import Verif.Model.Process
/-! One cargo child process: C25, C26. -/
namespace CM.Props
open CM CM.Proc

theorem exec_append (s : State) (a b : List Event) :
    exec s (a ++ b) = (exec s a).bind fun t => exec t b := by
  induction a generalizing s with
  | nil => rfl
  | cons e a ih =>
    simp only [List.cons_append, exec]
    cases step s e with
    | none => rfl
    | some t => simp [ih]

/-- An invariant that holds at the start and is kept by every step holds after every execution. -/
theorem exec_inv (P : State → Prop) (hstep : ∀ s e t, P s → step s e = some t → P t)
    (s : State) (es : List Event) (t : State) (hs : P s) (h : exec s es = some t) : P t := by
  induction es generalizing s with
  | nil => simp only [exec, Option.some.injEq] at h; exact h ▸ hs
  | cons e es ih =>
    simp only [exec, Option.bind_eq_some_iff] at h
    obtain ⟨u, h1, h2⟩ := h
    exact ih u (hstep _ _ _ hs h1) h2

/-- Split a `step` equation into its cases. -/
macro "step_cases" h:ident : tactic =>
  `(tactic| (simp only [step] at $h:ident
             repeat' (split at $h:ident)
             all_goals first
               | (cases $h:ident; done)
               | skip))

/-- The child has been started and has not been waited for. -/
def Live (c : Child) : Prop := c = .running ∨ ∃ st, c = .exited st

/-- The child has been waited for, or could not be but has been sent the signal or was not running. -/
def Ended (s : State) : Prop :=
  (∃ st, s.child = .reaped st) ∨ (s.waitFailed = true ∧ (s.signalled = true ∨ s.child ≠ .running))

/-- Invariant: what is known at every place of the program. -/
def PInv (s : State) : Prop :=
  match s.pc with
  | .spawn => s.child = .absent
  | .checkTime | .checkInterrupt | .tryWait | .asleep _ => Live s.child
  | .kill r => Live s.child ∧ (r = .timeout → pastLimit s = true) ∧ (r = .interrupted → s.interrupted = true)
  | .wait r => Live s.child ∧ (s.signalled = true ∨ s.child ≠ .running) ∧
      (r = .timeout → pastLimit s = true) ∧ (r = .interrupted → s.interrupted = true)
  | .log e => Ended s ∧
      ((e = .timeout ∧ pastLimit s = true) ∨ ∃ st, s.child = .reaped st ∧ e = Exit.ofStatus st)
  | .done (.ok e) => Ended s ∧
      ((e = .timeout ∧ pastLimit s = true) ∨ ∃ st, s.child = .reaped st ∧ e = Exit.ofStatus st)
  | .done .interrupted => Ended s ∧ s.interrupted = true
  | .done .logFailed => Ended s
  | .done .spawnFailed => s.child = .absent
  | .done .killFailed | .done .tryWaitFailed => Live s.child

theorem pastLimit_mono (s : State) (n : Nat) (h : pastLimit s = true) :
    pastLimit { s with clock := s.clock + n } = true := by
  unfold pastLimit at *
  cases hl : s.limit with
  | none => rw [hl] at h; exact h
  | some l =>
    rw [hl] at h
    simp only [decide_eq_true_eq] at h ⊢
    omega

theorem pinv_step (s : State) (e : Event) (t : State) (h : PInv s) (hs : step s e = some t) : PInv t := by
  cases e with
  | tick n =>
    simp only [step, Option.some.injEq] at hs
    subst hs
    revert h
    have hm := pastLimit_mono s n
    unfold PInv Ended
    rcases hpc : s.pc with _ | _ | _ | _ | u | r | r | x | res <;> simp only [hpc]
    · exact id
    · exact id
    · exact id
    · exact id
    · exact id
    · exact fun ⟨a, b, c⟩ => ⟨a, fun x => hm (b x), c⟩
    · exact fun ⟨a, b, c, d⟩ => ⟨a, b, fun x => hm (c x), d⟩
    · exact fun ⟨a, b⟩ => ⟨a, b.imp (fun ⟨x, y⟩ => ⟨x, hm y⟩) id⟩
    · cases res <;> simp only
      · exact fun ⟨a, b⟩ => ⟨a, b.imp (fun ⟨x, y⟩ => ⟨x, hm y⟩) id⟩
      all_goals exact id
  | childExits st =>
    simp only [step] at hs
    split at hs
    · rename_i hc
      simp only [Option.some.injEq] at hs
      subst hs
      revert h
      unfold PInv Ended Live
      rcases hpc : s.pc with _ | _ | _ | _ | u | r | r | x | res <;>
        simp only [hpc, hc] <;> try (intro h; simp_all [pastLimit]; done)
      cases res <;> simp_all [pastLimit]
    · cases hs
  | ctrlC =>
    simp only [step, Option.some.injEq] at hs
    subst hs
    revert h
    unfold PInv Ended
    rcases hpc : s.pc with _ | _ | _ | _ | u | r | r | x | res <;> simp only [hpc]
    · exact id
    · exact id
    · exact id
    · exact id
    · exact id
    · exact fun ⟨a, b, c⟩ => ⟨a, b, fun _ => trivial⟩
    · exact fun ⟨a, b, c, d⟩ => ⟨a, b, c, fun _ => trivial⟩
    · exact id
    · cases res <;> simp only
      · exact id
      · exact fun ⟨a, _⟩ => ⟨a, trivial⟩
      all_goals exact id
  | spawn ok =>
    simp only [step] at hs
    split at hs
    · rename_i hpc
      split at hs <;> simp only [Option.some.injEq] at hs <;> subst hs
      · exact .inl rfl
      · unfold PInv at h; rw [hpc] at h; exact h
    · cases hs
  | checkTime =>
    simp only [step] at hs
    split at hs
    · rename_i hpc
      unfold PInv at h
      rw [hpc] at h
      split at hs <;> simp only [Option.some.injEq] at hs <;> subst hs
      · rename_i hp
        exact ⟨h, fun _ => hp, (fun x => by cases x)⟩
      · exact h
    · cases hs
  | checkInterrupt =>
    simp only [step] at hs
    split at hs
    · rename_i hpc
      unfold PInv at h
      rw [hpc] at h
      split at hs <;> simp only [Option.some.injEq] at hs <;> subst hs
      · rename_i hp
        exact ⟨h, (fun x => by cases x), fun _ => hp⟩
      · exact h
    · cases hs
  | tryWait ok =>
    simp only [step] at hs
    split at hs
    · rename_i hpc
      unfold PInv at h
      rw [hpc] at h
      split at hs
      · simp only [Option.some.injEq] at hs; subst hs; exact h
      · split at hs
        · simp only [Option.some.injEq] at hs; subst hs
          exact ⟨.inl ⟨_, rfl⟩, .inr ⟨_, rfl, rfl⟩⟩
        · simp only [Option.some.injEq] at hs; subst hs; exact h
        · cases hs
    · cases hs
  | wake =>
    simp only [step] at hs
    split at hs
    · rename_i u hpc
      unfold PInv at h
      rw [hpc] at h
      split at hs
      · simp only [Option.some.injEq] at hs; subst hs; exact h
      · cases hs
    · cases hs
  | kill r =>
    simp only [step] at hs
    split at hs
    · rename_i why hpc
      unfold PInv at h
      rw [hpc] at h
      obtain ⟨h1, h2, h3⟩ := h
      split at hs
      · simp only [Option.some.injEq] at hs; subst hs
        exact ⟨h1, .inl rfl, h2, h3⟩
      · split at hs
        · cases hs
        · rename_i hr
          simp only [Option.some.injEq] at hs; subst hs
          exact ⟨h1, .inr hr, h2, h3⟩
      · simp only [Option.some.injEq] at hs; subst hs; exact h1
    · cases hs
  | wait ok =>
    simp only [step] at hs
    split at hs
    · rename_i why hpc
      unfold PInv at h
      rw [hpc] at h
      obtain ⟨h1, h2, h3, h4⟩ := h
      split at hs
      · split at hs
        · simp only [Option.some.injEq] at hs; subst hs
          cases why
          · exact ⟨.inl ⟨_, rfl⟩, .inl ⟨rfl, h3 rfl⟩⟩
          · exact ⟨.inl ⟨_, rfl⟩, h4 rfl⟩
        · cases hs
      · simp only [Option.some.injEq] at hs; subst hs
        cases why
        · exact ⟨.inr ⟨rfl, h2⟩, .inl ⟨rfl, h3 rfl⟩⟩
        · exact ⟨.inr ⟨rfl, h2⟩, h4 rfl⟩
    · cases hs
  | log ok =>
    simp only [step] at hs
    split at hs
    · rename_i x hpc
      unfold PInv at h
      rw [hpc] at h
      simp only [Option.some.injEq] at hs; subst hs
      cases ok
      · exact h.1
      · exact h
    · cases hs

theorem pinv_reachable (limit : Option Nat) (es : List Event) (t : State)
    (h : exec (init limit) es = some t) : PInv t :=
  exec_inv PInv pinv_step (init limit) es t (show Child.absent = Child.absent from rfl) h

theorem limit_const (limit : Option Nat) (es : List Event) (t : State)
    (h : exec (init limit) es = some t) : t.limit = limit := by
  refine exec_inv (fun s => s.limit = limit) ?_ _ es t rfl h
  intro s e t hs hst
  cases e <;> simp only [step] at hst <;> (repeat' split at hst) <;>
    first | (cases hst; done) | (simp only [Option.some.injEq] at hst; subst hst; exact hs)

/-! ### C25 -/

/-- C25: in every execution, when a command has given a result, or ended with the error for an
interrupt (or a log that cannot be written), the child has exited and been waited for; or the operating
system refused to wait for it, after it was sent the termination signal or had exited. -/
theorem C25_not_left_running (limit : Option Nat) (es : List Event) (t : State) (r : Result)
    (h : exec (init limit) es = some t) (hd : t.pc = .done r)
    (hr : (∃ e, r = .ok e) ∨ r = .interrupted ∨ r = .logFailed) :
    (∃ st, t.child = .reaped st) ∨
    (t.waitFailed = true ∧ (t.signalled = true ∨ t.child ≠ .running)) := by
  have hi := pinv_reachable limit es t h
  unfold PInv at hi
  rw [hd] at hi
  rcases hr with ⟨e, rfl⟩ | rfl | rfl
  · exact hi.1
  · exact hi.1
  · exact hi

/-- C25: a timeout is reported only if there is a limit and it has passed; every other result is the
status with which the child exited, and in particular success means status 0; the error for an interrupt
means that there was one. -/
theorem C25_results_are_true (limit : Option Nat) (es : List Event) (t : State) (r : Result)
    (h : exec (init limit) es = some t) (hd : t.pc = .done r) :
    (r = .ok .timeout → ∃ l, limit = some l ∧ l < t.clock) ∧
    (r = .ok .success → ∃ st, t.child = .reaped st ∧ st.code = some 0) ∧
    (∀ c, r = .ok (.failure c) → ∃ st, t.child = .reaped st ∧ st.code = some c ∧ c ≠ 0) ∧
    (∀ n, r = .ok (.signalled n) → ∃ st, t.child = .reaped st ∧ st.code = none ∧ st.signal = some n) ∧
    (r = .interrupted → t.interrupted = true) := by
  have hi := pinv_reachable limit es t h
  have hl := limit_const limit es t h
  unfold PInv at hi
  rw [hd] at hi
  refine ⟨?_, ?_, ?_, ?_, ?_⟩
  · rintro rfl
    rcases hi.2 with ⟨_, hp⟩ | ⟨st, _, he⟩
    · unfold pastLimit at hp
      rw [hl] at hp
      cases limit with
      | none => cases hp
      | some l => exact ⟨l, rfl, of_decide_eq_true hp⟩
    · unfold Exit.ofStatus at he
      repeat' split at he
      all_goals cases he
  · rintro rfl
    rcases hi.2 with ⟨he, _⟩ | ⟨st, hc, he⟩
    · cases he
    · refine ⟨st, hc, ?_⟩
      unfold Exit.ofStatus at he
      split at he
      · split at he
        · rename_i h0; simp_all
        · cases he
      · split at he <;> cases he
  · rintro c rfl
    rcases hi.2 with ⟨he, _⟩ | ⟨st, hc, he⟩
    · cases he
    · refine ⟨st, hc, ?_⟩
      unfold Exit.ofStatus at he
      split at he
      · split at he
        · cases he
        · cases he; exact ⟨by assumption, by assumption⟩
      · split at he <;> cases he
  · rintro n rfl
    rcases hi.2 with ⟨he, _⟩ | ⟨st, hc, he⟩
    · cases he
    · refine ⟨st, hc, ?_⟩
      unfold Exit.ofStatus at he
      split at he
      · split at he <;> cases he
      · split at he
        · cases he; exact ⟨by assumption, by assumption⟩
        · cases he
  · rintro rfl
    exact hi.2

/-- A run with a limit of one second whose child is terminated after it. -/
def timeoutTrace : List Event :=
  [.spawn true, .checkTime, .checkInterrupt, .tryWait true, .tick 1000000001, .wake, .checkTime,
   .kill .ok, .childExits ⟨none, some 15⟩, .wait true, .log true]

example : (exec (init (some 1000000000)) timeoutTrace).map (fun s => (s.pc, s.child)) =
    some (.done (.ok .timeout), .reaped ⟨none, some 15⟩) := by decide

/-! ### C26 -/

/-- C26 in full: if the program is never delayed, every command with a limit is over at the first poll
after the limit, so not later than one polling interval after it. -/
def C26_full : Prop :=
  ∀ (l : Nat) (es : List Event) (t : State), exec (init (some l)) es = some t →
    -- it has passed the limit by more than the interval and nothing that it could do is pending
    l + pollInterval < t.clock → (∀ e, e.isProgram = true → e ≠ .wait false → step t e = none) →
    ∃ r, t.pc = .done r

/-- The full claim is false: only SIGTERM is sent, and then the program waits for ever for a child that
ignores it (`src/process.rs:129-139`). -/
theorem C26_returns_false : ¬ C26_full := by
  intro h
  have := h 0 [.spawn true, .tick 1, .checkTime, .kill .ok, .tick 50000000]
    { limit := some 0, clock := 50000001, child := .running, signalled := true, pc := .wait .timeout }
    (by decide) (by decide) (by
      intro e he hw
      cases e with
      | tick _ => cases he
      | childExits _ => cases he
      | ctrlC => cases he
      | wait ok =>
        cases ok
        · exact absurd rfl hw
        · rfl
      | _ => rfl)
  obtain ⟨r, hr⟩ := this
  cases hr

/-- C26: when the program looks at the clock after the limit, it goes on to terminate the child, whatever
the child does and whether or not there is an interrupt. -/
theorem C26_first_poll_partial (l : Nat) (s t : State) (hl : s.limit = some l) (hc : l < s.clock)
    (h : step s .checkTime = some t) : t = { s with pc := .kill .timeout } := by
  simp only [step] at h
  split at h
  · have : pastLimit s = true := by unfold pastLimit; rw [hl]; exact decide_eq_true hc
    rw [this] at h
    simp only [if_true, Option.some.injEq] at h
    exact h.symm
  · cases h

/-- Has the decision to terminate been taken, or is the command over? -/
def ending : Pc → Bool
  | .kill _ | .wait _ | .log _ | .done _ => true
  | _ => false

theorem ending_step (s : State) (e : Event) (t : State) (h : ending s.pc = true) (hs : step s e = some t) :
    ending t.pc = true := by
  cases e <;> simp only [step] at hs <;> (repeat' split at hs) <;>
    first
    | (cases hs; done)
    | (simp only [Option.some.injEq] at hs; subst hs
       first
       | exact h
       | rfl
       | (rename_i hpc; rw [hpc] at h; cases h)
       | (simp_all [ending]; done)
       | (dsimp only; split <;> rfl))

/-- C26: after that decision no further poll is ever made. -/
theorem C26_no_more_polls_partial (l : Nat) (s t u : State) (es : List Event) (hl : s.limit = some l)
    (hc : l < s.clock) (h : step s .checkTime = some t) (hu : exec t es = some u) :
    step u .checkTime = none ∧ step u .wake = none ∧ ∀ ok, step u (.tryWait ok) = none := by
  have e := C26_first_poll_partial l s t hl hc h
  have : ending u.pc = true :=
    exec_inv (fun s => ending s.pc = true) ending_step t es u (by rw [e]; rfl) hu
  cases hpc : u.pc <;> rw [hpc] at this <;> simp_all [step, ending]

/-- Time passes only while the program sleeps, not beyond the end of the sleep, or while it waits for
a terminated child. -/
def promptStep (s : State) (e : Event) : Bool :=
  match e with
  | .tick n =>
    match s.pc with
    | .asleep u => decide (s.clock + n ≤ u)
    | .wait _ => decide (s.child = .running)
    | _ => n == 0
  | _ => true

/-- All ticks in the execution are of that kind. -/
def prompt (s : State) : List Event → Bool
  | [] => true
  | e :: es => promptStep s e && (match step s e with
    | none => true
    | some t => prompt t es)

/-- C26: if the program itself takes no time, then until the termination signal is sent (or the child
could not be killed, or the command is over) the clock is at most one polling interval past the limit. -/
theorem C26_signal_in_time_partial (l : Nat) (es : List Event) (t : State)
    (h : exec (init (some l)) es = some t) (hp : prompt (init (some l)) es = true) :
    t.clock ≤ l + pollInterval ∨ (∃ r, t.pc = .wait r) ∨ (∃ e, t.pc = .log e) ∨ (∃ r, t.pc = .done r) := by
  -- invariant
  let I : State → Prop := fun s => s.limit = some l ∧
    match s.pc with
    | .spawn | .checkTime | .kill _ => s.clock ≤ l + pollInterval
    | .checkInterrupt | .tryWait => s.clock ≤ l
    | .asleep u => s.clock ≤ u ∧ u ≤ l + pollInterval
    | _ => True
  have key : ∀ es s, I s → exec s es = some t → prompt s es = true → I t := by
    intro es
    induction es with
    | nil => intro s hs he _; simp only [exec, Option.some.injEq] at he; exact he ▸ hs
    | cons e es ih =>
      intro s hs he hp
      simp only [exec, Option.bind_eq_some_iff] at he
      obtain ⟨u, hu, he⟩ := he
      simp only [prompt, hu, Bool.and_eq_true] at hp
      refine ih u ?_ he hp.2
      obtain ⟨hl, hs⟩ := hs
      cases e with
      | tick n =>
        simp only [step, Option.some.injEq] at hu
        subst hu
        refine ⟨hl, ?_⟩
        have hq := hp.1
        unfold promptStep at hq
        rcases hpc : s.pc with _ | _ | _ | _ | u | r | r | x | res <;>
          simp only [hpc, beq_iff_eq, decide_eq_true_eq] at hs hq ⊢ <;> omega
      | childExits st =>
        simp only [step] at hu
        split at hu
        · simp only [Option.some.injEq] at hu; subst hu; exact ⟨hl, hs⟩
        · cases hu
      | ctrlC => simp only [step, Option.some.injEq] at hu; subst hu; exact ⟨hl, hs⟩
      | spawn ok =>
        simp only [step] at hu
        split at hu
        · rename_i hpc
          rw [hpc] at hs
          split at hu <;> simp only [Option.some.injEq] at hu <;> subst hu
          · exact ⟨hl, hs⟩
          · exact ⟨hl, trivial⟩
        · cases hu
      | checkTime =>
        simp only [step] at hu
        split at hu
        · rename_i hpc
          rw [hpc] at hs
          split at hu <;> simp only [Option.some.injEq] at hu <;> subst hu
          · exact ⟨hl, hs⟩
          · rename_i hn
            unfold pastLimit at hn
            rw [hl] at hn
            simp only [decide_eq_true_eq, Nat.not_lt] at hn
            exact ⟨hl, hn⟩
        · cases hu
      | checkInterrupt =>
        simp only [step] at hu
        split at hu
        · rename_i hpc
          rw [hpc] at hs
          split at hu <;> simp only [Option.some.injEq] at hu <;> subst hu
          · exact ⟨hl, Nat.le_trans hs (Nat.le_add_right _ _)⟩
          · exact ⟨hl, hs⟩
        · cases hu
      | tryWait ok =>
        simp only [step] at hu
        split at hu
        · rename_i hpc
          rw [hpc] at hs
          have hs : s.clock ≤ l := hs
          split at hu
          · simp only [Option.some.injEq] at hu; subst hu; exact ⟨hl, trivial⟩
          · split at hu
            · simp only [Option.some.injEq] at hu; subst hu; exact ⟨hl, trivial⟩
            · simp only [Option.some.injEq] at hu; subst hu
              refine ⟨hl, ?_⟩
              show s.clock ≤ s.clock + pollInterval ∧ s.clock + pollInterval ≤ l + pollInterval
              omega
            · cases hu
        · cases hu
      | wake =>
        simp only [step] at hu
        split at hu
        · rename_i w hpc
          rw [hpc] at hs
          split at hu
          · simp only [Option.some.injEq] at hu; subst hu
            exact ⟨hl, Nat.le_trans hs.1 hs.2⟩
          · cases hu
        · cases hu
      | kill r =>
        simp only [step] at hu
        repeat' split at hu
        all_goals first
          | (cases hu; done)
          | (simp only [Option.some.injEq] at hu; subst hu; exact ⟨hl, trivial⟩)
      | wait ok =>
        simp only [step] at hu
        repeat' split at hu
        all_goals first
          | (cases hu; done)
          | (simp only [Option.some.injEq] at hu; subst hu; exact ⟨hl, trivial⟩)
      | log ok =>
        simp only [step] at hu
        repeat' split at hu
        all_goals first
          | (cases hu; done)
          | (simp only [Option.some.injEq] at hu; subst hu; exact ⟨hl, trivial⟩)
  have hi := key es (init (some l)) ⟨rfl, Nat.zero_le _⟩ h hp
  obtain ⟨_, hi⟩ := hi
  rcases hpc : t.pc with _ | _ | _ | _ | u | r | r | x | res
  · rw [hpc] at hi; exact .inl hi
  · rw [hpc] at hi; exact .inl hi
  · rw [hpc] at hi; exact .inl (Nat.le_trans hi (Nat.le_add_right _ _))
  · rw [hpc] at hi; exact .inl (Nat.le_trans hi (Nat.le_add_right _ _))
  · rw [hpc] at hi; exact .inl (Nat.le_trans hi.1 hi.2)
  · rw [hpc] at hi; exact .inl hi
  · exact .inr (.inl ⟨_, rfl⟩)
  · exact .inr (.inr (.inl ⟨_, rfl⟩))
  · exact .inr (.inr (.inr ⟨_, rfl⟩))

/-- C26: once the child has exited (as most do when they get the signal) the command is over in at most
six steps of the program (after the rest of its sleep), if the operating system does what it is asked. -/
theorem C26_over_when_child_exits_partial (limit : Option Nat) (es : List Event) (t : State) (st : ExitStatus)
    (h : exec (init limit) es = some t) (hc : t.child = .exited st)
    (hd : ∀ r, t.pc ≠ .done r) (hw : t.waitFailed = false) :
    ∃ more, more.length ≤ 7 ∧ (∀ e ∈ more, e.isProgram = true ∨ ∃ n, e = .tick n) ∧
      ∃ u r, exec t more = some u ∧ u.pc = .done r ∧ u.child = .reaped st := by
  have hi := pinv_reachable limit es t h
  -- from the first check on
  have fromKill : ∀ why (s : State), s.pc = .kill why → s.child = .exited st →
      ∃ u r, exec s ([.kill .ok, .wait true] ++ (match why with | .timeout => [.log true] | .interrupted => [])) = some u ∧
        u.pc = .done r ∧ u.child = .reaped st := by
    intro why s hpc hch
    cases why <;> simp [exec, step, hpc, hch]
  have fromWait : ∀ why (s : State), s.pc = .wait why → s.child = .exited st →
      ∃ u r, exec s ([.wait true] ++ (match why with | .timeout => [.log true] | .interrupted => [])) = some u ∧
        u.pc = .done r ∧ u.child = .reaped st := by
    intro why s hpc hch
    cases why <;> simp [exec, step, hpc, hch]
  have fromTry : ∀ (s : State), s.pc = .tryWait → s.child = .exited st →
      ∃ u r, exec s [.tryWait true, .log true] = some u ∧ u.pc = .done r ∧ u.child = .reaped st := by
    intro s hpc hch
    simp [exec, step, hpc, hch]
  have fromInt : ∀ (s : State), s.pc = .checkInterrupt → s.child = .exited st →
      ∃ more, more.length ≤ 4 ∧ (∀ e ∈ more, e.isProgram = true) ∧
      ∃ u r, exec s more = some u ∧ u.pc = .done r ∧ u.child = .reaped st := by
    intro s hpc hch
    by_cases hint : s.interrupted = true
    · obtain ⟨u, r, h1, h2, h3⟩ := fromKill .interrupted { s with pc := .kill .interrupted } rfl hch
      refine ⟨[.checkInterrupt, .kill .ok, .wait true], by decide, by decide, u, r, ?_, h2, h3⟩
      simp only [exec, step, hpc, if_true, hint, Option.bind_some] at h1 ⊢
      exact h1
    · obtain ⟨u, r, h1, h2, h3⟩ := fromTry { s with pc := .tryWait } rfl hch
      refine ⟨[.checkInterrupt, .tryWait true, .log true], by decide, by decide, u, r, ?_, h2, h3⟩
      have e : step s .checkInterrupt = some { s with pc := .tryWait } := by
        simp only [step]
        rw [if_pos hpc, if_neg hint]
      rw [exec, e]
      exact h1
  have fromTime : ∀ (s : State), s.pc = .checkTime → s.child = .exited st →
      ∃ more, more.length ≤ 5 ∧ (∀ e ∈ more, e.isProgram = true) ∧
      ∃ u r, exec s more = some u ∧ u.pc = .done r ∧ u.child = .reaped st := by
    intro s hpc hch
    by_cases hpast : pastLimit s = true
    · obtain ⟨u, r, h1, h2, h3⟩ := fromKill .timeout { s with pc := .kill .timeout } rfl hch
      refine ⟨[.checkTime, .kill .ok, .wait true, .log true], by decide, by decide, u, r, ?_, h2, h3⟩
      rw [exec]
      simp only [step, hpc, if_true, hpast, Option.bind_some]
      exact h1
    · obtain ⟨more, hl, hm, u, r, h1, h2, h3⟩ := fromInt { s with pc := .checkInterrupt } rfl hch
      refine ⟨.checkTime :: more, Nat.succ_le_succ hl, ?_, u, r, ?_, h2, h3⟩
      · intro e he
        rcases List.mem_cons.1 he with rfl | he
        · rfl
        · exact hm e he
      · rw [exec]
        simp only [step, hpc, if_true, hpast, Bool.false_eq_true, if_false, Option.bind_some]
        exact h1
  unfold PInv at hi
  rcases hpc : t.pc with _ | _ | _ | _ | u | r | r | x | res
  · rw [hpc, hc] at hi; cases hi
  · obtain ⟨more, a, b, c⟩ := fromTime t hpc hc
    exact ⟨more, by omega, fun e he => .inl (b e he), c⟩
  · obtain ⟨more, a, b, c⟩ := fromInt t hpc hc
    exact ⟨more, by omega, fun e he => .inl (b e he), c⟩
  · exact ⟨_, by decide, by intro e he; left; revert e; decide, fromTry t hpc hc⟩
  · obtain ⟨more, a, b, w, r, c1, c2, c3⟩ :=
      fromTime { t with clock := t.clock + u, pc := .checkTime } rfl hc
    refine ⟨.tick u :: .wake :: more, by simp only [List.length_cons]; omega, ?_, w, r, ?_, c2, c3⟩
    · intro e he
      rcases List.mem_cons.1 he with rfl | he
      · exact .inr ⟨_, rfl⟩
      · rcases List.mem_cons.1 he with rfl | he
        · exact .inl rfl
        · exact .inl (b e he)
    · rw [exec]
      simp only [step, Option.bind_some]
      rw [exec]
      simp only [step, hpc, Nat.le_add_left, if_true, Option.bind_some]
      exact c1
  · refine ⟨_, ?_, ?_, fromKill r t hpc hc⟩
    · cases r <;> decide
    · cases r <;> (intro e he; left; revert e; decide)
  · refine ⟨_, ?_, ?_, fromWait r t hpc hc⟩
    · cases r <;> decide
    · cases r <;> (intro e he; left; revert e; decide)
  · rw [hpc] at hi
    rcases hi.1 with ⟨st', h'⟩ | ⟨h', _⟩
    · rw [hc] at h'; cases h'
    · rw [hw] at h'; cases h'
  · exact absurd hpc (hd res)

/-! ### C27 for one command -/

/-- An invariant of the steps of a prompt execution. -/
theorem exec_prompt_inv (P : State → Prop)
    (hstep : ∀ s e t, P s → promptStep s e = true → step s e = some t → P t)
    (s : State) (es : List Event) (t : State) (hs : P s) (h : exec s es = some t)
    (hp : prompt s es = true) : P t := by
  induction es generalizing s with
  | nil => simp only [exec, Option.some.injEq] at h; exact h ▸ hs
  | cons e es ih =>
    simp only [exec, Option.bind_eq_some_iff] at h
    obtain ⟨u, h1, h2⟩ := h
    simp only [prompt, h1, Bool.and_eq_true] at hp
    exact ih u (hstep _ _ _ hs hp.1 h1) h2 hp.2

/-- Invariant after an interrupt that came before the last check for interrupts: there will be no
ordinary result. -/
def Stopping (s : State) : Prop :=
  s.interrupted = true ∧
  match s.pc with
  | .tryWait => False
  | .log e => e = .timeout
  | .done (.ok e) => e = .timeout
  | _ => True

theorem stopping_step (s : State) (e : Event) (t : State) (h : Stopping s) (hs : step s e = some t) :
    Stopping t := by
  obtain ⟨hi, hm⟩ := h
  cases e with
  | tick n => simp only [step, Option.some.injEq] at hs; subst hs; exact ⟨hi, hm⟩
  | ctrlC => simp only [step, Option.some.injEq] at hs; subst hs; exact ⟨rfl, hm⟩
  | childExits st =>
    simp only [step] at hs
    split at hs
    · simp only [Option.some.injEq] at hs; subst hs; exact ⟨hi, hm⟩
    · cases hs
  | checkInterrupt =>
    simp only [step, hi, if_true] at hs
    split at hs
    · simp only [Option.some.injEq] at hs; subst hs; exact ⟨rfl, trivial⟩
    · cases hs
  | tryWait ok =>
    simp only [step] at hs
    split at hs
    · rename_i hpc; rw [hpc] at hm; exact hm.elim
    · cases hs
  | log ok =>
    simp only [step] at hs
    split at hs
    · rename_i x hpc
      rw [hpc] at hm
      simp only [Option.some.injEq] at hs; subst hs
      cases ok
      · exact ⟨hi, trivial⟩
      · exact ⟨hi, hm⟩
    · cases hs
  | wait ok =>
    simp only [step] at hs
    repeat' split at hs
    all_goals first
      | (cases hs; done)
      | (simp only [Option.some.injEq] at hs; subst hs
         first
         | exact ⟨hi, rfl⟩
         | exact ⟨hi, trivial⟩)
  | _ =>
    simp only [step] at hs
    repeat' split at hs
    all_goals first
      | (cases hs; done)
      | (simp only [Option.some.injEq] at hs; subst hs; exact ⟨hi, trivial⟩)

/-- C27: if the user interrupts while a command is running (or before it starts), and the program has not
just made its last check, then the command never gives an ordinary result: it ends with the error for the
interrupt, with a timeout, or with another error. -/
theorem C27_interrupted_command_fails (s t : State) (es : List Event) (h : exec s es = some t)
    (hi : s.interrupted = true) (h1 : s.pc ≠ .tryWait) (h2 : ∀ e, s.pc ≠ .log e) (h3 : ∀ r, s.pc ≠ .done r)
    (e : Exit) (hd : t.pc = .done (.ok e)) : e = .timeout := by
  have hs : Stopping s := by
    refine ⟨hi, ?_⟩
    split
    · rename_i hpc; exact h1 hpc
    · rename_i x hpc; exact absurd hpc (h2 x)
    · rename_i x hpc; exact absurd hpc (h3 _)
    · trivial
  have := exec_inv Stopping stopping_step s es t hs h
  obtain ⟨_, hm⟩ := this
  rw [hd] at hm
  exact hm

/-- C27: the command does not go on for long after an interrupt. If the program itself takes no time, then
until it has sent the termination signal (or could not, or the command is over) the clock is at most one
polling interval past the time of the interrupt. -/
theorem C27_signal_after_interrupt (limit : Option Nat) (es es' : List Event) (s t : State)
    (h : exec (init limit) es = some s) (hp : prompt (init limit) es = true) (hi : s.interrupted = true)
    (h' : exec s es' = some t) (hp' : prompt s es' = true) :
    t.clock ≤ s.clock + pollInterval ∨ (∃ r, t.pc = .wait r) ∨ (∃ e, t.pc = .log e) ∨
      (∃ r, t.pc = .done r) := by
  -- a sleep is never longer than the interval
  let I : State → Prop := fun s => ∀ u, s.pc = .asleep u → s.clock ≤ u ∧ u ≤ s.clock + pollInterval
  have hI : I s := by
    refine exec_prompt_inv I ?_ _ es s (by intro u hu; cases hu) h hp
    intro a e b ha hpr hst
    cases e with
    | tick n =>
      simp only [step, Option.some.injEq] at hst; subst hst
      intro u hu
      have := ha u hu
      unfold promptStep at hpr
      rw [show a.pc = .asleep u from hu] at hpr
      simp only [decide_eq_true_eq] at hpr
      exact ⟨hpr, by show u ≤ a.clock + n + pollInterval; omega⟩
    | tryWait ok =>
      simp only [step] at hst
      repeat' split at hst
      all_goals first
        | (cases hst; done)
        | (simp only [Option.some.injEq] at hst; subst hst
           intro u hu
           first
           | (cases hu; done)
           | (cases hu; exact ⟨Nat.le_add_right _ _, Nat.le_refl _⟩))
    | _ =>
      simp only [step] at hst
      repeat' split at hst
      all_goals first
        | (cases hst; done)
        | (simp only [Option.some.injEq] at hst; subst hst
           intro u hu
           first
           | (cases hu; done)
           | exact ha u hu
           | (revert hu; dsimp only; split <;> (intro hu; cases hu)))
  let J : State → Prop := fun a => a.interrupted = true ∧
    match a.pc with
    | .tryWait => a.clock ≤ s.clock
    | .asleep u => a.clock ≤ u ∧ u ≤ s.clock + pollInterval
    | .spawn | .checkTime | .checkInterrupt | .kill _ => a.clock ≤ s.clock + pollInterval
    | _ => True
  have hJ : J t := by
    refine exec_prompt_inv J ?_ s es' t ?_ h' hp'
    · intro a e b ha hpr hst
      obtain ⟨hai, ha⟩ := ha
      cases e with
      | tick n =>
        simp only [step, Option.some.injEq] at hst; subst hst
        refine ⟨hai, ?_⟩
        unfold promptStep at hpr
        rcases hpc : a.pc with _ | _ | _ | _ | u | r | r | x | res <;>
          simp only [hpc, beq_iff_eq, decide_eq_true_eq] at ha hpr ⊢ <;> omega
      | ctrlC => simp only [step, Option.some.injEq] at hst; subst hst; exact ⟨rfl, ha⟩
      | childExits st =>
        simp only [step] at hst
        split at hst
        · simp only [Option.some.injEq] at hst; subst hst; exact ⟨hai, ha⟩
        · cases hst
      | checkInterrupt =>
        simp only [step, hai, if_true] at hst
        split at hst
        · rename_i hpc; rw [hpc] at ha
          simp only [Option.some.injEq] at hst; subst hst; exact ⟨rfl, ha⟩
        · cases hst
      | tryWait ok =>
        simp only [step] at hst
        split at hst
        · rename_i hpc; rw [hpc] at ha
          repeat' split at hst
          all_goals first
            | (cases hst; done)
            | (simp only [Option.some.injEq] at hst; subst hst; exact ⟨hai, trivial⟩)
            | (simp only [Option.some.injEq] at hst; subst hst
               refine ⟨hai, ?_⟩
               show a.clock ≤ a.clock + pollInterval ∧ a.clock + pollInterval ≤ s.clock + pollInterval
               have ha : a.clock ≤ s.clock := ha
               omega)
        · cases hst
      | wake =>
        simp only [step] at hst
        split at hst
        · rename_i w hpc
          rw [hpc] at ha
          split at hst
          · simp only [Option.some.injEq] at hst; subst hst
            exact ⟨hai, Nat.le_trans ha.1 ha.2⟩
          · cases hst
        · cases hst
      | spawn ok =>
        simp only [step] at hst
        split at hst
        · rename_i hpc
          rw [hpc] at ha
          split at hst <;> simp only [Option.some.injEq] at hst <;> subst hst
          · exact ⟨hai, ha⟩
          · exact ⟨hai, trivial⟩
        · cases hst
      | checkTime =>
        simp only [step] at hst
        split at hst
        · rename_i hpc
          rw [hpc] at ha
          split at hst <;> simp only [Option.some.injEq] at hst <;> subst hst
          · exact ⟨hai, ha⟩
          · exact ⟨hai, ha⟩
        · cases hst
      | _ =>
        simp only [step] at hst
        repeat' split at hst
        all_goals first
          | (cases hst; done)
          | (simp only [Option.some.injEq] at hst; subst hst; exact ⟨hai, trivial⟩)
    · refine ⟨hi, ?_⟩
      rcases hpc : s.pc with _ | _ | _ | _ | u | r | r | x | res <;> dsimp only <;>
        first | trivial | exact Nat.le_add_right _ _ | exact Nat.le_refl _ | exact hI u hpc
  obtain ⟨_, hm⟩ := hJ
  have hm := hm
  rcases hpc : t.pc with _ | _ | _ | _ | u | r | r | x | res
  · rw [hpc] at hm; exact .inl hm
  · rw [hpc] at hm; exact .inl hm
  · rw [hpc] at hm; exact .inl hm
  · rw [hpc] at hm; exact .inl (Nat.le_trans hm (Nat.le_add_right _ _))
  · rw [hpc] at hm; exact .inl (Nat.le_trans hm.1 hm.2)
  · rw [hpc] at hm; exact .inl hm
  · exact .inr (.inl ⟨_, rfl⟩)
  · exact .inr (.inr (.inl ⟨_, rfl⟩))
  · exact .inr (.inr (.inr ⟨_, rfl⟩))

/-- An interrupt during the sleep of a command without limit: the signal is sent after the sleep. -/
def interruptTrace : List Event × List Event :=
  ([.spawn true, .checkTime, .checkInterrupt, .tryWait true, .tick 1000, .ctrlC],
   [.tick 49999000, .wake, .checkTime, .checkInterrupt, .kill .ok, .childExits ⟨none, some 15⟩, .wait true])

example : (exec (init none) interruptTrace.1).map (fun s => (s.interrupted, s.clock)) = some (true, 1000) ∧
    prompt (init none) (interruptTrace.1 ++ interruptTrace.2) = true ∧
    (exec (init none) (interruptTrace.1 ++ interruptTrace.2)).map (fun s => (s.pc, s.clock)) =
      some (.done .interrupted, 50000000) := by decide

end CM.Props
