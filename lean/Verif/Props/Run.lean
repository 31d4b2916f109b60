import Verif.Proofs.Run
import Verif.Proofs.LabEnd
import Verif.Spec.Run
import Verif.Props.Lab
import Verif.Props.Cargo
/-! Runs with the processes that they start: C71, C72, C73. -/
namespace CM.Props
open CM CM.Spec

namespace RunSample

/-- One mutant, with limits that are short, so that its test times out. -/
def cfg : Run.Config where
  mutants := [sampleMutant]
  options := { minimumTestTimeout := 1 }
  workspace := ⟨⟨[], [], none⟩, []⟩
  nanos := fun x => (x * 1000000000).ceil.toNat
  tree := Sample.tree

def ok : Run.Event := .worker 0 .ok

/-- A child is started and runs for less than an interval. -/
def cmd (st : ExitStatus) : List Run.Event :=
  [.proc 0 (.spawn true), .proc 0 .checkTime, .proc 0 .checkInterrupt, .proc 0 (.tryWait true), .childExits 0 st,
   .tick 60000000, .proc 0 .wake, .proc 0 .checkTime, .proc 0 .checkInterrupt, .proc 0 (.tryWait true), .proc 0 (.log true),
   .leave 0 60000001]

/-- A child that is terminated after a second. -/
def slow : List Run.Event :=
  [.proc 0 (.spawn true), .proc 0 .checkTime, .proc 0 .checkInterrupt, .proc 0 (.tryWait true), .tick 1000000001,
   .proc 0 .wake, .proc 0 .checkTime, .proc 0 (.kill .ok), .childExits 0 ⟨none, some 15⟩, .proc 0 (.wait true),
   .proc 0 (.log true), .leave 0 1000000002]

def exit0 : ExitStatus := ⟨some 0, none⟩

def run : List Run.Event :=
  [.main true, ok, ok, .main true, ok, ok, ok] ++ cmd exit0 ++ [ok] ++ cmd exit0 ++ [ok, ok, ok, .main true] ++
  [ok, ok, ok, ok, ok, ok, ok] ++ cmd exit0 ++ [ok] ++ slow ++ [ok, ok, ok, ok, .main true]

end RunSample

example : (Run.exec RunSample.cfg (Run.init RunSample.cfg) RunSample.run).map (fun s =>
    (s.lab.sh.out.lab.outcomes.map fun o => o.phaseResults.map fun r => (r.phase, r.status, r.duration),
      s.past.map fun x => x.2.child)) =
    some ([[(.build, .success, 60000001), (.test, .success, 60000001)],
           [(.build, .success, 60000001), (.test, .timeout, 1000000002)]],
      [.reaped ⟨none, some 15⟩, .reaped RunSample.exit0, .reaped RunSample.exit0, .reaped RunSample.exit0]) := by
  decide +kernel

example : spawns 0 RunSample.run = 4 ∧ exits 0 RunSample.run = 4 ∧ elapsed RunSample.run = 1180000001 := by decide +kernel

/-! ### C71 -/

theorem ceil_limit (a b : Rat) : ratMax a b = if b < a then a else b := by
  unfold ratMax
  by_cases h : a ≤ b
  · rw [if_pos h, if_neg (Rat.not_lt.2 h)]
  · rw [if_neg h, if_pos (Rat.not_le.1 h)]

theorem phaseResult_find (b : ScenarioOutcome) (p : Phase) :
    (b.phaseResult p).map (fun r => secsOf r.duration) = baselineSecs (some b) p := by
  rfl

/-- The limits for mutants are the documented ones. -/
theorem limits_documented {o : Options} {b : Option ScenarioOutcome} {t : Timeouts}
    (h : (match b with | some b => Timeouts.fromBaseline b o | none => Timeouts.withoutBaseline o) = some t)
    (m : Mutant) (p : Phase) : t.forPhase p = documentedLimit o b (.mutant m) p := by
  have h' : ∃ x y, buildTimeout (baselineSecs b .build) o = some x ∧ testTimeout (baselineSecs b .test) o = some y ∧
      t = { build := x, test := some y } := by
    cases b with
    | some b =>
      simp only [Timeouts.fromBaseline, Option.bind_eq_bind, Option.bind_eq_some_iff, Option.pure_def,
        Option.some.injEq] at h
      obtain ⟨x, h1, y, h2, h3⟩ := h
      exact ⟨x, y, h1, h2, h3.symm⟩
    | none =>
      simp only [Timeouts.withoutBaseline, Option.bind_eq_bind, Option.bind_eq_some_iff, Option.pure_def,
        Option.some.injEq] at h
      obtain ⟨x, h1, y, h2, h3⟩ := h
      exact ⟨x, y, h1, h2, h3.symm⟩
  obtain ⟨x, y, h1, h2, rfl⟩ := h'
  have hb : x = documentedLimit o b (.mutant m) .build := by
    unfold buildTimeout at h1
    unfold documentedLimit
    cases hbt : o.buildTimeout with
    | some v => simp only [hbt] at h1 ⊢; cases h1; rfl
    | none =>
      simp only [hbt] at h1 ⊢
      cases hs : baselineSecs b .build with
      | none => simp only [hs] at h1 ⊢; cases h1; rfl
      | some secs =>
        simp only [hs] at h1 ⊢
        cases hm : o.buildTimeoutMultiplier with
        | none => simp only [hm] at h1 ⊢; cases h1; rfl
        | some mult =>
          simp only [hm] at h1 ⊢
          unfold durationOfSecs at h1
          split at h1
          · cases h1
          · cases h1; rfl
  cases p with
  | build => exact hb
  | check => exact hb
  | test =>
    show some y = _
    unfold testTimeout at h2
    unfold documentedLimit
    cases ht : o.testTimeout with
    | some v => simp only [ht] at h2 ⊢; exact h2.symm
    | none =>
      simp only [ht] at h2 ⊢
      cases hs : baselineSecs b .test with
      | none => simp only [hs] at h2 ⊢; split at h2 <;> cases h2 <;> simp [*]
      | some secs =>
        simp only [hs] at h2 ⊢
        unfold durationOfSecs at h2
        split at h2
        · cases h2
        · cases h2; rw [ceil_limit]

/-- The limit of a command is the documented one. -/
theorem limit_eq {cfg : Run.Config} {s : Run.State} (hs : Run.Inv cfg s) (sc : Scenario) (p : Phase)
    (ht : sc.isMutant = true → s.timeouts ≠ none) :
    cfg.limit s.timeouts sc p =
      (documentedLimit cfg.options (recordedBaseline cfg.options s.lab.sh.out.lab.outcomes) sc p).map cfg.nanos := by
  cases sc with
  | baseline => cases p <;> rfl
  | mutant m =>
    cases htt : s.timeouts with
    | none => exact (ht rfl htt).elim
    | some t =>
      have h := hs.origin t htt
      show (t.forPhase p).map _ = _
      congr 1
      refine limits_documented ?_ m p
      unfold recordedBaseline
      by_cases hb : cfg.options.baseline = .run
      · rw [if_pos hb] at h ⊢
        obtain ⟨o, h1, h2, _, h3⟩ := h
        cases hl : s.lab.sh.out.lab.outcomes with
        | nil => rw [hl] at h1; cases h1
        | cons x xs =>
          rw [hl] at h1
          cases h1
          simp only [List.find?_cons, h2, decide_true]
          exact h3
      · rw [if_neg hb] at h ⊢
        exact h

/-- C71: every recorded result of a phase is that of a process which this run has started, with the command line for
the scenario and the phase; the process had the documented limit, it ended with the recorded status, and took
no longer than the recorded time. -/
theorem C71_results_are_of_processes (cfg : Run.Config) (s : Run.State) (h : Run.Reachable cfg s)
    (o : ScenarioOutcome) (ho : o ∈ s.lab.sh.out.lab.outcomes) (r : PhaseResult) (hr : r ∈ o.phaseResults) :
    r.argv = cargoArgv cfg.bin (cfg.packages o.scenario) r.phase cfg.options ∧
    ∃ i q trace, (i, q) ∈ s.past ∧
      Proc.exec (Proc.init ((documentedLimit cfg.options
        (recordedBaseline cfg.options s.lab.sh.out.lab.outcomes) o.scenario r.phase).map cfg.nanos)) trace = some q ∧
      q.pc = .done (.ok r.status) ∧ q.clock ≤ r.duration := by
  have hi := Run.reachable_inv h
  obtain ⟨h1, i, q, h2, ⟨trace, h3⟩, h4, h5⟩ := hi.recorded o ho r hr
  rw [limit_eq hi _ _ (hi.known o ho)] at h3
  exact ⟨h1, i, q, trace, h2, h3, h4, h5⟩

/-- C71: the packages whose tests the recorded commands ran: for a mutant its own package, unless packages were named or
the whole workspace was asked for; for the baseline those of the mutants. -/
theorem C71_tested_packages (cfg : Run.Config) (s : Run.State) (h : Run.Reachable cfg s)
    (o : ScenarioOutcome) (ho : o ∈ s.lab.sh.out.lab.outcomes) (r : PhaseResult) (hr : r ∈ o.phaseResults)
    (hn : NamesOk cfg.workspace.packages) (hx : PlainExtras cfg.options) (chosen : Package → Prop) (p : Package)
    (hms : ∀ m ∈ cfg.mutants, m.sourceFile.package ∈ cfg.workspace.packages) :
    (∀ m, o.scenario = .mutant m → cfg.options.testPackage = .mutated → m ∈ cfg.mutants →
      (CM.Spec.Tests cfg.workspace.packages chosen r.argv.tail p ↔ p = m.sourceFile.package)) ∧
    (∀ m, o.scenario = .mutant m → cfg.options.testPackage = .workspace →
      (CM.Spec.Tests cfg.workspace.packages chosen r.argv.tail p ↔ p ∈ cfg.workspace.packages)) ∧
    (∀ m names, o.scenario = .mutant m → cfg.options.testPackage = .named names →
      (∃ q ∈ cfg.workspace.packages, q.name ∈ names) →
      (CM.Spec.Tests cfg.workspace.packages chosen r.argv.tail p ↔ p ∈ cfg.workspace.packages ∧ p.name ∈ names)) ∧
    (o.scenario = .baseline → cfg.options.testPackage = .mutated → cfg.mutants ≠ [] →
      (CM.Spec.Tests cfg.workspace.packages chosen r.argv.tail p ↔ ∃ m ∈ cfg.mutants, p = m.sourceFile.package)) := by
  obtain ⟨ha, _⟩ := C71_results_are_of_processes cfg s h o ho r hr
  rw [ha]
  refine ⟨?_, ?_, ?_, ?_⟩
  · intro m hm ht hmem
    rw [hm]
    exact C35_default cfg.workspace hn chosen cfg.bin cfg.options hx ht r.phase m (hms m hmem) p
  · intro m hm ht
    rw [hm]
    exact C35_workspace cfg.workspace hn chosen cfg.bin cfg.options hx ht r.phase m p
  · intro m names hm ht hex
    rw [hm]
    exact C35_named_partial cfg.workspace hn chosen cfg.bin cfg.options hx names ht hex r.phase m p
  · intro hb ht hne
    rw [hb]
    rw [show (∃ m ∈ cfg.mutants, p = m.sourceFile.package) ↔
      ∃ m ∈ cfg.mutants, MutantTests cfg.workspace chosen cfg.bin cfg.options r.phase m p from
      ⟨fun ⟨m, h1, h2⟩ => ⟨m, h1, (C35_default _ hn chosen _ _ hx ht r.phase m (hms m h1) p).2 h2⟩,
       fun ⟨m, h1, h2⟩ => ⟨m, h1, (C35_default _ hn chosen _ _ hx ht r.phase m (hms m h1) p).1 h2⟩⟩]
    exact C35_baseline_partial cfg.workspace hn chosen cfg.bin cfg.options hx ht r.phase cfg.mutants hne hms p

/-- The hypotheses of `C71_tested_packages` can be met: a workspace of two packages with a mutant in one of them. -/
example : NamesOk wsAB.packages ∧ (∀ m ∈ [mutantOfA], m.sourceFile.package ∈ wsAB.packages) ∧
    ((Run.exec { RunSample.cfg with mutants := [mutantOfA], workspace := wsAB } (Run.init { RunSample.cfg with mutants := [mutantOfA], workspace := wsAB })
      RunSample.run).map fun s => s.lab.sh.out.lab.outcomes.map fun o => o.phaseResults.map fun r => r.argv.drop 2) =
    some (List.replicate 2 [["--no-run".toList, "--verbose".toList, "--package=a@1.0.0".toList],
      ["--verbose".toList, "--package=a@1.0.0".toList]]) :=
  ⟨wsAB_names, by intro m hm; rw [List.mem_singleton] at hm; subst hm; exact List.Mem.head _, by decide +kernel⟩

/-- C71: what the recorded status says of the process: a timeout is recorded only for commands with a limit, and the
recorded time is longer than it. For success there is a process of this run, with the documented limit, that exited with
code 0, and for a failure one that exited with that code. -/
theorem C71_status_is_true (cfg : Run.Config) (s : Run.State) (h : Run.Reachable cfg s)
    (o : ScenarioOutcome) (ho : o ∈ s.lab.sh.out.lab.outcomes) (r : PhaseResult) (hr : r ∈ o.phaseResults) :
    (r.status = .timeout → ∃ l, documentedLimit cfg.options
        (recordedBaseline cfg.options s.lab.sh.out.lab.outcomes) o.scenario r.phase = some l ∧ cfg.nanos l < r.duration) ∧
    ∃ i q trace, (i, q) ∈ s.past ∧ Proc.exec (Proc.init ((documentedLimit cfg.options
        (recordedBaseline cfg.options s.lab.sh.out.lab.outcomes) o.scenario r.phase).map cfg.nanos)) trace = some q ∧
      q.pc = .done (.ok r.status) ∧
      (r.status = .success → ∃ st, q.child = .reaped st ∧ st.code = some 0) ∧
      (∀ c, r.status = .failure c → ∃ st, q.child = .reaped st ∧ st.code = some c ∧ c ≠ 0) ∧
      (∀ n, r.status = .signalled n → ∃ st, q.child = .reaped st ∧ st.code = none ∧ st.signal = some n) := by
  obtain ⟨_, i, q, trace, h2, h3, h4, h5⟩ := C71_results_are_of_processes cfg s h o ho r hr
  obtain ⟨h6, h7, h8, h9, _⟩ := C25_results_are_true _ _ _ _ h3 h4
  refine ⟨?_, i, q, trace, h2, h3, h4, fun hst => h7 (by rw [hst]), fun c hst => h8 c (by rw [hst]),
    fun n hst => h9 n (by rw [hst])⟩
  intro hst
  obtain ⟨l, h9, h10⟩ := h6 (by rw [hst])
  obtain ⟨l', h11, rfl⟩ := Option.map_eq_some_iff.1 h9
  exact ⟨l', h11, by omega⟩

/-- C71: the build of the baseline never times out, and that of a mutant only if a limit for builds was asked for. -/
theorem C71_builds_do_not_time_out (cfg : Run.Config) (s : Run.State) (h : Run.Reachable cfg s)
    (o : ScenarioOutcome) (ho : o ∈ s.lab.sh.out.lab.outcomes) (r : PhaseResult) (hr : r ∈ o.phaseResults)
    (hp : r.phase ≠ .test)
    (hn : o.scenario = .baseline ∨ (cfg.options.buildTimeout = none ∧ cfg.options.buildTimeoutMultiplier = none)) :
    r.status ≠ .timeout := by
  intro hst
  obtain ⟨l, hl, _⟩ := (C71_status_is_true cfg s h o ho r hr).1 hst
  rcases hn with hn | ⟨hn, hn'⟩
  · rw [hn] at hl
    cases hpp : r.phase <;> rw [hpp] at hl hp
    case test => exact hp rfl
    all_goals cases hl
  · cases hsc : o.scenario <;> cases hpp : r.phase <;> rw [hsc, hpp] at hl
    case baseline.test => exact hp hpp
    case mutant.test => exact hp hpp
    case baseline.build => cases hl
    case baseline.check => cases hl
    all_goals
      simp only [documentedLimit, hn, hn'] at hl
      generalize baselineSecs _ _ = x at hl
      cases x <;> cases hl

/-- C71: with the automatic limit and a multiplier of at least 1, the tests of a mutant are recorded as timed out only
if they took longer than those of the baseline, whose outcome is recorded too. -/
theorem C71_timeout_is_slower_than_baseline (cfg : Run.Config) (s : Run.State) (h : Run.Reachable cfg s)
    (hnanos : ∀ (x : Rat) (n : Nat), (n : Rat) / 1000000000 ≤ x → n ≤ cfg.nanos x)
    (hb : cfg.options.baseline = .run) (hc : cfg.options.checkOnly = false) (ht : cfg.options.testTimeout = none)
    (hm : 1 ≤ cfg.options.testTimeoutMultiplier.getD 5)
    (o : ScenarioOutcome) (ho : o ∈ s.lab.sh.out.lab.outcomes) (m : Mutant) (hsc : o.scenario = .mutant m)
    (r : PhaseResult) (hr : r ∈ o.phaseResults) (hp : r.phase = .test) (hst : r.status = .timeout) :
    ∃ b ∈ s.lab.sh.out.lab.outcomes, ∃ rb ∈ b.phaseResults, b.scenario = .baseline ∧ rb.phase = .test ∧
      rb.status = .success ∧ rb.duration < r.duration := by
  have hi := Run.reachable_inv h
  obtain ⟨l, hl, hlt⟩ := (C71_status_is_true cfg s h o ho r hr).1 hst
  cases htt : s.timeouts with
  | none => exact (hi.known o ho (by rw [hsc]; rfl) htt).elim
  | some t =>
    have h1 := hi.origin t htt
    rw [if_pos hb] at h1
    obtain ⟨b, h1, h2, h3, h4⟩ := h1
    have hmem : b ∈ s.lab.sh.out.lab.outcomes := List.mem_of_mem_head? h1
    have hcomp := (Lab.reachable_records hi.lab).complete b hmem
    obtain ⟨r1, r2, hrs, hp2, hs2⟩ : ∃ r1 r2, b.phaseResults = [r1, r2] ∧ r1.phase = .build ∧ r2.phase = .test ∧
        r2.status.isSuccess = true := by
      rcases hcomp with ⟨e1, e2⟩ | ⟨rs0, x, rest, e1, e2, e3, e4⟩
      · have hph : cfg.lab.phases = [.build, .test] := by simp [Lab.Config.phases, Run.Config.lab, hc, phasesFor]
        rw [hph] at e1
        match hbr : b.phaseResults, e1 with
        | [r1, r2], e1 =>
          simp at e1
          exact ⟨r1, r2, rfl, e1.1.symm, e1.2.symm, e2 r2 (by rw [hbr]; simp)⟩
        | [], e1 => simp at e1
        | [_], e1 => simp at e1
        | _ :: _ :: _ :: _, e1 => simp at e1
      · unfold ScenarioOutcome.success ScenarioOutcome.lastPhaseResult at h3
        rw [e1] at h3
        simp [e4] at h3
    have hfind : recordedBaseline cfg.options s.lab.sh.out.lab.outcomes = some b := by
      unfold recordedBaseline
      rw [if_pos hb]
      cases hl : s.lab.sh.out.lab.outcomes with
      | nil => rw [hl] at h1; cases h1
      | cons x xs =>
        rw [hl] at h1
        cases h1
        simp [h2]
    have hsecs : baselineSecs (some b) .test = some ((r2.duration : Rat) / 1000000000) := by
      simp [baselineSecs, hrs, hp2, hs2.1]
    rw [hfind, hsc, hp] at hl
    simp only [documentedLimit, ht, hsecs] at hl
    refine ⟨b, hmem, r2, by rw [hrs]; simp, h2, hs2.1, ?_, ?_⟩
    · cases hst2 : r2.status <;> first | rfl | (rw [hst2] at hs2; cases hs2.2)
    · have hle : (r2.duration : Rat) / 1000000000 ≤ l := by
        have hd : (0 : Rat) ≤ (r2.duration : Rat) / 1000000000 := by
          rw [Rat.div_def]
          exact Rat.mul_nonneg (by exact_mod_cast Nat.zero_le _) (by decide +kernel)
        have e1 : (r2.duration : Rat) / 1000000000 * 1 ≤
            (r2.duration : Rat) / 1000000000 * cfg.options.testTimeoutMultiplier.getD 5 :=
          Rat.mul_le_mul_of_nonneg_left hm hd
        rw [Rat.mul_one] at e1
        have e2 := Rat.le_ceil (x := (r2.duration : Rat) / 1000000000 * cfg.options.testTimeoutMultiplier.getD 5)
        have e3 := Rat.le_trans e1 e2
        cases hl
        split
        · rename_i hlt'
          exact Rat.le_trans e3 (Rat.le_of_lt hlt')
        · exact e3
      have := hnanos l r2.duration hle
      omega

/-- Rounding up is faithful in the sense of the theorem. -/
example (x : Rat) (n : Nat) (h : (n : Rat) / 1000000000 ≤ x) : n ≤ RunSample.cfg.nanos x := by
  show n ≤ (x * 1000000000).ceil.toNat
  have h1 : (n : Rat) / 1000000000 * 1000000000 ≤ x * 1000000000 := Rat.mul_le_mul_of_nonneg_right h (by decide +kernel)
  rw [Rat.div_mul_cancel (by decide +kernel)] at h1
  have h2 : (n : Rat) ≤ ((x * 1000000000).ceil : Rat) := Rat.le_trans h1 Rat.le_ceil
  have h3 : (n : Int) ≤ (x * 1000000000).ceil := by exact_mod_cast h2
  omega

/-! ### C72 -/

theorem exec_snoc_ind (cfg : Run.Config) (P : List Run.Event → Run.State → Prop) (h0 : P [] (Run.init cfg))
    (hstep : ∀ es s e s', Run.Reachable cfg s → P es s → Run.step cfg s e = some s' → P (es ++ [e]) s') :
    ∀ es s, Run.exec cfg (Run.init cfg) es = some s → P es s := by
  have key : ∀ (es pre : List Run.Event) (s s' : Run.State), Run.Reachable cfg s → P pre s →
      Run.exec cfg s es = some s' → P (pre ++ es) s' := by
    intro es
    induction es with
    | nil => intro pre s s' _ hp he; cases he; simpa using hp
    | cons e es ih =>
      intro pre s s' hr hp he
      obtain ⟨t, h1, h2⟩ := Option.bind_eq_some_iff.1 he
      have := ih (pre ++ [e]) t s' (Run.Reachable.step hr h1) (hstep pre s e t hr hp h1) h2
      simpa using this
  intro es s h
  exact key es [] _ s ⟨[], rfl⟩ h0 h

/-- 1 if the child is running. -/
def childCount : Option Proc.State → Nat
  | some q => if q.child = .running then 1 else 0
  | none => 0

/-- How many processes were left by thread `i` with the child running. -/
def leftRunning (i : Nat) (past : List (Nat × Proc.State)) : Nat :=
  past.countP fun x => x.1 == i && decide (x.2.child = .running)

theorem pinv_of_ran {limit q} (h : Run.Ran limit q) : PInv q := by
  obtain ⟨es, h⟩ := h
  exact pinv_reachable limit es q h

theorem proc_child {q e q'} (hs : Proc.step q e = some q')
    (h1 : ∀ ok, e ≠ .spawn ok) (h2 : ∀ st, e ≠ .childExits st) : childCount (some q') = childCount (some q) := by
  cases e
  case spawn ok => exact (h1 ok rfl).elim
  case childExits st => exact (h2 st rfl).elim
  all_goals
    simp only [Proc.step] at hs
    repeat' split at hs
    all_goals first | (cases hs; done) | skip
  all_goals
    cases hs
    simp_all [childCount]

theorem proc_spawn {q ok q'} (hp : PInv q) (hs : Proc.step q (.spawn ok) = some q') :
    childCount (some q') = childCount (some q) + ok.toNat := by
  simp only [Proc.step] at hs
  repeat' split at hs
  all_goals first | (cases hs; done) | skip
  all_goals
    rename_i h _
    unfold PInv at hp
    rw [h] at hp
    cases hs
    simp_all [childCount]

theorem proc_exit {q st q'} (hs : Proc.step q (.childExits st) = some q') :
    childCount (some q') + 1 = childCount (some q) := by
  simp only [Proc.step] at hs
  split at hs
  · cases hs; simp_all [childCount]
  · cases hs

/-- What a step changes. -/
theorem step_children {cfg s e s'} (hi : Run.Inv cfg s) (hst : Run.step cfg s e = some s') (i : Nat) :
    childCount (s'.procs i) + leftRunning i s'.past + (isExit i e).toNat =
      childCount (s.procs i) + leftRunning i s.past + (isSpawn i e).toNat := by
  have hpinv : ∀ j q, s.procs j = some q → PInv q := by
    intro j q hq
    have := hi.procs j
    rw [hq] at this
    obtain ⟨_, _, _, _, _, _, h, _⟩ := this.some
    exact pinv_of_ran h
  cases e with
  | tick n =>
    cases hst
    simp only [isExit, isSpawn, Bool.toNat_false, Nat.add_zero]
    cases s.procs i <;> rfl
  | interrupt =>
    obtain ⟨l, h1, rfl⟩ := Option.map_eq_some_iff.1 hst
    simp only [isExit, isSpawn, Bool.toNat_false, Nat.add_zero]
    cases s.procs i <;> rfl
  | childExits j st =>
    obtain ⟨q, hq, h1⟩ := Option.bind_eq_some_iff.1 hst
    obtain ⟨q', hq', rfl⟩ := Option.map_eq_some_iff.1 h1
    have := proc_exit hq'
    by_cases hj : i = j
    · subst hj
      simp only [isExit, isSpawn, Run.setAt, if_true, hq, beq_self_eq_true, Bool.toNat_true, Bool.toNat_false]
      omega
    · have hb : (j == i) = false := by simpa using fun h => hj h.symm
      simp [isExit, isSpawn, Run.setAt, if_neg hj, hb]
  | main ok =>
    have hp : s'.procs = s.procs ∧ s'.past = s.past := by
      simp only [Run.step] at hst
      split at hst
      · obtain ⟨l, h1, rfl⟩ := Option.map_eq_some_iff.1 hst; exact ⟨rfl, rfl⟩
      · split at hst
        · obtain ⟨l, h1, rfl⟩ := Option.map_eq_some_iff.1 hst; exact ⟨rfl, rfl⟩
        · obtain ⟨l, h1, rfl⟩ := Option.map_eq_some_iff.1 hst; exact ⟨rfl, rfl⟩
    rw [hp.1, hp.2]; rfl
  | worker j c =>
    simp only [Run.step] at hst
    split at hst
    · cases hst
    rename_i hq
    obtain ⟨l, h1, rfl⟩ := Option.map_eq_some_iff.1 hst
    by_cases hj : i = j
    · subst hj
      have h0 : s.procs i = none := by simpa using hq
      simp only [isExit, isSpawn, Run.setAt, if_true, h0, Bool.toNat_false]
      unfold Run.started
      split <;> rfl
    · simp [isExit, isSpawn, Run.setAt, if_neg hj]
  | proc j e =>
    simp only [Run.step] at hst
    split at hst
    · rename_i he
      obtain ⟨q, hq, h1⟩ := Option.bind_eq_some_iff.1 hst
      obtain ⟨q', hq', rfl⟩ := Option.map_eq_some_iff.1 h1
      by_cases hj : i = j
      · subst hj
        by_cases hsp : ∃ ok, e = .spawn ok
        · obtain ⟨ok, rfl⟩ := hsp
          have := proc_spawn (hpinv i q hq) hq'
          simp only [isExit, isSpawn, Run.setAt, if_true, hq, beq_self_eq_true, Bool.true_and, Bool.toNat_false]
          omega
        · have := proc_child hq' (fun ok h => hsp ⟨ok, h⟩) (by rintro st rfl; cases he)
          have hns : isSpawn i (.proc i e) = false := by
            cases e <;> first | rfl | exact (hsp ⟨_, rfl⟩).elim
          simp only [isExit, hns, Run.setAt, if_true, hq, Bool.toNat_false]
          omega
      · have hns : isSpawn i (.proc j e) = false := by
          cases e <;> simp [isSpawn, Ne.symm hj]
        simp [isExit, hns, Run.setAt, if_neg hj]
    · cases hst
  | leave j dur =>
    simp only [Run.step] at hst
    obtain ⟨q, hq, h1⟩ := Option.bind_eq_some_iff.1 hst
    split at h1
    · split at h1
      · obtain ⟨l, h2, rfl⟩ := Option.map_eq_some_iff.1 h1
        by_cases hj : i = j
        · subst hj
          simp only [isExit, isSpawn, Run.setAt, if_true, hq, leftRunning, List.countP_cons, childCount]
          simp
          omega
        · have hb : (j == i) = false := by simpa using fun h => hj h.symm
          simp [isExit, isSpawn, Run.setAt, if_neg hj, leftRunning, Ne.symm hj]
      · cases h1
    · cases h1

/-- C72: of each thread, the children that have been started are those that have exited, the one that it is waiting for
if this is running, and those that it left running. -/
theorem C72_children_accounted (cfg : Run.Config) (es : List Run.Event) (s : Run.State)
    (h : Run.exec cfg (Run.init cfg) es = some s) (i : Nat) :
    spawns i es = exits i es + childCount (s.procs i) + leftRunning i s.past := by
  revert es s
  refine exec_snoc_ind cfg _ ?_ ?_
  · rfl
  · intro es s e s' hr ih hst
    have := step_children (Run.reachable_inv hr) hst i
    simp only [spawns, exits, List.countP_append, List.countP_singleton] at ih ⊢
    cases h1 : isSpawn i e <;> cases h2 : isExit i e <;> simp [h1, h2] at this ⊢ <;> omega

/-- C72: a child is left running only if the operating system refused to signal it or to wait for it, or if it has been
sent the signal and waiting for it failed. -/
theorem C72_why_left (cfg : Run.Config) (s : Run.State) (h : Run.Reachable cfg s) (i : Nat) (q : Proc.State)
    (hq : (i, q) ∈ s.past) (hc : q.child = .running) :
    q.pc = .done .killFailed ∨ q.pc = .done .tryWaitFailed ∨ (q.waitFailed = true ∧ q.signalled = true) := by
  obtain ⟨limit, r, h1, h2⟩ := (Run.reachable_inv h).past _ hq
  have hp := pinv_of_ran h1
  unfold PInv at hp
  simp only at h2 hp
  rw [h2] at hp
  have hend : Ended q → q.waitFailed = true ∧ q.signalled = true := by
    rintro (⟨st, h⟩ | ⟨h3, h4⟩)
    · rw [hc] at h; cases h
    · rcases h4 with h4 | h4
      · exact ⟨h3, h4⟩
      · exact (h4 hc).elim
  cases r with
  | ok e => exact .inr (.inr (hend hp.1))
  | interrupted => exact .inr (.inr (hend hp.1))
  | logFailed => exact .inr (.inr (hend hp))
  | spawnFailed => simp only at hp; rw [hc] at hp; cases hp
  | killFailed => exact .inl h2
  | tryWaitFailed => exact .inr (.inl h2)

/-- Nothing has gone wrong with waiting. -/
def Untroubled (q : Proc.State) : Prop :=
  q.waitFailed = false ∧ q.pc ≠ .done .killFailed ∧ q.pc ≠ .done .tryWaitFailed

theorem untroubled_step {i q e q'} (h : Untroubled q) (hs : Proc.step q e = some q')
    (he : waitFails (.proc i e) = false) : Untroubled q' := by
  obtain ⟨h1, h2, h3⟩ := h
  cases e
  all_goals
    simp only [Proc.step] at hs
    repeat' split at hs
    all_goals first | (cases hs; done) | skip
  all_goals
    cases hs
    simp_all [Untroubled, waitFails]

theorem untroubled_env {q e q'} (h : Untroubled q) (hs : Proc.step q e = some q')
    (he : e.isProgram = false) : Untroubled q' := by
  refine untroubled_step (i := 0) h hs ?_
  cases e <;> first | rfl | cases he

theorem step_untroubled {cfg s e s'} (hst : Run.step cfg s e = some s') (he : waitFails e = false)
    (h1 : ∀ i q, s.procs i = some q → Untroubled q) (h2 : ∀ x ∈ s.past, Untroubled x.2) :
    (∀ i q, s'.procs i = some q → Untroubled q) ∧ ∀ x ∈ s'.past, Untroubled x.2 := by
  have set : ∀ (j : Nat) (o : Option Proc.State), (∀ q, o = some q → Untroubled q) →
      ∀ i q, Run.setAt s.procs j o i = some q → Untroubled q := by
    intro j o ho i q hq
    unfold Run.setAt at hq
    split at hq
    · exact ho q hq
    · exact h1 i q hq
  cases e with
  | tick n =>
    cases hst
    refine ⟨fun i q hq => ?_, h2⟩
    obtain ⟨q0, h3, h4⟩ := Option.bind_eq_some_iff.1 hq
    exact untroubled_env (h1 i q0 h3) h4 rfl
  | interrupt =>
    obtain ⟨l, _, rfl⟩ := Option.map_eq_some_iff.1 hst
    refine ⟨fun i q hq => ?_, h2⟩
    obtain ⟨q0, h3, h4⟩ := Option.bind_eq_some_iff.1 hq
    exact untroubled_env (h1 i q0 h3) h4 rfl
  | childExits j st =>
    obtain ⟨q, hq, h3⟩ := Option.bind_eq_some_iff.1 hst
    obtain ⟨q', hq', rfl⟩ := Option.map_eq_some_iff.1 h3
    exact ⟨set j _ (by rintro _ ⟨⟩; exact untroubled_env (h1 j q hq) hq' rfl), h2⟩
  | main ok =>
    simp only [Run.step] at hst
    split at hst
    · obtain ⟨l, _, rfl⟩ := Option.map_eq_some_iff.1 hst; exact ⟨h1, h2⟩
    · split at hst
      · obtain ⟨l, _, rfl⟩ := Option.map_eq_some_iff.1 hst; exact ⟨h1, h2⟩
      · obtain ⟨l, _, rfl⟩ := Option.map_eq_some_iff.1 hst; exact ⟨h1, h2⟩
  | worker j c =>
    simp only [Run.step] at hst
    split at hst
    · cases hst
    obtain ⟨l, _, rfl⟩ := Option.map_eq_some_iff.1 hst
    refine ⟨set j _ ?_, h2⟩
    intro q hq
    unfold Run.started at hq
    split at hq
    · cases hq; exact ⟨rfl, nofun, nofun⟩
    · cases hq
  | proc j e =>
    simp only [Run.step] at hst
    split at hst
    · obtain ⟨q, hq, h3⟩ := Option.bind_eq_some_iff.1 hst
      obtain ⟨q', hq', rfl⟩ := Option.map_eq_some_iff.1 h3
      exact ⟨set j _ (by rintro _ ⟨⟩; exact untroubled_step (h1 j q hq) hq' he), h2⟩
    · cases hst
  | leave j dur =>
    simp only [Run.step] at hst
    obtain ⟨q, hq, h3⟩ := Option.bind_eq_some_iff.1 hst
    split at h3
    · split at h3
      · obtain ⟨l, _, rfl⟩ := Option.map_eq_some_iff.1 h3
        refine ⟨set j _ nofun, ?_⟩
        intro x hx
        rcases List.mem_cons.1 hx with rfl | hx
        · exact h1 j q hq
        · exact h2 x hx
      · cases h3
    · cases h3

/-- When the program has returned no thread is in a command. -/
theorem returned_procs {cfg s} (h : Run.Reachable cfg s) {x} (hm : s.lab.main = .returned x) (i : Nat) :
    s.procs i = none := by
  have hi := Run.reachable_inv h
  refine (hi.procs i).none fun pc hpc => ?_
  have hf := (Lab.reachable_shape hi.lab).fits i pc hpc
  rw [hm] at hf
  cases pc <;> first | rfl | exact hf.elim

/-- C72: when the program returns, whether normally, with an error or after an interrupt, all children that it has
started have exited, unless the operating system refused to signal a child or to wait for it. -/
theorem C72_all_children_have_exited (cfg : Run.Config) (es : List Run.Event) (s : Run.State)
    (h : Run.exec cfg (Run.init cfg) es = some s) (x : Option LabOutcome) (hm : s.lab.main = .returned x)
    (hw : ∀ e ∈ es, waitFails e = false) (i : Nat) :
    spawns i es = exits i es := by
  have h1 := C72_children_accounted cfg es s h i
  rw [returned_procs ⟨es, h⟩ hm i] at h1
  have h2 : leftRunning i s.past = 0 := by
    have hu : ∀ es s, Run.exec cfg (Run.init cfg) es = some s → (∀ e ∈ es, waitFails e = false) →
        (∀ i q, s.procs i = some q → Untroubled q) ∧ ∀ x ∈ s.past, Untroubled x.2 := by
      refine exec_snoc_ind cfg _ (fun _ => ⟨by simp [Run.init], by simp [Run.init]⟩) ?_
      intro es s e s' _ ih hst hw
      obtain ⟨h1, h2⟩ := ih (fun e he => hw e (List.mem_append_left _ he))
      exact step_untroubled hst (hw e (by simp)) h1 h2
    rw [leftRunning, List.countP_eq_zero]
    rintro ⟨j, q⟩ hq hc
    simp at hc
    obtain ⟨h3, h4, h5⟩ := (hu es s h hw).2 _ hq
    rcases C72_why_left cfg s ⟨es, h⟩ j q hq hc.2 with h | h | h
    · exact h4 h
    · exact h5 h
    · rw [h3] at h; cases h.1
  simp only [childCount] at h1
  omega

/-- C72: at any time there are at most `max(1, jobs)` processes, each in the directory of another thread. -/
theorem C72_processes_at_once (cfg : Run.Config) (hj : cfg.lab.JobsOk) (s : Run.State) (h : Run.Reachable cfg s) :
    (∀ i q, s.procs i = some q → i < max 1 (cfg.options.jobs.getD 1)) ∧
    (∀ i j q q', s.procs i = some q → s.procs j = some q' → i ≠ j →
      ∃ pc pc' d d', s.lab.workers[i]? = some pc ∧ s.lab.workers[j]? = some pc' ∧
        pc.dir = some d ∧ pc'.dir = some d' ∧ d ≠ d') := by
  have hi := Run.reachable_inv h
  obtain ⟨h1, h2, _⟩ := C30_jobs_and_directories cfg.lab hj s.lab hi.lab
  have hw : ∀ i q, s.procs i = some q → ∃ pc d, s.lab.workers[i]? = some pc ∧ pc.dir = some d := by
    intro i q hq
    have := hi.procs i
    rw [hq] at this
    obtain ⟨d, sc, p, todo, rs, hpc, _⟩ := this.some
    exact ⟨_, d, hpc, rfl⟩
  constructor
  · intro i q hq
    obtain ⟨pc, d, hpc, _⟩ := hw i q hq
    have := (List.getElem?_eq_some_iff.1 hpc).1
    have : cfg.lab.jobs = cfg.options.jobs := rfl
    rw [this] at h1
    omega
  · intro i j q q' hq hq' hne
    obtain ⟨pc, d, hpc, hd⟩ := hw i q hq
    obtain ⟨pc', d', hpc', hd'⟩ := hw j q' hq'
    refine ⟨pc, pc', d, d', hpc, hpc', hd, hd', ?_⟩
    rintro rfl
    exact h2 i j pc pc' d hpc hpc' hne hd hd'

/-! ### C73 -/

/-- A run with processes is a run of the threads, so everything that is proved of those holds (C04, C13, C27-C34,
C60, C66, C68-C70). -/
theorem C73_is_run_of_threads (cfg : Run.Config) (es : List Run.Event) (s : Run.State)
    (h : Run.exec cfg (Run.init cfg) es = some s) :
    ∃ les, Lab.exec cfg.lab (Lab.init cfg.lab) les = some s.lab ∧ es.countP isOther ≤ les.length := by
  revert es s
  refine exec_snoc_ind cfg _ ⟨[], rfl, by simp⟩ ?_
  intro es s e s' _ ⟨les, h1, h2⟩ hst
  have done : ∀ le, Lab.step cfg.lab s.lab le = some s'.lab →
      ∃ les, Lab.exec cfg.lab (Lab.init cfg.lab) les = some s'.lab ∧ (es ++ [e]).countP isOther ≤ les.length := by
    intro le hle
    refine ⟨les ++ [le], by rw [Lab.exec_append, h1]; simp [Lab.exec, hle], ?_⟩
    simp only [List.countP_append, List.countP_singleton, List.length_append, List.length_singleton]
    split <;> omega
  have same : isOther e = false → s'.lab = s.lab →
      ∃ les, Lab.exec cfg.lab (Lab.init cfg.lab) les = some s'.lab ∧ (es ++ [e]).countP isOther ≤ les.length := by
    intro he hl
    exact ⟨les, hl ▸ h1, by simpa [List.countP_append, List.countP_singleton, he] using h2⟩
  cases e with
  | tick n => cases hst; exact same rfl rfl
  | interrupt => obtain ⟨l, h3, rfl⟩ := Option.map_eq_some_iff.1 hst; exact done _ h3
  | childExits j st =>
    obtain ⟨q, hq, h3⟩ := Option.bind_eq_some_iff.1 hst
    obtain ⟨q', hq', rfl⟩ := Option.map_eq_some_iff.1 h3
    exact same rfl rfl
  | main ok =>
    simp only [Run.step] at hst
    split at hst
    · obtain ⟨l, h3, rfl⟩ := Option.map_eq_some_iff.1 hst; exact done _ h3
    · split at hst
      · obtain ⟨l, h3, rfl⟩ := Option.map_eq_some_iff.1 hst; exact done _ h3
      · obtain ⟨l, h3, rfl⟩ := Option.map_eq_some_iff.1 hst; exact done _ h3
  | worker j c =>
    simp only [Run.step] at hst
    split at hst
    · cases hst
    obtain ⟨l, h3, rfl⟩ := Option.map_eq_some_iff.1 hst; exact done _ h3
  | proc j e =>
    simp only [Run.step] at hst
    split at hst
    · obtain ⟨q, hq, h3⟩ := Option.bind_eq_some_iff.1 hst
      obtain ⟨q', hq', rfl⟩ := Option.map_eq_some_iff.1 h3
      exact same rfl rfl
    · cases hst
  | leave j dur =>
    simp only [Run.step] at hst
    obtain ⟨q, hq, h3⟩ := Option.bind_eq_some_iff.1 hst
    split at h3
    · split at h3
      · obtain ⟨l, h4, rfl⟩ := Option.map_eq_some_iff.1 h3; exact done _ h4
      · cases h3
    · cases h3

theorem program_clock {q e q'} (he : Proc.Event.isProgram e = true) (h : Proc.step q e = some q') :
    q'.clock = q.clock := by
  cases e <;> first | (cases he; done) | skip
  all_goals
    simp only [Proc.step] at h
    repeat' split at h
    all_goals first | (cases h; done) | (cases h; rfl)

/-- `n` steps have been taken in a process, no more than time allows. -/
def Work (n : Nat) (q : Proc.State) : Prop :=
  match q.pc with
  | .spawn => n = 0
  | .checkTime => n ≤ 1 + 4 * (q.clock / Proc.pollInterval)
  | .checkInterrupt => n ≤ 2 + 4 * (q.clock / Proc.pollInterval)
  | .tryWait | .kill _ => n ≤ 3 + 4 * (q.clock / Proc.pollInterval)
  | .asleep u => n ≤ 4 * (u / Proc.pollInterval) ∧ u ≤ q.clock + Proc.pollInterval
  | .wait _ => n ≤ 4 + 4 * (q.clock / Proc.pollInterval)
  | .log _ => n ≤ 5 + 4 * (q.clock / Proc.pollInterval)
  | .done _ => n ≤ 6 + 4 * (q.clock / Proc.pollInterval)

theorem Work.le {n q} (h : Work n q) : n ≤ 6 + 4 * (q.clock / Proc.pollInterval) := by
  unfold Work at h
  split at h
  all_goals (simp only [Proc.pollInterval] at h ⊢; omega)

theorem Work.step {n q e q'} (h : Work n q) (hs : Proc.step q e = some q') : Work (n + e.isProgram.toNat) q' := by
  unfold Work at h
  cases e
  all_goals
    simp only [Proc.step] at hs
    repeat' split at hs
    all_goals first | (cases hs; done) | skip
  all_goals
    cases hs
    unfold Work
    simp only [*, Proc.Event.isProgram, Bool.toNat_true, Bool.toNat_false] at h ⊢
  all_goals first
    | (simp only [Proc.pollInterval] at h ⊢; omega)
    | (cases hpc : q.pc <;> simp only [hpc] at h ⊢ <;> (try simp only [Proc.pollInterval] at h ⊢) <;> omega)

/-- Thread `i` leaves a process. -/
def leavesBy (i : Nat) : Run.Event → Bool
  | .leave j _ => j == i
  | _ => false

theorem poll_mono {a b : Nat} (h : a ≤ b) :
    6 + 4 * (a / Proc.pollInterval) ≤ 6 + 4 * (b / Proc.pollInterval) := by
  have := Nat.div_le_div_right (c := Proc.pollInterval) h
  omega

/-- The steps of a thread in processes that it has left, and in the present one. -/
def WorkOk (i : Nat) (es : List Run.Event) (proc : Option Proc.State) : Prop :=
  ∃ a b, es.countP (inProcess i) = a + b ∧
    a ≤ es.countP (leavesBy i) * (6 + 4 * (elapsed es / Proc.pollInterval)) ∧
    match proc with
    | some q => Work b q ∧ q.clock ≤ elapsed es
    | none => b = 0

theorem elapsed_append (es : List Run.Event) (e : Run.Event) : elapsed (es ++ [e]) = elapsed es + passes e := by
  simp [elapsed]

theorem workOk (cfg : Run.Config) (i : Nat) (es : List Run.Event) (s : Run.State)
    (h : Run.exec cfg (Run.init cfg) es = some s) : WorkOk i es (s.procs i) := by
  revert es s
  refine exec_snoc_ind cfg _ ⟨0, 0, rfl, Nat.zero_le _, rfl⟩ ?_
  intro es s e s' _ ⟨a, b, h1, h2, h3⟩ hst
  -- nothing that counts
  have quiet : inProcess i e = false → leavesBy i e = false → passes e = 0 → s'.procs i = s.procs i →
      WorkOk i (es ++ [e]) (s'.procs i) := by
    intro e1 e2 e3 e4
    refine ⟨a, b, ?_, ?_, ?_⟩
    · simpa [List.countP_append, e1] using h1
    · rw [elapsed_append, e3]
      simpa [List.countP_append, e2] using h2
    · rw [e4, elapsed_append, e3]
      exact h3
  cases e with
  | tick n =>
    cases hst
    have hm := poll_mono (Nat.le_add_right (elapsed es) n)
    refine ⟨a, b, by simpa [List.countP_append, inProcess] using h1, ?_, ?_⟩
    · rw [elapsed_append]
      simp only [List.countP_append, List.countP_singleton, leavesBy, passes]
      exact Nat.le_trans h2 (Nat.mul_le_mul_left _ hm)
    · rw [elapsed_append]
      cases hq : s.procs i with
      | none => rw [hq] at h3; simpa [hq] using h3
      | some q =>
        rw [hq] at h3
        simp only [hq, Option.bind_some, Proc.step, passes]
        exact ⟨h3.1.step (e := .tick n) rfl, by have := h3.2; omega⟩
  | interrupt =>
    obtain ⟨l, _, rfl⟩ := Option.map_eq_some_iff.1 hst
    refine ⟨a, b, by simpa [List.countP_append, inProcess] using h1, ?_, ?_⟩
    · rw [elapsed_append]
      simpa [List.countP_append, leavesBy, passes] using h2
    · rw [elapsed_append]
      cases hq : s.procs i with
      | none => rw [hq] at h3; simpa [hq] using h3
      | some q =>
        rw [hq] at h3
        simp only [hq, Option.bind_some, Proc.step, passes]
        exact ⟨h3.1.step (e := .ctrlC) rfl, by have := h3.2; omega⟩
  | childExits j st =>
    obtain ⟨q, hq, h4⟩ := Option.bind_eq_some_iff.1 hst
    obtain ⟨q', hq', rfl⟩ := Option.map_eq_some_iff.1 h4
    by_cases hj : i = j
    · subst hj
      rw [hq] at h3
      have hc : q'.clock = q.clock := by
        simp only [Proc.step] at hq'
        split at hq' <;> cases hq'
        rfl
      refine ⟨a, b, by simpa [List.countP_append, inProcess] using h1, ?_, ?_⟩
      · rw [elapsed_append]
        simpa [List.countP_append, leavesBy, passes] using h2
      · rw [elapsed_append]
        simp only [Run.setAt, if_true, passes]
        exact ⟨h3.1.step hq', by have := h3.2; omega⟩
    · exact quiet rfl rfl rfl (by simp [Run.setAt, hj])
  | main ok =>
    refine quiet rfl rfl rfl ?_
    simp only [Run.step] at hst
    split at hst
    · obtain ⟨l, _, rfl⟩ := Option.map_eq_some_iff.1 hst; rfl
    · split at hst
      · obtain ⟨l, _, rfl⟩ := Option.map_eq_some_iff.1 hst; rfl
      · obtain ⟨l, _, rfl⟩ := Option.map_eq_some_iff.1 hst; rfl
  | worker j c =>
    simp only [Run.step] at hst
    split at hst
    · cases hst
    rename_i hq
    obtain ⟨l, _, rfl⟩ := Option.map_eq_some_iff.1 hst
    by_cases hj : i = j
    · subst hj
      have h0 : s.procs i = none := by simpa using hq
      rw [h0] at h3
      simp only at h3
      refine ⟨a, b, by simpa [List.countP_append, inProcess] using h1, ?_, ?_⟩
      · rw [elapsed_append]
        simpa [List.countP_append, leavesBy, passes] using h2
      · simp only [Run.setAt, if_true]
        unfold Run.started
        split
        · rename_i hq'
          split at hq'
          · cases hq'
            exact ⟨h3, Nat.zero_le _⟩
          · cases hq'
        · exact h3
    · exact quiet rfl rfl rfl (by simp [Run.setAt, hj])
  | proc j e =>
    simp only [Run.step] at hst
    split at hst
    · rename_i he
      obtain ⟨q, hq, h4⟩ := Option.bind_eq_some_iff.1 hst
      obtain ⟨q', hq', rfl⟩ := Option.map_eq_some_iff.1 h4
      by_cases hj : i = j
      · subst hj
        rw [hq] at h3
        have hc : q'.clock = q.clock := program_clock he hq'
        refine ⟨a, b + 1, ?_, ?_, ?_⟩
        · simp [List.countP_append, inProcess, h1, Nat.add_assoc]
        · rw [elapsed_append]
          simpa [List.countP_append, leavesBy, passes] using h2
        · rw [elapsed_append]
          simp only [Run.setAt, if_true, passes]
          have := h3.1.step hq'
          rw [he] at this
          exact ⟨this, by have := h3.2; omega⟩
      · exact quiet (by simp [inProcess, Ne.symm hj]) rfl rfl (by simp [Run.setAt, hj])
    · cases hst
  | leave j dur =>
    simp only [Run.step] at hst
    obtain ⟨q, hq, h4⟩ := Option.bind_eq_some_iff.1 hst
    split at h4
    · split at h4
      · obtain ⟨l, _, rfl⟩ := Option.map_eq_some_iff.1 h4
        by_cases hj : i = j
        · subst hj
          rw [hq] at h3
          have h5 := h3.1.le
          have h6 := poll_mono h3.2
          refine ⟨a + b, 0, by simpa [List.countP_append, inProcess] using h1, ?_, by simp [Run.setAt]⟩
          rw [elapsed_append]
          simp only [List.countP_append, List.countP_singleton, leavesBy, beq_self_eq_true, if_true, passes, Nat.add_zero,
            Nat.add_mul, Nat.one_mul]
          omega
        · exact quiet rfl (by simp [leavesBy, Ne.symm hj]) rfl (by simp [Run.setAt, hj])
      · cases h4
    · cases h4

/-- C73: the program does not spin. Outside of commands the number of its steps has a bound that depends only on the
number of mutants and threads; in commands each thread takes at most four steps in each polling interval that has passed,
and six for each command. -/
theorem C73_bounded_work (cfg : Run.Config) (es : List Run.Event) (s : Run.State)
    (h : Run.exec cfg (Run.init cfg) es = some s) :
    es.countP isOther ≤ 12 * cfg.mutants.length + 4 * cfg.lab.nThreads + 18 ∧
    ∀ i, es.countP (inProcess i) ≤
      (12 * cfg.mutants.length + 4 * cfg.lab.nThreads + 19) * (6 + 4 * (elapsed es / Proc.pollInterval)) := by
  obtain ⟨les, h1, h2⟩ := C73_is_run_of_threads cfg es s h
  have h3 := C33_bounded cfg.lab les s.lab h1
  have h4 : es.countP isOther ≤ 12 * cfg.mutants.length + 4 * cfg.lab.nThreads + 18 := Nat.le_trans h2 h3
  refine ⟨h4, fun i => ?_⟩
  obtain ⟨a, b, h5, h6, h7⟩ := workOk cfg i es s h
  have h8 : es.countP (leavesBy i) ≤ es.countP isOther := by
    refine List.countP_mono_left fun e _ he => ?_
    cases e <;> first | rfl | cases he
  have h9 : b ≤ 6 + 4 * (elapsed es / Proc.pollInterval) := by
    cases hq : s.procs i with
    | none => rw [hq] at h7; simp only at h7; omega
    | some q =>
      rw [hq] at h7
      exact Nat.le_trans h7.1.le (poll_mono h7.2)
  rw [h5]
  have h10 := Nat.mul_le_mul_right (6 + 4 * (elapsed es / Proc.pollInterval)) (Nat.le_trans h8 h4)
  have : (12 * cfg.mutants.length + 4 * cfg.lab.nThreads + 19) * (6 + 4 * (elapsed es / Proc.pollInterval)) =
      (12 * cfg.mutants.length + 4 * cfg.lab.nThreads + 18) * (6 + 4 * (elapsed es / Proc.pollInterval)) +
        (6 + 4 * (elapsed es / Proc.pollInterval)) := by rw [← Nat.succ_mul]
  omega

/-- An event of one process as an event of the run. -/
def liftEvent (i : Nat) : Proc.Event → Run.Event
  | .tick n => .tick n
  | .childExits st => .childExits i st
  | .ctrlC => .interrupt
  | e => .proc i e

theorem lift_exec (cfg : Run.Config) (i : Nat) : ∀ (es : List Proc.Event) (s : Run.State) (q q' : Proc.State),
    s.procs i = some q → Proc.exec q es = some q' → (∀ e ∈ es, e ≠ .ctrlC) →
    ∃ s', Run.exec cfg s (es.map (liftEvent i)) = some s' ∧ s'.procs i = some q' ∧ s'.lab = s.lab
  | [], s, q, q', hq, he, _ => by cases he; exact ⟨s, rfl, hq, rfl⟩
  | e :: es, s, q, q', hq, he, hn => by
    obtain ⟨q1, h1, h2⟩ := Option.bind_eq_some_iff.1 he
    have hn' : ∀ e ∈ es, e ≠ .ctrlC := fun e h => hn e (List.mem_cons_of_mem _ h)
    have key : ∃ s1, Run.step cfg s (liftEvent i e) = some s1 ∧ s1.procs i = some q1 ∧ s1.lab = s.lab := by
      cases e with
      | tick n => exact ⟨_, rfl, by simp only [hq, Option.bind_some]; exact h1, rfl⟩
      | ctrlC => exact (hn _ (List.mem_cons_self ..) rfl).elim
      | childExits st =>
        exact ⟨{ s with procs := Run.setAt s.procs i (some q1) },
          by simp only [Run.step, liftEvent, hq, Option.bind_some, h1]; rfl, by simp [Run.setAt], rfl⟩
      | _ =>
        exact ⟨{ s with procs := Run.setAt s.procs i (some q1) }, by
          simp only [Run.step, liftEvent, Proc.Event.isProgram, if_true, hq, Option.bind_some, h1]; rfl,
          by simp [Run.setAt], rfl⟩
    obtain ⟨s1, h3, h4, h5⟩ := key
    obtain ⟨s', h6, h7, h8⟩ := lift_exec cfg i es s1 q1 q' h4 h2 hn'
    exact ⟨s', by simp only [List.map_cons, Run.exec, h3, Option.bind_some, h6], h7, h8.trans h5⟩

/-- A process can come to its end, with nothing going wrong. -/
def CanEnd (q : Proc.State) : Prop :=
  ∃ es q' r, Proc.exec q es = some q' ∧ q'.pc = .done r ∧ ∀ e ∈ es, e ≠ .ctrlC ∧ waitFails (.proc 0 e) = false

theorem CanEnd.step {q e q'} (h : Proc.step q e = some q') (he : e ≠ .ctrlC ∧ waitFails (.proc 0 e) = false)
    (hq : CanEnd q') : CanEnd q := by
  obtain ⟨es, q2, r, h1, h2, h3⟩ := hq
  refine ⟨e :: es, q2, r, by simp [Proc.exec, h, h1], h2, ?_⟩
  intro e' he'
  rcases List.mem_cons.1 he' with rfl | h
  · exact he
  · exact h3 e' h

theorem canEnd (q : Proc.State) (hp : PInv q) : CanEnd q := by
  have done : ∀ q : Proc.State, ∀ r, q.pc = .done r → CanEnd q := fun q r h => ⟨[], q, r, rfl, h, by simp⟩
  have log : ∀ q : Proc.State, ∀ e, q.pc = .log e → CanEnd q := by
    intro q e h
    refine CanEnd.step (e := .log true) (by simp only [Proc.step, h]; rfl) ⟨nofun, rfl⟩ (done _ _ rfl)
  have next : ∀ q : Proc.State, ∀ r st, q.pc = .wait r → q.child = .exited st → CanEnd q := by
    intro q r st h hc
    refine CanEnd.step (e := .wait true) (by simp only [Proc.step, h, hc, if_true]; rfl) ⟨nofun, rfl⟩ ?_
    cases r
    · exact log _ _ rfl
    · exact done _ _ rfl
  have wait : ∀ q : Proc.State, ∀ r, q.pc = .wait r → Live q.child → CanEnd q := by
    intro q r h hc
    rcases hc with hc | ⟨st, hc⟩
    · refine CanEnd.step (e := .childExits ⟨some 0, none⟩) (by simp only [Proc.step, hc, if_true]; rfl) ⟨nofun, rfl⟩ ?_
      exact next _ r _ h rfl
    · exact next q r st h hc
  have kill : ∀ q : Proc.State, ∀ r, q.pc = .kill r → Live q.child → CanEnd q := by
    intro q r h hc
    refine CanEnd.step (e := .kill .ok) (by simp only [Proc.step, h]; rfl) ⟨nofun, rfl⟩ ?_
    exact wait _ r rfl hc
  have tryWait : ∀ q : Proc.State, q.pc = .tryWait → Live q.child → CanEnd q := by
    intro q h hc
    have h1 : ∀ q : Proc.State, ∀ st, q.pc = .tryWait → q.child = .exited st → CanEnd q := by
      intro q st h hc
      refine CanEnd.step (e := .tryWait true) (by simp only [Proc.step, h, hc, if_true]; rfl) ⟨nofun, rfl⟩ ?_
      exact log _ _ rfl
    rcases hc with hc | ⟨st, hc⟩
    · refine CanEnd.step (e := .childExits ⟨some 0, none⟩) (by simp only [Proc.step, hc, if_true]; rfl) ⟨nofun, rfl⟩ ?_
      exact h1 _ _ h rfl
    · exact h1 q st h hc
  have checkInterrupt : ∀ q : Proc.State, q.pc = .checkInterrupt → Live q.child → CanEnd q := by
    intro q h hc
    cases hi : q.interrupted with
    | true =>
      refine CanEnd.step (e := .checkInterrupt) (by simp only [Proc.step, h, hi, if_true, Bool.false_eq_true, if_false]; rfl) ⟨nofun, rfl⟩ ?_
      exact kill _ _ rfl hc
    | false =>
      refine CanEnd.step (e := .checkInterrupt) (by simp only [Proc.step, h, hi, if_true, Bool.false_eq_true, if_false]; rfl) ⟨nofun, rfl⟩ ?_
      exact tryWait _ rfl hc
  have checkTime : ∀ q : Proc.State, q.pc = .checkTime → Live q.child → CanEnd q := by
    intro q h hc
    cases hi : Proc.pastLimit q with
    | true =>
      refine CanEnd.step (e := .checkTime) (by simp only [Proc.step, h, hi, if_true, Bool.false_eq_true, if_false]; rfl) ⟨nofun, rfl⟩ ?_
      exact kill _ _ rfl hc
    | false =>
      refine CanEnd.step (e := .checkTime) (by simp only [Proc.step, h, hi, if_true, Bool.false_eq_true, if_false]; rfl) ⟨nofun, rfl⟩ ?_
      exact checkInterrupt _ rfl hc
  unfold PInv at hp
  split at hp
  · rename_i h
    refine CanEnd.step (e := .spawn true) (by simp only [Proc.step, h, if_true]; rfl) ⟨nofun, rfl⟩ ?_
    exact checkTime _ rfl (.inl rfl)
  · exact checkTime q ‹_› hp
  · exact checkInterrupt q ‹_› hp
  · exact tryWait q ‹_› hp
  · rename_i u h
    refine CanEnd.step (e := .tick (u - q.clock)) rfl ⟨nofun, rfl⟩ ?_
    refine CanEnd.step (e := .wake) (q := { q with clock := q.clock + (u - q.clock) })
      (by simp only [Proc.step, h]; rw [if_pos (by omega)]) ⟨nofun, rfl⟩ ?_
    exact checkTime _ rfl hp
  · exact kill q _ ‹_› hp.1
  · exact wait q _ ‹_› hp.1
  · exact log q _ ‹_›
  all_goals exact done q _ ‹_›

/-- Can be left by its thread. -/
theorem leave_step {cfg s i q r} (hi : Run.Inv cfg s) (hq : s.procs i = some q) (hd : q.pc = .done r) :
    ∃ s', Run.step cfg s (.leave i q.clock) = some s' ∧ s'.lab.weight cfg.lab < s.lab.weight cfg.lab := by
  have hp := hi.procs i
  rw [hq] at hp
  obtain ⟨d, sc, p, todo, rs, hpc, _, _⟩ := hp.some
  have key : ∃ l, Lab.step cfg.lab s.lab (.worker i (Run.choiceOf q.clock r)) = some l := by
    cases r with
    | ok e =>
      simp only [Run.choiceOf, Lab.step, hpc, Lab.wstep, Option.bind_eq_bind, Option.bind_some]
      split
      · exact ⟨_, rfl⟩
      · split <;> exact ⟨_, rfl⟩
    | _ => exact ⟨_, by simp only [Run.choiceOf, Lab.step, hpc, Lab.wstep, Option.bind_eq_bind, Option.bind_some]; rfl⟩
  obtain ⟨l, hl⟩ := key
  refine ⟨_, by simp only [Run.step, hq, Option.bind_some, hd, Nat.le_refl, if_true, hl]; rfl, Lab.step_weight hl⟩

/-- C73: from every state of a run, also after an interrupt and failures, it can still return, without further
interrupts or failures to wait. -/
theorem C73_can_return (cfg : Run.Config) (s : Run.State) (h : Run.Reachable cfg s) :
    ∃ es s' x, Run.exec cfg s es = some s' ∧ s'.lab.main = .returned x ∧
      ∀ e ∈ es, e ≠ .interrupt ∧ waitFails e = false := by
  generalize hw : s.lab.weight cfg.lab = w
  induction w using Nat.strongRecOn generalizing s with
  | ind w ih =>
    have hi := Run.reachable_inv h
    -- going on after some steps
    have go : ∀ es s1, Run.exec cfg s es = some s1 → (∀ e ∈ es, e ≠ .interrupt ∧ waitFails e = false) →
        s1.lab.weight cfg.lab < w → ∃ es s' x, Run.exec cfg s es = some s' ∧ s'.lab.main = .returned x ∧
          ∀ e ∈ es, e ≠ .interrupt ∧ waitFails e = false := by
      intro es s1 h1 h2 h3
      have hr : Run.Reachable cfg s1 := by
        obtain ⟨es0, h0⟩ := h
        exact ⟨es0 ++ es, by rw [Run.exec_append, h0]; exact h1⟩
      obtain ⟨es', s', x, h4, h5, h6⟩ := ih _ h3 s1 hr rfl
      refine ⟨es ++ es', s', x, by rw [Run.exec_append, h1]; exact h4, h5, ?_⟩
      intro e he
      rcases List.mem_append.1 he with he | he
      · exact h2 e he
      · exact h6 e he
    by_cases hret : ∃ x, s.lab.main = .returned x
    · obtain ⟨x, hx⟩ := hret
      exact ⟨[], s, x, rfl, hx, by simp⟩
    have hshape := Lab.reachable_shape hi.lab
    by_cases hall : ∀ pc ∈ s.lab.workers, pc.waits = true
    · obtain ⟨l, hl⟩ := Lab.main_progress hshape (fun r hr => hret ⟨r, hr⟩) hall
      have : ∃ s1, Run.step cfg s (.main true) = some s1 ∧ s1.lab.weight cfg.lab < w := by
        simp only [Run.step]
        split
        · exact ⟨_, by rw [hl]; rfl, hw ▸ Lab.step_weight hl⟩
        · rename_i b hb
          split
          · obtain ⟨l2, hl2⟩ : ∃ l2, Lab.step cfg.lab s.lab (.main false) = some l2 := by
              unfold Run.aboutToSpawn at hb
              split at hb
              · rename_i h1 h2
                exact ⟨_, by simp only [Lab.step, Lab.mstep, h1, h2]; rfl⟩
              · rename_i h1 h2
                split at hb
                · rename_i h3
                  exact ⟨_, by simp only [Lab.step, Lab.mstep, h1, h2, h3]; rfl⟩
                · cases hb
              · cases hb
            exact ⟨_, by rw [hl2]; rfl, hw ▸ Lab.step_weight hl2⟩
          · exact ⟨_, by rw [hl]; rfl, hw ▸ Lab.step_weight hl⟩
      obtain ⟨s1, h1, h2⟩ := this
      exact go [.main true] s1 (by simp [Run.exec, h1]) (by simp [waitFails]) h2
    · simp only [Classical.not_forall] at hall
      obtain ⟨pc, hpc, hwait⟩ := hall
      obtain ⟨i, hi'⟩ := List.getElem?_of_mem hpc
      cases hq : s.procs i with
      | none =>
        obtain ⟨c, l, hl⟩ := Lab.worker_progress hshape hi' (by simpa using hwait)
        refine go [.worker i c] _ (by simp [Run.exec, Run.step, hq, hl]; rfl) (by simp [waitFails]) ?_
        exact hw ▸ Lab.step_weight hl
      | some q =>
        have hp := hi.procs i
        rw [hq] at hp
        obtain ⟨_, _, _, _, _, _, hran, _⟩ := hp.some
        obtain ⟨es, q', r, h1, h2, h3⟩ := canEnd q (pinv_of_ran hran)
        obtain ⟨s1, h4, h5, h6⟩ := lift_exec cfg i es s q q' hq h1 (fun e he => (h3 e he).1)
        have hr : Run.Reachable cfg s1 := by
          obtain ⟨es0, h0⟩ := h
          exact ⟨es0 ++ _, by rw [Run.exec_append, h0]; exact h4⟩
        obtain ⟨s2, h7, h8⟩ := leave_step (Run.reachable_inv hr) h5 h2
        refine go (es.map (liftEvent i) ++ [.leave i q'.clock]) s2 ?_ ?_ ?_
        · rw [Run.exec_append, h4]
          simp [Run.exec, h7]
        · intro e he
          rcases List.mem_append.1 he with he | he
          · obtain ⟨e0, he0, rfl⟩ := List.mem_map.1 he
            obtain ⟨h9, h10⟩ := h3 e0 he0
            cases e0 with
            | ctrlC => exact (h9 rfl).elim
            | tick n => exact ⟨nofun, rfl⟩
            | childExits st => exact ⟨nofun, rfl⟩
            | kill k => cases k <;> first | exact ⟨nofun, rfl⟩ | cases h10
            | wait b => cases b <;> first | exact ⟨nofun, rfl⟩ | cases h10
            | tryWait b => cases b <;> first | exact ⟨nofun, rfl⟩ | cases h10
            | _ => exact ⟨nofun, rfl⟩
          · cases List.mem_singleton.1 he
            exact ⟨nofun, rfl⟩
        · rw [h6] at h8
          exact hw ▸ h8

/-- C73: a thread in a command waits for nothing but the end of its sleep, or the exit of a child that it has sent the
signal to. -/
theorem C73_what_is_waited_for (cfg : Run.Config) (s : Run.State) (h : Run.Reachable cfg s) (i : Nat) (q : Proc.State)
    (hq : s.procs i = some q) :
    (∃ e s', byProgram e = true ∧ waitFails e = false ∧ Run.step cfg s e = some s') ∨
    (∃ u, q.pc = .asleep u ∧ q.clock < u) ∨
    (∃ r, q.pc = .wait r ∧ q.child = .running ∧ q.signalled = true) := by
  have hi := Run.reachable_inv h
  have hp := hi.procs i
  rw [hq] at hp
  obtain ⟨_, _, _, _, _, _, hran, _⟩ := hp.some
  have hinv := pinv_of_ran hran
  have prog : ∀ e q', e.isProgram = true → waitFails (.proc i e) = false → Proc.step q e = some q' →
      ∃ e s', byProgram e = true ∧ waitFails e = false ∧ Run.step cfg s e = some s' := by
    intro e q' he hf hs
    exact ⟨.proc i e, _, rfl, hf, by simp only [Run.step, he, if_true, hq, Option.bind_some, hs]; rfl⟩
  unfold PInv at hinv
  cases hpc : q.pc with
  | spawn => exact .inl (prog (.spawn true) _ rfl rfl (by simp only [Proc.step, hpc, if_true]; rfl))
  | checkTime =>
    refine .inl ?_
    cases hl : Proc.pastLimit q <;> exact prog .checkTime _ rfl rfl (by simp only [Proc.step, hpc, hl, if_true, Bool.false_eq_true, if_false]; rfl)
  | checkInterrupt =>
    refine .inl ?_
    cases hl : q.interrupted <;> exact prog .checkInterrupt _ rfl rfl (by simp only [Proc.step, hpc, hl, if_true, Bool.false_eq_true, if_false]; rfl)
  | tryWait =>
    rw [hpc] at hinv
    refine .inl ?_
    rcases hinv with hc | ⟨st, hc⟩ <;> exact prog (.tryWait true) _ rfl rfl (by simp only [Proc.step, hpc, hc, if_true]; rfl)
  | asleep u =>
    by_cases hu : q.clock < u
    · exact .inr (.inl ⟨u, rfl, hu⟩)
    · exact .inl (prog .wake _ rfl rfl (by simp only [Proc.step, hpc]; rw [if_pos (by omega)]))
  | kill r => exact .inl (prog (.kill .ok) _ rfl rfl (by simp only [Proc.step, hpc]; rfl))
  | wait r =>
    rw [hpc] at hinv
    rcases hinv.1 with hc | ⟨st, hc⟩
    · refine .inr (.inr ⟨r, rfl, hc, ?_⟩)
      rcases hinv.2.1 with h | h
      · exact h
      · exact (h hc).elim
    · exact .inl (prog (.wait true) _ rfl rfl (by simp only [Proc.step, hpc, hc, if_true]; rfl))
  | log e => exact .inl (prog (.log true) _ rfl rfl (by simp only [Proc.step, hpc]; rfl))
  | done r =>
    obtain ⟨s', h1, _⟩ := leave_step hi hq hpc
    exact .inl ⟨_, s', rfl, rfl, h1⟩

end CM.Props
