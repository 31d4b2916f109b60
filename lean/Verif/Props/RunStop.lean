import Verif.Proofs.RunStop
import Verif.Props.Run
/-! How a run with processes comes to its end after an interrupt: C75. -/
namespace CM.Props
open CM CM.Spec

namespace RunSample

/-- An interrupt while the first command of the mutant is running; then the run comes to its end. -/
def interrupted : List Run.Event × List Run.Event :=
  ([.main true, ok, ok, .main true, ok, ok, ok] ++ cmd exit0 ++ [ok] ++ cmd exit0 ++ [ok, ok, ok, .main true] ++
   [ok, ok, ok, ok, ok, ok, ok] ++
   [.proc 0 (.spawn true), .proc 0 .checkTime, .proc 0 .checkInterrupt, .proc 0 (.tryWait true), .interrupt],
   [.tick 50000000, .proc 0 .wake, .proc 0 .checkTime, .proc 0 .checkInterrupt, .proc 0 (.kill .ok),
    .childExits 0 ⟨none, some 15⟩, .proc 0 (.wait true), .leave 0 50000000, ok, .main true])

end RunSample

/-- The run is interrupted while it is asleep beside a child; it then wakes up, terminates the child and returns an
error. -/
example : ((Run.exec RunSample.cfg (Run.init RunSample.cfg) RunSample.interrupted.1).map fun s =>
      (s.lab.sh.interrupted, (s.procs 0).map (·.pc))) = some (true, some (.asleep 50000000)) ∧
    ((Run.exec RunSample.cfg (Run.init RunSample.cfg) (RunSample.interrupted.1 ++ RunSample.interrupted.2)).map fun s =>
      (match s.lab.main with | .returned none => true | _ => false, s.past.length, s.past.head?.map fun x => x.2.child)) =
      some (true, 3, some (.reaped ⟨none, some 15⟩)) ∧
    RunSample.interrupted.2.countP byProgram = 8 := by decide +kernel

/-- C75: an interrupt reaches all commands, those that run and those that start later. -/
theorem C75_all_are_told (cfg : Run.Config) (s : Run.State) (h : Run.Reachable cfg s) (i : Nat) (q : Proc.State)
    (hq : s.procs i = some q) : q.interrupted = s.lab.sh.interrupted := by
  have hp := (Run.reachable_inv h).procs i
  rw [hq] at hp
  obtain ⟨_, _, _, _, _, _, _, h2⟩ := hp.some
  exact h2

/-- C75: after an interrupt each thread takes at most 51 steps more, whether in commands or outside of them (17 if it is
one of those that test mutants), and the main thread 4, so that all together take no more than `51 * threads + 4`. The
number of mutants, of lines of output, and the time that commands would need are of no account. -/
theorem C75_few_steps (cfg : Run.Config) (s : Run.State) (h : Run.Reachable cfg s) (hi : s.lab.sh.interrupted = true)
    (es : List Run.Event) (s' : Run.State) (hx : Run.exec cfg s es = some s') :
    (∀ i, es.countP (byThread i) ≤ 51) ∧ (s.lab.main = .testing → ∀ i, es.countP (byThread i) ≤ 17) ∧
    es.countP byMain ≤ 4 ∧ es.countP byProgram ≤ 51 * cfg.lab.nThreads + 4 := by
  have hs := Run.reachable_inv h
  have h1 := fun i => Run.count_le (Run.stepsLeft i) (byThread i) (fun _ _ _ => Run.step_stepsLeft i) es s s' hs hi hx
  have h2 := Run.count_le Run.mainLeft byMain (fun _ _ _ => Run.step_mainLeft) es s s' hs hi hx
  have h3 := Run.count_le (cfg := cfg) (fun s => Run.mainLeft s + Run.allLeft cfg.lab.nThreads s) byProgram
    (fun _ _ _ => Run.step_everything) es s s' hs hi hx
  have h4 : Run.mainLeft s ≤ 4 := by unfold Run.mainLeft; split <;> omega
  have h5 := Run.allLeft_le 51 (Run.stepsLeft_le hs) cfg.lab.nThreads
  refine ⟨fun i => ?_, fun hm i => ?_, by omega, by omega⟩
  · have := h1 i; have := Run.stepsLeft_le hs i; omega
  · have := h1 i; have := Run.stepsLeft_testing hs hm i; omega

/-- C75: after an interrupt a thread sleeps beside its child at most once more and looks at most once more whether the
child has exited; it does neither if it is not in a command at the interrupt. -/
theorem C75_one_sleep (cfg : Run.Config) (s : Run.State) (h : Run.Reachable cfg s) (hi : s.lab.sh.interrupted = true)
    (es : List Run.Event) (s' : Run.State) (hx : Run.exec cfg s es = some s') (i : Nat) :
    es.countP (wakesUp i) ≤ 1 ∧ es.countP (looks i) ≤ 1 ∧
    (s.procs i = none → es.countP (wakesUp i) = 0 ∧ es.countP (looks i) = 0) := by
  have hs := Run.reachable_inv h
  have h1 := Run.count_le (Run.sleepsLeft i) (wakesUp i) (fun _ _ _ => Run.step_sleepsLeft i) es s s' hs hi hx
  have h2 := Run.count_le (Run.triesLeft i) (looks i) (fun _ _ _ => Run.step_triesLeft i) es s s' hs hi hx
  have h3 : Run.sleepsLeft i s ≤ 1 := by
    unfold Run.sleepsLeft
    cases s.procs i with
    | none => simp
    | some q => cases hp : q.pc <;> simp [hp, Run.pcSleeps]
  have h4 : Run.triesLeft i s ≤ 1 := by
    unfold Run.triesLeft
    cases s.procs i with
    | none => simp
    | some q => cases hp : q.pc <;> simp [hp, Run.pcTries]
  refine ⟨by omega, by omega, fun hn => ?_⟩
  have h5 : Run.sleepsLeft i s = 0 := by simp [Run.sleepsLeft, hn]
  have h6 : Run.triesLeft i s = 0 := by simp [Run.triesLeft, hn]
  omega

/-- C75: a sleep is not longer than a polling interval of 50 milliseconds. -/
theorem C75_sleep_is_short (cfg : Run.Config) (s : Run.State) (h : Run.Reachable cfg s) (i : Nat) (q : Proc.State)
    (hq : s.procs i = some q) (u : Nat) (hu : q.pc = .asleep u) : u ≤ q.clock + 50000000 := by
  obtain ⟨es, h⟩ := h
  obtain ⟨a, b, _, _, h1⟩ := workOk cfg i es s h
  rw [hq] at h1
  have h2 := h1.1
  unfold Work at h2
  rw [hu] at h2
  exact h2.2

/-- C75: after an interrupt a thread starts at most one child more, and none if it is in a command whose child it has
started already, or has failed or finished. -/
theorem C75_few_children (cfg : Run.Config) (s : Run.State) (h : Run.Reachable cfg s) (hi : s.lab.sh.interrupted = true)
    (es : List Run.Event) (s' : Run.State) (hx : Run.exec cfg s es = some s') (i : Nat) :
    spawns i es ≤ 1 ∧ (∀ q, s.procs i = some q → q.child ≠ .absent → spawns i es = 0) := by
  have hs := Run.reachable_inv h
  have h1 := Run.count_le (Run.spawnsLeft i) (isSpawn i) (fun _ _ _ => Run.step_spawnsLeft i) es s s' hs hi hx
  have hp := hs.procs i
  have key : ∀ q, s.procs i = some q → Run.spawnsLeft i s = if q.pc = .spawn then 1 else 0 := by
    intro q hq
    rw [hq] at hp
    obtain ⟨d, sc, p, todo, rs, hpc, _⟩ := hp.some
    simp [Run.spawnsLeft, Lab.startsLeft, hpc, hq, Lab.Pc.mayStart]
  have h2 : Run.spawnsLeft i s ≤ 1 := by
    cases hq : s.procs i with
    | none =>
      simp only [Run.spawnsLeft, hq, Lab.startsLeft]
      cases s.lab.workers[i]? with
      | none => simp
      | some pc => cases pc <;> simp [Lab.Pc.mayStart]
    | some q => rw [key q hq]; split <;> omega
  refine ⟨by unfold spawns; omega, fun q hq hc => ?_⟩
  have h3 := key q hq
  rw [if_neg] at h3
  · unfold spawns; omega
  · intro hpc
    rw [hq] at hp
    obtain ⟨_, _, _, _, _, _, hran, _⟩ := hp.some
    have := pinv_of_ran hran
    unfold PInv at this
    rw [hpc] at this
    exact hc this

/-- C75: nothing that a command returns after the interrupt comes to be recorded: outcomes that are still recorded are of
scenarios whose commands had all completed, and a run that is not complete returns an error. -/
theorem C75_results (cfg : Run.Config) (s : Run.State) (h : Run.Reachable cfg s) (hi : s.lab.sh.interrupted = true)
    (es : List Run.Event) (s' : Run.State) (hx : Run.exec cfg s es = some s') :
    (∃ new, s'.lab.sh.out.lab.outcomes = s.lab.sh.out.lab.outcomes ++ new ∧
      ∀ o ∈ new, ∃ pc ∈ s.lab.workers, pc.outcome = some o) ∧
    (∀ i q, s.procs i = some q → ∀ l, s'.lab.main ≠ .returned (some l)) := by
  obtain ⟨les, h1⟩ := Run.lab_exec hx
  have hs := Run.reachable_inv h
  refine ⟨(C27_nothing_new_recorded cfg.lab s.lab s'.lab les hi h1).1, fun i q hq l hl => ?_⟩
  have hp := hs.procs i
  rw [hq] at hp
  obtain ⟨d, sc, p, todo, rs, hpc, _⟩ := hp.some
  have hf := (Lab.reachable_shape hs.lab).fits i _ hpc
  rcases C27_error_unless_complete cfg.lab s.lab s'.lab les hs.lab hi h1 l hl with ⟨l, h2⟩ | ⟨h2, _⟩
  · rw [h2] at hf
    exact hf.elim
  · cases h2 _ (List.mem_of_getElem? hpc)

end CM.Props
