import Verif.Props.Program
/-! C34 for whole runs. -/
namespace CM.Props
open CM CM.Spec

/-- The phases that are asked for. -/
def askedPhases (check : Bool) : List Phase := if check then [.check] else [.build, .test]

theorem isSuccess_iff (e : Exit) : e.isSuccess = true ↔ e = .success := by
  cases e <;> simp [Exit.isSuccess]

/-- **C34** in a run: with `--check` the only phase is check, otherwise they are build and test; what is recorded for a scenario are
results of these in order up to the first that is not a success; and a command runs for the next one if all before it succeeded. -/
theorem C34_in_run (w : World) (x : Program.Machine) (a : MainArgs) (cfg : Run.Config) (h : Program.Tests w x a cfg)
    (es : List Run.Event) (s : Run.State) (he : Run.exec cfg (Run.init cfg) es = some s) :
    (∀ o ∈ s.lab.sh.out.lab.outcomes, ∃ before last rest, o.phaseResults = before ++ [last] ∧
      askedPhases a.options.check = o.phaseResults.map (·.phase) ++ rest ∧ (∀ r ∈ before, r.status = .success) ∧
      (rest ≠ [] → last.status ≠ .success)) ∧
    ∀ (i d : Nat) sc p todo rs, s.lab.workers[i]? = some (.command d sc p todo rs) →
      askedPhases a.options.check = rs.map (·.phase) ++ p :: todo ∧ ∀ r ∈ rs, r.status = .success := by
  obtain ⟨_, _, _, hcheck, _⟩ := tests_facts h
  obtain ⟨les, hles, _⟩ := C73_is_run_of_threads cfg es s he
  have hrec := Lab.reachable_records (cfg := cfg.lab) (s := s.lab) ⟨les, hles⟩
  have hph : cfg.lab.phases = askedPhases a.options.check := by
    unfold Lab.Config.phases phasesFor askedPhases
    rw [hcheck]
  refine ⟨fun o ho => ?_, fun i d sc p todo rs hpc => ?_⟩
  · have hc := hrec.complete o ho
    rw [hph] at hc
    rcases hc with ⟨h1, h2⟩ | ⟨before, last, rest, h1, h2, h3, h4⟩
    · have hne : o.phaseResults ≠ [] := by
        intro hn
        rw [hn] at h1
        unfold askedPhases at h1
        split at h1 <;> cases h1
      refine ⟨o.phaseResults.dropLast, o.phaseResults.getLast hne, [], (List.dropLast_concat_getLast hne).symm, h1,
        fun r hr => (isSuccess_iff _).1 (h2 r (List.dropLast_subset _ hr)), fun h => absurd rfl h⟩
    · exact ⟨before, last, rest, h1, h2, fun r hr => (isSuccess_iff _).1 (h3 r hr), fun _ hs => by
        rw [hs] at h4; cases h4⟩
  · have hp := hrec.phases i _ hpc
    rw [← hph]
    exact ⟨hp.1, fun r hr => (isSuccess_iff _).1 (hp.2 r hr)⟩

/-- The hypotheses are those of `C76_codes`, beside which there are sample runs; these are the phases there. -/
example : askedPhases sampleRun.options.check = [.build, .test] := rfl

end CM.Props
