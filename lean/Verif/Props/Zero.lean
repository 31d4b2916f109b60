import Verif.Props.Outcome
/-! C12 where commands are killed by signals. -/
namespace CM.Props
open CM

/-- A command for this scenario was killed by a signal or ended in an unknown way. -/
def Killed (o : ScenarioOutcome) : Prop := ∃ pr ∈ o.phaseResults, pr.status = .other ∨ ∃ k, pr.status = .signalled k

/-- **C12** without restriction on how commands end: the exit code is 0 exactly if every mutant is caught, or is unviable, or has a
command that was killed; and these exclude each other, so that without the last kind the code means what it should. -/
theorem C12_zero_exactly (os : List ScenarioOutcome) (l : LabOutcome) (h : LabOutcome.addAll {} os = some l)
    (hex : ∀ o ∈ os, Executed false o) :
    (l.exitCode = some 0 ↔ ∀ o ∈ os, o.summary = some .caughtMutant ∨ o.summary = some .unviable ∨ Killed o) ∧
    ∀ o ∈ os, Killed o → o.summary = some .failure := by
  have key : ∀ o ∈ os, o.phaseResults ≠ [] ∧ (Killed o → o.summary = some .failure) ∧
      (o.summary = some .caughtMutant ∨ o.summary = some .unviable ∨ o.summary = some .timeout ∨ o.summary = some .missedMutant ∨
        Killed o) := by
    intro o ho
    obtain ⟨m, result, hsc, hph, hrun⟩ := hex o ho
    have hv := C09_verdict m false result hph o.phaseResults hrun
    have ho' : (ScenarioOutcome.mk (.mutant m) o.phaseResults) = o := by cases o; simp_all
    simp only [ho'] at hv
    obtain ⟨v1, v2, v3, v4, v5, v6⟩ := hv
    rw [show phasesFor false = [.build, .test] from rfl] at hrun
    simp only [runPhases] at hrun
    have hbp := hph .build
    have htp := hph .test
    have fail : (o.summary ≠ some .caughtMutant) → (o.summary ≠ some .unviable) → (o.summary ≠ some .timeout) →
        (o.summary ≠ some .missedMutant) → (o.summary ≠ some .success) → o.summary = some .failure := by
      intro a b c d e
      cases hs : o.summary with
      | none => exact absurd hs v6
      | some k => cases k <;> simp_all
    unfold Killed
    cases hb : (result .build).status <;> simp [hb, Exit.isSuccess] at hrun
    · cases ht : (result .test).status
      all_goals (simp only [hb, ht] at v1 v2 v3 v4 v5; rw [← hrun]; simp [hb, ht])
      · exact .inr (.inr (.inr (v4.2 ⟨trivial, trivial, trivial⟩)))
      · exact .inl (v3.2 ⟨trivial, trivial, _, rfl⟩)
      · exact .inr (.inr (.inl (v2.2 (.inr ⟨trivial, trivial, trivial⟩))))
      all_goals
        apply fail
        · intro hh; simpa using v3.1 hh
        · intro hh; simpa using v1.1 hh
        · intro hh; simpa using v2.1 hh
        · intro hh; simpa using v4.1 hh
        · intro hh; simpa using v5.1 hh
    all_goals (simp only [hb] at v1 v2 v3 v4 v5; rw [← hrun]; simp [hb])
    · exact .inr (.inl (v1.2 ⟨_, by simp; rfl⟩))
    · exact .inr (.inr (.inl (v2.2 (.inl (by simp)))))
    all_goals
      apply fail
      · intro hh; simpa using v3.1 hh
      · intro hh; simpa using v1.1 hh
      · intro hh; simpa using v2.1 hh
      · intro hh; simpa using v4.1 hh
      · intro hh; simpa using v5.1 hh
  refine ⟨⟨fun hc o ho => ?_, fun hall => ?_⟩, fun o ho => (key o ho).2.1⟩
  · obtain ⟨_, nt, nm⟩ := (C11_exit_code os l 0 h hc).2.2.2.1 rfl
    obtain ⟨m, _, hsc, _⟩ := hex o ho
    rcases (key o ho).2.2 with h1 | h1 | h1 | h1 | h1
    · exact .inl h1
    · exact .inr (.inl h1)
    · exact absurd ⟨o, ho, ⟨m, hsc⟩, h1⟩ nt
    · exact absurd ⟨o, ho, ⟨m, hsc⟩, h1⟩ nm
    · exact .inr (.inr h1)
  · obtain ⟨c, hc⟩ := C11_exit_code_defined os l h fun o ho => (key o ho).1
    rw [hc]
    congr 1
    refine (C11_exit_code os l c h hc).2.2.2.2 ⟨?_, ?_, ?_⟩
    · rintro ⟨o, ho, hsc, _⟩
      obtain ⟨m, _, hsc', _⟩ := hex o ho
      rw [hsc'] at hsc; cases hsc
    all_goals
      rintro ⟨o, ho, _, hs⟩
      rcases hall o ho with h1 | h1 | h1
      · rw [h1] at hs; cases hs
      · rw [h1] at hs; cases hs
      · rw [(key o ho).2.1 h1] at hs; cases hs

/-- A mutant whose tests were killed counts as nothing. -/
example : Killed killedOutcome ∧ killedOutcome.summary = some .failure ∧
    ((LabOutcome.addAll {} [killedOutcome]).bind LabOutcome.exitCode) = some 0 :=
  ⟨⟨_, List.mem_cons_of_mem _ (List.mem_singleton.2 rfl), .inr ⟨9, rfl⟩⟩, by decide, by decide⟩

end CM.Props
