import Verif.Model.Message
import Verif.Props.Output
/-! When a message can be made. -/
namespace CM.Props
open CM CM.Spec

theorem styled_eq_name (m : Mutant) : m.styled true = m.name true := by
  unfold Mutant.styled Mutant.name
  cases m.describe with
  | none => rfl
  | some d => simp [List.append_assoc]

theorem message_total (opts : PrintOptions) (o : ScenarioOutcome) (h : Recordable o) : ∃ t, o.message opts = some t := by
  obtain ⟨s, hs⟩ := summary_some o h.1
  have hcaught : ∃ b, o.mutantCaught = some b := by
    unfold ScenarioOutcome.mutantCaught
    split
    · cases h' : o.phaseResults.getLast? with
      | none => rw [List.getLast?_eq_none_iff] at h'; exact absurd h' h.1
      | some pr => exact ⟨_, by simp only [ScenarioOutcome.lastPhase, ScenarioOutcome.lastPhaseResult, h']; rfl⟩
    · exact ⟨_, rfl⟩
  obtain ⟨b, hb⟩ := hcaught
  have hname : ∃ n, o.scenario.styled = some n := by
    cases hsc : o.scenario with
    | baseline => exact ⟨_, rfl⟩
    | mutant m =>
      have hn := h.2 m hsc
      rw [← styled_eq_name] at hn
      exact Option.ne_none_iff_exists'.1 hn
  obtain ⟨n, hn⟩ := hname
  unfold ScenarioOutcome.message ScenarioOutcome.hidden
  simp only [hs, hb, hn, Option.map_some, Option.bind_eq_bind, Option.bind_some, Option.pure_def]
  split <;> exact ⟨_, rfl⟩

end CM.Props
