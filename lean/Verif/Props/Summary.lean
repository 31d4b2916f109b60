import Verif.Model.Summary
import Verif.Props.Outcome
import Verif.Proofs.Text
/-! C61: the last line printed. -/
namespace CM.Props
open CM

/-- The verdicts that the summary line counts, with the words used for them. -/
def summaryWords : List (SummaryOutcome × Text) :=
  [(.missedMutant, "missed".toList), (.caughtMutant, "caught".toList), (.unviable, "unviable".toList),
   (.timeout, "timeouts".toList), (.success, "succeeded".toList)]

/-- The text of one count. -/
def countText (os : List ScenarioOutcome) (w : SummaryOutcome × Text) : Text :=
  decimal (numberWith w.1 os) ++ (" ".toList ++ w.2)

/-- The counts that are not zero. -/
def nonZero (os : List ScenarioOutcome) : List (SummaryOutcome × Text) :=
  summaryWords.filter fun w => numberWith w.1 os ≠ 0

theorem byOutcome_eq (os : List ScenarioOutcome) (l : LabOutcome)
    (h : LabOutcome.addAll {} os = some l) : l.byOutcome = (nonZero os).map (countText os) := by
  obtain ⟨_, _, h2, h3, h4, h5, h6⟩ := C10_counts os l h
  unfold LabOutcome.byOutcome nonZero summaryWords
  rw [h2, h3, h4, h5, h6]
  simp only [List.filter_cons, List.filter_nil]
  by_cases a1 : numberWith .missedMutant os = 0 <;> by_cases a2 : numberWith .caughtMutant os = 0 <;>
  by_cases a3 : numberWith .unviable os = 0 <;> by_cases a4 : numberWith .timeout os = 0 <;>
  by_cases a5 : numberWith .success os = 0 <;>
  simp only [a1, a2, a3, a4, a5, ne_eq, not_true_eq_false, not_false_eq_true, decide_false, decide_true,
    if_true, if_false, List.nil_append, List.append_nil, List.map_cons, List.map_nil, List.cons_append,
    Bool.false_eq_true] <;> rfl

/-- **C61.** After any sequence of recorded outcomes, the last line is the total number of mutants
followed by the non-zero counts of verdicts, each once and with its word, in a fixed order; the
numbers are the numbers of recorded outcomes. -/
theorem C61_summary_line (os : List ScenarioOutcome) (l : LabOutcome)
    (h : LabOutcome.addAll {} os = some l) (elapsed : Option Text) :
    l.summaryString elapsed =
      decimal (os.filter (·.scenario.isMutant)).length ++
      (if (os.filter (·.scenario.isMutant)).length = 1 then " mutant tested".toList
        else " mutants tested".toList) ++
      (elapsed.elim [] fun t => " in ".toList ++ t) ++ ": ".toList ++
      joinWith ", ".toList ((nonZero os).map (countText os)) := by
  unfold LabOutcome.summaryString
  rw [byOutcome_eq os l h, ← (C10_counts os l h).2.1]
  have e1 : plural l.totalMutants "mutant".toList ++ " tested".toList =
      decimal l.totalMutants ++ (if l.totalMutants = 1 then " mutant tested".toList
        else " mutants tested".toList) := by
    unfold plural
    split
    · rw [List.append_assoc, List.append_assoc]; rfl
    · rw [List.append_assoc, List.append_assoc, List.append_assoc]; rfl
  rw [e1]
  cases elapsed <;> rfl

/-- **C61.** A count is shown exactly if it is not zero, and none is shown twice. -/
theorem C61_each_once (os : List ScenarioOutcome) (w : SummaryOutcome × Text) :
    (w ∈ nonZero os ↔ w ∈ summaryWords ∧ ∃ o ∈ os, o.scenario.isMutant = true ∧ o.summary = some w.1) ∧
    (nonZero os).Nodup := by
  constructor
  · unfold nonZero
    rw [List.mem_filter]
    refine and_congr_right fun _ => ?_
    rw [decide_eq_true_iff, numberWith_eq, countVerdict]
    rw [← Nat.pos_iff_ne_zero, List.countP_pos_iff]
    constructor
    · rintro ⟨o, ho, hp⟩
      rw [Bool.and_eq_true, beq_iff_eq] at hp
      exact ⟨o, ho, hp⟩
    · rintro ⟨o, ho, hp⟩
      exact ⟨o, ho, by rw [Bool.and_eq_true, beq_iff_eq]; exact hp⟩
  · exact (List.filter_sublist).nodup (by unfold summaryWords; decide)

/-- **C61.** Every verdict that a mutant can have is among those counted, except `failure` (the
verdict of a mutant whose test command was killed by a signal). -/
theorem C61_words_cover (v : SummaryOutcome) (hv : v ≠ .failure) : ∃ t, (v, t) ∈ summaryWords := by
  cases v
  · exact ⟨"succeeded".toList, by decide⟩
  · exact ⟨"caught".toList, by decide⟩
  · exact ⟨"missed".toList, by decide⟩
  · exact ⟨"unviable".toList, by decide⟩
  · exact absurd rfl hv
  · exact ⟨"timeouts".toList, by decide⟩

/-- Two outcomes of which one is a missed mutant: `1 mutant tested: 1 missed`. -/
example :
    (LabOutcome.addAll {} [
      { scenario := .baseline, phaseResults := [⟨.build, 0, .success, []⟩, ⟨.test, 0, .success, []⟩] },
      { scenario := .mutant sampleMutant,
        phaseResults := [⟨.build, 0, .success, []⟩, ⟨.test, 0, .success, []⟩] }]).map
      (·.summaryString none) = some "1 mutant tested: 1 missed".toList := by decide

end CM.Props
