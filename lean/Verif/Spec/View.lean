import Verif.Model.View
import Verif.Spec.Lab
import Verif.Spec.Message
/-! What the progress display is to show. -/
namespace CM.Spec
open CM.Lab

/-- The verdicts that are counted in the last line, in this order, with their words. -/
def barWords : List (SummaryOutcome × Text) :=
  [(.missedMutant, "MISSED".toList), (.timeout, "timeout".toList), (.caughtMutant, "caught".toList), (.unviable, "unviable".toList)]

/-- The number that is kept for a verdict. -/
def shownCount (n : View.Counts) : SummaryOutcome → Nat
  | .missedMutant => n.missed
  | .timeout => n.timeouts
  | .caughtMutant => n.caught
  | .unviable => n.unviable
  | .success => n.successes
  | .failure => n.failures

/-- The number that `outcomes.json` has for a verdict. -/
def jsonCount (l : LabOutcome) : SummaryOutcome → Nat
  | .missedMutant => l.missed
  | .timeout => l.timeout
  | .caughtMutant => l.caught
  | .unviable => l.unviable
  | .success => l.success
  | .failure => 0

/-- The thread has recorded this outcome of a mutant and is about to report it. -/
def AboutToReport (p : SummaryOutcome → Bool) : Pc → Bool
  | .recorded _ (.mutant m) rs => (ScenarioOutcome.mk (.mutant m) rs).summary.any p
  | _ => false

/-- The thread is testing a scenario, in this phase if a command is running. -/
def Testing : Pc → Option (Scenario × Option Phase)
  | .command _ sc p _ _ => some (sc, some p)
  | .started _ sc | .diffed _ sc | .ready _ sc _ _ | .reverted _ sc _ | .recorded _ sc _ => some (sc, none)
  | _ => none

/-- Parts of a line. -/
def commas : List Text → Text
  | [] => []
  | [a] => a
  | a :: rest => a ++ ", ".toList ++ commas rest

/-- How the phase is written at the beginning of a line. -/
def phaseColumn : Option Phase → Text
  | none => []
  | some .check => "check    ".toList
  | some .build => "build    ".toList
  | some .test => "test     ".toList

end CM.Spec
