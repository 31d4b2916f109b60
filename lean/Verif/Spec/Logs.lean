import Verif.Model.Logs
/-! What the log of a scenario should tell: independent of when and by which code the parts are written. -/
namespace CM.Spec
open CM CM.Logs

/-- The messages of cargo-mutants in a log, without the output of commands. -/
def messagesOf (log : List Chunk) : List Text :=
  log.filterMap fun
    | .said m => some m
    | .printed _ => none

/-- How a command ended, for people. -/
def ending : Exit → String
  | .success => "Success"
  | .failure n => s!"Failure({n})"
  | .timeout => "Timeout"
  | .signalled n => s!"Signalled({n})"
  | .other => "Other"

/-- The logHeading: what is tested, and how the source is changed. -/
def logHeading (diff : Mutant → Text) : Scenario → List Text
  | .baseline => ["baseline".toList]
  | .mutant m => [(m.name true).getD [], "mutation diff:\n".toList ++ diff m]

/-- The commands, each with how it ended. -/
def commands (rs : List PhaseResult) : List Text :=
  rs.flatMap fun r => [quoteArgv r.argv, ("result: " ++ ending r.status).toList]

/-- The diff file of a scenario. -/
def diffFile (diff : Mutant → Text) : Scenario → Option Text
  | .baseline => none
  | .mutant m => some (diff m)

/-- The log tells what the outcome says: first what is tested, then the commands in order with their
results; the commands write only after the first command line. -/
def Tells (diff : Mutant → Text) (o : ScenarioOutcome) (log : List Chunk) : Prop :=
  ∃ body, log = (logHeading diff o.scenario).map Chunk.said ++ body ∧ messagesOf body = commands o.phaseResults ∧
    ∀ t, body.head? ≠ some (.printed t)

/-- A message in the text of a log: on lines of its own, after stars. -/
def starred (m : Text) : Text := "\n*** ".toList ++ m ++ "\n".toList

/-- These messages are in the text in this order, with anything after each. -/
inductive Through : List Text → Text → Prop
  | nil : Through [] []
  | cons {m ms t} (output : Text) (h : Through ms t) : Through (m :: ms) (starred m ++ output ++ t)

end CM.Spec
