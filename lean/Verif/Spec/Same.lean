import Verif.Spec.Program
/-! What the results of a run are to be, when it is known how each command ends. -/
namespace CM.Spec
open CM

/-- In this run, how a command ended depends only on the scenario it was run for and on the phase. -/
def Behaves (cfg : Run.Config) (es : List Run.Event) (beh : Scenario → Phase → Exit) : Prop :=
  ∀ s d sc p q e, EndedIn cfg es s d sc p q e → e = beh sc p

/-- What an outcome tells, without the times and the command lines. -/
def told (o : ScenarioOutcome) : Scenario × List (Phase × Exit) :=
  (o.scenario, o.phaseResults.map fun r => (r.phase, r.status))

/-- The commands of a scenario and how they end: only a check, or a build and, if it succeeds, the tests. -/
def recordOf (check : Bool) (beh : Scenario → Phase → Exit) (sc : Scenario) : Scenario × List (Phase × Exit) :=
  (sc, if check then [(.check, beh sc .check)]
    else if beh sc .build = .success then [(.build, .success), (.test, beh sc .test)]
    else [(.build, beh sc .build)])

/-- All commands of the unmodified tree succeed. -/
def BaselinePasses (check : Bool) (beh : Scenario → Phase → Exit) : Prop :=
  if check then beh .baseline .check = .success else beh .baseline .build = .success ∧ beh .baseline .test = .success

instance (check beh) : Decidable (BaselinePasses check beh) := by unfold BaselinePasses; infer_instance

/-- The results of a run with these mutants: nothing without mutants; the baseline, if it is to be run; and each mutant, unless
the baseline fails. -/
def expectedResults (check baseline : Bool) (beh : Scenario → Phase → Exit) (ms : List Mutant) :
    List (Scenario × List (Phase × Exit)) :=
  if ms = [] then []
  else if baseline then
    if BaselinePasses check beh then recordOf check beh .baseline :: ms.map fun m => recordOf check beh (.mutant m)
    else [recordOf check beh .baseline]
  else ms.map fun m => recordOf check beh (.mutant m)

/-- The list for a mutant whose check or build ends like this. -/
def fateOfBuild : Exit → Option ListFile
  | .failure _ => some .unviable
  | .timeout => some .timeout
  | _ => none

/-- The list for a mutant whose tests end like this. -/
def fateOfTest : Exit → Option ListFile
  | .success => some .missed
  | .failure _ => some .caught
  | .timeout => some .timeout
  | _ => none

/-- The list that a mutant is to be in. -/
def fateFrom (check : Bool) (beh : Scenario → Phase → Exit) (m : Mutant) : Option ListFile :=
  if check then fateOfBuild (beh (.mutant m) .check)
  else if beh (.mutant m) .build = .success then fateOfTest (beh (.mutant m) .test)
  else fateOfBuild (beh (.mutant m) .build)

/-- No mutant is tested, because the baseline fails. -/
def Stopped (check baseline : Bool) (beh : Scenario → Phase → Exit) : Prop := baseline = true ∧ ¬ BaselinePasses check beh

instance (check baseline beh) : Decidable (Stopped check baseline beh) := by unfold Stopped; infer_instance

/-- The lines of a list file: the names of the mutants for it. -/
def expectedLines (check baseline : Bool) (beh : Scenario → Phase → Exit) (ms : List Mutant) (f : ListFile) : List Text :=
  if Stopped check baseline beh then [] else (ms.filter fun m => fateFrom check beh m = some f).filterMap (·.name true)

/-- The exit code. -/
def expectedCode (check baseline : Bool) (beh : Scenario → Phase → Exit) (ms : List Mutant) : Nat :=
  if ms = [] then 0
  else if Stopped check baseline beh then 4
  else if ∃ m ∈ ms, fateFrom check beh m = some .timeout then 3
  else if ∃ m ∈ ms, fateFrom check beh m = some .missed then 2
  else 0

/-- Options that agree on what decides about the mutants: `--error`, `--file`, `--exclude`, `--re`, `--exclude-re`, `--skip-calls`
and `--skip-calls-defaults`. -/
def SameFilters (a b : Args) : Prop :=
  a.error = b.error ∧ a.file = b.file ∧ a.exclude = b.exclude ∧ a.examineRe = b.examineRe ∧ a.excludeRe = b.excludeRe ∧
  a.skipCalls = b.skipCalls ∧ a.skipCallsDefaults = b.skipCallsDefaults

end CM.Spec
