import Verif.Model.Message
/-! What is printed about scenarios, said independently of the code. -/
namespace CM.Spec
open CM

/-- How the line for a verdict begins. -/
def heading : SummaryOutcome → Text
  | .caughtMutant => "caught   ".toList
  | .missedMutant => "MISSED   ".toList
  | .failure => "FAILED   ".toList
  | .success => "ok       ".toList
  | .unviable => "unviable ".toList
  | .timeout => "TIMEOUT  ".toList

/-- Whether something is printed for a verdict: caught and unviable mutants only if that is asked for. -/
def Shown (opts : PrintOptions) : SummaryOutcome → Bool
  | .caughtMutant => opts.printCaught
  | .unviable => opts.printUnviable
  | _ => true

/-- What a scenario is called when something is printed about it. -/
def calledAs : Scenario → Option Text
  | .baseline => some "Unmutated baseline".toList
  | .mutant m => m.name true

/-- The word for a phase. -/
def phaseWord : Phase → Text
  | .check => "check".toList
  | .build => "build".toList
  | .test => "test".toList

/-- What is printed for `--times` about the commands that were run. -/
def timesOf (secs : Nat → Text) : List PhaseResult → Text
  | [] => []
  | r :: rs =>
    secs r.duration ++ " ".toList ++ phaseWord r.phase ++
    (if rs = [] then [] else " + ".toList ++ timesOf secs rs)

/-- What is printed about a scenario with a verdict and a name. -/
def reportOf (opts : PrintOptions) (o : ScenarioOutcome) : Option Text :=
  match o.summary, calledAs o.scenario with
  | some v, some name =>
    if Shown opts v then
      some (heading v ++ name ++ (if opts.showTimes then " in ".toList ++ timesOf opts.secs o.phaseResults else []) ++
        (if (o.scenario = .baseline ∧ v ≠ .success) ∨ opts.showAllLogs = true then "\n".toList ++ opts.log o else []) ++
        "\n".toList)
    else none
  | _, _ => none

/-- What is printed at the start. -/
def foundLine (n : Nat) : Text :=
  if n = 1 then "Found 1 mutant to test".toList else "Found ".toList ++ decimal n ++ " mutants to test".toList

end CM.Spec
