import Verif.Model.Summary
/-! What is printed when a scenario is finished: `src/console.rs` `scenario_finished`. Without colours: the
text between escape sequences is the same with and without them. -/
namespace CM

/-- Options for printing, and what they depend on. -/
structure PrintOptions where
  printCaught : Bool := false
  printUnviable : Bool := false
  showTimes : Bool := false
  showAllLogs : Bool := false
  /-- `src/console.rs:620-624` how a duration in nanoseconds is printed (with rounding of floating point
  numbers) -/
  secs : Nat → Text := fun _ => []
  /-- how long the whole run took, printed -/
  elapsed : Text := []
  /-- the log of a scenario, if it is text -/
  log : ScenarioOutcome → Text := fun _ => []

/-- `src/console.rs:609-618` `style_outcome`. -/
def SummaryOutcome.printed : SummaryOutcome → Text
  | .caughtMutant => "caught".toList
  | .missedMutant => "MISSED".toList
  | .failure => "FAILED".toList
  | .success => "ok".toList
  | .unviable => "unviable".toList
  | .timeout => "TIMEOUT".toList

/-- The format `{:8}`. -/
def padTo (n : Nat) (t : Text) : Text := t ++ List.replicate (n - t.length) ' '

/-- `src/mutant.rs:114-128` `to_styled_string`; `none` is a panic as in `name`. -/
def Mutant.styled (m : Mutant) (showLineCol : Bool) : Option Text :=
  m.describe.map fun d =>
    toSlashPath m.sourceFile.path ++
    (if showLineCol then ":".toList ++ decimal m.span.start.line ++ ":".toList ++ decimal m.span.start.column else []) ++
    ": ".toList ++ d

/-- `src/console.rs:642-647` `style_scenario`, with the line and column. -/
def Scenario.styled : Scenario → Option Text
  | .baseline => some "Unmutated baseline".toList
  | .mutant m => m.styled true

/-- `src/outcome.rs:50-54`, `41-47` the name of a phase. -/
def Phase.name : Phase → Text
  | .check => "check".toList
  | .build => "build".toList
  | .test => "test".toList

/-- `src/console.rs:82-88`: whether nothing is printed; `none` is a panic. -/
def ScenarioOutcome.hidden (opts : PrintOptions) (o : ScenarioOutcome) : Option Bool :=
  o.mutantCaught.map fun caught =>
    (caught && !opts.printCaught) || (o.scenario.isMutant && o.checkOrBuildFailed && !opts.printUnviable)

/-- `src/console.rs:109`, `src/outcome.rs:216-218` `should_show_logs`. -/
def ScenarioOutcome.showsLog (opts : PrintOptions) (o : ScenarioOutcome) : Bool :=
  (!o.scenario.isMutant && o.success != some true) || opts.showAllLogs

/-- `src/console.rs:95-108`: the times. -/
def ScenarioOutcome.times (opts : PrintOptions) (o : ScenarioOutcome) : Text :=
  if opts.showTimes then
    " in ".toList ++ joinWith " + ".toList (o.phaseResults.map fun r => opts.secs r.duration ++ " ".toList ++ r.phase.name)
  else []

/-- `src/console.rs:82-119`: what is printed. The outer `none` is a panic, and the inner one that nothing is printed. -/
def ScenarioOutcome.message (opts : PrintOptions) (o : ScenarioOutcome) : Option (Option Text) := do
  let summary ← o.summary
  let hidden ← o.hidden opts
  if hidden then pure none
  else
    let name ← o.scenario.styled
    pure (some (padTo 8 summary.printed ++ " ".toList ++ name ++ o.times opts ++
      (if o.showsLog opts then "\n".toList ++ opts.log o else []) ++ "\n".toList))

/-- `src/console.rs:151-155` `discovered_mutants`. -/
def foundMessage (n : Nat) : Text := "Found ".toList ++ plural n "mutant".toList ++ " to test\n".toList

/-- `src/console.rs:182-190` `lab_finished`. -/
def finishedMessage (opts : PrintOptions) (l : LabOutcome) : Text :=
  l.summaryString (if opts.showTimes then some opts.elapsed else none) ++ "\n".toList

end CM
