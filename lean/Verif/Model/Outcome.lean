import Verif.Model.Mutant
/-! Results of cargo commands, scenarios and whole runs: `src/process.rs` (`Exit`),
`src/process/unix.rs`, `src/outcome.rs`, `src/exit_code.rs`, `src/options.rs` (`phases`).

`Option` results model the `unwrap` of an empty list of phase results (`none` = panic). -/
namespace CM

/-- `src/outcome.rs:33-38` `Phase`, with the names of `src/outcome.rs:41-47` in `Message.lean`. -/
inductive Phase | check | build | test
deriving DecidableEq, Repr

/-- `src/process.rs:142-156` `Exit`. -/
inductive Exit
  | success
  | failure (code : Int)
  | timeout
  | signalled (signal : Int)
  | other
deriving DecidableEq, Repr

/-- What `ExitStatus` can report on Unix: `code()` and `signal()`. -/
structure ExitStatus where
  code : Option Int
  signal : Option Int
deriving DecidableEq, Repr

/-- `src/process/unix.rs:40-54` `From<ExitStatus> for Exit`. -/
def Exit.ofStatus (s : ExitStatus) : Exit :=
  match s.code with
  | some c => if c = 0 then .success else .failure c
  | none =>
    match s.signal with
    | some sig => .signalled sig
    | none => .other

/-- `src/process.rs:159-161`. -/
def Exit.isSuccess (e : Exit) : Bool := e == .success
/-- `src/process.rs:163-165`. -/
def Exit.isTimeout (e : Exit) : Bool := e == .timeout
/-- `src/process.rs:167-169`. -/
def Exit.isFailure : Exit → Bool
  | .failure _ => true
  | _ => false

/-- `src/outcome.rs:283-294` `PhaseResult`; the duration is in nanoseconds. `is_success` (`src/outcome.rs:297-299`) is that of the
status. -/
structure PhaseResult where
  phase : Phase
  duration : Nat
  status : Exit
  argv : List Text
deriving DecidableEq, Repr

/-- `src/outcome.rs:144-159` `ScenarioOutcome`, without the log and diff paths; `phaseResults` is also `src/outcome.rs:205-207`, and
results are added at its end (`src/outcome.rs:188-190`). -/
structure ScenarioOutcome where
  scenario : Scenario
  phaseResults : List PhaseResult
deriving DecidableEq, Repr

/-- `src/outcome.rs` `SummaryOutcome`. -/
inductive SummaryOutcome
  | success | caughtMutant | missedMutant | unviable | failure | timeout
deriving DecidableEq, Repr

namespace ScenarioOutcome

/-- `src/outcome.rs:196-198` `last_phase`. -/
def lastPhase (o : ScenarioOutcome) : Option Phase := o.phaseResults.getLast?.map (·.phase)
/-- `src/outcome.rs:200-202` `last_phase_result`. -/
def lastPhaseResult (o : ScenarioOutcome) : Option Exit := o.phaseResults.getLast?.map (·.status)
/-- `src/outcome.rs:210-212` `phase_result`. -/
def phaseResult (o : ScenarioOutcome) (p : Phase) : Option PhaseResult :=
  o.phaseResults.find? (·.phase == p)
/-- `src/outcome.rs:220-222` `success`. -/
def success (o : ScenarioOutcome) : Option Bool := o.lastPhaseResult.map (·.isSuccess)
/-- `src/outcome.rs:224-228` `has_timeout`. -/
def hasTimeout (o : ScenarioOutcome) : Bool := o.phaseResults.any (·.status.isTimeout)
/-- `src/outcome.rs:230-234` `check_or_build_failed`. -/
def checkOrBuildFailed (o : ScenarioOutcome) : Bool :=
  o.phaseResults.any fun pr => pr.phase != .test && pr.status.isFailure
/-- `src/outcome.rs:237-241` `mutant_caught`; short-circuit as in Rust. -/
def mutantCaught (o : ScenarioOutcome) : Option Bool :=
  if o.scenario.isMutant then do
    let p ← o.lastPhase
    let r ← o.lastPhaseResult
    pure (p == .test && r.isFailure)
  else some false
/-- `src/outcome.rs:244-248` `mutant_missed`. -/
def mutantMissed (o : ScenarioOutcome) : Option Bool :=
  if o.scenario.isMutant then do
    let p ← o.lastPhase
    let r ← o.lastPhaseResult
    pure (p == .test && r.isSuccess)
  else some false

/-- `src/outcome.rs:250-280` `summary`. -/
def summary (o : ScenarioOutcome) : Option SummaryOutcome :=
  match o.scenario with
  | .baseline =>
    if o.hasTimeout then some .timeout
    else do
      let ok ← o.success
      pure (if ok then .success else .failure)
  | .mutant _ =>
    if o.checkOrBuildFailed then some .unviable
    else if o.hasTimeout then some .timeout
    else do
      let caught ← o.mutantCaught
      if caught then pure .caughtMutant
      else
        let missed ← o.mutantMissed
        if missed then pure .missedMutant
        else
          let ok ← o.success
          pure (if ok then .success else .failure)

end ScenarioOutcome

/-- `src/outcome.rs:56-68` `LabOutcome`; the defaults are `src/outcome.rs:71-73` `new`. -/
structure LabOutcome where
  outcomes : List ScenarioOutcome := []
  totalMutants : Nat := 0
  missed : Nat := 0
  caught : Nat := 0
  timeout : Nat := 0
  unviable : Nat := 0
  success : Nat := 0
deriving DecidableEq, Repr

namespace LabOutcome

/-- `src/outcome.rs:76-92` `LabOutcome::add`; `none` if `summary` panics. -/
def add (l : LabOutcome) (o : ScenarioOutcome) : Option LabOutcome :=
  if o.scenario.isMutant then do
    let s ← o.summary
    let l := { l with totalMutants := l.totalMutants + 1 }
    let l := match s with
      | .caughtMutant => { l with caught := l.caught + 1 }
      | .missedMutant => { l with missed := l.missed + 1 }
      | .timeout => { l with timeout := l.timeout + 1 }
      | .unviable => { l with unviable := l.unviable + 1 }
      | .success => { l with success := l.success + 1 }
      | .failure => l
    pure { l with outcomes := l.outcomes ++ [o] }
  else some { l with outcomes := l.outcomes ++ [o] }

/-- Recording a sequence of outcomes. -/
def addAll (l : LabOutcome) : List ScenarioOutcome → Option LabOutcome
  | [] => some l
  | o :: os => (l.add o).bind fun l => addAll l os

/-- `any` with a predicate that can panic: stops at the first `true`, like Rust's. -/
def anyM {α} (f : α → Option Bool) : List α → Option Bool
  | [] => some false
  | a :: as => (f a).bind fun b => if b then some true else anyM f as

/-- `src/outcome.rs:95-110` `exit_code` with the constants of `src/exit_code.rs`. -/
def exitCode (l : LabOutcome) : Option Nat := do
  let baselineFailed ← anyM
    (fun o => if o.scenario.isMutant then some false else o.success.map (!·)) l.outcomes
  if baselineFailed then pure 4
  else if l.timeout > 0 then pure 3
  else if l.missed > 0 then pure 2
  else pure 0

end LabOutcome

/-- `src/options.rs:359-365` `phases`. -/
def phasesFor (checkOnly : Bool) : List Phase :=
  if checkOnly then [.check] else [.build, .test]

/-- `src/lab.rs:277-310`: the phase loop, given what the cargo command of each phase results in
(`none` = `run_cargo` returned an error, which ends the scenario with an error). -/
def runPhases (result : Phase → Option PhaseResult) : List Phase → Option (List PhaseResult)
  | [] => some []
  | p :: ps =>
    match result p with
    | none => none
    | some r => if r.status.isSuccess then (runPhases result ps).map (r :: ·) else some [r]

end CM
