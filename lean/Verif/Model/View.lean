import Verif.Model.Lab
/-! What the progress display shows during a run: `src/console.rs` `LabModel` and `ScenarioModel`, in the
system of `Lab.lean`. Colours and where the lines are on the screen (crate `nutmeg`) are not modelled. -/
namespace CM.View
open CM.Lab

/-- `src/console.rs:374-379`: the counters of `LabModel` besides those in `Lab.Console`. -/
structure Counts where
  caught : Nat := 0
  missed : Nat := 0
  timeouts : Nat := 0
  unviable : Nat := 0
  successes : Nat := 0
  failures : Nat := 0
deriving DecidableEq, Repr

/-- `src/console.rs:70-77`. -/
def Counts.add (c : Counts) : SummaryOutcome → Counts
  | .caughtMutant => { c with caught := c.caught + 1 }
  | .missedMutant => { c with missed := c.missed + 1 }
  | .timeout => { c with timeouts := c.timeouts + 1 }
  | .unviable => { c with unviable := c.unviable + 1 }
  | .success => { c with successes := c.successes + 1 }
  | .failure => { c with failures := c.failures + 1 }

structure State where
  lab : Lab.State
  counts : Counts := {}
  /-- `scenario_models`: the directories and the scenarios whose names are shown; the phases are in `Lab.Console` -/
  names : List (DirId × Scenario) := []

/-- What a step of a thread from `pc` to `pc'` means for the display. -/
def State.threadStep (s : State) (pc pc' : Pc) : State :=
  match pc, pc' with
  -- `src/lab.rs:266`: the log cannot be opened for reading
  | .logged _ _, .failed _ => s
  -- `src/console.rs:50-56` `scenario_started`
  | .logged d sc, _ => { s with names := s.names ++ [(d, sc)] }
  -- `src/console.rs:59-80` `scenario_finished`
  | .recorded d sc rs, _ =>
    { s with
      counts := match (ScenarioOutcome.mk sc rs).summary with
        | some k => s.counts.add k
        | none => s.counts
      names := s.names.filter fun e => e.1 != d }
  | _, _ => s

/-- What a step of the main thread means for the display. -/
def State.mainStep (s : State) (main main' : MainPc) : State :=
  match main, main' with
  -- `src/console.rs:182-185` `lab_finished`
  | .testing, .returned (some _) => { s with names := [] }
  | _, _ => s

/-- One step. -/
def step (cfg : Lab.Config) (s : State) (e : Lab.Event) : Option State :=
  (Lab.step cfg s.lab e).map fun l =>
    match e with
    | .interrupt => { s with lab := l }
    | .main _ => { s.mainStep s.lab.main l.main with lab := l }
    | .worker i _ =>
      match s.lab.workers[i]?, l.workers[i]? with
      | some pc, some pc' => { s.threadStep pc pc' with lab := l }
      | _, _ => { s with lab := l }

def exec (cfg : Lab.Config) (s : State) : List Lab.Event → Option State
  | [] => some s
  | e :: es => (step cfg s e).bind fun s => exec cfg s es

def init (cfg : Lab.Config) : State := { lab := Lab.init cfg }

/-- States that a run can reach. -/
def Reachable (cfg : Lab.Config) (s : State) : Prop := ∃ es, exec cfg (init cfg) es = some s

/-! ### Drawing -/

/-- `src/console.rs:445-460`: the remaining time in seconds that is shown, from the time in seconds since testing started.
Rational numbers stand for `f64`. -/
def remainingSeconds (elapsed : Rat) (done total : Nat) : Int :=
  let secs : Rat := elapsed * ((total : Rat) - done) / done
  let secs : Rat := if secs > 300 then (((secs + 30) / 60).ceil : Rat) * 60 else secs
  secs.ceil

/-- `src/console.rs:401-461`: the last line. `time` is how a duration in whole seconds is printed
(`src/console.rs:626-632`), `elapsed` the time since the run started and `testing` that since testing started. -/
def bar (time : Int → Text) (elapsed : Int) (testing : Rat) (c : Console) (n : Counts) : Text :=
  if c.labStarted then
    decimal c.done ++ "/".toList ++ decimal c.nMutants ++ " mutants tested".toList ++
      (if n.missed > 0 then ", ".toList ++ decimal n.missed ++ " MISSED".toList else []) ++
      (if n.timeouts > 0 then ", ".toList ++ decimal n.timeouts ++ " timeout".toList else []) ++
      (if n.caught > 0 then ", ".toList ++ decimal n.caught ++ " caught".toList else []) ++
      (if n.unviable > 0 then ", ".toList ++ decimal n.unviable ++ " unviable".toList else []) ++
      ", ".toList ++ time elapsed ++ " elapsed".toList ++
      (if c.done > 2 then ", about ".toList ++ time (remainingSeconds testing c.done c.nMutants) ++ " remaining".toList
        else [])
  else []

/-- The scenarios that are shown, in order: directory, scenario and phase. -/
def State.rows (s : State) : List (DirId × Scenario × Option Phase) :=
  (s.names.zip s.lab.sh.console.scenarios).map fun x => (x.1.1, x.1.2, x.2.2)

/-- `src/console.rs:539-564`: what is shown for a scenario; `secs` is how long the phase has been running, and `tail` the last
line of the log (`Model/TailFile.lean`), if it can be read. `none` is the panic of `src/console.rs:642-647`, when the scenario
starts. -/
def row (secs : Text) (tail : Option Text) (sc : Scenario) (p : Option Phase) : Option Text :=
  sc.styled.map fun name =>
    joinWith " ".toList ((p.toList.map fun p => padTo 8 p.name) ++ [name, "...".toList, secs]) ++
      (match tail with
        | some l => "\n└        ".toList ++ l
        | none => [])

end CM.View
