import Verif.Model.Run
/-! What the properties of runs with processes talk about, said without the model's steps. -/
namespace CM.Spec
open CM

/-- How many seconds a phase of the baseline took, if it was run. -/
def baselineSecs (baseline : Option ScenarioOutcome) (p : Phase) : Option Rat :=
  baseline.bind fun b => (b.phaseResults.find? fun r => r.phase = p).map fun r => (r.duration : Rat) / 1000000000

/-- The time limit of a command in seconds as documented (`book/src/timeouts.md`), given the outcome of the
baseline if it was run. -/
def documentedLimit (o : Options) (baseline : Option ScenarioOutcome) : Scenario → Phase → Option Rat
  -- `--timeout` is for the baseline's tests also; its build is never limited
  | .baseline, .test => o.testTimeout
  | .baseline, _ => none
  | .mutant _, .test =>
    match o.testTimeout, baselineSecs baseline .test with
    | some t, _ => some t
    -- five times as long as the baseline, but at least the minimum
    | none, some secs =>
      let whole : Rat := ((secs * o.testTimeoutMultiplier.getD 5).ceil : Int)
      some (if whole < o.minimumTestTimeout then o.minimumTestTimeout else whole)
    | none, none => some (if o.checkOnly then 0 else 300)
  | .mutant _, _ =>
    match o.buildTimeout, baselineSecs baseline .build, o.buildTimeoutMultiplier with
    | some t, _, _ => some t
    | none, some secs, some m => some (secs * m)
    | none, _, _ => none

/-- The outcome of the baseline among those recorded, if a baseline was asked for. -/
def recordedBaseline (o : Options) (outcomes : List ScenarioOutcome) : Option ScenarioOutcome :=
  if o.baseline = .run then outcomes.find? fun x => x.scenario = .baseline else none

/-- Thread `i` starts a child. -/
def isSpawn (i : Nat) : Run.Event → Bool
  | .proc j (.spawn ok) => j == i && ok
  | _ => false

/-- A child of thread `i` exits. -/
def isExit (i : Nat) : Run.Event → Bool
  | .childExits j _ => j == i
  | _ => false

/-- How often thread `i` starts a child. -/
def spawns (i : Nat) (es : List Run.Event) : Nat := es.countP (isSpawn i)

/-- How often a child of thread `i` exits. -/
def exits (i : Nat) (es : List Run.Event) : Nat := es.countP (isExit i)

/-- The operating system refuses to send the signal, or to wait for a child. -/
def waitFails : Run.Event → Bool
  | .proc _ (.kill .error) | .proc _ (.wait false) | .proc _ (.tryWait false) => true
  | _ => false

/-- How many nanoseconds pass. -/
def passes : Run.Event → Nat
  | .tick n => n
  | _ => 0

/-- The nanoseconds that pass. -/
def elapsed (es : List Run.Event) : Nat :=
  (es.map passes).sum

/-- Thread `i` takes a step while it is in `Process::run`. -/
def inProcess (i : Nat) : Run.Event → Bool
  | .proc j _ => j == i
  | _ => false

/-- The program does something outside of `Process::run`. -/
def isOther : Run.Event → Bool
  | .main _ | .worker _ _ | .leave _ _ => true
  | _ => false

/-- A step of thread `i`. -/
def byThread (i : Nat) : Run.Event → Bool
  | .worker j _ | .proc j _ | .leave j _ => j == i
  | _ => false

/-- A step of the main thread. -/
def byMain : Run.Event → Bool
  | .main _ => true
  | _ => false

/-- Thread `i` wakes up from the sleep between looking at its child. -/
def wakesUp (i : Nat) : Run.Event → Bool
  | .proc j .wake => j == i
  | _ => false

/-- Thread `i` looks whether its child has exited. -/
def looks (i : Nat) : Run.Event → Bool
  | .proc j (.tryWait _) => j == i
  | _ => false

/-- A step of the program, rather than of its surroundings. -/
def byProgram : Run.Event → Bool
  | .main _ | .worker _ _ | .proc _ _ | .leave _ _ => true
  | _ => false

end CM.Spec
