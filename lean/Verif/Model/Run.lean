import Verif.Model.Lab
import Verif.Model.Process
import Verif.Model.Timeouts
import Verif.Model.Cargo
/-! A run with the processes that it starts: `src/lab.rs` (the system of `Lab.lean`) in which each cargo
command is a process as in `src/process.rs` (the system of `Process.lean`), with the time limits of
`src/timeouts.rs` and the command lines of `src/cargo.rs`.

There is one clock and one flag for interrupts. A process that has been left by its thread is kept as it was
at that moment. -/
namespace CM.Run

/-- What is fixed before testing starts. -/
structure Config where
  /-- in the order of the queue -/
  mutants : List Mutant
  options : Options
  workspace : Workspace
  print : PrintOptions := {}
  /-- `src/cargo.rs:85-90` `cargo_bin` -/
  bin : Text := "cargo".toList
  /-- how a limit in seconds is rounded to nanoseconds -/
  nanos : Rat → Nat
  tree : Lab.Tree
  copy : Lab.Tree → Lab.Tree := id

/-- `src/lab.rs:176-188`, `242-248`: the packages that are tested. -/
def Config.packages (cfg : Config) : Scenario → PackageSelection
  | .baseline => baselinePackages cfg.mutants
  | .mutant m => testPackagesFor (.new cfg.options cfg.workspace) m

/-- What the threads use. -/
def Config.lab (cfg : Config) : Lab.Config where
  mutants := cfg.mutants
  checkOnly := cfg.options.checkOnly
  runBaseline := cfg.options.baseline == .run
  inPlace := cfg.options.inPlace
  jobs := cfg.options.jobs
  print := cfg.print
  tree := cfg.tree
  copy := cfg.copy
  argv := fun sc p => cargoArgv cfg.bin (cfg.packages sc) p cfg.options

/-- `src/lab.rs:68-86`: the time limits for mutants, with the outcome of the baseline if it was run; `none` is a
panic. -/
def Config.timeouts (cfg : Config) : Option ScenarioOutcome → Option Timeouts
  | some baseline => Timeouts.fromBaseline baseline cfg.options
  | none => Timeouts.withoutBaseline cfg.options

structure State where
  lab : Lab.State
  /-- the limits for mutants, when they are known -/
  timeouts : Option Timeouts := none
  /-- for each thread, the process that it is running -/
  procs : Nat → Option Proc.State := fun _ => none
  /-- the processes that threads have left -/
  past : List (Nat × Proc.State) := []

/-- `src/lab.rs:186`, `279-282`: the limit of a command. -/
def Config.limit (cfg : Config) (timeouts : Option Timeouts) (sc : Scenario) (p : Phase) : Option Nat :=
  ((match sc with
    | .baseline => (Timeouts.forBaseline cfg.options).forPhase p
    | .mutant _ => timeouts.bind fun t => t.forPhase p).map cfg.nanos)

/-- The main thread is about to start the workers (`src/lab.rs:68-86`), with this outcome of the baseline. -/
def aboutToSpawn (cfg : Config) (l : Lab.State) : Option (Option ScenarioOutcome) :=
  match l.main, l.workers with
  | .preparing, [.prepared _] => if cfg.lab.runBaseline then none else some none
  | .baseline, [.baselineDone _ o] => if o.success = some true then some (some o) else none
  | _, _ => none

inductive Event
  /-- time passes -/
  | tick (nanos : Nat)
  | interrupt
  /-- the child of a thread exits -/
  | childExits (i : Nat) (status : ExitStatus)
  /-- a step of the main thread -/
  | main (ok : Bool)
  /-- a step of a thread that is not in a command -/
  | worker (i : Nat) (c : Lab.Choice)
  /-- a step of `Process::run` in a thread -/
  | proc (i : Nat) (e : Proc.Event)
  /-- `Process::run` returns; the duration is measured by `run_cargo` (`src/cargo.rs:45`, `78`), which started before -/
  | leave (i : Nat) (duration : Nat)

def setAt {α} (f : Nat → α) (i : Nat) (a : α) : Nat → α := fun j => if j = i then a else f j

/-- `src/lab.rs:283`: a process, if the thread has come to a command. -/
def started (cfg : Config) (timeouts : Option Timeouts) (interrupted : Bool) : Option Lab.Pc → Option Proc.State
  | some (.command _ sc p _ _) => some { limit := cfg.limit timeouts sc p, interrupted := interrupted }
  | _ => none

/-- `src/cargo.rs:58-81`: what `run_cargo` does with what `Process::run` returns. -/
def choiceOf (duration : Nat) : Proc.Result → Lab.Choice
  | .ok e => .exits duration e
  | _ => .fail

/-- One step; `none` if the event cannot happen. -/
def step (cfg : Config) (s : State) : Event → Option State
  | .tick n => some { s with procs := fun i => (s.procs i).bind fun p => Proc.step p (.tick n) }
  | .interrupt =>
    (Lab.step cfg.lab s.lab .interrupt).map fun l =>
      { s with lab := l, procs := fun i => (s.procs i).bind fun p => Proc.step p .ctrlC }
  | .childExits i st =>
    (s.procs i).bind fun p => (Proc.step p (.childExits st)).map fun p => { s with procs := setAt s.procs i (some p) }
  | .main ok =>
    match aboutToSpawn cfg s.lab with
    | none => (Lab.step cfg.lab s.lab (.main ok)).map fun l => { s with lab := l }
    | some baseline =>
      match cfg.timeouts baseline with
      | none => (Lab.step cfg.lab s.lab (.main false)).map fun l => { s with lab := l }
      | some t => (Lab.step cfg.lab s.lab (.main ok)).map fun l => { s with lab := l, timeouts := some t }
  | .worker i c =>
    if (s.procs i).isSome then none
    else (Lab.step cfg.lab s.lab (.worker i c)).map fun l =>
      { s with lab := l, procs := setAt s.procs i (started cfg s.timeouts l.sh.interrupted l.workers[i]?) }
  | .proc i e =>
    if e.isProgram then
      (s.procs i).bind fun p => (Proc.step p e).map fun p => { s with procs := setAt s.procs i (some p) }
    else none
  | .leave i duration =>
    (s.procs i).bind fun p =>
      match p.pc with
      | .done r =>
        if p.clock ≤ duration then
          (Lab.step cfg.lab s.lab (.worker i (choiceOf duration r))).map fun l =>
            { s with lab := l, procs := setAt s.procs i none, past := (i, p) :: s.past }
        else none
      | _ => none

def exec (cfg : Config) (s : State) : List Event → Option State
  | [] => some s
  | e :: es => (step cfg s e).bind fun s => exec cfg s es

def init (cfg : Config) : State := { lab := Lab.init cfg.lab }

/-- States that a run can reach. -/
def Reachable (cfg : Config) (s : State) : Prop := ∃ es, exec cfg (init cfg) es = some s

end CM.Run
