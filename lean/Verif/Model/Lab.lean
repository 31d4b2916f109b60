import Verif.Model.Output
import Verif.Model.Message
/-! Testing mutants: `src/lab.rs`, with the parts of `src/build_dir.rs`, `src/mutant.rs` (apply and
revert), `src/output.rs`, `src/console.rs`, `src/interrupt.rs`, `src/copy_tree.rs` and `src/cargo.rs`
that it uses.

The main thread and the worker threads are a transition system; an event is one operation on something
shared, or an interrupt. What the operating system or a command does is chosen by the event. Cargo
commands are assumed not to change source files. Content of other files is not modelled. A panic of a
thread is recorded in the state, and the thread has then failed; lock poisoning is not modelled. -/
namespace CM.Lab

/-- Directories by number: 0 is the source tree, others are temporary directories. Temporary directories
get new names (`tempfile`). -/
scoped notation "DirId" => Nat
/-- The files of a directory. -/
abbrev Tree := Path → Option Text

/-- What is fixed before testing starts. -/
structure Config where
  /-- the mutants to test, in the order of the queue (after shuffling) -/
  mutants : List Mutant
  checkOnly : Bool := false
  runBaseline : Bool := true
  inPlace : Bool := false
  jobs : Option Nat := none
  print : PrintOptions := {}
  /-- the source tree -/
  tree : Tree
  /-- what `copy_tree`, `fix_manifest` and `fix_cargo_config` make of a tree -/
  copy : Tree → Tree := id
  /-- the command lines, see `Model/Cargo.lean` -/
  argv : Scenario → Phase → List Text := fun _ _ => []

/-- `src/options.rs:359-365`. -/
def Config.phases (cfg : Config) : List Phase := phasesFor cfg.checkOnly

/-- `src/lab.rs:93` `n_threads`. -/
def Config.nThreads (cfg : Config) : Nat := max 1 (min (cfg.jobs.getD 1) cfg.mutants.length)

/-! ### The console -/

/-- `src/console.rs:363-380` `LabModel`: the scenarios by directory with the current phase, the copies
in progress, and the counters that are used in calculations. -/
structure Console where
  scenarios : List (DirId × Option Phase) := []
  copies : List DirId := []
  labStarted : Bool := false
  mutantsStarted : Bool := false
  done : Nat := 0
  nMutants : Nat := 0

namespace Console

/-- `src/console.rs:50-56` `scenario_started`. -/
def scenarioStarted (c : Console) (d : DirId) : Console :=
  { c with scenarios := c.scenarios ++ [(d, none)] }

/-- Change the first scenario of a directory (`src/console.rs:467-472` `find_scenario_mut`);
`none` is the `expect`. -/
def updateFirst (d : DirId) (f : Option Phase → Option (Option Phase)) :
    List (DirId × Option Phase) → Option (List (DirId × Option Phase))
  | [] => none
  | (d', p) :: rest =>
    if d' = d then (f p).map fun p => (d', p) :: rest
    else (updateFirst d f rest).map ((d', p) :: ·)

/-- `src/console.rs:170-174` `scenario_phase_started`. -/
def phaseStarted (c : Console) (d : DirId) (p : Phase) : Option Console :=
  (updateFirst d (fun _ => some (some p)) c.scenarios).map fun s => { c with scenarios := s }

/-- `src/console.rs:176-180` `scenario_phase_finished` with the `debug_assert` of `src/console.rs:525-535`. -/
def phaseFinished (c : Console) (d : DirId) (p : Phase) : Option Console :=
  (updateFirst d (fun q => if q = some p then some none else none) c.scenarios).map fun s =>
    { c with scenarios := s }

/-- `src/console.rs:59-80`, the update in `scenario_finished`, with `src/console.rs:474-476` `remove_scenario`. -/
def scenarioFinished (c : Console) (d : DirId) (isMutant : Bool) : Console :=
  { c with done := if isMutant then c.done + 1 else c.done,
           scenarios := c.scenarios.filter fun e => e.1 != d }

/-- `src/console.rs:122-126` `start_copy`. -/
def startCopy (c : Console) (d : DirId) : Console := { c with copies := c.copies ++ [d] }

/-- `src/console.rs:128-137` `finish_copy`; `swap_remove` changes the order, which does not matter.
`none` is the `expect`. -/
def finishCopy (c : Console) (d : DirId) : Option Console :=
  if d ∈ c.copies then some { c with copies := c.copies.erase d } else none

/-- `src/console.rs:139-148` `copy_progress`: whether the lookup succeeds. -/
def copyProgressOk (c : Console) (d : DirId) : Bool := c.copies.contains d

/-- `src/console.rs:445-460`: the number of mutants that remain, when the remaining time is drawn;
`none` is a panic: of `unwrap`, or of `Duration::from_secs_f64` for a negative number. -/
def remaining (c : Console) : Option (Option Nat) :=
  if c.labStarted && decide (c.done > 2) then
    if c.mutantsStarted && decide (c.done ≤ c.nMutants) then some (some (c.nMutants - c.done)) else none
  else some none

end Console

/-! ### State -/

/-- Why a thread panicked. -/
inductive Panic
  /-- a lookup in the console -/
  | console
  /-- no phase results, or a function mutant without a function -/
  | outcome
  /-- `src/console.rs:113` reading the log as text -/
  | unreadableLog
deriving DecidableEq, Repr

/-- What the threads share. -/
structure Shared where
  interrupted : Bool := false
  queue : List Mutant
  /-- `src/lab.rs:89` `build_dir_0` -/
  dir0 : Option DirId := none
  dirs : DirId → Tree
  nextDir : DirId := 1
  out : OutputFiles := {}
  used : UsedNames := fun _ => none
  logs : List Text := []
  console : Console := {}
  /-- what has been printed to standard output, by calls of `print!` (`src/console.rs:196-202` `message`) -/
  stdout : List Text := []
  panicked : Option Panic := none

/-- Where a thread that tests scenarios is. -/
inductive Pc
  /-- `src/lab.rs:102` about to take the baseline's build directory -/
  | new
  /-- `src/build_dir.rs:55` about to copy the tree; for the main thread or a worker -/
  | mustCopy (forMain : Bool)
  | copying (forMain : Bool) (d : DirId)
  /-- the main thread has a build directory -/
  | prepared (d : DirId)
  /-- `src/lab.rs:238` about to take a mutant from the queue -/
  | idle (d : DirId)
  /-- `src/lab.rs:259` about to start the scenario -/
  | taken (d : DirId) (sc : Scenario)
  /-- `src/lab.rs:266` about to tell the console -/
  | logged (d : DirId) (sc : Scenario)
  /-- `src/lab.rs:272` about to write the diff -/
  | started (d : DirId) (sc : Scenario)
  /-- `src/lab.rs:273` about to apply the mutant -/
  | diffed (d : DirId) (sc : Scenario)
  /-- `src/lab.rs:278` about to start the next phase, or to revert after the last one -/
  | ready (d : DirId) (sc : Scenario) (todo : List Phase) (results : List PhaseResult)
  /-- `src/lab.rs:283` in `run_cargo` -/
  | command (d : DirId) (sc : Scenario) (p : Phase) (todo : List Phase) (results : List PhaseResult)
  /-- `src/lab.rs:302-308` about to revert after an error -/
  | failing (d : DirId) (sc : Scenario)
  /-- `src/lab.rs:314` about to record the outcome -/
  | reverted (d : DirId) (sc : Scenario) (results : List PhaseResult)
  /-- `src/lab.rs:319` about to tell the console -/
  | recorded (d : DirId) (sc : Scenario) (results : List PhaseResult)
  /-- `src/lab.rs:183` the baseline is done -/
  | baselineDone (d : DirId) (o : ScenarioOutcome)
  /-- returned `Ok` -/
  | finished (d : DirId)
  /-- returned an error, or panicked; with the build directory, if it had one -/
  | failed (d : Option DirId)
deriving DecidableEq

def Pc.isFinished : Pc → Bool
  | .finished _ => true
  | _ => false

def Pc.isFailed : Pc → Bool
  | .failed _ => true
  | _ => false

/-- Where the main thread is in `test_mutants`. -/
inductive MainPc
  | setup
  /-- making the first build directory -/
  | preparing
  | baseline
  /-- the workers have been started -/
  | testing
  /-- `none` is an error (or a panic) -/
  | returned (r : Option LabOutcome)
deriving DecidableEq

structure State where
  sh : Shared
  main : MainPc := .setup
  workers : List Pc := []

/-- What happens in one step of a thread, where it is not determined. -/
inductive Choice
  | ok
  /-- an operation fails without effect -/
  | fail
  /-- writing a source file fails, and leaves it as it was or with this text -/
  | writeFails (t : Option Text)
  /-- the command ends -/
  | exits (duration : Nat) (status : Exit)
  /-- recording fails after some of the writes -/
  | stopAfter (writes : Nat)
  /-- the log cannot be read as text -/
  | logUnreadable

inductive Event
  | interrupt
  | main (ok : Bool)
  | worker (i : Nat) (c : Choice)

/-- Write a file of a directory. -/
def writeFile (dirs : DirId → Tree) (d : DirId) (p : Path) (t : Text) : DirId → Tree :=
  fun d' => if d' = d then fun p' => if p' = p then some t else dirs d p' else dirs d'

def Shared.panic (sh : Shared) (d : DirId) (k : Panic) : Shared × Pc :=
  ({ sh with panicked := some k }, .failed (some d))

/-- `src/build_dir.rs:93-99` `overwrite_file`; `next` is the program counter if it succeeds. -/
def overwrite (sh : Shared) (d : DirId) (p : Path) (t : Text) (next : Pc) : Choice → Option (Shared × Pc)
  | .ok =>
    if (sh.dirs d p).isSome then some ({ sh with dirs := writeFile sh.dirs d p t }, next)
    else some (sh, .failed (some d))
  | .writeFails none => some (sh, .failed (some d))
  | .writeFails (some t') =>
    some ({ sh with dirs := writeFile sh.dirs d p t' }, .failed (some d))
  | _ => none

/-- `src/lab.rs:311-313`, `304-306`: revert, for a mutant. -/
def revert (sh : Shared) (d : DirId) (sc : Scenario) (next : Pc) (c : Choice) : Option (Shared × Pc) :=
  match sc with
  | .baseline => some (sh, next)
  | .mutant m => overwrite sh d m.sourceFile.path m.sourceFile.code next c

/-- `src/lab.rs:314-317`: `add_scenario_outcome`. -/
def recordOutcome (sh : Shared) (d : DirId) (o : ScenarioOutcome) (next : Pc) : Choice → Option (Shared × Pc)
  | .ok =>
    match (addOutcomeWrites o).bind sh.out.writeAll with
    | none => some (sh.panic d .outcome)
    | some out => some ({ sh with out := out }, next)
  | .stopAfter k =>
    match (addOutcomeWrites o).bind fun ws => sh.out.writeAll (ws.take k) with
    | none => some (sh.panic d .outcome)
    | some out => some ({ sh with out := out }, .failed (some d))
  | _ => none

/-- `src/console.rs:59-120` `scenario_finished`. -/
def tellFinished (cfg : Config) (sh : Shared) (d : DirId) (o : ScenarioOutcome) (next : Pc) (c : Choice) :
    Option (Shared × Pc) :=
  let told := { sh with console := sh.console.scenarioFinished d o.scenario.isMutant }
  match c with
  | .ok =>
    match o.message cfg.print with
    | none => some (told.panic d .outcome)
    | some text => some ({ told with stdout := sh.stdout ++ text.toList }, next)
  | .logUnreadable =>
    if (o.message cfg.print).any Option.isSome && o.showsLog cfg.print then some (told.panic d .unreadableLog)
    else none
  | _ => none

/-- One step of a thread that is at `pc`; `none` if it cannot take this step. -/
def wstep (cfg : Config) (sh : Shared) (pc : Pc) (c : Choice) : Option (Shared × Pc) :=
  match pc with
  | .new =>
    match sh.dir0 with
    | some d => some ({ sh with dir0 := none }, .idle d)
    | none => some (sh, .mustCopy false)
  | .mustCopy b =>
    match c with
    | .ok =>
      some ({ sh with nextDir := sh.nextDir + 1, console := sh.console.startCopy sh.nextDir },
        .copying b sh.nextDir)
    | .fail => some (sh, .failed none)
    | _ => none
  | .copying b d =>
    match c with
    | .ok =>
      match sh.console.finishCopy d with
      | none => some ({ sh with panicked := some .console }, .failed none)
      | some con =>
        some ({ sh with console := con,
                        dirs := fun d' => if d' = d then cfg.copy (sh.dirs 0) else sh.dirs d' },
          if b then .prepared d else .idle d)
    | .fail => some (sh, .failed none)
    | _ => none
  | .idle d =>
    match sh.queue with
    | [] => some (sh, .finished d)
    | m :: q => some ({ sh with queue := q }, .taken d (.mutant m))
  | .taken d sc =>
    match c with
    | .ok =>
      match startScenario sh.used sh.logs sc with
      | none => some ({ sh with used := (chooseLogName sh.used sc).1 }, .failed (some d))
      | some (used, logs) => some ({ sh with used := used, logs := logs }, .logged d sc)
    -- the name has been used up
    | .fail => some ({ sh with used := (chooseLogName sh.used sc).1 }, .failed (some d))
    | _ => none
  | .logged d sc =>
    match c with
    | .ok =>
      some ({ sh with console := sh.console.scenarioStarted d },
        if sc.isMutant then .started d sc else .ready d sc cfg.phases [])
    | .fail => some (sh, .failed (some d))
    | _ => none
  | .started d sc =>
    match c with
    | .ok => some (sh, .diffed d sc)
    | .fail => some (sh, .failed (some d))
    | _ => none
  | .diffed d sc =>
    match sc with
    | .baseline => none
    | .mutant m => overwrite sh d m.sourceFile.path m.mutated (.ready d sc cfg.phases []) c
  | .ready d sc todo rs =>
    match todo with
    | p :: todo =>
      match sh.console.phaseStarted d p with
      | none => some (sh.panic d .console)
      | some con => some ({ sh with console := con }, .command d sc p todo rs)
    | [] => revert sh d sc (.reverted d sc rs) c
  | .command d sc p todo rs =>
    match c with
    | .exits dur status =>
      -- `src/cargo.rs:67` `check_interrupted`
      if sh.interrupted then some (sh, .failing d sc)
      else
        match sh.console.phaseFinished d p with
        | none => some (sh.panic d .console)
        | some con =>
          some ({ sh with console := con },
            .ready d sc (if status.isSuccess then todo else [])
              (rs ++ [{ phase := p, duration := dur, status := status, argv := cfg.argv sc p }]))
    | .fail => some (sh, .failing d sc)
    | _ => none
  | .failing d sc => revert sh d sc (.failed (some d)) c
  | .reverted d sc rs => recordOutcome sh d ⟨sc, rs⟩ (.recorded d sc rs) c
  | .recorded d sc rs =>
    tellFinished cfg sh d ⟨sc, rs⟩ (if sc.isMutant then .idle d else .baselineDone d ⟨sc, rs⟩) c
  | .prepared _ | .baselineDone _ _ | .finished _ | .failed _ => none

/-- `src/lab.rs:89-110`: starting the workers, with the directory of the baseline. -/
def spawn (cfg : Config) (s : State) (d : DirId) : State :=
  { sh := { s.sh with dir0 := some d, console := { s.sh.console with mutantsStarted := true } },
    main := .testing,
    workers := List.replicate cfg.nThreads .new }

/-- A step of the main thread, `src/lab.rs:31-128`, `131-158`; `ok = false` if an operation fails. -/
def mstep (cfg : Config) (s : State) (ok : Bool) : Option State :=
  match s.main with
  | .setup =>
    if !ok then some { s with main := .returned none }
    else if cfg.mutants.isEmpty then
      some { s with sh := { s.sh with stdout := s.sh.stdout ++ [foundMessage 0] }, main := .returned (some {}) }
    else
      some
        { sh := { s.sh with
            stdout := s.sh.stdout ++ [foundMessage cfg.mutants.length],
            console := { s.sh.console with labStarted := true, nMutants := cfg.mutants.length } },
          main := .preparing,
          workers := [if cfg.inPlace then .prepared 0 else .mustCopy true] }
  | .preparing =>
    match s.workers with
    | [.prepared d] =>
      if !ok then some { s with main := .returned none }
      else if cfg.runBaseline then some { s with main := .baseline, workers := [.taken d .baseline] }
      else some (spawn cfg s d)
    | [.failed _] => some { s with main := .returned none }
    | _ => none
  | .baseline =>
    match s.workers with
    | [.baselineDone d o] =>
      if o.success = some true then
        -- `src/timeouts.rs:34-38` may panic
        if !ok then some { s with main := .returned none } else some (spawn cfg s d)
      else some { s with main := .returned (some s.sh.out.lab) }
    | [.failed _] => some { s with main := .returned none }
    | _ => none
  | .testing =>
    if s.workers.all fun pc => pc.isFinished || pc.isFailed then
      if s.workers.any Pc.isFailed then some { s with main := .returned none }
      else
        some { s with
          sh := { s.sh with stdout := s.sh.stdout ++ [finishedMessage cfg.print s.sh.out.lab] },
          main := .returned (some s.sh.out.lab) }
    else none
  | .returned _ => none

/-- One step; `none` if the event cannot happen. -/
def step (cfg : Config) (s : State) : Event → Option State
  | .interrupt =>
    if s.sh.interrupted then none else some { s with sh := { s.sh with interrupted := true } }
  | .main ok => mstep cfg s ok
  | .worker i c => do
    let pc ← s.workers[i]?
    let (sh, pc') ← wstep cfg s.sh pc c
    pure { s with sh := sh, workers := s.workers.set i pc' }

def exec (cfg : Config) (s : State) : List Event → Option State
  | [] => some s
  | e :: es => (step cfg s e).bind fun s => exec cfg s es

def init (cfg : Config) : State :=
  { sh := { queue := cfg.mutants, dirs := fun d => if d = 0 then cfg.tree else fun _ => none } }

/-- States that a run can reach. -/
def Reachable (cfg : Config) (s : State) : Prop := ∃ es, exec cfg (init cfg) es = some s

end CM.Lab
