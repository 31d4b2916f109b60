import Verif.Model.Run
import Verif.Model.Json
/-! The logs and diffs of scenarios: `ScenarioOutput` in `src/output.rs`, with what `src/process.rs` and
`src/lab.rs` write to it, on top of the run with processes of `Run.lean`.

Every log is the list of what has been appended to it: messages of cargo-mutants, and output of the commands.
Files are opened for appending, so whoever writes, writes at the end. A process and its descendants can write
to a log whenever they have got it as their standard output, also after the command has been left. If writing
a log fails, the scenario fails and no outcome is recorded; what the log then holds is not modelled: if starting a
process fails, the message with the command line is assumed to have been written, and the message with the result
not if writing it fails. A message is appended as a whole; in fact it is written in three parts, and something that
an earlier command of the scenario has left behind could print in between. -/
namespace CM.Logs
open CM

/-- What has been appended to a log by one write. -/
inductive Chunk
  /-- `src/output.rs:350-353` `message` -/
  | said (message : Text)
  /-- by a command -/
  | printed (text : Text)
deriving DecidableEq, Repr

/-- `src/output.rs:350-353`: the text of a message, with a marker. -/
def Chunk.text : Chunk → Text
  | .said m => "\n*** ".toList ++ m ++ "\n".toList
  | .printed t => t

/-- The content of the log. -/
def logText (cs : List Chunk) : Text := cs.flatMap Chunk.text

/-- The files, by base name: the log of base name `b` is `log/b.log`, the diff is `diff/b.diff`. -/
structure Files where
  /-- the `ScenarioOutput` of each thread -/
  current : Nat → Option Text := fun _ => none
  logs : Text → Option (List Chunk) := fun _ => none
  diffs : Text → Option Text := fun _ => none
  /-- the logs that have been given to some command -/
  handles : List Text := []
  /-- the recorded outcomes with their base names (`src/outcome.rs:151-154`: `log_path`, `diff_path`) -/
  recorded : List (ScenarioOutcome × Text) := []

/-- `src/output.rs:300`: the path of the log of a base name. -/
def logPath (b : Text) : Text := "log/".toList ++ b ++ ".log".toList

/-- `src/output.rs:306-310`: the path of the diff, for a mutant. -/
def diffPath (sc : Scenario) (b : Text) : Option Text :=
  if sc.isMutant then some ("diff/".toList ++ b ++ ".diff".toList) else none

/-- The paths in `outcomes.json` (`src/outcome.rs:161-175`). -/
def Files.jsonWorld (f : Files) (seconds : Nat → Text) : JsonWorld where
  seconds := seconds
  logPath := fun i => ((f.recorded[i]?).map fun x => logPath x.2).getD []
  diffPath := fun i => (f.recorded[i]?).bind fun x => diffPath x.1.scenario x.2

/-- Change a function at one argument. -/
def put {β} (f : Text → β) (b : Text) (x : β) : Text → β := fun c => if c = b then x else f c

/-- `src/output.rs:299-319` `ScenarioOutput::new`. -/
def Files.create (f : Files) (i : Nat) (b title : Text) : Files :=
  { f with current := Run.setAt f.current i (some b), logs := put f.logs b (some [.said title]) }

/-- Append to a log. -/
def Files.append (f : Files) (b : Text) (c : Chunk) : Files :=
  { f with logs := put f.logs b ((f.logs b).map fun cs => cs ++ [c]) }

/-- `src/output.rs:350-353` `message`. -/
def Files.say (f : Files) (i : Nat) (m : Text) : Files :=
  match f.current i with
  | none => f
  | some b => f.append b (.said m)

/-- `src/output.rs:325-330` `write_diff`. -/
def Files.writeDiff (f : Files) (i : Nat) (d : Text) : Files :=
  let f := f.say i ("mutation diff:\n".toList ++ d)
  match f.current i with
  | none => f
  | some b => { f with diffs := put f.diffs b (some d) }

/-- `src/process.rs:88-89`: a process gets the log as standard output and standard error. -/
def Files.handOver (f : Files) (i : Nat) : Files :=
  { f with handles := f.handles ++ (f.current i).toList }

/-- `src/outcome.rs:178-186` `ScenarioOutcome::new` takes the paths from the `ScenarioOutput`. -/
def Files.record (f : Files) (i : Nat) (o : ScenarioOutcome) : Files :=
  { f with recorded := f.recorded ++ (f.current i).toList.map fun b => (o, b) }

/-- `src/scenario.rs:17-24` `Display for Scenario`. A name can be rendered for every mutant that is found (C53, C54). -/
def title : Scenario → Text
  | .baseline => "baseline".toList
  | .mutant m => (m.name true).getD []

/-- An `i32`, as text. -/
def intText : Int → Text
  | .ofNat n => decimal n
  | .negSucc n => '-' :: decimal (n + 1)

/-- `src/process.rs:143` derived `Debug for Exit`. -/
def exitDebug : Exit → Text
  | .success => "Success".toList
  | .failure n => "Failure(".toList ++ intText n ++ ")".toList
  | .timeout => "Timeout".toList
  | .signalled n => "Signalled(".toList ++ intText n ++ ")".toList
  | .other => "Other".toList

/-- What a step of the run from `r` to `r'` does to the files; `diff` gives the unified diff of a mutant, which
is made by a library.
`src/lab.rs:259-274`, `314-317`, `src/process.rs:65`, `80-97`. -/
def effect (cfg : Run.Config) (diff : Mutant → Text) (r r' : Run.State) (f : Files) : Run.Event → Files
  | .worker i _ =>
    match r.lab.workers[i]?, r'.lab.workers[i]? with
    | some (.taken _ sc), some (.logged _ _) => f.create i (chooseLogName r.lab.sh.used sc).2 (title sc)
    | some (.started _ (.mutant m)), some (.diffed _ _) => f.writeDiff i (diff m)
    | some (.reverted _ sc rs), _ =>
      if r'.lab.sh.out.lab.outcomes.length = r.lab.sh.out.lab.outcomes.length then f else f.record i ⟨sc, rs⟩
    | _, _ => f
  | .proc i (.spawn ok) =>
    match r.lab.workers[i]? with
    | some (.command _ sc p _ _) =>
      let f := f.say i (quoteArgv (cfg.lab.argv sc p))
      if ok then f.handOver i else f
    | _ => f
  | .proc i (.log true) =>
    match (r.procs i).map Proc.State.pc with
    | some (.log e) => f.say i ("result: ".toList ++ exitDebug e)
    | _ => f
  | _ => f

structure State where
  run : Run.State
  files : Files := {}

inductive Event
  | run (e : Run.Event)
  /-- a command, or something that it has started, writes -/
  | prints (b : Text) (text : Text)

/-- One step; `none` if the event cannot happen. -/
def step (cfg : Run.Config) (diff : Mutant → Text) (s : State) : Event → Option State
  | .run e => (Run.step cfg s.run e).map fun r => ⟨r, effect cfg diff s.run r s.files e⟩
  | .prints b t => if b ∈ s.files.handles then some { s with files := s.files.append b (.printed t) } else none

def exec (cfg : Run.Config) (diff : Mutant → Text) (s : State) : List Event → Option State
  | [] => some s
  | e :: es => (step cfg diff s e).bind fun s => exec cfg diff s es

def init (cfg : Run.Config) : State := { run := Run.init cfg }

/-- States that a run can reach. -/
def Reachable (cfg : Run.Config) (diff : Mutant → Text) (s : State) : Prop :=
  ∃ es, exec cfg diff (init cfg) es = some s

end CM.Logs
