import Verif.Model.Lab
/-! What the properties of a test run talk about, said without the model's steps. -/
namespace CM.Lab

/-- The build directory of a thread. -/
def Pc.dir : Pc → Option DirId
  | .new | .mustCopy _ => none
  | .copying _ d | .prepared d | .idle d | .taken d _ | .logged d _ | .started d _ | .diffed d _
  | .ready d _ _ _ | .command d _ _ _ _ | .failing d _ | .reverted d _ _ | .recorded d _ _
  | .baselineDone d _ | .finished d => some d
  | .failed d => d

/-- The scenario that a thread works on. -/
def Pc.scenario : Pc → Option Scenario
  | .taken _ sc | .logged _ sc | .started _ sc | .diffed _ sc
  | .ready _ sc _ _ | .command _ sc _ _ _ | .failing _ sc | .reverted _ sc _ | .recorded _ sc _ => some sc
  | _ => none

/-- The command line allows `--in-place` only without `--jobs` (`src/main.rs:207-214`). -/
def Config.JobsOk (cfg : Config) : Prop := cfg.inPlace = true → cfg.nThreads = 1

/-- The mutants come from the files of the tree, and copying does not change these files (but it may
leave them out). -/
structure Config.Consistent (cfg : Config) : Prop where
  source : ∀ m ∈ cfg.mutants, ∃ raw, cfg.tree m.sourceFile.path = some raw ∧
    m.sourceFile.code = normalizeNewlines raw
  copied : ∀ m ∈ cfg.mutants, cfg.copy cfg.tree m.sourceFile.path = none ∨
    cfg.copy cfg.tree m.sourceFile.path = cfg.tree m.sourceFile.path

/-- What a build directory holds at first. -/
def Config.base (cfg : Config) : Tree := if cfg.inPlace then cfg.tree else cfg.copy cfg.tree

/-- A tree with one file replaced. -/
def withFile (t : Tree) (p : Path) (x : Text) : Tree := fun p' => if p' = p then some x else t p'

/-- The mutants of recorded outcomes, in order. -/
def recordedMutants (os : List ScenarioOutcome) : List Mutant :=
  os.filterMap fun o => match o.scenario with
    | .mutant m => some m
    | .baseline => none

/-- The files with mutants have no CRLF line ends. -/
def Config.NoCrlf (cfg : Config) : Prop :=
  ∀ m ∈ cfg.mutants, cfg.tree m.sourceFile.path = some m.sourceFile.code

/-- `t` is the initial content of a build directory, except that CRLF line ends have become LF in
some of the files that have mutants. -/
def SameUpToCrlf (cfg : Config) (t : Tree) : Prop :=
  ∀ p, t p = cfg.base p ∨
    ((∃ m ∈ cfg.mutants, m.sourceFile.path = p) ∧ t p = (cfg.base p).map normalizeNewlines)

/-- A cargo command is running for a thread. -/
def Pc.inCommand : Pc → Bool
  | .command _ _ _ _ _ => true
  | _ => false

/-- A mutation may be in the thread's directory: from applying it until reverting it. -/
def Pc.mayBeMutated : Pc → Bool
  | .ready _ _ _ _ | .command _ _ _ _ _ | .failing _ _ => true
  | _ => false

/-- The thread has not got a complete build directory yet. -/
def Pc.isCopying : Pc → Bool
  | .copying _ _ => true
  | _ => false

/-- The results of commands that a thread has for its scenario. -/
def Pc.results : Pc → List PhaseResult
  | .ready _ _ _ rs | .command _ _ _ _ rs | .reverted _ _ rs | .recorded _ _ rs => rs
  | _ => []

/-- The thread has an outcome for a scenario, all of whose commands have completed, to be recorded. -/
def Pc.toRecord : Pc → Option ScenarioOutcome
  | .ready _ sc [] rs | .reverted _ sc rs => some ⟨sc, rs⟩
  | _ => none

/-- The thread has begun a scenario, or is to begin one, whose commands have not all completed, or
it has failed. -/
def Pc.unfinished : Pc → Bool
  | .taken _ _ | .logged _ _ | .started _ _ | .diffed _ _ | .command _ _ _ _ _ | .failing _ _
  | .failed _ => true
  | .ready _ _ todo _ => !todo.isEmpty
  | _ => false

/-- How many cargo commands thread `i` starts during the events. -/
def commandStarts (cfg : Config) (i : Nat) (s : State) : List Event → Nat
  | [] => 0
  | e :: es =>
    match step cfg s e with
    | none => 0
    | some s' =>
      (if (s'.workers[i]?.map Pc.inCommand) = some true ∧ (s.workers[i]?.map Pc.inCommand) ≠ some true
       then 1 else 0) + commandStarts cfg i s' es

/-- The mutants that threads take up during the events, in order. -/
def takenUp (cfg : Config) (s : State) : List Event → List Mutant
  | [] => []
  | e :: es =>
    match step cfg s e with
    | none => []
    | some s' =>
      (match e with
       | .worker i _ =>
         match s.workers[i]?.bind Pc.scenario, s'.workers[i]?.bind Pc.scenario with
         | none, some (.mutant m) => [m]
         | _, _ => []
       | _ => []) ++ takenUp cfg s' es

/-- A thread has completed all commands of a scenario, with this outcome. -/
def Pc.outcome : Pc → Option ScenarioOutcome
  | .ready _ sc [] rs | .reverted _ sc rs | .recorded _ sc rs => some ⟨sc, rs⟩
  | .baselineDone _ o => some o
  | _ => none

/-- Nothing goes wrong in the operating system and nobody presses ctrl-c: every operation succeeds,
except that cargo commands may end in any way, and logs may hold anything. -/
def Event.Fine : Event → Prop
  | .interrupt => False
  | .main ok => ok = true
  | .worker _ c =>
    match c with
    | .ok | .exits _ _ | .logUnreadable => True
    | _ => False

end CM.Lab
