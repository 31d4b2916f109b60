import Verif.Model.Lab
/-! A run in which commands write files of their build directories: the system of `Lab.lean`, with writes in between.

`src/lab.rs:283` starts commands in the build directory (`src/cargo.rs:58-66`, `src/process.rs:90`), and nothing keeps them
from writing there: cargo writes `Cargo.lock` and `target`, and tests write what they like. What a command has started may
go on writing after the command is over. -/
namespace CM.Dirt
open CM.Lab

structure State where
  lab : Lab.State
  /-- the directories in which a command has been started -/
  ran : List DirId := []
  /-- the files that were last written, or removed, by a command -/
  byCommand : DirId → Path → Bool := fun _ _ => false

inductive Event
  | lab (e : Lab.Event)
  /-- a command, or what it has left behind, writes this file of a directory, or removes it -/
  | writes (d : DirId) (p : Path) (t : Option Text)

/-- The file that the program itself writes in a step of a thread: `src/lab.rs:273` `apply`, `src/lab.rs:304-306`, `311-313` `revert`. -/
def target : Pc → Option (DirId × Path)
  | .diffed d (.mutant m) | .ready d (.mutant m) [] _ | .failing d (.mutant m) => some (d, m.sourceFile.path)
  | _ => none

/-- `src/build_dir.rs:93-99`: whether it is written, perhaps in part. -/
def isWritten (dirs : DirId → Tree) (d : DirId) (p : Path) : Choice → Bool
  | .ok => (dirs d p).isSome
  | .writeFails t => t.isSome
  | _ => false

/-- A directory with one file set. -/
def setFile {α} (f : DirId → Path → α) (d : DirId) (p : Path) (a : α) : DirId → Path → α :=
  fun d' p' => if d' = d ∧ p' = p then a else f d' p'

/-- Who last wrote each file, after a step of a thread. Copying the tree writes all files of a directory. -/
def State.written (s : State) (pc : Pc) (c : Choice) : DirId → Path → Bool :=
  match pc, c with
  | .copying _ d, .ok =>
    if (s.lab.sh.console.finishCopy d).isSome then fun d' p => if d' = d then false else s.byCommand d' p else s.byCommand
  | _, _ =>
    match target pc with
    | some (d, p) => if isWritten s.lab.sh.dirs d p c then setFile s.byCommand d p false else s.byCommand
    | none => s.byCommand

/-- The directories with commands, after a step of a thread to `pc`. -/
def State.started (s : State) : Option Pc → List DirId
  | some (.command d _ _ _ _) => d :: s.ran
  | _ => s.ran

def step (cfg : Config) (s : State) : Event → Option State
  | .writes d p t =>
    if d ∈ s.ran then
      some { s with lab := { s.lab with sh := { s.lab.sh with dirs := setFile s.lab.sh.dirs d p t } },
                    byCommand := setFile s.byCommand d p true }
    else none
  | .lab e => (Lab.step cfg s.lab e).map fun l =>
    match e with
    | .worker i c =>
      match s.lab.workers[i]? with
      | some pc => { lab := l, ran := s.started l.workers[i]?, byCommand := s.written pc c }
      | none => { s with lab := l }
    | _ => { s with lab := l }

def exec (cfg : Config) (s : State) : List Event → Option State
  | [] => some s
  | e :: es => (step cfg s e).bind fun s => exec cfg s es

def init (cfg : Config) : State := { lab := Lab.init cfg }

/-- States that a run can reach. -/
def Reachable (cfg : Config) (s : State) : Prop := ∃ es, exec cfg (init cfg) es = some s

end CM.Dirt
