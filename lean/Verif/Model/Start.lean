import Verif.Model.Pipeline
import Verif.Model.ConfigFile
/-! Where a run starts: `src/main.rs:451-485`, `src/workspace.rs:91-113` and `src/workspace.rs:228-271`. -/
namespace CM

/-- `src/main.rs:160-168`, `265-267`: the arguments that say where to start, and `--no-config` (`src/main.rs:269-271`). -/
structure StartArgs where
  manifestPath : Option Path := none
  dir : Option Path := none
  noConfig : Bool := false

/-- What the start depends on: the working directory, the file system, and what `cargo` answers. -/
structure Place where
  /-- absolute -/
  cwd : Path
  isDir : Path → Bool
  isFile : Path → Bool
  /-- the root that `cargo locate-project` prints when run in a directory, with `--workspace` or without; `none` if it
  fails or what it prints is not as expected -/
  locate : Path → Bool → Option Path
  /-- `cargo metadata` for a manifest -/
  metadata : Path → Option Metadata
  /-- what is at `mutants.out` and `mutants.out.old` in a directory -/
  outputs : Path → FsState
  parseToml : Text → Option Toml
  number : Text → Option Rat
  /-- the contents of files, and the libraries -/
  base : World

/-- The directory or file that a path leads to, from a directory; as the operating system does it if none of the
directories on the way is a symbolic link. -/
def walkTo (base : Path) : Path → Path
  | [] => base
  | c :: rest =>
    walkTo (if c = "/".toList then [c] else if c = dotdot then (if base = ["/".toList] then base else base.dropLast)
      else if c = dot then base else base ++ [c]) rest

namespace Place

/-- What the operating system takes a path to be. The empty path leads nowhere. -/
def real (p : Place) (path : Path) : Option Path := if path = [] then none else some (walkTo p.cwd path)

/-- `src/workspace.rs:228-271` `locate_project`; `none` is an error. -/
def locateProject (p : Place) (path : Path) (workspace : Bool) : Option Path := do
  let dir ← p.real path
  if p.isDir dir then
    let manifest ← p.locate dir workspace
    if p.isFile manifest then
      let root ← parentPath manifest
      if p.isDir root then pure root else none
    else none
  else none

/-- `src/main.rs:451-460`: the start directory; `none` is an error. -/
def startDir (p : Place) (s : StartArgs) : Option Path :=
  match s.manifestPath with
  | some m => if (p.real m).any p.isFile then parentPath m else none
  | none => match s.dir with
    | some d => some d
    | none => some [dot]

/-- `src/workspace.rs:91-113` `Workspace::open`: the metadata; `none` is an error or, when the project is not at an
absolute path, a panic. -/
def openMetadata (p : Place) (start : Path) : Option Metadata := do
  let dir ← p.locateProject start true
  if dir.head? = some "/".toList then p.metadata (dir ++ ["Cargo.toml".toList]) else none

/-- `src/config.rs:82-89` `read_tree_config` and `src/main.rs:462-466`. -/
def config (p : Place) (noConfig : Bool) (root : Path) : Option Config :=
  Config.forRun p.parseToml p.number noConfig (p.base.read (root ++ [".cargo".toList, "mutants.toml".toList]))

/-- `src/main.rs:479-482`: the directory for `mutants.out`. `--output ""` is taken for the working directory. -/
def outputParent (p : Place) (a : MainArgs) (c : Config) (root : Path) : Path :=
  match a.options.output.or c.output with
  | some t => walkTo p.cwd (components t)
  | none => root

/-- `src/main.rs:451-484`: what the rest of the run depends on; `none` is an error. -/
def world (p : Place) (a : MainArgs) (s : StartArgs) : Option World := do
  let start ← p.startDir s
  let m ← p.openMetadata start
  let c ← p.config s.noConfig m.workspaceRoot
  pure { p.base with
    metadata := m
    located := p.locateProject start false
    config := c
    root := m.workspaceRoot
    isFile := fun q => p.isFile (walkTo m.workspaceRoot q)
    output := p.outputs (p.outputParent a c m.workspaceRoot) }

/-- A run from here without error does this. -/
def Runs (p : Place) (a : MainArgs) (s : StartArgs) (act : Action) : Prop := ∃ w, p.world a s = some w ∧ CM.Runs w a act

end Place
end CM
