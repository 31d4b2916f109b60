import Verif.Model.Output
/-! Creating the output directory, rotating the old one, and `--iterate`:
`src/output.rs:120-173`, `251-286`, `src/visit.rs:43-54`, `src/main.rs:486-523`. -/
namespace CM

/-- The content of a directory: its files by name. The subdirectories `log` and `diff` are entries
with empty content; files in them are left out. -/
abbrev Dir := Text → Option Text

def Dir.put (d : Dir) (name content : Text) : Dir := fun f => if f = name then some content else d f

/-- The part of the file system below the output parent directory that matters here: whether the
parent exists, `mutants.out` and `mutants.out.old`. -/
structure FsState where
  parent : Bool
  out : Option Dir
  old : Option Dir

/-- The file system operations of a run, in the order of the code. -/
inductive FsOp
  /-- `create_dir(in_dir)`, line 122 -/
  | createParent
  /-- `acquire_lock` writes `lock.json` into `mutants.out`, lines 127 and 141 -/
  | writeLock
  /-- `remove_dir_all(mutants.out.old)`, line 134; taken as one step -/
  | removeOld
  /-- `rename(mutants.out, mutants.out.old)`, line 136 -/
  | rotate
  /-- `create_dir(mutants.out)`, line 139 -/
  | createOut
  /-- `create_dir(mutants.out/name)`, lines 144-146 -/
  | createSubdir (name : Text)
  /-- open with `create` and `append`, lines 149-162 -/
  | openList (name : Text)
  /-- `create_new` and write, lines 258-262 -/
  | writeNew (name content : Text)
  /-- create or replace a file (`outcomes.json`, line 206) -/
  | replaceFile (name content : Text)
  /-- append to a list file, line 225 -/
  | appendTo (name content : Text)

/-- One operation; `none` is the error that the operating system returns. -/
def FsState.apply (s : FsState) : FsOp → Option FsState
  | .createParent => if s.parent then none else some { s with parent := true }
  | .writeLock =>
    s.out.map fun d => { s with out := some (d.put "lock.json".toList "lock".toList) }
  | .removeOld => if s.old.isSome then some { s with old := none } else none
  | .rotate =>
    match s.out, s.old with
    | some d, none => some { s with out := none, old := some d }
    | _, _ => none
  | .createOut => if s.parent && s.out.isNone then some { s with out := some fun _ => none } else none
  | .createSubdir n =>
    match s.out with
    | some d => if d n = none then some { s with out := some (d.put n []) } else none
    | none => none
  | .openList n =>
    s.out.map fun d => if d n = none then { s with out := some (d.put n []) } else s
  | .writeNew n c =>
    match s.out with
    | some d => if d n = none then some { s with out := some (d.put n c) } else none
    | none => none
  | .replaceFile n c => s.out.map fun d => { s with out := some (d.put n c) }
  | .appendTo n c =>
    match s.out with
    | some d =>
      match d n with
      | some t => some { s with out := some (d.put n (t ++ c)) }
      | none => none
    | none => none

/-- A sequence of operations. -/
def FsState.applyAll (s : FsState) : List FsOp → Option FsState
  | [] => some s
  | op :: ops => (s.apply op).bind fun s => s.applyAll ops

/-- `src/output.rs:126-138`: what is done if `mutants.out` exists. -/
def rotateOps (s : FsState) : List FsOp :=
  if s.out.isSome then
    [.writeLock] ++ (if s.old.isSome then [.removeOld] else []) ++ [.rotate]
  else []

/-- `src/output.rs:139-162`. -/
def createOps : List FsOp :=
  [.createOut, .writeLock, .createSubdir "log".toList, .createSubdir "diff".toList,
   .openList "missed.txt".toList, .openList "caught.txt".toList, .openList "unviable.txt".toList,
   .openList "timeout.txt".toList]

/-- `src/output.rs:120-173` `OutputDir::new`, run alone. The tests for existence are made at the
start; nobody else changes the directory meanwhile (see `Lock.lean` for concurrent runs). -/
def newOutputDirOps (s : FsState) : List FsOp :=
  (if s.parent then [] else [.createParent]) ++ rotateOps s ++ createOps

/-- `src/output.rs:271-286` `load_previously_caught`. -/
def loadPreviouslyCaught (s : FsState) : List Text :=
  ["caught.txt".toList, "unviable.txt".toList, "previously_caught.txt".toList].flatMap fun f =>
    match s.out.bind fun d => d f with
    | some t => rustLines t
    | none => []

/-- `src/output.rs:251-264` `write_previously_caught`. -/
def writePreviouslyCaughtOp (caught : List Text) : FsOp :=
  .writeNew "previously_caught.txt".toList (caught.flatMap fun l => l ++ "\n".toList)

/-- `src/visit.rs:43-54` `remove_previously_caught`; `none` is a panic in `name`. -/
def removePreviouslyCaught (previous : List Text) : List Mutant → Option (List Mutant)
  | [] => some []
  | m :: ms => do
    let n ← m.name true
    let rest ← removePreviouslyCaught previous ms
    pure (if n ∈ previous then rest else m :: rest)

/-- The name of a list file, `src/output.rs:27-29`, `152`, `161`. -/
def ListFile.fileName : ListFile → Text
  | .missed => "missed.txt".toList
  | .caught => "caught.txt".toList
  | .timeout => "timeout.txt".toList
  | .unviable => "unviable.txt".toList

/-- The file system effect of a write made while recording outcomes. -/
def OutputWrite.toFsOps : OutputWrite → List FsOp
  | .remember _ => []
  | .truncateJson => [.replaceFile "outcomes.json".toList []]
  | .writeJson => [.replaceFile "outcomes.json".toList "{}".toList]
  | .appendName l n => [.appendTo l.fileName n]
  | .appendNewline l => [.appendTo l.fileName "\n".toList]

/-- `src/main.rs:486-523`: all file system operations of an `--iterate` run in which the writes `ws`
are made for recorded outcomes; other files (logs, `mutants.json`, `debug.log`) are left out. -/
def iterateRunOps (s : FsState) (ws : List OutputWrite) : List FsOp :=
  newOutputDirOps s ++ [writePreviouslyCaughtOp (loadPreviouslyCaught s)] ++
    ws.flatMap OutputWrite.toFsOps

end CM
