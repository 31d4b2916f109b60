import Verif.Model.Walk
import Verif.Model.Workspace
import Verif.Model.OutputDir
import Verif.Model.InDiff
import Verif.Model.Shard
import Verif.Model.Shuffle
import Verif.Model.Lab
/-! From arguments to mutants: `src/main.rs:423-525` `main`, `src/list.rs` and the start of `src/lab.rs`
`test_mutants`. -/
namespace CM

/-- `src/main.rs:116-402` `Args`: the arguments that `main` itself uses, and those for `Options::new`.
Colours are not modelled. -/
structure MainArgs where
  options : Args := {}
  mutatePackages : List Text := []
  workspace : Bool := false
  iterate : Bool := false
  listFiles : Bool := false
  /-- the name of the file -/
  inDiff : Option Text := none
  shard : Option Shard := none
  list : Bool := false
  json : Bool := false
  diff : Bool := false
  lineCol : Bool := true

/-- What else a run depends on: the workspace, the configuration file, the source tree, the output
directory and diff files; and the libraries used: regular expressions, `syn`, and the parser and writer of
diffs. -/
structure World where
  metadata : Metadata
  /-- the directory of the package around the start directory -/
  located : Option Path
  config : Config
  root : Path
  read : Path → Option Text
  isFile : Path → Bool
  output : FsState
  readDiff : Text → Option Text
  regex : Text → Option (Text → Bool)
  parseExpr : Text → Option Tokens
  parseFile : Text → Option SynFile
  parseDiff : Text → Option (List Patch)
  unifiedDiff : Mutant → Text

/-- `src/options.rs:369-376` `parsed_error_exprs`. -/
def parsedErrorExprs (parse : Text → Option Tokens) : List Text → Option (List Tokens)
  | [] => some []
  | e :: es => do
    let t ← parse e
    let ts ← parsedErrorExprs parse es
    pure (t :: ts)

/-- `src/mutant.rs:245-260` `Serialize for Mutant`: the fields. -/
structure MutantJson where
  package : Text
  file : Text
  function : Option Function
  span : Span
  replacement : Text
  genre : Genre
  diff : Option Text := none

def Mutant.toJson (m : Mutant) : MutantJson :=
  { package := m.sourceFile.package.name, file := toSlashPath m.sourceFile.path, function := m.function,
    span := m.span, replacement := m.replacement, genre := m.genre }

/-- `src/list.rs:20-34`. -/
def listMutantsJson (w : World) (diff : Bool) (ms : List Mutant) : List MutantJson :=
  ms.map fun m => if diff then { m.toJson with diff := some (w.unifiedDiff m) } else m.toJson

/-- `src/list.rs:35-52`, without colours; `none` is the panic in making the name. -/
def listMutantsText (w : World) (lineCol diff : Bool) : List Mutant → Option Text
  | [] => some []
  | m :: ms => do
    let name ← m.name lineCol
    let rest ← listMutantsText w lineCol diff ms
    pure (name ++ "\n".toList ++ (if diff then w.unifiedDiff m ++ "\n".toList else []) ++ rest)

/-- `src/list.rs:56-76`; with `--json` the name of the package is printed too. -/
def listFilesText (fs : List SourceFile) : Text := fs.flatMap fun f => toSlashPath f.path ++ "\n".toList

/-- What a run does in the end. -/
inductive Action
  | listFiles (files : List SourceFile) (text : Text)
  | listJson (mutants : List MutantJson)
  | list (text : Text)
  /-- with the state of the output directory -/
  | test (output : FsState) (mutants : List Mutant)

/-- `src/main.rs:486-496`; `none` is a panic. -/
def iterateFilter (w : World) (iterate : Bool) (ms : List Mutant) : Option (List Mutant) :=
  if iterate then removePreviouslyCaught (loadPreviouslyCaught w.output) ms else some ms

/-- `src/main.rs:504-509`; `none` is an error. -/
def inDiffFilter (w : World) (inDiff : Option Text) (ms : List Mutant) : Option (List Mutant) :=
  match inDiff with
  | none => some ms
  | some file => (w.readDiff file).bind fun text => diffFilter w.parseDiff ms text

/-- `src/main.rs:510-512`. -/
def shardFilter (shard : Option Shard) (ms : List Mutant) : Option (List Mutant) :=
  match shard with
  | none => some ms
  | some s => s.select ms

/-- `src/main.rs:516-520`: what is done to the output directory before testing. -/
def prepareOps (out : FsState) (iterate : Bool) : List FsOp :=
  newOutputDirOps out ++ if iterate then [writePreviouslyCaughtOp (loadPreviouslyCaught out)] else []

/-- `src/main.rs:516-520`: the output directory. -/
def prepareOutput (w : World) (iterate : Bool) : Option FsState := w.output.applyAll (prepareOps w.output iterate)

/-- `src/main.rs:486-525`: what is done with the mutants and files found; `none` is an error. -/
def afterDiscovery (w : World) (a : MainArgs) (ms : List Mutant) (fs : List SourceFile) : Option Action := do
  let ms ← iterateFilter w a.iterate ms
  if a.listFiles then
    pure (.listFiles fs (listFilesText fs))
  else
    let ms ← inDiffFilter w a.inDiff ms
    let ms ← shardFilter a.shard ms
    if a.list then
      if a.json then pure (.listJson (listMutantsJson w a.diff ms))
      else (listMutantsText w a.lineCol a.diff ms).map .list
    else
      let out ← prepareOutput w a.iterate
      pure (.test out ms)

/-- What the walk depends on. -/
def World.walkEnv (w : World) (o : Options) (errorExprs : List Tokens) : WalkEnv :=
  { root := w.root, read := w.read, isFile := w.isFile, parse := w.parseFile, errorExprs := errorExprs, options := o }

/-- `src/main.rs:461-484` with `src/workspace.rs:180-192` `discover`: these mutants and files are found. -/
def Discovers (w : World) (a : MainArgs) (ms : List Mutant) (fs : List SourceFile) : Prop :=
  ∃ o pkgs exprs, Options.new w.regex a.options w.config = some o ∧
    selectedPackages (Workspace.open w.metadata) a.mutatePackages a.workspace w.located = some pkgs ∧
    parsedErrorExprs w.parseExpr o.errorValues = some exprs ∧ WalksTree (w.walkEnv o exprs) pkgs ms fs

/-- A run without error does this. -/
def Runs (w : World) (a : MainArgs) (act : Action) : Prop :=
  ∃ ms fs, Discovers w a ms fs ∧ afterDiscovery w a ms fs = some act

/-- `src/lab.rs:40-43`: the queue and what is written to `mutants.json`. -/
def testQueue (a : MainArgs) (r : Nat → Nat) (ms : List Mutant) : List Mutant := orderMutants a.options.noShuffle r ms

def mutantsJson (a : MainArgs) (r : Nat → Nat) (ms : List Mutant) : List MutantJson := (testQueue a r ms).map Mutant.toJson

end CM
