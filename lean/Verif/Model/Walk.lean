import Verif.Model.Visit
import Verif.Model.Options
import Verif.Model.PathSafe
/-! Finding source files through `mod` statements: `src/visit.rs` `find_mod_source`, `walk_package` and
`walk_tree`. -/
namespace CM

/-- `Utf8PathBuf::push` and `join`, on components: an absolute path replaces the base; `.` is dropped
when it is not at the start. -/
def pushPath (base rel : Path) : Path :=
  if rel.head? = some "/".toList then rel
  else if base = [] then rel
  else base ++ rel.filter (· ≠ dot)

/-- `Utf8Path::parent`. -/
def parentPath (p : Path) : Option Path :=
  if p = [] ∨ p = ["/".toList] then none else some p.dropLast

/-- `Utf8Path::file_stem` of a name: up to the last dot, or all of it if that would be nothing. -/
def fileStem (name : Text) : Text :=
  let before := ((name.reverse.dropWhile (· ≠ '.')).drop 1).reverse
  if before = [] ∨ name = dotdot then name else before

/-- `Utf8Path::with_extension("")`. -/
def withoutExtension (p : Path) : Path :=
  match p.getLast? with
  | some name => p.dropLast ++ [fileStem name]
  | none => []

/-- `src/visit.rs:205-209` `get_filesystem_name`; names of modules have no slash. -/
def ModNamespace.filesystemName (m : ModNamespace) : Path :=
  match m.pathAttribute with
  | some p => components p
  | none => [m.name]

/-- `src/visit.rs:699-712`: where to start looking; `none` is a panic. -/
def modSearchDir (parent : SourceFile) (child : ModNamespace) (parents : List ModNamespace) : Option Path :=
  if parent.isTop || parent.path.getLast? == some "mod.rs".toList ||
      (child.pathAttribute.isSome && parents.isEmpty) then
    parentPath parent.path
  else some (withoutExtension parent.path)

/-- `src/visit.rs:659-738` `find_mod_source`. `isFile` is for paths below the tree root; the outer `none`
is a panic. -/
def findModSource (isFile : Path → Bool) (parent : SourceFile) (parts : List ModNamespace) : Option (Option Path) := do
  let child ← parts.getLast?
  let parents := parts.dropLast
  let searchDir ← modSearchDir parent child parents
  let searchDir := parents.foldl (fun dir m => pushPath dir m.filesystemName) searchDir
  let candidates :=
    match child.pathAttribute with
    | some p => [pushPath searchDir (components p)]
    | none => [pushPath searchDir [child.name ++ ".rs".toList], pushPath searchDir [child.name, "mod.rs".toList]]
  pure (candidates.find? isFile)

/-- What walking a tree depends on: the files below the root, the parser and the options. -/
structure WalkEnv where
  root : Path
  read : Path → Option Text
  isFile : Path → Bool
  parse : Text → Option SynFile
  errorExprs : List Tokens
  options : Options

/-- `src/visit.rs:104`; `none` is a panic. -/
def retainAllowed (o : Options) : List Mutant → Option (List Mutant)
  | [] => some []
  | m :: rest => do
    let keep ← o.allowsMutant m
    let rest ← retainAllowed o rest
    pure (if keep then m :: rest else rest)

/-- `src/visit.rs:116-120`; `none` is a panic. -/
def findMods (isFile : Path → Bool) (sf : SourceFile) : List (List ModNamespace) → Option (List Path)
  | [] => some []
  | parts :: rest => do
    let found ← findModSource isFile sf parts
    let rest ← findMods isFile sf rest
    pure (found.toList ++ rest)

/-- `src/visit.rs:96-120`: one file of the queue: its mutants that are allowed and the files of its
modules. The outer `none` is an error or panic, the inner one a file outside the tree. For ctrl-C see
`Interrupt.lean`. -/
def walkOne (env : WalkEnv) (pkg : Package) (path : Path) (top : Bool) :
    Option (Option (SourceFile × List Mutant × List Path)) := do
  match ← loadSource env.read env.root path pkg top with
  | none => pure none
  | some sf =>
    let syn ← env.parse sf.code
    let (ms, ext) ← walkFile { sourceFile := sf, errorExprs := env.errorExprs, skipCalls := env.options.skipCalls } syn
    let ms ← retainAllowed env.options ms
    let mods ← findMods env.isFile sf ext
    pure (some (sf, ms, mods))

/-- The variables of `src/visit.rs:84-128` `walk_package`. -/
structure WalkState where
  queue : List (Path × Bool)
  mutants : List Mutant := []
  files : List SourceFile := []

/-- One turn of the loop `src/visit.rs:95-126`, which stops when the queue is empty; `none` is an error or
panic. -/
def walkStep (env : WalkEnv) (pkg : Package) (s : WalkState) : Option WalkState :=
  match s.queue with
  | [] => some s
  | (path, top) :: rest =>
    match walkOne env pkg path top with
    | none => none
    | some none => some { s with queue := rest }
    | some (some (sf, ms, mods)) =>
      let queue := rest ++ mods.map fun p => (p, false)
      if env.options.allowsSourceFilePath sf.path then
        some { queue, mutants := s.mutants ++ ms, files := s.files ++ [sf] }
      else some { s with queue }

/-- Some turns of the loop. -/
def walkSteps (env : WalkEnv) (pkg : Package) : Nat → WalkState → Option WalkState
  | 0, s => some s
  | n + 1, s => do walkSteps env pkg n (← walkStep env pkg s)

/-- `src/visit.rs:93-94`. -/
def walkStart (pkg : Package) : WalkState := { queue := pkg.topSources.map fun p => (p, true) }

/-- `walk_package` returns these mutants and files. -/
def WalksPackage (env : WalkEnv) (pkg : Package) (ms : List Mutant) (fs : List SourceFile) : Prop :=
  ∃ n s, walkSteps env pkg n (walkStart pkg) = some s ∧ s.queue = [] ∧ s.mutants = ms ∧ s.files = fs

/-- `src/visit.rs:61-79` `walk_tree` returns these mutants and files. -/
inductive WalksTree (env : WalkEnv) : List Package → List Mutant → List SourceFile → Prop
  | nil : WalksTree env [] [] []
  | cons {pkg pkgs ms fs ms' fs'} : WalksPackage env pkg ms fs → WalksTree env pkgs ms' fs' →
      WalksTree env (pkg :: pkgs) (ms ++ ms') (fs ++ fs')

end CM
