import Verif.Model.Manifest
import Verif.Spec.CopyTree
/-! Writing to build directories in a file system with symbolic links: `src/build_dir.rs`,
`src/manifest.rs`, and what the system does with a path.

A path in the file system is the list of names from the root. The path of a temporary directory is
assumed to have no symbolic links; it is new, and neither in the source tree nor in
another such directory (`tempfile`). -/
namespace CM.Link
open CM.Copy

/-- All files, by their path from the root. -/
abbrev Fs := Path → Option Kind

def Fs.put (fs : Fs) (p : Path) (k : Kind) : Fs := fun q => if q = p then some k else fs q

/-- The names that the target of a symbolic link consists of. -/
def linkNames (target : Text) : Path :=
  if target.head? = some '/' then (components target).drop 1 else components target

/-- Follow a path from the directory `here` along names; `follow` says what is done from a symbolic link on. -/
def resolveWith (fs : Fs) (follow : Path → Path → Option Path) (here : Path) : Path → Option Path
  | [] => some here
  | name :: rest =>
    if name = ".".toList then resolveWith fs follow here rest
    else if name = "..".toList then resolveWith fs follow here.dropLast rest
    else
      match fs (here ++ [name]) with
      | none => none
      | some .dir => resolveWith fs follow (here ++ [name]) rest
      | some (.symlink target) => follow (if target.head? = some '/' then [] else here) (linkNames target ++ rest)
      | some _ => if rest = [] then some (here ++ [name]) else none

/-- How the system follows a path (`path_resolution(7)`), with at most `links` symbolic links on the way;
`none` is an error. A symbolic link at the end is followed too. -/
def resolve (fs : Fs) : (links : Nat) → (here todo : Path) → Option Path
  | 0 => resolveWith fs fun _ _ => none
  | links + 1 => resolveWith fs (resolve fs links)

/-- The limit of Linux. -/
def maxLinks : Nat := 40

/-- The file that a path leads to. -/
def Fs.find (fs : Fs) (p : Path) : Option Path := resolve fs maxLinks [] p

/-- `std::fs::read_to_string`. -/
def Fs.read (fs : Fs) (p : Path) : Option Text :=
  (fs.find p).bind fun q =>
    match fs q with
    | some (.file text) => some text
    | _ => none

/-- `std::fs::write` to a file that exists, and `src/build_dir.rs:93-99` `overwrite_file`, in which
`is_file` follows symbolic links too. -/
def Fs.overwrite (fs : Fs) (p : Path) (text : Text) : Option Fs :=
  (fs.find p).bind fun q => if (fs q).any Kind.isFile then some (fs.put q (.file text)) else none

/-- Read, fix and write a file, as in `src/manifest.rs:22-34` and `src/manifest.rs:106-116`. -/
def fixFile (parse : Text → Option Toml) (print : Toml → Text) (fix : Toml → Option Toml) (fs : Fs) (p : Path) : Option Fs :=
  (fs.read p).bind fun text => (parse text).bind fun v =>
    match fix v with
    | some v => fs.overwrite p (print v)
    | none => some fs

/-- What a run works with: the source directory, the files that have mutants (by path from there), the
options and what is ignored, and the library for TOML. -/
structure Env where
  source : Path
  files : List Path
  options : Options
  ignored : Path → Bool → Bool
  parse : Text → Option Toml
  print : Toml → Text

/-- The absolute path of the source, as text. -/
def Env.sourceText (env : Env) : Text := "/".toList ++ joinWith "/".toList env.source

/-- Put a directory at a place. -/
def Fs.mount (fs : Fs) (dir : Path) (d : Dest) : Fs :=
  fun p => if dir <+: p then d (p.drop dir.length) else fs p

/-- `src/build_dir.rs:55-77` `copy_from`, with a tree read from the source. -/
def copyInto (env : Env) (tree : Tree) (fs : Fs) (tmp : Path) : Option Fs :=
  (copyTree env.options env.ignored tree).bind fun d =>
  (fixFile env.parse env.print (fixManifestToml env.sourceText) (fs.mount tmp d) (tmp ++ manifestFile)).bind fun fs =>
  -- `exists` follows symbolic links
  if (fs.find (tmp ++ configFile)).isNone then some fs
  else fixFile env.parse env.print (fixConfigToml env.sourceText) fs (tmp ++ configFile)

/-- The files and the build directories. -/
structure State where
  fs : Fs
  dirs : List Path := []

/-- A new directory for a copy. -/
structure Fresh (env : Env) (s : State) (tmp : Path) : Prop where
  nothing : ∀ p, tmp <+: p → s.fs p = none
  parents : ∀ p, p <+: tmp → p ≠ tmp → s.fs p = some .dir
  apart : ∀ dir ∈ s.dirs, ¬ dir <+: tmp
  outside : ¬ env.source <+: tmp
  names : ∀ n ∈ tmp, n ≠ ".".toList ∧ n ≠ "..".toList

/-- What is in the source now. -/
structure Now (env : Env) (fs : Fs) (tree : Tree) : Prop where
  proper : Spec.Proper tree
  same : ∀ p k, Spec.At tree p k ↔ fs (env.source ++ p) = some k
  root : fs env.source = some .dir

/-- One operation of a run without `--in-place`, if nothing fails. -/
inductive Step (env : Env) : State → State → Prop
  /-- `src/build_dir.rs:56` a build directory is made -/
  | copy (s : State) (tmp : Path) (tree : Tree) (fs' : Fs) : Fresh env s tmp → Now env s.fs tree →
      copyInto env tree s.fs tmp = some fs' → Step env s { fs := fs', dirs := tmp :: s.dirs }
  /-- `src/mutant.rs:205-216` a mutant is applied or reverted -/
  | write (s : State) (dir file : Path) (text : Text) (fs' : Fs) :
      dir ∈ s.dirs → file ∈ env.files → s.fs.overwrite (dir ++ file) text = some fs' → Step env s { s with fs := fs' }

/-- The same where anything can fail: copying stops anywhere, and a write leaves any text, and the next
operation need not wait for the manifests to be fixed. -/
inductive Change (env : Env) : State → State → Prop
  | copy (s : State) (tmp : Path) (tree : Tree) (n : Nat) (d : Dest) : Fresh env s tmp → Now env s.fs tree →
      copyEntries .empty ((walkTree (keepEntry env.options env.ignored) [] tree).take n) = some d →
      Change env s { fs := s.fs.mount tmp d, dirs := tmp :: s.dirs }
  | write (s : State) (dir file : Path) (text : Text) (fs' : Fs) : dir ∈ s.dirs → file ∈ manifestFile :: configFile :: env.files →
      s.fs.overwrite (dir ++ file) text = some fs' → Change env s { s with fs := fs' }

/-- Any number of operations. -/
inductive Many {α} (step : α → α → Prop) : α → α → Prop
  | none (s) : Many step s s
  | more {s t u} : Many step s t → step t u → Many step s u

end CM.Link
