import Verif.Model.Options
/-! Copying the source tree: `src/copy_tree.rs`.

Reading and writing does not fail in the model, and the source does not change during the copy. For ctrl-C
see `Interrupt.lean`. -/
namespace CM.Copy

mutual
/-- What is at a place in a file system. -/
inductive Tree
  | file (content : Text)
  | dir (entries : Forest)
  | symlink (target : Text)
  /-- sockets, devices and so on -/
  | other
/-- The entries of a directory, in the order in which the system lists them. -/
inductive Forest
  | nil
  | cons (name : Text) (tree : Tree) (rest : Forest)
end

/-- The type of an entry, and what is read from it. -/
inductive Kind
  | file (content : Text)
  | dir
  | symlink (target : Text)
  | other
deriving DecidableEq, Repr

def Tree.kind : Tree → Kind
  | .file c => .file c
  | .dir _ => .dir
  | .symlink t => .symlink t
  | .other => .other

def Kind.isFile : Kind → Bool
  | .file _ => true
  | _ => false

/-- `src/copy_tree.rs:25` `VCS_DIRS`. -/
def vcsDirs : List Text :=
  [".git".toList, ".hg".toList, ".bzr".toList, ".svn".toList, "_darcs".toList, ".jj".toList, ".pijul".toList]

/-- `src/copy_tree.rs:46-60`: is an entry visited? What `.gitignore` files and the global settings of git
say about an entry is a parameter, `ignored`. -/
def keepEntry (o : Options) (ignored : Path → Bool → Bool) (path : Path) (name : Text) (isDir : Bool) : Bool :=
  !(o.gitignore && ignored path isDir) &&
  (name != "mutants.out".toList && name != "mutants.out.old".toList && (o.copyVcs || !vcsDirs.contains name))

mutual
/-- `ignore::Walk`: the entries from a place on, a directory before what is in it. Symbolic links are not
followed, and nothing below an entry that is not kept is visited. -/
def walkTree (keep : Path → Text → Bool → Bool) (path : Path) : Tree → List (Path × Kind)
  | .file c => [(path, .file c)]
  | .dir f => (path, .dir) :: walkForest keep path f
  | .symlink t => [(path, .symlink t)]
  | .other => [(path, .other)]
def walkForest (keep : Path → Text → Bool → Bool) (path : Path) : Forest → List (Path × Kind)
  | .nil => []
  | .cons n t rest =>
    (if keep (path ++ [n]) n (t.kind = .dir) then walkTree keep (path ++ [n]) t else []) ++ walkForest keep path rest
end

/-- The directory that is written, by path from its root. -/
abbrev Dest := Path → Option Kind

/-- A new temporary directory. -/
def Dest.empty : Dest := fun p => if p = [] then some .dir else none

def Dest.put (d : Dest) (p : Path) (k : Kind) : Dest := fun q => if q = p then some k else d q

/-- `std::fs::copy`, which writes over a file; `none` is an error. That it would write through a symbolic
link is not modelled. -/
def Dest.copyFile (d : Dest) (p : Path) (content : Text) : Option Dest :=
  if p ≠ [] ∧ d p.dropLast = some .dir ∧ (d p = none ∨ (d p).any Kind.isFile) then some (d.put p (.file content)) else none

/-- The path and all above it. -/
def prefixes : Path → List Path
  | [] => [[]]
  | n :: p => [] :: (prefixes p).map (n :: ·)

/-- `std::fs::create_dir_all`. -/
def Dest.createDirAll (d : Dest) (p : Path) : Option Dest :=
  if ∀ q ∈ prefixes p, d q = none ∨ d q = some .dir then
    some fun q => if q ∈ prefixes p then some .dir else d q
  else none

/-- `src/copy_tree/unix.rs:8-14` `copy_symlink`, which fails if there is something. -/
def Dest.symlink (d : Dest) (p : Path) (target : Text) : Option Dest :=
  if p ≠ [] ∧ d p.dropLast = some .dir ∧ d p = none then some (d.put p (.symlink target)) else none

/-- `src/copy_tree.rs:62-101`: one turn of the loop; an entry of another type is skipped with a warning. -/
def copyEntry (d : Dest) : Path × Kind → Option Dest
  | (p, .file c) => d.copyFile p c
  | (p, .dir) => d.createDirAll p
  | (p, .symlink t) => d.symlink p t
  | (_, .other) => some d

def copyEntries (d : Dest) : List (Path × Kind) → Option Dest
  | [] => some d
  | e :: es => (copyEntry d e).bind fun d => copyEntries d es

/-- `src/copy_tree.rs:28-106` `copy_tree`. -/
def copyTree (o : Options) (ignored : Path → Bool → Bool) (source : Tree) : Option Dest :=
  copyEntries .empty (walkTree (keepEntry o ignored) [] source)

end CM.Copy
