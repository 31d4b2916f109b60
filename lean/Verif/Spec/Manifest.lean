import Verif.Model.Manifest
import Verif.Spec.Path
/-! Where manifests have paths, and what they mean. -/
namespace CM.Spec

/-- What a document has at a place, given by the keys that lead there. -/
def place : Toml → List Text → Option Toml
  | v, [] => some v
  | .table entries, k :: ks => (entries.lookup k).bind fun v => place v ks
  | _, _ :: _ => none

/-- A table of dependencies. -/
def depTables : List Text := ["dependencies".toList, "dev-dependencies".toList, "build-dependencies".toList]

/-- The places where cargo reads paths of packages: dependencies, also for targets and those of a
workspace, and those that replace other packages. -/
inductive DependencyPath : List Text → Prop
  | normal (t name) : t ∈ depTables → DependencyPath [t, name, "path".toList]
  | target (cfg t name) : t ∈ depTables → DependencyPath ["target".toList, cfg, t, name, "path".toList]
  | workspace (name) : DependencyPath ["workspace".toList, "dependencies".toList, name, "path".toList]
  | replace (name) : DependencyPath ["replace".toList, name, "path".toList]
  | patch (source name) : DependencyPath ["patch".toList, source, name, "path".toList]

/-- The directory, innermost name first, that a path denotes from a directory. -/
def denotes (base : List Text) (path : Text) : List Text :=
  if path.head? = some '/' then follow [] ((components path).drop 1) else follow base (components path)

/-- A path means from the copy what another means from the source: the same directory, or for one in the
source tree the copy of it. -/
def Moved (source copy : List Text) (old new : Text) : Prop :=
  (∀ below, denotes source old = below ++ source → denotes copy new = below ++ copy) ∧
  ((¬ ∃ below, denotes source old = below ++ source) → denotes copy new = denotes source old)

/-- The same for paths in a manifest in the directory `at_` of the tree. -/
def MovedAt (source copy : List Text) (at_ : Path) (old new : Text) : Prop :=
  (∀ below, denotes (follow source at_) old = below ++ source → denotes (follow copy at_) new = below ++ copy) ∧
  ((¬ ∃ below, denotes (follow source at_) old = below ++ source) → denotes (follow copy at_) new = denotes (follow source at_) old)

/-- A file system, in which a name leads from one directory to another. Symbolic links can lead anywhere. -/
structure Dirs where
  Node : Type
  root : Node
  step : Node → Text → Option Node

/-- The directory to which a path leads. -/
def Dirs.go (fs : Dirs) (n : fs.Node) : Path → Option fs.Node
  | [] => some n
  | c :: rest => if c = ".".toList then fs.go n rest else (fs.step n c).bind fun m => fs.go m rest

def Dirs.resolve (fs : Dirs) (base : fs.Node) (path : Text) : Option fs.Node :=
  if path.head? = some '/' then fs.go fs.root ((components path).drop 1) else fs.go base (components path)

/-- The top manifest. -/
def cargoToml : Path := ["Cargo.toml".toList]

/-- The configuration of cargo. -/
def cargoConfig : Path := [".cargo".toList, "config.toml".toList]

end CM.Spec
