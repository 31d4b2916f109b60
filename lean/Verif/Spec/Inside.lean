import Verif.Model.Pipeline
import Verif.Spec.Walk
import Verif.Spec.Path
/-! What the paths that are given to the walk look like, and which files are inside the tree. -/
namespace CM.Spec
open CM

/-- No component of the path has a slash in it. -/
def SlashFree (p : Path) : Prop := ∀ c ∈ p, '/' ∉ c

/-- Names of modules are identifiers, so they have no slash. -/
def ModuleNames (parse : Text → Option SynFile) : Prop :=
  ∀ code syn, parse code = some syn → ∀ path, Position syn.items path → ∀ n ∈ path, ∀ name inline span,
    n.kind = .mod name inline span → '/' ∉ name

/-- The targets of a workspace have absolute paths, so that only the first component is a slash. -/
def TargetPaths (m : Metadata) : Prop :=
  m.workspaceRoot ≠ [] ∧ ∀ pm ∈ m.packages, ∀ t ∈ pm.targets, SlashFree t.srcPath.tail

/-- The path names a file of the tree: put behind any directory, it names something below it. -/
def InTree (p : Path) : Prop :=
  (∀ base, joinPath base p = base ++ p) ∧ ∀ base : List Text, base ≠ [] → StaysInside base p

/-- The same files inside the tree, whatever there is outside. -/
def SameInside (root : Path) (read read' : Path → Option Text) : Prop := ∀ p, InTree p → read (root ++ p) = read' (root ++ p)

end CM.Spec
