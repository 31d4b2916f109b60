import Verif.Model.Interrupt
import Verif.Spec.Path
/-! What ctrl-C before testing is about. -/
namespace CM.Spec
open CM

/-- A path from the root of the tree, wherever that is, stays in the tree. -/
def StaysInTree (p : Path) : Prop := ∀ base : List Text, base ≠ [] → StaysInside base p

/-- A source file inside the tree is still to be looked at. -/
def FileAhead (w : World) (a : MainArgs) : Intr.Pc → Prop
  | .opening => True
  | .starting => ∃ pkgs, selectedPackages (Workspace.open w.metadata) a.mutatePackages a.workspace w.located = some pkgs ∧
      ∃ pkg ∈ pkgs, ∃ p ∈ pkg.topSources, StaysInTree p
  | .walking _ _ _ walk pkgs _ _ => (∃ x ∈ walk.queue, StaysInTree x.1) ∨
      ∃ pkg ∈ pkgs, ∃ p ∈ pkg.topSources, StaysInTree p
  | _ => False

/-- A step of the program, rather than of its surroundings. -/
def ofProgram : Intr.Event → Bool
  | .ctrlC => false
  | _ => true

end CM.Spec
