import Verif.Model.Temp
import Verif.Spec.Lab
/-! Temporary directories (`book/src/build-dirs.md`, and the help of `--leak-dirs`). -/
namespace CM.Spec

/-- A temporary directory of the run is on the disk. -/
def Present (s : Temp.State) (d : Nat) : Prop := d ∈ s.created ∧ d ∉ s.removed

/-- A thread works in a directory. -/
def WorksIn (l : Lab.State) (d : Nat) : Prop :=
  (∀ r, l.main ≠ .returned r) ∧ ∃ pc ∈ l.workers, pc.dir = some d ∧ pc.isFinished = false ∧ pc.isFailed = false

/-- The run has ended, with a result or an error. -/
def Over (l : Lab.State) : Prop := ∃ r, l.main = .returned r

end CM.Spec
