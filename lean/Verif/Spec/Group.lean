import Verif.Model.Group
/-! Termination signals. -/
namespace CM.Spec
open CM

/-- The processes of the system before a command is started: each has its own number, and nothing has happened yet. -/
def Before (table : List Group.Entry) : Prop :=
  (table.map Group.Entry.pid).Nodup ∧ ∀ e ∈ table, e.own = false ∧ e.joined = false ∧ e.termed = false

/-- The system comes from such a state, by any events. -/
def Happens (limit : Option Nat) (s : Group.State) : Prop :=
  ∃ table es, Before table ∧ Group.exec { proc := Proc.init limit, table := table } es = some s

end CM.Spec
