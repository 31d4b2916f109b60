import Verif.Model.Outcome
/-! Small specification vocabulary for the output directory. -/
namespace CM.Spec
open CM

/-- The names of the mutants among `os` that were recorded with the verdict `v`, in order. -/
def namesWith (v : SummaryOutcome) (os : List ScenarioOutcome) : List Text :=
  os.filterMap fun o =>
    match o.scenario with
    | .baseline => none
    | .mutant m => if o.summary = some v then m.name true else none

/-- A name that occupies one line of a text file and reads back as it was written. -/
def OneLine (n : Text) : Prop := '\n' ∉ n ∧ n.getLast? ≠ some '\r'

instance (n : Text) : Decidable (OneLine n) := by unfold OneLine; infer_instance

/-- An outcome as `test_mutants` makes it: it has at least one phase result, and a mutant that
replaces a function body names its function. -/
def Recordable (o : ScenarioOutcome) : Prop :=
  o.phaseResults ≠ [] ∧ ∀ m, o.scenario = .mutant m → m.name true ≠ none

end CM.Spec
