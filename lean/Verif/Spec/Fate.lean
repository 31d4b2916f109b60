import Verif.Spec.Program
/-! What the list files are to say of a mutant: what happened to its commands. -/
namespace CM.Spec
open CM

/-- The process of a command for this mutant was run on the tree with just this mutant, was not stopped for its time limit,
and exited with this code. -/
def ExitedWith (cfg : Run.Config) (es : List Run.Event) (m : Mutant) (p : Phase) (c : Int) : Prop :=
  ∃ s d q e st, EndedIn cfg es s d (.mutant m) p q e ∧ e ≠ .timeout ∧ HoldsMutant cfg (s.lab.sh.dirs d) m ∧
    q.child = .reaped st ∧ st.code = some c

/-- The process of a command for this mutant was run on the tree with just this mutant, and was ended by a signal, though not
for its time limit. -/
def EndedBySignal (cfg : Run.Config) (es : List Run.Event) (m : Mutant) : Prop :=
  ∃ s d p q e st, EndedIn cfg es s d (.mutant m) p q e ∧ e ≠ .timeout ∧ HoldsMutant cfg (s.lab.sh.dirs d) m ∧
    q.child = .reaped st ∧ st.code = none

/-- What a list says of the mutants in it (`book/src/mutants-out.md`). -/
def FateOf (cfg : Run.Config) (es : List Run.Event) (m : Mutant) : ListFile → Prop
  /- the tests passed -/
  | .missed => ExitedWith cfg es m .test 0
  /- the tests failed -/
  | .caught => ∃ c, c ≠ 0 ∧ ExitedWith cfg es m .test c
  /- a command took longer than the documented limit -/
  | .timeout => TookTooLong cfg es m
  /- it did not compile -/
  | .unviable => ∃ c p, c ≠ 0 ∧ p ≠ .test ∧ ExitedWith cfg es m p c

end CM.Spec
