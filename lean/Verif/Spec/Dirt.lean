import Verif.Model.Dirt
import Verif.Spec.Lab
/-! What C90 talks about. -/
namespace CM.Spec
open CM.Lab

/-- The text that the program itself has written last for the mutant that a thread is testing: from applying it the
mutated one, from reverting it the original one. -/
def ownText : Pc → Option (DirId × Path × Text)
  | .ready d (.mutant m) _ _ | .command d (.mutant m) _ _ _ | .failing d (.mutant m) => some (d, m.sourceFile.path, m.mutated)
  | .reverted d (.mutant m) _ | .recorded d (.mutant m) _ => some (d, m.sourceFile.path, m.sourceFile.code)
  | _ => none

/-- A command wrote the file as it is now, at a time when the thread had already got to where it expects `x` there. -/
def WrittenSince (cfg : Config) (es : List Dirt.Event) (i : Nat) (x : DirId × Path × Text) (now : Option Text) : Prop :=
  ∃ es1 es2 s1 pc1, es = es1 ++ .writes x.1 x.2.1 now :: es2 ∧ Dirt.exec cfg (Dirt.init cfg) es1 = some s1 ∧
    s1.lab.workers[i]? = some pc1 ∧ ownText pc1 = some x

/-- The same state, but for the content of directories. -/
def SameButFiles (s c : Lab.State) : Prop :=
  c.main = s.main ∧ c.workers = s.workers ∧ ∃ f, c.sh = { s.sh with dirs := f }

end CM.Spec
