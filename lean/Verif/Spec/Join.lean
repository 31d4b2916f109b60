import Verif.Model.Join
import Verif.Spec.Lab
/-! What the properties of failing runs are stated with. -/
namespace CM.Spec
open CM.Lab CM.Join

def IsPanic : Ending → Prop
  | .panic _ => True
  | _ => False

/-- The first one with a property. -/
def First (p : Ending → Prop) (l : List Ending) (x : Ending) : Prop :=
  ∃ a b, l = a ++ x :: b ∧ p x ∧ ∀ y ∈ a, ¬ p y

/-- How the threads have ended, in the order in which they were started. -/
def endings (s : Join.State) : List Ending := (List.range s.lab.workers.length).map s.held

/-- Nothing fails but the checks for ctrl-C. -/
def OnlyInterrupts : Join.Event → Prop
  | .interrupt => True
  | .main ok _ => ok = true
  | .worker _ c e =>
    match c with
    | .ok | .exits _ _ => True
    | .fail => e = .interrupted
    | _ => False

/-- At some time in the run, the thread had this mutant. -/
def HadMutant (cfg : Config) (es : List Join.Event) (i : Nat) (m : Mutant) : Prop :=
  ∃ es1 es2 s1 pc, es = es1 ++ es2 ∧ Join.exec cfg (Join.init cfg) es1 = some s1 ∧ s1.lab.workers[i]? = some pc ∧
    pc.scenario = some (.mutant m)

/-- The thread is about to return an error, or has ended with an error or a panic. -/
def Failing : Pc → Prop
  | .failing _ _ | .failed _ => True
  | _ => False

/-- At some time in the run an operation of the thread failed with this error: one that made it fail, or the revert after
another error. -/
def FailedWith (cfg : Config) (es : List Join.Event) (i : Nat) (e : Err) : Prop :=
  ∃ es1 c es2 s1 s2 pc pc', es = es1 ++ .worker i c e :: es2 ∧ Join.exec cfg (Join.init cfg) es1 = some s1 ∧
    Join.step cfg s1 (.worker i c e) = some s2 ∧ s1.lab.workers[i]? = some pc ∧ s2.lab.workers[i]? = some pc' ∧
    ((¬ Failing pc ∧ Failing pc') ∨
      ∃ d m, pc = .failing d (.mutant m) ∧ pc' = .failed (some d) ∧
        (c = .ok → s1.lab.sh.dirs d m.sourceFile.path = none))

end CM.Spec
