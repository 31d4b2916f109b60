import Verif.Model.Program
import Verif.Spec.Run
import Verif.Spec.Lab
/-! What the properties of the whole program talk about: what happened to processes during a run. -/
namespace CM.Spec
open CM

/-- At some time in the run, when it was in state `s`, the process for a phase of a scenario had ended with status `e`
in the directory `d`; `q` is that process. -/
def EndedIn (cfg : Run.Config) (es : List Run.Event) (s : Run.State) (d : Nat) (sc : Scenario) (p : Phase)
    (q : Proc.State) (e : Exit) : Prop :=
  ∃ es1 es2 i todo rs, es = es1 ++ es2 ∧ Run.exec cfg (Run.init cfg) es1 = some s ∧
    s.lab.workers[i]? = some (.command d sc p todo rs) ∧ s.procs i = some q ∧ q.pc = .done (.ok e)

/-- The tree with just this mutant, where line ends of files with mutants may be LF in place of CRLF. -/
def HoldsMutant (cfg : Run.Config) (t : Lab.Tree) (m : Mutant) : Prop :=
  ∃ t0, Lab.SameUpToCrlf cfg.lab t0 ∧ t = Lab.withFile t0 m.sourceFile.path m.mutated

/-- A command was run on the tree with just this mutant, and its process did not succeed: it exited with a code other than
0, or was ended by a signal. -/
def Died (cfg : Run.Config) (es : List Run.Event) (m : Mutant) : Prop :=
  ∃ s d p q e st, EndedIn cfg es s d (.mutant m) p q e ∧ HoldsMutant cfg (s.lab.sh.dirs d) m ∧
    q.child = .reaped st ∧ st.code ≠ some 0

/-- The tests were run on the tree with just this mutant, and their process exited with code 0. -/
def Survived (cfg : Run.Config) (es : List Run.Event) (m : Mutant) : Prop :=
  ∃ s d q e st, EndedIn cfg es s d (.mutant m) .test q e ∧ HoldsMutant cfg (s.lab.sh.dirs d) m ∧
    q.child = .reaped st ∧ st.code = some 0

/-- A command was run on the tree with just this mutant, and was stopped since it had run for longer than the documented limit. -/
def TookTooLong (cfg : Run.Config) (es : List Run.Event) (m : Mutant) : Prop :=
  ∃ s d p q l, EndedIn cfg es s d (.mutant m) p q .timeout ∧ HoldsMutant cfg (s.lab.sh.dirs d) m ∧
    documentedLimit cfg.options (recordedBaseline cfg.options s.lab.sh.out.lab.outcomes) (.mutant m) p = some l ∧
    cfg.nanos l < q.clock

/-- A command was run on the tree without any mutant, and did not succeed, or was stopped since it had run for longer than
the documented limit. -/
def BaselineBroke (cfg : Run.Config) (es : List Run.Event) : Prop :=
  ∃ s d p q e, EndedIn cfg es s d .baseline p q e ∧ s.lab.sh.dirs d = cfg.lab.base ∧
    ((∃ st, q.child = .reaped st ∧ st.code ≠ some 0) ∨
      e = .timeout ∧ ∃ l, documentedLimit cfg.options none .baseline p = some l ∧ cfg.nanos l < q.clock)

/-- Copying changes no file with mutants, though it may leave it out. -/
def CopiesSources (w : World) (x : Program.Machine) (ms : List Mutant) : Prop :=
  let tree : Lab.Tree := fun p => w.read (joinPath w.root p)
  ∀ m ∈ ms, x.copy tree m.sourceFile.path = none ∨ x.copy tree m.sourceFile.path = tree m.sourceFile.path

/-- Nothing goes wrong: nobody interrupts, and what is asked of the operating system succeeds. A command may end in any
way. -/
def goesWell : Run.Event → Bool
  | .interrupt => false
  | .main ok => ok
  | .worker _ c => match c with
    | .ok => true
    | _ => false
  | .proc _ e => match e with
    | .spawn ok | .tryWait ok | .wait ok | .log ok => ok
    | .kill r => decide (r ≠ .error)
    | _ => true
  | _ => true

end CM.Spec
