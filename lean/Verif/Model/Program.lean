import Verif.Model.Pipeline
import Verif.Model.Run
/-! The whole program: `src/main.rs:423-525` `main`, from the arguments to the exit code, with the codes of
`src/exit_code.rs`. -/
namespace CM.Program
open CM

/-- What testing depends on beside the source tree and the arguments. -/
structure Machine where
  print : PrintOptions := {}
  /-- `src/cargo.rs:85-90` `cargo_bin` -/
  bin : Text := "cargo".toList
  /-- how a limit in seconds is rounded to nanoseconds -/
  nanos : Rat → Nat
  /-- what copying makes of a tree -/
  copy : Lab.Tree → Lab.Tree
  /-- the random numbers for shuffling -/
  random : Nat → Nat
  /-- an interrupt arrives, or the operating system fails, before testing or while listing -/
  trouble : Bool := false

/-- `src/main.rs:116-402` `Args`, as far as `clap` refuses combinations of what is modelled: `--in-place` conflicts
with `--jobs` (`src/main.rs:208-214`). -/
def Accepted (a : MainArgs) : Prop := a.options.inPlace = true → a.options.jobs = none

/-- `src/main.rs:521`, `src/lab.rs:31-43`: the call of `test_mutants` with these options and mutants. -/
def config (w : World) (x : Machine) (a : MainArgs) (o : Options) (ms : List Mutant) : Run.Config where
  mutants := testQueue a x.random ms
  options := o
  workspace := Workspace.open w.metadata
  print := x.print
  bin := x.bin
  nanos := x.nanos
  tree := fun p => w.read (joinPath w.root p)
  copy := x.copy

/-- A run comes to `test_mutants`, with this. -/
def Tests (w : World) (x : Machine) (a : MainArgs) (cfg : Run.Config) : Prop :=
  Accepted a ∧ ∃ o out ms, Options.new w.regex a.options w.config = some o ∧ Runs w a (.test out ms) ∧
    cfg = config w x a o ms

/-- `src/output.rs:149-162`, `213-228`: the output directory when a run has written this to the lists, which were empty
in `out`. Of other files only those written before testing are kept. -/
def leaves (out : FsState) (f : OutputFiles) : FsState :=
  { out with out := out.out.map fun d =>
      (((d.put "missed.txt".toList f.missedTxt).put "caught.txt".toList f.caughtTxt).put
        "timeout.txt".toList f.timeoutTxt).put "unviable.txt".toList f.unviableTxt }

/-- `src/main.rs:424-444`: what `clap` makes of the command line. -/
inductive Cli
  /-- an error of `clap`, or help, with the exit code that `clap` has for it -/
  | refused (code : Nat)
  | version
  | completions
  | run (a : MainArgs)

/-- `src/main.rs:423-525`: the program may end with this exit code. An error that `main` returns is code 1 and a panic
is code 101, as the Rust runtime has it. Exit by a signal is not an exit code. -/
inductive Ends (w : World) (x : Machine) : Cli → Nat → Prop
  /-- `src/main.rs:426-435` -/
  | refused (code) : Ends w x (.refused code) (if code = 2 then 1 else if code = 0 then 0 else 70)
  /-- `src/main.rs:438-440` -/
  | version : Ends w x .version 0
  /-- `src/main.rs:441-444` -/
  | completions : Ends w x .completions 0
  /-- an error before testing or listing -/
  | error {a} (h : ∀ act, ¬ Runs w a act) : Ends w x (.run a) 1
  /-- a panic before testing or listing -/
  | panic {a} (h : ∀ act, ¬ Runs w a act) : Ends w x (.run a) 101
  /-- an interrupt or a failure of the operating system before testing or while listing, for example in
  `src/workspace.rs:101`, `src/visit.rs:102`, `src/output.rs:76` -/
  | troubleError {a} (h : x.trouble = true) : Ends w x (.run a) 1
  /-- the same with a panic, for example of `print!` in `src/main.rs:500` -/
  | troublePanic {a} (h : x.trouble = true) : Ends w x (.run a) 101
  /-- `src/main.rs:499-502`, `513-514`, `524` -/
  | listed {a act} (h : Runs w a act) (hl : (a.list || a.listFiles) = true) : Ends w x (.run a) 0
  /-- `src/main.rs:521-522` -/
  | tested {a cfg es s l code} (h : Tests w x a cfg) (he : Run.exec cfg (Run.init cfg) es = some s)
      (hr : s.lab.main = .returned (some l)) (hc : l.exitCode = some code) : Ends w x (.run a) code
  /-- `src/main.rs:521`: an error -/
  | testError {a cfg es s} (h : Tests w x a cfg) (he : Run.exec cfg (Run.init cfg) es = some s)
      (hr : s.lab.main = .returned none) : Ends w x (.run a) 1
  /-- `src/main.rs:521`: a panic of the main thread -/
  | testPanic {a cfg es s} (h : Tests w x a cfg) (he : Run.exec cfg (Run.init cfg) es = some s)
      (hr : s.lab.main = .returned none) : Ends w x (.run a) 101
  /-- `src/main.rs:522`: a panic in `exit_code` -/
  | exitPanic {a cfg es s l} (h : Tests w x a cfg) (he : Run.exec cfg (Run.init cfg) es = some s)
      (hr : s.lab.main = .returned (some l)) (hc : l.exitCode = none) : Ends w x (.run a) 101

end CM.Program
