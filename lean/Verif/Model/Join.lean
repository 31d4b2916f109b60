import Verif.Model.Lab
/-! How a run that fails ends: `src/lab.rs` `join_threads`, and the errors that it collects, in the system of `Lab.lean`.
Of an error it is known whether it is that of `check_interrupted`, others are told apart by numbers. -/
namespace CM.Join
open CM.Lab

inductive Err
  /-- `src/interrupt.rs:25` -/
  | interrupted
  | other (n : Nat)
deriving DecidableEq, Repr

/-- How a function or thread ends. -/
inductive Ending
  | ok
  | error (e : Err)
  /-- `none`: computing the time limit, `src/timeouts.rs:34-38` -/
  | panic (k : Option Panic)
deriving DecidableEq, Repr

/-- `src/lab.rs:131-158` `join_threads`, with how the threads end in the order in which they were started: the errors that
are printed, and how it ends. -/
def joinThreads : List Ending → List Err × Ending
  | [] => ([], .ok)
  -- `resume_unwind`
  | .panic k :: _ => ([], .panic k)
  | .ok :: rest => joinThreads rest
  | .error e :: rest =>
    let (printed, ending) := joinThreads rest
    (if e = .interrupted then printed else e :: printed,
      match ending with
      | .panic k => .panic k
      | _ => .error e)

structure State where
  lab : Lab.State
  /-- for each thread, the error that it will return, or how it ended -/
  held : Nat → Ending := fun _ => .ok
  /-- what `join_threads` printed -/
  printed : List Err := []
  /-- how `test_mutants` ended -/
  result : Option Ending := none

inductive Event
  | interrupt
  /-- `why` is how an operation that fails ends -/
  | main (ok : Bool) (why : Ending)
  /-- `e` is the error, if an operation fails with one -/
  | worker (i : Nat) (c : Choice) (e : Err)

/-- Without the errors. -/
def Event.lab : Event → Lab.Event
  | .interrupt => .interrupt
  | .main ok _ => .main ok
  | .worker i c _ => .worker i c

/-- `src/copy_tree.rs:63`, `src/process.rs:112`, `src/cargo.rs:67`: where `check_interrupted` is called. -/
def Pc.checks : Pc → Bool
  | .copying _ _ | .command _ _ _ _ _ => true
  | _ => false

/-- The panic in this step, if there is one. -/
def panicOf (cfg : Config) (sh : Shared) (pc : Pc) (c : Choice) : Option Panic :=
  (wstep cfg { sh with panicked := none } pc c).bind fun r => r.1.panicked

/-- `src/lab.rs:304-306`: whether reverting after an error succeeds. -/
def reverts (sh : Shared) (d : DirId) : Scenario → Choice → Bool
  | .baseline, _ => true
  | .mutant m, .ok => (sh.dirs d m.sourceFile.path).isSome
  | .mutant _, _ => false

/-- What a step of a thread from `pc` to `pc'` makes of what the thread holds. -/
def hold (cfg : Config) (sh : Shared) (c : Choice) (e : Err) (old : Ending) (pc pc' : Pc) : Ending :=
  match pc, pc' with
  | .command _ _ _ _ _, .failing _ _ =>
    match c with
    -- `src/cargo.rs:67`
    | .exits _ _ => .error .interrupted
    | _ => .error e
  -- `src/lab.rs:302-308`
  | .failing d sc, .failed _ => if reverts sh d sc c then old else .error e
  | _, .failed _ =>
    match panicOf cfg sh pc c with
    | some k => .panic (some k)
    | none => .error e
  | _, _ => old

/-- How an operation of the main thread that fails may end: `src/lab.rs:39`, `43`, `50-59`, and for a panic computing the
time limits in lines 68-86. -/
def mayEnd : MainPc → Ending → Bool
  | _, .error (.other _) => true
  | .preparing, .panic none | .baseline, .panic none => true
  | _, _ => false

/-- What a step of the main thread means. -/
def State.mainStep (s : State) (why : Ending) (l : Lab.State) : State :=
  match l.main with
  | .returned r =>
    match s.lab.main with
    | .testing =>
      let j := joinThreads ((List.range s.lab.workers.length).map s.held)
      { s with lab := l, printed := j.1, result := some j.2 }
    | _ =>
      { s with
        lab := l
        result := some <| match r with
          | some _ => .ok
          | none =>
            -- `src/lab.rs:50`, `70`
            if s.lab.workers.any Pc.isFailed then s.held 0 else why }
  | _ => { s with lab := l }

/-- One step; `none` if the event cannot happen. -/
def step (cfg : Config) (s : State) (ev : Event) : Option State :=
  (Lab.step cfg s.lab ev.lab).bind fun l =>
    match ev with
    | .interrupt => some { s with lab := l }
    | .main ok why => if !ok && !mayEnd s.lab.main why then none else some (s.mainStep why l)
    | .worker i c e =>
      match s.lab.workers[i]?, l.workers[i]? with
      | some pc, some pc' =>
        if e = .interrupted ∧ ¬ (s.lab.sh.interrupted = true ∧ Pc.checks pc = true) then none
        else
          some { s with
            lab := l
            held := fun j => if j = i then hold cfg s.lab.sh c e (s.held i) pc pc' else s.held j }
      | _, _ => none

def exec (cfg : Config) (s : State) : List Event → Option State
  | [] => some s
  | e :: es => (step cfg s e).bind fun s => exec cfg s es

def init (cfg : Config) : State := { lab := Lab.init cfg }

/-- States that a run can reach. -/
def Reachable (cfg : Config) (s : State) : Prop := ∃ es, exec cfg (init cfg) es = some s

/-- The exit code of a run that ends without an outcome: `main` returns the error (`src/main.rs:521`), or the panic goes
on; the codes are those of the Rust runtime. -/
def Ending.exitCode : Ending → Option Nat
  | .ok => none
  | .error _ => some 1
  | .panic _ => some 101

end CM.Join
