/-! Concurrent runs that share an output parent directory: `src/output.rs:59-84` `acquire_lock` and
`src/output.rs:120-173` `OutputDir::new`.

Directories are numbered as they are created; the names `mutants.out` and `mutants.out.old` denote at
most one directory each. A lock belongs to the `lock.json` of a directory and follows it when the
directory is renamed. Each step is one operation of one process; processes interleave arbitrarily. -/
namespace CM.Lock

/-- Where a process is in `OutputDir::new` and after it. -/
inductive PC
  | idle
  /-- `output_dir.exists()` was true (line 126) -/
  | sawOut
  /-- `acquire_lock` has opened `lock.json` of directory `d` (lines 61-66), and polls (68-78) -/
  | opened1 (d : Nat)
  /-- it holds that lock (79-83) -/
  | locked1 (d : Nat)
  /-- the returned file was dropped at the end of line 127 -/
  | released
  /-- `mutants.out.old` was removed (133-135) -/
  | cleared
  /-- `mutants.out` was renamed (136), or did not exist -/
  | moved
  /-- `create_dir(mutants.out)` succeeded (139) -/
  | created
  /-- the second `acquire_lock` has opened `lock.json` of `d` (141) -/
  | opened2 (d : Nat)
  /-- it holds that lock -/
  | locked2 (d : Nat)
  /-- the subdirectories were created (144-146): the run goes on, holding the lock of `d` and
  writing to `mutants.out` by path -/
  | running (d : Nat)
  /-- ended, normally, with an error, or killed -/
  | ended
deriving DecidableEq, Repr

structure State where
  out : Option Nat
  old : Option Nat
  next : Nat
  lock : Nat → Option Nat
  hasLog : Nat → Bool
  pc : Nat → PC

/-- Function update. -/
def upd {α β} [DecidableEq α] (f : α → β) (a : α) (b : β) : α → β := fun x => if x = a then b else f x

/-- Drop all locks of a process: what the operating system does when it ends. -/
def dropLocks (lock : Nat → Option Nat) (p : Nat) : Nat → Option Nat :=
  fun d => if lock d = some p then none else lock d

/-- End with an error. -/
def State.fail (s : State) (p : Nat) : State :=
  { s with pc := upd s.pc p .ended, lock := dropLocks s.lock p }

/-- The next operation of process `p`; `none` if it has to wait or has ended. -/
def step (s : State) (p : Nat) : Option State :=
  match s.pc p with
  | .idle => some { s with pc := upd s.pc p (if s.out.isSome then .sawOut else .moved) }
  | .sawOut =>
    match s.out with
    | some d => some { s with pc := upd s.pc p (.opened1 d) }
    | none => some (s.fail p)
  | .opened1 d =>
    if s.lock d = none then some { s with lock := upd s.lock d (some p), pc := upd s.pc p (.locked1 d) }
    else none
  | .locked1 d => some { s with lock := upd s.lock d none, pc := upd s.pc p .released }
  | .released => some { s with old := none, pc := upd s.pc p .cleared }
  | .cleared =>
    match s.out, s.old with
    | some d, none => some { s with out := none, old := some d, pc := upd s.pc p .moved }
    | _, _ => some (s.fail p)
  | .moved =>
    match s.out with
    | none => some { s with out := some s.next, next := s.next + 1,
                            hasLog := upd s.hasLog s.next false, pc := upd s.pc p .created }
    | some _ => some (s.fail p)
  | .created =>
    match s.out with
    | some d => some { s with pc := upd s.pc p (.opened2 d) }
    | none => some (s.fail p)
  | .opened2 d =>
    if s.lock d = none then some { s with lock := upd s.lock d (some p), pc := upd s.pc p (.locked2 d) }
    else none
  | .locked2 d =>
    match s.out with
    | some d' =>
      if s.hasLog d' then some (s.fail p)
      else some { s with hasLog := upd s.hasLog d' true, pc := upd s.pc p (.running d) }
    | none => some (s.fail p)
  | .running _ => some (s.fail p)   -- the run ends
  | .ended => none

/-- What can happen: a process makes its next step, or is killed. -/
inductive Event
  | step (p : Nat)
  | kill (p : Nat)
deriving DecidableEq, Repr

def exec (s : State) : Event → Option State
  | .step p => step s p
  | .kill p => some (s.fail p)

def execAll (s : State) : List Event → Option State
  | [] => some s
  | e :: es => (exec s e).bind fun s => execAll s es

/-- No process has started; there may be directories of earlier runs. -/
def initial (hasOut hasOld : Bool) : State where
  out := if hasOut then some 0 else none
  old := if hasOld then some 1 else none
  next := 2
  lock := fun _ => none
  hasLog := fun _ => true
  pc := fun _ => .idle

end CM.Lock
