import Verif.Model.Process
/-! Which processes a termination signal reaches: `src/process/unix.rs` with the process table of the kernel.

The table has all processes of the system: cargo-mutants, the child of one `Process::run` and what it starts, the
children of other threads, and others. As the kernel does it, a number is given to a new process only if no process
(also one that has exited and has not been waited for) has it as its number or as that of its group. Sessions are not
modelled, so a process may join any group. -/
namespace CM.Group
open CM

/-- A process. -/
structure Entry where
  pid : Nat
  group : Nat
  /-- exited, and not yet waited for -/
  zombie : Bool := false
  /-- the child of this `Process::run`, or descended from it -/
  own : Bool := false
  /-- it, or what it descends from after the child, has changed its group -/
  moved : Bool := false
  /-- it, or what it descends from, has entered the group of another process -/
  joined : Bool := false
  /-- it has been sent SIGTERM by this `Process::run` -/
  termed : Bool := false
deriving DecidableEq, Repr

structure State where
  proc : Proc.State
  table : List Entry
  /-- `Child::id` -/
  pid : Nat := 0

inductive Event
  /-- a step of `Process::run`, the clock or an interrupt -/
  | run (e : Proc.Event)
  /-- the child is started and gets this number -/
  | spawn (pid : Nat)
  /-- a process starts another -/
  | fork (parent pid : Nat)
  | exit (pid : Nat) (status : ExitStatus)
  /-- somebody waits for a process other than the child -/
  | reap (pid : Nat)
  /-- `setpgid`: a process goes to its own group or that of another -/
  | setGroup (pid group : Nat)

/-- No process has this number, for itself or its group. -/
def free (table : List Entry) (n : Nat) : Prop := ∀ e ∈ table, e.pid ≠ n ∧ e.group ≠ n

instance (table n) : Decidable (free table n) := inferInstanceAs (Decidable (∀ e ∈ table, _))

/-- The number is that of the child, which has not been waited for. -/
def isChild (s : State) (p : Nat) : Bool :=
  p == s.pid && match s.proc.child with
    | .running | .exited _ => true
    | _ => false

/-- `killpg(pid, SIGTERM)`, to a group that is not empty; it does nothing to those who have exited. -/
def killGroup (table : List Entry) (g : Nat) : List Entry :=
  table.map fun e => if e.group = g ∧ e.zombie = false then { e with termed := true } else e

def hasAlive (table : List Entry) (p : Nat) : Bool := table.any fun e => e.pid == p && !e.zombie

/-- One step; `none` if it cannot happen. -/
def step (s : State) : Event → Option State
  -- `src/process/unix.rs:36-38`: `process_group(0)`, so the group has the number of the child
  | .spawn n =>
    if free s.table n then (Proc.step s.proc (.spawn true)).map fun p =>
      { proc := p, pid := n, table := { pid := n, group := n, own := true } :: s.table }
    else none
  | .run e =>
    match e with
    | .spawn true | .childExits _ => none
    -- `src/process/unix.rs:16-18`
    | .kill .ok => if s.table.any (fun e => e.group == s.pid) then
        (Proc.step s.proc e).map fun p => { s with proc := p, table := killGroup s.table s.pid } else none
    | .kill .noSuchProcess => if s.table.any (fun e => e.group == s.pid) then none else
        (Proc.step s.proc e).map fun p => { s with proc := p }
    | e => (Proc.step s.proc e).map fun p =>
      -- has it been waited for?
      match s.proc.child, p.child with
      | .exited _, .reaped _ => { s with proc := p, table := s.table.filter fun x => x.pid != s.pid }
      | _, _ => { s with proc := p }
  | .fork parent n =>
    if free s.table n then
      (s.table.find? fun e => e.pid == parent && !e.zombie).map fun e =>
        { s with table := { e with pid := n, termed := false } :: s.table }
    else none
  | .exit p st =>
    if hasAlive s.table p then
      let table := s.table.map fun e => if e.pid = p then { e with zombie := true } else e
      if isChild s p then (Proc.step s.proc (.childExits st)).map fun q => { s with proc := q, table := table }
      else some { s with table := table }
    else none
  | .reap p =>
    if isChild s p then none
    else if s.table.any (fun e => e.pid == p && e.zombie) then some { s with table := s.table.filter fun e => e.pid != p }
    else none
  | .setGroup p g =>
    if hasAlive s.table p ∧ (g = p ∨ s.table.any (fun e => e.group == g)) then
      some { s with table := s.table.map fun e =>
        if e.pid = p then { e with group := g, moved := true, joined := e.joined || g != p } else e }
    else none

def exec (s : State) : List Event → Option State
  | [] => some s
  | e :: es => (step s e).bind fun s => exec s es

end CM.Group
