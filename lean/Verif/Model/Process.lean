import Verif.Model.Outcome
/-! One cargo child process: `src/process.rs`, `src/process/unix.rs`, `src/interrupt.rs`.

A transition system. The steps of `Process::run` alternate in any way with the clock, with the exit of
the child and with ctrl-C. Times are in nanoseconds since `Process::start` read the clock. -/
namespace CM.Proc

/-- The child as the kernel sees it. -/
inductive Child
  /-- not spawned (yet) -/
  | absent
  | running
  /-- exited, not yet waited for -/
  | exited (status : ExitStatus)
  /-- exited and waited for -/
  | reaped (status : ExitStatus)
deriving DecidableEq, Repr

/-- What `Process::run` returns. -/
inductive Result
  | ok (e : Exit)
  /-- the error of `check_interrupted` -/
  | interrupted
  /-- the process could not be started -/
  | spawnFailed
  /-- `terminate_child` failed -/
  | killFailed
  /-- `try_wait` failed -/
  | tryWaitFailed
  /-- the log could not be written -/
  | logFailed
deriving DecidableEq, Repr

/-- Why the child is being terminated. -/
inductive Reason | timeout | interrupted
deriving DecidableEq, Repr

/-- Where `Process::run` is. -/
inductive Pc
  /-- `src/process.rs:80-97` -/
  | spawn
  /-- `src/process.rs:108`: about to compare the clock with the limit -/
  | checkTime
  /-- `src/process.rs:112` -/
  | checkInterrupt
  /-- `src/process.rs:116` -/
  | tryWait
  /-- `src/process.rs:63`: asleep until that time -/
  | asleep (until_ : Nat)
  /-- `src/process.rs:132` -/
  | kill (r : Reason)
  /-- `src/process.rs:134` -/
  | wait (r : Reason)
  /-- `src/process.rs:65` -/
  | log (e : Exit)
  | done (r : Result)
deriving DecidableEq, Repr

structure State where
  /-- the limit passed to `Process::run` -/
  limit : Option Nat
  clock : Nat := 0
  interrupted : Bool := false
  child : Child := .absent
  /-- SIGTERM has been sent to the process group of the child -/
  signalled : Bool := false
  /-- `wait` returned an error -/
  waitFailed : Bool := false
  pc : Pc := .spawn
deriving DecidableEq, Repr

/-- What `killpg` returns: success, `ESRCH`, or another error. -/
inductive KillResult | ok | noSuchProcess | error
deriving DecidableEq, Repr

inductive Event
  -- the surroundings
  | tick (nanos : Nat)
  | childExits (status : ExitStatus)
  | ctrlC
  -- `Process::run`
  | spawn (ok : Bool)
  | checkTime
  | checkInterrupt
  | tryWait (ok : Bool)
  | wake
  | kill (r : KillResult)
  | wait (ok : Bool)
  | log (ok : Bool)
deriving DecidableEq, Repr

/-- `src/process.rs:27` `WAIT_POLL_INTERVAL`. -/
def pollInterval : Nat := 50000000

/-- `src/process.rs:108`: `self.timeout.is_some_and(|t| self.start.elapsed() > t)`. -/
def pastLimit (s : State) : Bool :=
  match s.limit with
  | none => false
  | some l => decide (l < s.clock)

/-- One step; `none` if the event is not possible in this state.
`src/process.rs:48-139`, `src/process/unix.rs:16-33`, `src/interrupt.rs:22-29`. -/
def step (s : State) : Event → Option State
  | .tick n => some { s with clock := s.clock + n }
  | .childExits st => if s.child = .running then some { s with child := .exited st } else none
  | .ctrlC => some { s with interrupted := true }
  | .spawn ok =>
    if s.pc = .spawn then
      if ok then some { s with child := .running, pc := .checkTime }
      else some { s with pc := .done .spawnFailed }
    else none
  | .checkTime =>
    if s.pc = .checkTime then
      if pastLimit s then some { s with pc := .kill .timeout }
      else some { s with pc := .checkInterrupt }
    else none
  | .checkInterrupt =>
    if s.pc = .checkInterrupt then
      if s.interrupted then some { s with pc := .kill .interrupted }
      else some { s with pc := .tryWait }
    else none
  | .tryWait ok =>
    if s.pc = .tryWait then
      if !ok then some { s with pc := .done .tryWaitFailed }
      else match s.child with
        | .exited st => some { s with child := .reaped st, pc := .log (Exit.ofStatus st) }
        | .running => some { s with pc := .asleep (s.clock + pollInterval) }
        | _ => none
    else none
  | .wake =>
    match s.pc with
    | .asleep u => if u ≤ s.clock then some { s with pc := .checkTime } else none
    | _ => none
  | .kill r =>
    match s.pc with
    | .kill why =>
      match r with
      | .ok => some { s with signalled := true, pc := .wait why }
      | .noSuchProcess =>
        -- the kernel says so only if the child is not running any more
        if s.child = .running then none else some { s with pc := .wait why }
      | .error => some { s with pc := .done .killFailed }
    | _ => none
  | .wait ok =>
    match s.pc with
    | .wait why =>
      let next : Pc := match why with
        | .timeout => .log .timeout
        | .interrupted => .done .interrupted
      if ok then
        match s.child with
        | .exited st => some { s with child := .reaped st, pc := next }
        -- blocked until the child exits
        | _ => none
      else some { s with waitFailed := true, pc := next }
    | _ => none
  | .log ok =>
    match s.pc with
    | .log e => some { s with pc := .done (if ok then .ok e else .logFailed) }
    | _ => none

/-- Execute a sequence of events. -/
def exec (s : State) : List Event → Option State
  | [] => some s
  | e :: es => (step s e).bind fun t => exec t es

/-- The state before the process is started. -/
def init (limit : Option Nat) : State := { limit := limit }

/-- Is the event a step of `Process::run`, rather than of its surroundings? -/
def Event.isProgram : Event → Bool
  | .tick _ | .childExits _ | .ctrlC => false
  | _ => true

end CM.Proc
