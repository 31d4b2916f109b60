import Verif.Model.Pipeline
import Verif.Model.CopyTree
/-! Ctrl-C before testing starts: `src/interrupt.rs`, and where `src/main.rs` `main`, `src/workspace.rs` `Workspace::open`,
`src/visit.rs` `walk_package`, `src/output.rs` `acquire_lock` and `src/copy_tree.rs` `copy_tree` look at it. From the start of
testing on, interrupts are in `Lab.lean` and `Process.lean`. -/
namespace CM.Intr
open CM

/-- `src/visit.rs:95-126`: one turn of the loop over source files; `flag` is whether ctrl-C was pressed before line 102. `none`
is an error. -/
def walkTurn (env : WalkEnv) (pkg : Package) (flag : Bool) (s : WalkState) : Option WalkState :=
  match s.queue with
  | [] => some s
  | (path, top) :: rest =>
    match loadSource env.read env.root path pkg top with
    | none => none
    -- `src/visit.rs:96-100`: the check is not reached for a file outside of the tree
    | some none => some { s with queue := rest }
    | some (some _) => if flag then none else walkStep env pkg s

/-- Where `main` is. -/
inductive Pc
  /-- `src/main.rs:451-460` and `src/workspace.rs:92-101` -/
  | opening
  /-- `src/workspace.rs:102-113`, `src/main.rs:461-484`, `src/workspace.rs:180-192` and `src/visit.rs:67-69` -/
  | starting
  /-- in `src/visit.rs:84-128` `walk_package` for a package, with the packages that follow, and what those before gave -/
  | walking (o : Options) (exprs : List Tokens) (pkg : Package) (walk : WalkState) (pkgs : List Package) (ms : List Mutant)
      (fs : List SourceFile)
  /-- `src/main.rs:486-515` -/
  | found (ms : List Mutant) (fs : List SourceFile)
  /-- `src/output.rs:68-78`, called from `src/main.rs:516`: waiting for the lock -/
  | waiting (act : Action)
  /-- lists are printed, or `test_mutants` is called -/
  | acts (act : Action)
  | failed

structure State where
  interrupted : Bool := false
  pc : Pc := .opening

inductive Event
  /-- `src/interrupt.rs:15-18`: the handler -/
  | ctrlC
  /-- `main` goes on -/
  | go
  /-- the lock is held by another process: `src/output.rs:68-78` -/
  | lockBusy

/-- `src/visit.rs:71-76`: on to the next package. -/
def nextPackage (o : Options) (exprs : List Tokens) (pkgs : List Package) (ms : List Mutant) (fs : List SourceFile) : Pc :=
  match pkgs with
  | [] => .found ms fs
  | pkg :: pkgs => .walking o exprs pkg (walkStart pkg) pkgs ms fs

/-- What `main` does next. -/
def Pc.go (w : World) (a : MainArgs) (flag : Bool) : Pc → Option Pc
  | .opening => some (if flag then .failed else .starting)
  | .starting =>
    match Options.new w.regex a.options w.config,
        selectedPackages (Workspace.open w.metadata) a.mutatePackages a.workspace w.located with
    | some o, some pkgs =>
      match parsedErrorExprs w.parseExpr o.errorValues with
      | some exprs => some (nextPackage o exprs pkgs [] [])
      | none => some .failed
    | _, _ => some .failed
  | .walking o exprs pkg walk pkgs ms fs =>
    if walk.queue = [] then some (nextPackage o exprs pkgs (ms ++ walk.mutants) (fs ++ walk.files))
    else
      match walkTurn (w.walkEnv o exprs) pkg flag walk with
      | some walk => some (.walking o exprs pkg walk pkgs ms fs)
      | none => some .failed
  | .found ms fs =>
    match afterDiscovery w a ms fs with
    | some (.test out ms) => some (.waiting (.test out ms))
    | some act => some (.acts act)
    | none => some .failed
  | .waiting act => some (.acts act)
  | .acts _ => none
  | .failed => none

/-- One step; `none` if it is not possible. -/
def step (w : World) (a : MainArgs) (s : State) : Event → Option State
  | .ctrlC => some { s with interrupted := true }
  | .go => (s.pc.go w a s.interrupted).map fun pc => { s with pc := pc }
  | .lockBusy =>
    match s.pc with
    | .waiting act => some { s with pc := if s.interrupted then .failed else .waiting act }
    | _ => none

def exec (w : World) (a : MainArgs) (s : State) : List Event → Option State
  | [] => some s
  | e :: es => (step w a s e).bind fun s => exec w a s es

/-- `src/copy_tree.rs:62-101`: the loop, with the check of line 63; `pressed i` is whether ctrl-C was pressed before entry `i` is
looked at. Beside the result (`none` is an error) what is in the new directory. -/
def copyLoop (pressed : Nat → Bool) (i : Nat) (d : Copy.Dest) : List (Path × Copy.Kind) → Option Copy.Dest × Copy.Dest
  | [] => (some d, d)
  | e :: es =>
    if pressed i then (none, d)
    else
      match Copy.copyEntry d e with
      | some d => copyLoop pressed (i + 1) d es
      | none => (none, d)

/-- `src/copy_tree.rs:28-106` `copy_tree` with ctrl-C. -/
def copyTree (pressed : Nat → Bool) (o : Options) (ignored : Path → Bool → Bool) (source : Copy.Tree) :
    Option Copy.Dest × Copy.Dest :=
  copyLoop pressed 0 .empty (Copy.walkTree (Copy.keepEntry o ignored) [] source)

end CM.Intr
