import Verif.Model.Interrupt
import Verif.Model.Message
/-! What the progress display shows while the tree is searched (`WalkModel` in `src/console.rs`) and while it is copied
(`CopyModel`). The display during testing is in `View.lean`. -/
namespace CM.Progress
open CM

/-- `src/console.rs:479-484` `WalkModel`. -/
structure WalkModel where
  files : Nat := 0
  mutants : Nat := 0
deriving DecidableEq, Repr

/-- `src/console.rs:486-497` `render`. -/
def WalkModel.render (m : WalkModel) : Text :=
  if m.files = 0 then "Scanning tree metadata...\n".toList
  else "Finding mutation opportunities: ".toList ++ decimal m.files ++ " files done, ".toList ++ decimal m.mutants ++
    " mutants found\n".toList

/-- `src/visit.rs:96-105`: the states of the display during one turn of the loop over source files, after each of its changes:
`increment_files` (`src/console.rs:270-274`) when a file has been loaded, and `increment_mutants` (`src/console.rs:276-280`)
when its mutants have been found. `flag` is whether ctrl-C was pressed before line 102. -/
def turnShown (env : WalkEnv) (pkg : Package) (flag : Bool) (s : WalkState) (m : WalkModel) : List WalkModel :=
  match s.queue with
  | [] => []
  | (path, top) :: _ =>
    match loadSource env.read env.root path pkg top with
    | some (some sf) =>
      let m := { m with files := m.files + 1 }
      if flag then [m]
      else
        let found := (env.parse sf.code).bind fun syn =>
          (walkFile { sourceFile := sf, errorExprs := env.errorExprs, skipCalls := env.options.skipCalls } syn).bind fun r =>
            retainAllowed env.options r.1
        match found with
        | some ms => [m, { m with mutants := m.mutants + ms.length }]
        | none => [m]
    | _ => []

structure State where
  intr : Intr.State := {}
  /-- `walk_tree` in `LabModel` -/
  walk : Option WalkModel := none
  /-- all its values so far, the last one first -/
  shown : List (Option WalkModel) := []

/-- The display gets this value. -/
def State.set (s : State) (m : Option WalkModel) : State := { s with walk := m, shown := m :: s.shown }

/-- What a step of `main` means for the display. -/
def State.goes (w : World) (s : State) (pc : Intr.Pc) : State :=
  match s.intr.pc, pc with
  -- `src/visit.rs:70`: `start_walk_tree` (`src/console.rs:45-47`, `261-268`)
  | .starting, .walking .. => s.set (some {})
  -- and at once `src/visit.rs:77`: `finish` (`src/console.rs:282-284`)
  | .starting, .found .. => (s.set (some {})).set none
  | .walking _ _ _ _ _ _ _, .found .. => s.set none
  | .walking o exprs pkg walk _ _ _, _ =>
    match s.walk with
    | some m => (turnShown (w.walkEnv o exprs) pkg s.intr.interrupted walk m).foldl (fun s m => s.set (some m)) s
    | none => s
  | _, _ => s

/-- One step; `none` if it is not possible. -/
def step (w : World) (a : MainArgs) (s : State) (e : Intr.Event) : Option State :=
  (Intr.step w a s.intr e).map fun i =>
    match e with
    | .go => { s.goes w i.pc with intr := i }
    | _ => { s with intr := i }

def exec (w : World) (a : MainArgs) (s : State) : List Intr.Event → Option State
  | [] => some s
  | e :: es => (step w a s e).bind fun s => exec w a s es

/-! ### Copying -/

/-- `src/console.rs:567-572` `CopyModel`. -/
structure Line where
  dest : Path
  bytes : Nat := 0
deriving DecidableEq, Repr

/-- `src/console.rs:591-600` `render` with `src/console.rs:634-640` `format_mb`; `secs` is the time since the start, as it is printed. -/
def Line.render (secs : Text) (l : Line) : Text :=
  padTo 8 "copy".toList ++ " ".toList ++ decimal (l.bytes / 1000000) ++ " MB".toList ++ " in ".toList ++ secs

/-- `Vec::swap_remove`. -/
def swapRemove {α} (l : List α) (i : Nat) : List α :=
  match l.getLast? with
  | none => l
  | some x => (l.set i x).dropLast

/-- `src/console.rs:128-137` `finish_copy`; `none` is the `expect`. -/
def finishCopy (dest : Path) (ls : List Line) : Option (List Line) :=
  (ls.findIdx? fun l => l.dest == dest).map (swapRemove ls)

/-- `src/console.rs:139-148` `copy_progress` with `src/console.rs:586-588`; `none` is the `expect`. -/
def copyProgress (dest : Path) (total : Nat) : List Line → Option (List Line)
  | [] => none
  | l :: ls =>
    if l.dest = dest then some ({ l with bytes := total } :: ls) else (copyProgress dest total ls).map (l :: ·)

/-- Where a thread is in `src/copy_tree.rs:28-106` `copy_tree`. -/
inductive Thread
  | idle
  /-- in the loop, with the total of bytes, what is in the new directory, and the entries that follow -/
  | copying (dest : Path) (total : Nat) (dir : Copy.Dest) (todo : List (Path × Copy.Kind))
  | failed (dest : Path)
  | panicked

/-- All threads and the display. -/
structure Copies where
  threads : Nat → Thread := fun _ => .idle
  /-- `copy_models` in `LabModel` -/
  lines : List Line := []
  /-- the temporary directories so far; `tempfile` is assumed never to give the same name twice -/
  used : List Path := []

inductive CopyEvent
  /-- `src/copy_tree.rs:36-45`: a temporary directory is made, and copying starts (`src/console.rs:122-126`) -/
  | start (i : Nat) (dest : Path) (entries : List (Path × Copy.Kind))
  /-- the thread goes on -/
  | go (i : Nat)
  /-- an error, or ctrl-C -/
  | fail (i : Nat)

/-- Thread `i` is somewhere else. -/
def Copies.at (s : Copies) (i : Nat) (t : Thread) : Copies :=
  { s with threads := fun j => if j = i then t else s.threads j }

/-- One step; `none` if it is not possible. `size` is the number of bytes of a file. -/
def copyStep (size : Text → Nat) (s : Copies) : CopyEvent → Option Copies
  | .start i dest entries =>
    match s.threads i with
    | .idle =>
      if dest ∈ s.used then none
      else some { s.at i (.copying dest 0 .empty entries) with lines := s.lines ++ [⟨dest, 0⟩], used := dest :: s.used }
    | _ => none
  | .go i =>
    match s.threads i with
    | .copying dest _ _ [] =>
      -- `src/copy_tree.rs:103`
      match finishCopy dest s.lines with
      | some ls => some { s.at i .idle with lines := ls }
      | none => some (s.at i .panicked)
    | .copying dest total dir (e :: todo) =>
      -- `src/copy_tree.rs:62-101`
      match Copy.copyEntry dir e with
      | none => some (s.at i (.failed dest))
      | some dir =>
        match e.2 with
        | .file content =>
          match copyProgress dest (total + size content) s.lines with
          | some ls => some { s.at i (.copying dest (total + size content) dir todo) with lines := ls }
          | none => some (s.at i .panicked)
        | _ => some (s.at i (.copying dest total dir todo))
    | _ => none
  | .fail i =>
    match s.threads i with
    | .copying dest _ _ _ => some (s.at i (.failed dest))
    | _ => none

def copyExec (size : Text → Nat) (s : Copies) : List CopyEvent → Option Copies
  | [] => some s
  | e :: es => (copyStep size s e).bind fun s => copyExec size s es

end CM.Progress
