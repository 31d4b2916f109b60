import Verif.Model.Lab
/-! The temporary directories of a run: `src/build_dir.rs` and the `TempDir` of `src/copy_tree.rs`, in the system of `Lab.lean`.

A value that holds a temporary directory removes it when it is dropped, also when a thread unwinds from a panic; an error
in removing it is ignored (`tempfile::TempDir`). -/
namespace CM.Temp
open CM.Lab

/-- `src/build_dir.rs:27-35` `BuildDir`: a path, and whether `temp_dir` is there. Also a `TempDir`. -/
structure Handle where
  dir : DirId
  temp : Bool
deriving DecidableEq, Repr

structure State where
  lab : Lab.State
  /-- what each thread holds; the main thread is the first before there are others -/
  held : Nat → Option Handle := fun _ => none
  /-- `src/lab.rs:89` `build_dir_0` -/
  slot : Option Handle := none
  /-- the temporary directories that were made -/
  created : List DirId := []
  /-- those that were removed, the last first -/
  removed : List DirId := []
  /-- those that could not be removed -/
  stuck : List DirId := []

def setAt {α} (f : Nat → α) (i : Nat) (a : α) : Nat → α := fun j => if j = i then a else f j

/-- Dropping a `BuildDir` or `TempDir`. -/
def State.drop (s : State) (removes : Bool) : Option Handle → State
  | none => s
  | some h =>
    if h.temp then
      if removes then { s with removed := h.dir :: s.removed } else { s with stuck := h.dir :: s.stuck }
    else s

/-- Thread `i` drops what it holds. -/
def State.letGo (s : State) (removes : Bool) (i : Nat) : State :=
  { s.drop removes (s.held i) with held := setAt s.held i none }

/-- What a step of a thread from `pc` to `pc'` means for the directories; `main` is where the main thread is, and `leak` is
`--leak-dirs`. -/
def State.threadStep (leak removes : Bool) (main : MainPc) (s : State) (i : Nat) (pc pc' : Pc) : State :=
  match pc, pc' with
  -- `src/copy_tree.rs:36-40`: a new directory
  | .mustCopy _, .copying _ d => { s with created := d :: s.created, held := setAt s.held i (some ⟨d, true⟩) }
  -- `src/copy_tree.rs`, `src/build_dir.rs:61-67`: an error, or a panic
  | .copying _ _, .failed _ => s.letGo removes i
  -- `src/build_dir.rs:68-76`
  | .copying _ d, _ => { s with held := setAt s.held i (some ⟨d, !leak⟩) }
  -- `src/lab.rs:102-104`
  | .new, .idle _ => { s with held := setAt s.held i s.slot, slot := none }
  -- `src/lab.rs:98-108`: the closure of a thread returns; the main thread only goes on
  | _, .finished _ => if main = .testing then s.letGo removes i else s
  | _, .failed _ => if main = .testing then s.letGo removes i else s
  | _, _ => s

/-- What a step of the main thread means for the directories. -/
def State.mainStep (cfg : Lab.Config) (removes : Bool) (s : State) (main main' : MainPc) : State :=
  match main, main' with
  -- `src/build_dir.rs:80-87` `in_place`
  | .setup, .preparing => if cfg.inPlace then { s with held := setAt s.held 0 (some ⟨0, false⟩) } else s
  -- `src/lab.rs:89`
  | .preparing, .testing | .baseline, .testing => { s with slot := s.held 0, held := setAt s.held 0 none }
  -- returning from `test_mutants` with `baseline_build_dir`
  | .preparing, .returned _ | .baseline, .returned _ => s.letGo removes 0
  -- returning with `build_dir_0`
  | .testing, .returned _ => { s.drop removes s.slot with slot := none }
  | _, _ => s

/-- One step; `removes` says whether a directory that is to be removed in it can be. -/
def step (cfg : Lab.Config) (leak : Bool) (s : State) (e : Lab.Event) (removes : Bool) : Option State :=
  (Lab.step cfg s.lab e).map fun l =>
    match e with
    | .interrupt => { s with lab := l }
    | .main _ => { s.mainStep cfg removes s.lab.main l.main with lab := l }
    | .worker i _ =>
      match s.lab.workers[i]?, l.workers[i]? with
      | some pc, some pc' => { s.threadStep leak removes s.lab.main i pc pc' with lab := l }
      | _, _ => { s with lab := l }

def exec (cfg : Lab.Config) (leak : Bool) (s : State) : List (Lab.Event × Bool) → Option State
  | [] => some s
  | (e, removes) :: es => (step cfg leak s e removes).bind fun s => exec cfg leak s es

def init (cfg : Lab.Config) : State := { lab := Lab.init cfg }

/-- States that a run can reach. -/
def Reachable (cfg : Lab.Config) (leak : Bool) (s : State) : Prop := ∃ es, exec cfg leak (init cfg) es = some s

end CM.Temp
