import Verif.Model.Output
/-! Showing the last line of a log: `src/tail_file.rs`. -/
namespace CM.Tail

abbrev Bytes := List UInt8

/-- `src/tail_file.rs:17-22` `TailFile` (at first `src/tail_file.rs:26-32` `new`), with the content of the file and the position up to which it was
read. -/
structure State where
  content : Bytes := []
  position : Nat := 0
  lastLineSeen : Text := []
deriving DecidableEq, Repr

/-- The library: `String::from_utf8_lossy`, and the white space of `str::trim`. -/
structure Lib where
  decode : Bytes → Text
  isSpace : Char → Bool

/-- `l.trim().is_empty()` -/
def Lib.blank (lib : Lib) (l : Text) : Bool := l.all lib.isSpace

/-- `src/tail_file.rs:38-51` `last_line`. -/
def poll (lib : Lib) (s : State) : State :=
  let new := s.content.drop s.position
  let s := { s with position := s.content.length }
  match ((rustLines (lib.decode new)).filter fun l => !lib.blank l).getLast? with
  | some l => { s with lastLineSeen := l }
  | none => s

/-- What happens: a process appends to the file, or the line is asked for. -/
inductive Event
  | write (b : Bytes)
  | poll
deriving DecidableEq, Repr

def step (lib : Lib) (s : State) : Event → State
  | .write b => { s with content := s.content ++ b }
  | .poll => poll lib s

/-- The state after some events. -/
def run (lib : Lib) (es : List Event) : State := es.foldl (step lib) {}

/-- What is returned if the line is asked for after some events. -/
def lastLine (lib : Lib) (es : List Event) : Text := (poll lib (run lib es)).lastLineSeen

end CM.Tail
