import Verif.Model.Mutant
/-! What it means to follow a path through directories. -/
namespace CM.Spec

/-- The directory reached from the directory `stack` (innermost name first) by following a relative
path, where `..` is the parent (that of the root is the root) and `.` changes nothing. -/
def follow (stack : List Text) : Path → List Text
  | [] => stack
  | c :: rest =>
    follow (if c = "..".toList then stack.tail else if c = ".".toList then stack else c :: stack) rest

/-- Following `rel` from the directory `base`, at every point one is in `base` or below it. -/
def StaysInside (base : List Text) (rel : Path) : Prop :=
  ∀ pre, pre <+: rel → ∃ below, follow base pre = below ++ base

/-- A path that is not absolute. -/
def Relative (p : Path) : Prop := p.head? ≠ some "/".toList

end CM.Spec
