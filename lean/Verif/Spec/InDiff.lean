import Verif.Model.InDiff
/-! What a unified diff says, independently of how the program reads it. -/
namespace CM.Spec
open CM

/-- Whether a line of a diff is part of the new file. -/
def isNew : DiffLine → Bool
  | .remove _ => false
  | _ => true

/-- The number of lines of the new file among some lines of a diff. -/
def newCount (ls : List DiffLine) : Nat := ls.countP isNew

/-- The line number in the new file of the first new line of a hunk. By the convention of unified
diffs, a hunk without new lines gives the number of the line before it instead. -/
def firstLine (h : Hunk) : Nat := if newCount h.lines = 0 then h.newStart + 1 else h.newStart

/-- The text that the diff has for a line of the new file. -/
def HasLine (h : Hunk) (n : Nat) (t : Text) : Prop :=
  ∃ pre l post, h.lines = pre ++ l :: post ∧ (l = .context t ∨ l = .add t) ∧
    n = firstLine h + newCount pre

/-- Line `n` of a new file of `len` lines is affected by a hunk: it was added, or it is a line of the
file just before or just after a deletion. -/
def AffectedBy (len : Nat) (h : Hunk) (n : Nat) : Prop :=
  ∃ pre l post, h.lines = pre ++ l :: post ∧
    ((∃ t, l = .add t) ∧ n = firstLine h + newCount pre ∨
     (∃ t, l = .remove t) ∧ (n + 1 = firstLine h + newCount pre ∨ n = firstLine h + newCount pre) ∧
       1 ≤ n ∧ n ≤ len)

/-- The hunks are in order, do not overlap and fit a new file of `len` lines; `from` is the first
line that may be described. -/
def HunksFit (len : Nat) : Nat → List Hunk → Prop
  | from_, [] => from_ ≤ len + 1
  | from_, h :: hs => from_ ≤ firstLine h ∧ 1 ≤ firstLine h ∧ HunksFit len (firstLine h + newCount h.lines) hs

instance decHunksFit (len : Nat) : (from_ : Nat) → (hs : List Hunk) → Decidable (HunksFit len from_ hs)
  | from_, [] => inferInstanceAs (Decidable (from_ ≤ len + 1))
  | from_, h :: hs =>
    have := decHunksFit len (firstLine h + newCount h.lines) hs
    inferInstanceAs (Decidable (from_ ≤ firstLine h ∧ 1 ≤ firstLine h ∧
      HunksFit len (firstLine h + newCount h.lines) hs))

/-- The hunk keeps some line, and has the line after each of its deletions unless that is beyond the
end of the file: diffs with at least one line of context are like this. -/
def WithContext (len : Nat) (h : Hunk) : Prop :=
  newCount h.lines ≠ 0 ∧
  ((∃ pre t, h.lines = pre ++ [.remove t]) → firstLine h + newCount h.lines = len + 1)

end CM.Spec

namespace CM.Spec
open CM

/-- A section of a diff is about the file at a tree path: the new path is that path, with one
leading `b` added or without. -/
def DescribesFile (p : Patch) (path : Path) : Prop :=
  components p.newPath = "b".toList :: path ∨
  (components p.newPath = path ∧ path.head? ≠ some "b".toList)

/-- The number of lines of the file of a mutant. -/
def fileLength (m : Mutant) : Nat := (rustLines m.sourceFile.code).length

/-- Some line of the mutant is affected by the diff. -/
def Overlaps (patches : List Patch) (m : Mutant) : Prop :=
  ∃ p ∈ patches, DescribesFile p m.sourceFile.path ∧
    ∃ n, m.span.start.line ≤ n ∧ n ≤ m.span.stop.line ∧ ∃ h ∈ p.hunks, AffectedBy (fileLength m) h n

/-- The sections of the diff are well formed for the files of the mutants. -/
def DiffFits (patches : List Patch) (ms : List Mutant) : Prop :=
  ∀ p ∈ patches, ∀ m ∈ ms, DescribesFile p m.sourceFile.path → HunksFit (fileLength m) 1 p.hunks

/-- The text at a line number, if the file has that line. -/
def lineAt (code : Text) (n : Nat) : Option Text := if n = 0 then none else (rustLines code)[n - 1]?

/-- Mutants of the same file agree on its text. -/
def SameSource (ms : List Mutant) : Prop :=
  ∀ m₁ ∈ ms, ∀ m₂ ∈ ms, m₁.sourceFile.path = m₂.sourceFile.path → m₁.sourceFile.code = m₂.sourceFile.code

end CM.Spec
