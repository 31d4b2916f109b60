import Verif.Spec.Shard
import Verif.Model.Unified
/-! What a unified diff means, after the documentation of GNU diff: how its text is read, and what it makes of a file. -/
namespace CM.Spec
open CM

/-- The lines of a text, each with its line feed; the last one may lack it. -/
def feedLines : Text → List Text
  | [] => []
  | c :: cs =>
    if c = '\n' then [c] :: feedLines cs
    else match feedLines cs with
      | [] => [[c]]
      | l :: ls => (c :: l) :: ls

/-- The first line and the number of lines, of a hunk in one of the files: `7,3`, or `7` for one line. An empty range has
the number of the line before it. `before` is the number of lines before the hunk. -/
inductive HunkRange : Text → (before count : Nat) → Prop
  | single {t before} : Decimal t (before + 1) → HunkRange t before 1
  | several {t u before count} : Decimal t (before + 1) → Decimal u count → count ≠ 0 →
      HunkRange (t ++ ",".toList ++ u) before count
  | none {t u before} : Decimal t before → Decimal u 0 → HunkRange (t ++ ",".toList ++ u) before 0

/-- A hunk: what is before it, and its lines with their marks: blank for a line of both files, `-` for one of the old and
`+` for one of the new. -/
structure UnifiedHunk where
  oldBefore : Nat
  newBefore : Nat
  body : List (Char × Text)

/-- The part of a hunk in the old file, and in the new file. -/
def UnifiedHunk.olds (h : UnifiedHunk) : List Text := (h.body.filter fun l => l.1 ≠ '+').map (·.2)
def UnifiedHunk.news (h : UnifiedHunk) : List Text := (h.body.filter fun l => l.1 ≠ '-').map (·.2)

/-- A line that says that the one before it, which is the last of its file, has no line feed. -/
def noFeed : Text := "\\ No newline at end of file\n".toList

/-- Lines of a diff are read as these lines of a hunk, if so many of each file are still to come. -/
inductive ReadsBody : (oldLeft newLeft : Nat) → List Text → List (Char × Text) → List Text → Prop
  | done {rest} : ReadsBody 0 0 rest [] rest
  | both {o n t rest body after} : rest.head? ≠ some noFeed → ReadsBody o n rest body after →
      ReadsBody (o + 1) (n + 1) ((' ' :: t) :: rest) ((' ', t) :: body) after
  | old {o n t rest body after} : rest.head? ≠ some noFeed → ReadsBody o n rest body after →
      ReadsBody (o + 1) n (('-' :: t) :: rest) (('-', t) :: body) after
  | new {o n t rest body after} : rest.head? ≠ some noFeed → ReadsBody o n rest body after →
      ReadsBody o (n + 1) (('+' :: t) :: rest) (('+', t) :: body) after
  | bothLast {o n t rest body after} : ReadsBody o n rest body after →
      ReadsBody (o + 1) (n + 1) ((' ' :: t ++ "\n".toList) :: noFeed :: rest) ((' ', t) :: body) after
  | oldLast {o n t rest body after} : ReadsBody o n rest body after →
      ReadsBody (o + 1) n (('-' :: t ++ "\n".toList) :: noFeed :: rest) (('-', t) :: body) after
  | newLast {o n t rest body after} : ReadsBody o n rest body after →
      ReadsBody o (n + 1) (('+' :: t ++ "\n".toList) :: noFeed :: rest) (('+', t) :: body) after

/-- Lines of a diff are read as these hunks. -/
inductive ReadsHunks : List Text → List UnifiedHunk → Prop
  | none : ReadsHunks [] []
  | one {a b oldCount newCount rest after h hs} :
      HunkRange a h.oldBefore oldCount → HunkRange b h.newBefore newCount →
      ReadsBody oldCount newCount rest h.body after → ReadsHunks after hs →
      ReadsHunks (("@@ -".toList ++ a ++ " +".toList ++ b ++ " @@\n".toList) :: rest) (h :: hs)

/-- A text is read as a diff with these names and hunks, of which there is at least one. -/
def ReadsDiff (text oldName newName : Text) (hs : List UnifiedHunk) : Prop :=
  ∃ rest, feedLines text =
    ("--- ".toList ++ oldName ++ "\n".toList) :: ("+++ ".toList ++ newName ++ "\n".toList) :: rest ∧
    ReadsHunks rest hs ∧ hs ≠ []

/-- What hunks make of the lines of a file from number `i` of the old and `j` of the new on: everything between hunks is
kept, and each hunk has to be where it says, in both files. -/
inductive Patched : (i j : Nat) → List Text → List UnifiedHunk → List Text → Prop
  | rest {i j ls} : Patched i j ls [] ls
  | hunk {i j} {between ls new : List Text} {h : UnifiedHunk} {hs} :
      h.oldBefore = i + between.length → h.newBefore = j + between.length →
      Patched (i + between.length + h.olds.length) (j + between.length + h.news.length) ls hs new →
      Patched i j (between ++ h.olds ++ ls) (h :: hs) (between ++ h.news ++ new)

open Similar in
/-- What the operations that the library finds are: they follow each other from line `i` of the old and `j` of the new text
to `i'` and `j'`, none of them is empty, and lines that are said to be equal are. -/
inductive Script (old new : List Text) : (i j : Nat) → List DiffOp → (i' j' : Nat) → Prop
  | nil {i j} : Script old new i j [] i j
  | cons {i j op ops i' j'} : op.oldStart = i → op.newStart = j → 0 < op.oldLen + op.newLen →
      i + op.oldLen ≤ old.length → j + op.newLen ≤ new.length →
      (∀ o n l, op = .equal o n l → (old.drop o).take l = (new.drop n).take l) →
      Script old new (i + op.oldLen) (j + op.newLen) ops i' j' → Script old new i j (op :: ops) i' j'

end CM.Spec
