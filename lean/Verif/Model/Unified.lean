import Verif.Model.Mutant
/-! The diff of a mutant: `src/mutant.rs:189-202` `Mutant::diff`, with what crate `similar` (2.1) does for it.

How the library finds out which lines to keep is a parameter: it gives a list of operations. Cutting the text into lines,
grouping the operations into hunks and printing them are modelled. -/
namespace CM.Similar

/-- `similar::TextDiff::from_lines`: lines with their ends, which are `\n`, `\r\n` and `\r`; `cur` is the line so far. -/
def lineTokens (cur : Text) : Text → List Text
  | [] => if cur = [] then [] else [cur]
  | c :: cs =>
    if c = '\n' then (cur ++ [c]) :: lineTokens [] cs
    else if c = '\r' ∧ cs.head? ≠ some '\n' then (cur ++ [c]) :: lineTokens [] cs
    else lineTokens (cur ++ [c]) cs

/-- `similar::DiffOp`, with indexes of lines: where it starts in the old and in the new text, and how many lines it has. -/
inductive DiffOp
  | equal (old new len : Nat)
  | delete (old oldLen new : Nat)
  | insert (old new newLen : Nat)
  | replace (old oldLen new newLen : Nat)
deriving DecidableEq, Repr

namespace DiffOp

/-- `DiffOp::old_range`, `new_range`: first line and number of lines. -/
def oldStart : DiffOp → Nat
  | .equal o _ _ | .delete o _ _ | .insert o _ _ | .replace o _ _ _ => o
def newStart : DiffOp → Nat
  | .equal _ n _ | .delete _ _ n | .insert _ n _ | .replace _ _ n _ => n
def oldLen : DiffOp → Nat
  | .equal _ _ l | .delete _ l _ | .replace _ l _ _ => l
  | .insert _ _ _ => 0
def newLen : DiffOp → Nat
  | .equal _ _ l | .insert _ _ l | .replace _ _ _ l => l
  | .delete _ _ _ => 0

/-- Some lines. -/
def slice (ls : List Text) (start len : Nat) : List Text := (ls.drop start).take len

/-- `DiffOp::iter_changes`: lines with their marks. -/
def changes (old new : List Text) : DiffOp → List (Char × Text)
  | .equal o _ l => (slice old o l).map fun t => (' ', t)
  | .delete o l _ => (slice old o l).map fun t => ('-', t)
  | .insert _ n l => (slice new n l).map fun t => ('+', t)
  | .replace o ol n nl => ((slice old o ol).map fun t => ('-', t)) ++ (slice new n nl).map fun t => ('+', t)

end DiffOp

/-- `similar::group_diff_ops`: the lines before the first change are left out, up to the radius. -/
def trimFirst (radius : Nat) : List DiffOp → List DiffOp
  | .equal o n l :: ops => .equal (o + (l - radius)) (n + (l - radius)) (l - (l - radius)) :: ops
  | ops => ops

/-- The same for the lines after the last change. -/
def trimLast (radius : Nat) : List DiffOp → List DiffOp
  | [] => []
  | [.equal o n l] => [.equal o n (l - (l - radius))]
  | op :: ops => op :: trimLast radius ops

/-- The loop: a group ends where more than twice the radius is unchanged. A group that is only unchanged lines is left out
at the end. -/
def groupFrom (radius : Nat) (pending : List DiffOp) : List DiffOp → List (List DiffOp)
  | [] =>
    match pending with
    | [] => []
    | [.equal _ _ _] => []
    | _ => [pending]
  | .equal o n l :: ops =>
    if l > radius * 2 then
      (pending ++ [.equal o n radius]) ::
        groupFrom radius [.equal (o + (l - radius)) (n + (l - radius)) (l - (l - radius))] ops
    else groupFrom radius (pending ++ [.equal o n l]) ops
  | op :: ops => groupFrom radius (pending ++ [op]) ops

/-- `similar::group_diff_ops`. -/
def groupOps (radius : Nat) (ops : List DiffOp) : List (List DiffOp) :=
  groupFrom radius [] (trimLast radius (trimFirst radius ops))

/-- `similar::udiff::UnifiedDiffHunkRange`. -/
def rangeText (first last : Nat) : Text :=
  if last - first = 1 then decimal (first + 1)
  else decimal (if last - first = 0 then first else first + 1) ++ ",".toList ++ decimal (last - first)

/-- `similar::udiff::UnifiedHunkHeader`: from the first operation of the group to the last one. -/
def headerText (g : List DiffOp) : Text :=
  match g.head?, g.getLast? with
  | some a, some z =>
    "@@ -".toList ++ rangeText a.oldStart (z.oldStart + z.oldLen) ++ " +".toList ++
      rangeText a.newStart (z.newStart + z.newLen) ++ " @@".toList
  | _, _ => []

/-- A line of a hunk; `Change::missing_newline` looks for `\n` and `\r`. -/
def changeText : Char × Text → Text
  | (mark, t) =>
    mark :: t ++
      (if t.getLast? = some '\n' ∨ t.getLast? = some '\r' then [] else "\n\\ No newline at end of file\n".toList)

/-- `similar::udiff::UnifiedDiffHunk`. -/
def hunkText (old new : List Text) (g : List DiffOp) : Text :=
  let lines := g.flatMap (DiffOp.changes old new)
  if lines = [] then [] else headerText g ++ "\n".toList ++ lines.flatMap changeText

/-- `similar::udiff::UnifiedDiff`: the names are written before the first hunk. -/
def unifiedText (radius : Nat) (oldLabel newLabel : Text) (old new : List Text) (ops : List DiffOp) : Text :=
  match groupOps radius ops with
  | [] => []
  | groups =>
    "--- ".toList ++ oldLabel ++ "\n+++ ".toList ++ newLabel ++ "\n".toList ++ groups.flatMap (hunkText old new)

/-- `src/mutant.rs:193-202` `Mutant::diff`; `find` is the algorithm of the library. The description of a mutant that is found
can be made (C53, C54); without, this is the panic. -/
def mutantDiff (find : List Text → List Text → List DiffOp) (m : Mutant) : Option Text :=
  m.describe.map fun d =>
    let old := lineTokens [] m.sourceFile.code
    let new := lineTokens [] m.mutated
    unifiedText 8 (toSlashPath m.sourceFile.path) (d.map fun c => if c = '\n' then ' ' else c) old new (find old new)

end CM.Similar
