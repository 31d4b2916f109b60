import Verif.Model.Mutant
import Verif.Model.Output
/-! `--in-diff`: `src/in_diff.rs`.

Parsing the diff is done by the crate `patch` and is not modelled: the functions here take the parsed
patches, or the parser as a parameter. -/
namespace CM

/-- `patch::Line`. -/
inductive DiffLine
  | context (t : Text)
  | add (t : Text)
  | remove (t : Text)
deriving DecidableEq, Repr

/-- `patch::Hunk`: the start of the new range, and the lines. The counts are only used in debug
assertions. -/
structure Hunk where
  newStart : Nat
  lines : List DiffLine
deriving DecidableEq, Repr

/-- `patch::Patch`: the new path as in the diff, and the hunks. -/
structure Patch where
  newPath : Text
  hunks : List Hunk
deriving DecidableEq, Repr

/-- Split at every occurrence of a character, like `str::split`. -/
def splitOn (sep : Char) : Text → List Text
  | [] => [[]]
  | c :: cs =>
    if c = sep then [] :: splitOn sep cs
    else
      match splitOn sep cs with
      | [] => [[c]]
      | l :: ls => (c :: l) :: ls

/-- The components of a path given as text (`Utf8Path::components` on Unix): repeated separators and
`.` are dropped, except that a leading `/` is a root component and a leading `.` is kept. -/
def components (t : Text) : Path :=
  (if t.head? = some '/' then ["/".toList]
   else if (splitOn '/' t).head? = some ".".toList then [".".toList] else []) ++
  (splitOn '/' t).filter fun c => c ≠ [] && c ≠ ".".toList

/-- `src/in_diff.rs:118-121` `strip_patch_path`. -/
def stripPatchPath (t : Text) : Path :=
  match components t with
  | c :: rest => if c = "b".toList then rest else c :: rest
  | [] => []

/-- The new path of a deleted file, as compared with in `src/in_diff.rs:42`. -/
def devNull : Path := components "/dev/null".toList

/-- `src/in_diff.rs:140-177`: the loop over the lines of a hunk. -/
def affectedInHunk (acc : List Nat) (lineno : Nat) (prevRemoved : Bool) : List DiffLine → List Nat
  | [] => acc
  | .remove _ :: ls =>
    let acc :=
      if lineno > 1 ∧ acc.getLast? ≠ some (lineno - 1) then acc ++ [lineno - 1] else acc
    affectedInHunk acc lineno true ls
  | .context _ :: ls =>
    let acc := if prevRemoved then acc ++ [lineno] else acc
    affectedInHunk acc (lineno + 1) false ls
  | .add _ :: ls =>
    let acc := if prevRemoved then acc ++ [lineno] else acc
    let acc := if acc.getLast? ≠ some lineno then acc ++ [lineno] else acc
    affectedInHunk acc (lineno + 1) false ls

/-- `src/in_diff.rs:133-184` `affected_lines`, without the debug assertions. -/
def affectedLines (p : Patch) : List Nat :=
  p.hunks.foldl (fun acc h => affectedInHunk acc h.newStart false h.lines) []

/-- `src/in_diff.rs:197-210`. -/
def keptLines (lineno : Nat) : List DiffLine → List (Nat × Text)
  | [] => []
  | .context t :: ls | .add t :: ls => (lineno, t) :: keptLines (lineno + 1) ls
  | .remove _ :: ls => keptLines lineno ls

/-- `src/in_diff.rs:193-218` `partial_new_file`. -/
def partialNewFile (p : Patch) : List (Nat × Text) :=
  p.hunks.flatMap fun h => keptLines h.newStart h.lines

/-- `lines.get(lineno - 1).unwrap_or(&"")`, `src/in_diff.rs:95`; for line 0 the subtraction wraps
around (in release builds) and there is no such line. -/
def sourceLine (lines : List Text) (lineno : Nat) : Text :=
  if lineno = 0 then [] else (lines[lineno - 1]?).getD []

/-- `src/in_diff.rs:82-115` `check_diff_new_text_matches`; `false` is the error. -/
def checkDiffNewTextMatches (patches : List Patch) (ms : List Mutant) : Bool :=
  patches.all fun p =>
    match ms.find? fun m => m.sourceFile.path = stripPatchPath p.newPath with
    | none => true
    | some m =>
      let lines := rustLines m.sourceFile.code
      (partialNewFile p).all fun (lineno, t) => t = sourceLine lines lineno

/-- A binary search as `slice::binary_search` makes it, by halving. -/
def binarySearch (x : Nat) : (fuel : Nat) → List Nat → Bool
  | 0, _ => false
  | fuel + 1, xs =>
    match xs.drop (xs.length / 2) with
    | [] => false
    | y :: after =>
      if y = x then true
      else if y < x then binarySearch x fuel after
      else binarySearch x fuel (xs.take (xs.length / 2))

/-- `src/in_diff.rs:64-75`: some line of the mutant is found among the changed lines. -/
def probeLines (changed : List Nat) (first : Nat) : (count : Nat) → Bool
  | 0 => false
  | count + 1 =>
    binarySearch first changed.length changed || probeLines changed (first + 1) count

/-- `src/in_diff.rs:39-52`: the changed lines by path; `none` is the error about a repeated name. -/
def linesChangedByPath (acc : List (Path × List Nat)) : List Patch → Option (List (Path × List Nat))
  | [] => some acc
  | p :: ps =>
    let path := stripPatchPath p.newPath
    if path = devNull then linesChangedByPath acc ps
    else if (acc.lookup path).isSome then none
    else linesChangedByPath (acc ++ [(path, affectedLines p)]) ps

/-- `src/in_diff.rs:38-78`: `diff_filter` after parsing. -/
def diffFilterPatches (patches : List Patch) (ms : List Mutant) : Option (List Mutant) :=
  if checkDiffNewTextMatches patches ms then
    (linesChangedByPath [] patches).map fun changed =>
      ms.filter fun m =>
        match changed.lookup m.sourceFile.path with
        | some lines =>
          probeLines lines m.span.start.line (m.span.stop.line + 1 - m.span.start.line)
        | none => false
  else none

/-- `src/in_diff.rs:24-28`: the diff without `Binary files` lines; and lines 31-34: is it blank?
`str::trim` is modelled for ASCII white space. -/
def fixedDiff (text : Text) : Text :=
  joinWith "\n".toList
    (((rustLines text).filter fun l => !("Binary files ".toList.isPrefixOf l)) ++ [[]])

def isBlank (t : Text) : Bool := t.all fun c => c ∈ [' ', '\t', '\n', '\r', '\x0b', '\x0c']

/-- `src/in_diff.rs:21-79` `diff_filter`, for a given parser. -/
def diffFilter (parse : Text → Option (List Patch)) (ms : List Mutant) (text : Text) :
    Option (List Mutant) :=
  if isBlank (fixedDiff text) then some []
  else
    match parse (fixedDiff text) with
    | none => none
    | some patches => diffFilterPatches patches ms

end CM
