import Verif.Model.InDiff
import Verif.Model.OutputDir
/-! The unit tests of `--in-diff` and of the output directory, run against the model; see `Small.lean`. -/
namespace CM.Conform
open CM

/-! ### `src/in_diff.rs` -/

/-- `make_diff`: the old lines before and after a change, and the lines removed and added, as the diff
with two lines of context. -/
def change (before : List String) (removed added : List String) (after : List String) : Patch :=
  ⟨"b/file.rs".toList, [⟨before.length + 1 - min before.length 2,
    ((before.drop (before.length - 2)).map fun l => .context l.toList) ++ removed.map (fun l => .remove l.toList) ++
      added.map (fun l => .add l.toList) ++ (after.take 2).map fun l => .context l.toList⟩]⟩
def four : List String := ["line 1", "line 2", "line 3", "line 4"]
def five : List String := four ++ ["line 5"]

-- `read_diff_with_empty_mutants`
def anyhowPatch : Patch := ⟨"b/src/mutate.rs".toList, [⟨6, [.context "use std::fs;".toList, .context "use std::sync::Arc;".toList,
  .context "use std::foo;".toList, .remove "use anyhow::ensure;".toList, .remove "use anyhow::Context;".toList,
  .remove "use anyhow::Result;".toList, .add "use anyhow::{ensure, Context, Result};".toList,
  .context "use serde::ser::{SerializeStruct, Serializer};".toList, .context "use serde::Serialize;".toList,
  .context "use similar::TextDiff;".toList]⟩]⟩
example : diffFilterPatches [anyhowPatch] [] = some [] := by decide +kernel
-- `patch_parse_error`: what the parser refuses is an error
example (parse : Text → Option (List Patch)) (h : parse "not really a diff\n".toList = none) :
    diffFilter parse [] "not really a diff\n".toList = none := by
  have : fixedDiff "not really a diff\n".toList = "not really a diff\n".toList := by decide +kernel
  unfold diffFilter; rw [this, h]; decide +kernel
-- `strip_patch_path_prefix`
example : stripPatchPath "b/src/mutate.rs".toList = ["src".toList, "mutate.rs".toList] := by decide +kernel
-- `affected_lines_from_single_insertion`
example : (List.range 5).map (fun i => affectedLines (change (four.take i) [] ["new line"] (four.drop i))) =
    [[1], [2], [3], [4], [5]] := by decide +kernel
-- `affected_lines_from_single_deletion`
example : (List.range 5).map (fun i => affectedLines (change (five.take i) ((five.drop i).take 1) [] (five.drop (i + 1)))) =
    [[1], [1, 2], [2, 3], [3, 4], [4]] := by decide +kernel
-- `affected_lines_from_double_deletion`
example : (List.range 4).map (fun i => affectedLines (change (five.take i) ((five.drop i).take 2) [] (five.drop (i + 2)))) =
    [[1], [1, 2], [2, 3], [3]] := by decide +kernel
-- `affected_lines_from_replacement`
example : (List.range 5).map (fun i =>
      affectedLines (change (five.take i) ((five.drop i).take 1) ["new 1", "new 2"] (five.drop (i + 1)))) =
    [[1, 2], [1, 2, 3], [2, 3, 4], [3, 4, 5], [4, 5, 6]] := by decide +kernel
-- `reconstruct_partial_new_file`, with `testdata/diff0/src/lib.rs` and `testdata/diff1/src/lib.rs`
def diffOneLines : List String := ["pub fn one() -> String {", "    \"one\".to_owned()", "}", "", "pub fn two() -> String {",
  "    format!(\"{}\", 2)", "}", "", "#[cfg(test)]", "mod test_super {", "    use super::*;", "", "    #[test]", "    fn test_one() {",
  "        assert_eq!(one(), \"one\");", "    }", "", "    #[test]", "    fn test_two() {", "        assert_eq!(two(), \"2\");", "    }", "}"]
def diffZeroOne : Patch := ⟨"b/file.rs".toList,
  (change (diffOneLines.take 4) [] ((diffOneLines.drop 4).take 4) (diffOneLines.drop 8)).hunks ++
  (change (diffOneLines.take 16) [] ((diffOneLines.drop 16).take 5) (diffOneLines.drop 21)).hunks⟩
example : (partialNewFile diffZeroOne).length = 16 ∧
    (partialNewFile diffZeroOne).all (fun p => (diffOneLines.map String.toList)[p.1 - 1]? == some p.2) := by decide +kernel

/-! ### `src/output.rs` -/

def emptyParent : FsState := ⟨true, none, none⟩
def outNames : List String := ["caught.txt", "diff", "lock.json", "log", "missed.txt", "timeout.txt", "unviable.txt", "outcomes.json",
  "previously_caught.txt"]
/-- `OutputDir::new` -/
def opened (s : FsState) : Option FsState := s.applyAll (newOutputDirOps s)
def namesIn (d : Option Dir) : List String := outNames.filter fun n => (d.bind fun d => d n.toList).isSome
/-- Write a file of the output directory, as the tests do between runs. -/
def putting (s : FsState) (name content : String) : FsState := { s with out := s.out.map fun d => d.put name.toList content.toList }

-- `create_output_dir`
example : (opened emptyParent).map (fun s => (namesIn s.out, s.old.isSome)) =
    some (["caught.txt", "diff", "lock.json", "log", "missed.txt", "timeout.txt", "unviable.txt"], false) := by decide +kernel
-- `rotate`: a file marks which run a directory is of
example : (do
    let s ← opened emptyParent
    let t ← opened (putting s "outcomes.json" "first")
    let u ← opened (putting t "outcomes.json" "second")
    pure ((t.out.bind (· "outcomes.json".toList), t.old.bind (· "outcomes.json".toList)),
      (u.out.bind (· "outcomes.json".toList), u.old.bind (· "outcomes.json".toList)))) =
    some ((none, some "first".toList), (none, some "second".toList)) := by decide +kernel
-- `track_previously_caught`
def caughtExample : String := "src/process.rs:213:9: replace ProcessStatus::is_success -> bool with true\nsrc/process.rs:248:5: replace get_command_output -> Result<String> with Ok(String::new())\n"
example : loadPreviouslyCaught emptyParent = [] := by decide +kernel
example : (do
    let s ← opened emptyParent
    let before := loadPreviouslyCaught s
    let s := putting s "caught.txt" caughtExample
    let previously := loadPreviouslyCaught s
    let t ← opened s
    let t ← t.apply (writePreviouslyCaughtOp previously)
    pure (before, previously, t.out.bind (· "caught.txt".toList), loadPreviouslyCaught t)) =
    some ([], rustLines caughtExample.toList, some [], rustLines caughtExample.toList) := by decide +kernel

end CM.Conform
