import Verif.Conform.Syntax
import Verif.Model.Walk
/-! The snapshot `list__list_mutants_in_all_trees_as_text.snap` for `testdata/nested_mod` and `testdata/dangling_mod`; see `Small.lean`
and `Syntax.lean`. -/
namespace CM.Conform
open CM

/-- A text as the list of its characters, which the kernel need not decode. -/
local macro:max "t!" s:str : term => do
  let cs := s.getString.toList.map fun c => (Lean.Syntax.mkCharLit c : Lean.TSyntax `char)
  `([$(cs.toArray),*])

def pathOf (v : Text) : Attr := ⟨{ idents := [t!"path"] }, .nameValue (some v)⟩
def inlineMod (name : Text) (children : List Node) (path : Option Text := none) : Node :=
  .mk (.mod name true (quad 1 1 1 1)) (path.map pathOf).toList children
def fileMod (name : Text) (path : Option Text := none) : Node := .mk (.mod name false (quad 1 1 1 1)) (path.map pathOf).toList []
def trueAt2 : SynFile := ⟨[], [aFn .item "always_true" (some (named "bool")) (arrow [qi "bool"]) (quad 1 1 3 2) [quad 2 5 2 9] [] [qi "true"]]⟩
/-- The files that are not the function `always_true`. -/
def nestedTop (x : Text) (upward : List Node) : SynFile := ⟨[], [
  inlineMod (t!"block_in_" ++ x) [inlineMod t!"a" [inlineMod t!"b" [fileMod t!"c_file"]]],
  fileMod (t!"file_in_" ++ x),
  inlineMod (t!"paths_in_" ++ x) ([inlineMod t!"a" [fileMod t!"b"], fileMod t!"a_mod_file",
    inlineMod t!"thread" [fileMod t!"local_data" (some t!"tls.rs")] (some t!"thread_files"),
    inlineMod t!"thread_inner_attr" [fileMod t!"local_data" (some t!"tls.rs")] (some t!"thread_files_inner_attr")] ++ upward),
  fileMod (t!"toplevel_in_" ++ x) (some (t!"toplevel_file_in_" ++ x ++ t!".rs")),
  .mk (.mod t!"tests" true (quad 1 1 1 1)) [⟨{ idents := [t!"cfg"] }, .list [⟨{ idents := [t!"test"] }, true⟩]⟩] [alwaysTrue]]⟩
def nestedPaths : SynFile := ⟨[], [fileMod t!"c" (some t!"foo.rs"), inlineMod t!"inline" [fileMod t!"inner" (some t!"other.rs")]]⟩
def nestedFiles : List (Path × SynFile) := [
  ([t!"src", t!"lib.rs"], nestedTop t!"lib" [fileMod t!"upward_traversal"]), ([t!"src", t!"main.rs"], nestedTop t!"main" []),
  ([t!"src", t!"paths_in_lib", t!"upward_traversal.rs"], ⟨[], [fileMod t!"target" (some t!"../upward_traversal_file_for_lib.rs")]⟩),
  ([t!"src", t!"paths_in_lib", t!"..", t!"upward_traversal_file_for_lib.rs"], trueAt2)] ++
  [t!"lib", t!"main"].flatMap fun x => [
    ([t!"src", t!"block_in_" ++ x, t!"a", t!"b", t!"c_file.rs"], ⟨[], [inlineMod t!"d" [inlineMod t!"e" [fileMod t!"f_file"]]]⟩),
    ([t!"src", t!"block_in_" ++ x, t!"a", t!"b", t!"c_file", t!"d", t!"e", t!"f_file.rs"], trueAt2),
    ([t!"src", t!"file_in_" ++ x ++ t!".rs"], ⟨[], [inlineMod t!"a" [inlineMod t!"b" [fileMod t!"c_file"]]]⟩),
    ([t!"src", t!"file_in_" ++ x, t!"a", t!"b", t!"c_file.rs"], ⟨[], [inlineMod t!"d" [inlineMod t!"e" [fileMod t!"f_file"]]]⟩),
    ([t!"src", t!"file_in_" ++ x, t!"a", t!"b", t!"c_file", t!"d", t!"e", t!"f_file.rs"], trueAt2),
    ([t!"src", t!"paths_in_" ++ x, t!"a", t!"b.rs"], nestedPaths), ([t!"src", t!"paths_in_" ++ x, t!"a", t!"b", t!"inline", t!"other.rs"], trueAt2),
    ([t!"src", t!"paths_in_" ++ x, t!"a", t!"foo.rs"], trueAt2), ([t!"src", t!"paths_in_" ++ x, t!"a_mod_file", t!"foo.rs"], trueAt2),
    ([t!"src", t!"paths_in_" ++ x, t!"a_mod_file", t!"inline", t!"other.rs"], trueAt2), ([t!"src", t!"paths_in_" ++ x, t!"a_mod_file", t!"mod.rs"], nestedPaths),
    ([t!"src", t!"paths_in_" ++ x, t!"thread_files", t!"tls.rs"], trueAt2), ([t!"src", t!"paths_in_" ++ x, t!"thread_files_inner_attr", t!"tls.rs"], trueAt2),
    ([t!"src", t!"toplevel_file_in_" ++ x ++ t!".rs"], trueAt2)]
/-- For the walk, the text of a file is its path. The root is the current directory. -/
def walkEnvOf (files : List (Path × SynFile)) : WalkEnv where
  root := []
  read p := if files.any fun f => f.1 == p then some (joinWith t!"/" p) else none
  isFile p := files.any fun f => f.1 == p
  parse t := (files.find? fun f => joinWith t!"/" (f.1) == t).map (·.2)
  errorExprs := []
  options := ((Options.new (fun _ => none) {} {}).getD { minimumTestTimeout := 0 })
def walked (files : List (Path × SynFile)) (tops : List (Path)) (steps : Nat) : Option (List Path × List (Option Text)) :=
  (walkSteps (walkEnvOf files) ⟨t!"p", [], [], tops⟩ steps (walkStart ⟨t!"p", [], [], tops⟩)).map
    fun s => (s.queue.map (·.1), s.mutants.map fun m => m.name true)
example : walked nestedFiles [[t!"src", t!"lib.rs"], [t!"src", t!"main.rs"]] 40 = some ([], [
    t!"src/paths_in_lib/thread_files/tls.rs:2:5: replace always_true -> bool with false",
    t!"src/paths_in_lib/thread_files_inner_attr/tls.rs:2:5: replace always_true -> bool with false",
    t!"src/toplevel_file_in_lib.rs:2:5: replace always_true -> bool with false",
    t!"src/paths_in_main/thread_files/tls.rs:2:5: replace always_true -> bool with false",
    t!"src/paths_in_main/thread_files_inner_attr/tls.rs:2:5: replace always_true -> bool with false",
    t!"src/toplevel_file_in_main.rs:2:5: replace always_true -> bool with false",
    t!"src/block_in_lib/a/b/c_file/d/e/f_file.rs:2:5: replace always_true -> bool with false",
    t!"src/paths_in_lib/a/foo.rs:2:5: replace always_true -> bool with false",
    t!"src/paths_in_lib/a/b/inline/other.rs:2:5: replace always_true -> bool with false",
    t!"src/paths_in_lib/a_mod_file/foo.rs:2:5: replace always_true -> bool with false",
    t!"src/paths_in_lib/a_mod_file/inline/other.rs:2:5: replace always_true -> bool with false",
    t!"src/paths_in_lib/../upward_traversal_file_for_lib.rs:2:5: replace always_true -> bool with false",
    t!"src/block_in_main/a/b/c_file/d/e/f_file.rs:2:5: replace always_true -> bool with false",
    t!"src/paths_in_main/a/foo.rs:2:5: replace always_true -> bool with false",
    t!"src/paths_in_main/a/b/inline/other.rs:2:5: replace always_true -> bool with false",
    t!"src/paths_in_main/a_mod_file/foo.rs:2:5: replace always_true -> bool with false",
    t!"src/paths_in_main/a_mod_file/inline/other.rs:2:5: replace always_true -> bool with false",
    t!"src/file_in_lib/a/b/c_file/d/e/f_file.rs:2:5: replace always_true -> bool with false",
    t!"src/file_in_main/a/b/c_file/d/e/f_file.rs:2:5: replace always_true -> bool with false"].map some) := by decide +kernel
-- `dangling_mod`: one file is not there, and one is outside of the tree
example : walked [([t!"src", t!"main.rs"], ⟨[], [fileMod t!"nonexistent", fileMod t!"outside_workspace" (some t!"../../nested_mod/src/paths_in_main/a/foo.rs"),
      inlineMod t!"verify_continue" [aFn .item "always_true" (some (named "bool")) (arrow [qi "bool"]) (quad 12 5 14 6) [quad 13 9 13 13] [] [qi "true"]]]⟩),
      ([t!"src", t!"..", t!"..", t!"nested_mod", t!"src", t!"paths_in_main", t!"a", t!"foo.rs"], trueAt2)] [[t!"src", t!"main.rs"]] 5 =
    some ([], [some t!"src/main.rs:13:9: replace verify_continue::always_true -> bool with false"]) := by decide +kernel

end CM.Conform
