import Verif.Conform.Small
import Verif.Conform.Values
import Verif.Model.Visit
import Verif.Model.Options
import Verif.Model.Manifest
/-! The unit tests of finding mutants and of the manifests, run against the model; see `Small.lean`. Parsing is not modelled: the trees
are written by hand, with the spans that the source text of the test has. -/
namespace CM.Conform
open CM

/-! ### `src/visit.rs` -/

-- `path_ends_with`
example : (pathTo ["foo", "bar", "baz"]).endsWith "baz".toList = true ∧
    (pathTo ["foo", "bar", "baz"]).endsWith "bar".toList = false ∧
    (pathTo ["foo", "bar", "baz"]).endsWith "foo".toList = false ∧ (pathTo ["baz"]).endsWith "baz".toList = true ∧
    (pathTo ["baz"]).endsWith "bar".toList = false ∧
    (pathTo ["BTreeMap"] (.angle [.type (named "K"), .type (named "V")])).endsWith "BTreeMap".toList = true ∧
    (pathTo ["BTreeMap"] (.angle [.type (named "K"), .type (named "V")])).endsWith "V".toList = false := by decide +kernel

def fileAt (path : List String) (code : String) : SourceFile :=
  ⟨⟨"unimportant".toList, "1".toList, [], []⟩, path.map String.toList, code.toList, true⟩
/-- `mutate_source_str`, and `walk_file` in `no_mutants_equivalent_to_source`; `src/main.rs` is the file -/
def mutantsOf (code : String) (items : List Node) (skip : List Text := []) : Option (List Mutant) :=
  (walkFile { sourceFile := fileAt ["src", "main.rs"] code, skipCalls := skip } ⟨[], items⟩).map (·.1)
def namesOf (lineCol : Bool) (genres : List Genre) (ms : Option (List Mutant)) : Option (List (Option Text)) :=
  ms.map fun ms => (ms.filter fun m => m.genre ∈ genres).map fun m => m.name lineCol
def everyGenre : List Genre := [.fnValue, .binaryOperator, .unaryOperator, .matchArm, .matchArmGuard]
def nm (l : List String) : Option (List (Option Text)) := some (l.map fun s => some s.toList)
/-- An item with a body of which only the spans of the statements, and some children, matter. -/
def aFn (kind : FnKind) (name : String) (out : Option Ty) (outTokens : Tokens) (span : Span) (stmts : List Span) (children : List Node)
    (inner : Tokens := [qi "wibble"]) : Node :=
  .mk (.fn kind { name := name.toList, output := out, outputTokens := outTokens, span } (some ⟨stmts, inner⟩)) [] children
def qp (c : Char) : TokenTree := .punct c
def arrow (t : Tokens) : Tokens := [qp '-', qp '>'] ++ t
def rest (children : List Node) : Node := .mk .other [] children

-- `no_mutants_equivalent_to_source`, `mutants_from_test_str`
def alwaysTrue : Node := aFn .item "always_true" (some (named "bool")) (arrow [qi "bool"]) (quad 1 1 1 34) [quad 1 28 1 32] [] [qi "true"]
example : namesOf false everyGenre (mutantsOf "fn always_true() -> bool { true }\n" [alwaysTrue]) =
    nm ["src/main.rs: replace always_true -> bool with false"] := by decide +kernel

-- `no_mutants_in_files_with_inner_cfg_test_attribute`
example : walkFile { sourceFile := fileAt ["src", "main.rs"] "" }
    ⟨[⟨{ idents := ["cfg".toList] }, .list [⟨{ idents := ["test".toList] }, true⟩]⟩], [alwaysTrue]⟩ = some ([], []) := by decide +kernel

-- `find_path_attribute_on_module_item`, `reject_module_path_absolute`
def pathAttr (v : String) : Attr := ⟨{ idents := ["path".toList] }, .nameValue (some v.toList)⟩
example : findPathAttribute [pathAttr "foo_file.rs"] = some (some "foo_file.rs".toList) ∧
    findPathAttribute [pathAttr "foo_folder"] = some (some "foo_folder".toList) ∧
    findPathAttribute [pathAttr "contains/../dots.rs"] = some (some "contains/../dots.rs".toList) ∧
    findPathAttribute [pathAttr "/leading_slash.rs"] = none ∧
    findPathAttribute [pathAttr "foo/other/slashes/are/allowed.rs"] = some (some "foo/other/slashes/are/allowed.rs".toList) ∧
    findPathAttribute [pathAttr "/leading_slash/../and_dots.rs"] = none := by decide +kernel

-- `skip_named_fn`
example : namesOf true [.binaryOperator, .unaryOperator, .matchArm, .matchArmGuard] (mutantsOf
    "fn main() {\n    dont_touch_this(2 + 3);\n}\n"
    [aFn .item "main" none [] (quad 1 1 3 2) [quad 2 5 2 28]
      [.mk (.call (some ["dont_touch_this".toList])) [] [.mk (.binary .add (quad 2 23 2 24)) [] []]]] ["dont_touch_this".toList]) =
    nm [] := by decide +kernel

-- `skip_with_capacity_by_default`, `mutate_vec_with_capacity_when_default_skips_are_turned_off`
def withCapacity (callee : List String) : Node :=
  aFn .item "main" none [] (quad 1 1 3 2) [quad 2 5 2 45]
    [rest [.mk (.call (some (callee.map String.toList))) [] [.mk (.binary .mul (quad 2 39 2 40)) [] []]]]
def skips (useDefaults : Option Bool) : List Text := ((Options.new (fun _ => none) { skipCallsDefaults := useDefaults } {}).map (·.skipCalls)).getD []
example : namesOf true [.binaryOperator, .unaryOperator, .matchArm, .matchArmGuard]
    (mutantsOf "" [withCapacity ["Vec", "with_capacity"]] (skips none)) = nm [] := by decide +kernel
example : (mutantsOf "" [withCapacity ["std", "vec", "Vec", "with_capacity"]] (skips (some false))).map List.length = some 3 := by
  decide +kernel

-- `skip_method_calls_by_name`
example : namesOf true [.binaryOperator, .unaryOperator, .matchArm, .matchArmGuard]
    (mutantsOf "fn main() {\n    let mut v = v::new();\n    v.dont_touch_this(2 + 3);\n}\n"
      [aFn .item "main" none [] (quad 1 1 4 2) [quad 2 5 2 26, quad 3 5 3 30]
        [rest [.mk (.call (some ["v".toList, "new".toList])) [] []],
         .mk (.methodCall "dont_touch_this".toList) [] [.mk (.binary .add (quad 3 25 3 26)) [] []]]]
      (skips none ++ ["dont_touch_this".toList])) = nm [] := by decide +kernel

-- `mutant_name_includes_type_parameters`
def lifetimeA : Tokens := [qp '\'', qi "a"]
example : namesOf false everyGenre (mutantsOf "" [
    .mk (.impl [qi "Apath"] (some (["AsRef".toList], [qi "AsRef", qp '<', qi "str", qp '>']))) [] [
      aFn .impl "as_ref" (some (.reference false (named "str"))) (arrow [qp '&', qi "str"]) (quad 2 5 4 6) [quad 3 9 3 16] []],
    .mk (.impl [qi "String"] (some (["From".toList], [qi "From", qp '<', qi "Apath", qp '>']))) [] [
      aFn .impl "from" (some (named "String")) (arrow [qi "String"]) (quad 8 5 10 6) [quad 9 9 9 12] []],
    .mk (.impl [qi "Apath"] (some (["From".toList], [qi "From", qp '<', qp '&'] ++ lifetimeA ++ [qi "str", qp '>']))) [] [
      aFn .impl "from" (some (named "Apath")) (arrow [qi "Apath"]) (quad 14 5 17 6) [quad 15 9 15 61, quad 16 9 16 29] []]]) =
    nm ["src/main.rs: replace <impl AsRef<str> for Apath>::as_ref -> &str with \"\"",
      "src/main.rs: replace <impl AsRef<str> for Apath>::as_ref -> &str with \"xyzzy\"",
      "src/main.rs: replace <impl From<Apath> for String>::from -> String with String::new()",
      "src/main.rs: replace <impl From<Apath> for String>::from -> String with \"xyzzy\".into()",
      "src/main.rs: replace <impl From<&'a str> for Apath>::from -> Apath with Default::default()"] := by decide +kernel

/-- A main function with a match of these arms. -/
def matching (arms : List Arm) : Node := aFn .item "main" none [] (quad 1 1 8 2) [quad 2 5 7 6] [.mk (.match arms) [] []]
-- `mutate_match_arms_with_fallback`
example : namesOf true [.matchArm] (mutantsOf "" [matching [⟨false, none, quad 3 9 3 20⟩, ⟨false, none, quad 4 9 4 20⟩,
    ⟨true, none, quad 5 9 5 17⟩]]) =
    nm ["src/main.rs:3:9: delete match arm", "src/main.rs:4:9: delete match arm"] := by decide +kernel
-- `skip_match_arms_without_fallback`
example : namesOf true [.matchArm] (mutantsOf "" [matching [⟨false, none, quad 3 9 3 20⟩, ⟨false, none, quad 4 9 4 20⟩]]) = nm [] := by
  decide +kernel
-- `mutate_match_guard`
example : namesOf true [.matchArmGuard] (mutantsOf "" [matching [⟨false, some (quad 3 17 3 22), quad 3 9 3 29⟩,
    ⟨false, none, quad 4 9 4 20⟩, ⟨false, none, quad 5 9 5 20⟩, ⟨false, some (quad 6 17 6 22), quad 6 9 6 29⟩]]) =
    nm ["src/main.rs:3:17: replace match guard with true", "src/main.rs:3:17: replace match guard with false",
      "src/main.rs:6:17: replace match guard with true", "src/main.rs:6:17: replace match guard with false"] := by decide +kernel
-- `skip_removing_match_arm_with_guard`
example : namesOf true [.matchArm, .matchArmGuard] (mutantsOf "" [matching [⟨false, some (quad 3 17 3 22), quad 3 9 3 29⟩,
    ⟨false, none, quad 4 9 4 20⟩, ⟨true, none, quad 5 9 5 17⟩]]) =
    nm ["src/main.rs:4:9: delete match arm", "src/main.rs:3:17: replace match guard with true",
      "src/main.rs:3:17: replace match guard with false"] := by decide +kernel
-- `mutate_comparisons`
example : namesOf true [.binaryOperator] (mutantsOf "fn main() {\n    a > b;\n    a < b;\n    a == b;\n}\n"
    [aFn .item "main" none [] (quad 1 1 5 2) [quad 2 5 2 11, quad 3 5 3 11, quad 4 5 4 12]
      [.mk (.binary .gt (quad 2 7 2 8)) [] [], .mk (.binary .lt (quad 3 7 3 8)) [] [], .mk (.binary .eq (quad 4 7 4 9)) [] []]]) =
    nm ["src/main.rs:2:7: replace > with == in main", "src/main.rs:2:7: replace > with < in main",
      "src/main.rs:2:7: replace > with >= in main", "src/main.rs:3:7: replace < with == in main",
      "src/main.rs:3:7: replace < with > in main", "src/main.rs:3:7: replace < with <= in main",
      "src/main.rs:4:7: replace == with != in main"] := by decide +kernel

/-! ### `src/mutant.rs` -/

def factorialSource : String :=
  "fn main() {\n    for i in 1..=6 {\n        println!(\"{}! = {}\", i, factorial(i));\n    }\n}\n\nfn factorial(n: u32) -> u32 {\n    let mut a = 1;\n    for i in 2..=n {\n        a *= i;\n    }\n    a\n}\n\n#[test]\nfn test_factorial() {\n    println!(\"factorial({}) = {}\", 6, factorial(6)); // This line is here so we can see it in --nocapture\n    assert_eq!(factorial(6), 720);\n}\n"
def factorialTree : List Node := [
  aFn .item "main" none [] (quad 1 1 5 2) [quad 2 5 4 6] [rest []],
  aFn .item "factorial" (some (named "u32")) (arrow [qi "u32"]) (quad 7 1 13 2) [quad 8 5 8 19, quad 9 5 11 6, quad 12 5 12 6]
    [rest [], rest [.mk (.binary .mulAssign (quad 10 11 10 13)) [] []], rest []],
  .mk (.fn .item { name := "test_factorial".toList, span := quad 15 1 19 2 } (some ⟨[quad 17 5 17 53, quad 18 5 18 35], [qi "wibble"]⟩))
    [⟨{ idents := ["test".toList] }, .none⟩] []]
def factorialMutants : List Mutant :=
  ((walkFile { sourceFile := fileAt ["src", "bin", "factorial.rs"] factorialSource } ⟨[], factorialTree⟩).map (·.1)).getD []

-- `discover_factorial_mutants`; the span of the last statement of `factorial` ends at 12:6
example : factorialMutants.length = 5 := by decide +kernel
example : factorialMutants.head?.map (fun m => (m.function, m.replacement, m.genre, m.span)) =
    some (some ⟨"main".toList, [], quad 1 1 5 2⟩, "()".toList, .fnValue, quad 2 5 4 6) := by decide +kernel
example : (factorialMutants[1]?).map (fun m => (m.function, m.replacement, m.genre, m.span)) =
    some (some ⟨"factorial".toList, "-> u32".toList, quad 7 1 13 2⟩, "0".toList, .fnValue, quad 8 5 12 6) := by decide +kernel
example : factorialMutants.map (·.name true) =
    [some "src/bin/factorial.rs:2:5: replace main with ()".toList, some "src/bin/factorial.rs:8:5: replace factorial -> u32 with 0".toList,
     some "src/bin/factorial.rs:8:5: replace factorial -> u32 with 1".toList,
     some "src/bin/factorial.rs:10:11: replace *= with += in factorial".toList,
     some "src/bin/factorial.rs:10:11: replace *= with /= in factorial".toList] := by decide +kernel
example : (factorialMutants[1]?).bind (·.name false) = some "src/bin/factorial.rs: replace factorial -> u32 with 0".toList := by
  decide +kernel

-- `mutate_factorial`
/-- `strip_trailing_space`: `str::trim_end` for spaces. -/
def stripTrailing (t : Text) : Text :=
  joinWith "\n".toList ((rustLines t).map fun l => (l.reverse.dropWhile (· == ' ')).reverse) ++ "\n".toList
def factorialTest : String :=
  "#[test]\nfn test_factorial() {\n    println!(\"factorial({}) = {}\", 6, factorial(6)); // This line is here so we can see it in --nocapture\n    assert_eq!(factorial(6), 720);\n}\n"
example : (factorialMutants[0]?).map (fun m => stripTrailing m.mutated) = some
    ("fn main() {\n    () /* ~ changed by cargo-mutants ~ */\n}\n\nfn factorial(n: u32) -> u32 {\n    let mut a = 1;\n    for i in 2..=n {\n        a *= i;\n    }\n    a\n}\n\n"
      ++ factorialTest).toList := by decide +kernel
example : (factorialMutants[1]?).map (fun m => stripTrailing m.mutated) = some
    ("fn main() {\n    for i in 1..=6 {\n        println!(\"{}! = {}\", i, factorial(i));\n    }\n}\n\nfn factorial(n: u32) -> u32 {\n    0 /* ~ changed by cargo-mutants ~ */\n}\n\n"
      ++ factorialTest).toList := by decide +kernel

-- `filter_by_attributes`
def hangLines : List String := ["//! An example of a function we should not mutate because it will hang.", "",
  "use std::time::{Duration, Instant};", "", "/// If mutated to return false, the program will spin forever.", "///",
  "/// Ideally and eventually, cargo-mutants should stop it after a timeout,",
  "/// but that still takes some time, so you can also choose to skip this.", "#[mutants::skip]", "fn should_stop() -> bool {", "    true",
  "}", "", "pub fn controlled_loop() {", "    let start = Instant::now();", "    for i in 0.. {", "        println!(\"{}\", i);",
  "        if should_stop() {", "            break;", "        }", "        if start.elapsed() > Duration::from_secs(60 * 5) {",
  "            panic!(\"timed out\");", "        }", "    }", "}"]
def hangTree : List Node := [
  .mk (.fn .item { name := "should_stop".toList, output := some (named "bool"), outputTokens := arrow [qi "bool"], span := quad 5 1 12 2 }
    (some ⟨[quad 11 5 11 9], [qi "true"]⟩)) [⟨{ idents := ["mutants".toList, "skip".toList] }, .none⟩] [],
  aFn .item "controlled_loop" none [] (quad 14 1 25 2) [quad 15 5 15 32, quad 16 5 24 6]
    [rest [], rest [rest [.mk (.call (some ["should_stop".toList])) [] []],
      rest [.mk (.binary .gt (quad 21 28 21 29)) [] [.mk (.methodCall "elapsed".toList) [] [],
        .mk (.call (some ["Duration".toList, "from_secs".toList])) [] [.mk (.binary .mul (quad 21 53 21 54)) [] []]]]]],
  .mk (.mod "test".toList true (quad 27 1 32 2)) [] [
    .mk (.fn .item { name := "controlled_loop_terminates".toList, span := quad 28 5 31 6 } (some ⟨[quad 30 9 30 33], [qi "wibble"]⟩))
      [⟨{ idents := ["test".toList] }, .none⟩] []]]
example : (mutantsOf (String.intercalate "\n" hangLines) hangTree).map (fun ms => ms.map Mutant.describe) =
    nm ["replace controlled_loop with ()", "replace > with == in controlled_loop", "replace > with < in controlled_loop",
      "replace > with >= in controlled_loop", "replace * with + in controlled_loop", "replace * with / in controlled_loop"] := by
  decide +kernel

-- `always_skip_constructors_called_new`
example : mutantsOf "" [rest [], .mk (.impl [qi "S"] none) [] [
    aFn .impl "new" (some (named "Self")) (arrow [qi "Self"]) (quad 6 5 8 6) [quad 7 9 7 19] []]] = some [] := by decide +kernel

/-! ### `src/manifest.rs` -/

def entry (k : String) (v : Toml) : Text × Toml := (k.toList, v)
def dep (path : String) : Toml := .table [entry "path" (.str path.toList)]
def fooDir : Text := "/home/user/src/foo".toList
/-- The same table, if it was changed. -/
def changedTo (fixed : Option Toml) (v : Toml) : Bool := fixed.any fun f => f.same v

-- `fix_path_absolute_unchanged`, `fix_path_relative`
example : fixPath "/repo/testdata/dependency".toList fooDir = none ∧
    fixPath "../dependency".toList "testdata/relative_dependency".toList = some "testdata/relative_dependency/../dependency".toList := by
  decide +kernel
-- `fix_relative_path_in_manifest`
example : changedTo (fixManifestToml fooDir (.table [entry "author" (.str "A Smithee".toList),
      entry "dependencies" (.table [entry "wibble" (dep "../wibble")])]))
    (.table [entry "author" (.str "A Smithee".toList),
      entry "dependencies" (.table [entry "wibble" (dep "/home/user/src/foo/../wibble")])]) = true := by decide +kernel
-- `fix_replace_section`
example : changedTo (fixManifestToml fooDir (.table [entry "dependencies" (.table [entry "wibble" (.str "1.2.3".toList)]),
      entry "replace" (.table [entry "wibble:1.2.3" (dep "../wibble")])]))
    (.table [entry "dependencies" (.table [entry "wibble" (.str "1.2.3".toList)]),
      entry "replace" (.table [entry "wibble:1.2.3" (dep "/home/user/src/foo/../wibble")])]) = true := by decide +kernel
-- `absolute_path_in_manifest_is_unchanged`, `subdir_path_in_manifest_is_unchanged`
example : (fixManifestToml fooDir (.table [entry "dependencies" (.table [entry "wibble" (dep "/home/asmithee/src/wibble")])])).isNone ∧
    (fixManifestToml fooDir (.table [entry "dependencies" (.table [entry "wibble" (dep "wibble")])])).isNone := by decide +kernel
-- `fix_patch_section`
example : changedTo (fixManifestToml fooDir (.table [entry "dependencies" (.table [entry "wibble" (.str "1.2.3".toList)]),
      entry "patch" (.table [entry "crates-io" (.table [entry "wibble" (dep "../wibble")])])]))
    (.table [entry "dependencies" (.table [entry "wibble" (.str "1.2.3".toList)]),
      entry "patch" (.table [entry "crates-io" (.table [entry "wibble" (dep "/home/user/src/foo/../wibble")])])]) = true := by
  decide +kernel
-- `cargo_config_toml_paths_outside_tree_are_made_absolute`; paths were compared by components, the texts are as pushed
def pathsToml (l : List String) : Toml := .table [entry "paths" (.array (l.map fun s => .str s.toList))]
example : changedTo (fixConfigToml "/Users/jane/src/foo".toList (pathsToml ["sub_dependency", "../sibling_dependency",
      "../../parent_dependency", "/Users/jane/src/absolute_dependency", "/src/other"]))
    (pathsToml ["sub_dependency", "/Users/jane/src/foo/../sibling_dependency", "/Users/jane/src/foo/../../parent_dependency",
      "/Users/jane/src/absolute_dependency", "/src/other"]) = true := by decide +kernel

end CM.Conform
