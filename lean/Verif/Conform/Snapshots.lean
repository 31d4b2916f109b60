import Verif.Conform.Syntax
import Verif.Model.Json
import Verif.Model.Message
/-! Some of the snapshots in `/repo/tests/snapshots`, which have what the program printed and wrote for the trees in `/repo/testdata`, and
what the model has for the same trees; see `Small.lean` and `Syntax.lean`. -/
namespace CM.Conform
open CM

/-- A text as the list of its characters, which the kernel need not decode. -/
local macro:max "t!" s:str : term => do
  let cs := s.getString.toList.map fun c => (Lean.Syntax.mkCharLit c : Lean.TSyntax `char)
  `([$(cs.toArray),*])
def nmt (l : List Text) : Option (List (Option Text)) := some (l.map some)

/-! ### `main__mutants.json.snap`, `list__list_mutants_in_all_trees_as_json.snap` -/

/-- The mutants of `testdata/factorial` with the name of its package. -/
def factorialListed : List Mutant :=
  factorialMutants.map fun m => { m with sourceFile := { m.sourceFile with package := { m.sourceFile.package with name := t!"cargo-mutants-testdata-factorial" } } }
-- the array is printed by `Json.pretty` as in `[\n  first,\n  …\n]`; these are its first and last element
example : (factorialListed[0]?).map (fun m => m.toJson.json.pretty 1) = some t!"{\n    \"package\": \"cargo-mutants-testdata-factorial\",\n    \"file\": \"src/bin/factorial.rs\",\n    \"function\": {\n      \
  \"function_name\": \"main\",\n      \"return_type\": \"\",\n      \"span\": {\n        \"start\": {\n          \"line\": \
  1,\n          \"column\": 1\n        },\n        \"end\": {\n          \"line\": 5,\n          \"column\": 2\n        }\n      \
  }\n    },\n    \"span\": {\n      \"start\": {\n        \"line\": 2,\n        \"column\": 5\n      },\n      \"end\": {\n        \
  \"line\": 4,\n        \"column\": 6\n      }\n    },\n    \"replacement\": \"()\",\n    \"genre\": \"FnValue\"\n  }" := by decide +kernel
example : (factorialListed[4]?).map (fun m => m.toJson.json.pretty 1) = some t!"{\n    \"package\": \"cargo-mutants-testdata-factorial\",\n    \"file\": \"src/bin/factorial.rs\",\n    \"function\": {\n      \
  \"function_name\": \"factorial\",\n      \"return_type\": \"-> u32\",\n      \"span\": {\n        \"start\": {\n          \
  \"line\": 7,\n          \"column\": 1\n        },\n        \"end\": {\n          \"line\": 13,\n          \"column\": 2\n        \
  }\n      }\n    },\n    \"span\": {\n      \"start\": {\n        \"line\": 10,\n        \"column\": 11\n      },\n      \
  \"end\": {\n        \"line\": 10,\n        \"column\": 13\n      }\n    },\n    \"replacement\": \"/=\",\n    \"genre\": \
  \"BinaryOperator\"\n  }" := by decide +kernel

/-- The mutants of `testdata/already_failing_tests`. -/
def failingMutants : List Mutant :=
  ((walkFile { sourceFile := { fileAt ["src", "lib.rs"] "" with package := ⟨t!"mutants-testdata-already-failing-tests", [], [], []⟩ } }
    ⟨[], [aFn .item "factorial" (some (named "u32")) (arrow [qi "u32"]) (quad 1 1 7 2) [quad 2 5 2 19, quad 3 5 5 6, quad 6 5 6 6]
      [rest [.mk (.binary .mulAssign (quad 4 11 4 13)) [] []]]]⟩).map (·.1)).getD []
example : (failingMutants[0]?).map (fun m => m.toJson.listed.pretty 1) = some t!"{\n    \"file\": \"src/lib.rs\",\n    \"function\": {\n      \"function_name\": \"factorial\",\n      \"return_type\": \"\
  -> u32\",\n      \"span\": {\n        \"end\": {\n          \"column\": 2,\n          \"line\": 7\n        },\n        \"\
  start\": {\n          \"column\": 1,\n          \"line\": 1\n        }\n      }\n    },\n    \"genre\": \"FnValue\",\n    \
  \"package\": \"mutants-testdata-already-failing-tests\",\n    \"replacement\": \"0\",\n    \"span\": {\n      \"end\": {\
  \n        \"column\": 6,\n        \"line\": 6\n      },\n      \"start\": {\n        \"column\": 5,\n        \"line\": 2\
  \n      }\n    }\n  }" := by decide +kernel

/-! ### `main__factorial__log_names.snap` -/

example : ((startAll (fun _ => none) [] (.baseline :: factorialMutants.map .mutant)).map fun r => r.2.reverse) =
    some (tx ["log/baseline.log", "log/src__bin__factorial.rs_line_2_col_5.log", "log/src__bin__factorial.rs_line_8_col_5.log",
      "log/src__bin__factorial.rs_line_8_col_5_001.log", "log/src__bin__factorial.rs_line_10_col_11.log",
      "log/src__bin__factorial.rs_line_10_col_11_001.log"]) := by decide +kernel

/-! ### `main__uncaught_mutant_in_factorial.snap`, and the lists -/

def ranTo (sc : Scenario) (build : Exit) (test : Option Exit) : ScenarioOutcome :=
  ⟨sc, ⟨.build, 1, build, []⟩ :: (test.map fun e => ⟨.test, 1, e, []⟩).toList⟩
def onlyChecked (sc : Scenario) : ScenarioOutcome := ⟨sc, [⟨.check, 1, .success, []⟩]⟩
/-- What is printed, and the code. -/
def printedBy (o : PrintOptions) (os : List ScenarioOutcome) (mutants : Nat) : Option (Text × Nat) := do
  let messages ← os.mapM fun x => x.message o
  let lab ← os.foldlM LabOutcome.add {}
  let code ← lab.exitCode
  pure (foundMessage mutants ++ (messages.flatMap fun m => m.getD []) ++ finishedMessage o lab, code)
def outcomesOf (ms : List Mutant) (tests : List Exit) : List ScenarioOutcome :=
  ranTo .baseline .success (some .success) :: (ms.zip tests).map fun x => ranTo (.mutant x.1) .success (some x.2)
def factorialOutcomes : List ScenarioOutcome :=
  outcomesOf factorialMutants [.success, .failure 101, .failure 101, .failure 101, .failure 101]

example : printedBy {} factorialOutcomes 5 =
    some (t!"Found 5 mutants to test\nok       Unmutated baseline\nMISSED   src/bin/factorial.rs:2:5: replace main with ()\n\
      5 mutants tested: 1 missed, 4 caught\n", 2) := by decide +kernel
example : (factorialOutcomes.foldlM OutputFiles.addOutcome {}).map (fun f => (f.missedTxt, f.timeoutTxt, f.unviableTxt)) =
    some (t!"src/bin/factorial.rs:2:5: replace main with ()\n", [], []) := by decide +kernel
-- `main__check_succeeds_in_tree_that_builds_but_fails_tests.snap`; the operators have no text here, as in `failingMutants`
example : printedBy {} (onlyChecked .baseline :: (failingMutants.take 2).map fun m => onlyChecked (.mutant m)) 2 =
    some (t!"Found 2 mutants to test\nok       Unmutated baseline\nok       src/lib.rs:2:5: replace factorial -> u32 with 0\n\
      ok       src/lib.rs:2:5: replace factorial -> u32 with 1\n2 mutants tested: 2 succeeded\n", 0) := by decide +kernel
-- `main__unviable_mutation_of_struct_with_no_default__unviable.txt.snap`
def makeAnS : List Mutant := ((walkFile { sourceFile := fileAt ["src", "lib.rs"] "" }
  ⟨[], [aFn .item "make_an_s" (some (named "S")) (arrow [qi "S"]) (quad 11 1 13 2) [quad 12 5 12 13] []]⟩).map (·.1)).getD []
example : ((makeAnS.map fun m => ranTo (.mutant m) (.failure 101) none).foldlM OutputFiles.addOutcome {}).map
    (fun f => (f.unviableTxt, f.missedTxt, f.caughtTxt)) =
    some (t!"src/lib.rs:12:5: replace make_an_s -> S with Default::default()\n", [], []) := by decide +kernel

/-! ### `list__list_mutants_in_all_trees_as_text.snap` -/

-- `testdata/well_tested/src/slices.rs`, `struct_with_lifetime.rs`, `nested_function.rs`, `static_item.rs`
def slicesLines : String := "use std::borrow::Cow;\n\nfn pad<'a>(aa: &'a mut [Cow<'static, str>]) -> &'a [Cow<'static, str>] {\n    for a in aa.iter_mut() {\n        if a.len() < 3 {\n            a.to_mut().push_str(\"___\");\n        }\n    }\n    aa\n}\n\nfn return_mut_slice(a: &mut [usize]) -> &mut [usize] {\n    for x in a.iter_mut() {\n        *x *= 2\n    }\n    a\n}\n"
def cowTokens : Tokens := [qi "Cow", qp '<', qp '\'', qi "static", qp ',', qi "str", qp '>']
def slicesTree : List Node := [rest [],
  aFn .item "pad" (some (.reference false (.slice (generic ["Cow"] [.lifetime, .type (named "str")]))))
    (arrow ([qp '&'] ++ lifetimeA ++ [.group .bracket cowTokens])) (quad 3 1 10 2) [quad 4 5 8 6, quad 9 5 9 7]
    [rest [.mk (.methodCall t!"iter_mut") [] [], rest [.mk (.binary .lt (quad 5 20 5 21)) [] [.mk (.methodCall t!"len") [] []],
      .mk (.methodCall t!"push_str") [] [.mk (.methodCall t!"to_mut") [] []]]]],
  aFn .item "return_mut_slice" (some (.reference true (.slice (named "usize"))))
    (arrow [qp '&', qi "mut", .group .bracket [qi "usize"]]) (quad 12 1 17 2) [quad 13 5 15 6, quad 16 5 16 6]
    [rest [.mk (.methodCall t!"iter_mut") [] [], .mk (.binary .mulAssign (quad 14 12 14 14)) [] [.mk (.unary .deref (quad 14 9 14 10)) [] []]]]]
example : namesOf true everyGenre (mutantsOf slicesLines slicesTree) = nmt [
    t!"src/main.rs:4:5: replace pad -> &'a[Cow<'static, str>] with Vec::leak(Vec::new())",
    t!"src/main.rs:4:5: replace pad -> &'a[Cow<'static, str>] with Vec::leak(vec![Cow::Borrowed(\"\")])",
    t!"src/main.rs:4:5: replace pad -> &'a[Cow<'static, str>] with Vec::leak(vec![Cow::Owned(\"\".to_owned())])",
    t!"src/main.rs:4:5: replace pad -> &'a[Cow<'static, str>] with Vec::leak(vec![Cow::Borrowed(\"xyzzy\")])",
    t!"src/main.rs:4:5: replace pad -> &'a[Cow<'static, str>] with Vec::leak(vec![Cow::Owned(\"xyzzy\".to_owned())])",
    t!"src/main.rs:5:20: replace < with == in pad", t!"src/main.rs:5:20: replace < with > in pad", t!"src/main.rs:5:20: replace < with <= in pad",
    t!"src/main.rs:13:5: replace return_mut_slice -> &mut[usize] with Vec::leak(Vec::new())",
    t!"src/main.rs:13:5: replace return_mut_slice -> &mut[usize] with Vec::leak(vec![0])",
    t!"src/main.rs:13:5: replace return_mut_slice -> &mut[usize] with Vec::leak(vec![1])",
    t!"src/main.rs:14:12: replace *= with += in return_mut_slice", t!"src/main.rs:14:12: replace *= with /= in return_mut_slice"] := by
  decide +kernel
example : namesOf true everyGenre (mutantsOf "" [rest [], .mk (.impl [qi "Lex", qp '<', qp '\'', qi "buf", qp '>'] none) [] [
    aFn .impl "new" (some (generic ["Lex"] [.lifetime])) (arrow [qi "Lex", qp '<', qp '\'', qi "buf", qp '>']) (quad 10 5 12 6) [quad 11 9 11 28] [],
    aFn .impl "buf_len" (some (named "usize")) (arrow [qi "usize"]) (quad 14 5 16 6) [quad 15 9 15 23] []]]) =
    nmt [t!"src/main.rs:15:9: replace Lex<'buf>::buf_len -> usize with 0", t!"src/main.rs:15:9: replace Lex<'buf>::buf_len -> usize with 1"] := by
  decide +kernel
example : namesOf true everyGenre (mutantsOf "fn has_nested() -> u32 {\n    fn inner() -> u32 {\n        12\n    }\n    inner() * inner()\n}\n" [
    aFn .item "has_nested" (some (named "u32")) (arrow [qi "u32"]) (quad 1 1 6 2) [quad 2 5 4 6, quad 5 5 5 22] [
      aFn .item "inner" (some (named "u32")) (arrow [qi "u32"]) (quad 2 5 4 6) [quad 3 9 3 11] [] [ql "12"],
      .mk (.binary .mul (quad 5 13 5 14)) [] [.mk (.call (some [t!"inner"])) [] [], .mk (.call (some [t!"inner"])) [] []]]]) =
    nmt [t!"src/main.rs:2:5: replace has_nested -> u32 with 0", t!"src/main.rs:2:5: replace has_nested -> u32 with 1",
      t!"src/main.rs:3:9: replace has_nested::inner -> u32 with 0", t!"src/main.rs:3:9: replace has_nested::inner -> u32 with 1",
      t!"src/main.rs:5:13: replace * with + in has_nested", t!"src/main.rs:5:13: replace * with / in has_nested"] := by decide +kernel
example : namesOf true everyGenre (mutantsOf "static SHOULD_BE_TRUE: bool = 3 == (2 + 1);\n"
    [rest [.mk (.binary .eq (quad 1 33 1 35)) [] [rest [.mk (.binary .add (quad 1 39 1 40)) [] []]]]]) =
    nmt [t!"src/main.rs:1:33: replace == with !=", t!"src/main.rs:1:39: replace + with -", t!"src/main.rs:1:39: replace + with *"] := by
  decide +kernel
-- `testdata/mut_ref`, `testdata/error_value`, `testdata/cfg_attr_test_skip`
example : namesOf true everyGenre (mutantsOf "" [
    aFn .item "returns_mut_ref" (some (.reference true (named "u32"))) (arrow [qp '&', qi "mut", qi "u32"]) (quad 1 1 3 2) [quad 2 5 2 26] []]) =
    nmt [t!"src/main.rs:2:5: replace returns_mut_ref -> &mut u32 with Box::leak(Box::new(0))",
      t!"src/main.rs:2:5: replace returns_mut_ref -> &mut u32 with Box::leak(Box::new(1))"] := by decide +kernel
example : ((walkFile { sourceFile := fileAt ["src", "lib.rs"] "", errorExprs := [[ql "\"injected\""]] } ⟨[], [
    aFn .item "zero_is_ok" (some (generic ["Result"] [.type (named "u32"), .type (.reference false (named "str"))]))
      (arrow [qi "Result", qp '<', qi "u32", qp ',', qp '&', qp '\'', qi "static", qi "str", qp '>']) (quad 3 1 9 2) [quad 4 5 8 6] []]⟩).map
      fun r => r.1.map fun m => m.name true) =
    nmt [t!"src/lib.rs:4:5: replace zero_is_ok -> Result<u32, &'static str> with Ok(0)",
      t!"src/lib.rs:4:5: replace zero_is_ok -> Result<u32, &'static str> with Ok(1)",
      t!"src/lib.rs:4:5: replace zero_is_ok -> Result<u32, &'static str> with Err(\"injected\")"] := by decide +kernel
def cfgAttr (items : List MetaItem) : Attr := ⟨{ idents := [t!"cfg_attr"] }, .list items⟩
def word (p : List String) : MetaItem := ⟨{ idents := tx p }, true⟩
example : attrsExcluded [cfgAttr [word ["test"], word ["mutants", "skip"]]] = true ∧
    attrsExcluded [cfgAttr [word ["mutants"], word ["mutants", "skip"]]] = true ∧
    attrsExcluded [cfgAttr [⟨{ idents := tx ["feature"] }, false⟩, word ["sparkles"], word ["crackles"]]] = false := by decide +kernel

end CM.Conform
