import Verif.Conform.Syntax
import Verif.Model.Unified
/-! The snapshot `list__util__list_mutants_with_diffs_in_factorial.snap`; see `Small.lean` and `Syntax.lean`. -/
namespace CM.Conform
open CM CM.Similar

/-- A text as the list of its characters, which the kernel need not decode. -/
local macro:max "t!" s:str : term => do
  let cs := s.getString.toList.map fun c => (Lean.Syntax.mkCharLit c : Lean.TSyntax `char)
  `([$(cs.toArray),*])

/-- How many lines are the same at the start. -/
def sameStart : List Text → List Text → Nat
  | a :: as, b :: bs => if a = b then sameStart as bs + 1 else 0
  | _, _ => 0
/-- What the algorithm of the library finds for these mutants: the lines that are the same at the start and at the end are kept. -/
def keepEnds (old new : List Text) : List DiffOp :=
  let p := sameStart old new
  let s := sameStart (old.drop p).reverse (new.drop p).reverse
  [.equal 0 0 p, .replace p (old.length - p - s) p (new.length - p - s), .equal (old.length - s) (new.length - s) s]
def factorialDiff (i : Nat) : Option Text := (factorialMutants[i]?).bind (mutantDiff keepEnds)

example : factorialDiff 0 = some (
    t!"--- src/bin/factorial.rs\n" ++
    t!"+++ replace main with ()\n" ++
    t!"@@ -1,12 +1,10 @@\n" ++
    t!" fn main() {\n" ++
    t!"-    for i in 1..=6 {\n" ++
    t!"-        println!(\"{}! = {}\", i, factorial(i));\n" ++
    t!"-    }\n" ++
    t!"+    () /* ~ changed by cargo-mutants ~ */\n" ++
    t!" }\n" ++
    t!" \n" ++
    t!" fn factorial(n: u32) -> u32 {\n" ++
    t!"     let mut a = 1;\n" ++
    t!"     for i in 2..=n {\n" ++
    t!"         a *= i;\n" ++
    t!"     }\n" ++
    t!"     a\n") := by decide +kernel
example : factorialDiff 1 = some (
    t!"--- src/bin/factorial.rs\n" ++
    t!"+++ replace factorial -> u32 with 0\n" ++
    t!"@@ -1,19 +1,15 @@\n" ++
    t!" fn main() {\n" ++
    t!"     for i in 1..=6 {\n" ++
    t!"         println!(\"{}! = {}\", i, factorial(i));\n" ++
    t!"     }\n" ++
    t!" }\n" ++
    t!" \n" ++
    t!" fn factorial(n: u32) -> u32 {\n" ++
    t!"-    let mut a = 1;\n" ++
    t!"-    for i in 2..=n {\n" ++
    t!"-        a *= i;\n" ++
    t!"-    }\n" ++
    t!"-    a\n" ++
    t!"+    0 /* ~ changed by cargo-mutants ~ */\n" ++
    t!" }\n" ++
    t!" \n" ++
    t!" #[test]\n" ++
    t!" fn test_factorial() {\n" ++
    t!"     println!(\"factorial({}) = {}\", 6, factorial(6)); // This line is here so we can see it in --nocapture\n" ++
    t!"     assert_eq!(factorial(6), 720);\n" ++
    t!" }\n") := by decide +kernel
example : factorialDiff 2 = some (
    t!"--- src/bin/factorial.rs\n" ++
    t!"+++ replace factorial -> u32 with 1\n" ++
    t!"@@ -1,19 +1,15 @@\n" ++
    t!" fn main() {\n" ++
    t!"     for i in 1..=6 {\n" ++
    t!"         println!(\"{}! = {}\", i, factorial(i));\n" ++
    t!"     }\n" ++
    t!" }\n" ++
    t!" \n" ++
    t!" fn factorial(n: u32) -> u32 {\n" ++
    t!"-    let mut a = 1;\n" ++
    t!"-    for i in 2..=n {\n" ++
    t!"-        a *= i;\n" ++
    t!"-    }\n" ++
    t!"-    a\n" ++
    t!"+    1 /* ~ changed by cargo-mutants ~ */\n" ++
    t!" }\n" ++
    t!" \n" ++
    t!" #[test]\n" ++
    t!" fn test_factorial() {\n" ++
    t!"     println!(\"factorial({}) = {}\", 6, factorial(6)); // This line is here so we can see it in --nocapture\n" ++
    t!"     assert_eq!(factorial(6), 720);\n" ++
    t!" }\n") := by decide +kernel
example : factorialDiff 3 = some (
    t!"--- src/bin/factorial.rs\n" ++
    t!"+++ replace *= with += in factorial\n" ++
    t!"@@ -2,17 +2,17 @@\n" ++
    t!"     for i in 1..=6 {\n" ++
    t!"         println!(\"{}! = {}\", i, factorial(i));\n" ++
    t!"     }\n" ++
    t!" }\n" ++
    t!" \n" ++
    t!" fn factorial(n: u32) -> u32 {\n" ++
    t!"     let mut a = 1;\n" ++
    t!"     for i in 2..=n {\n" ++
    t!"-        a *= i;\n" ++
    t!"+        a += /* ~ changed by cargo-mutants ~ */ i;\n" ++
    t!"     }\n" ++
    t!"     a\n" ++
    t!" }\n" ++
    t!" \n" ++
    t!" #[test]\n" ++
    t!" fn test_factorial() {\n" ++
    t!"     println!(\"factorial({}) = {}\", 6, factorial(6)); // This line is here so we can see it in --nocapture\n" ++
    t!"     assert_eq!(factorial(6), 720);\n") := by decide +kernel
example : factorialDiff 4 = some (
    t!"--- src/bin/factorial.rs\n" ++
    t!"+++ replace *= with /= in factorial\n" ++
    t!"@@ -2,17 +2,17 @@\n" ++
    t!"     for i in 1..=6 {\n" ++
    t!"         println!(\"{}! = {}\", i, factorial(i));\n" ++
    t!"     }\n" ++
    t!" }\n" ++
    t!" \n" ++
    t!" fn factorial(n: u32) -> u32 {\n" ++
    t!"     let mut a = 1;\n" ++
    t!"     for i in 2..=n {\n" ++
    t!"-        a *= i;\n" ++
    t!"+        a /= /* ~ changed by cargo-mutants ~ */ i;\n" ++
    t!"     }\n" ++
    t!"     a\n" ++
    t!" }\n" ++
    t!" \n" ++
    t!" #[test]\n" ++
    t!" fn test_factorial() {\n" ++
    t!"     println!(\"factorial({}) = {}\", 6, factorial(6)); // This line is here so we can see it in --nocapture\n" ++
    t!"     assert_eq!(factorial(6), 720);\n") := by decide +kernel

end CM.Conform
