import Verif.Model.Span
/-! Mutants, source files, packages and scenarios: `src/mutant.rs`, `src/source.rs`, `src/package.rs`,
`src/path.rs`, `src/scenario.rs`, `src/output.rs` (`clean_filename`). -/
namespace CM

/-- A path as the list of the texts of its components (`Utf8Path::components().map(as_str)`), on Unix.
A root component is `"/"`; `std` removes empty components and `.` except at the start. -/
abbrev Path := List Text

/-- Decimal digits of a number, as printed by Rust's `{}` for unsigned integers. -/
def decimal (n : Nat) : Text := Nat.toDigits 10 n

/-- `[T]::join` for texts. -/
def joinWith (sep : Text) : List Text → Text
  | [] => []
  | [a] => a
  | a :: b :: rest => a ++ sep ++ joinWith sep (b :: rest)

/-- `src/path.rs:42-51` `to_slash_path`. -/
def toSlashPath (p : Path) : Text :=
  joinWith "/".toList <|
    (p.filter (· ≠ [])).map fun c => if c = "/".toList ∨ c = "\\".toList then [] else c

/-- `src/package.rs:17-33` `Package`. -/
structure Package where
  name : Text
  version : Text
  relativeDir : Path
  topSources : List Path
deriving DecidableEq, Repr

/-- `src/source.rs:24-42` `SourceFile`; `path` and `code` are also `src/source.rs:110-116`. -/
structure SourceFile where
  package : Package
  path : Path
  code : Text
  isTop : Bool
deriving DecidableEq, Repr

/-- `src/mutant.rs:21-33` `Genre`. -/
inductive Genre
  | fnValue | binaryOperator | unaryOperator | matchArm | matchArmGuard
deriving DecidableEq, Repr

/-- `src/mutant.rs:58-74` `Function`. -/
structure Function where
  functionName : Text
  returnType : Text
  span : Span
deriving DecidableEq, Repr

/-- `src/mutant.rs:35-56` `Mutant`; `replacement` is also `src/mutant.rs:185-187` `replacement_text`. -/
structure Mutant where
  sourceFile : SourceFile
  function : Option Function
  span : Span
  replacement : Text
  genre : Genre
deriving DecidableEq, Repr

namespace Mutant

/-- `src/mutant.rs:78-83`. -/
def mutated (m : Mutant) : Text := mutatedCode m.sourceFile.code m.span m.replacement

/-- `src/mutant.rs:130-178` `styled_parts`, without colours, concatenated (`src/mutant.rs:88-93`
`describe_change`). `none` is the `expect` at line 144. -/
def describe (m : Mutant) : Option Text :=
  match m.genre with
  | .fnValue =>
    m.function.map fun f =>
      "replace ".toList ++ f.functionName ++
      (if f.returnType = [] then [] else " ".toList ++ f.returnType) ++
      " with ".toList ++ m.replacement
  | .matchArmGuard => some ("replace match guard with ".toList ++ m.replacement)
  | .matchArm => some "delete match arm".toList
  | .binaryOperator | .unaryOperator =>
    some ((if m.replacement = [] then "delete ".toList else "replace ".toList) ++
      originalText m.sourceFile.code m.span ++
      (if m.replacement = [] then [] else " with ".toList ++ m.replacement) ++
      (match m.function with
       | some f => " in ".toList ++ f.functionName
       | none => []))

/-- `src/mutant.rs:95-112` `Mutant::name`. -/
def name (m : Mutant) (showLineCol : Bool) : Option Text :=
  m.describe.map fun d =>
    toSlashPath m.sourceFile.path ++
    (if showLineCol then
      ":".toList ++ decimal m.span.start.line ++ ":".toList ++ decimal m.span.start.column ++
        ": ".toList
     else ": ".toList) ++ d

end Mutant

/-- `src/output.rs:356-364` `clean_filename`. -/
def cleanFilename (s : Text) : Text :=
  (s.flatMap fun c => if c = '/' then "__".toList else [c]).map fun c =>
    if c ∈ ['\\', ' ', ':', '<', '>', '?', '*', '|', '"'] then '_' else c

/-- `src/mutant.rs:220-229` `log_file_name_base`. -/
def Mutant.logFileNameBase (m : Mutant) : Text :=
  cleanFilename (toSlashPath m.sourceFile.path) ++ "_line_".toList ++ decimal m.span.start.line ++
    "_col_".toList ++ decimal m.span.start.column

/-- `src/scenario.rs:8-15` `Scenario`. -/
inductive Scenario
  | baseline
  | mutant (m : Mutant)
deriving DecidableEq, Repr

/-- `src/scenario.rs:27-29` `is_mutant`. -/
def Scenario.isMutant : Scenario → Bool
  | .baseline => false
  | .mutant _ => true

end CM
