import Verif.Model.Pipeline
import Verif.Model.Outcome
/-! The JSON that is written: `mutants.json` (`src/output.rs:239-245`), `outcomes.json`
(`src/output.rs:204-210`), `--list --json` (`src/list.rs:19-34`) and `--list-files --json`
(`src/list.rs:56-69`), as the text that is written. The serializers are those of `src/mutant.rs:245-260`,
`src/outcome.rs:161-175` and `302-314`, and the derived ones.

Not code of the project, but modelled here: the pretty printer and the derived serializers of `serde_json`
(unit variants are strings; variants with a value are objects with one member; `None` is `null`; a
`serde_json::Value` keeps the members of an object sorted by key, `preserve_order` being off). The text
of a floating point number is a parameter. -/
namespace CM

mutual
/-- A JSON value; the text of a number is kept. -/
inductive Json
  | null
  | bool (b : Bool)
  | num (text : Text)
  | str (text : Text)
  | arr (elems : Elems)
  | obj (members : Members)
deriving Repr
/-- The elements of an array. -/
inductive Elems
  | nil
  | cons (x : Json) (xs : Elems)
deriving Repr
/-- The members of an object, in the order in which they are written. -/
inductive Members
  | nil
  | cons (key : Text) (x : Json) (ms : Members)
deriving Repr
end

def Elems.ofList : List Json → Elems
  | [] => .nil
  | x :: xs => .cons x (Elems.ofList xs)

def Members.ofList : List (Text × Json) → Members
  | [] => .nil
  | (k, x) :: ms => .cons k x (Members.ofList ms)

/-- A `Vec` or slice. -/
def Json.array (xs : List Json) : Json := .arr (Elems.ofList xs)

/-- A struct: its fields in the order of the calls of `serialize_field`. -/
def Json.object (ms : List (Text × Json)) : Json := .obj (Members.ofList ms)

/-- A lower-case hexadecimal digit. -/
def hexDigit (n : Nat) : Char := Nat.digitChar n

/-- `serde_json` `format_escaped_str`: the two characters that must be escaped, the control characters
with a short form, and `\u00xx` for the other control characters. -/
def escapeChar (c : Char) : Text :=
  if c = '"' then ['\\', '"']
  else if c = '\\' then ['\\', '\\']
  else if c = '\x08' then ['\\', 'b']
  else if c = '\x0c' then ['\\', 'f']
  else if c = '\n' then ['\\', 'n']
  else if c = '\x0d' then ['\\', 'r']
  else if c = '\t' then ['\\', 't']
  else if c.toNat < 32 then ['\\', 'u', '0', '0', hexDigit (c.toNat / 16), hexDigit (c.toNat % 16)]
  else [c]

def quoted (t : Text) : Text := '"' :: (t.flatMap escapeChar ++ ['"'])

/-- `serde_json` `PrettyFormatter`: a new line with two spaces for each level. -/
def newline (depth : Nat) : Text := '\n' :: List.replicate (2 * depth) ' '

mutual
/-- `serde_json` `to_writer_pretty`. -/
def Json.pretty (depth : Nat) : Json → Text
  | .null => "null".toList
  | .bool true => "true".toList
  | .bool false => "false".toList
  | .num t => t
  | .str t => quoted t
  | .arr .nil => "[]".toList
  | .arr (.cons x xs) => '[' :: (Elems.pretty (depth + 1) (.cons x xs) ++ newline depth ++ [']'])
  | .obj .nil => "{}".toList
  | .obj (.cons k x ms) => '{' :: (Members.pretty (depth + 1) (.cons k x ms) ++ newline depth ++ ['}'])
def Elems.pretty (depth : Nat) : Elems → Text
  | .nil => []
  | .cons x .nil => newline depth ++ x.pretty depth
  | .cons x (.cons y ys) => newline depth ++ x.pretty depth ++ ',' :: Elems.pretty depth (.cons y ys)
def Members.pretty (depth : Nat) : Members → Text
  | .nil => []
  | .cons k x .nil => newline depth ++ quoted k ++ ": ".toList ++ x.pretty depth
  | .cons k x (.cons l y ms) =>
    newline depth ++ quoted k ++ ": ".toList ++ x.pretty depth ++ ',' :: Members.pretty depth (.cons l y ms)
end

/-- The order of keys in a `BTreeMap<String, Value>`. -/
def textLt (a b : Text) : Bool := decide (a < b)

/-- Insert into a map sorted by key; an entry with the same key is replaced. -/
def Members.insert (k : Text) (x : Json) : Members → Members
  | .nil => .cons k x .nil
  | .cons l y ms =>
    if k = l then .cons k x ms
    else if textLt k l then .cons k x (.cons l y ms)
    else .cons l y (Members.insert k x ms)

mutual
/-- `serde_json::to_value`: the same value with the members of objects sorted by key. -/
def Json.toValue : Json → Json
  | .null => .null
  | .bool b => .bool b
  | .num t => .num t
  | .str t => .str t
  | .arr xs => .arr xs.toValue
  | .obj ms => .obj (Members.toValue .nil ms)
def Elems.toValue : Elems → Elems
  | .nil => .nil
  | .cons x xs => .cons x.toValue xs.toValue
/-- The members are inserted one after the other into the map. -/
def Members.toValue (map : Members) : Members → Members
  | .nil => map
  | .cons k x ms => Members.toValue (map.insert k x.toValue) ms
end

/-! ### the project's types -/

/-- A `usize`. -/
def Json.nat (n : Nat) : Json := .num (decimal n)

/-- An `i32`. -/
def Json.int (n : Int) : Json :=
  .num (match n with
    | .ofNat n => decimal n
    | .negSucc n => '-' :: decimal (n + 1))

def Json.ofText (s : Text) : Json := .str s

/-- An `Option`. -/
def Json.option {α} (f : α → Json) : Option α → Json
  | none => .null
  | some a => f a

/-- `src/span.rs:14-21`, derived. -/
def LineColumn.json (p : LineColumn) : Json :=
  .object [("line".toList, .nat p.line), ("column".toList, .nat p.column)]

/-- `src/span.rs:39-45`, derived. -/
def Span.json (s : Span) : Json :=
  .object [("start".toList, s.start.json), ("end".toList, s.stop.json)]

/-- `src/mutant.rs:61-74`, derived. -/
def Function.json (f : Function) : Json :=
  .object [("function_name".toList, .str f.functionName), ("return_type".toList, .str f.returnType),
    ("span".toList, f.span.json)]

/-- `src/mutant.rs:22-33`, derived. -/
def Genre.json : Genre → Json
  | .fnValue => .str "FnValue".toList
  | .binaryOperator => .str "BinaryOperator".toList
  | .unaryOperator => .str "UnaryOperator".toList
  | .matchArm => .str "MatchArm".toList
  | .matchArmGuard => .str "MatchArmGuard".toList

/-- The fields of `src/mutant.rs:245-260`. -/
def MutantJson.fields (m : MutantJson) : List (Text × Json) :=
  [("package".toList, .str m.package), ("file".toList, .str m.file),
   ("function".toList, .option Function.json m.function), ("span".toList, m.span.json),
   ("replacement".toList, .str m.replacement), ("genre".toList, m.genre.json)]

/-- `src/mutant.rs:245-260` `Serialize for Mutant`. -/
def MutantJson.json (m : MutantJson) : Json := .object m.fields

/-- `src/list.rs:23-33`: the value of the mutant, into which `diff` is inserted. -/
def MutantJson.listed (m : MutantJson) : Json :=
  match m.json.toValue, m.diff with
  | .obj ms, some d => .obj (ms.insert "diff".toList (.str d))
  | v, _ => v

/-- The text of `mutants.json`: `src/output.rs:239-245` `write_mutants_list`, called at `src/lab.rs:43`
with the shuffled mutants. -/
def mutantsJsonText (a : MainArgs) (r : Nat → Nat) (ms : List Mutant) : Text :=
  (Json.array ((mutantsJson a r ms).map MutantJson.json)).pretty 0

/-- `src/list.rs:19-34` `list_mutants` with `--json`. -/
def listJsonText (w : World) (diff : Bool) (ms : List Mutant) : Text :=
  (Json.array ((listMutantsJson w diff ms).map MutantJson.listed)).pretty 0

/-- `src/list.rs:56-69` `list_files` with `--json`. -/
def listFilesJsonText (fs : List SourceFile) : Text :=
  (Json.array (fs.map fun f => (Json.object [("path".toList, .str (toSlashPath f.path)),
    ("package".toList, .str f.package.name)]).toValue)).pretty 0

/-- `src/outcome.rs:33-38`, derived. -/
def Phase.json : Phase → Json
  | .check => .str "Check".toList
  | .build => .str "Build".toList
  | .test => .str "Test".toList

/-- `src/process.rs:143-156`, derived. -/
def Exit.json : Exit → Json
  | .success => .str "Success".toList
  | .failure c => .object [("Failure".toList, .int c)]
  | .timeout => .str "Timeout".toList
  | .signalled s => .object [("Signalled".toList, .int s)]
  | .other => .str "Other".toList

/-- `src/outcome.rs:317-326`, derived. -/
def SummaryOutcome.json : SummaryOutcome → Json
  | .success => .str "Success".toList
  | .caughtMutant => .str "CaughtMutant".toList
  | .missedMutant => .str "MissedMutant".toList
  | .unviable => .str "Unviable".toList
  | .failure => .str "Failure".toList
  | .timeout => .str "Timeout".toList

/-- `src/scenario.rs:9-15`, derived. -/
def Scenario.json : Scenario → Json
  | .baseline => .str "Baseline".toList
  | .mutant m => .object [("Mutant".toList, m.toJson.json)]

/-- What is not in the model of outcomes: how a duration is printed as a number of seconds
(`as_secs_f64`, then `ryu`), and the paths of the log and of the diff of the outcome at an index. -/
structure JsonWorld where
  seconds : Nat → Text
  logPath : Nat → Text
  diffPath : Nat → Option Text

/-- `src/outcome.rs:302-314` `Serialize for PhaseResult`. -/
def PhaseResult.json (w : JsonWorld) (p : PhaseResult) : Json :=
  .object [("phase".toList, p.phase.json), ("duration".toList, .num (w.seconds p.duration)),
    ("process_status".toList, p.status.json), ("argv".toList, .array (p.argv.map Json.ofText))]

/-- `src/outcome.rs:161-175` `Serialize for ScenarioOutcome`; `none` is the panic in `summary`. -/
def ScenarioOutcome.json (w : JsonWorld) (index : Nat) (o : ScenarioOutcome) : Option Json :=
  o.summary.map fun s =>
    .object [("scenario".toList, o.scenario.json), ("summary".toList, s.json),
      ("log_path".toList, .str (w.logPath index)),
      ("diff_path".toList, .option Json.ofText (w.diffPath index)),
      ("phase_results".toList, .array (o.phaseResults.map (PhaseResult.json w)))]

/-- The derived serializer of `Vec<ScenarioOutcome>`. -/
def outcomesJsonFrom (w : JsonWorld) (index : Nat) : List ScenarioOutcome → Option (List Json)
  | [] => some []
  | o :: os => do
    let x ← o.json w index
    let xs ← outcomesJsonFrom w (index + 1) os
    pure (x :: xs)

/-- `src/outcome.rs:57-68`, derived. -/
def LabOutcome.json (w : JsonWorld) (l : LabOutcome) : Option Json :=
  (outcomesJsonFrom w 0 l.outcomes).map fun os =>
    .object [("outcomes".toList, .array os), ("total_mutants".toList, .nat l.totalMutants),
      ("missed".toList, .nat l.missed), ("caught".toList, .nat l.caught),
      ("timeout".toList, .nat l.timeout), ("unviable".toList, .nat l.unviable),
      ("success".toList, .nat l.success)]

/-- The text of `outcomes.json`: `src/output.rs:204-210` `write_lab_outcome`. -/
def outcomesJsonText (w : JsonWorld) (l : LabOutcome) : Option Text := (l.json w).map (Json.pretty 0)

end CM
