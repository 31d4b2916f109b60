import Verif.Model.Outcome
/-! The output directory during a run: `src/output.rs`. -/
namespace CM

/-- Rust's `{:03}` for unsigned integers. -/
def pad3 (n : Nat) : Text :=
  List.replicate (3 - (decimal n).length) '0' ++ decimal n

/-- `src/output.rs:106` `used_log_names`: the number of extra uses of each base name. -/
abbrev UsedNames := Text → Option Nat

/-- `src/output.rs:177-180`. -/
def scenarioLogName : Scenario → Text
  | .baseline => "baseline".toList
  | .mutant m => m.logFileNameBase

/-- `src/output.rs:176-193` `start_scenario`: choose the base name. -/
def chooseLogName (used : UsedNames) (sc : Scenario) : UsedNames × Text :=
  let name := scenarioLogName sc
  match used name with
  | some index =>
    let index := index + 1
    (fun t => if t = name then some index else used t, name ++ "_".toList ++ pad3 index)
  | none => (fun t => if t = name then some 0 else used t, name)

/-- `src/output.rs:299-305`: `log/{basename}.log` is created with `create_new`, so it must not exist.
The set of existing logs is kept as a list; `none` is the error. -/
def startScenario (used : UsedNames) (logs : List Text) (sc : Scenario) :
    Option (UsedNames × List Text) :=
  let (used', base) := chooseLogName used sc
  let path := "log/".toList ++ base ++ ".log".toList
  if path ∈ logs then none else some (used', path :: logs)

/-- Starting a sequence of scenarios in one run. -/
def startAll (used : UsedNames) (logs : List Text) : List Scenario → Option (UsedNames × List Text)
  | [] => some (used, logs)
  | sc :: rest =>
    match startScenario used logs sc with
    | none => none
    | some (used', logs') => startAll used' logs' rest

/-- The base names chosen for a sequence of scenarios. -/
def chosenNames (used : UsedNames) : List Scenario → List Text
  | [] => []
  | sc :: rest => (chooseLogName used sc).2 :: chosenNames (chooseLogName used sc).1 rest

/-- `src/output.rs:306-310`: the diff paths of a sequence of scenarios, only for mutants. They are
written with `write`, which would silently replace an existing file. -/
def diffPaths (used : UsedNames) : List Scenario → List Text
  | [] => []
  | sc :: rest =>
    (if sc.isMutant then ["diff/".toList ++ (chooseLogName used sc).2 ++ ".diff".toList] else []) ++
      diffPaths (chooseLogName used sc).1 rest

/-- Drop a carriage return that ends a line (the line is kept reversed). -/
def stripCrRev : Text → Text
  | c :: rest => if c = '\r' then rest else c :: rest
  | [] => []

/-- Rust's `str::lines`: the text is cut after each `\n`; a final `\n` or `\r\n` of a piece is
dropped. `cur` is the current line, reversed. -/
def linesFrom (cur : Text) : Text → List Text
  | [] => if cur = [] then [] else [cur.reverse]
  | c :: cs =>
    if c = '\n' then
      (stripCrRev cur).reverse :: linesFrom [] cs
    else linesFrom (c :: cur) cs

def rustLines (t : Text) : List Text := linesFrom [] t

/-- The four list files of `mutants.out` and the accumulated outcome (`src/output.rs:90-107`).
`outcomesJson` is what `outcomes.json` holds: `none` if not written yet or only partly written. -/
structure OutputFiles where
  lab : LabOutcome := {}
  outcomesJson : Option LabOutcome := none
  missedTxt : Text := []
  caughtTxt : Text := []
  timeoutTxt : Text := []
  unviableTxt : Text := []
deriving DecidableEq, Repr

/-- Which list file a verdict goes to (`src/output.rs:218-224`). -/
inductive ListFile | missed | caught | timeout | unviable
deriving DecidableEq, Repr

/-- `src/output.rs:218-224`; `none` is the early `return Ok(())`. -/
def listFileFor : SummaryOutcome → Option ListFile
  | .missedMutant => some .missed
  | .caughtMutant => some .caught
  | .timeout => some .timeout
  | .unviable => some .unviable
  | .success | .failure => none

/-- Content of a list file. -/
def OutputFiles.get (f : OutputFiles) : ListFile → Text
  | .missed => f.missedTxt
  | .caught => f.caughtTxt
  | .timeout => f.timeoutTxt
  | .unviable => f.unviableTxt

/-- Append to a list file (opened with `append`, `src/output.rs:149-162`). -/
def OutputFiles.append (f : OutputFiles) (l : ListFile) (t : Text) : OutputFiles :=
  match l with
  | .missed => { f with missedTxt := f.missedTxt ++ t }
  | .caught => { f with caughtTxt := f.caughtTxt ++ t }
  | .timeout => { f with timeoutTxt := f.timeoutTxt ++ t }
  | .unviable => { f with unviableTxt := f.unviableTxt ++ t }

/-- The writes that `add_scenario_outcome` makes for one outcome, in order
(`src/output.rs:213-228`, `204-210`): the file is truncated by `File::create`, then written; then the
name and the line feed are appended (`writeln!` on an unbuffered file makes two writes). -/
inductive OutputWrite
  | remember (o : ScenarioOutcome)
  | truncateJson
  | writeJson
  | appendName (l : ListFile) (name : Text)
  | appendNewline (l : ListFile)
deriving DecidableEq, Repr

/-- One write; `none` is a panic in `summary`. -/
def OutputFiles.write (f : OutputFiles) : OutputWrite → Option OutputFiles
  | .remember o => (f.lab.add o).map fun l => { f with lab := l }
  | .truncateJson => some { f with outcomesJson := none }
  | .writeJson => some { f with outcomesJson := some f.lab }
  | .appendName l n => some (f.append l n)
  | .appendNewline l => some (f.append l "\n".toList)

/-- `src/output.rs:213-228` `add_scenario_outcome` as its sequence of writes; `none` if a panic is
reached (no phase results, or a function mutant without function). -/
def addOutcomeWrites (o : ScenarioOutcome) : Option (List OutputWrite) :=
  let start := [.remember o, .truncateJson, .writeJson]
  match o.scenario with
  | .baseline => some start
  | .mutant m => do
    let s ← o.summary
    match listFileFor s with
    | none => pure start
    | some l =>
      let n ← m.name true
      pure (start ++ [.appendName l n, .appendNewline l])

/-- Performing a list of writes. -/
def OutputFiles.writeAll (f : OutputFiles) : List OutputWrite → Option OutputFiles
  | [] => some f
  | w :: ws => (f.write w).bind fun f => f.writeAll ws

/-- All writes for a sequence of recorded outcomes. -/
def allWrites : List ScenarioOutcome → Option (List OutputWrite)
  | [] => some []
  | o :: os => do
    let a ← addOutcomeWrites o
    let b ← allWrites os
    pure (a ++ b)

/-- `add_scenario_outcome` run to its end. -/
def OutputFiles.addOutcome (f : OutputFiles) (o : ScenarioOutcome) : Option OutputFiles :=
  (addOutcomeWrites o).bind f.writeAll

end CM
