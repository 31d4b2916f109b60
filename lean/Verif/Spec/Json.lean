import Verif.Model.Json
/-! Reading JSON (RFC 8259), and reading from it what the files of `mutants.out` and `--list --json` are
documented to hold. It is written without reference to how the JSON is written: white space may be
anywhere between tokens, members of objects are looked up by key. Surrogate pairs (two `\u` escapes for
one character) are not read. -/
namespace CM.Spec
open CM

def isWs (c : Char) : Bool := c = ' ' || c = '\n' || c = '\t' || c = '\x0d'

def skipWs (cs : Text) : Text := cs.dropWhile isWs

def hexValue (c : Char) : Option Nat :=
  if '0' ≤ c ∧ c ≤ '9' then some (c.toNat - '0'.toNat)
  else if 'a' ≤ c ∧ c ≤ 'f' then some (c.toNat - 'a'.toNat + 10)
  else if 'A' ≤ c ∧ c ≤ 'F' then some (c.toNat - 'A'.toNat + 10)
  else none

/-- What an escape other than `\u` means. -/
def escapeMeans (c : Char) : Option Char :=
  if c = '"' ∨ c = '\\' ∨ c = '/' then some c
  else if c = 'b' then some '\x08'
  else if c = 'f' then some '\x0c'
  else if c = 'n' then some '\n'
  else if c = 'r' then some '\x0d'
  else if c = 't' then some '\t'
  else none

def hexChar (a b c d : Char) : Option Char := do
  let n := (← hexValue a) * 4096 + (← hexValue b) * 256 + (← hexValue c) * 16 + (← hexValue d)
  if 0xd800 ≤ n ∧ n ≤ 0xdfff then none else some (Char.ofNat n)

/-- One character of a string, and what follows. -/
def readChar : Text → Option (Char × Text)
  | [] => none
  | c :: r =>
    if c = '\\' then
      match r with
      | [] => none
      | e :: r =>
        if e = 'u' then
          match r with
          | a :: b :: c :: d :: r => (hexChar a b c d).map fun x => (x, r)
          | _ => none
        else (escapeMeans e).map fun x => (x, r)
    else if c.toNat < 32 then none
    else some (c, r)

/-- The rest of a string, up to the closing quote. -/
def readChars : Nat → Text → Option (Text × Text)
  | 0, _ => none
  | n + 1, cs =>
    if cs.head? = some '"' then some ([], cs.tail)
    else do
      let (c, r) ← readChar cs
      let (t, r) ← readChars n r
      pure (c :: t, r)

/-- A string with its quotes. -/
def readString (cs : Text) : Option (Text × Text) :=
  match skipWs cs with
  | c :: r => if c = '"' then readChars r.length r else none
  | [] => none

/-! Numbers: `-? (0 | [1-9][0-9]*) (. [0-9]+)? ([eE] [+-]? [0-9]+)?`. -/

def isNumberChar (c : Char) : Bool :=
  c.isDigit || c = '-' || c = '+' || c = '.' || c = 'e' || c = 'E'

def someDigits (t : Text) : Bool := !t.isEmpty && t.all (·.isDigit)

def isExponent : Text → Bool
  | [] => true
  | e :: t => (e = 'e' || e = 'E') && someDigits (if t.head? = some '+' ∨ t.head? = some '-' then t.tail else t)

def isFraction (t : Text) : Bool :=
  if t.head? = some '.' then
    !(t.tail.takeWhile (·.isDigit)).isEmpty && isExponent (t.tail.dropWhile (·.isDigit))
  else isExponent t

def isUnsignedNumber (t : Text) : Bool :=
  let whole := t.takeWhile (·.isDigit)
  !whole.isEmpty && (whole.head? != some '0' || whole.length == 1) && isFraction (t.dropWhile (·.isDigit))

def isNumber (t : Text) : Bool := isUnsignedNumber (if t.head? = some '-' then t.tail else t)

/-- What follows a word, if the text begins with it. -/
def afterWord (word cs : Text) : Option Text :=
  if word.isPrefixOf cs then some (cs.drop word.length) else none

mutual
/-- A value, and what follows. -/
def readValue : Nat → Text → Option (Json × Text)
  | 0, _ => none
  | n + 1, cs =>
    let cs := skipWs cs
    match cs.head? with
    | none => none
    | some c =>
      if c = '"' then (readString cs).map fun (t, r) => (.str t, r)
      else if c = '[' then
        if (skipWs cs.tail).head? = some ']' then some (.arr .nil, (skipWs cs.tail).tail)
        else (readElems n cs.tail).map fun (xs, r) => (.arr xs, r)
      else if c = '{' then
        if (skipWs cs.tail).head? = some '}' then some (.obj .nil, (skipWs cs.tail).tail)
        else (readMembers n cs.tail).map fun (ms, r) => (.obj ms, r)
      else if c = 'n' then (afterWord "null".toList cs).map fun r => (.null, r)
      else if c = 't' then (afterWord "true".toList cs).map fun r => (.bool true, r)
      else if c = 'f' then (afterWord "false".toList cs).map fun r => (.bool false, r)
      else if isNumber (cs.takeWhile isNumberChar) then
        some (.num (cs.takeWhile isNumberChar), cs.dropWhile isNumberChar)
      else none
/-- One or more elements, up to the closing bracket. -/
def readElems : Nat → Text → Option (Elems × Text)
  | 0, _ => none
  | n + 1, cs => do
    let (x, r) ← readValue n cs
    let r := skipWs r
    if r.head? = some ',' then
      let (xs, r) ← readElems n r.tail
      pure (.cons x xs, r)
    else if r.head? = some ']' then some (.cons x .nil, r.tail)
    else none
/-- One or more members, up to the closing brace. -/
def readMembers : Nat → Text → Option (Members × Text)
  | 0, _ => none
  | n + 1, cs => do
    let (k, r) ← readString cs
    let r := skipWs r
    if r.head? = some ':' then
      let (x, r) ← readValue n r.tail
      let r := skipWs r
      if r.head? = some ',' then
        let (ms, r) ← readMembers n r.tail
        pure (.cons k x ms, r)
      else if r.head? = some '}' then some (.cons k x .nil, r.tail)
      else none
    else none
end

/-- A whole text: one value with white space around it. -/
def readJson (cs : Text) : Option Json :=
  match readValue cs.length cs with
  | some (v, r) => if skipWs r = [] then some v else none
  | none => none

mutual
/-- The numbers in a value are written as JSON numbers. -/
def NumbersOk : Json → Prop
  | .num t => isNumber t = true
  | .arr xs => ElemNumbersOk xs
  | .obj ms => MemberNumbersOk ms
  | _ => True
def ElemNumbersOk : Elems → Prop
  | .nil => True
  | .cons x xs => NumbersOk x ∧ ElemNumbersOk xs
def MemberNumbersOk : Members → Prop
  | .nil => True
  | .cons _ x ms => NumbersOk x ∧ MemberNumbersOk ms
end

/-! ### looking into values -/

def lookup (key : Text) : Members → Option Json
  | .nil => none
  | .cons k x ms => if k = key then some x else lookup key ms

def field (key : Text) : Json → Option Json
  | .obj ms => lookup key ms
  | _ => none

def elemList : Elems → List Json
  | .nil => []
  | .cons x xs => x :: elemList xs

def elements : Json → Option (List Json)
  | .arr xs => some (elemList xs)
  | _ => none

def asText : Json → Option Text
  | .str t => some t
  | _ => none

/-- A number without sign, fraction and exponent. -/
def asNat : Json → Option Nat
  | .num t => if someDigits t then some (t.foldl (fun v c => 10 * v + (c.toNat - '0'.toNat)) 0) else none
  | _ => none

def asInt : Json → Option Int
  | .num t =>
    if t.head? = some '-' then (asNat (.num t.tail)).map fun n => -(n : Int)
    else (asNat (.num t)).map fun n => (n : Int)
  | _ => none

/-- `null`, or what `f` reads. -/
def nullOr {α} (f : Json → Option α) : Json → Option (Option α)
  | .null => some none
  | v => (f v).map some

/-- All must be readable. -/
def readAll {α} (f : Json → Option α) : List Json → Option (List α)
  | [] => some []
  | x :: xs => do
    let a ← f x
    let as ← readAll f xs
    pure (a :: as)

/-! ### the documented contents (`book/src/mutants-out.md`) -/

def readPosition (v : Json) : Option LineColumn := do
  pure ⟨← (← field "line".toList v) |> asNat, ← (← field "column".toList v) |> asNat⟩

def readSpan (v : Json) : Option Span := do
  pure ⟨← (← field "start".toList v) |> readPosition, ← (← field "end".toList v) |> readPosition⟩

def readFunction (v : Json) : Option Function := do
  pure ⟨← (← field "function_name".toList v) |> asText, ← (← field "return_type".toList v) |> asText,
    ← (← field "span".toList v) |> readSpan⟩

def genreWords : List (Text × Genre) :=
  [("FnValue".toList, .fnValue), ("BinaryOperator".toList, .binaryOperator),
   ("UnaryOperator".toList, .unaryOperator), ("MatchArm".toList, .matchArm),
   ("MatchArmGuard".toList, .matchArmGuard)]

/-- Read a word by a table. -/
def readWord {α} (table : List (Text × α)) (v : Json) : Option α := do
  let t ← asText v
  List.lookup t table

def readMutant (v : Json) : Option MutantJson := do
  pure {
    package := ← (← field "package".toList v) |> asText
    file := ← (← field "file".toList v) |> asText
    function := ← (← field "function".toList v) |> nullOr readFunction
    span := ← (← field "span".toList v) |> readSpan
    replacement := ← (← field "replacement".toList v) |> asText
    genre := ← (← field "genre".toList v) |> readWord genreWords
    diff := (field "diff".toList v).bind asText }

/-- The mutants in a `mutants.json` or in the output of `--list --json`. -/
def readMutants (t : Text) : Option (List MutantJson) := do
  let v ← readJson t
  let xs ← elements v
  readAll readMutant xs

/-- The paths and packages in the output of `--list-files --json`. -/
def readFiles (t : Text) : Option (List (Text × Text)) := do
  let v ← readJson t
  let xs ← elements v
  readAll (fun v => do pure (← (← field "path".toList v) |> asText, ← (← field "package".toList v) |> asText)) xs

def phaseWords : List (Text × Phase) :=
  [("Check".toList, .check), ("Build".toList, .build), ("Test".toList, .test)]

def summaryWords : List (Text × SummaryOutcome) :=
  [("Success".toList, .success), ("CaughtMutant".toList, .caughtMutant),
   ("MissedMutant".toList, .missedMutant), ("Unviable".toList, .unviable),
   ("Failure".toList, .failure), ("Timeout".toList, .timeout)]

def exitWords : List (Text × Exit) :=
  [("Success".toList, .success), ("Timeout".toList, .timeout), ("Other".toList, .other)]

def readExit (v : Json) : Option Exit :=
  match field "Failure".toList v, field "Signalled".toList v with
  | some c, _ => (asInt c).map .failure
  | none, some s => (asInt s).map .signalled
  | none, none => readWord exitWords v

/-- What one outcome says about one command. -/
structure PhaseSays where
  phase : Phase
  /-- the text of the number -/
  seconds : Text
  status : Exit
  argv : List Text
deriving DecidableEq, Repr

/-- What one entry of `outcomes.json` says. -/
structure OutcomeSays where
  /-- `none` for the baseline -/
  mutant : Option MutantJson
  summary : SummaryOutcome
  logPath : Text
  diffPath : Option Text
  phases : List PhaseSays

/-- What `outcomes.json` says. -/
structure OutcomesSay where
  outcomes : List OutcomeSays
  total : Nat
  missed : Nat
  caught : Nat
  timeout : Nat
  unviable : Nat
  success : Nat

def asNumber : Json → Option Text
  | .num t => some t
  | _ => none

def readTexts (v : Json) : Option (List Text) := do
  let xs ← elements v
  readAll asText xs

def readPhase (v : Json) : Option PhaseSays := do
  pure {
    phase := ← (← field "phase".toList v) |> readWord phaseWords
    seconds := ← (← field "duration".toList v) |> asNumber
    status := ← (← field "process_status".toList v) |> readExit
    argv := ← (← field "argv".toList v) |> readTexts }

/-- `"Baseline"`, or an object with the mutant. -/
def readScenario (v : Json) : Option (Option MutantJson) :=
  match field "Mutant".toList v with
  | some m => (readMutant m).map some
  | none => if asText v = some "Baseline".toList then some none else none

def readOutcome (v : Json) : Option OutcomeSays := do
  pure {
    mutant := ← (← field "scenario".toList v) |> readScenario
    summary := ← (← field "summary".toList v) |> readWord summaryWords
    logPath := ← (← field "log_path".toList v) |> asText
    diffPath := ← (← field "diff_path".toList v) |> nullOr asText
    phases := ← readAll readPhase (← (← field "phase_results".toList v) |> elements) }

def readOutcomes (t : Text) : Option OutcomesSay := do
  let v ← readJson t
  pure {
    outcomes := ← readAll readOutcome (← (← field "outcomes".toList v) |> elements)
    total := ← (← field "total_mutants".toList v) |> asNat
    missed := ← (← field "missed".toList v) |> asNat
    caught := ← (← field "caught".toList v) |> asNat
    timeout := ← (← field "timeout".toList v) |> asNat
    unviable := ← (← field "unviable".toList v) |> asNat
    success := ← (← field "success".toList v) |> asNat }

/-- How many mutants have a verdict, going by the entries. -/
def OutcomesSay.countOf (s : OutcomesSay) (v : SummaryOutcome) : Nat :=
  (s.outcomes.filter fun o => o.mutant.isSome && o.summary = v).length

/-- What an entry should say about a mutant. -/
def entryOf (m : Mutant) (diff : Option Text) : MutantJson where
  package := m.sourceFile.package.name
  file := toSlashPath m.sourceFile.path
  function := m.function
  span := m.span
  replacement := m.replacement
  genre := m.genre
  diff := diff

/-- The mutant of a scenario. -/
def mutantOf : Scenario → Option Mutant
  | .baseline => none
  | .mutant m => some m

/-- What the entry at an index should say about an outcome. -/
structure SaysOf (w : JsonWorld) (index : Nat) (o : ScenarioOutcome) (e : OutcomeSays) : Prop where
  mutant : e.mutant = (mutantOf o.scenario).map (entryOf · none)
  summary : o.summary = some e.summary
  logPath : e.logPath = w.logPath index
  diffPath : e.diffPath = w.diffPath index
  phases : e.phases.map (fun p => (p.phase, p.status, p.argv)) = o.phaseResults.map fun p => (p.phase, p.status, p.argv)
  seconds : e.phases.map (·.seconds) = o.phaseResults.map fun p => w.seconds p.duration

end CM.Spec
