import Verif.Model.View
import Verif.Model.Progress
import Verif.Model.Pipeline
/-! Colours: `Colors` in `src/options.rs`, the styled parts of names in `src/mutant.rs`, and the styled texts of
`src/console.rs` and `src/list.rs`, with what crate `console` (0.15) writes for them.

The other files model the same texts without colours. Here `on` is the setting of the crate for standard output, which is also
used for the progress display. -/
namespace CM.Color
open CM

/-- `src/options.rs:192-201` `Colors`. -/
inductive Colors | auto | always | never
deriving DecidableEq, Repr

/-- `src/options.rs:209-222` `forced_value`; the environment variables `NO_COLOR` and `CLICOLOR_FORCE`, if they are set and
text, are given. -/
def Colors.forcedValue (noColor clicolorForce : Option Text) (c : Colors) : Option Bool :=
  if noColor.any (· != "0".toList) then some false
  else if clicolorForce.any (· != "0".toList) then some true
  else match c with
    | .always => some true
    | .never => some false
    | .auto => none

/-- `src/console.rs:287-293` `enable_console_colors`: the setting of the crate afterwards, from its own choice before. -/
def enableConsoleColors (forced : Option Bool) (detected : Bool) : Bool :=
  match forced with
  | some b => b
  | none => detected

/-- `src/options.rs:225-228` `active_stdout`; `on` is the setting of the crate. -/
def activeStdout (forced : Option Bool) (on : Bool) : Bool := forced.getD on

/-- `console::Color`, those used. -/
inductive Hue | red | green | yellow | blue | magenta | cyan
deriving DecidableEq, Repr

/-- `Color::ansi_num`. -/
def Hue.num : Hue → Nat
  | .red => 1 | .green => 2 | .yellow => 3 | .blue => 4 | .magenta => 5 | .cyan => 6

/-- `console::Style`, the parts used; `force` is set by `force_styling`. -/
structure Style where
  hue : Option Hue := none
  bright : Bool := false
  bold : Bool := false
  dim : Bool := false
  force : Option Bool := none
deriving DecidableEq, Repr

/-- An escape sequence. -/
def escape (code : Text) : Text := '\x1b' :: '[' :: (code ++ ['m'])

/-- The codes of a style. -/
def Style.codes (s : Style) : List Text :=
  (match s.hue with
   | some h => [if s.bright then "38;5;".toList ++ decimal (h.num + 8) else decimal (h.num + 30)]
   | none => []) ++
  (if s.bold then ["1".toList] else []) ++ (if s.dim then ["2".toList] else [])

/-- `Display` for `StyledObject`; the text is already padded. -/
def paint (on : Bool) (s : Style) (t : Text) : Text :=
  if s.force.getD on then
    (s.codes.flatMap escape) ++ t ++ (if s.codes.isEmpty then [] else escape "0".toList)
  else t

/-- Parts, one after the other. -/
def paintAll (on : Bool) (parts : List (Style × Text)) : Text := parts.flatMap fun p => paint on p.1 p.2

/-- `src/mutant.rs:130-179` `styled_parts`; `none` is the `expect` at line 144. -/
def styledParts (m : Mutant) : Option (List (Style × Text)) :=
  match m.genre with
  | .fnValue =>
    m.function.map fun f =>
      [({}, "replace ".toList), ({ bright := true, hue := some .magenta }, f.functionName)] ++
      (if f.returnType = [] then [] else [({}, " ".toList), ({ hue := some .magenta }, f.returnType)]) ++
      [({}, " with ".toList), ({ hue := some .yellow }, m.replacement)]
  | .matchArmGuard => some [({}, "replace match guard with ".toList), ({ hue := some .yellow }, m.replacement)]
  | .matchArm => some [({}, "delete match arm".toList)]
  | .binaryOperator | .unaryOperator =>
    some ([({}, if m.replacement = [] then "delete ".toList else "replace ".toList),
      ({ hue := some .yellow }, originalText m.sourceFile.code m.span)] ++
      (if m.replacement = [] then []
       else [({}, " with ".toList), ({ bright := true, hue := some .yellow }, m.replacement)]) ++
      (match m.function with
       | some f => [({}, " in ".toList), ({ bright := true, hue := some .magenta }, f.functionName)]
       | none => []))

/-- `force_styling(false)`. -/
def unstyled (parts : List (Style × Text)) : List (Style × Text) := parts.map fun p => ({ p.1 with force := some false }, p.2)

/-- `src/mutant.rs:88-93` `describe_change`. -/
def describeChange (on : Bool) (m : Mutant) : Option Text := (styledParts m).map fun ps => paintAll on (unstyled ps)

/-- `src/mutant.rs:95-112` `name`. -/
def name (on : Bool) (m : Mutant) (showLineCol : Bool) : Option Text :=
  (styledParts m).map fun ps =>
    toSlashPath m.sourceFile.path ++
    (if showLineCol then ":".toList ++ decimal m.span.start.line ++ ":".toList ++ decimal m.span.start.column ++ ": ".toList
     else ": ".toList) ++ paintAll on (unstyled ps)

/-- `src/mutant.rs:114-128` `to_styled_string`. -/
def toStyledString (on : Bool) (m : Mutant) (showLineCol : Bool) : Option Text :=
  (styledParts m).map fun ps =>
    toSlashPath m.sourceFile.path ++
    (if showLineCol then ":".toList ++ decimal m.span.start.line ++ ":".toList ++ decimal m.span.start.column else []) ++
    ": ".toList ++ paintAll on ps

/-- `src/list.rs:35-52`; `on` is the setting of the crate and `forced` the one of the user. -/
def listMutants (w : World) (on : Bool) (forced : Option Bool) (lineCol diff : Bool) : List Mutant → Option Text
  | [] => some []
  | m :: ms => do
    let name ← if activeStdout forced on then toStyledString on m lineCol else name on m lineCol
    let rest ← listMutants w on forced lineCol diff ms
    pure (name ++ "\n".toList ++ (if diff then w.unifiedDiff m ++ "\n".toList else []) ++ rest)

/-- `src/console.rs:609-618` `style_outcome`. -/
def styleOutcome : SummaryOutcome → Style × Text
  | .caughtMutant => ({ hue := some .green }, "caught".toList)
  | .missedMutant => ({ hue := some .red, bold := true }, "MISSED".toList)
  | .failure => ({ hue := some .red, bold := true }, "FAILED".toList)
  | .success => ({ hue := some .green }, "ok".toList)
  | .unviable => ({ hue := some .blue }, "unviable".toList)
  | .timeout => ({ hue := some .red, bold := true }, "TIMEOUT".toList)

/-- `src/console.rs:642-647` `style_scenario`, with the line and column. -/
def styleScenario (on : Bool) : Scenario → Option Text
  | .baseline => some "Unmutated baseline".toList
  | .mutant m => toStyledString on m true

def cyan : Style := { hue := some .cyan }
def dim : Style := { dim := true }

/-- `src/console.rs:95-108`: the times, with `src/console.rs:620-624` `style_secs`. -/
def times (on : Bool) (opts : PrintOptions) (o : ScenarioOutcome) : Text :=
  if opts.showTimes then
    " in ".toList ++ joinWith " + ".toList (o.phaseResults.map fun r =>
      paint on cyan (opts.secs r.duration) ++ " ".toList ++ paint on dim r.phase.name)
  else []

/-- `src/console.rs:82-119`: what is printed when a scenario has finished, as `ScenarioOutcome.message`. -/
def message (on : Bool) (opts : PrintOptions) (o : ScenarioOutcome) : Option (Option Text) := do
  let summary ← o.summary
  let hidden ← o.hidden opts
  if hidden then pure none
  else
    let name ← styleScenario on o.scenario
    pure (some (paint on (styleOutcome summary).1 (padTo 8 (styleOutcome summary).2) ++ " ".toList ++ name ++ times on opts o ++
      (if o.showsLog opts then "\n".toList ++ opts.log o else []) ++ "\n".toList))

/-- `src/console.rs:401-461`: the last line of the display, as `View.bar`; `time` with `src/console.rs:626-632` `style_duration`. -/
def bar (on : Bool) (time : Int → Text) (elapsed : Int) (testing : Rat) (c : Lab.Console) (n : View.Counts) : Text :=
  let red : Style := { hue := some .red }
  if c.labStarted then
    paint on cyan (decimal c.done) ++ "/".toList ++ paint on cyan (decimal c.nMutants) ++ " mutants tested".toList ++
      (if n.missed > 0 then ", ".toList ++ paint on cyan (decimal n.missed) ++ " ".toList ++ paint on red "MISSED".toList else []) ++
      (if n.timeouts > 0 then ", ".toList ++ paint on cyan (decimal n.timeouts) ++ " ".toList ++ paint on red "timeout".toList else []) ++
      (if n.caught > 0 then ", ".toList ++ paint on cyan (decimal n.caught) ++ " caught".toList else []) ++
      (if n.unviable > 0 then ", ".toList ++ paint on cyan (decimal n.unviable) ++ " unviable".toList else []) ++
      ", ".toList ++ paint on cyan (time elapsed) ++ " elapsed".toList ++
      (if c.done > 2 then ", about ".toList ++ paint on cyan (time (View.remainingSeconds testing c.done c.nMutants)) ++
        " remaining".toList else [])
  else []

/-- `src/console.rs:539-564`: what is shown for a scenario, as `View.row`. -/
def row (on : Bool) (secs : Text) (tail : Option Text) (sc : Scenario) (p : Option Phase) : Option Text :=
  (styleScenario on sc).map fun name =>
    joinWith " ".toList ((p.toList.map fun p => paint on { hue := some .cyan, bold := true } (padTo 8 p.name)) ++
      [name, "...".toList, paint on cyan secs]) ++
      (match tail with
        | some l => "\n".toList ++ paint on cyan "└       ".toList ++ " ".toList ++ paint on dim l
        | none => [])

/-- `src/console.rs:591-600` `render`, as `Progress.Line.render`, with `src/console.rs:634-640` `style_mb`. -/
def copyLine (on : Bool) (secs : Text) (l : Progress.Line) : Text :=
  paint on cyan (padTo 8 "copy".toList) ++ " ".toList ++ paint on cyan (decimal (l.bytes / 1000000) ++ " MB".toList) ++
    " in ".toList ++ paint on cyan secs

end CM.Color
