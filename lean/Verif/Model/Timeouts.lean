import Verif.Model.Options
/-! Time limits: `src/timeouts.rs`. Times are exact rational numbers of seconds; the rounding of `f64`
is not modelled. -/
namespace CM

/-- `src/timeouts.rs:15-18` `Timeouts`. -/
structure Timeouts where
  build : Option Rat
  test : Option Rat
deriving DecidableEq, Repr

/-- `Duration::as_secs_f64` of a duration in nanoseconds. -/
def secsOf (nanos : Nat) : Rat := (nanos : Rat) / 1000000000

/-- `std::cmp::max`. -/
def ratMax (a b : Rat) : Rat := if a ≤ b then b else a

/-- `src/timeouts.rs:54-79` `test_timeout`; `none` is the panic of `from_secs_f64` for a negative
product. -/
def testTimeout (baseline : Option Rat) (o : Options) : Option Rat :=
  match o.testTimeout with
  | some explicit => some explicit
  | none =>
    match baseline with
    | some d =>
      (durationOfSecs ((d * o.testTimeoutMultiplier.getD 5).ceil : Int)).map
        (ratMax o.minimumTestTimeout)
    | none => if o.checkOnly then some 0 else some 300

/-- `src/timeouts.rs:81-100` `build_timeout`; the outer `none` is the panic. -/
def buildTimeout (baseline : Option Rat) (o : Options) : Option (Option Rat) :=
  match o.buildTimeout with
  | some t => some (some t)
  | none =>
    match baseline with
    | some d =>
      match o.buildTimeoutMultiplier with
      | some m => (durationOfSecs (d * m)).map some
      | none => some none
    | none => some none

/-- `src/timeouts.rs:21-26` `for_baseline`. -/
def Timeouts.forBaseline (o : Options) : Timeouts := { test := o.testTimeout, build := none }

/-- `src/timeouts.rs:28-39` `from_baseline`. -/
def Timeouts.fromBaseline (b : ScenarioOutcome) (o : Options) : Option Timeouts := do
  let build ← buildTimeout ((b.phaseResult .build).map fun r => secsOf r.duration) o
  let test ← testTimeout ((b.phaseResult .test).map fun r => secsOf r.duration) o
  pure { build := build, test := some test }

/-- `src/timeouts.rs:41-46` `without_baseline`. -/
def Timeouts.withoutBaseline (o : Options) : Option Timeouts := do
  let build ← buildTimeout none o
  let test ← testTimeout none o
  pure { build := build, test := some test }

/-- `src/lab.rs:279-282`. -/
def Timeouts.forPhase (t : Timeouts) : Phase → Option Rat
  | .test => t.test
  | .build | .check => t.build

end CM
