import Verif.Model.Glob
import Verif.Model.Outcome
import Verif.Model.InDiff
/-! Options: `src/options.rs`, with `Args` of `src/main.rs` and `Config` of `src/config.rs`.

Floating point seconds and factors are modelled as exact rational numbers. Regular expressions are a
parameter: `regex` compiles a text to a predicate or fails. Parsing of the command line is
not modelled. -/
namespace CM

/-- `src/main.rs:96-104` `BaselineStrategy`. -/
inductive BaselineStrategy | run | skip
deriving DecidableEq, Repr

/-- `src/options.rs:160-172` `TestPackages`. -/
inductive TestPackages
  | mutated
  | workspace
  | named (names : List Text)
deriving DecidableEq, Repr

/-- `src/options.rs:174-185` `TestTool`. -/
inductive TestTool | cargo | nextest
deriving DecidableEq, Repr

/-- `src/main.rs:404-421` `Features`. -/
structure Features where
  features : List Text := []
  noDefaultFeatures : Bool := false
  allFeatures : Bool := false
deriving DecidableEq, Repr

/-- `src/main.rs:116-402` `Args`: the arguments that `Options::new` uses and that have an effect
modelled here, with their defaults. -/
structure Args where
  baseline : BaselineStrategy := .run
  capLints : Option Bool := none
  check : Bool := false
  copyVcs : Option Bool := none
  error : List Text := []
  examineRe : List Text := []
  exclude : List Text := []
  excludeRe : List Text := []
  file : List Text := []
  gitignore : Bool := true
  inPlace : Bool := false
  jobs : Option Nat := none
  output : Option Text := none
  minimumTestTimeout : Option Rat := none
  noShuffle : Bool := false
  profile : Option Text := none
  skipCalls : List Text := []
  skipCallsDefaults : Option Bool := none
  testPackage : List Text := []
  testTool : Option TestTool := none
  testWorkspace : Option Bool := none
  timeout : Option Rat := none
  timeoutMultiplier : Option Rat := none
  buildTimeout : Option Rat := none
  buildTimeoutMultiplier : Option Rat := none
  cargoArg : List Text := []
  cargoTestArgs : List Text := []
  features : Features := {}

/-- `src/config.rs:29-72` `Config`. -/
structure Config where
  capLints : Bool := false
  copyVcs : Option Bool := none
  errorValues : List Text := []
  examineGlobs : List Text := []
  excludeGlobs : List Text := []
  excludeRe : List Text := []
  examineRe : List Text := []
  additionalCargoArgs : List Text := []
  additionalCargoTestArgs : List Text := []
  minimumTestTimeout : Option Rat := none
  output : Option Text := none
  profile : Option Text := none
  skipCalls : List Text := []
  skipCallsDefaults : Option Bool := none
  testPackage : List Text := []
  testTool : Option TestTool := none
  timeoutMultiplier : Option Rat := none
  buildTimeoutMultiplier : Option Rat := none
  testWorkspace : Option Bool := none

/-- `src/options.rs:35-158` `Options`, without the fields that only change what is printed and the
jobserver. Times are in seconds. -/
structure Options where
  baseline : BaselineStrategy := .run
  capLints : Bool := false
  checkOnly : Bool := false
  copyVcs : Bool := false
  gitignore : Bool := true
  inPlace : Bool := false
  testTimeout : Option Rat := none
  testTimeoutMultiplier : Option Rat := none
  testPackage : TestPackages := .mutated
  buildTimeout : Option Rat := none
  buildTimeoutMultiplier : Option Rat := none
  minimumTestTimeout : Rat := 20
  shuffle : Bool := true
  skipCalls : List Text := []
  profile : Option Text := none
  additionalCargoArgs : List Text := []
  additionalCargoTestArgs : List Text := []
  features : Features := {}
  examineGlobset : Option (List (List Glob.Part)) := none
  excludeGlobset : Option (List (List Glob.Part)) := none
  examineNames : List (Text → Bool) := []
  excludeNames : List (Text → Bool) := []
  outputInDir : Option Text := none
  jobs : Option Nat := none
  errorValues : List Text := []
  testTool : TestTool := .cargo

/-- `Duration::from_secs_f64`, which panics (`none`) for negative numbers. Rounding to nanoseconds and
overflow are not modelled. -/
def durationOfSecs (r : Rat) : Option Rat := if r < 0 then none else some r

/-- `Option::map` with a function that can panic. -/
def mapPanic {α β} (f : α → Option β) : Option α → Option (Option β)
  | none => some none
  | some a => (f a).map some

/-- `src/options.rs:188-190` `join_slices`. -/
def joinSlices (a b : List Text) : List Text := a ++ b

/-- `src/options.rs:402-408` `or_slices`. -/
def orSlices (a b : List Text) : List Text := if a.isEmpty then b else a

/-- `RegexSet::new`: all must compile. -/
def compileAll (regex : Text → Option (Text → Bool)) : List Text → Option (List (Text → Bool))
  | [] => some []
  | r :: rs => do
    let p ← regex r
    let ps ← compileAll regex rs
    pure (p :: ps)

/-- `src/options.rs:245-261`. -/
def chooseTestPackage (args : Args) (config : Config) : TestPackages :=
  if args.testWorkspace = some true then .workspace
  else if !args.testPackage.isEmpty then .named (args.testPackage.flatMap (splitOn ','))
  else if args.testWorkspace.isNone && config.testWorkspace == some true then .workspace
  else if !config.testPackage.isEmpty then .named config.testPackage
  else .mutated

/-- `src/options.rs:263-276`. -/
def chooseSkipCalls (args : Args) (config : Config) : List Text :=
  (args.skipCalls.flatMap (splitOn ',') ++ config.skipCalls) ++
    (if (args.skipCallsDefaults.or config.skipCallsDefaults).getD true then ["with_capacity".toList] else [])

/-- `src/options.rs:233-338` `Options::new`; `none` is an error or panic. -/
def Options.new (regex : Text → Option (Text → Bool)) (args : Args) (config : Config) : Option Options := do
  let minimumTestTimeout ← durationOfSecs ((args.minimumTestTimeout.or config.minimumTestTimeout).getD 20)
  let buildTimeout ← mapPanic durationOfSecs args.buildTimeout
  let examineNames ← compileAll regex (orSlices args.examineRe config.examineRe)
  let excludeNames ← compileAll regex (orSlices args.excludeRe config.excludeRe)
  let examineGlobset ← Glob.buildGlobSet (orSlices args.file config.examineGlobs)
  let excludeGlobset ← Glob.buildGlobSet (orSlices args.exclude config.excludeGlobs)
  let testTimeout ← mapPanic durationOfSecs args.timeout
  pure
    { additionalCargoArgs := joinSlices args.cargoArg config.additionalCargoArgs,
      additionalCargoTestArgs := joinSlices args.cargoTestArgs config.additionalCargoTestArgs,
      baseline := args.baseline,
      buildTimeout := buildTimeout,
      buildTimeoutMultiplier := args.buildTimeoutMultiplier.or config.buildTimeoutMultiplier,
      capLints := args.capLints.getD config.capLints,
      checkOnly := args.check,
      copyVcs := (args.copyVcs.or config.copyVcs).getD false,
      errorValues := joinSlices args.error config.errorValues,
      examineNames := examineNames,
      excludeNames := excludeNames,
      examineGlobset := examineGlobset,
      excludeGlobset := excludeGlobset,
      features := args.features,
      gitignore := args.gitignore,
      inPlace := args.inPlace,
      jobs := args.jobs,
      minimumTestTimeout := minimumTestTimeout,
      outputInDir := args.output.or config.output,
      profile := args.profile.or config.profile,
      shuffle := !args.noShuffle,
      skipCalls := chooseSkipCalls args config,
      testPackage := chooseTestPackage args config,
      testTimeout := testTimeout,
      testTimeoutMultiplier := args.timeoutMultiplier.or config.timeoutMultiplier,
      testTool := (args.testTool.or config.testTool).getD .cargo }

/-- `src/options.rs:382-391` `allows_source_file_path`; a path is matched by its text, with `/`
between the components (`Utf8Path::as_str`). -/
def Options.allowsSourceFilePath (o : Options) (path : Path) : Bool :=
  (match o.examineGlobset with
   | none => true
   | some g => Glob.setMatches g (joinWith "/".toList path)) &&
  !(match o.excludeGlobset with
    | none => false
    | some g => Glob.setMatches g (joinWith "/".toList path))

/-- `src/options.rs:394-398` `allows_mutant`; `none` is the panic in making the name. -/
def Options.allowsMutant (o : Options) (m : Mutant) : Option Bool :=
  (m.name true).map fun name =>
    (o.examineNames.isEmpty || o.examineNames.any (· name)) &&
    (o.excludeNames.isEmpty || !o.excludeNames.any (· name))

end CM
