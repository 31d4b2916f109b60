import Verif.Model.Workspace
/-! Cargo commands: `src/cargo.rs`, and the quoting in `src/process.rs`. -/
namespace CM

/-- `src/cargo.rs:97-126`: the subcommand. -/
def subcommand (phase : Phase) (tool : TestTool) : List Text :=
  match phase with
  | .test =>
    match tool with
    | .cargo => ["test".toList]
    | .nextest => ["nextest".toList, "run".toList]
  | .build =>
    match tool with
    | .cargo => ["test".toList, "--no-run".toList]
    | .nextest => ["nextest".toList, "run".toList, "--no-run".toList]
  | .check => ["check".toList, "--tests".toList]

/-- `src/cargo.rs:127-136`: the profile. -/
def profileArgs (o : Options) : List Text :=
  match o.profile with
  | some profile =>
    match o.testTool with
    | .cargo => ["--profile=".toList ++ profile]
    | .nextest => ["--cargo-profile=".toList ++ profile]
  | none => []

/-- `src/cargo.rs:138-149`: the packages. -/
def packageArgs (packages : PackageSelection) : List Text :=
  match packages with
  | .all => ["--workspace".toList]
  | .explicit ps => ps.map fun p => "--package=".toList ++ p.versionQualifiedName

/-- `src/cargo.rs:150-158`: the features. -/
def featureArgs (f : Features) : List Text :=
  (if f.noDefaultFeatures then ["--no-default-features".toList] else []) ++
  (if f.allFeatures then ["--all-features".toList] else []) ++
  (f.features.map fun f => "--features=".toList ++ f)

/-- `src/cargo.rs:95-164` `cargo_argv`; `bin` is the result of `cargo_bin` (`src/cargo.rs:85-90`). -/
def cargoArgv (bin : Text) (packages : PackageSelection) (phase : Phase) (o : Options) : List Text :=
  [bin] ++ subcommand phase o.testTool ++ profileArgs o ++ ["--verbose".toList] ++ packageArgs packages ++
  featureArgs o.features ++ o.additionalCargoArgs ++
  (if phase = .test then o.additionalCargoTestArgs else [])

/-- `\x1f`. -/
def unitSep : Char := Char.ofNat 31

/-- `--cap-lints=warn` -/
def capLintsArg : Text := "--cap-lints=warn".toList

/-- `src/cargo.rs:175-202` `encoded_rustflags`; `encoded` and `rustflags` are the environment variables
`CARGO_ENCODED_RUSTFLAGS` and `RUSTFLAGS`. -/
def encodedRustflags (capLints : Bool) (encoded rustflags : Option Text) : Option Text :=
  if !capLints then none
  else
    match encoded with
    | some e => if e.isEmpty then some capLintsArg else some (e ++ [unitSep] ++ capLintsArg)
    | none =>
      match rustflags with
      | some r =>
        if r.isEmpty then some capLintsArg
        else some (joinWith [unitSep] ((splitOn ' ' r).filter (fun s => !s.isEmpty) ++ [capLintsArg]))
      | none => some capLintsArg

/-- An environment: the value of each variable. -/
abbrev Env := Text → Option Text

/-- `Command::envs` for one variable. -/
def Env.set (env : Env) (k v : Text) : Env := fun x => if x = k then some v else env x

/-- `src/cargo.rs:47-57`: the environment of the cargo command, given our own. -/
def cargoEnv (capLints : Bool) (env : Env) : Env :=
  let env' := (env.set "INSTA_UPDATE".toList "no".toList).set "INSTA_FORCE_PASS".toList "0".toList
  match encodedRustflags capLints (env "CARGO_ENCODED_RUSTFLAGS".toList) (env "RUSTFLAGS".toList) with
  | some e => env'.set "CARGO_ENCODED_RUSTFLAGS".toList e
  | none => env'

/-- One character in `src/process.rs:183-192`. -/
def quoteChar (c : Char) : Text :=
  if c = '\t' then ['\\', 't']
  else if c = '\n' then ['\\', 'n']
  else if c = '\r' then ['\\', 'r']
  else if c = ' ' ∨ c = '\\' ∨ c = '\'' ∨ c = '"' then ['\\', c]
  else [c]

/-- The loop of `src/process.rs:176-196` `quote_argv`, with the text so far. -/
def quoteFrom (r : Text) : List Text → Text
  | [] => r
  | s :: rest => quoteFrom ((if r.isEmpty then r else r ++ [' ']) ++ s.flatMap quoteChar) rest

/-- `src/process.rs:176-196` `quote_argv`. -/
def quoteArgv (argv : List Text) : Text := quoteFrom [] argv

end CM
