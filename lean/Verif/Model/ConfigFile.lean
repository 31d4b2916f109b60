import Verif.Model.Options
import Verif.Model.Manifest
/-! The configuration file: `src/config.rs`.

The parser of the `toml` library is a parameter, and so is `number`, which gives the value of the text of an integer
or a float. Infinite numbers and `nan` are not modelled. The library also reads a choice written as a table, such as
`test_tool = { cargo = {} }`; in the model that is an error. -/
namespace CM

/-- Reading a `bool`. -/
def Toml.bool? : Toml → Option Bool
  | .scalar t => if t = "true".toList then some true else if t = "false".toList then some false else none
  | _ => none

/-- Reading a `String`. -/
def Toml.text? : Toml → Option Text
  | .str s => some s
  | _ => none

/-- Reading the elements of a `Vec<String>`. -/
def Toml.textList? : List Toml → Option (List Text)
  | [] => some []
  | t :: ts => t.text?.bind fun s => (Toml.textList? ts).map fun ss => s :: ss

/-- Reading a `Vec<String>`. -/
def Toml.texts? : Toml → Option (List Text)
  | .array items => Toml.textList? items
  | _ => none

/-- Reading an `f64`. -/
def Toml.number? (number : Text → Option Rat) : Toml → Option Rat
  | .scalar t => number t
  | _ => none

/-- Reading a `TestTool` (`src/options.rs:174-185`). -/
def Toml.tool? : Toml → Option TestTool
  | .str s => if s = "cargo".toList then some .cargo else if s = "nextest".toList then some .nextest else none
  | _ => none

/-- `src/config.rs:26-72`: the fields by name, with what the derived `Deserialize` does for each. -/
def configFields (number : Text → Option Rat) : List (Text × (Toml → Config → Option Config)) :=
  [ ("cap_lints".toList, fun v c => v.bool?.map fun x => { c with capLints := x }),
    ("copy_vcs".toList, fun v c => v.bool?.map fun x => { c with copyVcs := some x }),
    ("error_values".toList, fun v c => v.texts?.map fun x => { c with errorValues := x }),
    ("examine_globs".toList, fun v c => v.texts?.map fun x => { c with examineGlobs := x }),
    ("exclude_globs".toList, fun v c => v.texts?.map fun x => { c with excludeGlobs := x }),
    ("exclude_re".toList, fun v c => v.texts?.map fun x => { c with excludeRe := x }),
    ("examine_re".toList, fun v c => v.texts?.map fun x => { c with examineRe := x }),
    ("additional_cargo_args".toList, fun v c => v.texts?.map fun x => { c with additionalCargoArgs := x }),
    ("additional_cargo_test_args".toList, fun v c => v.texts?.map fun x => { c with additionalCargoTestArgs := x }),
    ("minimum_test_timeout".toList, fun v c => (v.number? number).map fun x => { c with minimumTestTimeout := some x }),
    ("output".toList, fun v c => v.text?.map fun x => { c with output := some x }),
    ("profile".toList, fun v c => v.text?.map fun x => { c with profile := some x }),
    ("skip_calls".toList, fun v c => v.texts?.map fun x => { c with skipCalls := x }),
    ("skip_calls_defaults".toList, fun v c => v.bool?.map fun x => { c with skipCallsDefaults := some x }),
    ("test_package".toList, fun v c => v.texts?.map fun x => { c with testPackage := x }),
    ("test_tool".toList, fun v c => v.tool?.map fun x => { c with testTool := some x }),
    ("timeout_multiplier".toList, fun v c => (v.number? number).map fun x => { c with timeoutMultiplier := some x }),
    ("build_timeout_multiplier".toList, fun v c => (v.number? number).map fun x => { c with buildTimeoutMultiplier := some x }),
    ("test_workspace".toList, fun v c => v.bool?.map fun x => { c with testWorkspace := some x }) ]

/-- The loop of the derived `Deserialize`: a name that has been seen is an error, and because of `deny_unknown_fields` one that
is no field. Fields that are not seen keep the value in `c`. -/
def readFields (number : Text → Option Rat) (seen : List Text) (c : Config) : List (Text × Toml) → Option Config
  | [] => some c
  | (k, v) :: rest =>
    if k ∈ seen then none
    else match (configFields number).lookup k with
      | none => none
      | some set => (set v c).bind fun c => readFields number (k :: seen) c rest

/-- `src/config.rs:92-98` `from_str`, after parsing: `#[serde(default)]` starts with `Config::default()`. -/
def Config.ofToml (number : Text → Option Rat) : Toml → Option Config
  | .table entries => readFields number [] {} entries
  | _ => none

/-- `src/config.rs:75-89` `read_file`, `read_tree_config`, and `src/main.rs:462-466`: the configuration of a run, where `file`
is the text of `.cargo/mutants.toml` in the root of the workspace, if there is such a file. -/
def Config.forRun (parse : Text → Option Toml) (number : Text → Option Rat) (noConfig : Bool) (file : Option Text) : Option Config :=
  if noConfig then some {}
  else match file with
    | none => some {}
    | some text => (parse text).bind (Config.ofToml number)

end CM
