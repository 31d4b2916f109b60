import Verif.Model.ConfigFile
/-! What may be in the configuration file, and what it means. -/
namespace CM.Spec
open CM

/-- A value, as it is meant. -/
inductive Setting
  | flag (b : Bool)
  | text (t : Text)
  | texts (ts : List Text)
  | number (q : Rat)
  | tool (t : TestTool)
deriving DecidableEq

/-- How the values of a key are written. -/
inductive Form | flag | text | texts | number | tool
deriving DecidableEq

/-- The value that is written. -/
inductive Writes (number : Text → Option Rat) : Form → Toml → Setting → Prop
  | true : Writes number .flag (.scalar "true".toList) (.flag true)
  | false : Writes number .flag (.scalar "false".toList) (.flag false)
  | text (s) : Writes number .text (.str s) (.text s)
  | texts (ss : List Text) : Writes number .texts (.array (ss.map .str)) (.texts ss)
  | number {t q} : number t = some q → Writes number .number (.scalar t) (.number q)
  | cargo : Writes number .tool (.str "cargo".toList) (.tool .cargo)
  | nextest : Writes number .tool (.str "nextest".toList) (.tool .nextest)

/-- A key of the file: how its values are written, and where the value is found in the configuration. -/
structure ConfigKey where
  name : String
  form : Form
  value : Config → Option Setting

/-- All keys. A list that is not given is the empty list, and `cap_lints` that is not given is `false`; the others then have
no value. -/
def configKeys : List ConfigKey :=
  [ ⟨"additional_cargo_args", .texts, fun c => some (.texts c.additionalCargoArgs)⟩,
    ⟨"additional_cargo_test_args", .texts, fun c => some (.texts c.additionalCargoTestArgs)⟩,
    ⟨"build_timeout_multiplier", .number, fun c => c.buildTimeoutMultiplier.map .number⟩,
    ⟨"cap_lints", .flag, fun c => some (.flag c.capLints)⟩,
    ⟨"copy_vcs", .flag, fun c => c.copyVcs.map .flag⟩,
    ⟨"error_values", .texts, fun c => some (.texts c.errorValues)⟩,
    ⟨"examine_globs", .texts, fun c => some (.texts c.examineGlobs)⟩,
    ⟨"examine_re", .texts, fun c => some (.texts c.examineRe)⟩,
    ⟨"exclude_globs", .texts, fun c => some (.texts c.excludeGlobs)⟩,
    ⟨"exclude_re", .texts, fun c => some (.texts c.excludeRe)⟩,
    ⟨"minimum_test_timeout", .number, fun c => c.minimumTestTimeout.map .number⟩,
    ⟨"output", .text, fun c => c.output.map .text⟩,
    ⟨"profile", .text, fun c => c.profile.map .text⟩,
    ⟨"skip_calls", .texts, fun c => some (.texts c.skipCalls)⟩,
    ⟨"skip_calls_defaults", .flag, fun c => c.skipCallsDefaults.map .flag⟩,
    ⟨"test_package", .texts, fun c => some (.texts c.testPackage)⟩,
    ⟨"test_tool", .tool, fun c => c.testTool.map .tool⟩,
    ⟨"test_workspace", .flag, fun c => c.testWorkspace.map .flag⟩,
    ⟨"timeout_multiplier", .number, fun c => c.timeoutMultiplier.map .number⟩ ]

/-- A key that is not given. -/
def unset (k : ConfigKey) : Option Setting :=
  match k.form with
  | .texts => some (.texts [])
  | .flag => if k.name = "cap_lints" then some (.flag false) else none
  | _ => none

/-- The configuration that the entries of a file mean: there are no other keys, none twice, and each has a value of its form. -/
structure Means (number : Text → Option Rat) (entries : List (Text × Toml)) (c : Config) : Prop where
  once : (entries.map Prod.fst).Nodup
  known : ∀ e ∈ entries, ∃ k ∈ configKeys, k.name.toList = e.1
  given : ∀ k ∈ configKeys, ∀ v, (k.name.toList, v) ∈ entries → ∃ s, Writes number k.form v s ∧ k.value c = some s
  missing : ∀ k ∈ configKeys, (∀ v, (k.name.toList, v) ∉ entries) → k.value c = unset k

end CM.Spec
