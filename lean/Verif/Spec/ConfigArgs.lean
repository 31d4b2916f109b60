import Verif.Spec.ConfigFile
import Verif.Model.Pipeline
/-! Which option of the command line goes with which key of the configuration file. -/
namespace CM.Spec
open CM

/-- The keys with the options that stand for them: `--cargo-arg`, what follows `--`, `--build-timeout-multiplier`, `--cap-lints`,
`--copy-vcs`, `--error`, `--file`, `--re`, `--exclude`, `--exclude-re`, `--minimum-test-timeout`, `--output`, `--profile`,
`--skip-calls`, `--skip-calls-defaults`, `--test-package`, `--test-tool`, `--test-workspace`, `--timeout-multiplier`; and the value
that some arguments give. -/
def optionKeys : List (String × (Args → Option Setting)) :=
  [ ("additional_cargo_args", fun a => some (.texts a.cargoArg)),
    ("additional_cargo_test_args", fun a => some (.texts a.cargoTestArgs)),
    ("build_timeout_multiplier", fun a => a.buildTimeoutMultiplier.map .number),
    ("cap_lints", fun a => a.capLints.map .flag),
    ("copy_vcs", fun a => a.copyVcs.map .flag),
    ("error_values", fun a => some (.texts a.error)),
    ("examine_globs", fun a => some (.texts a.file)),
    ("examine_re", fun a => some (.texts a.examineRe)),
    ("exclude_globs", fun a => some (.texts a.exclude)),
    ("exclude_re", fun a => some (.texts a.excludeRe)),
    ("minimum_test_timeout", fun a => a.minimumTestTimeout.map .number),
    ("output", fun a => a.output.map .text),
    ("profile", fun a => a.profile.map .text),
    ("skip_calls", fun a => some (.texts a.skipCalls)),
    ("skip_calls_defaults", fun a => a.skipCallsDefaults.map .flag),
    ("test_package", fun a => some (.texts a.testPackage)),
    ("test_tool", fun a => a.testTool.map .tool),
    ("test_workspace", fun a => a.testWorkspace.map .flag),
    ("timeout_multiplier", fun a => a.timeoutMultiplier.map .number) ]

/-- An option that is not given. -/
def NotGiven (s : Option Setting) : Prop := s = none ∨ s = some (.texts [])

/-- The arguments give what the file with these entries sets, each value by the option for its key, and no more. -/
structure Gives (number : Text → Option Rat) (entries : List (Text × Toml)) (a : Args) : Prop where
  given : ∀ k ∈ configKeys, ∀ v, (k.name.toList, v) ∈ entries → ∀ opt, (k.name, opt) ∈ optionKeys →
    ∃ s, Writes number k.form v s ∧ opt a = some s
  missing : ∀ k ∈ configKeys, (∀ v, (k.name.toList, v) ∉ entries) → ∀ opt, (k.name, opt) ∈ optionKeys → NotGiven (opt a)

/-- The options for which there is no key are the same. -/
def SameOtherwise (a b : Args) : Prop :=
  a.baseline = b.baseline ∧ a.check = b.check ∧ a.gitignore = b.gitignore ∧ a.inPlace = b.inPlace ∧ a.jobs = b.jobs ∧
  a.noShuffle = b.noShuffle ∧ a.timeout = b.timeout ∧ a.buildTimeout = b.buildTimeout ∧ a.features = b.features

/-- No name has a comma in it, as a name of a package or a function has not: an option can give several names, with commas
between them. -/
def NoCommas (entries : List (Text × Toml)) : Prop :=
  ∀ key ∈ ["skip_calls", "test_package"], ∀ names : List Text, (key.toList, Toml.array (names.map .str)) ∈ entries →
    ∀ n ∈ names, ',' ∉ n

end CM.Spec
