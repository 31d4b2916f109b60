import Verif.Model.Cargo
import Verif.Model.ConfigFile
import Verif.Model.Timeouts
import Verif.Model.Shard
/-! The unit tests of options, time limits and cargo commands, run against the model; see `Small.lean`. What `clap` and `toml` make
of the texts in these tests is written down here, since they are not modelled. -/
namespace CM.Conform
open CM

def noRegex : Text → Option (Text → Bool) := fun _ => none
/-- `Options::new` -/
def opts (a : Args) (c : Config := {}) : Option Options := Options.new noRegex a c
def ts (l : List String) : List Text := l.map String.toList
/-- a number with at most one digit after the point -/
def num (t : Text) : Option Rat := match splitOn '.' t with
  | [a, [d]] => (parseUsize a).bind fun a => (parseUsize [d]).map fun d => (a : Rat) + (d : Rat) / 10
  | _ => none
def conf (entries : List (String × Toml)) : Option Config := Config.ofToml num (.table (entries.map fun e => (e.1.toList, e.2)))

/-! ### `src/options.rs` -/

-- `default_options`
example : (opts {}).map (fun o => (o.checkOnly, o.testTool, o.capLints)) = some (false, .cargo, false) := by decide +kernel
-- `options_from_test_tool_arg`
example : (opts { testTool := some .nextest }).map (·.testTool) = some .nextest := by decide +kernel
-- `options_from_baseline_arg`
example : (opts { baseline := .skip }).map (·.baseline) = some .skip := by decide +kernel
example : (opts { baseline := .run }).map (·.baseline) = some .run ∧ (opts {}).map (·.baseline) = some .run := by decide +kernel
-- `options_from_timeout_args`
example : (opts { timeout := some 2 }).map (·.testTimeout) = some (some 2) := by decide +kernel
example : (opts { timeoutMultiplier := some (5 / 2) }).map (·.testTimeoutMultiplier) = some (some (5 / 2)) := by decide +kernel
example : (opts { minimumTestTimeout := some 60 }).map (·.minimumTestTimeout) = some 60 := by decide +kernel
example : (opts { buildTimeout := some 3 }).map (·.buildTimeout) = some (some 3) := by decide +kernel
example : (opts { buildTimeoutMultiplier := some (7 / 2) }).map (·.buildTimeoutMultiplier) = some (some (7 / 2)) := by decide +kernel
-- `cli_timeout_multiplier_overrides_config`
example : ((conf [("timeout_multiplier", .scalar "1.0".toList), ("build_timeout_multiplier", .scalar "2.0".toList)]).bind fun c =>
    (opts { timeoutMultiplier := some 2, buildTimeoutMultiplier := some 1 } c).map fun o =>
      (o.testTimeoutMultiplier, o.buildTimeoutMultiplier)) = some (some 2, some 1) := by decide +kernel
-- `from_config`
example : ((conf [("test_tool", .str "nextest".toList), ("cap_lints", .scalar "true".toList)]).bind fun c => (opts {} c).map fun o =>
    (o.testTool, o.capLints)) = some (.nextest, true) := by decide +kernel
-- `features_arg`, `no_default_features_arg`, `all_features_arg`
example : (opts { features := { features := ts ["nice,shiny features"] } }).map (·.features) =
    some { features := ts ["nice,shiny features"], noDefaultFeatures := false, allFeatures := false } := by decide +kernel
example : (opts { features := { features := ts ["nice,shiny features"], noDefaultFeatures := true } }).map (·.features) =
    some { features := ts ["nice,shiny features"], noDefaultFeatures := true, allFeatures := false } := by decide +kernel
example : (opts { features := { features := ts ["nice,shiny features"], allFeatures := true } }).map (·.features) =
    some { features := ts ["nice,shiny features"], noDefaultFeatures := false, allFeatures := true } := by decide +kernel
-- `profile_option_from_args`, `profile_from_config`
example : (opts { profile := some "mutants".toList }).map (·.profile) = some (some "mutants".toList) := by decide +kernel
example : ((conf [("profile", .str "mutants".toList), ("timeout_multiplier", .scalar "1.0".toList),
    ("build_timeout_multiplier", .scalar "2.0".toList)]).bind fun c => (opts { jobs := some 3 } c).map (·.profile)) =
    some (some "mutants".toList) := by decide +kernel
-- `test_workspace_arg_true`, `test_workspace_arg_false`
example : (opts { testWorkspace := some true }).map (·.testPackage) = some .workspace := by decide +kernel
example : (opts { testWorkspace := some false }).map (·.testPackage) = some .mutated := by decide +kernel
-- `test_workspace_config_true`, `test_workspace_config_false`
example : ((conf [("test_workspace", .scalar "true".toList)]).bind fun c => (opts {} c).map (·.testPackage)) = some .workspace := by
  decide +kernel
example : ((conf [("test_workspace", .scalar "false".toList)]).bind fun c => (opts {} c).map (·.testPackage)) = some .mutated := by
  decide +kernel
-- `test_workspace_args_override_config_true`, `test_workspace_args_override_config_false`
example : ((conf [("test_workspace", .scalar "false".toList)]).bind fun c => (opts { testWorkspace := some true } c).map (·.testPackage)) =
    some .workspace := by decide +kernel
example : ((conf [("test_workspace", .scalar "true".toList)]).bind fun c => (opts { testWorkspace := some false } c).map (·.testPackage)) =
    some .mutated := by decide +kernel
-- `test_workspace_arg_false_allows_packages_from_config`
example : ((conf [("test_workspace", .scalar "true".toList), ("test_package", .array [.str "foo".toList, .str "bar".toList])]).bind fun c =>
    (opts { testWorkspace := some false } c).map (·.testPackage)) = some (.named (ts ["foo", "bar"])) := by decide +kernel
-- `test_package_arg_with_commas`
example : (opts { testPackage := ts ["foo,bar"] }).map (·.testPackage) = some (.named (ts ["foo", "bar"])) := by decide +kernel
-- `default_skip_calls_includes_with_capacity`
example : (opts {}).map (·.skipCalls) = some (ts ["with_capacity"]) := by decide +kernel
-- `arg_configure_skip_calls_default_off`, `arg_redundantly_configure_skip_calls_default_on`
example : (opts { skipCallsDefaults := some false }).map (·.skipCalls) = some [] := by decide +kernel
example : (opts { skipCallsDefaults := some true }).map (·.skipCalls) = some (ts ["with_capacity"]) := by decide +kernel
-- `skip_calls_from_args`
example : (opts { skipCalls := ts ["a", "b,c"] }).map (·.skipCalls) = some (ts ["a", "b", "c", "with_capacity"]) := by decide +kernel
-- `skip_calls_from_args_and_options`
example : ((conf [("skip_calls", .array [.str "d".toList, .str "e".toList])]).bind fun c =>
    (opts { skipCalls := ts ["a", "b,c"] } c).map (·.skipCalls)) = some (ts ["a", "b", "c", "d", "e", "with_capacity"]) := by decide +kernel
-- `config_skip_calls_default_off`
example : ((conf [("skip_calls_defaults", .scalar "false".toList), ("skip_calls", .array [])]).bind fun c => (opts {} c).map (·.skipCalls)) =
    some [] := by decide +kernel
-- `arg_overrides_config_skip_calls_defaults`
example : ((conf [("skip_calls_defaults", .scalar "false".toList), ("skip_calls", .array [.str "y".toList])]).bind fun c =>
    (opts { skipCallsDefaults := some true, skipCalls := ts ["x"] } c).map (·.skipCalls)) = some (ts ["x", "y", "with_capacity"]) := by
  decide +kernel
-- `copy_vcs`
example : (opts { copyVcs := some true }).map (·.copyVcs) = some true ∧ (opts { copyVcs := some false }).map (·.copyVcs) = some false := by
  decide +kernel
example : ((conf [("copy_vcs", .scalar "true".toList)]).bind fun c => (opts {} c).map (·.copyVcs)) = some true := by decide +kernel
example : ((conf []).bind fun c => (opts {} c).map (·.copyVcs)) = some false := by decide +kernel

/-! ### `src/timeouts.rs` -/

def limits (a : Args) (baseline : Option Rat) (c : Config := {}) : Option (Option Rat × Option (Option Rat)) :=
  (opts a c).map fun o => (testTimeout baseline o, buildTimeout baseline o)

-- `timeout_multiplier_from_option`, `test_timeout_unaffected_by_in_place_build`
example : (limits { timeoutMultiplier := some (3 / 2) } (some 40)).map (·.1) = some (some 60) := by decide +kernel
example : (limits { timeoutMultiplier := some (3 / 2), inPlace := true } (some 40)).map (·.1) = some (some 60) := by decide +kernel
-- `build_timeout_multiplier_from_option`, `build_timeout_is_affected_by_in_place_build`
example : (limits { buildTimeoutMultiplier := some (3 / 2) } (some 40)).map (·.2) = some (some (some 60)) := by decide +kernel
example : (limits { buildTimeoutMultiplier := some 5, inPlace := true } (some 40)).map (·.2) = some (some (some 200)) := by decide +kernel
-- `timeout_multiplier_from_config`, `build_timeout_multiplier_from_config`
example : ((conf [("timeout_multiplier", .scalar "2.0".toList)]).bind fun c => (limits {} (some 42) c).map (·.1)) = some (some 84) := by
  decide +kernel
example : ((conf [("build_timeout_multiplier", .scalar "2.0".toList)]).bind fun c => (limits {} (some 42) c).map (·.2)) =
    some (some (some 84)) := by decide +kernel
-- `timeout_multiplier_default`, `build_timeout_multiplier_default`
example : limits {} (some 42) = some (some 210, some none) := by decide +kernel
-- `timeout_from_option`, `build_timeout_from_option`, `no_default_build_timeout`
example : (opts { timeout := some 8 }).map (·.testTimeout) = some (some 8) ∧ (opts { buildTimeout := some 4 }).map (·.buildTimeout) = some (some 4) ∧
    (opts {}).map (·.buildTimeout) = some none := by decide +kernel
-- `timeout_multiplier_default_with_baseline_skip`
example : limits { baseline := .skip } none = some (some 300, some none) := by decide +kernel

/-! ### `src/cargo.rs` -/

def something : PackageSelection :=
  .explicit [{ name := "cargo-mutants-testdata-something".toList, version := "0.1.0".toList, relativeDir := [], topSources := [["src".toList, "lib.rs".toList]] }]
/-- `cargo_argv(..)[1..]` for `Options::default()` or the options of these arguments. -/
def argv (p : PackageSelection) (ph : Phase) (o : Options) : List Text := (cargoArgv "cargo".toList p ph o).tail
def argvOf (a : Args) (ph : Phase) : Option (List Text) := (opts a).map (argv .all ph)

-- `generate_cargo_args_for_baseline_with_default_options`
example : argv .all .check {} = ts ["check", "--tests", "--verbose", "--workspace"] := by decide +kernel
example : argv .all .build {} = ts ["test", "--no-run", "--verbose", "--workspace"] := by decide +kernel
example : argv .all .test {} = ts ["test", "--verbose", "--workspace"] := by decide +kernel
-- `generate_cargo_args_with_additional_cargo_test_args_and_package`
example : argv something .check { additionalCargoTestArgs := ts ["--lib", "--no-fail-fast"] } =
    ts ["check", "--tests", "--verbose", "--package=cargo-mutants-testdata-something@0.1.0"] := by decide +kernel
-- `generate_cargo_args_with_additional_cargo_args_and_test_args`
def extra : Options := { additionalCargoTestArgs := ts ["--lib", "--no-fail-fast"], additionalCargoArgs := ts ["--release"] }
example : argv .all .check extra = ts ["check", "--tests", "--verbose", "--workspace", "--release"] := by decide +kernel
example : argv .all .build extra = ts ["test", "--no-run", "--verbose", "--workspace", "--release"] := by decide +kernel
example : argv .all .test extra = ts ["test", "--verbose", "--workspace", "--release", "--lib", "--no-fail-fast"] := by decide +kernel
-- `no_default_features_args_passed_to_cargo`
example : argvOf { features := { noDefaultFeatures := true } } .check =
    some (ts ["check", "--tests", "--verbose", "--workspace", "--no-default-features"]) := by decide +kernel
-- `all_features_args_passed_to_cargo`
example : argvOf { features := { allFeatures := true } } .check =
    some (ts ["check", "--tests", "--verbose", "--workspace", "--all-features"]) := by decide +kernel
-- `cap_lints_passed_to_cargo`
example : argvOf { capLints := some true } .check = some (ts ["check", "--tests", "--verbose", "--workspace"]) := by decide +kernel
-- `feature_args_passed_to_cargo`
example : argvOf { features := { features := ts ["foo", "bar,baz"] } } .check =
    some (ts ["check", "--tests", "--verbose", "--workspace", "--features=foo", "--features=bar,baz"]) := by decide +kernel
-- `profile_arg_passed_to_cargo`
example : argvOf { profile := some "mutants".toList } .check =
    some (ts ["check", "--tests", "--profile=mutants", "--verbose", "--workspace"]) := by decide +kernel
-- `nextest_gets_special_cargo_profile_option`
example : argvOf { testTool := some .nextest, profile := some "mutants".toList } .build =
    some (ts ["nextest", "run", "--no-run", "--cargo-profile=mutants", "--verbose", "--workspace"]) := by decide +kernel
-- `rustflags_…`
example : encodedRustflags false none none = none := by decide +kernel
example : encodedRustflags true none none = some "--cap-lints=warn".toList := by decide +kernel
example : encodedRustflags true (some []) none = some "--cap-lints=warn".toList := by decide +kernel
example : encodedRustflags true none (some "--something\x1f--else".toList) = some "--something\x1f--else\x1f--cap-lints=warn".toList := by
  decide +kernel
example : encodedRustflags true none (some "-Dwarnings".toList) = some "-Dwarnings\x1f--cap-lints=warn".toList := by decide +kernel

end CM.Conform
