import Verif.Props.Start
import Verif.Props.ConfigFile
/-! Which files a run reads first and writes to: C81 and C84 with the names of the files. -/
namespace CM.Props
open CM CM.Spec

/-- **C81** for a run: its configuration is what `.cargo/mutants.toml` in the root of the workspace means; nothing is set with
`--no-config` or without that file. The root is that which `cargo metadata` gives for `Cargo.toml` of the workspace. -/
theorem C81_where (p : Place) (a : MainArgs) (s : StartArgs) (w : World) (h : p.world a s = some w) :
    (∃ dir, p.metadata (dir ++ ["Cargo.toml".toList]) = some w.metadata) ∧ w.root = w.metadata.workspaceRoot ∧
    (((s.noConfig = true ∨ p.base.read (w.root ++ [".cargo".toList, "mutants.toml".toList]) = none) ∧ Means p.number [] w.config) ∨
      (s.noConfig = false ∧ ∃ text entries,
        p.base.read (w.root ++ [".cargo".toList, "mutants.toml".toList]) = some text ∧
        p.parseToml text = some (.table entries) ∧ Means p.number entries w.config)) := by
  unfold Place.world at h
  obtain ⟨start, h1, h⟩ := Option.bind_eq_some_iff.1 h
  obtain ⟨m, h2, h⟩ := Option.bind_eq_some_iff.1 h
  obtain ⟨c, h3, h⟩ := Option.bind_eq_some_iff.1 h
  cases h
  refine ⟨?_, rfl, (C81_for_run p.parseToml p.number s.noConfig _ c).1 h3⟩
  unfold Place.openMetadata at h2
  obtain ⟨dir, _, h2⟩ := Option.bind_eq_some_iff.1 h2
  split at h2
  · exact ⟨dir, h2⟩
  · cases h2

/-- **C84**: the results go to `mutants.out` in the directory of `--output`, else in that which the configuration gives, both
taken from the working directory, and else in the root of the workspace. -/
theorem C84_output (p : Place) (a : MainArgs) (s : StartArgs) (w : World) (h : p.world a s = some w) :
    (∀ t, a.options.output = some t → w.output = p.outputs (walkTo p.cwd (components t))) ∧
    (∀ t, a.options.output = none → w.config.output = some t → w.output = p.outputs (walkTo p.cwd (components t))) ∧
    (a.options.output = none → w.config.output = none → w.output = p.outputs w.root) := by
  unfold Place.world at h
  obtain ⟨start, h1, h⟩ := Option.bind_eq_some_iff.1 h
  obtain ⟨m, h2, h⟩ := Option.bind_eq_some_iff.1 h
  obtain ⟨c, h3, h⟩ := Option.bind_eq_some_iff.1 h
  cases h
  refine ⟨fun t ht => ?_, fun t ht hc => ?_, fun ht hc => ?_⟩
  · show p.outputs (p.outputParent a c m.workspaceRoot) = _
    unfold Place.outputParent
    rw [ht]; rfl
  · show p.outputs (p.outputParent a c m.workspaceRoot) = _
    unfold Place.outputParent
    rw [ht, show c.output = some t from hc]; rfl
  · show p.outputs (p.outputParent a c m.workspaceRoot) = _
    unfold Place.outputParent
    rw [ht, show c.output = none from hc]; rfl

/-- The configuration of `/w` sends the results to `x` in the working directory, `--no-config` leaves them in `/w`, and `--output`
comes first. -/
example : (((StartSample.place "/w/util" (some "x".toList)).world StartSample.args {}).map fun w => w.config.output) =
      some (some "x".toList) ∧
    (((StartSample.place "/w/util" (some "x".toList)).world StartSample.args { noConfig := true }).map fun w => w.config.output) = some none ∧
    (((StartSample.place "/w" (some "x".toList)).world StartSample.args {}).map fun w => w.output.out.isSome) = some true ∧
    (((StartSample.place "/w" (some "x".toList)).world StartSample.args { noConfig := true }).map fun w => w.output.out.isSome) =
      some false ∧
    (((StartSample.place "/w/util" none).world { StartSample.args with options := { output := some "../x".toList } } {}).map
      fun w => w.output.out.isSome) = some true := by decide +kernel

end CM.Props
