import Verif.Model.Workspace
import Verif.Spec.Cargo
import Verif.Proofs.Sort
import Verif.Proofs.Text
/-! Packages: C55, C56. -/
namespace CM.Props
open CM CM.Spec

theorem stripPrefix_iff (p q r : Path) : stripPrefix p q = some r ↔ p = q ++ r := by
  induction q generalizing p with
  | nil => cases p <;> simp [stripPrefix, eq_comm]
  | cons y q ih =>
    cases p with
    | nil => simp [stripPrefix]
    | cons x p =>
      unfold stripPrefix
      split
      · rename_i h; subst h; rw [ih]; simp
      · rename_i h
        simp only [List.cons_append, List.cons.injEq, reduceCtorEq, false_iff, not_and]
        exact fun e => absurd e h

/-! ### C56 -/

/-- C56: the roots of the walk through a package are exactly the sources, inside the workspace, of its
library, binary and proc-macro targets, each once. -/
theorem C56_top_sources (root : Path) (pm : PackageMeta) :
    (∀ p, p ∈ packageTopSources root pm ↔
      ∃ t ∈ pm.targets, t.srcPath = root ++ p ∧
        ∃ k ∈ t.kind, k ∈ [TargetKind.lib, .rlib, .dylib, .cdylib, .staticlib, .bin, .procMacro]) ∧
    (packageTopSources root pm).Nodup := by
  constructor
  · intro p
    unfold packageTopSources
    rw [mem_dedup, mem_sortBy, List.mem_filterMap]
    constructor
    · rintro ⟨t, ht, h⟩
      split at h
      · rename_i hk
        refine ⟨t, ht, (stripPrefix_iff _ _ _).1 h, ?_⟩
        unfold shouldMutateTarget at hk
        rw [List.any_eq_true] at hk
        obtain ⟨k, hk, hb⟩ := hk
        refine ⟨k, hk, ?_⟩
        cases k <;> first | decide | cases hb
      · cases h
    · rintro ⟨t, ht, hp, k, hk, hm⟩
      refine ⟨t, ht, ?_⟩
      have : shouldMutateTarget t = true := by
        unfold shouldMutateTarget
        rw [List.any_eq_true]
        refine ⟨k, hk, ?_⟩
        revert hm
        cases k <;> decide
      rw [this]
      exact (stripPrefix_iff _ _ _).2 hp
  · exact dedup_nodup pathLe pathLe_antisymm _ (sortBy_sorted pathLe pathLe_total pathLe_trans _)

/-- C56: a source that only test, example, bench or build script targets have is not a root. -/
theorem C56_others_are_not_roots (root : Path) (pm : PackageMeta) (p : Path)
    (h : ∀ t ∈ pm.targets, t.srcPath = root ++ p → ∀ k ∈ t.kind, k ∈ [TargetKind.test, .example, .bench, .customBuild]) :
    p ∉ packageTopSources root pm := by
  intro hp
  obtain ⟨t, ht, he, k, hk, hm⟩ := ((C56_top_sources root pm).1 p).1 hp
  have := h t ht he k hk
  revert this hm
  cases k <;> decide

/-- A package with a library, a binary from the same file, a test and a build script. -/
def sampleMeta : PackageMeta :=
  { name := "util".toList, version := "0.1.0".toList,
    manifestPath := ["/".toList, "w".toList, "util".toList, "Cargo.toml".toList],
    targets :=
      [⟨[.lib], ["/".toList, "w".toList, "util".toList, "src".toList, "lib.rs".toList]⟩,
       ⟨[.bin], ["/".toList, "w".toList, "util".toList, "src".toList, "lib.rs".toList]⟩,
       ⟨[.test], ["/".toList, "w".toList, "util".toList, "tests".toList, "t.rs".toList]⟩,
       ⟨[.customBuild], ["/".toList, "w".toList, "util".toList, "build.rs".toList]⟩] }

example : packageTopSources ["/".toList, "w".toList] sampleMeta =
    [["util".toList, "src".toList, "lib.rs".toList]] := by decide

/-! ### C55 -/

theorem fromMetadata_iff (pm : PackageMeta) (root : Path) (p : Package) :
    Package.fromMetadata pm root = some p ↔ Describes root pm p ∧ p.topSources = packageTopSources root pm := by
  simp only [Package.fromMetadata, Option.bind_eq_bind, Option.bind_eq_some_iff, Option.pure_def,
    Option.some.injEq, stripPrefix_iff]
  constructor
  · rintro ⟨rel, ⟨r, h1, h2⟩, rfl⟩
    unfold parent at h2
    split at h2
    · cases h2
    · rename_i hne
      simp only [Option.some.injEq] at h2
      refine ⟨⟨rfl, rfl, r.getLast hne, ?_⟩, rfl⟩
      rw [h1, ← h2, List.append_assoc, List.dropLast_concat_getLast]
  · rintro ⟨⟨h1, h2, f, h3⟩, h4⟩
    refine ⟨p.relativeDir, ⟨p.relativeDir ++ [f], by rw [h3, List.append_assoc], ?_⟩, ?_⟩
    · unfold parent
      rw [if_neg (by simp)]
      simp
    · rw [← h1, ← h2, ← h4]

/-- The packages of a workspace are the described members that are inside its root. -/
theorem mem_packages (m : Metadata) (p : Package) :
    p ∈ (Workspace.open m).packages ↔
      ∃ pm ∈ m.packages, Describes m.workspaceRoot pm p ∧ p.topSources = packageTopSources m.workspaceRoot pm := by
  show p ∈ packagesFromMetadata m ↔ _
  unfold packagesFromMetadata
  rw [List.mem_filterMap]
  constructor
  · rintro ⟨pm, h1, h2⟩
    exact ⟨pm, (mem_sortBy _ _ _).1 h1, (fromMetadata_iff _ _ _).1 h2⟩
  · rintro ⟨pm, h1, h2⟩
    exact ⟨pm, (mem_sortBy _ _ _).2 h1, (fromMetadata_iff _ _ _).2 h2⟩

theorem mem_packagesByName (w : Workspace) (hn : NamesOk w.packages) (names : List Text) (p : Package) :
    p ∈ w.packagesByName names ↔ p ∈ w.packages ∧ p.name ∈ names := by
  unfold Workspace.packagesByName
  rw [List.mem_filterMap]
  constructor
  · rintro ⟨n, h1, h2⟩
    have h3 := List.mem_of_find?_eq_some h2
    have h4 := List.find?_some h2
    simp only [beq_iff_eq] at h4
    exact ⟨h3, h4 ▸ (mem_sortBy _ _ _).1 h1⟩
  · rintro ⟨h1, h2⟩
    refine ⟨p.name, (mem_sortBy _ _ _).2 h2, ?_⟩
    cases hf : w.packages.find? (·.name == p.name) with
    | none =>
      rw [List.find?_eq_none] at hf
      exact absurd (by simp) (hf p h1)
    | some q =>
      have h3 := List.mem_of_find?_eq_some hf
      have h4 := List.find?_some hf
      simp only [beq_iff_eq] at h4
      rw [hn.1 q h3 p h1 h4]

theorem packagesByName_nodup (w : Workspace) (names : List Text) (hnames : names.Nodup) :
    (w.packagesByName names).Nodup := by
  unfold Workspace.packagesByName
  have h : (sortBy textLe names).Pairwise (· ≠ ·) := (sortBy_perm textLe names).nodup_iff.2 hnames
  refine List.Pairwise.filterMap _ ?_ h
  intro a b hab x hx y hy hxy
  have h1 := List.find?_some hx
  have h2 := List.find?_some hy
  simp only [beq_iff_eq] at h1 h2
  apply hab
  rw [← h1, ← h2, hxy]

/-- C55: `--workspace` selects every member that is inside the workspace root. -/
theorem C55_workspace (m : Metadata) (located : Option Path) :
    ∃ ps, selectedPackages (Workspace.open m) [] true located = some ps ∧
      ∀ p, p ∈ ps ↔ ∃ pm ∈ m.packages, Describes m.workspaceRoot pm p ∧
        p.topSources = packageTopSources m.workspaceRoot pm :=
  ⟨_, rfl, fun p => mem_packages m p⟩

/-- C55: `--package` selects the members with those names and no others; unknown names select nothing. -/
theorem C55_named (m : Metadata) (hn : NamesOk (Workspace.open m).packages) (names : List Text)
    (hne : names ≠ []) (ws : Bool) (located : Option Path) :
    ∃ ps, selectedPackages (Workspace.open m) names ws located = some ps ∧
      ∀ p, p ∈ ps ↔ p.name ∈ names ∧ ∃ pm ∈ m.packages, Describes m.workspaceRoot pm p ∧
        p.topSources = packageTopSources m.workspaceRoot pm := by
  refine ⟨(Workspace.open m).packagesByName names, ?_, ?_⟩
  · unfold selectedPackages choosePackageFilter
    cases names with
    | nil => exact absurd rfl hne
    | cons n ns => rfl
  · intro p
    rw [mem_packagesByName _ hn, mem_packages]
    exact and_comm

/-- C55 in full: each of these packages is selected once. -/
def C55_full : Prop :=
  ∀ (m : Metadata), NamesOk (Workspace.open m).packages → ∀ names located ps,
    selectedPackages (Workspace.open m) names false located = some ps → ps.Nodup

/-- A workspace with the sample package. -/
def sampleMetadata : Metadata :=
  { workspaceRoot := ["/".toList, "w".toList], packages := [sampleMeta],
    defaultMembers := some ["util".toList] }

/-- The full claim is false: `--package util --package util` selects `util` twice, so that all its mutants
are generated and tested twice. -/
theorem C55_each_once_false : ¬ C55_full := by
  intro h
  have hn : NamesOk (Workspace.open sampleMetadata).packages := by
    have e : (Workspace.open sampleMetadata).packages =
        [⟨"util".toList, "0.1.0".toList, ["util".toList], [["util".toList, "src".toList, "lib.rs".toList]]⟩] := by
      decide
    rw [e]
    constructor
    · intro p hp q hq _
      rw [List.mem_singleton] at hp hq
      rw [hp, hq]
    · intro p hp
      rw [List.mem_singleton] at hp
      rw [hp]
      decide
  have := h sampleMetadata hn ["util".toList, "util".toList] none
    [⟨"util".toList, "0.1.0".toList, ["util".toList], [["util".toList, "src".toList, "lib.rs".toList]]⟩,
     ⟨"util".toList, "0.1.0".toList, ["util".toList], [["util".toList, "src".toList, "lib.rs".toList]]⟩] (by decide)
  revert this
  decide

/-- C55: each is selected once if no name is repeated on the command line. -/
theorem C55_each_once_partial (m : Metadata) (names : List Text) (hd : names.Nodup)
    (hne : names ≠ []) (ws : Bool) (located : Option Path) (ps : List Package)
    (h : selectedPackages (Workspace.open m) names ws located = some ps) : ps.Nodup := by
  have e : selectedPackages (Workspace.open m) names ws located =
      some ((Workspace.open m).packagesByName names) := by
    unfold selectedPackages choosePackageFilter
    cases names with
    | nil => exact absurd rfl hne
    | cons n ns => rfl
  rw [e] at h
  cases h
  exact packagesByName_nodup _ names hd

/-- C55, as the book has it: `--package a,b` selects both packages. -/
def C55_comma_list : Prop :=
  ∀ (m : Metadata) (a b : Text) located ps, NamesOk (Workspace.open m).packages → ',' ∉ a → ',' ∉ b →
    selectedPackages (Workspace.open m) [a ++ [','] ++ b] false located = some ps →
    ∀ p ∈ (Workspace.open m).packages, p.name = a ∨ p.name = b → p ∈ ps

/-- That is false: unlike `--test-package`, the argument is not split (`src/main.rs:471-472`), so nothing
is selected. -/
theorem C55_comma_list_false : ¬ C55_comma_list := by
  intro h
  have hn : NamesOk (Workspace.open sampleMetadata).packages := by
    have e : (Workspace.open sampleMetadata).packages =
        [⟨"util".toList, "0.1.0".toList, ["util".toList], [["util".toList, "src".toList, "lib.rs".toList]]⟩] := by
      decide
    rw [e]
    constructor
    · intro p hp q hq _
      rw [List.mem_singleton] at hp hq
      rw [hp, hq]
    · intro p hp
      rw [List.mem_singleton] at hp
      rw [hp]
      decide
  have := h sampleMetadata "util".toList "other".toList none [] hn (by decide) (by decide) (by decide)
    ⟨"util".toList, "0.1.0".toList, ["util".toList], [["util".toList, "src".toList, "lib.rs".toList]]⟩
    (by decide) (.inl rfl)
  cases this

/-- C55: with neither option, inside a package the selection is that package alone. -/
theorem C55_enclosing_package (m : Metadata) (dir : Path) (p : Package) (pm : PackageMeta)
    (hm : pm ∈ m.packages) (hp : Package.fromMetadata pm m.workspaceRoot = some p)
    (hdir : pm.manifestPath.dropLast = dir) :
    ∃ q, selectedPackages (Workspace.open m) [] false (some dir) = some [q] ∧
      ∃ qm ∈ m.packages, Describes m.workspaceRoot qm q ∧ qm.manifestPath.dropLast = dir := by
  have hpk : p ∈ (Workspace.open m).packages := (mem_packages m p).2 ⟨pm, hm, (fromMetadata_iff _ _ _).1 hp⟩
  have hd : m.workspaceRoot ++ p.relativeDir = dir := by
    obtain ⟨⟨_, _, f, h⟩, _⟩ := (fromMetadata_iff _ _ _).1 hp
    rw [h] at hdir
    simpa using hdir
  cases hf : (Workspace.open m).packages.find? fun p => m.workspaceRoot ++ p.relativeDir == dir with
  | none =>
    rw [List.find?_eq_none] at hf
    exact absurd (by simpa using hd) (hf p hpk)
  | some q =>
    refine ⟨q, ?_, ?_⟩
    · unfold selectedPackages choosePackageFilter
      simp only [List.isEmpty_nil, Bool.not_true, Bool.false_eq_true, if_false, Workspace.filterPackages]
      rw [show (Workspace.open m).metadata.workspaceRoot = m.workspaceRoot from rfl, hf]
      rfl
    · have h1 := List.mem_of_find?_eq_some hf
      have h2 := List.find?_some hf
      simp only [beq_iff_eq] at h2
      obtain ⟨qm, h3, h4, _⟩ := (mem_packages m q).1 h1
      refine ⟨qm, h3, h4, ?_⟩
      obtain ⟨_, _, f, h5⟩ := h4
      rw [h5, ← h2]
      simp

/-- C55: with neither option, in the root of a virtual workspace, the selection is the default members,
or all if cargo does not say. -/
theorem C55_default_members (m : Metadata) (hn : NamesOk (Workspace.open m).packages)
    (hv : ∀ pm ∈ m.packages, pm.manifestPath.dropLast ≠ m.workspaceRoot) :
    ∃ ps, selectedPackages (Workspace.open m) [] false (some m.workspaceRoot) = some ps ∧
      ∀ p, p ∈ ps ↔ p ∈ (Workspace.open m).packages ∧ ∀ names, m.defaultMembers = some names → p.name ∈ names := by
  have hf : ((Workspace.open m).packages.find? fun p => m.workspaceRoot ++ p.relativeDir == m.workspaceRoot) = none := by
    rw [List.find?_eq_none]
    intro p hp he
    simp only [beq_iff_eq] at he
    obtain ⟨pm, h1, ⟨_, _, f, h2⟩, _⟩ := (mem_packages m p).1 hp
    apply hv pm h1
    rw [h2, he]
    simp
  refine ⟨(Workspace.open m).expandSelection (Workspace.open m).defaultPackages, ?_, ?_⟩
  · unfold selectedPackages choosePackageFilter
    simp only [List.isEmpty_nil, Bool.not_true, Bool.false_eq_true, if_false, Workspace.filterPackages]
    rw [show (Workspace.open m).metadata.workspaceRoot = m.workspaceRoot from rfl, hf]
    simp
  · intro p
    unfold Workspace.defaultPackages
    rw [show (Workspace.open m).metadata.defaultMembers = m.defaultMembers from rfl]
    cases m.defaultMembers with
    | none =>
      show p ∈ (Workspace.open m).packages ↔ _
      simp
    | some names =>
      show p ∈ (Workspace.open m).packagesByName _ ↔ _
      rw [mem_packagesByName _ hn, mem_sortBy]
      simp

/-- C55: and if the start directory is in no member and not in the root, the run fails. -/
theorem C55_elsewhere_refused (m : Metadata) (dir : Path) (h : dir ≠ m.workspaceRoot)
    (hm : ∀ pm ∈ m.packages, pm.manifestPath.dropLast ≠ dir) :
    selectedPackages (Workspace.open m) [] false (some dir) = none := by
  have hf : ((Workspace.open m).packages.find? fun p => m.workspaceRoot ++ p.relativeDir == dir) = none := by
    rw [List.find?_eq_none]
    intro p hp he
    simp only [beq_iff_eq] at he
    obtain ⟨pm, h1, ⟨_, _, f, h2⟩, _⟩ := (mem_packages m p).1 hp
    apply hm pm h1
    rw [h2, he]
    simp
  unfold selectedPackages choosePackageFilter
  simp only [List.isEmpty_nil, Bool.not_true, Bool.false_eq_true, if_false, Workspace.filterPackages]
  rw [show (Workspace.open m).metadata.workspaceRoot = m.workspaceRoot from rfl, hf]
  simp [h]

example : (selectedPackages (Workspace.open sampleMetadata) ["nope".toList, "util".toList] false none).map (·.map (·.name)) =
    some ["util".toList] := by decide
example : (selectedPackages (Workspace.open sampleMetadata) [] false (some ["/".toList, "w".toList, "util".toList])).map (·.map (·.name)) =
    some ["util".toList] := by decide

end CM.Props
