import Verif.Model.Options
import Verif.Model.Sort
/-! Packages and workspaces: `src/package.rs`, `src/workspace.rs`, part of `src/main.rs`.

The output of `cargo metadata` and of `cargo locate-project` is a parameter. -/
namespace CM

/-- `cargo_metadata::TargetKind`. -/
inductive TargetKind
  | bench | bin | customBuild | cdylib | dylib | example | lib | procMacro | rlib | staticlib | test | unknown
deriving DecidableEq, Repr

/-- `cargo_metadata::Target`, the fields used. -/
structure Target where
  kind : List TargetKind
  srcPath : Path
deriving DecidableEq, Repr

/-- `cargo_metadata::Package`, the fields used. -/
structure PackageMeta where
  name : Text
  version : Text
  manifestPath : Path
  targets : List Target
deriving DecidableEq, Repr

/-- `cargo_metadata::Metadata`, the parts used. -/
structure Metadata where
  workspaceRoot : Path
  /-- `workspace_packages()` -/
  packages : List PackageMeta
  /-- names of `workspace_default_packages()`; `none` if it panics -/
  defaultMembers : Option (List Text)
deriving DecidableEq, Repr

/-- `Path::strip_prefix`. -/
def stripPrefix : Path → Path → Option Path
  | p, [] => some p
  | [], _ :: _ => none
  | x :: p, y :: q => if x = y then stripPrefix p q else none

/-- `Path::parent`. -/
def parent (p : Path) : Option Path := if p = [] then none else some p.dropLast

/-- `src/package.rs:117-130` `should_mutate_target`. -/
def shouldMutateTarget (t : Target) : Bool :=
  t.kind.any fun k =>
    match k with
    | .bin | .procMacro | .cdylib | .dylib | .lib | .rlib | .staticlib => true
    | _ => false

/-- `src/package.rs:84-115` `package_top_sources`. -/
def packageTopSources (root : Path) (p : PackageMeta) : List Path :=
  dedup (sortBy pathLe (p.targets.filterMap fun t =>
    if shouldMutateTarget t then stripPrefix t.srcPath root else none))

/-- `src/package.rs:47-73` `Package::from_cargo_metadata`. -/
def Package.fromMetadata (p : PackageMeta) (root : Path) : Option Package := do
  let rel ← (stripPrefix p.manifestPath root).bind parent
  pure { name := p.name, version := p.version, relativeDir := rel, topSources := packageTopSources root p }

/-- `src/package.rs:36-44` `packages_from_metadata`. -/
def packagesFromMetadata (m : Metadata) : List Package :=
  (sortBy (fun a b => textLe a.name b.name) m.packages).filterMap (Package.fromMetadata · m.workspaceRoot)

/-- `src/package.rs:75-77` `version_qualified_name`. -/
def Package.versionQualifiedName (p : Package) : Text := p.name ++ "@".toList ++ p.version

/-- `src/package.rs:132-139` `PackageSelection`. -/
inductive PackageSelection
  | all
  | explicit (packages : List Package)
deriving DecidableEq, Repr

/-- `src/workspace.rs:43-59` `PackageFilter`, with `src/workspace.rs:63-65` `explicit`; for `auto`, the answer of `locate_project` for the start
directory (`none` if it fails). -/
inductive PackageFilter
  | all
  | explicit (names : List Text)
  | auto (located : Option Path)
deriving DecidableEq, Repr

/-- `src/workspace.rs:68-71` `Workspace`; its root is `src/workspace.rs:87-89`. -/
structure Workspace where
  metadata : Metadata
  packages : List Package
deriving DecidableEq, Repr

/-- `src/workspace.rs:91-113` `Workspace::open`, after the metadata have been read. -/
def Workspace.open (m : Metadata) : Workspace := { metadata := m, packages := packagesFromMetadata m }

namespace Workspace

/-- `src/workspace.rs:115-129` `packages_by_name`. -/
def packagesByName (w : Workspace) (names : List Text) : List Package :=
  (sortBy textLe names).filterMap fun n => w.packages.find? (·.name == n)

/-- `src/workspace.rs:198-224` `default_packages`. -/
def defaultPackages (w : Workspace) : PackageSelection :=
  match w.metadata.defaultMembers with
  | some names => .explicit (w.packagesByName (sortBy textLe names))
  | none => .all

/-- `src/workspace.rs:132-170` `filter_packages`; `none` is the error. -/
def filterPackages (w : Workspace) : PackageFilter → Option PackageSelection
  | .auto none => none
  | .auto (some dir) =>
    match w.packages.find? fun p => w.metadata.workspaceRoot ++ p.relativeDir == dir with
    | some p => some (.explicit [p])
    | none => if dir = w.metadata.workspaceRoot then some w.defaultPackages else none
  | .all => some .all
  | .explicit names => some (.explicit (w.packagesByName names))

/-- `src/workspace.rs:172-177` `expand_selection`. -/
def expandSelection (w : Workspace) : PackageSelection → List Package
  | .all => w.packages
  | .explicit ps => ps

end Workspace

/-- `src/main.rs:471-477`: `--package`, `--workspace`, or neither. -/
def choosePackageFilter (mutatePackages : List Text) (workspace : Bool) (located : Option Path) :
    PackageFilter :=
  if !mutatePackages.isEmpty then .explicit mutatePackages
  else if workspace then .all
  else .auto located

/-- The packages given to `walk_tree`: `src/workspace.rs:180-192` `discover`. -/
def selectedPackages (w : Workspace) (mutatePackages : List Text) (workspace : Bool)
    (located : Option Path) : Option (List Package) :=
  (w.filterPackages (choosePackageFilter mutatePackages workspace located)).map w.expandSelection

/-- `src/lab.rs:326-334` `TestsForMutant`. -/
inductive TestsForMutant
  | workspace
  | mutated
  | explicit (packages : List Package)
deriving DecidableEq, Repr

/-- `src/lab.rs:336-346` `TestsForMutant::new`. -/
def TestsForMutant.new (o : Options) (w : Workspace) : TestsForMutant :=
  match o.testPackage with
  | .workspace => .workspace
  | .mutated => .mutated
  | .named names => .explicit (w.packagesByName names)

/-- `src/lab.rs:242-248`: the selection for the tests of one mutant. -/
def testPackagesFor (t : TestsForMutant) (m : Mutant) : PackageSelection :=
  match t with
  | .workspace => .all
  | .mutated => .explicit [m.sourceFile.package]
  | .explicit ps => .explicit ps

/-- `src/lab.rs:176-188`: the selection for the baseline. -/
def baselinePackages (mutants : List Mutant) : PackageSelection :=
  .explicit (unique (sortBy (fun a b => textLe a.name b.name) (mutants.map (·.sourceFile.package))))

end CM
