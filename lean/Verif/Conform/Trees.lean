import Verif.Conform.Options
import Verif.Model.CopyTree
import Verif.Model.Workspace
/-! The unit tests of copying and of packages, run against the model; see `Small.lean`. -/
namespace CM.Conform
open CM CM.Copy

/-! ### `src/copy_tree.rs` -/

def forest : List (String × Tree) → Forest
  | [] => .nil
  | (n, t) :: rest => .cons n.toList t (forest rest)
def aFile (c : String) : Tree := .file c.toList
/-- The tree that all the tests have, and more. -/
def crateWith (more : List (String × Tree)) : Tree := .dir (forest
  (("Cargo.toml", aFile "[package]\nname = a") :: ("src", .dir (forest [("main.rs", aFile "fn main() {}")])) :: more))
/-- The entries at these paths in the copy. -/
def copied (a : Args) (ignored : Path → Bool → Bool) (t : Tree) (paths : List (List String)) : Option (List (Option Kind)) := do
  let o ← opts a
  let d ← copyTree o ignored t
  pure (paths.map fun p => d (p.map String.toList))
def ignoresFoo : Path → Bool → Bool := fun p _ => p == ["foo".toList]

-- `copy_with_gitignore_but_without_git_dir`: `ignore` ignores nothing
example : copied { gitignore := true } (fun _ _ => false) (crateWith [(".gitignore", aFile "foo\n"), ("foo", aFile "bar")])
    [["foo"]] = some [some (.file "bar".toList)] := by decide +kernel
-- `copy_with_gitignore_and_git_dir`
example : copied { gitignore := true } ignoresFoo
    (crateWith [(".gitignore", aFile "foo\n"), (".git", .dir .nil), ("foo", aFile "bar")]) [["foo"]] = some [none] := by decide +kernel
-- `copy_without_gitignore`
example : copied { gitignore := false } ignoresFoo
    (crateWith [(".gitignore", aFile "foo\n"), (".git", .dir .nil), ("foo", aFile "bar")]) [["foo"]] = some [some (.file "bar".toList)] := by
  decide +kernel
def withGit : Tree := crateWith [(".git", .dir (forest [("foo", aFile "bar")])), ("mutants.out", .dir (forest [("foo", aFile "bar")]))]
-- `dont_copy_git_dir_or_mutants_out_by_default`
example : copied {} (fun _ _ => false) withGit [[".git"], [".git", "foo"], ["mutants.out"], ["Cargo.toml"]] =
    some [none, none, none, some (.file "[package]\nname = a".toList)] := by decide +kernel
-- `copy_git_dir_when_requested`
example : copied { copyVcs := some true } (fun _ _ => false) withGit [[".git"], [".git", "foo"], ["mutants.out"], ["Cargo.toml"]] =
    some [some .dir, some (.file "bar".toList), none, some (.file "[package]\nname = a".toList)] := by decide +kernel
-- `build_dir_copy_from`, `copy_tree_with_parent_ignoring_star`: the parent is not looked at
example : copied { gitignore := true } (fun _ _ => false) (crateWith []) [["Cargo.toml"], ["src"], ["src", "main.rs"]] =
    some [some (.file "[package]\nname = a".toList), some .dir, some (.file "fn main() {}".toList)] := by decide +kernel

/-! ### `src/workspace.rs`, with `testdata/workspace` -/

def pt (l : List String) : Path := l.map String.toList
def memberOf (name dir file : String) (kind : TargetKind) : PackageMeta :=
  ⟨name.toList, "0.1.0".toList, pt ["/", "tmp", "w", dir, "Cargo.toml"], [⟨[kind], pt ["/", "tmp", "w", dir, "src", file]⟩]⟩
/-- What `cargo metadata` says; the order of the packages does not matter. -/
def threeMembers : Workspace := Workspace.open ⟨pt ["/", "tmp", "w"],
  [memberOf "main" "main" "main.rs" .bin, memberOf "cargo_mutants_testdata_workspace_utils" "utils" "lib.rs" .lib,
   memberOf "main2" "main2" "main.rs" .bin],
  some (ts ["main2", "main", "cargo_mutants_testdata_workspace_utils"])⟩
def topSources (s : Option PackageSelection) : Option (List (Text × List Path)) :=
  s.map fun s => (threeMembers.expandSelection s).map fun p => (p.name, p.topSources)
def utilsTop : Text × List Path := ("cargo_mutants_testdata_workspace_utils".toList, [pt ["utils", "src", "lib.rs"]])
def mainTop : Text × List Path := ("main".toList, [pt ["main", "src", "main.rs"]])
def main2Top : Text × List Path := ("main2".toList, [pt ["main2", "src", "main.rs"]])

-- `find_top_source_files_from_subdirectory_of_workspace`, `package_filter_all_from_subdir_gets_everything`
example : threeMembers.filterPackages .all = some .all ∧
    topSources (threeMembers.filterPackages .all) = some [utilsTop, mainTop, main2Top] := by decide +kernel
-- `auto_packages_in_workspace_subdir_finds_single_package`
example : topSources (threeMembers.filterPackages (.auto (some (pt ["/", "tmp", "w", "main"])))) = some [mainTop] := by decide +kernel
-- `auto_packages_in_virtual_workspace_gets_everything`
example : topSources (threeMembers.filterPackages (.auto (some (pt ["/", "tmp", "w"])))) = some [utilsTop, mainTop, main2Top] := by
  decide +kernel
-- `error_opening_outside_of_crate`: `cargo locate-project` fails
example : threeMembers.filterPackages (.auto none) = none := rfl
-- `filter_by_single_package`, `filter_by_multiple_packages`
example : topSources (threeMembers.filterPackages (.explicit (ts ["main"]))) = some [mainTop] ∧
    topSources (threeMembers.filterPackages (.explicit (ts ["main", "main2"]))) = some [mainTop, main2Top] := by decide +kernel

end CM.Conform
