import Verif.Model.Start
import Verif.Spec.Path
/-! Where a run starts, in the words of the book (`book/src/workspaces.md`, `book/src/controlling.md`). -/
namespace CM.Spec

/-- The place that a path leads to from a working directory. -/
def leadsTo (cwd path : Path) : Path :=
  if path.head? ≠ some "/".toList then "/".toList :: (follow cwd.tail.reverse path).reverse
  else "/".toList :: (follow [] path.tail).reverse

/-- A path has a root component at most at its start. -/
def RootFirst (p : Path) : Prop := "/".toList ∉ p.tail

/-- The directory in which a run starts: the one around the file given with `--manifest-path`, the one given
with `--dir`, or the working directory. -/
def StartsIn (p : Place) (s : StartArgs) (dir : Path) : Prop :=
  p.isDir dir = true ∧
  match s.manifestPath, s.dir with
  | some m, _ => RootFirst m ∧ p.isFile (leadsTo p.cwd m) = true ∧ ∃ q name, m = q ++ [name] ∧ dir = leadsTo p.cwd q
  | none, some d => d ≠ [] ∧ RootFirst d ∧ dir = leadsTo p.cwd d
  | none, none => dir = p.cwd

/-- The manifest around a directory: the one in it, or else that in the innermost directory around it that has one. -/
def NearestManifest (isFile : Path → Bool) (dir manifest : Path) : Prop :=
  ∃ d, manifest = d ++ ["Cargo.toml".toList] ∧ d <+: dir ∧ isFile manifest = true ∧
    ∀ d', d' <+: dir → isFile (d' ++ ["Cargo.toml".toList]) = true → d' <+: d

/-- `cargo locate-project` does as its documentation says: it finds the manifest around the directory in which it is
run, or, with `--workspace`, that of the workspace to which that belongs. And files are in directories. -/
structure CargoLocates (p : Place) : Prop where
  nearest : ∀ dir, p.isDir dir = true → ∀ m, p.locate dir false = some m ↔ NearestManifest p.isFile dir m
  workspace : ∀ dir dir', p.isDir dir = true → p.isDir dir' = true →
    (∀ m, NearestManifest p.isFile dir m ↔ NearestManifest p.isFile dir' m) → p.locate dir true = p.locate dir' true
  inDir : ∀ d name, p.isFile (d ++ [name]) = true → p.isDir d = true
  absolute : p.cwd.head? = some "/".toList
  rooted : ∀ d, p.isDir d = true → d.head? = some "/".toList

end CM.Spec
