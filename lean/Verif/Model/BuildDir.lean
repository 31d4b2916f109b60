import Verif.Model.Program
import Verif.Model.Manifest
/-! Build directories of the whole program: `Program.lean` with the copy that is made by `CopyTree.lean` and
`Manifest.lean`, in place of any copy. -/
namespace CM.Program
open CM

/-- The source tree as the file system has it, with what reading it depends on. -/
structure Disk where
  /-- the entries of the root of the workspace -/
  entries : Copy.Forest
  /-- the absolute path of the root -/
  dir : Text
  /-- what ignore files say (crate `ignore`) -/
  ignored : Path → Bool → Bool
  /-- the parser and printer of the `toml` library -/
  parse : Text → Option Toml
  print : Toml → Text

/-- `src/build_dir.rs:55-77` `copy_from`: the files of a new build directory. If it fails there is none, and the
program ends with an error. -/
def Disk.copy (k : Disk) (o : Options) : Option Lab.Tree :=
  (copyFrom k.parse k.print o k.ignored (.dir k.entries) k.dir).map fun d => d.read

end CM.Program
