import Verif.Model.BuildDir
import Verif.Spec.Program
import Verif.Spec.CopyTree
/-! What is in the directory that a command is run in, from what is in the source tree. -/
namespace CM.Spec
open CM CM.Copy

/-- A path without `..`, `.` or a root. -/
def PlainPath (p : Path) : Prop := ∀ n ∈ p, n ≠ "/".toList ∧ n ≠ ".".toList ∧ n ≠ "..".toList

/-- The program reads the files that are on the disk. -/
def ReadsDisk (w : World) (k : Program.Disk) : Prop :=
  ∀ p c, PlainPath p → At (.dir k.entries) p (.file c) → w.read (joinPath w.root p) = some c

/-- Copying on this machine is what the code makes of the disk. -/
def CopiesDisk (x : Program.Machine) (w : World) (k : Program.Disk) (o : Options) : Prop :=
  k.copy o = some (x.copy fun p => w.read (joinPath w.root p))

/-- What printing a document gives can be read again. -/
def Prints (k : Program.Disk) : Prop :=
  ∀ text v, k.parse text = some v → k.parse (k.print (fixedManifest k.dir v)) = some (fixedManifest k.dir v) ∧
    k.parse (k.print (fixedConfig k.dir v)) = some (fixedConfig k.dir v)

/-- The two files that are adapted to the new place. -/
def Adapted (p : Path) : Prop := p = ["Cargo.toml".toList] ∨ p = [".cargo".toList, "config.toml".toList]

/-- The files in a build directory, where `mutation` is the mutant that is tested, and in the files for which
`mayNormalize` holds CRLF may have become LF. -/
structure BuiltFrom (k : Program.Disk) (o : Options) (mayNormalize : Path → Prop) (mutation : Option Mutant) (t : Lab.Tree) :
    Prop where
  /-- the file of the mutant is changed as the mutant says -/
  mutated : ∀ m, mutation = some m → t m.sourceFile.path = some m.mutated
  /-- other files come from the source -/
  origin : ∀ p c, (∀ m, mutation = some m → p ≠ m.sourceFile.path) → ¬ Adapted p → t p = some c →
    ¬ Excluded o.copyVcs o.gitignore k.ignored (.dir k.entries) p ∧
      ∃ c', At (.dir k.entries) p (.file c') ∧ (c = c' ∨ mayNormalize p ∧ c = normalizeNewlines c')
  /-- and all that are not excluded are there -/
  all : ∀ p c', (∀ m, mutation = some m → p ≠ m.sourceFile.path) → ¬ Adapted p → At (.dir k.entries) p (.file c') →
    ¬ Excluded o.copyVcs o.gitignore k.ignored (.dir k.entries) p →
    ∃ c, t p = some c ∧ (c = c' ∨ mayNormalize p ∧ c = normalizeNewlines c')
  /-- the manifest is that of the source, with its paths adapted -/
  manifest : ∃ text v text', At (.dir k.entries) ["Cargo.toml".toList] (.file text) ∧ k.parse text = some v ∧
    t ["Cargo.toml".toList] = some text' ∧ k.parse text' = some (fixedManifest k.dir v)
  /-- so is the configuration of cargo, if there is one -/
  config : t [".cargo".toList, "config.toml".toList] = none ∧ (∀ text, At (.dir k.entries) [".cargo".toList, "config.toml".toList] (.file text) →
        Excluded o.copyVcs o.gitignore k.ignored (.dir k.entries) [".cargo".toList, "config.toml".toList]) ∨
      ∃ text v text', At (.dir k.entries) [".cargo".toList, "config.toml".toList] (.file text) ∧ k.parse text = some v ∧
        t [".cargo".toList, "config.toml".toList] = some text' ∧ k.parse text' = some (fixedConfig k.dir v)

end CM.Spec
