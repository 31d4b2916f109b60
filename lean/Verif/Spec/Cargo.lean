import Verif.Model.Workspace
/-! Specifications about cargo, independent of the code of cargo-mutants. -/
namespace CM.Spec

/-- `p` describes the workspace member `pm` of the workspace at `root`: same name and version, and its
manifest is in the directory `p.relativeDir` of the root. -/
def Describes (root : Path) (pm : PackageMeta) (p : Package) : Prop :=
  p.name = pm.name ∧ p.version = pm.version ∧ ∃ file, pm.manifestPath = root ++ p.relativeDir ++ [file]

/-- Cargo insists that members have distinct names, and a name has no `@`. -/
def NamesOk (ps : List Package) : Prop :=
  (∀ p ∈ ps, ∀ q ∈ ps, p.name = q.name → p = q) ∧ ∀ p ∈ ps, '@' ∉ p.name

/-- `--workspace` -/
def workspaceFlag : Text := "--workspace".toList
/-- `--package=` -/
def packageFlag : Text := "--package=".toList

/-- The packages whose tests `cargo test` runs (or whose code `cargo check` checks) with these arguments:
all with `--workspace`; those named with `--package=name@version`; or, with neither, the packages that
cargo chooses from the current directory. -/
def Tests (members : List Package) (chosenByCargo : Package → Prop) (args : List Text) (p : Package) : Prop :=
  if workspaceFlag ∈ args then p ∈ members
  else if ∃ a ∈ args, packageFlag <+: a then p ∈ members ∧ packageFlag ++ (p.name ++ ['@'] ++ p.version) ∈ args
  else chosenByCargo p

/-- An argument list that does not choose packages. -/
def NoSelectors (args : List Text) : Prop := ∀ a ∈ args, a ≠ workspaceFlag ∧ ¬ packageFlag <+: a

/-- Split the flags of a `CARGO_ENCODED_RUSTFLAGS` value as cargo does. -/
def decodeFlags (t : Text) : List Text := if t.isEmpty then [] else splitOn (Char.ofNat 31) t

/-- The words of a text: what is between spaces, without the empty ones; as cargo reads `RUSTFLAGS`. -/
inductive Words : Text → List Text → Prop
  | nil : Words [] []
  | space {t ws} : Words t ws → Words (' ' :: t) ws
  | last {w} : w ≠ [] → ' ' ∉ w → Words w [w]
  | word {w t ws} : w ≠ [] → ' ' ∉ w → Words t ws → Words (w ++ ' ' :: t) (w :: ws)

/-- Read one quoted argument list back: arguments are separated by single spaces; a backslash makes the
next character ordinary, and `\t`, `\n`, `\r` stand for the control characters. -/
def unquoteChars (cur : Text) : Text → List Text
  | [] => [cur]
  | c :: cs =>
    if c = ' ' then cur :: unquoteChars [] cs
    else if c = '\\' then
      match cs with
      | [] => [cur ++ ['\\']]
      | d :: ds =>
        unquoteChars (cur ++ [if d = 't' then '\t' else if d = 'n' then '\n' else if d = 'r' then '\r' else d]) ds
    else unquoteChars (cur ++ [c]) cs

/-- The empty text is the empty list of arguments. -/
def unquote (t : Text) : List Text := if t.isEmpty then [] else unquoteChars [] t

end CM.Spec
