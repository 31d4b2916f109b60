import Verif.Model.CopyTree
import Verif.Model.PathSafe
import Verif.Model.InDiff
/-! Paths in the manifest and configuration of a copied tree: `src/manifest.rs` and `src/build_dir.rs`. -/
namespace CM

/-- `toml::Value`. Numbers, dates and so on are represented by their text. -/
inductive Toml
  | str (s : Text)
  | scalar (s : Text)
  | array (items : List Toml)
  | table (entries : List (Text × Toml))

mutual
/-- `PartialEq for toml::Value`. -/
def Toml.same : Toml → Toml → Bool
  | .str a, .str b => a == b
  | .scalar a, .scalar b => a == b
  | .array a, .array b => Toml.sameList a b
  | .table a, .table b => Toml.sameEntries a b
  | _, _ => false
def Toml.sameList : List Toml → List Toml → Bool
  | [], [] => true
  | a :: as, b :: bs => Toml.same a b && Toml.sameList as bs
  | _, _ => false
def Toml.sameEntries : List (Text × Toml) → List (Text × Toml) → Bool
  | [], [] => true
  | (k, a) :: as, (l, b) :: bs => k == l && Toml.same a b && Toml.sameEntries as bs
  | _, _ => false
end

/-- `Utf8PathBuf::push` of a path that is not absolute, on texts. -/
def pushText (dir path : Text) : Text :=
  dir ++ (if dir = [] ∨ dir.getLast? = some '/' then [] else "/".toList) ++ path

/-- `src/manifest.rs:149-160` `fix_path`. -/
def fixPath (path dir : Text) : Option Text :=
  if path.head? = some '/' ∨ ascent (components path) = 0 then none else some (pushText dir path)

/-- A string with a path, as in `src/manifest.rs:95-98` and `129-133`. -/
def fixPathValue (dir : Text) : Toml → Toml
  | .str s => .str ((fixPath s dir).getD s)
  | v => v

/-- `get_mut` and a change. -/
def updateKey (key : Text) (f : Toml → Toml) (entries : List (Text × Toml)) : List (Text × Toml) :=
  entries.map fun (k, v) => (k, if k = key then f v else v)

/-- `as_table_mut` and a change of an entry. -/
def updateEntry (key : Text) (f : Toml → Toml) : Toml → Toml
  | .table entries => .table (updateKey key f entries)
  | v => v

/-- `as_table_mut` and a change of all entries. -/
def updateEach (f : Toml → Toml) : Toml → Toml
  | .table entries => .table (entries.map fun (k, v) => (k, f v))
  | v => v

/-- `src/manifest.rs:89-103` `fix_dependency_table`. -/
def fixDependencyTable (dir : Text) : Toml → Toml := updateEach (updateEntry "path".toList (fixPathValue dir))

/-- `src/manifest.rs:43-64`: the changes of `fix_manifest_toml`. -/
def fixedManifest (dir : Text) (v : Toml) : Toml :=
  let v := updateEntry "dependencies".toList (fixDependencyTable dir) v
  let v := updateEntry "replace".toList (fixDependencyTable dir) v
  updateEntry "patch".toList (updateEach (fixDependencyTable dir)) v

/-- `src/manifest.rs:39-70` `fix_manifest_toml`, after parsing. -/
def fixManifestToml (dir : Text) (v : Toml) : Option Toml :=
  let changed := fixedManifest dir v
  if changed.same v then none else some changed

/-- `src/manifest.rs:127-135`: the changes of `fix_cargo_config_toml`. -/
def fixedConfig (dir : Text) : Toml → Toml :=
  updateEntry "paths".toList fun
    | .array items => .array (items.map (fixPathValue dir))
    | v => v

/-- Is some path changed? -/
def configChanged (dir : Text) : Toml → Bool
  | .table entries => entries.any fun (k, v) => k == "paths".toList && match v with
      | .array items => items.any fun
          | .str s => (fixPath s dir).isSome
          | _ => false
      | _ => false
  | _ => false

/-- `src/manifest.rs:123-141` `fix_cargo_config_toml`, after parsing. -/
def fixConfigToml (dir : Text) (v : Toml) : Option Toml :=
  if configChanged dir v then some (fixedConfig dir v) else none

open Copy

/-- Reading a file of the copy. Symbolic links are not modelled. -/
def Copy.Dest.read (d : Dest) (p : Path) : Option Text :=
  match d p with
  | some (.file c) => some c
  | _ => none

/-- Parse a file, fix it and write it if something changed; `none` is an error. The parser and printer of
the `toml` library are parameters. -/
def fixFile (parse : Text → Option Toml) (print : Toml → Text) (fix : Toml → Option Toml) (d : Dest) (p : Path) : Option Dest :=
  (d.read p).bind fun text => (parse text).bind fun v =>
    match fix v with
    | some v => some (d.put p (.file (print v)))
    | none => some d

/-- The names of the files. -/
def manifestFile : Path := ["Cargo.toml".toList]
def configFile : Path := [".cargo".toList, "config.toml".toList]

/-- `src/build_dir.rs:55-77` `copy_from`, with `src/manifest.rs:22-34` `fix_manifest` and
`src/manifest.rs:106-116` `fix_cargo_config`; `dir` is the absolute path of the source. -/
def copyFrom (parse : Text → Option Toml) (print : Toml → Text) (o : Options) (ignored : Path → Bool → Bool)
    (source : Tree) (dir : Text) : Option Dest :=
  (copyTree o ignored source).bind fun d =>
  (fixFile parse print (fixManifestToml dir) d manifestFile).bind fun d =>
  if d configFile = none then some d else fixFile parse print (fixConfigToml dir) d configFile

end CM
