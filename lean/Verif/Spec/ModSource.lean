import Verif.Model.Walk
/-! How rustc finds the file of a module: `rustc_expand::module`, described in the Rust reference under
"Module source filenames" and "The path attribute". -/
namespace CM.Spec
open CM

/-- Where rustc looks: a directory, and the name of the file's module if the file is not in the directory
of its own module (`DirOwnership::Owned { relative }`). -/
structure DirCtx where
  dir : Path
  relative : Option Text

/-- The directory of the module itself. -/
def DirCtx.own (c : DirCtx) : Path :=
  match c.relative with
  | some r => pushPath c.dir [r]
  | none => c.dir

/-- `mod m { … }`: a path attribute names the directory. -/
def DirCtx.inline (c : DirCtx) (m : ModNamespace) : DirCtx :=
  match m.pathAttribute with
  | some p => ⟨pushPath c.dir (components p), none⟩
  | none => ⟨pushPath c.own [m.name], none⟩

/-- `mod m;`: the file, and where rustc looks from there. A file named by a path attribute is like a
`mod.rs`. Without one it is an error if there are two files or none. -/
inductive DirCtx.External (isFile : Path → Bool) (c : DirCtx) (m : ModNamespace) : Path → DirCtx → Prop
  | path {p} : m.pathAttribute = some p → isFile (pushPath c.dir (components p)) = true →
      External isFile c m (pushPath c.dir (components p)) ⟨(pushPath c.dir (components p)).dropLast, none⟩
  | file : m.pathAttribute = none → isFile (pushPath c.own [m.name ++ ".rs".toList]) = true →
      isFile (pushPath c.own [m.name, "mod.rs".toList]) = false →
      External isFile c m (pushPath c.own [m.name ++ ".rs".toList]) ⟨c.own, some m.name⟩
  | modrs : m.pathAttribute = none → isFile (pushPath c.own [m.name ++ ".rs".toList]) = false →
      isFile (pushPath c.own [m.name, "mod.rs".toList]) = true →
      External isFile c m (pushPath c.own [m.name, "mod.rs".toList]) ⟨pushPath c.own [m.name], none⟩

/-- `mod m;` inside inline modules, from the outside in. -/
def Rustc (isFile : Path → Bool) (c : DirCtx) (parents : List ModNamespace) (m : ModNamespace) (file : Path) (c' : DirCtx) : Prop :=
  (parents.foldl DirCtx.inline c).External isFile m file c'

/-- The files of a crate that rustc finds from its top file, where it looks from them, and whether it is
the top file. -/
inductive Loaded (isFile : Path → Bool) (mods : Path → List (List ModNamespace × ModNamespace)) (top : Path) :
    Path → DirCtx → Bool → Prop
  | top : Loaded isFile mods top top ⟨top.dropLast, none⟩ true
  | next {file c t parents m file' c'} : Loaded isFile mods top file c t → (parents, m) ∈ mods file →
      Rustc isFile c parents m file' c' → Loaded isFile mods top file' c' false

end CM.Spec
