import Verif.Model.Workspace
/-! Staying inside the tree: `src/path.rs` `ascent` and `src/source.rs` `SourceFile::load`. -/
namespace CM

/-- `..` -/
def dotdot : Text := "..".toList
/-- `.` -/
def dot : Text := ".".toList

/-- The loop of `src/path.rs:17-31`: (max_ascent, ascent). -/
def ascentFrom (mx cur : Int) : Path → Int
  | [] => mx
  | c :: rest =>
    if c = dotdot then ascentFrom (max (cur + 1) mx) (cur + 1) rest
    else if c = dot then ascentFrom mx cur rest
    else ascentFrom mx (cur - 1) rest

/-- `src/path.rs:17-31` `ascent`. -/
def ascent (p : Path) : Int := ascentFrom 0 0 p

/-- `Utf8Path::join` on component lists: an absolute path replaces the base. -/
def joinPath (base rel : Path) : Path := if rel.head? = some "/".toList then rel else base ++ rel

/-- `src/source.rs:50-76` `SourceFile::load`. The tree is a function from the paths given to the file
system to the text of the file; the outer `none` is the error. -/
def loadSource (read : Path → Option Text) (treePath rel : Path) (package : Package) (isTop : Bool) :
    Option (Option SourceFile) :=
  if ascent rel > 0 then some none
  else do
    let text ← read (joinPath treePath rel)
    pure (some { package := package, path := rel, code := normalizeNewlines text, isTop := isTop })

end CM
