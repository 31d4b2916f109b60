import Verif.Model.Link
/-! Paths that lead out of a directory. -/
namespace CM.Spec
open CM.Copy CM.Link

/-- Following a path from a directory `here` of a tree leads out of the tree: through an absolute symbolic
link, or by `..` at the top. -/
inductive Leaves (kind : Path → Option Kind) : Path → Path → Prop
  | above (rest) : Leaves kind [] ("..".toList :: rest)
  | absolute {here name target} (rest) : name ≠ ".".toList → name ≠ "..".toList → kind (here ++ [name]) = some (.symlink target) →
      target.head? = some '/' → Leaves kind here (name :: rest)
  | dot {here rest} : Leaves kind here rest → Leaves kind here (".".toList :: rest)
  | up {here rest} : Leaves kind here.dropLast rest → Leaves kind here ("..".toList :: rest)
  | dir {here name rest} : name ≠ ".".toList → name ≠ "..".toList → kind (here ++ [name]) = some .dir →
      Leaves kind (here ++ [name]) rest → Leaves kind here (name :: rest)
  | link {here name target rest} : name ≠ ".".toList → name ≠ "..".toList → kind (here ++ [name]) = some (.symlink target) →
      target.head? ≠ some '/' → Leaves kind here (components target ++ rest) → Leaves kind here (name :: rest)

end CM.Spec
