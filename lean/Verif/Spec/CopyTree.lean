import Verif.Model.CopyTree
/-! What should be in a copy of a tree: from `book/src/build-dirs.md`. -/
namespace CM.Spec
open CM.Copy

/-- A directory has an entry. -/
inductive Entry : Forest → Text → Tree → Prop
  | here (n t rest) : Entry (.cons n t rest) n t
  | there {n t rest m u} : Entry rest m u → Entry (.cons n t rest) m u

/-- What is at a path below a tree. -/
inductive At : Tree → Path → Kind → Prop
  | file (c) : At (.file c) [] (.file c)
  | dir (f) : At (.dir f) [] .dir
  | symlink (t) : At (.symlink t) [] (.symlink t)
  | other : At .other [] .other
  | inside {f n t p k} : Entry f n t → At t p k → At (.dir f) (n :: p) k

mutual
/-- The names in each directory are different. -/
inductive Proper : Tree → Prop
  | file (c) : Proper (.file c)
  | dir {f} : ProperEntries f → Proper (.dir f)
  | symlink (t) : Proper (.symlink t)
  | other : Proper .other
inductive ProperEntries : Forest → Prop
  | nil : ProperEntries .nil
  | cons {n t rest} : Proper t → ProperEntries rest → (∀ u, ¬ Entry rest n u) → ProperEntries (.cons n t rest)
end

/-- The names that are never copied. -/
def neverCopied : List Text := ["mutants.out".toList, "mutants.out.old".toList]

/-- The names of version control directories. -/
def versionControl : List Text :=
  [".git".toList, ".hg".toList, ".jj".toList, ".bzr".toList, ".svn".toList, "_darcs".toList, ".pijul".toList]

/-- An entry is left out by itself. -/
def LeftOut (copyVcs gitignore : Bool) (ignored : Path → Bool → Bool) (tree : Tree) (p : Path) : Prop :=
  ∃ q n, p = q ++ [n] ∧ (n ∈ neverCopied ∨ (n ∈ versionControl ∧ copyVcs = false) ∨
    (gitignore = true ∧ ∃ k, At tree p k ∧ ignored p (decide (k = .dir)) = true))

/-- The path or something above it is left out. -/
def Excluded (copyVcs gitignore : Bool) (ignored : Path → Bool → Bool) (tree : Tree) (p : Path) : Prop :=
  ∃ q, q <+: p ∧ LeftOut copyVcs gitignore ignored tree q

end CM.Spec
