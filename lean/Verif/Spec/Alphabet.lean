import Verif.Model.Workspace
/-! The order of a dictionary, and descriptions of a workspace that differ only in their order. -/
namespace CM.Spec
open CM

/-- `a` is `b` or comes before it in a dictionary with the letters in the order of their code points. -/
def Dict (a b : Text) : Prop :=
  a <+: b ∨ ∃ p x y s t, a = p ++ x :: s ∧ b = p ++ y :: t ∧ x.toNat < y.toNat

/-- The same for paths, component by component. -/
def DictPath (a b : Path) : Prop :=
  a <+: b ∨ ∃ p x y s t, a = p ++ x :: s ∧ b = p ++ y :: t ∧ x ≠ y ∧ Dict x y

/-- `m'` says the same as `m` in another order: the members, the targets of each member, and the default members. -/
structure Rearranged (m m' : Metadata) : Prop where
  root : m'.workspaceRoot = m.workspaceRoot
  members : ∃ targets : PackageMeta → List Target, (∀ p ∈ m.packages, (targets p).Perm p.targets) ∧
    m'.packages.Perm (m.packages.map fun p => { p with targets := targets p })
  defaults : (∃ d d' : List Text, m.defaultMembers = some d ∧ m'.defaultMembers = some d' ∧ d'.Perm d) ∨
    (m.defaultMembers = none ∧ m'.defaultMembers = none)

end CM.Spec
