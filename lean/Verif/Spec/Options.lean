import Verif.Spec.Glob
import Verif.Model.InDiff
import Verif.Model.Utf8
/-! Which of the command line and the config file counts, and what a filter lets through. -/
namespace CM.Spec

/-- The command line value if there is one, otherwise the config value, otherwise the default. -/
def Precedence {α : Type _} (cmd cfg : Option α) (dflt result : α) : Prop :=
  (∀ v, cmd = some v → result = v) ∧
  (cmd = none → ∀ v, cfg = some v → result = v) ∧
  (cmd = none → cfg = none → result = dflt)

/-- The command line list unless it is empty, otherwise the config list. -/
def FirstGiven {α : Type _} (cmd cfg result : List α) : Prop :=
  (cmd ≠ [] → result = cmd) ∧ (cmd = [] → result = cfg)

/-- A glob with a separator matches whole paths, another one matches any component. -/
def TextMatches (g : Text) (path : List Text) : Prop :=
  if '/' ∈ g then PathMatch (splitOn '/' g) path else ∃ c ∈ path, SegMatch g c

/-- Globs are matched by bytes. -/
def GlobMatches (g : Text) (path : List Text) : Prop := TextMatches (utf8 g) (path.map utf8)

/-- Not empty, not ending in a separator, no classes, alternatives or dangling backslash. -/
def GlobOk (g : Text) : Prop :=
  (splitOn '/' g).getLast? ≠ some [] ∧ ∀ s ∈ splitOn '/' g, segOk s = true

/-- Let through if there are no patterns to match or one of them matches, and none of the excluding
ones does. -/
def Allowed (pats excl : List Text) (isMatch : Text → Prop) : Prop :=
  (pats = [] ∨ ∃ p ∈ pats, isMatch p) ∧ ¬ ∃ p ∈ excl, isMatch p

end CM.Spec
