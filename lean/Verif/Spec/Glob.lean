import Verif.Model.Mutant
/-! What the documentation says a glob matches, in terms of path components. -/
namespace CM.Spec

/-- A part of a glob between separators matches one component of a path: `*` stands for any
characters, `?` for one, a backslash takes the next character literally. -/
inductive SegMatch : Text → Text → Prop
  | nil : SegMatch [] []
  | one {g s} (c) : SegMatch g s → SegMatch ('?' :: g) (c :: s)
  | none {g s} : SegMatch g s → SegMatch ('*' :: g) s
  | more {g s} (c) : SegMatch ('*' :: g) s → SegMatch ('*' :: g) (c :: s)
  | escaped {g s} (c) : SegMatch g s → SegMatch ('\\' :: c :: g) (c :: s)
  | literal {g s} (c) : c ≠ '?' → c ≠ '*' → c ≠ '\\' → SegMatch g s → SegMatch (c :: g) (c :: s)

/-- `**` -/
def starstar : Text := "**".toList

/-- The parts of a glob between separators match the components of a path: `**` stands for any
number of components, at the end for at least one. -/
inductive PathMatch : List Text → List Text → Prop
  | nil : PathMatch [] []
  | seg {g c gs cs} : g ≠ starstar → SegMatch g c → PathMatch gs cs → PathMatch (g :: gs) (c :: cs)
  | noDirs {gs cs} : gs ≠ [] → PathMatch gs cs → PathMatch (starstar :: gs) cs
  | moreDirs {gs c cs} : PathMatch (starstar :: gs) cs → PathMatch (starstar :: gs) (c :: cs)
  | last {c} : PathMatch [starstar] [c]

/-- Parts without classes and alternatives, and without a backslash at the end. -/
def segOk : Text → Bool
  | [] => true
  | c :: cs =>
    if c = '\\' then
      match cs with
      | [] => false
      | _ :: ds => segOk ds
    else c != '[' && c != '{' && c != '}' && segOk cs

/-- The components of a path that has any contain no separator. -/
def PathOk (p : List Text) : Prop := p ≠ [] ∧ ∀ c ∈ p, '/' ∉ c

end CM.Spec
