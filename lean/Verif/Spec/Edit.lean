import Verif.Spec.Visit
import Verif.Spec.Span
/-! A syntax tree of a text: where in the text the constructs are that mutants change. -/
namespace CM.Spec
open CM

/-- At the span there is this text. -/
def AtText (code : Text) (span : Span) (t : Text) : Prop :=
  ∃ pre post, code = pre ++ t ++ post ∧ span = spanOf pre t

/-- The spans are those of pieces of the text that follow one another, with anything in between; `pre` is what is before
`rest`. -/
def Follow (pre : Text) : List Span → (rest : Text) → Prop
  | [], _ => True
  | s :: ss, rest => ∃ gap t rest', rest = gap ++ t ++ rest' ∧ s = spanOf (pre ++ gap) t ∧ Follow (pre ++ gap ++ t) ss rest'

/-- What is said about places in a node is so in the text: the operators are there, the statements of a block follow one
another, and arms and guards are somewhere. -/
def InText (code : Text) (n : Node) : Prop :=
  match n.kind with
  | .binary op span => AtText code span (symbol op)
  | .unary .not span => AtText code span "!".toList
  | .unary .neg span => AtText code span "-".toList
  | .fn _ _ (some block) => Follow [] block.stmts code
  | .match arms => ∀ a ∈ arms, (∃ t, AtText code a.span t) ∧ ∀ g, a.guard = some g → ∃ t, AtText code g t
  | _ => True

/-- A tree of this text. -/
def TreeOf (code : Text) (f : SynFile) : Prop :=
  ∀ path n, Position f.items (path ++ [n]) → InText code n

/-- What kind of mutant may replace what by what. -/
def MayReplace (genre : Genre) (orig repl : Text) : Prop :=
  match genre with
  | .binaryOperator => ∃ op, orig = symbol op ∧ repl ∈ operatorRow op
  | .unaryOperator => (orig = "!".toList ∨ orig = "-".toList) ∧ repl = []
  | .matchArmGuard => repl = "true".toList ∨ repl = "false".toList
  | .matchArm => repl = []
  | .fnValue => True

end CM.Spec
