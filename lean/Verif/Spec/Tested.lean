import Verif.Spec.BuildDir
import Verif.Spec.Edit
import Verif.Spec.Reads
/-! What of a program a mutant changes, in tokens. -/
namespace CM.Spec
open CM

/-- A value for what a function returns, from the table. -/
def ValueFor (errs : List Text) (ret : Option Ty) (v : Text) : Prop :=
  match ret with
  | none => v = "()".toList
  | some t => ∃ vs, Values errs t vs ∧ v ∈ vs

/-- The construct at a node that may be replaced has this span. -/
def Place (n : Node) (span : Span) : Prop :=
  match n.kind with
  | .binary _ sp => span = sp
  | .unary _ sp => span = sp
  | .fn _ _ (some block) => wholeSpan block.stmts = some span
  | .match arms => ∃ a ∈ arms, span = a.span ∨ a.guard = some span
  | _ => False

/-- This text at this span of a node may be replaced by that one: an operator by another of its row, `!` and `-` and an arm by
nothing, a guard by a constant, and the body of a function by a value. -/
def Change (errs : List Text) (n : Node) (span : Span) (orig repl : Text) : Prop :=
  match n.kind with
  | .binary op sp => span = sp ∧ orig = symbol op ∧ repl ∈ operatorRow op
  | .unary op sp => span = sp ∧ (op = .not ∧ orig = "!".toList ∨ op = .neg ∧ orig = "-".toList) ∧ repl = []
  | .fn _ sig (some block) => wholeSpan block.stmts = some span ∧ ValueFor errs sig.output repl
  | .match arms => ∃ a ∈ arms, span = a.span ∧ a.guard = none ∧ repl = [] ∨
      a.guard = some span ∧ (repl = "true".toList ∨ repl = "false".toList)
  | _ => False

/-- What may be before a construct: an operand before an operator, and a space, a bracket or a comment before a guard or a body. -/
def MayPrecede (n : Node) (span : Span) (pre : Text) : Prop :=
  match n.kind with
  | .binary _ _ => AfterOperand pre
  | .fn _ _ _ => modeAfter pre = .start
  | .match arms => (∃ a ∈ arms, a.guard = some span) → modeAfter pre = .start
  | _ => True

/-- A syntax tree of this text, in which constructs begin and end where tokens do. -/
structure TreeOfTokens (code : Text) (f : SynFile) : Prop where
  tree : TreeOf code f
  plain : PlainFile f
  clean : '\r' ∉ code
  edges : ∀ path n, Position f.items (path ++ [n]) → ∀ pre orig post, code = pre ++ orig ++ post → Place n (spanOf pre orig) →
    Apart pre (orig ++ post) ∧ Apart (pre ++ orig) post ∧ MayPrecede n (spanOf pre orig) pre

/-- The second text has the tokens of the first, but for those of one construct of the tree, in the place of which are those of a
replacement for it. -/
def OneExchanged (errs : List Text) (f : SynFile) (code after : Text) : Prop :=
  ∃ path n pre orig repl post, Position f.items (path ++ [n]) ∧ code = pre ++ orig ++ post ∧
    Change errs n (spanOf pre orig) orig repl ∧
    lexemes code = lexemes pre ++ lexemes orig ++ lexemes post ∧ lexemes after = lexemes pre ++ lexemes repl ++ lexemes post

end CM.Spec
