import Verif.Model.Mutant
/-! How to read the name of a mutant from the left. -/
namespace CM.Spec
open CM

/-- The text up to a colon, and the rest after it. -/
def upToColon : Text → Option (Text × Text)
  | [] => none
  | c :: rest => if c = ':' then some ([], rest) else (upToColon rest).map fun (a, b) => (c :: a, b)

/-- The file, line, column and description in the name of a mutant: `file:line:column: description`. -/
def readName (name : Text) : Option (Text × Text × Text × Text) := do
  let (file, rest) ← upToColon name
  let (line, rest) ← upToColon rest
  let (column, rest) ← upToColon rest
  match rest with
  | ' ' :: description => some (file, line, column, description)
  | _ => none

/-- A relative path with ordinary names. -/
def OrdinaryPath (p : Path) : Prop := p ≠ [] ∧ ∀ c ∈ p, c ≠ [] ∧ '/' ∉ c ∧ c ≠ "\\".toList ∧ ':' ∉ c

/-- The words of a description, as in the examples of `book/src/mutants.md` and `--list`: `replace factorial ->
u32 with Default::default()`, `replace == with != in f`, `delete ! in f`, `delete match arm`. The texts taken
from the source may have spaces in them. `none` for a value mutant without function. -/
def wording (m : Mutant) : Option (List Text) :=
  match m.genre, m.function with
  | .fnValue, none => none
  | .fnValue, some f =>
    some (["replace".toList, f.functionName] ++ [f.returnType].filter (· ≠ []) ++ ["with".toList, m.replacement])
  | .matchArm, _ => some ["delete".toList, "match".toList, "arm".toList]
  | .matchArmGuard, _ => some ["replace".toList, "match".toList, "guard".toList, "with".toList, m.replacement]
  | _, f =>
    let original := originalText m.sourceFile.code m.span
    let change := match m.replacement with
      | [] => ["delete".toList, original]
      | r => ["replace".toList, original, "with".toList, r]
    let place := match f with
      | none => []
      | some f => ["in".toList, f.functionName]
    some (change ++ place)

end CM.Spec
