import Verif.Model.Progress
/-! What the display should show while the tree is searched and copied. -/
namespace CM.Spec
open CM

/-- A source file with the mutants in it whose names are allowed. -/
def FoundIn (w : World) (o : Options) (exprs : List Tokens) (x : SourceFile × List Mutant) : Prop :=
  ∃ syn all ext, w.parseFile x.1.code = some syn ∧
    walkFile { sourceFile := x.1, errorExprs := exprs, skipCalls := o.skipCalls } syn = some (all, ext) ∧
    retainAllowed o all = some x.2

/-- Those of files that are to be examined. -/
def examined (o : Options) (l : List (SourceFile × List Mutant)) : List (SourceFile × List Mutant) :=
  l.filter fun x => o.allowsSourceFilePath x.1.path

/-- The bytes of the files among some entries. -/
def bytesOf (size : Text → Nat) (es : List (Path × Copy.Kind)) : Nat :=
  (es.map fun e => match e.2 with | .file content => size content | _ => 0).sum

/-- The numbers of one display are not larger than those of another. -/
def notMore (a b : Progress.WalkModel) : Prop := a.files ≤ b.files ∧ a.mutants ≤ b.mutants

end CM.Spec
