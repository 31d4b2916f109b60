import Verif.Model.Visit
/-! What the walk over a file should find, by position in the tree and without any stack. -/
namespace CM.Spec
open CM

def _root_.CM.Node.kind : Node → NodeKind | .mk k _ _ => k
def _root_.CM.Node.attrs : Node → List Attr | .mk _ a _ => a
def _root_.CM.Node.children : Node → List Node | .mk _ _ c => c

/-- A position in the tree: the nodes from one of the roots down to a node. -/
inductive Position : List Node → List Node → Prop
  | root {roots n} : n ∈ roots → Position roots [n]
  | child {roots n path} : n ∈ roots → Position n.children path → Position roots (n :: path)

mutual
/-- All positions in and below a node that is below `path`, in document order: a node before what is
inside it. -/
def positions (path : List Node) : Node → List (List Node)
  | .mk k a cs => (path ++ [.mk k a cs]) :: positionsAll (path ++ [.mk k a cs]) cs
def positionsAll (path : List Node) : List Node → List (List Node)
  | [] => []
  | n :: rest => positions path n ++ positionsAll path rest
end

/-- An attribute that says `test`, `cfg(test)` or `mutants::skip` in a form that is recognised. -/
def Marks (a : Attr) : Prop :=
  a.path = ⟨false, ["test".toList]⟩ ∨
  a.path.idents = ["mutants".toList, "skip".toList] ∨
  (∃ items, a.args = .list items ∧ (∀ i ∈ items, i.simple = true) ∧
    ((a.path.idents = ["cfg".toList] ∧ ∃ i ∈ items, i.path = ⟨false, ["test".toList]⟩) ∨
     (a.path.idents = ["cfg_attr".toList] ∧ ∃ i ∈ items, i.path.idents = ["mutants".toList, "skip".toList])))

/-- The value of the first `#[path = "…"]`. -/
def pathValue (attrs : List Attr) : Option Text :=
  (attrs.filterMap fun a =>
    if a.path = ⟨false, ["path".toList]⟩ then
      match a.args with
      | .nameValue v => v
      | _ => none
    else none).head?

/-- Nodes that are left alone, with everything inside them. -/
def Skipped (skipCalls : List Text) (n : Node) : Prop :=
  match n.kind with
  | .other => False
  | .call callee => (∃ a ∈ n.attrs, Marks a) ∨ ∃ path name, callee = some path ∧ path.getLast? = some name ∧ name ∈ skipCalls
  | .methodCall name => (∃ a ∈ n.attrs, Marks a) ∨ name ∈ skipCalls
  | .fn kind sig block =>
    (∃ a ∈ n.attrs, Marks a) ∨ sig.isUnsafe = true ∨ (kind ≠ .item ∧ sig.name = "new".toList) ∨
      (∀ b, block = some b → b.stmts = [])
  | .impl _ tr => (∃ a ∈ n.attrs, Marks a) ∨ ∃ path tokens, tr = some (path, tokens) ∧ path.getLast? = some "Default".toList
  | .trait _ => ∃ a ∈ n.attrs, Marks a
  | .mod _ _ _ => (∃ a ∈ n.attrs, Marks a) ∨ ∃ v, pathValue n.attrs = some v ∧ v.head? = some '/'
  | .binary _ _ => ∃ a ∈ n.attrs, Marks a
  | .unary _ _ => ∃ a ∈ n.attrs, Marks a
  | .match _ => ∃ a ∈ n.attrs, Marks a

/-- The symbol of an operator. -/
def symbol : BinOp → Text
  | .add => "+".toList | .sub => "-".toList | .mul => "*".toList | .div => "/".toList | .rem => "%".toList
  | .and => "&&".toList | .or => "||".toList | .bitXor => "^".toList | .bitAnd => "&".toList
  | .bitOr => "|".toList | .shl => "<<".toList | .shr => ">>".toList | .eq => "==".toList
  | .lt => "<".toList | .le => "<=".toList | .ne => "!=".toList | .ge => ">=".toList | .gt => ">".toList
  | .addAssign => "+=".toList | .subAssign => "-=".toList | .mulAssign => "*=".toList
  | .divAssign => "/=".toList | .remAssign => "%=".toList | .bitXorAssign => "^=".toList
  | .bitAndAssign => "&=".toList | .bitOrAssign => "|=".toList | .shlAssign => "<<=".toList
  | .shrAssign => ">>=".toList

/-- `book/src/mutants.md:63-82`. -/
def operatorTable : List (Text × List Text) :=
  [("==".toList, ["!=".toList]),
   ("!=".toList, ["==".toList]),
   ("&&".toList, ["||".toList]),
   ("||".toList, ["&&".toList]),
   ("<".toList, ["==".toList, ">".toList]),
   (">".toList, ["==".toList, "<".toList]),
   ("<=".toList, [">".toList]),
   (">=".toList, ["<".toList]),
   ("+".toList, ["-".toList, "*".toList]),
   ("-".toList, ["+".toList, "/".toList]),
   ("*".toList, ["+".toList, "/".toList]),
   ("/".toList, ["%".toList, "*".toList]),
   ("%".toList, ["/".toList, "+".toList]),
   ("<<".toList, [">>".toList]),
   (">>".toList, ["<<".toList]),
   ("&".toList, ["|".toList, "^".toList]),
   ("|".toList, ["&".toList, "^".toList]),
   ("^".toList, ["&".toList, "|".toList])]

/-- `book/src/mutants.md:63-83`: `new` is a documented replacement for `old`. The last line of the table
is about the arithmetic rows. -/
inductive Documented : Text → Text → Prop
  | row {old news new} : (old, news) ∈ operatorTable → new ∈ news → Documented old new
  | assign {old news new} : old ∈ ["+".toList, "-".toList, "*".toList, "/".toList, "%".toList, "<<".toList,
      ">>".toList, "&".toList, "|".toList, "^".toList] → (old, news) ∈ operatorTable → new ∈ news →
      Documented (old ++ ['=']) (new ++ ['='])

/-- What replaces a binary operator, in order. -/
def operatorRow : BinOp → List Text
  | .eq => ["!=".toList] | .ne => ["==".toList] | .and => ["||".toList] | .or => ["&&".toList]
  | .lt => ["==".toList, ">".toList, "<=".toList] | .gt => ["==".toList, "<".toList, ">=".toList]
  | .le => [">".toList] | .ge => ["<".toList]
  | .add => ["-".toList, "*".toList] | .addAssign => ["-=".toList, "*=".toList]
  | .sub => ["+".toList, "/".toList] | .subAssign => ["+=".toList, "/=".toList]
  | .mul => ["+".toList, "/".toList] | .mulAssign => ["+=".toList, "/=".toList]
  | .div => ["%".toList, "*".toList] | .divAssign => ["%=".toList, "*=".toList]
  | .rem => ["/".toList, "+".toList] | .remAssign => ["/=".toList, "+=".toList]
  | .shl => [">>".toList] | .shlAssign => [">>=".toList]
  | .shr => ["<<".toList] | .shrAssign => ["<<=".toList]
  | .bitAnd => ["|".toList, "^".toList] | .bitAndAssign => ["|=".toList, "^=".toList]
  | .bitOr => ["&".toList, "^".toList] | .bitOrAssign => ["&=".toList, "^=".toList]
  | .bitXor => ["|".toList, "&".toList] | .bitXorAssign => ["|=".toList, "&=".toList]

/-- From the start of the first to the end of the last. -/
def wholeSpan : List Span → Option Span
  | [] => none
  | a :: rest => some ⟨a.start, ((a :: rest).getLast (by simp)).stop⟩

/-- The changes made at a node itself: where, what is put there, and of which genre. -/
def changes (errorExprs : List Tokens) (n : Node) : List (Span × Text × Genre) :=
  match n.kind with
  | .fn _ sig (some block) =>
    match wholeSpan block.stmts with
    | some span =>
      (((returnTypeReplacements sig.output errorExprs).map pretty).filter (· ≠ pretty block.inner)).map
        fun r => (span, r, .fnValue)
    | none => []
  | .binary op span => (operatorRow op).map fun r => (span, r, .binaryOperator)
  | .unary .not span => [(span, [], .unaryOperator)]
  | .unary .neg span => [(span, [], .unaryOperator)]
  | .match arms =>
    (arms.filter fun a => ¬ a.isWild ∧ a.guard = none ∧ ∃ w ∈ arms, w.isWild).map (fun a => (a.span, [], .matchArm)) ++
    arms.flatMap fun a =>
      match a.guard with
      | some g => [(g, "true".toList, .matchArmGuard), (g, "false".toList, .matchArmGuard)]
      | none => []
  | _ => []

/-- What a raw name `r#name` stands for. -/
def plainName : Text → Text
  | 'r' :: '#' :: name => name
  | name => name

/-- How a node appears in the names of the functions inside it. -/
def label (n : Node) : Option Text :=
  match n.kind with
  | .fn _ sig _ => some sig.name
  | .impl selfTy none => some (pretty selfTy)
  | .impl selfTy (some (_, tr)) => some ("<impl ".toList ++ pretty tr ++ " for ".toList ++ pretty selfTy ++ ">".toList)
  | .trait name => some name
  | .mod name _ _ => some (plainName name)
  | _ => none

/-- `f` describes the last node of the path, a function, with the names of the nodes around it. -/
def describeFn (path : List Node) (sig : Sig) : Function :=
  { functionName := joinWith "::".toList (path.filterMap label), returnType := pretty sig.outputTokens, span := sig.span }

/-- The function that the last node of a path is, or is in. The first argument is what lies outside. -/
def functionFrom (outer : List Node) (found : Option Function) : List Node → Option Function
  | [] => found
  | n :: rest =>
    functionFrom (outer ++ [n])
      (match n.kind with
       | .fn _ sig _ => some (describeFn (outer ++ [n]) sig)
       | _ => found) rest

def functionAt (path : List Node) : Option Function := functionFrom [] none path

/-- The mutants made at a position. -/
def mutantsAt (c : VConfig) (path : List Node) : List Mutant :=
  match path.getLast? with
  | some n => (changes c.errorExprs n).map fun (span, replacement, genre) =>
      { sourceFile := c.sourceFile, function := functionAt path, span, replacement, genre }
  | none => []

/-- The description of a module. -/
def modOf (n : Node) : Option ModNamespace :=
  match n.kind with
  | .mod name _ span => some { name := plainName name, pathAttribute := pathValue n.attrs, span }
  | _ => none

/-- The modules around a `mod x;`, and itself. -/
def externalAt (path : List Node) : Option (List ModNamespace) :=
  match path.getLast? with
  | some n =>
    match n.kind with
    | .mod _ false _ => some (path.filterMap modOf)
    | _ => none
  | none => none

open Classical in
/-- The positions that are not in a skipped node. -/
noncomputable def unskipped (skipCalls : List Text) (paths : List (List Node)) : List (List Node) :=
  paths.filter fun path => decide (∀ n ∈ path, ¬ Skipped skipCalls n)

end CM.Spec
