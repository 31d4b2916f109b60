import Verif.Model.FnValue
/-! The walk over the syntax tree of one file: `src/visit.rs`, with the parts of `syn`'s tree that it
looks at. -/
namespace CM

/-- The path of an attribute, or of one of its arguments; such paths have no type arguments. -/
structure AttrPath where
  leadingColon : Bool := false
  idents : List Text
deriving DecidableEq, Repr

/-- One of the comma-separated arguments of an attribute: its path, and whether it is only a path, as
opposed to `path = value` and `path(…)`. -/
structure MetaItem where
  path : AttrPath
  simple : Bool := true
deriving DecidableEq, Repr

/-- What follows the path of an attribute: nothing, `(…)`, or `= value`, where `none` is a value that is
not a string literal. -/
inductive AttrArgs
  | none
  | list (items : List MetaItem)
  | nameValue (value : Option Text)
deriving DecidableEq, Repr

/-- `syn::Attribute`. -/
structure Attr where
  path : AttrPath
  args : AttrArgs := .none
deriving DecidableEq, Repr

/-- `syn::Path::is_ident`. -/
def AttrPath.isIdent (p : AttrPath) (i : Text) : Bool := !p.leadingColon && p.idents == [i]

/-- `src/visit.rs:792-794` `path_is`. -/
def pathIs (p : AttrPath) (idents : List Text) : Bool := p.idents == idents

/-- `syn::Attribute::parse_nested_meta` with a callback that only looks at the path: an error (`none`)
unless the attribute has arguments in parentheses, and each is only a path. -/
def Attr.nestedMeta (a : Attr) : Option (List AttrPath) :=
  match a.args with
  | .list items => if items.all (·.simple) then some (items.map (·.path)) else none
  | _ => none

/-- `src/visit.rs:770-784`, and the same at `817-831`: whether one of the nested paths is as wanted, and
there was no error. -/
def Attr.nestedAny (a : Attr) (f : AttrPath → Bool) : Bool :=
  match a.nestedMeta with
  | none => false
  | some paths => paths.any f

/-- `src/visit.rs:764-785` `attr_is_cfg_test`. -/
def attrIsCfgTest (a : Attr) : Bool :=
  pathIs a.path ["cfg".toList] && a.nestedAny (·.isIdent "test".toList)

/-- `src/visit.rs:787-790` `attr_is_test`. -/
def attrIsTest (a : Attr) : Bool := a.path.isIdent "test".toList

/-- `src/visit.rs:807-832` `attr_is_mutants_skip`. -/
def attrIsMutantsSkip (a : Attr) : Bool :=
  pathIs a.path ["mutants".toList, "skip".toList] ||
  pathIs a.path ["cfg_attr".toList] && a.nestedAny (pathIs · ["mutants".toList, "skip".toList])

/-- `src/visit.rs:753-757` `attrs_excluded`. -/
def attrsExcluded (attrs : List Attr) : Bool :=
  attrs.any fun a => attrIsCfgTest a || attrIsTest a || attrIsMutantsSkip a

/-- `src/visit.rs:838-861` `find_path_attribute`: `none` is the error for an absolute path. -/
def findPathAttribute : List Attr → Option (Option Text)
  | [] => some none
  | a :: rest =>
    match a.args with
    | .nameValue (some v) =>
      if a.path.isIdent "path".toList then
        if v.head? = some '/' then none else some (some v)
      else findPathAttribute rest
    | _ => findPathAttribute rest

/-- `syn::BinOp`. -/
inductive BinOp
  | add | sub | mul | div | rem | and | or | bitXor | bitAnd | bitOr | shl | shr
  | eq | lt | le | ne | ge | gt
  | addAssign | subAssign | mulAssign | divAssign | remAssign | bitXorAssign | bitAndAssign
  | bitOrAssign | shlAssign | shrAssign
deriving DecidableEq, Repr

/-- `syn::UnOp`. -/
inductive UnOp | deref | not | neg
deriving DecidableEq, Repr

/-- An operator as tokens, by its characters. -/
def opTokens (s : String) : Tokens := s.toList.map .punct

/-- `src/visit.rs:532-572`: what replaces a binary operator. -/
def BinOp.replacements : BinOp → List Tokens
  | .eq => [opTokens "!="]
  | .ne => [opTokens "=="]
  | .and => [opTokens "||"]
  | .or => [opTokens "&&"]
  | .lt => [opTokens "==", opTokens ">", opTokens "<="]
  | .gt => [opTokens "==", opTokens "<", opTokens ">="]
  | .le => [opTokens ">"]
  | .ge => [opTokens "<"]
  | .add => [opTokens "-", opTokens "*"]
  | .addAssign => [opTokens "-=", opTokens "*="]
  | .sub | .mul => [opTokens "+", opTokens "/"]
  | .subAssign | .mulAssign => [opTokens "+=", opTokens "/="]
  | .div => [opTokens "%", opTokens "*"]
  | .divAssign => [opTokens "%=", opTokens "*="]
  | .rem => [opTokens "/", opTokens "+"]
  | .remAssign => [opTokens "/=", opTokens "+="]
  | .shl => [opTokens ">>"]
  | .shlAssign => [opTokens ">>="]
  | .shr => [opTokens "<<"]
  | .shrAssign => [opTokens "<<="]
  | .bitAnd => [opTokens "|", opTokens "^"]
  | .bitAndAssign => [opTokens "|=", opTokens "^="]
  | .bitOr => [opTokens "&", opTokens "^"]
  | .bitOrAssign => [opTokens "&=", opTokens "^="]
  | .bitXor => [opTokens "|", opTokens "&"]
  | .bitXorAssign => [opTokens "|=", opTokens "&="]

/-- Where a function is defined. -/
inductive FnKind | item | impl | trait
deriving DecidableEq, Repr

/-- The parts of `syn::Signature` that are used, with the tokens of the return type and the span of the
whole function. -/
structure Sig where
  isUnsafe : Bool := false
  name : Text
  output : Option Ty := none
  outputTokens : Tokens := []
  span : Span

/-- `syn::Block`: the spans of its statements, and the tokens between the braces. -/
structure Block where
  stmts : List Span
  inner : Tokens

/-- `syn::Arm`, without what is visited as a child. -/
structure Arm where
  isWild : Bool
  guard : Option Span
  span : Span
deriving DecidableEq, Repr

/-- The nodes that the visitor has a method for, and `other` for the rest. -/
inductive NodeKind
  | other
  /-- with the names in the path that is called, if the function is a path -/
  | call (callee : Option (List Text))
  | methodCall (method : Text)
  | fn (kind : FnKind) (sig : Sig) (block : Option Block)
  /-- with the names and tokens of the trait's path -/
  | impl (selfTy : Tokens) (traitPath : Option (List Text × Tokens))
  | trait (name : Text)
  | mod (name : Text) (inline : Bool) (span : Span)
  | binary (op : BinOp) (span : Span)
  | unary (op : UnOp) (span : Span)
  | match (arms : List Arm)

/-- A syntax tree. The children are the ones that `syn::visit` visits, in its order; macro calls are
leaves. -/
inductive Node
  | mk (kind : NodeKind) (attrs : List Attr) (children : List Node)

/-- `src/visit.rs:190-210` `ModNamespace`. -/
structure ModNamespace where
  name : Text
  pathAttribute : Option Text
  span : Span
deriving DecidableEq, Repr

/-- `src/visit.rs:217-254` `DiscoveryVisitor`, what changes. The last element is the top of a stack. -/
structure VState where
  mutants : List Mutant := []
  modStack : List ModNamespace := []
  nsStack : List Text := []
  fnStack : List Function := []
  externalMods : List (List ModNamespace) := []
deriving DecidableEq, Repr

/-- `src/visit.rs:217-254` `DiscoveryVisitor`, what does not change. -/
structure VConfig where
  sourceFile : SourceFile
  errorExprs : List Tokens := []
  skipCalls : List Text := []

/-- `src/visit.rs:286-294` `collect_mutant`. -/
def VState.collect (c : VConfig) (s : VState) (span : Span) (replacement : Tokens) (genre : Genre) : VState :=
  { s with mutants := s.mutants ++ [{ sourceFile := c.sourceFile, function := s.fnStack.getLast?, span,
                                      replacement := pretty replacement, genre }] }

/-- `src/visit.rs:257-272` `enter_function`. -/
def VState.enterFunction (s : VState) (sig : Sig) : VState × Function :=
  let ns := s.nsStack ++ [sig.name]
  let f : Function := { functionName := joinWith "::".toList ns, returnType := pretty sig.outputTokens, span := sig.span }
  ({ s with nsStack := ns, fnStack := s.fnStack ++ [f] }, f)

/-- `src/visit.rs:274-283` `leave_function`; `none` is a panic. -/
def VState.leaveFunction (s : VState) (f : Function) : Option VState :=
  if s.nsStack = [] then none
  else if s.fnStack.getLast? = some f then
    some { s with nsStack := s.nsStack.dropLast, fnStack := s.fnStack.dropLast }
  else none

/-- `src/visit.rs:648-653` `function_body_span`. -/
def functionBodySpan (b : Block) : Option Span := do
  let first ← b.stmts.head?
  let last ← b.stmts.getLast?
  pure { start := first.start, stop := last.stop }

/-- The loop `src/visit.rs:308-324`. -/
def collectFnLoop (c : VConfig) (origBlock : Text) (span : Span) : List Tokens → VState → VState
  | [], s => s
  | rep :: rest, s =>
    let newBlock := pretty [.group .brace rep]
    collectFnLoop c origBlock span rest
      (if origBlock = newBlock then s else s.collect c span rep .fnValue)

/-- `src/visit.rs:296-329` `collect_fn_mutants`; `none` is a panic. -/
def VState.collectFnMutants (c : VConfig) (s : VState) (sig : Sig) (block : Block) : Option VState :=
  match s.fnStack.getLast? with
  | some _ => do
    let span ← functionBodySpan block
    let repls := returnTypeReplacements sig.output c.errorExprs
    pure (collectFnLoop c (pretty [.group .brace block.inner]) span repls s)
  | none => some s

/-- The start of `src/visit.rs:334-342` `in_namespace`. -/
def VState.push (s : VState) (name : Text) : VState := { s with nsStack := s.nsStack ++ [name] }

/-- The end of `src/visit.rs:334-342` `in_namespace`; `none` is a panic. -/
def VState.pop (s : VState) (name : Text) : Option VState :=
  if s.nsStack.getLast? = some name then some { s with nsStack := s.nsStack.dropLast } else none

/-- `IdentExt::unraw`. -/
def unraw (name : Text) : Text := if "r#".toList.isPrefixOf name then name.drop 2 else name

/-- `src/visit.rs:609-641`: mutants of a match. -/
def collectArms (c : VConfig) (s : VState) (arms : List Arm) : VState :=
  let s :=
    if arms.any (·.isWild) then
      (arms.filter fun a => !a.isWild && a.guard.isNone).foldl
        (fun s a => s.collect c a.span [] .matchArm) s
    else s
  (arms.filterMap (·.guard)).foldl
    (fun s g => (s.collect c g [qi "true"] .matchArmGuard).collect c g [qi "false"] .matchArmGuard) s

mutual
/-- `src/visit.rs:345-645`: the methods of the visitor; `none` is a panic. -/
def visit (c : VConfig) : Node → VState → Option VState
  | .mk kind attrs children, s =>
    match kind with
    | .other => visitAll c children s
    | .call callee =>
      -- 346-364
      if attrsExcluded attrs then some s
      else if c.skipCalls.any fun k => callee.any fun p => p.getLast? == some k then some s
      else visitAll c children s
    | .methodCall method =>
      -- 366-376
      if attrsExcluded attrs then some s
      else if c.skipCalls.any fun k => method == k then some s
      else visitAll c children s
    | .fn kind sig block =>
      -- 388-452, with 741-748 `fn_sig_excluded` and 760-762 `block_is_empty`
      if sig.isUnsafe || attrsExcluded attrs || (kind != .item && sig.name == "new".toList) then some s
      else match block with
        | none => some s
        | some block =>
          if block.stmts.isEmpty then some s
          else do
            let (s, f) := s.enterFunction sig
            let s ← s.collectFnMutants c sig block
            let s ← visitAll c children s
            s.leaveFunction f
    | .impl selfTy traitPath =>
      -- 455-470
      if attrsExcluded attrs then some s
      else
        match traitPath with
        | some (idents, tokens) =>
          if idents.getLast? = some "Default".toList then some s
          else
            let name := "<impl ".toList ++ pretty tokens ++ " for ".toList ++ pretty selfTy ++ ">".toList
            do (← visitAll c children (s.push name)).pop name
        | none => do (← visitAll c children (s.push (pretty selfTy))).pop (pretty selfTy)
    | .trait name =>
      -- 473-480
      if attrsExcluded attrs then some s
      else do (← visitAll c children (s.push name)).pop name
    | .mod name inline span =>
      -- 483-523
      if attrsExcluded attrs then some s
      else
        match findPathAttribute attrs with
        | none => some s
        | some pathAttribute =>
          let ns : ModNamespace := { name := unraw name, pathAttribute, span }
          let modStack := s.modStack ++ [ns]
          let s := { s with modStack, externalMods :=
            if inline then s.externalMods else s.externalMods ++ [modStack] }
          do
            let s ← (← visitAll c children (s.push ns.name)).pop ns.name
            if s.modStack.getLast? = some ns then some { s with modStack := s.modStack.dropLast } else none
    | .binary op span =>
      -- 526-577
      if attrsExcluded attrs then some s
      else visitAll c children (op.replacements.foldl (fun s rep => s.collect c span rep .binaryOperator) s)
    | .unary op span =>
      -- 579-597
      if attrsExcluded attrs then some s
      else visitAll c children
        (match op with
         | .not | .neg => s.collect c span [] .unaryOperator
         | .deref => s)
    | .match arms =>
      -- 599-644
      if attrsExcluded attrs then some s
      else visitAll c children (collectArms c s arms)

/-- Children in order, as in the functions of `syn::visit`. -/
def visitAll (c : VConfig) : List Node → VState → Option VState
  | [], s => some s
  | n :: rest, s => do visitAll c rest (← visit c n s)
end

/-- `syn::File`. -/
structure SynFile where
  attrs : List Attr := []
  items : List Node

/-- `src/visit.rs:134-155` `walk_file`, after parsing, and `378-386` `visit_file`. -/
def walkFile (c : VConfig) (f : SynFile) : Option (List Mutant × List (List ModNamespace)) := do
  let s ← if attrsExcluded f.attrs then some {} else visitAll c f.items {}
  pure (s.mutants, s.externalMods)

end CM
