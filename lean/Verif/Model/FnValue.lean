import Verif.Model.Tokens
/-! Values to replace function bodies: `src/fnvalue.rs`, with the parts of `syn::Type` that it looks at. -/
namespace CM

/-- `syn::GenericArgument`. -/
inductive GenericArg (α : Type)
  | lifetime
  | type (t : α)
  | assocType (name : Text) (t : α)
  /-- constants, associated constants and constraints -/
  | other
deriving Repr

/-- `syn::PathArguments`. -/
inductive PathArgs (α : Type)
  | none
  | angle (args : List (GenericArg α))
  | paren
deriving Repr

/-- `syn::PathSegment`. -/
structure PathSegment (α : Type) where
  ident : Text
  args : PathArgs α
deriving Repr

/-- `syn::Path`. -/
structure SynPath (α : Type) where
  leadingColon : Bool
  segments : List (PathSegment α)
deriving Repr

/-- `syn::TypeParamBound`. -/
inductive Bound (α : Type)
  | trait (path : SynPath α)
  | other
deriving Repr

/-- `syn::Type`, without what `type_replacements` does not look at: qualified self types, lifetimes of
references. -/
inductive Ty
  | path (p : SynPath Ty)
  | array (elem : Ty) (len : Tokens)
  | slice (elem : Ty)
  | reference (mutable : Bool) (elem : Ty)
  | tuple (elems : List Ty)
  | implTrait (bounds : List (Bound Ty))
  | never
  /-- function pointers, raw pointers, trait objects, parentheses, macros, … -/
  | other

/-! ### `quote!` -/

/-- An identifier token. -/
def qi (s : String) : TokenTree := .ident s.toList
/-- A literal token. -/
def ql (s : String) : TokenTree := .literal s.toList
/-- `::` -/
def colon2 : Tokens := [.punct ':', .punct ':']
/-- `(…)` -/
def parens (ts : Tokens) : TokenTree := .group .paren ts

/-- `Default::default()` -/
def qDefault : Tokens := [qi "Default"] ++ colon2 ++ [qi "default", parens []]
/-- `name(rep)` -/
def qCall (name : String) (rep : Tokens) : Tokens := [qi name, parens rep]
/-- `type::method(args)` -/
def qPathCall (type : Text) (method : String) (args : Tokens) : Tokens :=
  [.ident type] ++ colon2 ++ [qi method, parens args]
/-- `vec![rep]` -/
def qVec (rep : Tokens) : Tokens := [qi "vec", .punct '!', .group .bracket rep]
/-- `[rep]` -/
def qArray (rep : Tokens) : Tokens := [.group .bracket rep]
/-- `Vec::leak(rep)` -/
def qLeakVec (rep : Tokens) : Tokens := qPathCall "Vec".toList "leak" rep
/-- `::std::iter::name(rep)` -/
def qIter (name : String) (rep : Tokens) : Tokens :=
  colon2 ++ [qi "std"] ++ colon2 ++ [qi "iter"] ++ colon2 ++ [qi name, parens rep]
/-- Tokens separated by commas, `#( #reps ),*`. -/
def commaSep : List Tokens → Tokens
  | [] => []
  | [r] => r
  | r :: s :: rest => r ++ [.punct ','] ++ commaSep (s :: rest)

/-! ### Matching paths -/

/-- `syn::Path::is_ident`. -/
def SynPath.isIdent {α} (p : SynPath α) (name : Text) : Bool :=
  !p.leadingColon &&
  match p.segments with
  | [s] => s.ident == name && (match s.args with | .none => true | _ => false)
  | _ => false

/-- `src/fnvalue.rs:241-243` `path_ends_with` (also `src/visit.rs:803-805`). -/
def SynPath.endsWith {α} (p : SynPath α) (name : Text) : Bool :=
  match p.segments.getLast? with
  | some s => s.ident == name
  | none => false

/-- The loop of `src/fnvalue.rs:425-431`. -/
def firstTypeArg {α} : List (GenericArg α) → Option α
  | [] => none
  | .type t :: _ => some t
  | .lifetime :: rest => firstTypeArg rest
  | _ :: _ => none

/-- `src/fnvalue.rs:416-435` `match_first_type_arg`. -/
def matchFirstTypeArg {α} (p : SynPath α) (name : Text) : Option α :=
  match p.segments.getLast? with
  | some s =>
    if s.ident = name then
      match s.args with
      | .angle args => firstTypeArg args
      | _ => none
    else none
  | none => none

/-- `args.len() == 1` and it is a type: `src/fnvalue.rs:285-289`, `318-322`. -/
def onlyArg {α} : PathArgs α → Option α
  | .angle [.type t] => some t
  | _ => none

/-- `src/fnvalue.rs:274-293` `known_container`. -/
def knownContainer {α} (p : SynPath α) : Option (Text × α) :=
  match p.segments.getLast? with
  | some s =>
    if s.ident ∈ ["Box", "Cell", "RefCell", "Arc", "Rc", "Mutex"].map String.toList then
      (onlyArg s.args).map fun t => (s.ident, t)
    else none
  | none => none

/-- `src/fnvalue.rs:299-325` `known_collection`. -/
def knownCollection {α} (p : SynPath α) : Option (Text × α) :=
  match p.segments.getLast? with
  | some s =>
    if s.ident ∈ ["BinaryHeap", "BTreeSet", "HashSet", "LinkedList", "VecDeque"].map String.toList then
      (onlyArg s.args).map fun t => (s.ident, t)
    else none
  | none => none

/-- Exactly two arguments, both types: `src/fnvalue.rs:339-343`. -/
def twoArgs {α} : PathArgs α → Option (α × α)
  | .angle [.type k, .type v] => some (k, v)
  | _ => none

/-- `src/fnvalue.rs:329-346` `known_map`. -/
def knownMap {α} (p : SynPath α) : Option (Text × α × α) :=
  match p.segments.getLast? with
  | some s =>
    if s.ident ∈ ["BTreeMap", "HashMap"].map String.toList then
      (twoArgs s.args).map fun (k, v) => (s.ident, k, v)
    else none
  | none => none

/-- The type arguments: `src/fnvalue.rs:353-361`. -/
def typeArgs {α} : List (GenericArg α) → List α
  | [] => []
  | .type t :: rest => t :: typeArgs rest
  | _ :: rest => typeArgs rest

/-- `src/fnvalue.rs:348-366` `maybe_collection_or_container`. -/
def maybeCollectionOrContainer {α} (p : SynPath α) : Option (Text × α) :=
  match p.segments.getLast? with
  | some s =>
    match s.args with
    | .angle args =>
      match typeArgs args with
      | [t] => some (s.ident, t)
      | _ => none
    | _ => none
  | none => none

/-- `src/fnvalue.rs:368-414`. -/
def isUnsigned {α} (p : SynPath α) : Bool :=
  ["u8", "u16", "u32", "u64", "u128", "usize"].any fun s => p.isIdent s.toList
def isSigned {α} (p : SynPath α) : Bool :=
  ["i8", "i16", "i32", "i64", "i128", "isize"].any fun s => p.isIdent s.toList
def isFloat {α} (p : SynPath α) : Bool := ["f32", "f64"].any fun s => p.isIdent s.toList
def isNonzeroSigned {α} (p : SynPath α) : Bool :=
  ["NonZeroIsize", "NonZeroI8", "NonZeroI16", "NonZeroI32", "NonZeroI64", "NonZeroI128"].any fun s =>
    p.endsWith s.toList
def isNonzeroUnsigned {α} (p : SynPath α) : Bool :=
  ["NonZeroUsize", "NonZeroU8", "NonZeroU16", "NonZeroU32", "NonZeroU64", "NonZeroU128"].any fun s =>
    p.endsWith s.toList

/-- `src/fnvalue.rs:245-268` `match_impl_iterator`. -/
def matchImplIterator {α} : List (Bound α) → Option α
  | [] => none
  | .other :: rest => matchImplIterator rest
  | .trait p :: rest =>
    match p.segments.getLast? with
    | some s =>
      if s.ident = "Iterator".toList then
        match s.args with
        | .angle (.assocType name t :: _) => if name = "Item".toList then some t else matchImplIterator rest
        | _ => matchImplIterator rest
      else matchImplIterator rest
    | none => matchImplIterator rest

/-- `Itertools::multi_cartesian_product` (version 0.13: the product of nothing is one empty list). -/
def product {α} : List (List α) → List (List α)
  | [] => [[]]
  | xs :: rest => xs.flatMap fun x => (product rest).map (x :: ·)

/-- `src/fnvalue.rs:40-152`: the values for a path, where each type in the path is given by its
values. -/
def pathReplacements (errs : List Tokens) (p : SynPath (List Tokens)) : List Tokens :=
  if p.isIdent "bool".toList then [[qi "true"], [qi "false"]]
  else if p.isIdent "String".toList then
    [qPathCall "String".toList "new" [], [ql "\"xyzzy\"", .punct '.', qi "into", parens []]]
  else if p.isIdent "str".toList then [[ql "\"\""], [ql "\"xyzzy\""]]
  else if isUnsigned p then [[ql "0"], [ql "1"]]
  else if isSigned p then [[ql "0"], [ql "1"], [.punct '-', ql "1"]]
  else if isNonzeroSigned p then [[ql "1"], [.punct '-', ql "1"]]
  else if isNonzeroUnsigned p then [[ql "1"]]
  else if isFloat p then [[ql "0.0"], [ql "1.0"], [.punct '-', ql "1.0"]]
  else if p.endsWith "Result".toList then
    (match matchFirstTypeArg p "Result".toList with
     | some ok => ok.map (qCall "Ok")
     | none => [qCall "Ok" qDefault]) ++ errs.map (qCall "Err")
  else if p.endsWith "HttpResponse".toList then
    [qPathCall "HttpResponse".toList "Ok" [] ++ [.punct '.', qi "finish", parens []]]
  else match matchFirstTypeArg p "Option".toList with
  | some reps => [qi "None"] :: reps.map (qCall "Some")
  | none =>
  match matchFirstTypeArg p "Vec".toList with
  | some reps => qVec [] :: reps.map qVec
  | none =>
  match matchFirstTypeArg p "Cow".toList with
  | some reps => reps.flatMap fun rep =>
      [qPathCall "Cow".toList "Borrowed" rep,
       qPathCall "Cow".toList "Owned" (rep ++ [.punct '.', qi "to_owned", parens []])]
  | none =>
  match knownContainer p with
  | some (c, reps) => reps.map (qPathCall c "new")
  | none =>
  match knownCollection p with
  | some (c, reps) => qPathCall c "new" [] :: reps.map fun rep => qPathCall c "from_iter" (qArray rep)
  | none =>
  match knownMap p with
  | some (c, keys, vals) => qPathCall c "new" [] :: keys.flatMap fun k => vals.map fun v =>
      qPathCall c "from_iter" (qArray [parens (k ++ [.punct ','] ++ v)])
  | none =>
  match maybeCollectionOrContainer p with
  | some (c, reps) => qPathCall c "new" [] :: reps.flatMap fun rep =>
      [qPathCall c "from_iter" (qArray rep), qPathCall c "new" rep, qPathCall c "from" rep]
  | none => [qDefault]

/-- `src/fnvalue.rs:163-165`, `175-179`, `191-195`: the values for a slice. -/
def sliceReplacements (reps : List Tokens) : List Tokens :=
  qLeakVec (qPathCall "Vec".toList "new" []) :: reps.map fun r => qLeakVec (qVec r)

mutual
/-- `src/fnvalue.rs:31-239` `type_replacements`. The values of the types inside a path or bound are
found first and given to `pathReplacements`; the code finds only those that it needs. -/
def typeReplacements (errs : List Tokens) : Ty → List Tokens
  | .path p => pathReplacements errs (pathValues errs p)
  | .array elem len => (typeReplacements errs elem).map fun r => qArray (r ++ [.punct ';'] ++ len)
  | .slice elem => sliceReplacements (typeReplacements errs elem)
  | .reference mutable elem =>
    match mutable, elem with
    | false, .path p =>
      if p.isIdent "str".toList then [[ql "\"\""], [ql "\"xyzzy\""]]
      else (typeReplacements errs (.path p)).map fun rep => .punct '&' :: rep
    | false, .slice e => sliceReplacements (typeReplacements errs e)
    | false, elem => (typeReplacements errs elem).map fun rep => .punct '&' :: rep
    | true, .slice e => sliceReplacements (typeReplacements errs e)
    | true, elem => (typeReplacements errs elem).map fun rep =>
        qPathCall "Box".toList "leak" (qPathCall "Box".toList "new" rep)
  | .tuple elems => (product (tupleValues errs elems)).map fun reps => [parens (commaSep reps)]
  | .implTrait bounds =>
    match matchImplIterator (boundsValues errs bounds) with
    | some reps => qIter "empty" [] :: reps.map (qIter "once")
    | none => []
  | .never => []
  | .other => [qDefault]

def pathValues (errs : List Tokens) : SynPath Ty → SynPath (List Tokens)
  | ⟨c, segs⟩ => ⟨c, segmentsValues errs segs⟩

def segmentsValues (errs : List Tokens) : List (PathSegment Ty) → List (PathSegment (List Tokens))
  | [] => []
  | s :: rest => segmentValues errs s :: segmentsValues errs rest

def segmentValues (errs : List Tokens) : PathSegment Ty → PathSegment (List Tokens)
  | ⟨i, args⟩ => ⟨i, pathArgsValues errs args⟩

def pathArgsValues (errs : List Tokens) : PathArgs Ty → PathArgs (List Tokens)
  | .none => .none
  | .angle args => .angle (argsValues errs args)
  | .paren => .paren

def argsValues (errs : List Tokens) : List (GenericArg Ty) → List (GenericArg (List Tokens))
  | [] => []
  | a :: rest => argValues errs a :: argsValues errs rest

def argValues (errs : List Tokens) : GenericArg Ty → GenericArg (List Tokens)
  | .lifetime => .lifetime
  | .type t => .type (typeReplacements errs t)
  | .assocType n t => .assocType n (typeReplacements errs t)
  | .other => .other

def boundsValues (errs : List Tokens) : List (Bound Ty) → List (Bound (List Tokens))
  | [] => []
  | b :: rest => boundValues errs b :: boundsValues errs rest

def boundValues (errs : List Tokens) : Bound Ty → Bound (List Tokens)
  | .trait p => .trait (pathValues errs p)
  | .other => .other

def tupleValues (errs : List Tokens) : List Ty → List (List Tokens)
  | [] => []
  | t :: rest => typeReplacements errs t :: tupleValues errs rest
end

/-- `src/fnvalue.rs:21-29` `return_type_replacements`; `none` is `ReturnType::Default`. -/
def returnTypeReplacements (ret : Option Ty) (errs : List Tokens) : List Tokens :=
  match ret with
  | none => [[parens []]]
  | some t => typeReplacements errs t

end CM
