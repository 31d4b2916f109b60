import Verif.Model.FnValue
/-! The table of replacement values in `book/src/mutants.md`, written with the text that the user sees.
Rows that are in the code but not in the book are marked. -/
namespace CM.Spec
open CM

/-- The path is just this name, as in `bool`. -/
def Plain {α} (p : SynPath α) (name : Text) : Prop := p = ⟨false, [⟨name, .none⟩]⟩

/-- The path ends with this name and arguments, as in `std::option::Option<T>`. -/
def LastSegment {α} (p : SynPath α) (name : Text) (args : PathArgs α) : Prop :=
  ∃ init, p.segments = init ++ [⟨name, args⟩]

/-- The first argument after any lifetimes is the type `t`. -/
def FirstType {α} (args : PathArgs α) (t : α) : Prop :=
  ∃ n rest, args = .angle (List.replicate n .lifetime ++ .type t :: rest)

/-- There is one type among the arguments. -/
def OneType {α} (args : PathArgs α) (t : α) : Prop :=
  ∃ a b, args = .angle (a ++ .type t :: b) ∧ ∀ x, .type x ∉ a ++ b

def words (l : List String) : List Text := l.map String.toList

def unsignedNames := words ["u8", "u16", "u32", "u64", "u128", "usize"]
def signedNames := words ["i8", "i16", "i32", "i64", "i128", "isize"]
def floatNames := words ["f32", "f64"]
def nonzeroSignedNames :=
  words ["NonZeroIsize", "NonZeroI8", "NonZeroI16", "NonZeroI32", "NonZeroI64", "NonZeroI128"]
def nonzeroUnsignedNames :=
  words ["NonZeroUsize", "NonZeroU8", "NonZeroU16", "NonZeroU32", "NonZeroU64", "NonZeroU128"]
def containerNames := words ["Box", "Cell", "RefCell", "Arc", "Rc", "Mutex"]
def collectionNames := words ["BinaryHeap", "BTreeSet", "HashSet", "LinkedList", "VecDeque"]
def mapNames := words ["BTreeMap", "HashMap"]

/-- The paths with a row of their own in the table. -/
inductive Listed {α} : SynPath α → Prop
  | plain {p n} : n ∈ words ["bool", "String", "str"] ++ unsignedNames ++ signedNames ++ floatNames →
      Plain p n → Listed p
  | named {p n args} : n ∈ words ["Result", "HttpResponse"] ++ nonzeroSignedNames ++ nonzeroUnsignedNames →
      LastSegment p n args → Listed p
  | firstType {p n args t} : n ∈ words ["Option", "Vec", "Cow"] → LastSegment p n args →
      FirstType args t → Listed p
  | onlyType {p n t} : n ∈ containerNames ++ collectionNames → LastSegment p n (.angle [.type t]) → Listed p
  | map {p n k v} : n ∈ mapNames → LastSegment p n (.angle [.type k, .type v]) → Listed p

/-- `Iterator<Item = t>` -/
def IteratorOf {α} (b : Bound α) (t : α) : Prop :=
  ∃ p rest, b = .trait p ∧ LastSegment p "Iterator".toList (.angle (.assocType "Item".toList t :: rest))

/-- All ways to choose one element of each list; the last choice varies fastest. -/
def choices {α} (l : List (List α)) : List (List α) :=
  l.foldr (fun xs acc => xs.flatMap fun x => acc.map (x :: ·)) [[]]

def around (a : String) (v : Text) (b : String) : Text := a.toList ++ v ++ b.toList

/-- Empty and one-element leaked vectors. -/
def leaked (vs : List Text) : List Text :=
  "Vec::leak(Vec::new())".toList :: vs.map fun v => around "Vec::leak(vec![" v "])"

/-- `Values errs t vs`: a function that returns `t` is replaced by these values, in this order, where
`errs` are the configured error values. -/
inductive Values (errs : List Text) : Ty → List Text → Prop
  | bool {p} : Plain p "bool".toList → Values errs (.path p) (words ["true", "false"])
  | string {p} : Plain p "String".toList → Values errs (.path p) (words ["String::new()", "\"xyzzy\".into()"])
  | str {p} : Plain p "str".toList → Values errs (.path p) (words ["\"\"", "\"xyzzy\""])
  | unsigned {p n} : n ∈ unsignedNames → Plain p n → Values errs (.path p) (words ["0", "1"])
  | signed {p n} : n ∈ signedNames → Plain p n → Values errs (.path p) (words ["0", "1", "-1"])
  | float {p n} : n ∈ floatNames → Plain p n → Values errs (.path p) (words ["0.0", "1.0", "-1.0"])
  | nonzeroSigned {p n args} : n ∈ nonzeroSignedNames → LastSegment p n args →
      Values errs (.path p) (words ["1", "-1"])
  | nonzeroUnsigned {p n args} : n ∈ nonzeroUnsignedNames → LastSegment p n args →
      Values errs (.path p) (words ["1"])
  | result {p args t vs} : LastSegment p "Result".toList args → FirstType args t → Values errs t vs →
      Values errs (.path p) ((vs.map fun v => around "Ok(" v ")") ++ errs.map fun e => around "Err(" e ")")
  | bareResult {p args} : LastSegment p "Result".toList args → (∀ t, ¬ FirstType args t) →
      Values errs (.path p) ("Ok(Default::default())".toList :: errs.map fun e => around "Err(" e ")")
  | httpResponse {p args} : LastSegment p "HttpResponse".toList args →
      Values errs (.path p) ["HttpResponse::Ok().finish()".toList]
  | option {p args t vs} : LastSegment p "Option".toList args → FirstType args t → Values errs t vs →
      Values errs (.path p) ("None".toList :: vs.map fun v => around "Some(" v ")")
  | vec {p args t vs} : LastSegment p "Vec".toList args → FirstType args t → Values errs t vs →
      Values errs (.path p) ("vec![]".toList :: vs.map fun v => around "vec![" v "]")
  | cow {p args t vs} : LastSegment p "Cow".toList args → FirstType args t → Values errs t vs →
      Values errs (.path p) (vs.flatMap fun v =>
        [around "Cow::Borrowed(" v ")", around "Cow::Owned(" v ".to_owned())"])
  | container {p n t vs} : n ∈ containerNames → LastSegment p n (.angle [.type t]) → Values errs t vs →
      Values errs (.path p) (vs.map fun v => n ++ around "::new(" v ")")
  | collection {p n t vs} : n ∈ collectionNames → LastSegment p n (.angle [.type t]) → Values errs t vs →
      Values errs (.path p) ((n ++ "::new()".toList) :: vs.map fun v => n ++ around "::from_iter([" v "])")
  | map {p n k v ks vs} : n ∈ mapNames → LastSegment p n (.angle [.type k, .type v]) →
      Values errs k ks → Values errs v vs →
      Values errs (.path p) ((n ++ "::new()".toList) :: ks.flatMap fun a => vs.map fun b =>
        n ++ around "::from_iter([(" (a ++ ", ".toList ++ b) ")])")
  /-- Not in the book: an unknown type with one type argument. -/
  | oneArgument {p n args t vs} : ¬ Listed p → LastSegment p n args → OneType args t → Values errs t vs →
      Values errs (.path p) ((n ++ "::new()".toList) :: vs.flatMap fun v =>
        [n ++ around "::from_iter([" v "])", n ++ around "::new(" v ")", n ++ around "::from(" v ")"])
  | default {p} : ¬ Listed p → (∀ n args t, LastSegment p n args → ¬ OneType args t) →
      Values errs (.path p) ["Default::default()".toList]
  /-- A parsed array type has a length; the row also says what happens without one. -/
  | array {t len vs} : Values errs t vs →
      Values errs (.array t len) (vs.map fun v =>
        around "[" v ";" ++ (if len = [] then [] else " ".toList ++ pretty len) ++ "]".toList)
  /-- The book only has references to slices. -/
  | slice {t vs} : Values errs t vs → Values errs (.slice t) (leaked vs)
  | sliceRef {m t vs} : Values errs t vs → Values errs (.reference m (.slice t)) (leaked vs)
  | strRef {p} : Plain p "str".toList → Values errs (.reference false (.path p)) (words ["\"\"", "\"xyzzy\""])
  | ref {t vs} : (∀ e, t ≠ .slice e) → (∀ p, t = .path p → ¬ Plain p "str".toList) → Values errs t vs →
      Values errs (.reference false t) (vs.map fun v => around "&" v "")
  | mutRef {t vs} : (∀ e, t ≠ .slice e) → Values errs t vs →
      Values errs (.reference true t) (vs.map fun v => around "Box::leak(Box::new(" v "))")
  | tuple {ts vss} : vss.length = ts.length →
      (∀ (i : Nat) t vs, ts[i]? = some t → vss[i]? = some vs → Values errs t vs) →
      Values errs (.tuple ts) ((choices vss).map fun vs => around "(" ((", ".toList).intercalate vs) ")")
  | implIterator {a b c t vs} : IteratorOf b t → (∀ x ∈ a, ∀ u, ¬ IteratorOf x u) → Values errs t vs →
      Values errs (.implTrait (a ++ b :: c))
        ("::std::iter::empty()".toList :: vs.map fun v => around "::std::iter::once(" v ")")
  /-- Not in the book. -/
  | implOther {bs} : (∀ b ∈ bs, ∀ t, ¬ IteratorOf b t) → Values errs (.implTrait bs) []
  /-- Not in the book. -/
  | never : Values errs .never []
  | other : Values errs .other ["Default::default()".toList]

/-- The types with a row of their own; all others are "(any other)". -/
def HasRow : Ty → Prop
  | .path p => Listed p
  | .implTrait bs => ∃ b ∈ bs, ∃ t, IteratorOf b t
  | .other => False
  | _ => True

end CM.Spec
