import Verif.Proofs.Visit
import Verif.Model.Options
/-! C41, C47, C48, C49, C51, C52, C53: what is found in a file. -/
namespace CM.Props
open CM CM.Spec

/-- The mutants are those made at some of the positions, in document order. -/
def MadeAt (c : VConfig) (f : SynFile) (ms : List Mutant) (ps : List (List Node)) : Prop :=
  ps.Sublist (positionsAll [] f.items) ∧ ms = ps.flatMap (mutantsAt c)

theorem walk_made {c : VConfig} {f : SynFile} {ms : List Mutant} {ext : List (List ModNamespace)}
    (h : walkFile c f = some (ms, ext)) :
    ∃ ps, MadeAt c f ms ps ∧ ∀ p ∈ ps, (∀ a ∈ f.attrs, ¬ Marks a) ∧ ∀ n ∈ p, ¬ Skipped c.skipCalls n := by
  rw [walkFile_spec] at h
  by_cases hm : ∃ a ∈ f.attrs, Marks a
  · rw [if_pos hm] at h
    cases h
    exact ⟨[], ⟨List.nil_sublist _, rfl⟩, by simp⟩
  · rw [if_neg hm] at h
    have h := Option.some.inj h
    refine ⟨unskipped c.skipCalls (positionsAll [] f.items), ⟨List.filter_sublist, (congrArg Prod.fst h).symm⟩, ?_⟩
    intro p hp
    have := (List.mem_filter.1 hp).2
    exact ⟨fun a ha m => hm ⟨a, ha, m⟩, by simpa using this⟩

theorem position_of_mem {roots p : List Node} (h : p ∈ positionsAll [] roots) : Position roots p := by
  have := mem_positionsAll [] roots p
  simp only [List.nil_append] at this
  exact this.1 h

theorem mem_of_position {roots p : List Node} (h : Position roots p) : p ∈ positionsAll [] roots := by
  have := mem_positionsAll [] roots p
  simp only [List.nil_append] at this
  exact this.2 h

/-! ### C47 -/

/-- An attribute that says that something is for tests or to be skipped, as documented: `#[test]`, `cfg`
with `test` in it, or with `mutants::skip` in it. -/
def SaysSkip (a : Attr) : Prop :=
  a.path = ⟨false, ["test".toList]⟩ ∨
  a.path.idents = ["mutants".toList, "skip".toList] ∨
  ∃ items, a.args = .list items ∧
    ((a.path.idents = ["cfg".toList] ∧ ∃ i ∈ items, i.path = ⟨false, ["test".toList]⟩) ∨
     ∃ i ∈ items, i.path.idents = ["mutants".toList, "skip".toList])

/-- **C47**: no mutant lies inside anything that says so, nor in unsafe functions, in functions called
`new` in impls and traits, or in impls of `Default`. -/
def C47_full : Prop :=
  ∀ (c : VConfig) (f : SynFile) (ms : List Mutant) (ext : List (List ModNamespace)), walkFile c f = some (ms, ext) →
    ∃ ps, MadeAt c f ms ps ∧ ∀ p ∈ ps, (∀ a ∈ f.attrs, ¬ SaysSkip a) ∧
      ∀ n ∈ p, (∀ a ∈ n.attrs, ¬ SaysSkip a) ∧
        (∀ k sig b, n.kind = .fn k sig b → sig.isUnsafe = false ∧ (k ≠ .item → sig.name ≠ "new".toList)) ∧
        (∀ ty path tokens, n.kind = .impl ty (some (path, tokens)) → path.getLast? ≠ some "Default".toList)

/-- A line and column, for examples. -/
def sampleSpan (line a b : Nat) : Span := ⟨⟨line, a⟩, ⟨line, b⟩⟩

def sampleFile : SourceFile := ⟨⟨"p".toList, "1.0.0".toList, [], []⟩, ["src".toList, "lib.rs".toList], [], true⟩

def sampleVisit : VConfig := { sourceFile := sampleFile, skipCalls := ["with_capacity".toList] }

/-- `a + b` -/
def samplePlus (line : Nat) : Node :=
  .mk (.binary .add (sampleSpan line 7 8)) [] [.mk .other [] [], .mk .other [] []]

/-- `const X: i32 = a + b;` with attributes. -/
def sampleConst (attrs : List Attr) : SynFile := { items := [.mk .other attrs [samplePlus 2]] }

/-- `impl S { fn f() { a + b } }` with attributes on the function. -/
def sampleImpl (attrs : List Attr) : SynFile :=
  { items := [.mk (.impl [qi "S"] none) [] [.mk (.fn .impl ⟨false, "f".toList, none, [], sampleSpan 1 1 9⟩
      (some ⟨[sampleSpan 2 5 10], [qi "a", .punct '+', qi "b"]⟩)) attrs [.mk .other [] [samplePlus 2]]]] }

/-- `#[cfg_attr(feature = "x", mutants::skip)]` -/
def sampleCfgAttr : Attr :=
  ⟨⟨false, ["cfg_attr".toList]⟩, .list [⟨⟨false, ["feature".toList]⟩, false⟩, ⟨⟨false, ["mutants".toList, "skip".toList]⟩, true⟩]⟩

/-- `#[mutants::skip]` -/
def sampleSkip : Attr := ⟨⟨false, ["mutants".toList, "skip".toList]⟩, .none⟩

theorem sampleCfgAttr_says : SaysSkip sampleCfgAttr :=
  .inr (.inr ⟨_, rfl, .inr ⟨_, List.mem_cons_of_mem _ (List.mem_cons_self ..), rfl⟩⟩)

/-- If all roots carry such an attribute there is nothing to make mutants of. -/
theorem full_no_mutants (hf : C47_full) (c : VConfig) (n : Node) (a : Attr) (ha : a ∈ n.attrs) (hs : SaysSkip a)
    (ms : List Mutant) (ext : List (List ModNamespace)) (h : walkFile c { items := [n] } = some (ms, ext)) : ms = [] := by
  obtain ⟨ps, ⟨hsub, rfl⟩, hps⟩ := hf c _ ms ext h
  cases ps with
  | nil => rfl
  | cons p rest =>
    have hpos := position_of_mem (hsub.subset (List.mem_cons_self ..))
    have hn : n ∈ p := by
      cases hpos with
      | root hr => cases List.mem_singleton.1 hr; exact List.mem_cons_self ..
      | child hr _ => cases List.mem_singleton.1 hr; exact List.mem_cons_self ..
    exact absurd hs (((hps p (List.mem_cons_self ..)).2 n hn).1 a ha)

/-- **C47** does not hold in full: an attribute that contains `mutants::skip` but also anything other than
plain names, like `#[cfg_attr(feature = "x", mutants::skip)]`, has no effect. -/
theorem C47_cfg_attr_false : ¬ C47_full := by
  intro hf
  have := full_no_mutants hf sampleVisit
    (.mk (.fn .item ⟨false, "f".toList, none, [], sampleSpan 1 1 9⟩
      (some ⟨[sampleSpan 2 5 10], [qi "a", .punct '+', qi "b"]⟩)) [sampleCfgAttr] [])
    sampleCfgAttr (List.mem_cons_self ..) sampleCfgAttr_says
    [⟨sampleFile, some ⟨"f".toList, [], sampleSpan 1 1 9⟩, sampleSpan 2 5 10, "()".toList, .fnValue⟩] [] (by decide +kernel)
  cases this

/-- **C47** does not hold in full: attributes are not looked at on all nodes, for example not on
constants. -/
theorem C47_const_false : ¬ C47_full := by
  intro hf
  have := full_no_mutants hf sampleVisit (.mk .other [sampleSkip] [samplePlus 2]) sampleSkip (List.mem_cons_self ..)
    (.inr (.inl rfl))
    [⟨sampleFile, none, sampleSpan 2 7 8, "-".toList, .binaryOperator⟩,
     ⟨sampleFile, none, sampleSpan 2 7 8, "*".toList, .binaryOperator⟩] [] (by decide +kernel)
  cases this

/-- **C47**, for the attributes that are recognised (`Marks`), on files, modules, functions, impls, traits,
calls, operators and matches. -/
theorem C47_skipped_partial (c : VConfig) (f : SynFile) (ms : List Mutant) (ext : List (List ModNamespace))
    (h : walkFile c f = some (ms, ext)) :
    ∃ ps, MadeAt c f ms ps ∧ ∀ p ∈ ps, (∀ a ∈ f.attrs, ¬ Marks a) ∧
      ∀ n ∈ p, (n.kind ≠ .other → ∀ a ∈ n.attrs, ¬ Marks a) ∧
        (∀ k sig b, n.kind = .fn k sig b → sig.isUnsafe = false ∧ (k ≠ .item → sig.name ≠ "new".toList)) ∧
        (∀ ty path tokens, n.kind = .impl ty (some (path, tokens)) → path.getLast? ≠ some "Default".toList) := by
  obtain ⟨ps, hmade, hps⟩ := walk_made h
  refine ⟨ps, hmade, fun p hp => ⟨(hps p hp).1, fun n hn => ?_⟩⟩
  have hs := (hps p hp).2 n hn
  refine ⟨?_, ?_, ?_⟩
  · intro ho a ha hm
    apply hs
    unfold Skipped
    have hm : ∃ a ∈ n.attrs, Marks a := ⟨a, ha, hm⟩
    cases hk : n.kind with
    | other => exact absurd hk ho
    | call _ => exact .inl hm
    | methodCall _ => exact .inl hm
    | fn _ _ _ => exact .inl hm
    | impl _ _ => exact .inl hm
    | trait _ => exact hm
    | mod _ _ _ => exact .inl hm
    | binary _ _ => exact hm
    | unary _ _ => exact hm
    | «match» _ => exact hm
  · intro k sig b hk
    unfold Skipped at hs
    rw [hk] at hs
    constructor
    · cases hu : sig.isUnsafe with
      | false => rfl
      | true => exact absurd (.inr (.inl hu)) hs
    · intro hki hnew
      exact hs (.inr (.inr (.inl ⟨hki, hnew⟩)))
  · intro ty path tokens hk he
    unfold Skipped at hs
    rw [hk] at hs
    exact hs (.inr ⟨path, tokens, rfl, he⟩)

/-- The attributes that are recognised: any `#[test]`, `#[mutants::skip]` with or without arguments, and
`cfg` and `cfg_attr` with any list of names that contains `test` or `mutants::skip` respectively. -/
theorem C47_forms_partial (args : AttrArgs) (before after : List AttrPath) :
    Marks ⟨⟨false, ["test".toList]⟩, args⟩ ∧
    Marks ⟨⟨false, ["mutants".toList, "skip".toList]⟩, args⟩ ∧
    Marks ⟨⟨false, ["cfg".toList]⟩, .list ((before ++ ⟨false, ["test".toList]⟩ :: after).map (⟨·, true⟩))⟩ ∧
    Marks ⟨⟨false, ["cfg_attr".toList]⟩,
      .list ((before ++ ⟨false, ["mutants".toList, "skip".toList]⟩ :: after).map (⟨·, true⟩))⟩ := by
  have all : ∀ x : List AttrPath, ∀ i ∈ x.map (MetaItem.mk · true), i.simple = true := by
    intro x i hi
    obtain ⟨_, _, rfl⟩ := List.mem_map.1 hi
    rfl
  refine ⟨.inl rfl, .inr (.inl rfl), .inr (.inr ⟨_, rfl, all _, .inl ⟨rfl, ⟨⟨false, ["test".toList]⟩, true⟩, ?_, rfl⟩⟩),
    .inr (.inr ⟨_, rfl, all _, .inr ⟨rfl, ⟨⟨false, ["mutants".toList, "skip".toList]⟩, true⟩, ?_, rfl⟩⟩)⟩
  · exact List.mem_map.2 ⟨_, by simp, rfl⟩
  · exact List.mem_map.2 ⟨_, by simp, rfl⟩

/-- a file with a function that is skipped, and without the attribute -/
example : walkFile sampleVisit (sampleImpl [⟨⟨false, ["cfg_attr".toList]⟩, .list [⟨⟨false, ["test".toList]⟩, true⟩,
    ⟨⟨false, ["mutants".toList, "skip".toList]⟩, true⟩]⟩]) = some ([], []) := by decide +kernel
example : walkFile sampleVisit (sampleImpl []) = some
    ([⟨sampleFile, some ⟨"S::f".toList, [], sampleSpan 1 1 9⟩, sampleSpan 2 5 10, "()".toList, .fnValue⟩,
      ⟨sampleFile, some ⟨"S::f".toList, [], sampleSpan 1 1 9⟩, sampleSpan 2 7 8, "-".toList, .binaryOperator⟩,
      ⟨sampleFile, some ⟨"S::f".toList, [], sampleSpan 1 1 9⟩, sampleSpan 2 7 8, "*".toList, .binaryOperator⟩], []) := by
  decide +kernel

/-! ### C41 -/

/-- A call of one of the names. -/
def CallsOne (names : List Text) (n : Node) : Prop :=
  match n.kind with
  | .call (some path) => ∃ name ∈ names, path.getLast? = some name
  | .methodCall name => name ∈ names
  | _ => False

instance (names : List Text) (n : Node) : Decidable (CallsOne names n) := by
  unfold CallsOne
  cases n.kind with
  | call callee => cases callee <;> infer_instance
  | methodCall m => infer_instance
  | _ => exact isFalse (fun h => h)

theorem skipped_calls (names : List Text) (n : Node) : Skipped names n ↔ Skipped [] n ∨ CallsOne names n := by
  unfold Skipped CallsOne
  cases n.kind with
  | call callee =>
    cases callee with
    | none => simp
    | some p =>
      constructor
      · rintro (h | ⟨_, name, e, h1, h2⟩)
        · exact .inl (.inl h)
        · cases e; exact .inr ⟨name, h2, h1⟩
      · rintro ((h | ⟨_, name, e, h1, h2⟩) | ⟨name, h1, h2⟩)
        · exact .inl h
        · cases h2
        · exact .inr ⟨p, name, rfl, h2, h1⟩
  | methodCall m => simp
  | _ => simp

/-- **C41**: with names of calls to skip, the mutants are those that would be made otherwise at positions
that are not in such a call. -/
theorem C41_calls (c : VConfig) (f : SynFile) : ∃ (ps : List (List Node)) (ext ext' : List (List ModNamespace)),
    walkFile { c with skipCalls := [] } f = some (ps.flatMap (mutantsAt c), ext) ∧
    walkFile c f = some ((ps.filter fun p => ∀ n ∈ p, ¬ CallsOne c.skipCalls n).flatMap (mutantsAt c), ext') := by
  rw [walkFile_spec, walkFile_spec]
  by_cases hm : ∃ a ∈ f.attrs, Marks a
  · rw [if_pos hm, if_pos hm]
    exact ⟨[], [], [], rfl, rfl⟩
  · rw [if_neg hm, if_neg hm]
    refine ⟨unskipped [] (positionsAll [] f.items), _,
      (unskipped c.skipCalls (positionsAll [] f.items)).filterMap externalAt, rfl, ?_⟩
    have : unskipped c.skipCalls (positionsAll [] f.items) =
        (unskipped [] (positionsAll [] f.items)).filter fun p => ∀ n ∈ p, ¬ CallsOne c.skipCalls n := by
      unfold unskipped
      rw [List.filter_filter]
      apply List.filter_congr
      intro p _
      apply Bool.eq_iff_iff.2
      simp only [Bool.and_eq_true, decide_eq_true_eq]
      constructor
      · intro h
        exact ⟨fun n hn hc => h n hn ((skipped_calls _ n).2 (.inr hc)), fun n hn hc => h n hn ((skipped_calls _ n).2 (.inl hc))⟩
      · rintro ⟨h1, h2⟩ n hn hc
        rcases (skipped_calls _ n).1 hc with hc | hc
        · exact h2 n hn hc
        · exact h1 n hn hc
    rw [this]

/-- **C41**: the names are those of the options, and `with_capacity` unless that is turned off. -/
theorem C41_names (regex : Text → Option (Text → Bool)) (args : Args) (config : Config) (o : Options)
    (h : Options.new regex args config = some o) (name : Text) :
    name ∈ o.skipCalls ↔ (∃ arg ∈ args.skipCalls, name ∈ splitOn ',' arg) ∨ name ∈ config.skipCalls ∨
      (name = "with_capacity".toList ∧
        (args.skipCallsDefaults = some true ∨ (args.skipCallsDefaults = none ∧ config.skipCallsDefaults ≠ some false))) := by
  have e : o.skipCalls = chooseSkipCalls args config := by
    unfold Options.new at h
    simp only [Option.bind_eq_bind, Option.bind_eq_some_iff] at h
    obtain ⟨_, _, _, _, _, _, _, _, _, _, _, _, h⟩ := h
    first
      | (cases h; rfl)
      | (obtain ⟨_, _, h⟩ := h; cases h; rfl)
  rw [e]
  unfold chooseSkipCalls
  rw [List.mem_append, List.mem_append, List.mem_flatMap]
  have : name ∈ (if (args.skipCallsDefaults.or config.skipCallsDefaults).getD true then ["with_capacity".toList] else []) ↔
      (name = "with_capacity".toList ∧
        (args.skipCallsDefaults = some true ∨ (args.skipCallsDefaults = none ∧ config.skipCallsDefaults ≠ some false))) := by
    rcases args.skipCallsDefaults with _ | _ | _ <;> rcases config.skipCallsDefaults with _ | _ | _ <;> simp
  rw [this, or_assoc]

/-- `Vec::with_capacity(a + b)` -/
example : walkFile sampleVisit { items := [.mk .other [] [.mk (.call (some ["Vec".toList, "with_capacity".toList])) [] [samplePlus 2]]] } =
    some ([], []) := by decide +kernel
example : walkFile { sampleVisit with skipCalls := [] }
      { items := [.mk .other [] [.mk (.call (some ["Vec".toList, "with_capacity".toList])) [] [samplePlus 2]]] } =
    some ([⟨sampleFile, none, sampleSpan 2 7 8, "-".toList, .binaryOperator⟩,
     ⟨sampleFile, none, sampleSpan 2 7 8, "*".toList, .binaryOperator⟩], []) := by decide +kernel

/-! ### C48 -/

/-- **C48**: everything that is not in something skipped is mutated, in all the ways and with the right
position. -/
theorem C48_complete (c : VConfig) (f : SynFile) (hf : ∀ a ∈ f.attrs, ¬ Marks a) (path : List Node) (n : Node)
    (hp : Position f.items (path ++ [n])) (hl : ∀ m ∈ path ++ [n], ¬ Skipped c.skipCalls m)
    (span : Span) (replacement : Text) (genre : Genre) (hc : (span, replacement, genre) ∈ changes c.errorExprs n) :
    ∃ ms ext, walkFile c f = some (ms, ext) ∧ ∃ m ∈ ms, m.sourceFile = c.sourceFile ∧ m.span = span ∧
      m.replacement = replacement ∧ m.genre = genre := by
  rw [walkFile_spec, if_neg (by rintro ⟨a, ha, hm⟩; exact hf a ha hm)]
  refine ⟨_, _, rfl, ⟨c.sourceFile, functionAt (path ++ [n]), span, replacement, genre⟩, ?_, rfl, rfl, rfl, rfl⟩
  rw [List.mem_flatMap]
  refine ⟨path ++ [n], ?_, ?_⟩
  · unfold unskipped
    rw [List.mem_filter]
    exact ⟨mem_of_position hp, by simpa using hl⟩
  · rw [mutantsAt_snoc]
    exact List.mem_map.2 ⟨_, hc, rfl⟩

open Classical in
/-- **C48**: and nothing else is, and the mutants are in the order of the nodes in the file. -/
theorem C48_exact (c : VConfig) (f : SynFile) (hf : ∀ a ∈ f.attrs, ¬ Marks a) :
    (walkFile c f).map Prod.fst =
    some (((positionsAll [] f.items).filter fun p => ∀ n ∈ p, ¬ Skipped c.skipCalls n).flatMap (mutantsAt c)) := by
  rw [walkFile_spec, if_neg (by rintro ⟨a, ha, hm⟩; exact hf a ha hm)]
  rfl

/-- The positions that are listed are all positions. -/
theorem C48_positions (roots p : List Node) : p ∈ positionsAll [] roots ↔ Position roots p :=
  ⟨position_of_mem, mem_of_position⟩

/-- `mod m { fn f() -> bool { match x { 1 if !y => a, 2 => b, _ => c } } }` -/
def sampleNested : SynFile :=
  { items := [.mk (.mod "r#m".toList true (sampleSpan 1 1 9)) []
      [.mk (.fn .item ⟨false, "f".toList, some (.path ⟨false, [⟨"bool".toList, .none⟩]⟩), [.punct '-', .punct '>', qi "bool"], sampleSpan 2 1 9⟩
        (some ⟨[sampleSpan 3 1 9], [qi "x"]⟩)) []
        [.mk (.match [⟨false, some (sampleSpan 4 1 3), sampleSpan 4 1 9⟩, ⟨false, none, sampleSpan 5 1 9⟩, ⟨true, none, sampleSpan 6 1 9⟩]) []
          [.mk (.unary .not (sampleSpan 4 1 2)) [] []]]]] }

/-- the function, the guard and the arm, and the operator in the guard -/
example : (walkFile sampleVisit sampleNested).map (fun r => r.1.map fun m => (m.span, m.replacement)) =
    some [(sampleSpan 3 1 9, "true".toList), (sampleSpan 3 1 9, "false".toList), (sampleSpan 5 1 9, []),
      (sampleSpan 4 1 3, "true".toList), (sampleSpan 4 1 3, "false".toList), (sampleSpan 4 1 2, [])] := by decide +kernel
example : (walkFile sampleVisit sampleNested).map (fun r => r.1.map (·.function)) =
    some (List.replicate 6 (some ⟨"m::f".toList, "-> bool".toList, sampleSpan 2 1 9⟩)) := by decide +kernel

/-! ### C49 -/

/-- **C49**: a binary operator is replaced by those of the documented table. -/
def C49_full : Prop := ∀ (op : BinOp) (new : Text), new ∈ op.replacements.map pretty ↔ Documented (symbol op) new

/-- Which replacements are documented, as a list. -/
def documentedRow (op : Text) : List Text :=
  (operatorTable.flatMap fun r => if r.1 = op then r.2 else []) ++
  (operatorTable.flatMap fun r => if r.1 ++ ['='] = op ∧ r.1 ∈ ["+".toList, "-".toList, "*".toList, "/".toList, "%".toList, "<<".toList,
      ">>".toList, "&".toList, "|".toList, "^".toList] then r.2.map (· ++ ['=']) else [])

theorem documented_iff (op new : Text) : Documented op new ↔ new ∈ documentedRow op := by
  unfold documentedRow
  rw [List.mem_append, List.mem_flatMap, List.mem_flatMap]
  constructor
  · intro h
    cases h with
    | @row _ news _ h1 h2 => exact .inl ⟨(op, news), h1, by rw [if_pos rfl]; exact h2⟩
    | @assign old news x h0 h1 h2 =>
      exact .inr ⟨(old, news), h1, by rw [if_pos ⟨rfl, h0⟩]; exact List.mem_map.2 ⟨x, h2, rfl⟩⟩
  · rintro (⟨⟨old, news⟩, h1, h2⟩ | ⟨⟨old, news⟩, h1, h2⟩)
    · by_cases h : old = op
      · rw [if_pos h] at h2; subst h; exact .row h1 h2
      · rw [if_neg h] at h2; cases h2
    · by_cases h : old ++ ['='] = op ∧ old ∈ ["+".toList, "-".toList, "*".toList, "/".toList, "%".toList, "<<".toList,
          ">>".toList, "&".toList, "|".toList, "^".toList]
      · rw [if_pos h] at h2
        obtain ⟨x, hx, rfl⟩ := List.mem_map.1 h2
        rw [← h.1]
        exact .assign h.2 h1 hx
      · rw [if_neg h] at h2; cases h2

/-- **C49** does not hold in full: `<` is also replaced by `<=`, which is not in the table. -/
theorem C49_documented_false : ¬ C49_full := by
  intro h
  have := (documented_iff _ _).1 ((h .lt "<=".toList).1 (by decide +kernel))
  exact absurd this (by decide +kernel)

/-- **C49**, with the two replacements that the table does not have: `<=` for `<` and `>=` for `>`. -/
theorem C49_table_partial (op : BinOp) (new : Text) : new ∈ op.replacements.map pretty ↔
    Documented (symbol op) new ∨ (op = .lt ∧ new = "<=".toList) ∨ (op = .gt ∧ new = ">=".toList) := by
  rw [documented_iff, replacements_row]
  have h : ∀ op : BinOp, (∀ x ∈ operatorRow op, x ∈ documentedRow (symbol op) ∨ (op = .lt ∧ x = "<=".toList) ∨ (op = .gt ∧ x = ">=".toList)) ∧
      ∀ x ∈ documentedRow (symbol op), x ∈ operatorRow op := by
    intro op; cases op <;> decide +kernel
  constructor
  · exact (h op).1 new
  · rintro (hd | ⟨rfl, rfl⟩ | ⟨rfl, rfl⟩)
    · exact (h op).2 new hd
    · decide +kernel
    · decide +kernel

/-- **C49**: no operator is replaced by itself, or twice by the same one. -/
theorem C49_different (op : BinOp) : symbol op ∉ op.replacements.map pretty ∧ (op.replacements.map pretty).Nodup := by
  rw [replacements_row]
  cases op <;> decide +kernel

/-- **C49**: the replacement is the symbol of an operator of the same kind: an assignment for an
assignment, a comparison for a comparison, and so on. -/
theorem C49_kinds (op : BinOp) (new : Text) (h : new ∈ op.replacements.map pretty) : ∃ op' : BinOp, symbol op' = new ∧
    (op ∈ [.addAssign, .subAssign, .mulAssign, .divAssign, .remAssign, .bitXorAssign, .bitAndAssign, .bitOrAssign, .shlAssign, .shrAssign] ↔
      op' ∈ [.addAssign, .subAssign, .mulAssign, .divAssign, .remAssign, .bitXorAssign, .bitAndAssign, .bitOrAssign, .shlAssign, .shrAssign]) ∧
    (op ∈ [.eq, .ne, .lt, .le, .gt, .ge] ↔ op' ∈ [.eq, .ne, .lt, .le, .gt, .ge]) ∧
    (op ∈ [.and, .or] ↔ op' ∈ [.and, .or]) := by
  rw [replacements_row] at h
  revert new
  let all : List BinOp := [.add, .sub, .mul, .div, .rem, .and, .or, .bitXor, .bitAnd, .bitOr, .shl, .shr, .eq, .lt, .le, .ne, .ge, .gt,
    .addAssign, .subAssign, .mulAssign, .divAssign, .remAssign, .bitXorAssign, .bitAndAssign, .bitOrAssign, .shlAssign, .shrAssign]
  have key : ∀ op : BinOp, ∀ new ∈ operatorRow op, ∃ op' ∈ all, symbol op' = new ∧
    (op ∈ [.addAssign, .subAssign, .mulAssign, .divAssign, .remAssign, .bitXorAssign, .bitAndAssign, .bitOrAssign, .shlAssign, .shrAssign] ↔
      op' ∈ [.addAssign, .subAssign, .mulAssign, .divAssign, .remAssign, .bitXorAssign, .bitAndAssign, .bitOrAssign, .shlAssign, .shrAssign]) ∧
    (op ∈ [.eq, .ne, .lt, .le, .gt, .ge] ↔ op' ∈ [.eq, .ne, .lt, .le, .gt, .ge]) ∧
    (op ∈ [.and, .or] ↔ op' ∈ [.and, .or]) := by
    intro op; cases op <;> decide +kernel
  intro new hnew
  obtain ⟨op', _, h⟩ := key op new hnew
  exact ⟨op', h⟩

/-- **C49**: of the unary operators, `-` and `!` are deleted, and nothing else is done. -/
theorem C49_unary (c : VConfig) (op : UnOp) (span : Span) (children : List Node) :
    visit c (.mk (.unary op span) [] children) {} =
    visitAll c children { mutants := match op with
      | .deref => []
      | .not | .neg => [⟨c.sourceFile, none, span, [], .unaryOperator⟩] } := by
  cases op <;> rfl

/-! ### C51 -/

/-- **C51**: the mutants of a function body are the replacements for its type, in order, without those that
print like the body. -/
theorem C51_bodies (c : VConfig) (s : VState) (hs : s.fnStack ≠ []) (sig : Sig) (block : Block) (hb : block.stmts ≠ []) :
    ∃ s' new, s.collectFnMutants c sig block = some s' ∧ s'.mutants = s.mutants ++ new ∧
      new.map (·.replacement) = ((returnTypeReplacements sig.output c.errorExprs).map pretty).filter (· ≠ pretty block.inner) ∧
      ∀ m ∈ new, m.genre = .fnValue ∧ m.function = s.fnStack.getLast? ∧ m.sourceFile = c.sourceFile ∧
        some m.span.start = block.stmts.head?.map (·.start) ∧ some m.span.stop = block.stmts.getLast?.map (·.stop) := by
  unfold VState.collectFnMutants
  have hlast : s.fnStack.getLast? = some (s.fnStack.getLast hs) := List.getLast?_eq_some_getLast hs
  rw [hlast]
  obtain ⟨a, rest, hab⟩ := List.exists_cons_of_ne_nil hb
  have hspan : functionBodySpan block = some ⟨a.start, (block.stmts.getLast hb).stop⟩ := by
    unfold functionBodySpan
    rw [List.getLast?_eq_some_getLast hb]
    simp [hab]
  simp only [hspan]
  refine ⟨_, (((returnTypeReplacements sig.output c.errorExprs).map pretty).filter (· ≠ pretty block.inner)).map fun r =>
    ⟨c.sourceFile, s.fnStack.getLast?, ⟨a.start, (block.stmts.getLast hb).stop⟩, r, .fnValue⟩, rfl, ?_⟩
  · rw [collectFnLoop_eq]
    refine ⟨rfl, ?_, ?_⟩
    · simp [Function.comp_def]
    · intro m hm
      obtain ⟨r, _, rfl⟩ := List.mem_map.1 hm
      refine ⟨rfl, hlast, rfl, ?_, ?_⟩
      · simp [hab]
      · rw [List.getLast?_eq_some_getLast hb]; rfl

/-- **C51**: in any file, no mutant of a function body prints like the body that it replaces. -/
theorem C51_no_original (c : VConfig) (f : SynFile) (ms : List Mutant) (ext : List (List ModNamespace))
    (h : walkFile c f = some (ms, ext)) (m : Mutant) (hm : m ∈ ms) (hg : m.genre = .fnValue) :
    ∃ path n kind sig block, Position f.items (path ++ [n]) ∧ n.kind = .fn kind sig (some block) ∧
      wholeSpan block.stmts = some m.span ∧ m.replacement ≠ pretty block.inner ∧
      ∃ rep ∈ returnTypeReplacements sig.output c.errorExprs, m.replacement = pretty rep := by
  obtain ⟨ps, ⟨hsub, rfl⟩, _⟩ := walk_made h
  obtain ⟨p, hp, hmp⟩ := List.mem_flatMap.1 hm
  have hpos := position_of_mem (hsub.subset hp)
  unfold mutantsAt at hmp
  cases hl : p.getLast? with
  | none => rw [hl] at hmp; cases hmp
  | some n =>
    rw [hl] at hmp
    obtain ⟨path, rfl⟩ := List.getLast?_eq_some_iff.1 hl
    obtain ⟨⟨span, rep, genre⟩, hch, rfl⟩ := List.mem_map.1 hmp
    unfold changes at hch
    cases hk : n.kind with
    | fn kind sig block =>
      rw [hk] at hch
      cases block with
      | none => cases hch
      | some block =>
        dsimp only at hch
        cases hw : wholeSpan block.stmts with
        | none => rw [hw] at hch; cases hch
        | some sp =>
          rw [hw] at hch
          obtain ⟨r, hr, e⟩ := List.mem_map.1 hch
          cases e
          obtain ⟨hr1, hr2⟩ := List.mem_filter.1 hr
          obtain ⟨t, ht, rfl⟩ := List.mem_map.1 hr1
          exact ⟨path, n, kind, sig, block, hpos, hk, hw, by simpa using hr2, t, ht, rfl⟩
    | binary op sp =>
      rw [hk] at hch
      obtain ⟨r, _, e⟩ := List.mem_map.1 hch
      cases e; cases hg
    | unary op sp =>
      rw [hk] at hch
      cases op with
      | deref => cases hch
      | not => cases List.mem_singleton.1 hch; cases hg
      | neg => cases List.mem_singleton.1 hch; cases hg
    | «match» arms =>
      rw [hk] at hch
      rcases List.mem_append.1 hch with hch | hch
      · obtain ⟨r, _, e⟩ := List.mem_map.1 hch
        cases e; cases hg
      · obtain ⟨a, _, ha⟩ := List.mem_flatMap.1 hch
        cases hgd : a.guard with
        | none => rw [hgd] at ha; cases ha
        | some g =>
          rw [hgd] at ha
          rcases List.mem_cons.1 ha with e | ha
          · cases e; cases hg
          · cases List.mem_singleton.1 ha; cases hg
    | other => rw [hk] at hch; cases hch
    | call _ => rw [hk] at hch; cases hch
    | methodCall _ => rw [hk] at hch; cases hch
    | impl _ _ => rw [hk] at hch; cases hch
    | trait _ => rw [hk] at hch; cases hch
    | mod _ _ _ => rw [hk] at hch; cases hch

/-- `fn f() -> bool { true }` is only replaced by `false` -/
example : (walkFile sampleVisit { items := [.mk (.fn .item ⟨false, "f".toList,
      some (.path ⟨false, [⟨"bool".toList, .none⟩]⟩), [.punct '-', .punct '>', qi "bool"], sampleSpan 2 1 9⟩
        (some ⟨[sampleSpan 3 1 5], [qi "true"]⟩)) [] []] }).map (fun r => r.1.map (·.replacement)) =
    some ["false".toList] := by decide +kernel

/-! ### C52 -/

/-- **C52**: an arm is deleted only if another arm is a wildcard, and it has no guard and is not the
wildcard. -/
theorem C52_deleted (c : VConfig) (f : SynFile) (ms : List Mutant) (ext : List (List ModNamespace))
    (h : walkFile c f = some (ms, ext)) (m : Mutant) (hm : m ∈ ms) (hg : m.genre = .matchArm) :
    ∃ path n arms a w, Position f.items (path ++ [n]) ∧ n.kind = .match arms ∧ a ∈ arms ∧ m.span = a.span ∧
      m.replacement = [] ∧ a.isWild = false ∧ a.guard = none ∧ w ∈ arms ∧ w.isWild = true := by
  obtain ⟨ps, ⟨hsub, rfl⟩, _⟩ := walk_made h
  obtain ⟨p, hp, hmp⟩ := List.mem_flatMap.1 hm
  have hpos := position_of_mem (hsub.subset hp)
  unfold mutantsAt at hmp
  cases hl : p.getLast? with
  | none => rw [hl] at hmp; cases hmp
  | some n =>
    rw [hl] at hmp
    obtain ⟨path, rfl⟩ := List.getLast?_eq_some_iff.1 hl
    obtain ⟨⟨span, rep, genre⟩, hch, rfl⟩ := List.mem_map.1 hmp
    unfold changes at hch
    cases hk : n.kind with
    | fn kind sig block =>
      rw [hk] at hch
      cases block with
      | none => cases hch
      | some block =>
        dsimp only at hch
        cases hw : wholeSpan block.stmts with
        | none => rw [hw] at hch; cases hch
        | some sp =>
          rw [hw] at hch
          obtain ⟨r, hr, e⟩ := List.mem_map.1 hch
          cases e; cases hg
    | binary op sp =>
      rw [hk] at hch
      obtain ⟨r, _, e⟩ := List.mem_map.1 hch
      cases e; cases hg
    | unary op sp =>
      rw [hk] at hch
      cases op with
      | deref => cases hch
      | not => cases List.mem_singleton.1 hch; cases hg
      | neg => cases List.mem_singleton.1 hch; cases hg
    | «match» arms =>
      rw [hk] at hch
      rcases List.mem_append.1 hch with hch | hch
      · obtain ⟨a, ha, e⟩ := List.mem_map.1 hch
        cases e
        obtain ⟨ha, hc⟩ := List.mem_filter.1 ha
        obtain ⟨h1, h2, w, hw1, hw2⟩ := of_decide_eq_true hc
        exact ⟨path, n, arms, a, w, hpos, hk, ha, rfl, rfl, by simpa using h1, h2, hw1, hw2⟩
      · obtain ⟨a, _, ha⟩ := List.mem_flatMap.1 hch
        cases hgd : a.guard with
        | none => rw [hgd] at ha; cases ha
        | some g =>
          rw [hgd] at ha
          rcases List.mem_cons.1 ha with e | ha
          · cases e; cases hg
          · cases List.mem_singleton.1 ha; cases hg
    | other => rw [hk] at hch; cases hch
    | call _ => rw [hk] at hch; cases hch
    | methodCall _ => rw [hk] at hch; cases hch
    | impl _ _ => rw [hk] at hch; cases hch
    | trait _ => rw [hk] at hch; cases hch
    | mod _ _ _ => rw [hk] at hch; cases hch

/-- **C52**: every arm that may be deleted is, and every guard is replaced by true and by false. -/
theorem C52_all (c : VConfig) (f : SynFile) (hf : ∀ a ∈ f.attrs, ¬ Marks a) (path : List Node) (n : Node)
    (hp : Position f.items (path ++ [n])) (hl : ∀ m ∈ path ++ [n], ¬ Skipped c.skipCalls m)
    (arms : List Arm) (hk : n.kind = .match arms) (a : Arm) (ha : a ∈ arms) :
    ∃ ms ext, walkFile c f = some (ms, ext) ∧
      (a.isWild = false → a.guard = none → (∃ w ∈ arms, w.isWild = true) →
        ∃ m ∈ ms, m.span = a.span ∧ m.replacement = [] ∧ m.genre = .matchArm) ∧
      ∀ g, a.guard = some g →
        (∃ m ∈ ms, m.span = g ∧ m.replacement = "true".toList ∧ m.genre = .matchArmGuard) ∧
        (∃ m ∈ ms, m.span = g ∧ m.replacement = "false".toList ∧ m.genre = .matchArmGuard) := by
  obtain ⟨ms, ext, hw⟩ : ∃ ms ext, walkFile c f = some (ms, ext) := by
    rw [walkFile_spec]; exact ⟨_, _, rfl⟩
  have use : ∀ span replacement genre, (span, replacement, genre) ∈ changes c.errorExprs n →
      ∃ m ∈ ms, m.span = span ∧ m.replacement = replacement ∧ m.genre = genre := by
    intro span replacement genre hc
    obtain ⟨ms', ext', h', m, hm, _, h⟩ := C48_complete c f hf path n hp hl span replacement genre hc
    rw [hw] at h'; cases h'
    exact ⟨m, hm, h⟩
  refine ⟨ms, ext, hw, ?_, ?_⟩
  · intro h1 h2 h3
    apply use
    unfold changes
    rw [hk]
    exact List.mem_append_left _ (List.mem_map.2 ⟨a, List.mem_filter.2 ⟨ha, decide_eq_true ⟨by simp [h1], h2, h3⟩⟩, rfl⟩)
  · intro g hg
    constructor
    · apply use
      unfold changes
      rw [hk]
      exact List.mem_append_right _ (List.mem_flatMap.2 ⟨a, ha, by rw [hg]; simp⟩)
    · apply use
      unfold changes
      rw [hk]
      exact List.mem_append_right _ (List.mem_flatMap.2 ⟨a, ha, by rw [hg]; simp⟩)

/-- **C52**, what the wildcard is wanted for: without the deleted arm there is still an arm that matches
everything, a wildcard without guard. -/
def C52_covers_full : Prop :=
  ∀ (c : VConfig) (f : SynFile) (ms : List Mutant) (ext : List (List ModNamespace)),
    walkFile c f = some (ms, ext) → ∀ m ∈ ms, m.genre = .matchArm →
      ∃ path n arms a w, Position f.items (path ++ [n]) ∧ n.kind = .match arms ∧ a ∈ arms ∧ m.span = a.span ∧
        w ∈ arms ∧ w ≠ a ∧ w.isWild = true ∧ w.guard = none

/-- `match x { true => a, _ if g => b, false => c }` -/
def sampleGuarded : SynFile :=
  { items := [.mk (.match [⟨false, none, sampleSpan 2 1 9⟩, ⟨true, some (sampleSpan 3 6 7), sampleSpan 3 1 9⟩,
      ⟨false, none, sampleSpan 4 1 9⟩]) [] []] }

/-- **C52**: a wildcard with a guard counts, so what is left need not match everything. -/
theorem C52_covers_false : ¬ C52_covers_full := by
  intro hf
  obtain ⟨path, n, arms, a, w, hp, hk, _, _, hw, _, h1, h2⟩ := hf sampleVisit sampleGuarded
    [⟨sampleFile, none, sampleSpan 2 1 9, [], .matchArm⟩, ⟨sampleFile, none, sampleSpan 4 1 9, [], .matchArm⟩,
     ⟨sampleFile, none, sampleSpan 3 6 7, "true".toList, .matchArmGuard⟩,
     ⟨sampleFile, none, sampleSpan 3 6 7, "false".toList, .matchArmGuard⟩] []
    (by decide +kernel) _ (List.mem_cons_self ..) rfl
  have hp := mem_of_position hp
  have e : positionsAll [] sampleGuarded.items = [sampleGuarded.items] := rfl
  rw [e, List.mem_singleton, show sampleGuarded.items = [] ++ sampleGuarded.items from rfl] at hp
  obtain ⟨_, hp⟩ := List.append_inj' hp rfl
  obtain ⟨rfl, _⟩ := List.cons.inj hp
  cases hk
  rcases List.mem_cons.1 hw with rfl | hw
  · cases h1
  rcases List.mem_cons.1 hw with rfl | hw
  · cases h2
  cases List.mem_singleton.1 hw
  cases h1

/-- **C52**: if the wildcards have no guards, what is left matches everything. -/
theorem C52_covers (c : VConfig) (f : SynFile) (ms : List Mutant) (ext : List (List ModNamespace))
    (h : walkFile c f = some (ms, ext)) (m : Mutant) (hm : m ∈ ms) (hg : m.genre = .matchArm)
    (hu : ∀ path n arms w, Position f.items (path ++ [n]) → n.kind = .match arms → w ∈ arms → w.isWild = true →
      w.guard = none) :
    ∃ path n arms a w, Position f.items (path ++ [n]) ∧ n.kind = .match arms ∧ a ∈ arms ∧ m.span = a.span ∧
      w ∈ arms ∧ w ≠ a ∧ w.isWild = true ∧ w.guard = none := by
  obtain ⟨path, n, arms, a, w, hp, hk, ha, hs, _, h1, _, hw, h2⟩ := C52_deleted c f ms ext h m hm hg
  exact ⟨path, n, arms, a, w, hp, hk, ha, hs, hw, (by rintro rfl; rw [h1] at h2; cases h2), h2, hu path n arms w hp hk hw h2⟩

/-- `match x { 1 => a, _ => b }` -/
example : ∀ path n arms w, Position [Node.mk (.match [⟨false, none, sampleSpan 2 1 9⟩, ⟨true, none, sampleSpan 3 1 9⟩]) [] []]
    (path ++ [n]) → n.kind = .match arms → w ∈ arms → w.isWild = true → w.guard = none := by
  intro path n arms w hp hk hw _
  have hp := mem_of_position hp
  rw [show positionsAll [] _ = [[] ++ [Node.mk (.match [⟨false, none, sampleSpan 2 1 9⟩, ⟨true, none, sampleSpan 3 1 9⟩]) [] []]]
    from rfl, List.mem_singleton] at hp
  obtain ⟨_, hp⟩ := List.append_inj' hp rfl
  obtain ⟨rfl, _⟩ := List.cons.inj hp
  cases hk
  rcases List.mem_cons.1 hw with rfl | hw
  · rfl
  cases List.mem_singleton.1 hw
  rfl

/-! ### C53 -/

/-- A node that is a function. -/
def IsFn (n : Node) : Prop := ∃ kind sig block, n.kind = .fn kind sig block

/-- The innermost function on a path, named by all names down to it. -/
def InnermostFn (path : List Node) (g : Function) : Prop :=
  ∃ outer n inner kind sig block, path = outer ++ n :: inner ∧ n.kind = .fn kind sig block ∧
    (∀ m ∈ inner, ¬ IsFn m) ∧ g.functionName = joinWith "::".toList ((outer ++ [n]).filterMap label) ∧
    g.returnType = pretty sig.outputTokens ∧ g.span = sig.span

theorem functionAt_spec (path : List Node) :
    match functionAt path with
    | some g => InnermostFn path g
    | none => ∀ n ∈ path, ¬ IsFn n := by
  have key : ∀ (r : List Node), match functionAt r.reverse with
      | some g => InnermostFn r.reverse g
      | none => ∀ n ∈ r.reverse, ¬ IsFn n := by
    intro r
    induction r with
    | nil => simp [functionAt, functionFrom]
    | cons n rest ih =>
      rw [List.reverse_cons]
      by_cases hf : IsFn n
      · obtain ⟨kind, sig, block, hk⟩ := hf
        rw [functionAt_eq, fns_fn _ hk]
        simp only [List.getLast?_append, List.getLast?_singleton, Option.or_some]
        exact ⟨rest.reverse, n, [], kind, sig, block, rfl, hk, by simp, rfl, rfl, rfl⟩
      · have e : functionAt (rest.reverse ++ [n]) = functionAt rest.reverse := by
          rw [functionAt_eq, fns_other _ (fun k g b h => hf ⟨k, g, b, h⟩), functionAt_eq]
        rw [e]
        cases h : functionAt rest.reverse with
        | none =>
          rw [h] at ih
          intro m hm
          rcases List.mem_append.1 hm with hm | hm
          · exact ih m hm
          · cases List.mem_singleton.1 hm; exact hf
        | some g =>
          rw [h] at ih
          obtain ⟨outer, x, inner, kind, sig, block, h1, h2, h3, h4⟩ := ih
          refine ⟨outer, x, inner ++ [n], kind, sig, block, ?_, h2, ?_, h4⟩
          · rw [h1]; simp
          · intro m hm
            rcases List.mem_append.1 hm with hm | hm
            · exact h3 m hm
            · cases List.mem_singleton.1 hm; exact hf
  have := key path.reverse
  rwa [List.reverse_reverse] at this

/-- **C53**: no assertion in the walker fails. -/
theorem C53_no_panic (c : VConfig) (f : SynFile) : (walkFile c f).isSome = true := by
  rw [walkFile_spec]; rfl

/-- **C53**: every mutant names the innermost function around it, with the names of everything around
that. -/
theorem C53_function (c : VConfig) (f : SynFile) (ms : List Mutant) (ext : List (List ModNamespace))
    (h : walkFile c f = some (ms, ext)) :
    ∃ ps : List (List Node × Mutant), ps.map Prod.snd = ms ∧ ∀ q ∈ ps, Position f.items q.1 ∧
      (∃ n, q.1.getLast? = some n ∧ (q.2.span, q.2.replacement, q.2.genre) ∈ changes c.errorExprs n) ∧
      match q.2.function with
      | some g => InnermostFn q.1 g
      | none => ∀ n ∈ q.1, ¬ IsFn n := by
  obtain ⟨ps, ⟨hsub, rfl⟩, _⟩ := walk_made h
  refine ⟨ps.flatMap fun p => (mutantsAt c p).map fun m => (p, m), ?_, ?_⟩
  · rw [List.map_flatMap]
    congr 1
    funext p
    simp [Function.comp_def]
  · intro q hq
    obtain ⟨p, hp, hq⟩ := List.mem_flatMap.1 hq
    obtain ⟨m, hm, rfl⟩ := List.mem_map.1 hq
    refine ⟨position_of_mem (hsub.subset hp), ?_⟩
    unfold mutantsAt at hm
    cases hl : p.getLast? with
    | none => rw [hl] at hm; cases hm
    | some n =>
      rw [hl] at hm
      obtain ⟨⟨span, rep, genre⟩, hch, rfl⟩ := List.mem_map.1 hm
      exact ⟨⟨n, rfl, hch⟩, functionAt_spec p⟩

/-- **C53**: mutants of function bodies have a function, so they can be described. -/
theorem C53_described (c : VConfig) (f : SynFile) (ms : List Mutant) (ext : List (List ModNamespace))
    (h : walkFile c f = some (ms, ext)) (m : Mutant) (hm : m ∈ ms) : m.describe.isSome = true := by
  obtain ⟨ps, rfl, hps⟩ := C53_function c f ms ext h
  obtain ⟨q, hq, rfl⟩ := List.mem_map.1 hm
  obtain ⟨_, ⟨n, hl, hch⟩, hf⟩ := hps q hq
  cases hfn : q.2.function with
  | some g => unfold Mutant.describe; rw [hfn]; cases q.2.genre <;> rfl
  | none =>
    rw [hfn] at hf
    have hn := hf n (List.mem_of_getLast? hl)
    have hg : q.2.genre ≠ .fnValue := by
      intro hg
      rw [hg] at hch
      unfold changes at hch
      cases hk : n.kind with
      | fn kind sig block => exact hn ⟨kind, sig, block, hk⟩
      | binary op sp => rw [hk] at hch; simp at hch
      | unary op sp => rw [hk] at hch; cases op <;> simp at hch
      | «match» arms =>
        rw [hk] at hch
        rcases List.mem_append.1 hch with hch | hch
        · obtain ⟨r, _, e⟩ := List.mem_map.1 hch
          exact absurd (congrArg (fun x => x.2.2) e) (by simp)
        · obtain ⟨a, _, ha⟩ := List.mem_flatMap.1 hch
          cases hgd : a.guard with
          | none => rw [hgd] at ha; cases ha
          | some g => rw [hgd] at ha; simp at ha
      | _ => rw [hk] at hch; cases hch
    unfold Mutant.describe
    cases hgn : q.2.genre with
    | fnValue => exact absurd hgn hg
    | _ => rfl

end CM.Props
