import Verif.Spec.Visit
/-! The walk finds what the specification says. -/
namespace CM.Props
open CM CM.Spec

theorem attrIdent_iff (p : AttrPath) (i : Text) : p.isIdent i = true ↔ p = ⟨false, [i]⟩ := by
  cases p with | mk l is => cases l <;> simp [AttrPath.isIdent]

theorem nestedMeta_eq (a : Attr) (paths : List AttrPath) : a.nestedMeta = some paths ↔
    ∃ items, a.args = .list items ∧ (∀ i ∈ items, i.simple = true) ∧ items.map (·.path) = paths := by
  unfold Attr.nestedMeta
  cases a.args with
  | none => simp
  | nameValue v => simp
  | list items =>
    by_cases h : items.all (·.simple)
    · simp only [h, if_true]
      simp only [List.all_eq_true] at h
      constructor
      · intro e; exact ⟨items, rfl, h, Option.some.inj e⟩
      · rintro ⟨_, e, _, rfl⟩; cases e; rfl
    · simp only [h]
      constructor
      · intro e; cases e
      · rintro ⟨_, e, h', _⟩; cases e; exact absurd (List.all_eq_true.2 h') h

theorem nested_any (a : Attr) (f : AttrPath → Bool) :
    a.nestedAny f = true ↔
    ∃ items, a.args = .list items ∧ (∀ i ∈ items, i.simple = true) ∧ ∃ i ∈ items, f i.path = true := by
  unfold Attr.nestedAny
  cases h : a.nestedMeta with
  | none =>
    constructor
    · intro e; cases e
    · rintro ⟨items, h1, h2, _⟩
      have := (nestedMeta_eq a (items.map (·.path))).2 ⟨items, h1, h2, rfl⟩
      rw [h] at this; cases this
  | some paths =>
    obtain ⟨items, h1, h2, rfl⟩ := (nestedMeta_eq a paths).1 h
    constructor
    · intro e
      obtain ⟨p, hp, hf⟩ := List.any_eq_true.1 e
      obtain ⟨i, hi, rfl⟩ := List.mem_map.1 hp
      exact ⟨items, h1, h2, i, hi, hf⟩
    · rintro ⟨items', h1', _, i, hi, hf⟩
      rw [h1] at h1'; cases h1'
      exact List.any_eq_true.2 ⟨_, List.mem_map.2 ⟨i, hi, rfl⟩, hf⟩

theorem marks_iff (a : Attr) : (attrIsCfgTest a || attrIsTest a || attrIsMutantsSkip a) = true ↔ Marks a := by
  simp only [attrIsCfgTest, attrIsTest, attrIsMutantsSkip, Bool.or_eq_true, Bool.and_eq_true, nested_any,
    attrIdent_iff, pathIs, beq_iff_eq, Marks]
  constructor
  · rintro ((⟨h, items, h1, h2, h3⟩ | h) | (h | ⟨h, items, h1, h2, h3⟩))
    · exact .inr (.inr ⟨items, h1, h2, .inl ⟨h, h3⟩⟩)
    · exact .inl h
    · exact .inr (.inl h)
    · exact .inr (.inr ⟨items, h1, h2, .inr ⟨h, h3⟩⟩)
  · rintro (h | h | ⟨items, h1, h2, ⟨h, h3⟩ | ⟨h, h3⟩⟩)
    · exact .inl (.inr h)
    · exact .inr (.inl h)
    · exact .inl (.inl ⟨h, items, h1, h2, h3⟩)
    · exact .inr (.inr ⟨h, items, h1, h2, h3⟩)

theorem attrsExcluded_iff (attrs : List Attr) : attrsExcluded attrs = true ↔ ∃ a ∈ attrs, Marks a := by
  unfold attrsExcluded
  rw [List.any_eq_true]
  constructor
  · rintro ⟨a, h, m⟩; exact ⟨a, h, (marks_iff a).1 m⟩
  · rintro ⟨a, h, m⟩; exact ⟨a, h, (marks_iff a).2 m⟩

theorem findPath_cons (a : Attr) (rest : List Attr) : findPathAttribute (a :: rest) =
    match a.args with
    | .nameValue (some v) =>
      if a.path.isIdent "path".toList then
        if v.head? = some '/' then none else some (some v)
      else findPathAttribute rest
    | _ => findPathAttribute rest := rfl

theorem pathValue_cons (a : Attr) (rest : List Attr) : pathValue (a :: rest) =
    match a.args with
    | .nameValue (some v) => if a.path = ⟨false, ["path".toList]⟩ then some v else pathValue rest
    | _ => pathValue rest := by
  unfold pathValue
  rw [List.filterMap_cons]
  cases a.args with
  | none => by_cases h : a.path = ⟨false, ["path".toList]⟩ <;> simp only [h, if_true, if_false]
  | list _ => by_cases h : a.path = ⟨false, ["path".toList]⟩ <;> simp only [h, if_true, if_false]
  | nameValue v =>
    cases v <;> by_cases h : a.path = ⟨false, ["path".toList]⟩ <;> simp only [h, if_true, if_false] <;> rfl

theorem findPath_eq (attrs : List Attr) : findPathAttribute attrs =
    match pathValue attrs with
    | none => some none
    | some v => if v.head? = some '/' then none else some (some v) := by
  induction attrs with
  | nil => rfl
  | cons a rest ih =>
    rw [findPath_cons, pathValue_cons]
    cases a.args with
    | none => exact ih
    | list _ => exact ih
    | nameValue v =>
      cases v with
      | none => exact ih
      | some v =>
        dsimp only
        by_cases h : a.path = ⟨false, ["path".toList]⟩
        · rw [if_pos ((attrIdent_iff _ _).2 h), if_pos h]
        · have hb : ¬ (a.path.isIdent "path".toList = true) := fun e => h ((attrIdent_iff _ _).1 e)
          simp only [hb, h, if_false]
          exact ih

/-! ### Positions -/

theorem node_eta (n : Node) : Node.mk n.kind n.attrs n.children = n := by cases n; rfl

theorem positions_eq (path : List Node) (n : Node) :
    positions path n = (path ++ [n]) :: positionsAll (path ++ [n]) n.children := by cases n; rfl

mutual
theorem positions_prefix (path : List Node) (n : Node) :
    ∀ q ∈ positions path n, ∃ r, q = path ++ [n] ++ r := by
  match n with
  | .mk k a cs =>
    intro q hq
    rw [positions_eq] at hq
    rcases List.mem_cons.1 hq with rfl | hq
    · exact ⟨[], by simp⟩
    · obtain ⟨r, rfl⟩ := positionsAll_prefix _ cs q hq
      exact ⟨r, rfl⟩
theorem positionsAll_prefix (path : List Node) (ns : List Node) :
    ∀ q ∈ positionsAll path ns, ∃ r, q = path ++ r := by
  match ns with
  | [] => intro q hq; cases hq
  | n :: rest =>
    intro q hq
    rcases List.mem_append.1 hq with hq | hq
    · obtain ⟨r, rfl⟩ := positions_prefix path n q hq
      exact ⟨n :: r, by simp⟩
    · exact positionsAll_prefix path rest q hq
end

mutual
theorem mem_positions (path : List Node) (n : Node) (q : List Node) :
    path ++ n :: q ∈ positions path n ↔ q = [] ∨ Position n.children q := by
  match n with
  | .mk k a cs =>
    rw [positions_eq, List.mem_cons]
    have e : path ++ Node.mk k a cs :: q = (path ++ [Node.mk k a cs]) ++ q := by simp
    rw [e]
    constructor
    · rintro (h | h)
      · exact .inl (by simpa using h)
      · exact .inr ((mem_positionsAll _ cs q).1 h)
    · rintro (rfl | h)
      · exact .inl (by simp)
      · exact .inr ((mem_positionsAll _ cs q).2 h)
theorem mem_positionsAll (path : List Node) (ns : List Node) (q : List Node) :
    path ++ q ∈ positionsAll path ns ↔ Position ns q := by
  match ns with
  | [] => constructor
          · intro h; cases h
          · intro h; cases h <;> rename_i h <;> cases h
  | n :: rest =>
    have hn := fun q => mem_positions path n q
    show _ ∈ positions path n ++ positionsAll path rest ↔ _
    rw [List.mem_append, mem_positionsAll path rest q]
    constructor
    · rintro (h | h)
      · obtain ⟨r, hr⟩ := positions_prefix path n _ h
        have hq : q = n :: r := by
          rw [List.append_assoc] at hr
          simpa using List.append_cancel_left hr
        subst hq
        rcases (hn r).1 h with rfl | h
        · exact .root (List.mem_cons_self ..)
        · exact .child (List.mem_cons_self ..) h
      · cases h with
        | root h => exact .root (List.mem_cons_of_mem _ h)
        | child h h' => exact .child (List.mem_cons_of_mem _ h) h'
    · intro h
      cases h with
      | root h =>
        rcases List.mem_cons.1 h with rfl | h
        · exact .inl ((hn []).2 (.inl rfl))
        · exact .inr (.root h)
      | child h h' =>
        rcases List.mem_cons.1 h with rfl | h
        · exact .inl ((hn _).2 (.inr h'))
        · exact .inr (.child h h')
end

/-! ### The state and the path -/

/-- The functions on a path, from the outside in. -/
def fnsFrom (outer : List Node) : List Node → List Function
  | [] => []
  | n :: rest =>
    (match n.kind with
     | .fn _ sig _ => [describeFn (outer ++ [n]) sig]
     | _ => []) ++ fnsFrom (outer ++ [n]) rest

theorem fnsFrom_append (o p q : List Node) : fnsFrom o (p ++ q) = fnsFrom o p ++ fnsFrom (o ++ p) q := by
  induction p generalizing o with
  | nil => simp [fnsFrom]
  | cons n rest ih => simp [fnsFrom, ih]

theorem functionFrom_eq (o p : List Node) (found : Option Function) :
    functionFrom o found p = ((fnsFrom o p).getLast?).or found := by
  induction p generalizing o found with
  | nil => rfl
  | cons n rest ih =>
    show functionFrom (o ++ [n]) _ rest = _
    rw [ih]
    show _ = ((_ ++ fnsFrom (o ++ [n]) rest).getLast?).or found
    rw [List.getLast?_append]
    cases n.kind <;> simp

theorem functionAt_eq (p : List Node) : functionAt p = (fnsFrom [] p).getLast? := by
  simp [functionAt, functionFrom_eq]

/-- The stacks hold what is on the path. -/
structure Matches (s : VState) (path : List Node) : Prop where
  ns : s.nsStack = path.filterMap label
  fns : s.fnStack = fnsFrom [] path
  mods : s.modStack = path.filterMap modOf

/-- The state with what is found at some positions added. -/
noncomputable def grow (c : VConfig) (s : VState) (ps : List (List Node)) : VState :=
  { s with mutants := s.mutants ++ (unskipped c.skipCalls ps).flatMap (mutantsAt c),
           externalMods := s.externalMods ++ (unskipped c.skipCalls ps).filterMap externalAt }

theorem unskipped_append (k : List Text) (a b : List (List Node)) :
    unskipped k (a ++ b) = unskipped k a ++ unskipped k b := by
  simp [unskipped]

theorem grow_append (c : VConfig) (s : VState) (a b : List (List Node)) :
    grow c s (a ++ b) = grow c (grow c s a) b := by
  simp [grow, unskipped_append]

theorem grow_nil (c : VConfig) (s : VState) : grow c s [] = s := by simp [grow, unskipped]

theorem grow_skip (c : VConfig) (s : VState) (path : List Node) (n : Node) (h : Skipped c.skipCalls n) :
    grow c s (positions path n) = s := by
  have : unskipped c.skipCalls (positions path n) = [] := by
    unfold unskipped
    rw [List.filter_eq_nil_iff]
    intro q hq
    obtain ⟨r, rfl⟩ := positions_prefix path n q hq
    simp only [decide_eq_true_eq]
    intro hc
    exact hc n (by simp) h
  simp [grow, this]

theorem matches_grow {c : VConfig} {s : VState} {path : List Node} (h : Matches s path) (ps : List (List Node)) :
    Matches (grow c s ps) path := ⟨h.ns, h.fns, h.mods⟩

/-- What is found at one live position. -/
theorem grow_live (c : VConfig) (s : VState) (path : List Node) (n : Node)
    (h : ∀ m ∈ path, ¬ Skipped c.skipCalls m) (hn : ¬ Skipped c.skipCalls n) (rest : List (List Node)) :
    grow c s ((path ++ [n]) :: rest) =
    grow c { s with mutants := s.mutants ++ mutantsAt c (path ++ [n]),
                    externalMods := s.externalMods ++ (externalAt (path ++ [n])).toList } rest := by
  have hl : unskipped c.skipCalls ((path ++ [n]) :: rest) = (path ++ [n]) :: unskipped c.skipCalls rest := by
    unfold unskipped
    rw [List.filter_cons_of_pos]
    simp only [decide_eq_true_eq]
    intro m hm
    rcases List.mem_append.1 hm with hm | hm
    · exact h m hm
    · cases List.mem_singleton.1 hm; exact hn
  unfold grow
  rw [hl]
  cases he : externalAt (path ++ [n]) <;> simp [he]

theorem mutantsAt_snoc (c : VConfig) (path : List Node) (n : Node) :
    mutantsAt c (path ++ [n]) = (changes c.errorExprs n).map fun (span, replacement, genre) =>
      { sourceFile := c.sourceFile, function := functionAt (path ++ [n]), span, replacement, genre } := by
  simp [mutantsAt]

theorem collect_foldl {α : Type} (c : VConfig) (span : α → Span) (rep : α → Tokens) (genre : Genre)
    (l : List α) (s : VState) :
    l.foldl (fun s a => s.collect c (span a) (rep a) genre) s =
    { s with mutants := s.mutants ++ l.map fun a =>
        { sourceFile := c.sourceFile, function := s.fnStack.getLast?, span := span a,
          replacement := pretty (rep a), genre } } := by
  induction l generalizing s with
  | nil => simp
  | cons a rest ih => rw [List.foldl_cons, ih]; simp [VState.collect]

theorem replacements_row (op : BinOp) : op.replacements.map pretty = operatorRow op := by
  cases op <;> rfl

theorem collectFnLoop_eq (c : VConfig) (inner : Tokens) (span : Span) (reps : List Tokens) (s : VState) :
    collectFnLoop c (pretty [.group .brace inner]) span reps s =
    { s with mutants := s.mutants ++ ((reps.map pretty).filter (· ≠ pretty inner)).map fun r =>
        { sourceFile := c.sourceFile, function := s.fnStack.getLast?, span, replacement := r, genre := .fnValue } } := by
  induction reps generalizing s with
  | nil => simp [collectFnLoop]
  | cons rep rest ih =>
    have e : ∀ t : Tokens, pretty [.group .brace t] = ['{'] ++ pretty t ++ ['}'] := fun t => rfl
    unfold collectFnLoop
    rw [ih]
    by_cases h : pretty inner = pretty rep
    · simp [e, h]
    · have h' : ¬ (pretty rep = pretty inner) := fun x => h x.symm
      simp [e, h, h', VState.collect]

theorem wholeSpan_eq (b : Block) : functionBodySpan b = wholeSpan b.stmts := by
  unfold functionBodySpan
  cases b.stmts with
  | nil => rfl
  | cons a rest => simp [wholeSpan, List.getLast?_eq_getLast]

theorem collectArms_eq (c : VConfig) (s : VState) (arms : List Arm) (children : List Node) (attrs : List Attr) :
    collectArms c s arms =
    { s with mutants := s.mutants ++
        (changes c.errorExprs (.mk (.match arms) attrs children)).map fun (span, replacement, genre) =>
          { sourceFile := c.sourceFile, function := s.fnStack.getLast?, span, replacement, genre } } := by
  have guards : ∀ (gs : List Arm) (s : VState), (gs.filterMap (·.guard)).foldl
      (fun s g => (s.collect c g [qi "true"] .matchArmGuard).collect c g [qi "false"] .matchArmGuard) s =
      { s with mutants := s.mutants ++ (gs.flatMap fun a =>
          (match a.guard with
          | some g => [(g, "true".toList, Genre.matchArmGuard), (g, "false".toList, Genre.matchArmGuard)]
          | none => [])).map fun (span, replacement, genre) =>
          { sourceFile := c.sourceFile, function := s.fnStack.getLast?, span, replacement, genre } } := by
    intro gs
    induction gs with
    | nil => simp
    | cons a rest ih =>
      intro s
      have e1 : pretty [qi "true"] = "true".toList := rfl
      have e2 : pretty [qi "false"] = "false".toList := rfl
      cases hg : a.guard with
      | none => simp [hg, ih]
      | some g =>
        rw [List.filterMap_cons_some hg, List.foldl_cons, ih]
        simp [hg, VState.collect, e1, e2]
  unfold collectArms
  rw [guards]
  unfold changes
  simp only [Node.kind]
  by_cases h : arms.any (·.isWild) = true
  · rw [if_pos h, collect_foldl]
    have hw : ∃ w ∈ arms, w.isWild = true := List.any_eq_true.1 h
    have hf : (arms.filter fun a => decide (¬ a.isWild = true ∧ a.guard = none ∧ ∃ w ∈ arms, w.isWild = true)) =
        arms.filter fun a => !a.isWild && a.guard.isNone := by
      apply List.filter_congr
      intro a _
      cases a.isWild <;> cases a.guard <;> simp [hw]
    rw [hf]
    simp [Function.comp_def]
    rfl
  · rw [if_neg h]
    have hw : ¬ ∃ w ∈ arms, w.isWild = true := fun x => h (List.any_eq_true.2 x)
    have hf : (arms.filter fun a => decide (¬ a.isWild = true ∧ a.guard = none ∧ ∃ w ∈ arms, w.isWild = true)) = [] := by
      rw [List.filter_eq_nil_iff]
      intro a _
      simp only [decide_eq_true_eq]
      rintro ⟨_, _, x⟩; exact hw x
    rw [hf]
    rfl

theorem fns_other (path : List Node) {n : Node} (h : ∀ k g b, n.kind ≠ .fn k g b) :
    fnsFrom [] (path ++ [n]) = fnsFrom [] path := by
  rw [fnsFrom_append]
  unfold fnsFrom
  cases hk : n.kind <;> simp [fnsFrom]
  exact absurd hk (h _ _ _)

theorem fns_fn (path : List Node) {n : Node} {k g b} (h : n.kind = .fn k g b) :
    fnsFrom [] (path ++ [n]) = fnsFrom [] path ++ [describeFn (path ++ [n]) g] := by
  rw [fnsFrom_append]
  unfold fnsFrom
  simp [h, fnsFrom]

/-- The state with the changes at a node recorded. -/
def withChanges (c : VConfig) (s : VState) (n : Node) : VState :=
  { s with mutants := s.mutants ++ (changes c.errorExprs n).map fun (span, replacement, genre) =>
      { sourceFile := c.sourceFile, function := s.fnStack.getLast?, span, replacement, genre } }

/-- Nodes without a name of their own: what they contribute, and then their children. -/
theorem visit_plain {c : VConfig} {s : VState} {path : List Node} {n : Node} (hm : Matches s path)
    (hp : ∀ m ∈ path, ¬ Skipped c.skipCalls m) (hn : ¬ Skipped c.skipCalls n)
    (hf : ∀ k g b, n.kind ≠ .fn k g b) (hl : label n = none) (hmod : modOf n = none)
    (hx : externalAt (path ++ [n]) = none)
    (ih : ∀ s' : VState, Matches s' (path ++ [n]) →
      visitAll c n.children s' = some (grow c s' (positionsAll (path ++ [n]) n.children))) :
    visitAll c n.children (withChanges c s n) = some (grow c s (positions path n)) := by
  rw [positions_eq, grow_live c s path n hp hn, hx]
  have hfa : functionAt (path ++ [n]) = s.fnStack.getLast? := by
    rw [functionAt_eq, fns_other path hf, hm.fns]
  rw [mutantsAt_snoc, hfa]
  have hm' : Matches (withChanges c s n) (path ++ [n]) := by
    refine ⟨?_, ?_, ?_⟩
    · simp [withChanges, hm.ns, hl]
    · rw [fns_other path hf]; exact hm.fns
    · simp [withChanges, hm.mods, hmod]
  rw [ih _ hm']
  simp [withChanges]

/-- Nodes that push a name: what they contribute, and then their children. -/
theorem visit_named {c : VConfig} {s : VState} {path : List Node} {n : Node} {name : Text} (hm : Matches s path)
    (hp : ∀ m ∈ path, ¬ Skipped c.skipCalls m) (hn : ¬ Skipped c.skipCalls n)
    (hf : ∀ k g b, n.kind ≠ .fn k g b) (hl : label n = some name) (hmod : modOf n = none)
    (hc : changes c.errorExprs n = [])
    (hx : externalAt (path ++ [n]) = none)
    (ih : ∀ s' : VState, Matches s' (path ++ [n]) →
      visitAll c n.children s' = some (grow c s' (positionsAll (path ++ [n]) n.children))) :
    (do (← visitAll c n.children (s.push name)).pop name) = some (grow c s (positions path n)) := by
  rw [positions_eq, grow_live c s path n hp hn, hx, mutantsAt_snoc, hc]
  have hm' : Matches (s.push name) (path ++ [n]) := by
    refine ⟨?_, ?_, ?_⟩
    · simp [VState.push, hm.ns, hl]
    · rw [fns_other path hf]; exact hm.fns
    · simp [VState.push, hm.mods, hmod]
  rw [ih _ hm']
  simp [VState.push, VState.pop, grow]

theorem findPath_some {attrs : List Attr} {v : Option Text} (h : findPathAttribute attrs = some v) :
    pathValue attrs = v ∧ ¬ ∃ w, pathValue attrs = some w ∧ w.head? = some '/' := by
  rw [findPath_eq] at h
  cases hp : pathValue attrs with
  | none => rw [hp] at h; cases h; simp
  | some w =>
    rw [hp] at h
    dsimp only at h
    by_cases hw : w.head? = some '/'
    · rw [if_pos hw] at h; cases h
    · rw [if_neg hw] at h; cases h
      refine ⟨rfl, ?_⟩
      rintro ⟨w', e, h'⟩; cases e; exact hw h'

theorem findPath_none {attrs : List Attr} (h : findPathAttribute attrs = none) :
    ∃ w, pathValue attrs = some w ∧ w.head? = some '/' := by
  rw [findPath_eq] at h
  cases hp : pathValue attrs with
  | none => rw [hp] at h; cases h
  | some w =>
    rw [hp] at h
    dsimp only at h
    by_cases hw : w.head? = some '/'
    · exact ⟨w, rfl, hw⟩
    · rw [if_neg hw] at h; cases h

theorem unraw_plain (name : Text) : unraw name = plainName name := by
  unfold unraw
  match name with
  | [] => rfl
  | [a] => simp [plainName, List.isPrefixOf]
  | a :: b :: rest =>
    by_cases h : a = 'r' ∧ b = '#'
    · obtain ⟨rfl, rfl⟩ := h; rfl
    · rw [if_neg]
      · unfold plainName
        split
        · rename_i e; cases e; exact absurd ⟨rfl, rfl⟩ h
        · rfl
      · intro hp
        simp only [show "r#".toList = ['r', '#'] from rfl, List.isPrefixOf, Bool.and_true, Bool.and_eq_true, beq_iff_eq] at hp
        exact h ⟨hp.1.symm, hp.2.symm⟩

/-- Modules. -/
theorem visit_mod {c : VConfig} {s : VState} {path : List Node} {n : Node} {name : Text} {inline : Bool} {span : Span}
    (hm : Matches s path)
    (hp : ∀ m ∈ path, ¬ Skipped c.skipCalls m) (hn : ¬ Skipped c.skipCalls n) (hk : n.kind = .mod name inline span)
    (ns : ModNamespace) (hns : modOf n = some ns) (hnn : ns.name = plainName name)
    (ih : ∀ s' : VState, Matches s' (path ++ [n]) →
      visitAll c n.children s' = some (grow c s' (positionsAll (path ++ [n]) n.children))) :
    (do
      let s ← (← visitAll c n.children (({ s with
          modStack := s.modStack ++ [ns]
          externalMods := if inline then s.externalMods else s.externalMods ++ [s.modStack ++ [ns]] } : VState).push ns.name)).pop ns.name
      if s.modStack.getLast? = some ns then some { s with modStack := s.modStack.dropLast } else none) =
    some (grow c s (positions path n)) := by
  have hf : ∀ k g b, n.kind ≠ .fn k g b := by intro k g b; rw [hk]; intro e; cases e
  have hl : label n = some ns.name := by rw [hnn]; unfold label; rw [hk]
  have hc : changes c.errorExprs n = [] := by unfold changes; rw [hk]
  have hx : (externalAt (path ++ [n])).toList = if inline then [] else [s.modStack ++ [ns]] := by
    unfold externalAt
    cases inline <;> simp [hk, hm.mods, hns]
  rw [positions_eq, grow_live c s path n hp hn, hx, mutantsAt_snoc, hc]
  rw [ih _ (by
    refine ⟨?_, ?_, ?_⟩
    · simp [VState.push, hm.ns, hl]
    · rw [fns_other path hf]; exact hm.fns
    · simp [VState.push, hm.mods, hns])]
  cases inline <;> simp [VState.push, VState.pop, grow]

/-- Functions. -/
theorem visit_fn {c : VConfig} {s : VState} {path : List Node} {n : Node} {kind : FnKind} {sig : Sig} {block : Block}
    (hm : Matches s path)
    (hp : ∀ m ∈ path, ¬ Skipped c.skipCalls m) (hn : ¬ Skipped c.skipCalls n) (hk : n.kind = .fn kind sig (some block))
    (hb : block.stmts ≠ [])
    (ih : ∀ s' : VState, Matches s' (path ++ [n]) →
      visitAll c n.children s' = some (grow c s' (positionsAll (path ++ [n]) n.children))) :
    (do
      let (s, f) := s.enterFunction sig
      let s ← s.collectFnMutants c sig block
      let s ← visitAll c n.children s
      s.leaveFunction f) =
    some (grow c s (positions path n)) := by
  have hl : label n = some sig.name := by unfold label; rw [hk]
  have hmod : modOf n = none := by unfold modOf; rw [hk]
  have hx : externalAt (path ++ [n]) = none := by unfold externalAt; simp [hk]
  obtain ⟨span, hspan⟩ : ∃ span, wholeSpan block.stmts = some span := by
    cases h : block.stmts with
    | nil => exact absurd h hb
    | cons a rest => exact ⟨_, rfl⟩
  have hd : (s.enterFunction sig).2 = describeFn (path ++ [n]) sig := by
    simp [VState.enterFunction, describeFn, hm.ns, hl]
  have hm1 : Matches (s.enterFunction sig).1 (path ++ [n]) := by
    refine ⟨?_, ?_, ?_⟩
    · simp [VState.enterFunction, hm.ns, hl]
    · rw [fns_fn path hk, ← hd, ← hm.fns]; rfl
    · simp [VState.enterFunction, hm.mods, hmod]
  have hf : functionAt (path ++ [n]) = some (s.enterFunction sig).2 := by
    rw [functionAt_eq, fns_fn path hk, ← hd]; simp
  have hlast : (s.enterFunction sig).1.fnStack.getLast? = some (s.enterFunction sig).2 := by
    simp [VState.enterFunction]
  have hcol : (s.enterFunction sig).1.collectFnMutants c sig block =
      some { (s.enterFunction sig).1 with mutants := s.mutants ++ mutantsAt c (path ++ [n]) } := by
    unfold VState.collectFnMutants
    rw [hlast]
    simp only [wholeSpan_eq, hspan]
    rw [mutantsAt_snoc, hf]
    have hch : changes c.errorExprs n = (((returnTypeReplacements sig.output c.errorExprs).map pretty).filter (· ≠ pretty block.inner)).map
        fun r => (span, r, Genre.fnValue) := by
      unfold changes
      rw [hk]
      simp only [hspan]
    rw [hch]
    show some _ = some _
    rw [collectFnLoop_eq, hlast]
    simp [VState.enterFunction, Function.comp_def]
  rw [positions_eq, grow_live c s path n hp hn, hx]
  show ((s.enterFunction sig).1.collectFnMutants c sig block).bind (fun s' => (visitAll c n.children s').bind
    fun s'' => s''.leaveFunction (s.enterFunction sig).2) = _
  rw [hcol]
  simp only [Option.bind_some]
  have hm2 : Matches { (s.enterFunction sig).1 with mutants := s.mutants ++ mutantsAt c (path ++ [n]) } (path ++ [n]) :=
    ⟨hm1.ns, hm1.fns, hm1.mods⟩
  rw [ih _ hm2]
  simp [VState.enterFunction, VState.leaveFunction, grow]

theorem not_marked {attrs : List Attr} (h : ¬ ∃ a ∈ attrs, Marks a) : attrsExcluded attrs = false := by
  cases he : attrsExcluded attrs with
  | false => rfl
  | true => exact absurd ((attrsExcluded_iff _).1 he) h

theorem marked {attrs : List Attr} (h : ∃ a ∈ attrs, Marks a) : attrsExcluded attrs = true :=
  (attrsExcluded_iff _).2 h

theorem call_any (k : List Text) (callee : Option (List Text)) :
    (k.any fun k => callee.any fun p => p.getLast? == some k) = true ↔
    ∃ path name, callee = some path ∧ path.getLast? = some name ∧ name ∈ k := by
  cases callee with
  | none => simp
  | some p =>
    simp only [List.any_eq_true, Option.any_some, beq_iff_eq]
    constructor
    · rintro ⟨x, h, e⟩; exact ⟨p, x, rfl, e, h⟩
    · rintro ⟨_, x, e, h, hx⟩; cases e; exact ⟨x, hx, h⟩

theorem method_any (k : List Text) (m : Text) : (k.any fun k => m == k) = true ↔ m ∈ k := by
  simp

mutual
theorem visit_spec (c : VConfig) (n : Node) (s : VState) (path : List Node) (hm : Matches s path)
    (hp : ∀ m ∈ path, ¬ Skipped c.skipCalls m) : visit c n s = some (grow c s (positions path n)) := by
  match n with
  | .mk kind attrs children =>
    have ih : (¬ Skipped c.skipCalls (.mk kind attrs children)) → ∀ s' : VState, Matches s' (path ++ [.mk kind attrs children]) →
      visitAll c children s' = some (grow c s' (positionsAll (path ++ [.mk kind attrs children]) children)) :=
      fun hn s' hs' => visitAll_spec c children s' _ hs' (by
        intro m hm'
        rcases List.mem_append.1 hm' with h | h
        · exact hp m h
        · cases List.mem_singleton.1 h; exact hn)
    by_cases hn : Skipped c.skipCalls (.mk kind attrs children)
    · rw [grow_skip c s path _ hn]
      cases kind with
      | other => exact hn.elim
      | call callee =>
        rcases hn with h | h
        · have h : attrsExcluded attrs = true := marked h
          simp [visit, h]
        · simp only [visit, (call_any _ _).2 h, if_true, ite_self]
      | methodCall m =>
        rcases hn with h | h
        · have h : attrsExcluded attrs = true := marked h
          simp [visit, h]
        · simp only [visit, (method_any _ _).2 h, if_true, ite_self]
      | fn kind sig block =>
        rcases hn with h | h | h | h
        · have h : attrsExcluded attrs = true := marked h
          simp [visit, h]
        · simp [visit, h]
        · simp [visit, h.1, h.2]
        · cases block with
          | none => simp only [visit, ite_self]
          | some b => simp only [visit, h b rfl, List.isEmpty_nil, if_true, ite_self]
      | impl selfTy tr =>
        rcases hn with h | ⟨p, t, rfl, h⟩
        · have h : attrsExcluded attrs = true := marked h
          simp [visit, h]
        · simp only [visit, h, if_true, ite_self]
      | trait name =>
        have h : attrsExcluded attrs = true := marked hn
        simp [visit, h]
      | mod name inline span =>
        rcases hn with h | ⟨v, h1, h2⟩
        · have h : attrsExcluded attrs = true := marked h
          simp [visit, h]
        · have : findPathAttribute attrs = none := by
            rw [findPath_eq]
            have h1 : pathValue attrs = some v := h1
            rw [h1]; simp only [h2, if_true]
          simp only [visit, this, ite_self]
      | binary op span =>
        have h : attrsExcluded attrs = true := marked hn
        simp [visit, h]
      | unary op span =>
        have h : attrsExcluded attrs = true := marked hn
        simp [visit, h]
      | «match» arms =>
        have h : attrsExcluded attrs = true := marked hn
        simp [visit, h]
    · have ih := ih hn
      cases kind with
      | other =>
        have := visit_plain (n := .mk .other attrs children) hm hp hn (by intro k g b e; cases e) rfl rfl (by simp [externalAt, Node.kind]) ih
        simpa [visit, withChanges, changes, Node.kind, Node.children] using this
      | call callee =>
        have h1 := not_marked (fun h => hn (.inl h))
        have h2 : ¬ _ := fun h => hn (.inr ((call_any _ _).1 h))
        have := visit_plain (n := .mk (.call callee) attrs children) hm hp hn (by intro k g b e; cases e) rfl rfl (by simp [externalAt, Node.kind]) ih
        simp only [visit]
        rw [if_neg (by rw [show attrsExcluded attrs = false from h1]; simp), if_neg h2]
        simpa [withChanges, changes, Node.kind, Node.children] using this
      | methodCall m =>
        have h1 := not_marked (fun h => hn (.inl h))
        have h2 : ¬ _ := fun h => hn (.inr ((method_any _ _).1 h))
        have := visit_plain (n := .mk (.methodCall m) attrs children) hm hp hn (by intro k g b e; cases e) rfl rfl (by simp [externalAt, Node.kind]) ih
        simp only [visit]
        rw [if_neg (by rw [show attrsExcluded attrs = false from h1]; simp), if_neg h2]
        simpa [withChanges, changes, Node.kind, Node.children] using this
      | fn kind sig block =>
        have h1 : attrsExcluded attrs = false := not_marked (fun h => hn (.inl h))
        have h2 : sig.isUnsafe = false := by
          cases h : sig.isUnsafe with
          | false => rfl
          | true => exact absurd (.inr (.inl h)) hn
        have h3 : (kind != .item && sig.name == "new".toList) = false := by
          cases h : (kind != .item && sig.name == "new".toList) with
          | false => rfl
          | true =>
            rw [Bool.and_eq_true, bne_iff_ne, beq_iff_eq] at h
            exact absurd (.inr (.inr (.inl h))) hn
        cases block with
        | none => exact absurd (.inr (.inr (.inr (by intro b e; cases e)))) hn
        | some b =>
          have hb : b.stmts ≠ [] := fun h => hn (.inr (.inr (.inr (by intro b' e; cases e; exact h))))
          have := visit_fn (n := .mk (.fn kind sig (some b)) attrs children) hm hp hn rfl hb ih
          simp only [visit, h1, h2, h3]
          have hb' : b.stmts.isEmpty = false := by simpa using hb
          simp only [hb']
          exact this
      | impl selfTy tr =>
        have h1 : attrsExcluded attrs = false := not_marked (fun h => hn (.inl h))
        cases tr with
        | none =>
          have := visit_named (n := .mk (.impl selfTy none) attrs children) hm hp hn (by intro k g b e; cases e) rfl rfl rfl (by simp [externalAt, Node.kind]) ih
          simp only [visit, h1]
          exact this
        | some pt =>
          obtain ⟨p, t⟩ := pt
          have h2 : ¬ (p.getLast? = some "Default".toList) := fun h => hn (.inr ⟨p, t, rfl, h⟩)
          have := visit_named (n := .mk (.impl selfTy (some (p, t))) attrs children) hm hp hn (by intro k g b e; cases e) rfl rfl rfl (by simp [externalAt, Node.kind]) ih
          simp only [visit, h1]
          rw [if_neg (by simp), if_neg h2]
          exact this
      | trait name =>
        have h1 : attrsExcluded attrs = false := not_marked (fun h => hn h)
        have := visit_named (n := .mk (.trait name) attrs children) hm hp hn (by intro k g b e; cases e) rfl rfl rfl (by simp [externalAt, Node.kind]) ih
        simp only [visit, h1]
        exact this
      | mod name inline span =>
        have h1 : attrsExcluded attrs = false := not_marked (fun h => hn (.inl h))
        cases hpa : findPathAttribute attrs with
        | none => exact absurd (.inr (findPath_none hpa)) hn
        | some v =>
          have := visit_mod (n := .mk (.mod name inline span) attrs children) hm hp hn rfl
            { name := plainName name, pathAttribute := v, span } (by rw [← (findPath_some hpa).1]; rfl) rfl ih
          simp only [visit, h1, hpa, unraw_plain]
          exact this
      | binary op span =>
        have h1 : attrsExcluded attrs = false := not_marked (fun h => hn h)
        have := visit_plain (n := .mk (.binary op span) attrs children) hm hp hn (by intro k g b e; cases e) rfl rfl (by simp [externalAt, Node.kind]) ih
        simp only [visit, h1]
        rw [if_neg (by simp), collect_foldl c (fun _ => span) (fun r => r)]
        simpa [withChanges, changes, Node.kind, Node.children, ← replacements_row, Function.comp_def] using this
      | unary op span =>
        have h1 : attrsExcluded attrs = false := not_marked (fun h => hn h)
        have := visit_plain (n := .mk (.unary op span) attrs children) hm hp hn (by intro k g b e; cases e) rfl rfl (by simp [externalAt, Node.kind]) ih
        simp only [visit, h1]
        rw [if_neg (by simp)]
        have e : pretty [] = [] := rfl
        cases op <;> simpa [withChanges, changes, Node.kind, Node.children, VState.collect, e] using this
      | «match» arms =>
        have h1 : attrsExcluded attrs = false := not_marked (fun h => hn h)
        have := visit_plain (n := .mk (.match arms) attrs children) hm hp hn (by intro k g b e; cases e) rfl rfl (by simp [externalAt, Node.kind]) ih
        simp only [visit, h1]
        rw [if_neg (by simp), collectArms_eq c s arms children attrs]
        exact this
theorem visitAll_spec (c : VConfig) (ns : List Node) (s : VState) (path : List Node) (hm : Matches s path)
    (hp : ∀ m ∈ path, ¬ Skipped c.skipCalls m) : visitAll c ns s = some (grow c s (positionsAll path ns)) := by
  match ns with
  | [] => exact congrArg some (grow_nil c s).symm
  | n :: rest =>
    show (visit c n s).bind (fun s' => visitAll c rest s') = some (grow c s (positions path n ++ positionsAll path rest))
    rw [visit_spec c n s path hm hp, grow_append]
    exact visitAll_spec c rest _ path (matches_grow hm _) hp
end

open Classical in
/-- What is found in a file. -/
theorem walkFile_spec (c : VConfig) (f : SynFile) :
    walkFile c f = some (if ∃ a ∈ f.attrs, Marks a then ([], [])
      else ((unskipped c.skipCalls (positionsAll [] f.items)).flatMap (mutantsAt c),
            (unskipped c.skipCalls (positionsAll [] f.items)).filterMap externalAt)) := by
  unfold walkFile
  by_cases h : ∃ a ∈ f.attrs, Marks a
  · rw [if_pos (marked h), if_pos h]; rfl
  · rw [if_neg (by rw [not_marked h]; simp), if_neg h, visitAll_spec c f.items {} [] ⟨rfl, rfl, rfl⟩ (by simp)]
    simp [grow]

end CM.Props
