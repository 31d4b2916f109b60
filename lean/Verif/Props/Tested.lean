import Verif.Spec.Tested
import Verif.Props.BuildDir
import Verif.Props.ReadBack
/-! C96: what the program is like that a command is run on. -/
namespace CM.Props
open CM CM.Spec

theorem change_tells {code : Text} {errs : List Tokens} {n : Node} (h : InText code n) {span : Span} {repl : Text} {genre : Genre}
    (hc : (span, repl, genre) ∈ changes errs n) :
    ∃ orig, AtText code span orig ∧ Change (errs.map pretty) n span orig repl ∧ Place n span := by
  unfold changes at hc
  unfold InText at h
  unfold Change Place
  cases hk : n.kind with
  | other => rw [hk] at hc; cases hc
  | call => rw [hk] at hc; cases hc
  | methodCall => rw [hk] at hc; cases hc
  | impl => rw [hk] at hc; cases hc
  | trait => rw [hk] at hc; cases hc
  | mod => rw [hk] at hc; cases hc
  | fn k sig block =>
    rw [hk] at hc h
    cases block with
    | none => cases hc
    | some block =>
      dsimp only at hc h ⊢
      split at hc
      · rename_i sp hw
        obtain ⟨r, hr0, hr⟩ := List.mem_map.1 hc
        cases hr
        obtain ⟨gap, t, rest', hr, hs⟩ := follow_whole h hw
        refine ⟨t, ⟨gap, rest', hr, hs⟩, ⟨hw, ?_⟩, hw⟩
        have hv := (List.mem_filter.1 hr0).1
        unfold ValueFor
        cases ho : sig.output with
        | none =>
          rw [ho, (C50_unit errs).1] at hv
          exact List.mem_singleton.1 hv
        | some ty =>
          rw [ho] at hv
          exact ⟨_, (C50_values_partial errs ty _).2 rfl, hv⟩
      · cases hc
  | binary op sp =>
    rw [hk] at hc h
    obtain ⟨r, hr, he⟩ := List.mem_map.1 hc
    cases he
    exact ⟨_, h, ⟨rfl, rfl, hr⟩, rfl⟩
  | unary op sp =>
    rw [hk] at hc h
    cases op with
    | not => cases List.mem_singleton.1 hc; exact ⟨_, h, ⟨rfl, .inl ⟨rfl, rfl⟩, rfl⟩, rfl⟩
    | neg => cases List.mem_singleton.1 hc; exact ⟨_, h, ⟨rfl, .inr ⟨rfl, rfl⟩, rfl⟩, rfl⟩
    | deref => cases hc
  | «match» arms =>
    rw [hk] at hc h
    dsimp only at hc h ⊢
    cases List.mem_append.1 hc with
    | inl hc =>
      obtain ⟨a, ha, he⟩ := List.mem_map.1 hc
      cases he
      obtain ⟨ha, hp⟩ := List.mem_filter.1 ha
      obtain ⟨t, ht⟩ := (h a ha).1
      exact ⟨t, ht, ⟨a, ha, .inl ⟨rfl, (of_decide_eq_true hp).2.1, rfl⟩⟩, a, ha, .inl rfl⟩
    | inr hc =>
      obtain ⟨a, ha, he⟩ := List.mem_flatMap.1 hc
      cases hg : a.guard with
      | none => rw [hg] at he; cases he
      | some g =>
        rw [hg] at he
        obtain ⟨t, ht⟩ := (h a ha).2 g hg
        cases List.mem_cons.1 he with
        | inl he => cases he; exact ⟨t, ht, ⟨a, ha, .inr ⟨hg, .inl rfl⟩⟩, a, ha, .inr hg⟩
        | inr he => cases List.mem_singleton.1 he; exact ⟨t, ht, ⟨a, ha, .inr ⟨hg, .inr rfl⟩⟩, a, ha, .inr hg⟩

/-- What is put there does not join with what is before, and ends. -/
theorem change_apart {errs : List Tokens} {n : Node} {span : Span} {orig repl : Text} {genre : Genre}
    (hc : (span, repl, genre) ∈ changes errs n) (hch : Change (errs.map pretty) n span orig repl) (he : ∀ e ∈ errs, PlainCode e)
    (hp : ∀ kind sig block t, n.kind = .fn kind sig block → sig.output = some t → PlainType t)
    {pre rest : Text} (ha : Apart pre rest) (hb : MayPrecede n span pre) :
    Apart pre repl ∧ (repl = [] ∨ (modeAfter repl).closed = true) := by
  have empty : repl = [] → Apart pre repl ∧ (repl = [] ∨ (modeAfter repl).closed = true) := by
    rintro rfl
    exact ⟨⟨ha.1, nofun⟩, .inl rfl⟩
  unfold Change at hch
  unfold MayPrecede at hb
  cases hk : n.kind with
  | other => rw [hk] at hch; cases hch
  | call => rw [hk] at hch; cases hch
  | methodCall => rw [hk] at hch; cases hch
  | impl => rw [hk] at hch; cases hch
  | trait => rw [hk] at hch; cases hch
  | mod => rw [hk] at hch; cases hch
  | fn k sig block =>
    rw [hk] at hb
    unfold changes at hc
    rw [hk] at hc
    cases block with
    | none => cases hc
    | some block =>
      dsimp only at hc
      split at hc
      · obtain ⟨r, hr0, hr⟩ := List.mem_map.1 hc
        cases hr
        obtain ⟨v, hv, rfl⟩ := List.mem_map.1 (List.mem_filter.1 hr0).1
        exact ⟨start_apart hb _, .inr (C95_values _ _ he (fun t ht => hp k sig _ t hk ht) v hv).closed⟩
      · cases hc
  | binary op sp =>
    rw [hk] at hch hb
    obtain ⟨h1, _, d, ds, h3, h4⟩ := operator_row_marks op _ hch.2.2
    exact ⟨⟨(operand_cut hb h4).1, fun c hc => by rw [h3] at hc; cases hc; exact (operand_cut hb h4).2⟩, .inr h1⟩
  | unary op sp =>
    rw [hk] at hch
    exact empty hch.2.2
  | «match» arms =>
    rw [hk] at hch hb
    obtain ⟨a, ha', h | ⟨hg, h⟩⟩ := hch
    · exact empty h.2.2
    · refine ⟨start_apart (hb ⟨a, ha', hg⟩) _, .inr ?_⟩
      rcases h with rfl | rfl <;> decide +kernel

/-- A mutant at a position of a tree of its file. -/
theorem mutant_exchanges {c : VConfig} {f : SynFile} {path : List Node} {m : Mutant} (hm : m ∈ mutantsAt c path)
    (hpos : Position f.items path) (he : ∀ e ∈ c.errorExprs, PlainCode e) (ht : TreeOfTokens c.sourceFile.code f) :
    OneExchanged (c.errorExprs.map pretty) f c.sourceFile.code m.mutated := by
  unfold mutantsAt at hm
  cases hl : path.getLast? with
  | none => rw [hl] at hm; cases hm
  | some n =>
    rw [hl] at hm
    obtain ⟨path, rfl⟩ := List.getLast?_eq_some_iff.1 hl
    obtain ⟨⟨span, rep, genre⟩, hch, hme⟩ := List.mem_map.1 hm
    obtain ⟨orig, ⟨pre, post, hcode, hspan⟩, hc, hplace⟩ := change_tells (ht.tree path n hpos) hch
    subst hspan
    obtain ⟨e1, e2, e3⟩ := ht.edges path n hpos pre orig post hcode hplace
    obtain ⟨a1, a2⟩ := change_apart hch hc he (fun k sig b t hk hs => ht.plain path n k sig b t hpos hk hs) e1 e3
    have hr : Replaces m pre orig post := by
      rw [← hme]
      exact ⟨hcode, rfl, e1, e2⟩
    have hrep : m.replacement = rep := by rw [← hme]
    have hcd : m.sourceFile = c.sourceFile := by rw [← hme]
    refine ⟨path, n, pre, orig, rep, post, hpos, hcode, hc, ?_, ?_⟩
    · rw [← hcd]; exact C94_original m pre orig post hr
    · rw [lexemes_mutated hr (hcd ▸ ht.clean) (hrep ▸ a1) (hrep ▸ a2), hrep]

/-- Where selected mutants come from. -/
theorem selects_origin {w : World} {a : MainArgs} {ms : List Mutant} (h : Selects w a ms) {o : Options}
    (ho : Options.new w.regex a.options w.config = some o) :
    ∃ exprs, parsedErrorExprs w.parseExpr o.errorValues = some exprs ∧ ∀ m ∈ ms, ∃ raw f path,
      w.read (joinPath w.root m.sourceFile.path) = some raw ∧ m.sourceFile.code = normalizeNewlines raw ∧
      w.parseFile m.sourceFile.code = some f ∧ Position f.items path ∧
      m ∈ mutantsAt ⟨m.sourceFile, exprs, o.skipCalls⟩ path := by
  obtain ⟨found, fs, ⟨o', pkgs, exprs, ho', _, hx, hw⟩, hsub⟩ := selects_found h
  cases ho.symm.trans ho'
  refine ⟨exprs, hx, fun m hm => ?_⟩
  have key : ∀ {pkgs ms fs}, WalksTree (w.walkEnv o exprs) pkgs ms fs → ∀ m ∈ ms, ∃ f path,
      w.parseFile m.sourceFile.code = some f ∧ Position f.items path ∧ m ∈ mutantsAt ⟨m.sourceFile, exprs, o.skipCalls⟩ path := by
    intro pkgs ms fs h
    induction h with
    | nil => simp
    | cons hp _ ih =>
      intro m hm
      rcases List.mem_append.1 hm with hm | hm
      · obtain ⟨x, sf, syn, _, ⟨_, hpr⟩, _, _, path, hun, hmem⟩ := (C45_mutants _ _ _ _ hp m).1 hm
        have hsf := sourceFile_of_mutantsAt hmem
        dsimp only at hsf
        subst hsf
        exact ⟨syn, path, hpr, hun.2.1, hmem⟩
      · exact ih m hm
  obtain ⟨raw, h1, h2⟩ := walked_source hw m (hsub m hm)
  obtain ⟨f, path, h3, h4, h5⟩ := key hw m (hsub m hm)
  exact ⟨raw, f, path, h1, h2, h3, h4, h5⟩

/-- **C96**: every command for a mutant is run on the source tree (as C80 says) with the tokens of one construct of one file
exchanged. -/
theorem C96_tokens_tested (w : World) (x : Program.Machine) (a : MainArgs) (cfg : Run.Config) (h : Program.Tests w x a cfg)
    (hplace : a.options.inPlace = false) (k : Program.Disk) (hk : ProperEntries k.entries) (hp : Prints k) (hr : ReadsDisk w k)
    (hx : CopiesDisk x w k cfg.options) (ms : List Mutant) (hs : Selects w a ms)
    (hms : ∀ m ∈ ms, PlainPath m.sourceFile.path ∧ ¬ Adapted m.sourceFile.path)
    (exprs : List Tokens) (hex : parsedErrorExprs w.parseExpr cfg.options.errorValues = some exprs) (he : ∀ e ∈ exprs, PlainCode e)
    (htree : ∀ m ∈ ms, ∀ f, w.parseFile m.sourceFile.code = some f → TreeOfTokens m.sourceFile.code f)
    (es : List Run.Event) (s : Run.State) (d : Nat) (m : Mutant) (p : Phase) (q : Proc.State) (e : Exit)
    (hend : EndedIn cfg es s d (.mutant m) p q e) :
    BuiltFrom k cfg.options (fun p => ∃ m' ∈ ms, m'.sourceFile.path = p) (some m) (s.lab.sh.dirs d) ∧
    ∃ raw f after, w.read (joinPath w.root m.sourceFile.path) = some raw ∧ w.parseFile (normalizeNewlines raw) = some f ∧
      s.lab.sh.dirs d m.sourceFile.path = some after ∧ OneExchanged (exprs.map pretty) f (normalizeNewlines raw) after := by
  obtain ⟨hm, hb⟩ := C80_what_commands_see w x a cfg h hplace k hk hp hr hx ms hs hms es s d (.mutant m) p q e hend
  refine ⟨hb, ?_⟩
  obtain ⟨_, o, out, ms', ho, _, rfl⟩ := h
  obtain ⟨exprs', hex', hall⟩ := selects_origin hs ho
  cases hex.symm.trans hex'
  obtain ⟨raw, f, path, h1, h2, h3, h4, h5⟩ := hall m hm
  refine ⟨raw, f, m.mutated, h1, h2 ▸ h3, hb.mutated m rfl, ?_⟩
  rw [← h2]
  exact mutant_exchanges h5 h4 he (htree m hm f h3)

/-- **C96**: exit code 0 means that for each selected mutant a command failed on such a program. -/
theorem C96_zero (w : World) (x : Program.Machine) (a : MainArgs) (cfg : Run.Config) (h : Program.Tests w x a cfg)
    (hplace : a.options.inPlace = false) (hcheck : a.options.check = false) (k : Program.Disk) (hk : ProperEntries k.entries)
    (hp : Prints k) (hr : ReadsDisk w k) (hx : CopiesDisk x w k cfg.options) (ms : List Mutant) (hs : Selects w a ms)
    (hms : ∀ m ∈ ms, PlainPath m.sourceFile.path ∧ ¬ Adapted m.sourceFile.path)
    (exprs : List Tokens) (hex : parsedErrorExprs w.parseExpr cfg.options.errorValues = some exprs) (he : ∀ e ∈ exprs, PlainCode e)
    (htree : ∀ m ∈ ms, ∀ f, w.parseFile m.sourceFile.code = some f → TreeOfTokens m.sourceFile.code f)
    (es : List Run.Event) (s : Run.State) (hrun : Run.exec cfg (Run.init cfg) es = some s) (l : LabOutcome)
    (hl : s.lab.main = .returned (some l)) (hcode : l.exitCode = some 0) :
    ∀ m ∈ ms, ∃ s d p q e st, EndedIn cfg es s d (.mutant m) p q e ∧ q.child = .reaped st ∧ st.code ≠ some 0 ∧
      BuiltFrom k cfg.options (fun p => ∃ m' ∈ ms, m'.sourceFile.path = p) (some m) (s.lab.sh.dirs d) ∧
      ∃ raw f after, w.read (joinPath w.root m.sourceFile.path) = some raw ∧ w.parseFile (normalizeNewlines raw) = some f ∧
        s.lab.sh.dirs d m.sourceFile.path = some after ∧ OneExchanged (exprs.map pretty) f (normalizeNewlines raw) after := by
  intro m hm
  obtain ⟨s', d, p, q, e, st, h1, h2, h3, _⟩ :=
    C80_zero w x a cfg h hplace hcheck k hk hp hr hx ms hs hms es s hrun l hl hcode m hm
  exact ⟨s', d, p, q, e, st, h1, h2, h3,
    C96_tokens_tested w x a cfg h hplace k hk hp hr hx ms hs hms exprs hex he htree es s' d m p q e h1⟩

/-- **C96**: a binary operator is one token, and so is what it is replaced by, which is another one; `!` and `-` are one token
each, and guards are replaced by one token. -/
theorem C96_one_token (errs : List Text) (n : Node) (span : Span) (orig repl : Text) (h : Change errs n span orig repl) :
    (∀ op sp, n.kind = .binary op sp → lexemes orig = [.mark orig] ∧ lexemes repl = [.mark repl] ∧ repl ≠ orig) ∧
    (∀ op sp, n.kind = .unary op sp → lexemes orig = [.mark orig] ∧ lexemes repl = []) ∧
    (∀ arms, n.kind = .match arms → lexemes repl = [] ∨ lexemes repl = [.word "true".toList] ∨ lexemes repl = [.word "false".toList]) := by
  unfold Change at h
  refine ⟨fun op sp hk => ?_, fun op sp hk => ?_, fun arms hk => ?_⟩
  · rw [hk] at h
    obtain ⟨_, rfl, hr⟩ := h
    have key : ∀ op : BinOp, lexemes (symbol op) = [.mark (symbol op)] ∧ symbol op ∉ operatorRow op := by
      intro op; cases op <;> decide +kernel
    exact ⟨(key op).1, (operator_row_marks op _ hr).2.1, fun he => (key op).2 (he ▸ hr)⟩
  · rw [hk] at h
    obtain ⟨_, h | h, rfl⟩ := h
    · rw [h.2]; decide +kernel
    · rw [h.2]; decide +kernel
  · rw [hk] at h
    obtain ⟨a, _, h | ⟨_, h | h⟩⟩ := h
    · rw [h.2.2]; exact .inl (by decide +kernel)
    · rw [h]; exact .inr (.inl (by decide +kernel))
    · rw [h]; exact .inr (.inr (by decide +kernel))

/-! ### Examples -/

/-- The positions determine the pieces. -/
theorem split_at {code pre orig post : Text} (h : code = pre ++ orig ++ post) {sp : Span} (hs : spanOf pre orig = sp) {i j : Nat}
    (hi : ∀ k < code.length + 1, posAfter (code.take k) = sp.start → k = i)
    (hj : ∀ k < code.length + 1, posAfter (code.take k) = sp.stop → k = j) :
    pre = code.take i ∧ orig = (code.take j).drop i ∧ post = code.drop j := by
  subst hs
  have h1 : code.take pre.length = pre := by rw [h, List.append_assoc, List.take_left]
  have h2 : code.take (pre ++ orig).length = pre ++ orig := by rw [h, List.take_left]
  have hl : code.length = pre.length + orig.length + post.length := by rw [h]; simp [Nat.add_assoc]
  have e1 := hi pre.length (by omega) (by rw [h1]; rfl)
  have e2 := hj (pre ++ orig).length (by simp; omega) (by rw [h2]; rfl)
  subst e1 e2
  rw [h1, h2]
  refine ⟨rfl, by simp, ?_⟩
  rw [h, List.drop_left]

/-- One sample place. -/
theorem edge_at {code pre orig post : Text} (h : code = pre ++ orig ++ post) {sp : Span} (hs : spanOf pre orig = sp) (i j : Nat) {P : Text → Prop}
    (hi : ∀ k < code.length + 1, posAfter (code.take k) = sp.start → k = i)
    (hj : ∀ k < code.length + 1, posAfter (code.take k) = sp.stop → k = j)
    (ha : ((modeAfter (code.take i)).closed && ((code.take j).drop i ++ code.drop j).head?.all fun c =>
      (modeAfter (code.take i)).step c == (modeAfter (code.take i)).cut c) = true)
    (hb : ((modeAfter (code.take i ++ (code.take j).drop i)).closed && (code.drop j).head?.all fun c =>
      (modeAfter (code.take i ++ (code.take j).drop i)).step c == (modeAfter (code.take i ++ (code.take j).drop i)).cut c) = true)
    (hp : P (code.take i)) : Apart pre (orig ++ post) ∧ Apart (pre ++ orig) post ∧ P pre := by
  obtain ⟨e1, e2, e3⟩ := split_at h hs hi hj
  rw [e1, e2, e3]
  rw [Bool.and_eq_true] at ha hb
  exact ⟨apart_of ha.1 ha.2, apart_of hb.1 hb.2, hp⟩

def testedText : Text := "fn f(n: u8) -> bool { match n { m if m > 0 => !g(), 9 => h(), _ => true } }".toList

def testedTree : SynFile :=
  { items := [.mk (.fn .item ⟨false, "f".toList, some (.path ⟨false, [⟨"bool".toList, .none⟩]⟩), [.punct '-', .punct '>', qi "bool"], ⟨⟨1, 1⟩, ⟨1, 76⟩⟩⟩
      (some ⟨[⟨⟨1, 23⟩, ⟨1, 74⟩⟩], [qi "match"]⟩)) []
      [.mk (.match [⟨false, some ⟨⟨1, 38⟩, ⟨1, 43⟩⟩, ⟨⟨1, 33⟩, ⟨1, 52⟩⟩⟩, ⟨false, none, ⟨⟨1, 53⟩, ⟨1, 62⟩⟩⟩, ⟨true, none, ⟨⟨1, 63⟩, ⟨1, 72⟩⟩⟩]) []
        [.mk (.binary .gt ⟨⟨1, 40⟩, ⟨1, 41⟩⟩) [] [], .mk (.unary .not ⟨⟨1, 47⟩, ⟨1, 48⟩⟩) [] []]]] }

theorem tested_text (sp : Span) (i j : Nat) (t : Text)
    (h : (testedText == testedText.take i ++ t ++ testedText.drop j && spanOf (testedText.take i) t == sp) = true) : AtText testedText sp t := by
  rw [Bool.and_eq_true] at h
  exact ⟨_, _, eq_of_beq h.1, (eq_of_beq h.2).symm⟩

theorem tested_nodes (P : Node → Prop) (h : ∀ p ∈ positionsAll [] testedTree.items, ∀ n, p.getLast? = some n → P n) :
    ∀ path n, Position testedTree.items (path ++ [n]) → P n :=
  fun _ n hp => h _ (mem_of_position hp) n (by simp)

/-- The hypothesis about trees is met by a text with constructs of all kinds. -/
theorem tested_tree : TreeOfTokens testedText testedTree := by
  refine ⟨?_, ?_, by decide +kernel, ?_⟩
  · refine tested_nodes (InText testedText) fun p hp n hn => ?_
    simp only [testedTree, positionsAll, positions, List.append_nil, List.mem_append, List.mem_cons, List.not_mem_nil, or_false, List.nil_append] at hp
    rcases hp with hp | hp | hp | hp <;> (subst hp; cases hn)
    · exact ⟨testedText.take 22, "match n { m if m > 0 => !g(), 9 => h(), _ => true }".toList, " }".toList, by decide +kernel, by decide +kernel, trivial⟩
    · intro a ha
      simp only [List.mem_cons, List.not_mem_nil, or_false] at ha
      rcases ha with rfl | rfl | rfl
      · exact ⟨⟨"m if m > 0 => !g(),".toList, tested_text _ 32 51 _ (by decide +kernel)⟩, fun _ hg => by cases hg; exact ⟨"m > 0".toList, tested_text _ 37 42 _ (by decide +kernel)⟩⟩
      · exact ⟨⟨"9 => h(),".toList, tested_text _ 52 61 _ (by decide +kernel)⟩, nofun⟩
      · exact ⟨⟨"_ => true".toList, tested_text _ 62 71 _ (by decide +kernel)⟩, nofun⟩
    · exact tested_text _ 39 40 _ (by decide +kernel)
    · exact tested_text _ 46 47 _ (by decide +kernel)
  · intro path n kind sig block t hp
    revert kind sig block t
    refine tested_nodes (fun n => ∀ kind sig block t, n.kind = .fn kind sig block → sig.output = some t → PlainType t) (fun p hp n hn => ?_) path n hp
    simp only [testedTree, positionsAll, positions, List.append_nil, List.mem_append, List.mem_cons, List.not_mem_nil, or_false, List.nil_append] at hp
    rcases hp with hp | hp | hp | hp <;> (subst hp; cases hn; intro kind sig block t hk ho; cases hk)
    cases ho
    refine ⟨fun p hp s hs => ?_, fun e len h => ?_⟩
    · cases hp with
      | self => cases List.mem_singleton.1 hs; exact plainWord_of (by decide +kernel)
      | arg h1 h2 => cases List.mem_singleton.1 h1; nomatch h2
    · cases h with
      | arg h1 h2 => cases List.mem_singleton.1 h1; nomatch h2
  · intro path n hp pre orig post hcode
    refine tested_nodes (fun n => Place n (spanOf pre orig) →
      Apart pre (orig ++ post) ∧ Apart (pre ++ orig) post ∧ MayPrecede n (spanOf pre orig) pre) (fun p hp n hn => ?_) path n hp
    simp only [testedTree, positionsAll, positions, List.append_nil, List.mem_append, List.mem_cons, List.not_mem_nil, or_false, List.nil_append] at hp
    rcases hp with hp | hp | hp | hp <;> (subst hp; cases hn; intro hpl)
    · have hs : spanOf pre orig = ⟨⟨1, 23⟩, ⟨1, 74⟩⟩ := (Option.some.inj hpl).symm
      exact edge_at (P := fun t => modeAfter t = .start) hcode hs 22 73 (by decide +kernel) (by decide +kernel) (by decide +kernel) (by decide +kernel) (by decide +kernel)
    · obtain ⟨a, ha, hpl⟩ := hpl
      simp only [List.mem_cons, List.not_mem_nil, or_false] at ha
      rcases ha with rfl | rfl | rfl
      · rcases hpl with hs | hs
        · exact edge_at (P := fun t => _ → modeAfter t = .start) hcode hs 32 51 (by decide +kernel) (by decide +kernel) (by decide +kernel) (by decide +kernel) (fun _ => by decide +kernel)
        · exact edge_at (P := fun t => _ → modeAfter t = .start) hcode (Option.some.inj hs).symm 37 42 (by decide +kernel) (by decide +kernel) (by decide +kernel) (by decide +kernel) (fun _ => by decide +kernel)
      · rcases hpl with hs | hs
        · exact edge_at (P := fun t => _ → modeAfter t = .start) hcode hs 52 61 (by decide +kernel) (by decide +kernel) (by decide +kernel) (by decide +kernel) (fun _ => by decide +kernel)
        · cases hs
      · rcases hpl with hs | hs
        · exact edge_at (P := fun t => _ → modeAfter t = .start) hcode hs 62 71 (by decide +kernel) (by decide +kernel) (by decide +kernel) (by decide +kernel) (fun _ => by decide +kernel)
        · cases hs
    · exact edge_at (P := AfterOperand) hcode hpl 39 40 (by decide +kernel) (by decide +kernel) (by decide +kernel) (by decide +kernel) (.inl (by decide +kernel))
    · exact edge_at (P := fun _ => True) hcode hpl 46 47 (by decide +kernel) (by decide +kernel) (by decide +kernel) (by decide +kernel) trivial

/-- Its tokens when the guard is replaced, and when the arm is deleted. -/
example : lexemes ("fn f(n: u8) -> bool { match n { m if true /* ~ changed by cargo-mutants ~ */ => !g(), 9 => h(), _ => true } }".toList) =
    lexemes (testedText.take 37) ++ [.word "true".toList] ++ lexemes (testedText.drop 42) := by decide +kernel
example : lexemes ("fn f(n: u8) -> bool { match n { m if m > 0 => !g(),  /* ~ changed by cargo-mutants ~ */ _ => true } }".toList) =
    lexemes (testedText.take 52) ++ lexemes (testedText.drop 61) := by decide +kernel

/-- The tree of the file with mutants in the sample of C80. -/
def libTree : SynFile :=
  { items := [.mk .other [] [samplePlus 2], .mk .other [] [samplePlus 3], .mk (.mod "a".toList false (sampleSpan 1 1 9)) [] []] }

theorem lib_nodes (n : Node) {path : List Node} (h : Position libTree.items (path ++ [n])) :
    n = samplePlus 2 ∨ n = samplePlus 3 ∨ n.kind = .other ∨ ∃ a b c, n.kind = .mod a b c := by
  have hp := mem_of_position h
  simp only [libTree, samplePlus, positionsAll, positions, List.append_nil, List.mem_append, List.mem_cons, List.not_mem_nil, or_false, List.nil_append] at hp
  have hn : (path ++ [n]).getLast? = some n := by simp
  generalize path ++ [n] = q at hp hn
  repeat' rcases hp with hp | hp
  all_goals cases hn
  all_goals first
    | exact .inl rfl
    | exact .inr (.inl rfl)
    | exact .inr (.inr (.inl rfl))
    | exact .inr (.inr (.inr ⟨_, _, _, rfl⟩))

theorem lib_tree : TreeOfTokens BuildDirSample.libText libTree := by
  refine ⟨fun path n h => ?_, fun path n kind sig block t h hk => ?_, by decide +kernel, fun path n h pre orig post hcode hpl => ?_⟩
  · rcases lib_nodes n h with rfl | rfl | h | ⟨_, _, _, h⟩
    · exact ⟨"mod a;\nb = a ".toList, " b\nc = a + b\n".toList, by decide +kernel, by decide +kernel⟩
    · exact ⟨"mod a;\nb = a + b\nc = a ".toList, " b\n".toList, by decide +kernel, by decide +kernel⟩
    · unfold InText; rw [h]; trivial
    · unfold InText; rw [h]; trivial
  · rcases lib_nodes n h with rfl | rfl | h | ⟨_, _, _, h⟩
    · cases hk
    · cases hk
    · rw [h] at hk; cases hk
    · rw [h] at hk; cases hk
  · rcases lib_nodes n h with rfl | rfl | h | ⟨_, _, _, h⟩
    · exact edge_at (P := AfterOperand) hcode hpl 13 14 (by decide +kernel) (by decide +kernel) (by decide +kernel) (by decide +kernel) (.inl (by decide +kernel))
    · exact edge_at (P := AfterOperand) hcode hpl 23 24 (by decide +kernel) (by decide +kernel) (by decide +kernel) (by decide +kernel) (.inl (by decide +kernel))
    · unfold Place at hpl; rw [h] at hpl; cases hpl
    · unfold Place at hpl; rw [h] at hpl; cases hpl

/-- The hypotheses of `C96_tokens_tested` and `C96_zero` that C80 does not have are met by its sample, a run with two mutants that
ends with code 0. -/
example (ms : List Mutant) (hs : Selects BuildDirSample.world sampleRun ms) :
    (∀ m ∈ ms, ∀ f, BuildDirSample.world.parseFile m.sourceFile.code = some f → TreeOfTokens m.sourceFile.code f) ∧
    ∃ o, Options.new BuildDirSample.world.regex sampleRun.options BuildDirSample.world.config = some o ∧
      parsedErrorExprs BuildDirSample.world.parseExpr o.errorValues = some [] := by
  have h : (trySelect BuildDirSample.world sampleRun 3).map (fun ms => ms.all fun m => m.sourceFile.code == BuildDirSample.libText) =
    some true := by decide +kernel
  have ho : (Options.new BuildDirSample.world.regex sampleRun.options BuildDirSample.world.config).map (·.errorValues) = some [] := by
    decide +kernel
  obtain ⟨ms', h1, h2⟩ := Option.map_eq_some_iff.1 h
  cases selects_unique hs (selects_of_try h1)
  refine ⟨fun m hm f hf => ?_, ?_⟩
  · have hc := eq_of_beq (List.all_eq_true.1 h2 m hm)
    rw [hc] at hf ⊢
    have : f = libTree := by
      have h3 : BuildDirSample.world.parseFile BuildDirSample.libText = some libTree := rfl
      exact Option.some.inj (hf.symm.trans h3)
    rw [this]
    exact lib_tree
  · obtain ⟨o, h3, h4⟩ := Option.map_eq_some_iff.1 ho
    exact ⟨o, h3, by rw [h4]; rfl⟩

end CM.Props
