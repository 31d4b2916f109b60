import Verif.Props.Edit
import Verif.Spec.Lex
/-! C94: the tokens of the text that a mutant gives. -/
namespace CM.Props
open CM CM.Spec

theorem read_append (m : Mode) (a b : Text) :
    m.read (a ++ b) = ((m.read a).1 ++ ((m.read a).2.read b).1, ((m.read a).2.read b).2) := by
  induction a generalizing m with
  | nil => simp [Mode.read]
  | cons c a ih => simp [Mode.read, ih, List.append_assoc]

theorem lexemes_apart {a b : Text} (h : Apart a b) : lexemes (a ++ b) = lexemes a ++ lexemes b := by
  cases b with
  | nil => simp [lexemes, Mode.read, Mode.flush]
  | cons c b =>
    have hs := h.2 c rfl
    unfold modeAfter at hs
    unfold lexemes
    rw [read_append]
    simp only [Mode.read, hs]
    unfold Mode.cut
    simp [List.append_assoc, Mode.step]

theorem mode_apart {a b : Text} (h : Apart a b) (hb : b ≠ []) : modeAfter (a ++ b) = modeAfter b := by
  cases b with
  | nil => exact absurd rfl hb
  | cons c b =>
    have hs := h.2 c rfl
    unfold modeAfter at hs ⊢
    rw [read_append]
    simp only [Mode.read, hs]
    unfold Mode.cut
    simp [Mode.step]

theorem space_cuts (m : Mode) (h : m.closed = true) : m.step ' ' = m.cut ' ' := by
  cases m with
  | start => rfl
  | word t => simp [Mode.step, wordChar, show Char.isAlphanum ' ' = false from rfl]
  | point t => simp [Mode.step, wordChar, show Char.isAlphanum ' ' = false from rfl, show Char.isDigit ' ' = false from rfl]
  | mark t =>
    have : t ++ [' '] ∉ longMarks := by
      intro ht
      have : ∀ x ∈ longMarks, x.getLast? ≠ some ' ' := by decide
      exact this _ ht (by simp)
    simp [Mode.step, this]
  | tick t =>
    simp only [Mode.closed, bne_iff_ne, ne_eq] at h
    simp [Mode.step, h, wordChar, show Char.isAlphanum ' ' = false from rfl]
  | quote => cases h
  | hashes t n => simp [Mode.step, wordChar, show Char.isAlphanum ' ' = false from rfl]
  | raw => cases h
  | line => cases h
  | block => cases h

theorem marker_read : Mode.start.read " /* ~ changed by cargo-mutants ~ */".toList = ([], .start) := by decide +kernel

theorem lexemes_marker (post : Text) : lexemes (" /* ~ changed by cargo-mutants ~ */".toList ++ post) = lexemes post := by
  unfold lexemes
  rw [read_append, marker_read]
  rfl

/-- The tokens of an edited text. -/
theorem lexemes_edit {pre repl post : Text} (h : Apart pre repl) (hr : repl = [] ∨ (modeAfter repl).closed = true) :
    lexemes (pre ++ repl ++ " /* ~ changed by cargo-mutants ~ */".toList ++ post) = lexemes pre ++ lexemes repl ++ lexemes post := by
  have hsp : ∀ a : Text, (modeAfter a).closed = true → Apart a (" /* ~ changed by cargo-mutants ~ */".toList ++ post) := by
    intro a ha
    refine ⟨ha, fun c hc => ?_⟩
    have : (" /* ~ changed by cargo-mutants ~ */".toList ++ post).head? = some ' ' := rfl
    rw [this] at hc
    cases hc
    exact space_cuts _ ha
  have hm : lexemes (pre ++ repl) = lexemes pre ++ lexemes repl := lexemes_apart h
  have hc : (modeAfter (pre ++ repl)).closed = true := by
    by_cases hn : repl = []
    · subst hn; rw [List.append_nil]; exact h.1
    · rw [mode_apart h hn]
      cases hr with
      | inl hr => exact absurd hr hn
      | inr hr => exact hr
  rw [List.append_assoc (pre ++ repl), lexemes_apart (hsp _ hc), lexemes_marker, hm]

/-- The mutant replaces `orig`, which lies between `pre` and `post` and at whose ends tokens end. -/
structure Replaces (m : Mutant) (pre orig post : Text) : Prop where
  code : m.sourceFile.code = pre ++ orig ++ post
  span : m.span = spanOf pre orig
  before : Apart pre (orig ++ post)
  after : Apart (pre ++ orig) post

theorem replaces_mutated {m : Mutant} {pre orig post : Text} (h : Replaces m pre orig post) (hcr : '\r' ∉ m.sourceFile.code) :
    m.mutated = pre ++ m.replacement ++ " /* ~ changed by cargo-mutants ~ */".toList ++ post := by
  unfold Mutant.mutated
  rw [h.code, h.span, C01_edits_exactly_region_lf_partial pre orig post _ (h.code ▸ hcr)]
  have : " /* ~ changed by cargo-mutants ~ */".toList = " ".toList ++ markerText := by decide
  rw [this]
  simp [List.append_assoc]

/-- **C94**: the tokens of the file are those before, in and after what is replaced. -/
theorem C94_original (m : Mutant) (pre orig post : Text) (h : Replaces m pre orig post) :
    lexemes m.sourceFile.code = lexemes pre ++ lexemes orig ++ lexemes post := by
  rw [h.code, lexemes_apart h.after, lexemes_apart]
  refine ⟨h.before.1, fun c hc => h.before.2 c ?_⟩
  cases orig with
  | nil => cases hc
  | cons d orig => exact hc

/-- **C94** in full: in the text for a mutant, the tokens of the replacement are in the place of those that are replaced, and all
others are as before. -/
def C94_full : Prop :=
  ∀ (c : VConfig) (f : SynFile) (ms : List Mutant) (ext : List (List ModNamespace)), walkFile c f = some (ms, ext) →
    '\r' ∉ c.sourceFile.code → TreeOf c.sourceFile.code f → ∀ m ∈ ms, ∀ pre orig post, Replaces m pre orig post →
      lexemes m.mutated = lexemes pre ++ lexemes m.replacement ++ lexemes post

/-- What mutants of each genre put there. -/
theorem change_genre {errs : List Tokens} {n : Node} {span : Span} {repl : Text} {genre : Genre}
    (hc : (span, repl, genre) ∈ changes errs n) :
    (genre = .binaryOperator → ∃ op, repl ∈ operatorRow op) ∧ (genre = .unaryOperator → repl = []) ∧ (genre = .matchArm → repl = []) ∧
      (genre = .matchArmGuard → repl = "true".toList ∨ repl = "false".toList) := by
  unfold changes at hc
  split at hc
  · split at hc
    · obtain ⟨r, _, hr⟩ := List.mem_map.1 hc
      cases hr
      exact ⟨fun h => (by cases h), fun h => (by cases h), fun h => (by cases h), fun h => (by cases h)⟩
    · cases hc
  · obtain ⟨r, hr, he⟩ := List.mem_map.1 hc
    cases he
    exact ⟨fun _ => ⟨_, hr⟩, fun h => (by cases h), fun h => (by cases h), fun h => (by cases h)⟩
  · cases List.mem_singleton.1 hc
    exact ⟨fun h => (by cases h), fun _ => rfl, fun h => (by cases h), fun h => (by cases h)⟩
  · cases List.mem_singleton.1 hc
    exact ⟨fun h => (by cases h), fun _ => rfl, fun h => (by cases h), fun h => (by cases h)⟩
  · cases List.mem_append.1 hc with
    | inl hc =>
      obtain ⟨a, ha, he⟩ := List.mem_map.1 hc
      cases he
      exact ⟨fun h => (by cases h), fun h => (by cases h), fun _ => rfl, fun h => (by cases h)⟩
    | inr hc =>
      obtain ⟨a, ha, he⟩ := List.mem_flatMap.1 hc
      cases hg : a.guard with
      | none => rw [hg] at he; cases he
      | some g =>
        rw [hg] at he
        cases List.mem_cons.1 he with
        | inl he => cases he; exact ⟨fun h => (by cases h), fun h => (by cases h), fun h => (by cases h), fun _ => .inl rfl⟩
        | inr he =>
          cases List.mem_singleton.1 he
          exact ⟨fun h => (by cases h), fun h => (by cases h), fun h => (by cases h), fun _ => .inr rfl⟩
  · cases hc

theorem walk_genre {c : VConfig} {f : SynFile} {ms : List Mutant} {ext : List (List ModNamespace)} (h : walkFile c f = some (ms, ext))
    (m : Mutant) (hm : m ∈ ms) :
    (m.genre = .binaryOperator → ∃ op, m.replacement ∈ operatorRow op) ∧ (m.genre = .unaryOperator → m.replacement = []) ∧
      (m.genre = .matchArm → m.replacement = []) ∧
      (m.genre = .matchArmGuard → m.replacement = "true".toList ∨ m.replacement = "false".toList) := by
  obtain ⟨ps, ⟨_, rfl⟩, _⟩ := walk_made h
  obtain ⟨p, _, hmp⟩ := List.mem_flatMap.1 hm
  unfold mutantsAt at hmp
  split at hmp
  · obtain ⟨⟨span, rep, genre⟩, hch, rfl⟩ := List.mem_map.1 hmp
    exact change_genre hch
  · cases hmp

theorem lexemes_mutated {m : Mutant} {pre orig post : Text} (h : Replaces m pre orig post) (hcr : '\r' ∉ m.sourceFile.code)
    (ha : Apart pre m.replacement) (hr : m.replacement = [] ∨ (modeAfter m.replacement).closed = true) :
    lexemes m.mutated = lexemes pre ++ lexemes m.replacement ++ lexemes post := by
  rw [replaces_mutated h hcr, lexemes_edit ha hr]

/-- **C94** for mutants that delete something, an operator or an arm. -/
theorem C94_deleted (c : VConfig) (f : SynFile) (ms : List Mutant) (ext : List (List ModNamespace)) (h : walkFile c f = some (ms, ext))
    (hcr : '\r' ∉ c.sourceFile.code) (m : Mutant) (hm : m ∈ ms) (hg : m.genre = .unaryOperator ∨ m.genre = .matchArm)
    (pre orig post : Text) (hr : Replaces m pre orig post) : lexemes m.mutated = lexemes pre ++ lexemes post := by
  have he : m.replacement = [] := hg.elim (walk_genre h m hm).2.1 (walk_genre h m hm).2.2.1
  have := lexemes_mutated hr (walk_source h m hm ▸ hcr) ⟨hr.before.1, fun c hc => by rw [he] at hc; cases hc⟩ (.inl he)
  rw [this, he]
  simp [lexemes, Mode.read, Mode.flush]

/-- Operators are complete, and start a new token after an operand. -/
theorem operator_row_marks (op : BinOp) (r : Text) (h : r ∈ operatorRow op) :
    (modeAfter r).closed = true ∧ lexemes r = [.mark r] ∧ ∃ c cs, r = c :: cs ∧ c ∈ ['=', '!', '<', '>', '&', '|', '+', '-', '*', '/', '%', '^'] := by
  have key : ∀ op : BinOp, ∀ r ∈ operatorRow op, (modeAfter r).closed = true ∧ lexemes r = [.mark r] ∧
      (r.head?.any fun c => c ∈ ['=', '!', '<', '>', '&', '|', '+', '-', '*', '/', '%', '^']) = true := by
    intro op
    cases op <;> decide +kernel
  obtain ⟨h1, h2, h3⟩ := key op r h
  refine ⟨h1, h2, ?_⟩
  cases r with
  | nil => cases h3
  | cons c cs => exact ⟨c, cs, rfl, by simpa using h3⟩

theorem operand_cut {t : Text} (h : AfterOperand t) {c : Char} (hc : c ∈ ['=', '!', '<', '>', '&', '|', '+', '-', '*', '/', '%', '^']) :
    (modeAfter t).closed = true ∧ (modeAfter t).step c = (modeAfter t).cut c := by
  have hw : wordChar c = false ∧ c.isDigit = false ∧ c ≠ '.' ∧ c ≠ '"' ∧ c ≠ '\'' ∧ c ≠ '#' := by
    revert c
    decide
  obtain ⟨h1, h2, h3, h4, h5, h6⟩ := hw
  rcases h with h | ⟨w, h⟩ | ⟨w, h, he⟩
  · rw [h]
    refine ⟨rfl, ?_⟩
    simp [Mode.step, Mode.cut, Mode.flush]
  · rw [h]
    exact ⟨rfl, by simp [Mode.step, h1, h2, h3]⟩
  · rw [h]
    exact ⟨rfl, by simp [Mode.step, h1, h3, h4, h5, h6, he]⟩

/-- **C94** for binary operators, which stand after an operand: one token is replaced by one. -/
theorem C94_operator (c : VConfig) (f : SynFile) (ms : List Mutant) (ext : List (List ModNamespace)) (h : walkFile c f = some (ms, ext))
    (hcr : '\r' ∉ c.sourceFile.code) (m : Mutant) (hm : m ∈ ms) (hg : m.genre = .binaryOperator)
    (pre orig post : Text) (hr : Replaces m pre orig post) (ho : AfterOperand pre) :
    lexemes m.mutated = lexemes pre ++ [.mark m.replacement] ++ lexemes post := by
  obtain ⟨op, hop⟩ := (walk_genre h m hm).1 hg
  obtain ⟨h1, h2, d, ds, h3, h4⟩ := operator_row_marks op _ hop
  have := lexemes_mutated hr (walk_source h m hm ▸ hcr) ⟨(operand_cut ho h4).1, fun c hc => by
    rw [h3] at hc; cases hc; exact (operand_cut ho h4).2⟩ (.inr h1)
  rw [this, h2]

theorem start_apart {t : Text} (h : modeAfter t = .start) (u : Text) : Apart t u := by
  refine ⟨by rw [h]; rfl, fun c _ => ?_⟩
  rw [h]
  simp [Mode.step, Mode.cut, Mode.flush]

/-- **C94** for the other mutants if there is white space, a bracket or a comment before what is replaced. Missing: a guard directly
after `if`, for which the full statement is false. -/
theorem C94_tokens_partial (c : VConfig) (f : SynFile) (ms : List Mutant) (ext : List (List ModNamespace)) (h : walkFile c f = some (ms, ext))
    (hcr : '\r' ∉ c.sourceFile.code) (m : Mutant) (hm : m ∈ ms) (hv : m.genre = .fnValue → (modeAfter m.replacement).closed = true)
    (pre orig post : Text) (hr : Replaces m pre orig post) (ho : modeAfter pre = .start) :
    lexemes m.mutated = lexemes pre ++ lexemes m.replacement ++ lexemes post := by
  refine lexemes_mutated hr (walk_source h m hm ▸ hcr) (start_apart ho _) ?_
  have hw := walk_genre h m hm
  cases hg : m.genre with
  | fnValue => exact .inr (hv hg)
  | binaryOperator => obtain ⟨op, hop⟩ := hw.1 hg; exact .inr (operator_row_marks op _ hop).1
  | unaryOperator => exact .inl (hw.2.1 hg)
  | matchArm => exact .inl (hw.2.2.1 hg)
  | matchArmGuard =>
    rcases hw.2.2.2 hg with he | he <;> (rw [he]; exact .inr (by decide +kernel))

/-! ### Examples -/

example : lexemes "a/*b*/+1.5e-3..x.0 // c\n'x' 'y b\"z\\\"\" r#\"w\"#<<=1.max(2)".toList =
    [.word "a".toList, .mark "+".toList, .word "1.5e-3".toList, .mark "..".toList, .word "x".toList, .mark ".".toList, .word "0".toList,
     .quoted "'x'".toList, .word "'y".toList, .quoted "b\"z\\\"\"".toList, .quoted "r#\"w\"#".toList, .mark "<<=".toList, .word "1".toList,
     .mark ".".toList, .word "max".toList, .mark "(".toList, .word "2".toList, .mark ")".toList] := by decide +kernel

/-- The mutant number `i` of the sample. -/
def editMutant (i : Nat) : Option Mutant := (walkFile editVisit editTree).bind fun r => r.1[i]?

theorem apart_of {a b : Text} (h : (modeAfter a).closed = true) (hb : (b.head?.all fun c => (modeAfter a).step c == (modeAfter a).cut c) = true) :
    Apart a b := by
  refine ⟨h, fun c hc => ?_⟩
  rw [hc] at hb
  exact eq_of_beq hb

theorem edit_guard_found : (editMutant 2).map (fun m => (m.span, m.replacement, m.genre)) =
    some (⟨⟨3, 13⟩, ⟨3, 20⟩⟩, "true".toList, .matchArmGuard) := by decide +kernel

/-- What is written for the guard. -/
theorem edit_guard_text : lexemes (("fn f(n: u8) -> bool {\n    match n {\n        m if".toList) ++ "true".toList ++ " /* ~ changed by cargo-mutants ~ */".toList ++ (" => !g(),\n        _ => h() + 1,\n    }\n}\n".toList)) ≠
    lexemes ("fn f(n: u8) -> bool {\n    match n {\n        m if".toList) ++ lexemes "true".toList ++ lexemes (" => !g(),\n        _ => h() + 1,\n    }\n}\n".toList) := by decide +kernel

theorem edit_guard_span : spanOf ("fn f(n: u8) -> bool {\n    match n {\n        m if".toList) "(m > 0)".toList = ⟨⟨3, 13⟩, ⟨3, 20⟩⟩ := by decide +kernel
theorem edit_guard_code : editText = ("fn f(n: u8) -> bool {\n    match n {\n        m if".toList) ++ "(m > 0)".toList ++ (" => !g(),\n        _ => h() + 1,\n    }\n}\n".toList) := by decide +kernel
theorem edit_guard_before : Apart (("fn f(n: u8) -> bool {\n    match n {\n        m if".toList)) ("(m > 0)".toList ++ (" => !g(),\n        _ => h() + 1,\n    }\n}\n".toList)) := apart_of (by decide +kernel) (by decide +kernel)
theorem edit_guard_after : Apart (("fn f(n: u8) -> bool {\n    match n {\n        m if".toList) ++ "(m > 0)".toList) ((" => !g(),\n        _ => h() + 1,\n    }\n}\n".toList)) := apart_of (by decide +kernel) (by decide +kernel)

/-- **C94** is not so in full: `m if(m > 0) => …` becomes `m iftrue … => …`. -/
theorem C94_guard_false : ¬ C94_full := by
  intro hf
  obtain ⟨m, hm, hx⟩ := Option.map_eq_some_iff.1 edit_guard_found
  obtain ⟨⟨ms, ext⟩, hw, hi⟩ := Option.bind_eq_some_iff.1 hm
  have hmem : m ∈ ms := List.mem_of_getElem? hi
  have hsrc : m.sourceFile = editVisit.sourceFile := walk_source hw m hmem
  have hcode : m.sourceFile.code = editText := by rw [hsrc]; rfl
  have hspan := congrArg (·.1) hx
  have hrepl := congrArg (·.2.1) hx
  dsimp only at hspan hrepl
  have hrp : Replaces m (("fn f(n: u8) -> bool {\n    match n {\n        m if".toList)) "(m > 0)".toList ((" => !g(),\n        _ => h() + 1,\n    }\n}\n".toList)) :=
    ⟨by rw [hcode]; exact edit_guard_code, hspan.trans edit_guard_span.symm, edit_guard_before, edit_guard_after⟩
  have h := hf editVisit editTree ms ext hw edit_text_cr edit_tree m hmem _ _ _ hrp
  rw [replaces_mutated hrp (hcode ▸ edit_text_cr), hrepl] at h
  exact edit_guard_text h

/-- `C94_operator` and `C94_deleted` for others of its mutants. -/
example : (editMutant 8).map (fun m => (m.genre, m.replacement, m.span)) =
    some (.binaryOperator, "-".toList, spanOf ("fn f(n: u8) -> bool {\n    match n {\n        m if(m > 0) => !g(),\n        _ => h() ".toList) "+".toList) ∧ editText = ("fn f(n: u8) -> bool {\n    match n {\n        m if(m > 0) => !g(),\n        _ => h() ".toList) ++ "+".toList ++ (" 1,\n    }\n}\n".toList) := by decide +kernel
example : Apart (("fn f(n: u8) -> bool {\n    match n {\n        m if(m > 0) => !g(),\n        _ => h() ".toList)) ("+".toList ++ (" 1,\n    }\n}\n".toList)) := apart_of (by decide +kernel) (by decide +kernel)
example : Apart (("fn f(n: u8) -> bool {\n    match n {\n        m if(m > 0) => !g(),\n        _ => h() ".toList) ++ "+".toList) ((" 1,\n    }\n}\n".toList)) := apart_of (by decide +kernel) (by decide +kernel)
example : AfterOperand (("fn f(n: u8) -> bool {\n    match n {\n        m if(m > 0) => !g(),\n        _ => h() ".toList)) := .inl (by decide +kernel)
example : AfterOperand "x".toList := .inr (.inr ⟨"x".toList, by decide, by decide⟩)
example : ((editMutant 7).map fun m => (m.genre, m.span, (lexemes m.mutated).length + 1)) =
    some (.unaryOperator, spanOf ("fn f(n: u8) -> bool {\n    match n {\n        m if(m > 0) => ".toList) "!".toList, (lexemes editText).length) := by decide +kernel
example : Apart (("fn f(n: u8) -> bool {\n    match n {\n        m if(m > 0) => ".toList)) ("!".toList ++ ("g(),\n        _ => h() + 1,\n    }\n}\n".toList)) := apart_of (by decide +kernel) (by decide +kernel)
/-- without a space, and with the operator directly after another one -/
example : lexemes "a=-b".toList = [.word "a".toList, .mark "=".toList, .mark "-".toList, .word "b".toList] ∧
    lexemes "a= /* ~ changed by cargo-mutants ~ */b".toList = [.word "a".toList, .mark "=".toList, .word "b".toList] := by decide +kernel

end CM.Props
