import Verif.Props.ReadValues
import Verif.Props.Lex
/-! C95: replacement code is read as it is meant. -/
namespace CM.Props
open CM CM.Spec

/-- **C95** in full: printed code has the tokens of the text that it comes from. -/
def C95_full : Prop := ∀ (src : Text) (ts : Tokens), TokensOf src ts → lexemes (pretty ts) = lexemes src

/-- **C95** for texts in which punctuation after punctuation needs no space to be read as it is: the printed code has the same
tokens, and ends outside of comments and literals. Missing: two marks that read as another one, or as the start of a comment,
when the space between them is left out; for those the full statement is false. -/
theorem C95_reads_back_partial (src : Text) (ts : Tokens) (h : TokensOf src ts) (hf : SpaceFree (lexemes src)) :
    lexemes (pretty ts) = lexemes src ∧ (modeAfter (pretty ts)).closed = true := pretty_reads src ts h hf

/-- **C95**: up to how marks are joined, printed code has the tokens that it was made of, if no `/` is before `/` or `*`. Missing:
code in which it is, for which the full statement is false. -/
theorem C95_parts_partial (ts : Tokens) (h : PlainCode ts) : TokensOf (pretty ts) ts := pretty_round ts h.1 h.2

/-- **C95** for function values: each reads as the tokens that it is made of, whatever the return type; nothing in it opens a
comment, a string or joins with the next word. -/
theorem C95_values (ret : Option Ty) (errs : List Tokens) (he : ∀ e ∈ errs, PlainCode e) (ht : ∀ t, ret = some t → PlainType t)
    (v : Tokens) (hv : v ∈ returnTypeReplacements ret errs) : TokensOf (pretty v) v := by
  cases ret with
  | none =>
    rw [List.mem_singleton.1 (show v ∈ [[parens []]] from hv)]
    exact C95_parts_partial _ (val_parens plainCode_nil).1
  | some t => exact C95_parts_partial _ (vals_type errs he t (ht t rfl) v hv).1

theorem value_tokens {c : VConfig} {f : SynFile} {ms : List Mutant} {ext : List (List ModNamespace)} (h : walkFile c f = some (ms, ext))
    (he : ∀ e ∈ c.errorExprs, PlainCode e) (hf : PlainFile f) (m : Mutant) (hm : m ∈ ms) (hg : m.genre = .fnValue) :
    ∃ path n kind sig block v, Position f.items (path ++ [n]) ∧ n.kind = .fn kind sig (some block) ∧
      wholeSpan block.stmts = some m.span ∧ v ∈ returnTypeReplacements sig.output c.errorExprs ∧ m.replacement = pretty v ∧
      TokensOf m.replacement v := by
  obtain ⟨path, n, kind, sig, block, hp, hk, hs, _, v, hv, hr⟩ := C51_no_original c f ms ext h m hm hg
  exact ⟨path, n, kind, sig, block, v, hp, hk, hs, hv, hr, hr ▸ C95_values _ _ he (fun t ht => hf path n kind sig _ t hp hk ht) v hv⟩

/-- **C95** in the file: if a token ends before the body of the function, the body is replaced by the tokens of a value for its
return type, and all other tokens stay. -/
theorem C95_in_file (c : VConfig) (f : SynFile) (ms : List Mutant) (ext : List (List ModNamespace)) (h : walkFile c f = some (ms, ext))
    (hcr : '\r' ∉ c.sourceFile.code) (he : ∀ e ∈ c.errorExprs, PlainCode e) (hf : PlainFile f) (m : Mutant) (hm : m ∈ ms)
    (hg : m.genre = .fnValue) (pre orig post : Text) (hr : Replaces m pre orig post) (ho : modeAfter pre = .start) :
    ∃ path n kind sig block v, Position f.items (path ++ [n]) ∧ n.kind = .fn kind sig (some block) ∧
      wholeSpan block.stmts = some m.span ∧ v ∈ returnTypeReplacements sig.output c.errorExprs ∧
      ∃ ls, lexemes m.mutated = lexemes pre ++ ls ++ lexemes post ∧ ls.flatMap Lexeme.parts = pieces v := by
  obtain ⟨path, n, kind, sig, block, v, hp, hk, hs, hv, _, ht⟩ := value_tokens h he hf m hm hg
  exact ⟨path, n, kind, sig, block, v, hp, hk, hs, hv, lexemes m.replacement,
    C94_tokens_partial c f ms ext h hcr m hm (fun _ => ht.closed) pre orig post hr ho, ht.parts.symm⟩

/-- **C94** for all mutants if there is white space, a bracket or a comment before what is replaced, and return types and error
values are as they are parsed. Missing: a guard directly after `if`, for which the full statement is false. -/
theorem C94_all_genres_partial (c : VConfig) (f : SynFile) (ms : List Mutant) (ext : List (List ModNamespace))
    (h : walkFile c f = some (ms, ext)) (hcr : '\r' ∉ c.sourceFile.code) (he : ∀ e ∈ c.errorExprs, PlainCode e) (hf : PlainFile f)
    (m : Mutant) (hm : m ∈ ms) (pre orig post : Text) (hr : Replaces m pre orig post) (ho : modeAfter pre = .start) :
    lexemes m.mutated = lexemes pre ++ lexemes m.replacement ++ lexemes post :=
  C94_tokens_partial c f ms ext h hcr m hm
    (fun hg => let ⟨_, _, _, _, _, _, _, _, _, _, _, ht⟩ := value_tokens h he hf m hm hg; ht.closed) pre orig post hr ho

/-! ### Where it is not so -/

theorem and_ref_tokens : TokensOf "a & &b".toList [.ident "a".toList, .punct '&', .punct '&', .ident "b".toList] :=
  ⟨by decide +kernel, by decide +kernel, by simp [Visible, VisibleTree]⟩

/-- **C95** is not so in full: `a & &b` is printed as `a &&b`, which is another operator. -/
theorem C95_joined_false : ¬ C95_full := by
  intro h
  have := h _ _ and_ref_tokens
  revert this
  decide +kernel

theorem div_deref_tokens : TokensOf "1 / *p".toList [.literal "1".toList, .punct '/', .punct '*', .ident "p".toList] :=
  ⟨by decide +kernel, by decide +kernel, by simp [Visible, VisibleTree]⟩

/-- **C95**: printed code need not even end outside of a comment: `1 / *p` is printed as `1 /*p`. Given as an error value, it
takes all after it in the file into a comment. -/
theorem C95_comment_false : ¬ ∀ (src : Text) (ts : Tokens), TokensOf src ts → (modeAfter (pretty ts)).closed = true := by
  intro h
  have := h _ _ div_deref_tokens
  revert this
  decide +kernel

/-! ### Examples -/

/-- For checking that a sample is `SpaceFree`. -/
def spaceFreeB : List Lexeme → Bool
  | a :: b :: rest =>
    (!b.isMark || !(a.isMark || b.text.head? == some '.') ||
      (lexemes (a.text ++ b.text) == [a, b] && modeAfter (a.text ++ b.text) == modeAfter b.text)) && spaceFreeB (b :: rest)
  | _ => true

theorem spaceFreeB_clear : ∀ {ls : List Lexeme}, spaceFreeB ls = true → ∀ a b, [a, b] <:+: ls → b.isMark = true →
    (a.isMark = true ∨ b.text.head? = some '.') → Clear a b
  | [], _, a, b, h, _, _ => by simpa using h
  | [x], _, a, b, h, _, _ => by
    have := h.length_le
    simp at this
  | x :: y :: rest, h, a, b, hi, hb, ho => by
    simp only [spaceFreeB, Bool.and_eq_true] at h
    obtain ⟨pre, post, e⟩ := hi
    cases pre with
    | nil =>
      simp only [List.nil_append, List.cons_append, List.cons.injEq] at e
      obtain ⟨rfl, rfl, _⟩ := e
      have h1 := h.1
      simp only [hb, Bool.or_eq_true, Bool.not_eq_true', Bool.and_eq_true, beq_iff_eq] at h1
      rcases h1 with (h1 | h1) | h1
      · exact absurd h1 (by simp)
      · rw [Bool.or_eq_false_iff] at h1
        rcases ho with ho | ho
        · rw [ho] at h1; exact absurd h1.1 (by simp)
        · rw [ho] at h1; exact absurd h1.2 (by simp)
      · exact h1
    | cons z pre =>
      simp only [List.cons_append, List.cons.injEq] at e
      exact spaceFreeB_clear h.2 a b ⟨pre, post, by simpa using e.2⟩ hb ho

theorem spaceFree_of {ls : List Lexeme} (h : (spaceFreeB ls && ls.all fun a => a.isMark || a.text.getLast? != some '-') = true) :
    SpaceFree ls := by
  rw [Bool.and_eq_true, List.all_eq_true] at h
  refine ⟨spaceFreeB_clear h.1, fun a ha hm => ?_⟩
  have := h.2 a ha
  rw [hm] at this
  simpa using this

/-- `C95_reads_back_partial` for code with calls, numbers, lifetimes and operators. -/
example : SpaceFree (lexemes "fn f<'a>(x: &'a mut [u8]) -> u8 { x[0..2].g(1.5, -1); a::b(&mut y) >>= 1 }".toList) :=
  spaceFree_of (by decide +kernel)

def readSample : Tokens :=
  [.ident "x".toList, .group .bracket [.literal "0".toList, .punct '.', .punct '.', .literal "2".toList], .punct '.', .ident "g".toList,
   .group .paren [.literal "1.5".toList, .punct ',', .punct '&', .punct '\'', .ident "a".toList, .ident "mut".toList, .ident "y".toList,
     .punct '>', .punct '>', .punct '=', .literal "\"\\\"//\"".toList]]

example : TokensOf "x [ 0 .. 2 ] . g /* ! */ ( 1.5 , & 'a mut y >>= \"\\\"//\" )".toList readSample ∧
    SpaceFree (lexemes "x [ 0 .. 2 ] . g /* ! */ ( 1.5 , & 'a mut y >>= \"\\\"//\" )".toList) ∧
    pretty readSample = "x[0..2].g(1.5, &'a mut y>>= \"\\\"//\")".toList :=
  ⟨⟨by decide +kernel, by decide +kernel, by simp [readSample, Visible, VisibleTree]⟩, spaceFree_of (by decide +kernel), by decide +kernel⟩

/-- `anyhow!("mutated")` -/
def anyhowTokens : Tokens := [.ident "anyhow".toList, .punct '!', .group .paren [.literal "\"mutated\"".toList]]

theorem anyhow_plain : PlainCode anyhowTokens := by
  refine ⟨by simp [anyhowTokens, Visible, VisibleTree], ?_⟩
  show PlainPieces (.word "anyhow".toList :: .mark '!' :: .mark '(' :: .word "\"mutated\"".toList :: [.mark ')'])
  exact (((((plain_quiet (by decide)).cons_word (plainWord_of (by decide +kernel)) (by simp)).cons_quiet (by decide)).cons_quiet
    (by decide))).cons_word (plainWord_of (by decide +kernel)) (by simp)

/-- `Option<[u8; N]>` -/
def optionType : Ty :=
  .path ⟨false, [⟨"Option".toList, .angle [.type (.array (.path ⟨false, [⟨"u8".toList, .none⟩]⟩) [.ident "N".toList])]⟩]⟩

theorem option_plain : PlainType optionType := by
  have hin : ∀ u, TypeIn u optionType → u = optionType ∨ u = .array (.path ⟨false, [⟨"u8".toList, .none⟩]⟩) [.ident "N".toList] ∨
      u = .path ⟨false, [⟨"u8".toList, .none⟩]⟩ := by
    intro u hu
    unfold optionType at *
    cases hu with
    | self => exact .inl rfl
    | arg hs ha ht hu =>
      cases List.mem_singleton.1 hs
      cases ha
      rcases ht with ht | ⟨n, ht⟩
      · cases List.mem_singleton.1 ht
        cases hu with
        | self => exact .inr (.inl rfl)
        | array hu =>
          cases hu with
          | self => exact .inr (.inr rfl)
          | arg hs ha =>
            cases List.mem_singleton.1 hs
            cases ha
      · cases List.mem_singleton.1 ht
  refine ⟨fun p hp s hs => ?_, fun e len hl => ?_⟩
  · rcases hin _ hp with h | h | h
    · cases h
      cases List.mem_singleton.1 hs
      exact plainWord_of (by decide +kernel)
    · cases h
    · cases h
      cases List.mem_singleton.1 hs
      exact plainWord_of (by decide +kernel)
  · rcases hin _ hl with h | h | h
    · cases h
    · cases h
      exact (val_id "N" (plainWord_of (by decide +kernel)) (by decide)).1
    · cases h

example : (returnTypeReplacements (some optionType) [anyhowTokens]).map pretty =
    ["None".toList, "Some([0; N])".toList, "Some([1; N])".toList] := by decide +kernel

/-- The sample file meets `PlainFile`, and its first mutant is that of a function, with white space before the body. -/
example : PlainFile editTree ∧ (∀ e ∈ editVisit.errorExprs, PlainCode e) ∧
    (editMutant 0).map (fun m => (m.genre, m.span)) =
      some (.fnValue, spanOf "fn f(n: u8) -> bool {\n    ".toList "match n {\n        m if(m > 0) => !g(),\n        _ => h() + 1,\n    }".toList) ∧
    modeAfter "fn f(n: u8) -> bool {\n    ".toList = .start ∧ modeAfter "fn f(n: u8) -> bool {".toList = .start := by
  refine ⟨?_, by simp [editVisit], by decide +kernel, by decide +kernel, by decide +kernel⟩
  have h : ∀ p ∈ positionsAll [] editTree.items, ∀ n, p.getLast? = some n → ∀ kind sig block t, n.kind = .fn kind sig block →
      sig.output = some t → PlainType t := by
    intro p hp n hn kind sig block t hk ht
    simp only [editTree, positionsAll, positions, List.append_nil, List.mem_append, List.mem_cons, List.not_mem_nil, or_false, List.nil_append] at hp
    rcases hp with hp | hp | hp | hp | hp <;> (subst hp; cases hn; cases hk)
    cases ht
    refine ⟨fun q hq s hs => ?_, fun e len hq => ?_⟩
    · cases hq with
      | self => cases List.mem_singleton.1 hs; exact plainWord_of (by decide +kernel)
      | arg hs ha =>
        cases List.mem_singleton.1 hs
        cases ha
    · cases hq with
      | arg hs ha =>
        cases List.mem_singleton.1 hs
        cases ha
  intro path n kind sig block t hp
  exact h _ (mem_of_position hp) n (by simp) kind sig block t

end CM.Props
