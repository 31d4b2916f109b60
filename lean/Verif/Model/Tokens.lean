import Verif.Model.Mutant
/-! Token streams and how they are printed: the data of `proc_macro2`, and `src/pretty.rs`. -/
namespace CM

/-- `proc_macro2::Delimiter`. -/
inductive Delim | brace | bracket | paren | none
deriving DecidableEq, Repr

/-- `proc_macro2::TokenTree`, without positions and without the spacing of punctuation, which
`src/pretty.rs` does not look at. The text of an identifier or literal is that of `to_string`. -/
inductive TokenTree
  | punct (c : Char)
  | ident (t : Text)
  | literal (t : Text)
  | group (d : Delim) (ts : List TokenTree)
deriving Repr

abbrev Tokens := List TokenTree

/-- `src/pretty.rs:59-63`. -/
def Delim.opening : Delim → Text
  | .brace => ['{']
  | .bracket => ['[']
  | .paren => ['(']
  | .none => []

/-- `src/pretty.rs:66-70`. -/
def Delim.closing : Delim → Text
  | .brace => ['}']
  | .bracket => [']']
  | .paren => [')']
  | .none => []

/-- `str::ends_with`. -/
def endsWith (b s : Text) : Bool := s.isSuffixOf b

/-- `src/pretty.rs:31-37`: print punctuation after `b`; `more` if another token follows. -/
def printPunct (b : Text) (c : Char) (more : Bool) : Text :=
  let b := b ++ [c]
  if more && (endsWith b "->".toList || c == ',' || c == ';') then b ++ [' '] else b

/-- `src/pretty.rs:47-56`: is a space needed after a word, given the next token? -/
def spaceAfterWord : Option TokenTree → Bool
  | none => false
  | some (.ident _) | some (.literal _) => true
  | some (.punct c) => !(c ∈ [',', ';', '<', '>', ':', '.', '!'])
  | some (.group _ _) => false

/-- `src/pretty.rs:38-57`: print an identifier or literal after `b`. -/
def printWord (b t : Text) (next : Option TokenTree) : Text :=
  let b := if endsWith b "=".toList || endsWith b "=>".toList then b ++ [' '] else b
  let b := b ++ t
  if spaceAfterWord next then b ++ [' '] else b

mutual
/-- `src/pretty.rs:30-73`: print one token after `b`; `rest` are the tokens that follow. -/
def printToken (b : Text) (rest : Tokens) : TokenTree → Text
  | .punct c => printPunct b c (!rest.isEmpty)
  | .ident t => printWord b t rest.head?
  | .literal t => printWord b t rest.head?
  | .group d inner => b ++ d.opening ++ prettyFrom [] inner ++ d.closing

/-- `src/pretty.rs:29-74`: the loop of `to_pretty_string`, with the text so far. The debug assertion
about a trailing space (75-79) is the subject of C65. -/
def prettyFrom (b : Text) : List TokenTree → Text
  | [] => b
  | t :: ts => prettyFrom (printToken b ts t) ts
end

/-- `src/pretty.rs:25-81` `to_pretty_string`. -/
def pretty (ts : Tokens) : Text := prettyFrom [] ts

end CM
