import Verif.Model.Tokens
/-! What printed code should look like, independently of how it is printed. -/
namespace CM.Spec
open CM

/-- A piece of code as read from left to right: a word (identifier or literal), or a punctuation
character or bracket. -/
inductive Piece
  | word (t : Text)
  | mark (c : Char)
deriving DecidableEq, Repr

def Piece.text : Piece → Text
  | .word t => t
  | .mark c => [c]

def Piece.isWord : Piece → Bool
  | .word _ => true
  | .mark _ => false

/-- The brackets around a group; an invisible group has none. -/
def brackets : Delim → Option (Char × Char)
  | .paren => some ('(', ')')
  | .bracket => some ('[', ']')
  | .brace => some ('{', '}')
  | .none => none

mutual
/-- The pieces of one token. -/
def piecesOf : TokenTree → List Piece
  | .punct c => [.mark c]
  | .ident t => [.word t]
  | .literal t => [.word t]
  | .group d inner =>
    match brackets d with
    | some (o, c) => .mark o :: (pieces inner ++ [.mark c])
    | none => pieces inner

/-- The pieces of a token sequence, in order. -/
def pieces : List TokenTree → List Piece
  | [] => []
  | t :: ts => piecesOf t ++ pieces ts
end

/-- The text consists of exactly these pieces in this order, with nothing but at most one space between
two of them, nothing before the first and nothing after the last; and words are separated. -/
def Printed : List Piece → Text → Prop
  | [], t => t = []
  | [p], t => t = p.text
  | p :: q :: rest, t => ∃ sep t', t = p.text ++ sep ++ t' ∧ (sep = [] ∨ sep = [' ']) ∧
      (p.isWord = true → q.isWord = true → sep = [' ']) ∧ Printed (q :: rest) t'

mutual
def VisibleTree : TokenTree → Prop
  | .group d inner => d ≠ .none ∧ Visible inner
  | _ => True

/-- There are no invisible groups. Code that was parsed from text has none. -/
def Visible : List TokenTree → Prop
  | [] => True
  | t :: ts => VisibleTree t ∧ Visible ts
end

/-- Read pieces from a text: words are longest runs of word characters, spaces are skipped. `cur` is
the word being read, reversed. -/
def readFrom (isWord : Char → Bool) (cur : Text) : Text → List Piece
  | [] => if cur = [] then [] else [.word cur.reverse]
  | c :: cs =>
    if isWord c then readFrom isWord (c :: cur) cs
    else (if cur = [] then [] else [.word cur.reverse]) ++
      (if c = ' ' then [] else [.mark c]) ++ readFrom isWord [] cs

/-- Words are non-empty and made of word characters; other pieces are not word characters. -/
def Piece.readable (isWord : Char → Bool) : Piece → Prop
  | .word t => t ≠ [] ∧ ∀ c ∈ t, isWord c = true
  | .mark c => isWord c = false ∧ c ≠ ' '

end CM.Spec
