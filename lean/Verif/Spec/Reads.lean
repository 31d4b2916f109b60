import Verif.Spec.Lex
import Verif.Spec.Tokens
import Verif.Spec.FnValue
import Verif.Spec.Visit
/-! What it means that printed code reads as the text that the tokens come from. -/
namespace CM.Spec
open CM

def Lexeme.text : Lexeme → Text
  | .word t => t
  | .quoted t => t
  | .mark t => t

def Lexeme.isMark : Lexeme → Bool
  | .mark _ => true
  | _ => false

/-- A token of Rust as `proc_macro2` gives it: punctuation character by character, a lifetime as `'` and a name. -/
def Lexeme.parts : Lexeme → List Piece
  | .word ('\'' :: t) => [.mark '\'', .word t]
  | .word t => [.word t]
  | .quoted t => [.word t]
  | .mark t => t.map .mark

/-- These tokens are those of this text, which does not end inside of a comment or a literal. -/
structure TokensOf (src : Text) (ts : Tokens) : Prop where
  parts : pieces ts = (lexemes src).flatMap Lexeme.parts
  closed : (modeAfter src).closed = true
  visible : Visible ts

/-- Written without a space the two read as these two, and what follows reads as it does after the second alone. -/
def Clear (a b : Lexeme) : Prop :=
  lexemes (a.text ++ b.text) = [a, b] ∧ modeAfter (a.text ++ b.text) = modeAfter b.text

/-- Punctuation after punctuation, and a point after anything, needs no space; and no number ends with a sign, as `1e-` does,
which is not Rust. -/
structure SpaceFree (ls : List Lexeme) : Prop where
  clear : ∀ a b, [a, b] <:+: ls → b.isMark = true → (a.isMark = true ∨ b.text.head? = some '.') → Clear a b
  sign : ∀ a ∈ ls, a.isMark = false → a.text.getLast? ≠ some '-'

/-- The word of a token: an identifier, a number or another literal. -/
structure PlainWord (w : Text) : Prop where
  closed : (modeAfter w).closed = true
  token : (lexemes w = [.word w] ∧ w.head? ≠ some '\'') ∨ lexemes w = [.quoted w]

/-- Words and marks that `proc_macro2` gives, where no comment starts between two marks, and a number before a point can be told
from it. -/
structure PlainPieces (ps : List Piece) : Prop where
  words : ∀ w, .word w ∈ ps → PlainWord w
  marks : ∀ c, .mark c ∈ ps → wordChar c = false ∧ whiteChar c = false ∧ c ≠ '"'
  ticks : ∀ pre post, ps = pre ++ .mark '\'' :: post → ∃ w, post.head? = some (.word w) ∧ w ≠ [] ∧ ∀ c ∈ w, wordChar c = true
  slashes : ∀ c, [.mark '/', .mark c] <:+: ps → c ≠ '/' ∧ c ≠ '*'
  points : ∀ pre w post, ps = pre ++ .word w :: .mark '.' :: post → w.getLast? ≠ some '.' ∧
    (w.head?.any Char.isDigit = true → '.' ∉ w → post.head? = some (.mark '.') ∨
      ∃ c v, post.head? = some (.word (c :: v)) ∧ wordChar c = true ∧ c.isDigit = false)

/-- The type `u` occurs in the other one. -/
inductive TypeIn (u : Ty) : Ty → Prop
  | self : TypeIn u u
  | arg {t p s args} : s ∈ p.segments → s.args = .angle args → (.type t ∈ args ∨ ∃ n, .assocType n t ∈ args) → TypeIn u t →
      TypeIn u (.path p)
  | array {t len} : TypeIn u t → TypeIn u (.array t len)
  | slice {t} : TypeIn u t → TypeIn u (.slice t)
  | reference {m t} : TypeIn u t → TypeIn u (.reference m t)
  | tuple {t ts} : t ∈ ts → TypeIn u t → TypeIn u (.tuple ts)
  | bound {t p s args bs} : .trait p ∈ bs → s ∈ p.segments → s.args = .angle args →
      (.type t ∈ args ∨ ∃ n, .assocType n t ∈ args) → TypeIn u t → TypeIn u (.implTrait bs)

/-- Code without invisible groups, of words and marks that `proc_macro2` gives. -/
def PlainCode (ts : Tokens) : Prop := Visible ts ∧ PlainPieces (pieces ts)

/-- The names in a type are words, and the lengths of its arrays are code. -/
structure PlainType (t : Ty) : Prop where
  names : ∀ p, TypeIn (.path p) t → ∀ s ∈ p.segments, PlainWord s.ident
  lengths : ∀ e len, TypeIn (.array e len) t → PlainCode len

/-- The return types of all functions in the file are as they are parsed. -/
def PlainFile (f : SynFile) : Prop :=
  ∀ path n kind sig block t, Position f.items (path ++ [n]) → n.kind = .fn kind sig block → sig.output = some t → PlainType t

end CM.Spec
