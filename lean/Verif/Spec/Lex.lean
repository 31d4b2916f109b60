import Verif.Model.Span
/-! How Rust reads a text as tokens (Rust reference, "Lexical structure"), as a machine that reads character by character.
What is needed here is where tokens start and end; which words are keywords does not matter. -/
namespace CM.Spec
open CM

/-- Characters of identifiers, keywords and numbers. Characters beyond ASCII other than white space are taken for these. -/
def wordChar (c : Char) : Bool := c.isAlphanum || c == '_'  || (128 ≤ c.toNat && !(c.toNat ∈ [0x85, 0x200E, 0x200F, 0x2028, 0x2029]))

def whiteChar (c : Char) : Bool := (9 ≤ c.toNat && c.toNat ≤ 13) || c == ' ' || c.toNat ∈ [0x85, 0x200E, 0x200F, 0x2028, 0x2029]

/-- Punctuation of more than one character; what is left of one without its last character is punctuation too. -/
def longMarks : List Text :=
  ["==", "!=", "<=", ">=", "&&", "||", "+=", "-=", "*=", "/=", "%=", "^=", "&=", "|=", "<<", ">>", "<<=", ">>=", "..", "...", "..=",
   "::", "->", "=>"].map String.toList

inductive Lexeme
  /-- an identifier, a keyword, a number or a lifetime -/
  | word (t : Text)
  /-- a literal in quotes -/
  | quoted (t : Text)
  | mark (t : Text)
deriving DecidableEq, Repr

/-- What has been read of the current token or comment. -/
inductive Mode
  /-- nothing -/
  | start
  | word (t : Text)
  /-- a number and a point -/
  | point (t : Text)
  | mark (t : Text)
  /-- `'` and what follows, where it may be a lifetime or a character -/
  | tick (t : Text)
  /-- a character, or a text if `close` is `"`, up to that; `skip` after a backslash -/
  | quote (close : Char) (t : Text) (skip : Bool)
  /-- `r`, `br` or `cr` and some `#` -/
  | hashes (t : Text) (n : Nat)
  /-- a raw text that ends with `"` and `n` times `#`; `seen` if that `"` and so many `#` were just read -/
  | raw (t : Text) (n : Nat) (seen : Option Nat)
  | line
  /-- a comment inside of `depth` others; `last` is the character before, if it may be the first of `/*` or `*/` -/
  | block (depth : Nat) (last : Option Char)
deriving DecidableEq, Repr

/-- A token that ends here. -/
def Mode.flush : Mode → List Lexeme
  | .start => []
  | .word t => [.word t]
  | .point t => [.word t]
  | .mark t => [.mark t]
  | .tick t => [.word t]
  | .quote _ t _ => [.quoted t]
  | .hashes t _ => [.word t]
  | .raw t _ _ => [.quoted t]
  | .line => []
  | .block _ _ => []

/-- A character with nothing before it. -/
def freshStep (c : Char) : List Lexeme × Mode :=
  if whiteChar c then ([], .start)
  else if wordChar c then ([], .word [c])
  else if c = '"' then ([], .quote '"' [c] false)
  else if c = '\'' then ([], .tick [c])
  else if c ∈ ['(', ')', '[', ']', '{', '}', ',', ';', '?', '#', '$', '~', '@'] then ([.mark [c]], .start)
  else ([], .mark [c])

/-- The token read so far ends before this character. -/
def Mode.cut (m : Mode) (c : Char) : List Lexeme × Mode := (m.flush ++ (freshStep c).1, (freshStep c).2)

/-- The exponent of a number follows: it ends with `e`, and is not hexadecimal. -/
def beforeExponent (t : Text) : Bool :=
  (t.head?.any Char.isDigit) && (t.getLast? == some 'e' || t.getLast? == some 'E') && !("0x".toList.isPrefixOf t)

/-- The tokens that a character completes, and what then has been read of the next one. -/
def Mode.step (m : Mode) (c : Char) : List Lexeme × Mode :=
  match m with
  | .start => freshStep c
  | .word t =>
    if wordChar c then ([], .word (t ++ [c]))
    else if c = '.' ∧ t.head?.any Char.isDigit ∧ '.' ∉ t then ([], .point (t ++ [c]))
    else if (c = '+' ∨ c = '-') ∧ beforeExponent t then ([], .word (t ++ [c]))
    else if c = '"' ∧ t ∈ ["b".toList, "c".toList] then ([], .quote '"' (t ++ [c]) false)
    else if c = '\'' ∧ t = "b".toList then ([], .tick (t ++ [c]))
    else if c = '"' ∧ t ∈ ["r".toList, "br".toList, "cr".toList] then ([], .raw (t ++ [c]) 0 none)
    else if c = '#' ∧ t ∈ ["r".toList, "br".toList, "cr".toList] then ([], .hashes (t ++ [c]) 1)
    else m.cut c
  | .point t =>
    -- `1.5`, but `1..2` and `1.max(2)`
    if c.isDigit then ([], .word (t ++ [c]))
    else if c = '.' then ([.word t.dropLast], .mark "..".toList)
    else if wordChar c then ([.word t.dropLast, .mark ".".toList], .word [c])
    else m.cut c
  | .mark t =>
    if t = "/".toList ∧ c = '/' then ([], .line)
    else if t = "/".toList ∧ c = '*' then ([], .block 0 none)
    else if t ++ [c] ∈ longMarks then ([], .mark (t ++ [c]))
    else m.cut c
  | .tick t =>
    if t.getLast? = some '\'' then
      -- a lifetime or a character
      if wordChar c then ([], .tick (t ++ [c])) else ([], .quote '\'' (t ++ [c]) (c == '\\'))
    else if c = '\'' then ([.quoted (t ++ [c])], .start)
    else if wordChar c then ([], .tick (t ++ [c]))
    else m.cut c
  | .quote close t skip =>
    if skip then ([], .quote close (t ++ [c]) false)
    else if c = close then ([.quoted (t ++ [c])], .start)
    else ([], .quote close (t ++ [c]) (c == '\\'))
  | .hashes t n =>
    if c = '#' then ([], .hashes (t ++ [c]) (n + 1))
    else if c = '"' then ([], .raw (t ++ [c]) n none)
    else if wordChar c then ([], .word (t ++ [c]))
    else m.cut c
  | .raw t n seen =>
    if c = '"' then (if n = 0 then ([.quoted (t ++ [c])], .start) else ([], .raw (t ++ [c]) n (some 0)))
    else match seen with
      | some k =>
        if c = '#' then (if k + 1 = n then ([.quoted (t ++ [c])], .start) else ([], .raw (t ++ [c]) n (some (k + 1))))
        else ([], .raw (t ++ [c]) n none)
      | none => ([], .raw (t ++ [c]) n none)
  | .line => if c = '\n' then ([], .start) else ([], .line)
  | .block depth last =>
    if last = some '/' ∧ c = '*' then ([], .block (depth + 1) none)
    else if last = some '*' ∧ c = '/' then
      (match depth with
       | 0 => ([], .start)
       | d + 1 => ([], .block d none))
    else ([], .block depth (some c))

/-- Read a text: the tokens that are complete, and what has been read of the last one. -/
def Mode.read (m : Mode) : Text → List Lexeme × Mode
  | [] => ([], m)
  | c :: cs => ((m.step c).1 ++ ((m.step c).2.read cs).1, ((m.step c).2.read cs).2)

/-- The tokens of a text. -/
def lexemes (t : Text) : List Lexeme := (Mode.start.read t).1 ++ (Mode.start.read t).2.flush

/-- What has been read of the last token of a text. -/
def modeAfter (t : Text) : Mode := (Mode.start.read t).2

/-- A comment or a literal in quotes ends where the text ends, or before. -/
def Mode.closed : Mode → Bool
  | .start | .word _ | .point _ | .mark _ | .hashes _ _ => true
  | .tick t => t.getLast? != some '\''
  | _ => false

/-- Between two texts a token ends and another one starts. -/
def Apart (a b : Text) : Prop :=
  (modeAfter a).closed = true ∧ ∀ c, b.head? = some c → (modeAfter a).step c = (modeAfter a).cut c

/-- The text ends with something that can stand before a binary operator: a name, a number, a literal or a bracket, or white space
or a comment after it. -/
def AfterOperand (t : Text) : Prop :=
  modeAfter t = .start ∨ (∃ w, modeAfter t = .point w) ∨ ∃ w, modeAfter t = .word w ∧ beforeExponent w = false

end CM.Spec
