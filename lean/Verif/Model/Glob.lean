import Verif.Model.Utf8
/-! Globs: `src/glob.rs`, with the part of the crate `globset` 0.4 that it relies on.

The matcher follows the parser and the regular expressions of `globset` with `literal_separator` and
backslash escapes (as on Unix). The regular expressions are of bytes (`(?-u)`): a literal is its bytes
in UTF-8, and `?` takes one byte. So globs and paths are modelled as their bytes; what is special in a
glob is a single byte, so that it may be parsed as bytes. The one difference is in a class with a range of two
characters outside of ASCII in the wrong order, which `globset` refuses. -/
namespace CM.Glob

/-- `globset::glob::Token`, apart from classes and alternatives. -/
inductive Token
  | literal (c : Char)
  /-- `?`: `[^/]` -/
  | any
  /-- `*`: `[^/]*` -/
  | zeroOrMore
  /-- `**/` at the start: `(?:/?|.*/)` -/
  | recursivePrefix
  /-- `/**` at the end: `/.*` -/
  | recursiveSuffix
  /-- `/**/` in the middle: `(?:/|/.*/)` -/
  | recursiveZeroOrMore
deriving DecidableEq, Repr

/-- `globset::glob::Token`, apart from alternatives. -/
inductive Item
  | plain (t : Token)
  /-- `[…]`: one byte in one of the ranges, or in none of them -/
  | oneOf (negated : Bool) (ranges : List (Char × Char))
deriving DecidableEq, Repr

/-- `globset::glob::Token`: alternatives `{…}` hold items, as there are none inside of others. -/
inductive Part
  | one (t : Item)
  | alts (as : List (List Item))
deriving DecidableEq, Repr

def Part.item? : Part → Option Item
  | .one t => some t
  | .alts _ => none

/-- What the parser is inside of; the ranges of a class are in reverse order. -/
inductive Mode
  | plain
  | inClass (negated : Bool) (ranges : List (Char × Char)) (first inRange : Bool)
deriving DecidableEq, Repr

/-- The end of `globset`'s `parse_star`: what `/**` and `/**/` make of the token before. -/
def lastStar (isSuffix : Bool) : Part → Part
  | .one (.plain .recursivePrefix) => .one (.plain .recursivePrefix)
  | .one (.plain .recursiveSuffix) => .one (.plain .recursiveSuffix)
  | _ => .one (.plain (if isSuffix then .recursiveSuffix else .recursiveZeroOrMore))

/-- The end of a glob: an error inside of alternatives. -/
def finish (cur : List Part) (outer : List (List Part)) : Option (List Part) :=
  if outer = [] then some cur.reverse else none

/-- `globset`'s `add_to_last_range`: an error if the range would be empty. -/
def extendLast (c : Char) : List (Char × Char) → Option (List (Char × Char))
  | [] => none
  | (a, _) :: rs => if c < a then none else some ((a, c) :: rs)

/-- `globset`'s `Parser::parse` with `parse_class`, `parse_star`, `push_alternate`, `pop_alternate` and
`parse_comma`. The stack is `cur` and `outer`, each with the last one first, and `prev` is the byte
read before. -/
def parseParts (mode : Mode) (cur : List Part) (outer : List (List Part)) (prev : Option Char) : Text → Option (List Part)
  | [] => if mode = .plain then finish cur outer else none
  | c :: cs =>
    match mode with
    | .inClass neg ranges first inRange =>
      if c = ']' ∧ first = false then
        parseParts .plain (.one (.oneOf neg (if inRange then ('-', '-') :: ranges else ranges).reverse) :: cur) outer (some ']') cs
      else if c = '-' ∧ first = false ∧ inRange = false then
        parseParts (.inClass neg ranges false true) cur outer (some c) cs
      else if inRange then
        match extendLast c ranges with
        | none => none
        | some ranges => parseParts (.inClass neg ranges false false) cur outer (some c) cs
      else parseParts (.inClass neg ((c, c) :: ranges) false false) cur outer (some c) cs
    | .plain =>
      if c = '*' then
        match cs with
        | [] => finish (.one (.plain .zeroOrMore) :: cur) outer
        | d :: ds =>
          if d = '*' then
            match cur with
            | [] =>
              match ds with
              | [] => finish [.one (.plain .recursivePrefix)] outer
              | e :: es =>
                if e = '/' then parseParts .plain [.one (.plain .recursivePrefix)] outer (some '/') es
                else parseParts .plain [.one (.plain .zeroOrMore), .one (.plain .zeroOrMore)] outer (some '*') (e :: es)
            | tok :: rest =>
              if prev = some '/' ∨ (outer ≠ [] ∧ (prev = some ',' ∨ prev = some '{')) then
                match ds with
                | [] => finish (lastStar true tok :: rest) outer
                | e :: es =>
                  if e = '/' then parseParts .plain (lastStar false tok :: rest) outer (some '/') es
                  else if outer ≠ [] ∧ (e = ',' ∨ e = '}') then
                    parseParts .plain (lastStar true tok :: rest) outer (some '*') (e :: es)
                  else parseParts .plain (.one (.plain .zeroOrMore) :: .one (.plain .zeroOrMore) :: tok :: rest) outer (some '*') (e :: es)
              else parseParts .plain (.one (.plain .zeroOrMore) :: .one (.plain .zeroOrMore) :: tok :: rest) outer (some '*') ds
          else parseParts .plain (.one (.plain .zeroOrMore) :: cur) outer (some '*') (d :: ds)
      else if c = '?' then parseParts .plain (.one (.plain .any) :: cur) outer (some c) cs
      else if c = '\\' then
        match cs with
        | [] => none
        | d :: ds => parseParts .plain (.one (.plain (.literal d)) :: cur) outer (some d) ds
      else if c = '[' then
        match cs with
        | [] => none
        | d :: ds =>
          if d = '!' ∨ d = '^' then parseParts (.inClass true [] true false) cur outer (some d) ds
          else parseParts (.inClass false [] true false) cur outer (some c) (d :: ds)
      else if c = '{' then
        if outer = [] then parseParts .plain [] [cur] (some c) cs else none
      else if c = '}' then
        match outer.getLast? with
        | none => parseParts .plain (.alts [] :: cur) [] (some c) cs
        | some base =>
          parseParts .plain (.alts ((cur :: outer.dropLast).map fun l => l.reverse.filterMap Part.item?) :: base) [] (some c) cs
      else if c = ',' ∧ outer ≠ [] then parseParts .plain [] (cur :: outer) (some c) cs
      else parseParts .plain (.one (.plain (.literal c)) :: cur) outer (some c) cs

/-- `GlobBuilder::new(g).literal_separator(true).build()`. -/
def parse (g : Text) : Option (List Part) := parseParts .plain [] [] none (utf8 g)

/-- Try to continue with `k` after any number of characters that satisfy `p`. -/
def skipping (p : Char → Bool) (k : Text → Bool) : Text → Bool
  | [] => k []
  | c :: cs => k (c :: cs) || (p c && skipping p k cs)

/-- Continue with `k` after a separator. -/
def afterSlash (k : Text → Bool) : Text → Bool
  | [] => false
  | c :: cs => c == '/' && k cs

/-- The regular expressions of `globset`'s `Tokens::to_regex_with`, with what follows. -/
def matchOne (k : Text → Bool) : Item → Text → Bool
  | .plain (.literal c), s =>
    match s with
    | [] => false
    | d :: ds => c == d && k ds
  | .plain .any, s =>
    match s with
    | [] => false
    | d :: ds => d != '/' && k ds
  | .plain .zeroOrMore, s => skipping (· != '/') k s
  | .plain .recursivePrefix, s => k s || afterSlash k s || skipping (fun _ => true) (afterSlash k) s
  | .plain .recursiveSuffix, s => afterSlash (skipping (fun _ => true) k) s
  | .plain .recursiveZeroOrMore, s =>
    afterSlash k s || afterSlash (skipping (fun _ => true) (afterSlash k)) s
  | .oneOf negated ranges, s =>
    match s with
    | [] => false
    | d :: ds => (ranges.any fun r => r.1.toNat ≤ d.toNat && d.toNat ≤ r.2.toNat) != negated && k ds

/-- One after the other. -/
def matchSeq (k : Text → Bool) : List Item → Text → Bool
  | [] => k
  | t :: ts => matchOne (matchSeq k ts) t

/-- The whole, anchored at both ends; empty alternatives are left out. -/
def matchParts : List Part → Text → Bool
  | [], s => s.isEmpty
  | .one t :: ps, s => matchOne (matchParts ps) t s
  | .alts as :: ps, s =>
    if as.all (·.isEmpty) then matchParts ps s else as.any fun a => !a.isEmpty && matchSeq (matchParts ps) a s

/-- A compiled glob; `**` alone matches everything. -/
def isMatch (ps : List Part) (s : Text) : Bool :=
  if ps = [.one (.plain .recursivePrefix)] then true else matchParts ps s

/-- `src/glob.rs:21-34`: the globs made from one given by the user, on Unix. -/
def adjusted (g : Text) : List Text :=
  if '/' ∈ g then [g] else ["**/".toList ++ g, "**/".toList ++ g ++ "/**".toList]

/-- The loop over all globs in `src/glob.rs:20-43`; `none` is the error. -/
def parseAll : List Text → Option (List (List Part))
  | [] => some []
  | g :: gs => do
    let t ← parse g
    let ts ← parseAll gs
    pure (t :: ts)

/-- `src/glob.rs:12-45` `build_glob_set`: outer `none` is the error, inner `none` means that no globs
were given. -/
def buildGlobSet (globs : List Text) : Option (Option (List (List Part))) :=
  if globs = [] then some none
  else (parseAll (globs.flatMap adjusted)).map some

/-- `GlobSet::is_match`: of the bytes of a path. -/
def setMatches (set : List (List Part)) (s : Text) : Bool := set.any fun ts => isMatch ts (utf8 s)

end CM.Glob
