/-!
Positions, spans and in-file edits: `src/span.rs`, `src/mutant.rs`, `src/source.rs`.

Text is a list of Unicode scalar values (`List Char`), which is what `str::chars` iterates over.
`usize` arithmetic is modelled by `Nat` (no file is longer than `usize::MAX`).
-/
namespace CM

/-- Text of a file or string: the sequence of its `char`s. -/
abbrev Text := List Char

/-- `src/span.rs:13-21` `LineColumn`: 1-based line and column; those of `proc_macro2` have the column from 0 (`src/span.rs:23-30`). -/
structure LineColumn where
  line : Nat
  column : Nat
deriving DecidableEq, Repr

/-- `src/span.rs:38-45` `Span`: inclusive start, exclusive end (`end` is a Lean keyword). The trees of `Visit.lean` have spans after
the conversion of `src/span.rs:135-163`. -/
structure Span where
  start : LineColumn
  stop : LineColumn
deriving DecidableEq, Repr

/-- `src/span.rs:119-126` (and `80-90`): how the scanner moves past one character. -/
def LineColumn.advance (p : LineColumn) (c : Char) : LineColumn :=
  if c = '\n' then ⟨p.line + 1, 1⟩
  else if c = '\r' then p
  else ⟨p.line, p.column + 1⟩

/-- `src/span.rs:75-76`: the character at `p` is inside the span. -/
def Span.extractsAt (sp : Span) (p : LineColumn) : Bool :=
  ((p.line == sp.start.line && p.column ≥ sp.start.column) || p.line > sp.start.line) &&
  (p.line < sp.stop.line || (p.line == sp.stop.line && p.column < sp.stop.column))

/-- `src/span.rs:74-94`: the loop of `Span::extract`, from scanner position `p`; the two `break`s
return the empty rest. -/
def Span.extractFrom (sp : Span) (p : LineColumn) : Text → Text
  | [] => []
  | c :: cs =>
    let q := p.advance c
    let rest :=
      if c = '\n' ∧ q.line > sp.stop.line then []
      else if q.line = sp.stop.line ∧ q.column ≥ sp.stop.column then []
      else sp.extractFrom q cs
    if sp.extractsAt p then c :: rest else rest

/-- `src/span.rs:67-96` `Span::extract`. -/
def Span.extract (sp : Span) (s : Text) : Text := sp.extractFrom ⟨1, 1⟩ s

/-- `src/span.rs:112-116`: the character at `p` is kept by `replace`. -/
def Span.keepsAt (sp : Span) (p : LineColumn) : Bool :=
  p.line < sp.start.line || p.line > sp.stop.line ||
  (p.line == sp.start.line && p.column < sp.start.column) ||
  (p.line == sp.stop.line && p.column ≥ sp.stop.column)

/-- `src/span.rs:108-130`: the loop of `Span::replace` and the check after it (`[]` case). -/
def Span.replaceFrom (sp : Span) (replacement : Text) (p : LineColumn) : Text → Text
  | [] => if p = sp.start then replacement else []
  | c :: cs =>
    (if p = sp.start then replacement else []) ++
    (if sp.keepsAt p then [c] else []) ++
    sp.replaceFrom replacement (p.advance c) cs

/-- `src/span.rs:98-132` `Span::replace`. -/
def Span.replace (sp : Span) (s replacement : Text) : Text :=
  sp.replaceFrom replacement ⟨1, 1⟩ s

/-- `src/main.rs:76` `MUTATION_MARKER_COMMENT`. -/
def markerComment : Text := "/* ~ changed by cargo-mutants ~ */".toList

/-- `src/mutant.rs:78-83` `Mutant::mutated_code`, as a function of the file's code, the mutant's
span and its replacement. -/
def mutatedCode (code : Text) (sp : Span) (replacement : Text) : Text :=
  sp.replace code (replacement ++ " ".toList ++ markerComment)

/-- `src/mutant.rs:180-182` `Mutant::original_text`. -/
def originalText (code : Text) (sp : Span) : Text := sp.extract code

/-- Rust's `str::replace("\r\n", "\n")` as used in `src/source.rs:68`: leftmost, non-overlapping
occurrences from left to right. -/
def normalizeNewlines : Text → Text
  | [] => []
  | [c] => [c]
  | c :: d :: cs =>
    if c = '\r' ∧ d = '\n' then '\n' :: normalizeNewlines cs
    else c :: normalizeNewlines (d :: cs)

end CM
