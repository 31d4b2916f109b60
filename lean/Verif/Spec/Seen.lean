import Verif.Spec.Span
/-! Where the scanner of `src/span.rs` takes a place in a text to be, without following it: lines as the parser counts them, and
columns without carriage returns. -/
namespace CM.Spec
open CM

/-- The position of the end of `t` if carriage returns have no width. -/
def seenAfter (t : Text) : LineColumn := ⟨1 + t.count '\n', 1 + ((lineTail t).filter (· ≠ '\r')).length⟩

/-- The order of positions. -/
def Earlier (p q : LineColumn) : Prop := p.line < q.line ∨ (p.line = q.line ∧ p.column < q.column)

/-- `code` is cut at the span: the characters of `pre` are before it, those of `mid` in it, and those of `post` after it, where
carriage returns have no width. -/
structure CutAt (code : Text) (sp : Span) (pre mid post : Text) : Prop where
  all : code = pre ++ mid ++ post
  before : ∀ a c b, pre = a ++ c :: b → Earlier (seenAfter a) sp.start
  inside : ∀ a c b, mid = a ++ c :: b → ¬ Earlier (seenAfter (pre ++ a)) sp.start ∧ Earlier (seenAfter (pre ++ a)) sp.stop
  after : ∀ a c b, post = a ++ c :: b → ¬ Earlier (seenAfter (pre ++ mid ++ a)) sp.stop

/-- How many places of a text have this position, if carriage returns have no width. -/
def placesAt (code : Text) (p : LineColumn) : Nat := (List.range (code.length + 1)).countP fun n => seenAfter (code.take n) = p

end CM.Spec
