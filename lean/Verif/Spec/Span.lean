import Verif.Model.Span
/-!
Specification of positions in a text, independent of the scanners in `src/span.rs`.

`posAfter t` is the position that the Rust parser (`proc_macro2::LineColumn`, plus one in the column
as in `src/span.rs:23-30`) gives to the place just after the text `t` at the start of a file: one
more than the number of line feeds, and one more than the number of characters since the last one.
-/
namespace CM.Spec
open CM

/-- The characters after the last line feed of `t`, in reverse order. -/
def lineTail (t : Text) : Text := t.reverse.takeWhile (· ≠ '\n')

def posAfter (t : Text) : LineColumn := ⟨1 + t.count '\n', 1 + (lineTail t).length⟩

/-- The span of the region `mid` in a file that starts with `pre ++ mid`. -/
def spanOf (pre mid : Text) : Span := ⟨posAfter pre, posAfter (pre ++ mid)⟩

/-- The marker by which a mutation can be found. -/
def markerText : Text := "/* ~ changed by cargo-mutants ~ */".toList

/-- The line that the end of `t` is on has no carriage return before that place. -/
def CleanAt (t : Text) : Prop := '\r' ∉ lineTail t

instance (t : Text) : Decidable (CleanAt t) := inferInstanceAs (Decidable (¬ _))

end CM.Spec
