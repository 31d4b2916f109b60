import Verif.Model.Colors
/-! Reading a text with colours: what is left without the escape sequences for them. -/
namespace CM.Spec
open CM

/-- `Displays t u`: a terminal shows `u` for `t`, in some colours. A sequence for colours is ESC `[`, digits and semicolons, and `m`
(ECMA-48, "select graphic rendition"). -/
inductive Displays : Text → Text → Prop
  | nil : Displays [] []
  | char {c : Char} {t u : Text} : c ≠ '\x1b' → Displays t u → Displays (c :: t) (c :: u)
  | sequence {code t u : Text} : (∀ c ∈ code, c.isDigit = true ∨ c = ';') → Displays t u →
      Displays ('\x1b' :: '[' :: (code ++ 'm' :: t)) u

end CM.Spec
