import Verif.Model.Span
/-! Specification of decimal numerals. -/
namespace CM.Spec
open CM

/-- The ten digits with their values. -/
def digits : List (Char × Nat) :=
  [('0', 0), ('1', 1), ('2', 2), ('3', 3), ('4', 4), ('5', 5), ('6', 6), ('7', 7), ('8', 8), ('9', 9)]

/-- `Decimal t v`: the text `t` is a decimal numeral with value `v` (leading zeros allowed). -/
inductive Decimal : Text → Nat → Prop
  | one {c d} : (c, d) ∈ digits → Decimal [c] d
  | more {t v c d} : Decimal t v → (c, d) ∈ digits → Decimal (t ++ [c]) (10 * v + d)

/-- A numeral as Rust reads unsigned integers: with an optional plus sign. -/
def SignedDecimal (t : Text) (v : Nat) : Prop := Decimal t v ∨ ∃ u, t = '+' :: u ∧ Decimal u v

end CM.Spec
