import Verif.Proofs.FnValue
/-! C65: where printed code has spaces. -/
namespace CM.Props
open CM CM.Spec

/-- The tokens before a token are printed in the same way whatever follows it. -/
theorem prettyFrom_before (t : TokenTree) (a : Tokens) : ∃ f : Text → Text, ∀ b rest, prettyFrom b (a ++ t :: rest) = prettyFrom (printToken (f b) rest t) rest := by
  induction a with
  | nil => exact ⟨id, fun b rest => rfl⟩
  | cons x a ih =>
    obtain ⟨f, hf⟩ := ih
    refine ⟨fun b => f (printToken b (a ++ [t]) x), fun b rest => ?_⟩
    show prettyFrom (printToken b (a ++ t :: rest) x) (a ++ t :: rest) = _
    have e : printToken b (a ++ t :: rest) x = printToken b (a ++ [t]) x := by
      cases a <;> cases x <;> simp [printToken]
    rw [e, hf]

/-- **C65**: after a comma or semicolon there is one space, unless it is the last token of its group. -/
theorem C65_after_comma (c : Char) (hc : c = ',' ∨ c = ';') (a b : Tokens) (hb : b ≠ []) :
    pretty (a ++ .punct c :: b) = pretty (a ++ [.punct c]) ++ ' ' :: pretty b := by
  obtain ⟨f, hf⟩ := prettyFrom_before (.punct c) a
  unfold pretty
  rw [hf, hf]
  have e : printToken (f []) b (.punct c) = printToken (f []) [] (.punct c) ++ [' '] := by
    cases b with
    | nil => exact absurd rfl hb
    | cons x b => rcases hc with rfl | rfl <;> simp [printToken, printPunct]
  rw [e, prettyFrom_neutral (neutral_concat _ (by decide))]
  simp [pretty, prettyFrom]

/-- **C65**: so there is after an arrow. -/
theorem C65_after_arrow (a b : Tokens) (hb : b ≠ []) :
    pretty (a ++ .punct '-' :: .punct '>' :: b) = pretty (a ++ [.punct '-', .punct '>']) ++ ' ' :: pretty b := by
  obtain ⟨f, hf⟩ := prettyFrom_before (.punct '-') a
  unfold pretty
  rw [hf, hf]
  have h1 : ∀ r : Tokens, printToken (f []) (.punct '>' :: r) (.punct '-') = f [] ++ ['-'] := by
    intro r
    have : endsWith (f [] ++ ['-']) "->".toList = false := not_endsWith_of_last (s := ['-']) (d := '>') (by decide)
    simp only [printToken, printPunct, this]
    simp
  have h2 : endsWith (f [] ++ ['-', '>']) "->".toList = true := by
    unfold endsWith
    rw [List.isSuffixOf_iff_suffix]
    exact ⟨f [], rfl⟩
  rw [h1, h1]
  show prettyFrom (printToken (f [] ++ ['-']) b (.punct '>')) b = _
  have e : printToken (f [] ++ ['-']) b (.punct '>') = f [] ++ ['-', '>'] ++ [' '] := by
    cases b with
    | nil => exact absurd rfl hb
    | cons x b => simp [printToken, printPunct]; exact h2
  rw [e, prettyFrom_neutral (neutral_concat _ (by decide))]
  simp [pretty, prettyFrom, printToken, printPunct]

/-- Punctuation is not kept apart: `a & &b` is printed so that it reads as another operator. -/
example : pretty [.ident "a".toList, .punct '&', .punct '&', .ident "b".toList] = "a &&b".toList := by decide +kernel

end CM.Props
