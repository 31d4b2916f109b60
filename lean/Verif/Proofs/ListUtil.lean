/-! General list lemmas used by several proofs. -/
namespace CM

theorem snocInduction {α : Type _} {motive : List α → Prop} (l : List α) (nil : motive [])
    (snoc : ∀ l a, motive l → motive (l ++ [a])) : motive l := by
  have h : ∀ l : List α, motive l.reverse := by
    intro l
    induction l with
    | nil => exact nil
    | cons a l ih => simpa using snoc _ a ih
  simpa using h l.reverse

end CM
