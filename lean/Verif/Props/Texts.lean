import Verif.Spec.Shard
import Verif.Proofs.JsonFiles
import Verif.Props.Name
/-! C54: how the numbers, lists and paths of names are spelled, without the functions of the model. -/
namespace CM.Props
open CM CM.Spec

theorem digit_listed {n : Nat} (h : n < 10) : (Nat.digitChar n, n) ∈ digits := by
  rcases n with _ | _ | _ | _ | _ | _ | _ | _ | _ | _ | n
  all_goals first | decide | omega

/-- **C54**: a number is written as its decimal numeral, without leading zeros. -/
theorem C54_numbers (n : Nat) : Decimal (decimal n) n ∧ ((decimal n).head? = some '0' → n = 0) := by
  refine ⟨?_, JsonProofs.decimal_head_zero n⟩
  induction n using Nat.strongRecOn with
  | ind n ih =>
    by_cases h : n < 10
    · rw [JsonProofs.decimal_small h]; exact .one (digit_listed h)
    · rw [JsonProofs.decimal_step (by omega)]
      have := Decimal.more (ih (n / 10) (by omega)) (digit_listed (Nat.mod_lt n (by omega : 10 > 0)))
      have e : 10 * (n / 10) + n % 10 = n := by omega
      rw [e] at this
      exact this

/-- **C54**: a list is written with the separator between its elements. -/
theorem C54_joined (sep : Text) (l : List Text) : joinWith sep l = sep.intercalate l := by
  induction l with
  | nil => rfl
  | cons a l ih =>
    cases l with
    | nil => simp [joinWith, List.intercalate]
    | cons b l => rw [joinWith, ih]; simp [List.intercalate]

/-- **C54**: the name of a mutant is the components of its path with slashes between them, the decimal numerals of the line and
the column, and the documented words with spaces between them. -/
theorem C54_spelled (m : Mutant) (n : Text) (h : m.name true = some n) (hp : OrdinaryPath m.sourceFile.path) :
    ∃ line column words, Decimal line m.span.start.line ∧ Decimal column m.span.start.column ∧ wording m = some words ∧
      n = "/".toList.intercalate m.sourceFile.path ++ ":".toList ++ line ++ ":".toList ++ column ++ ": ".toList ++
        " ".toList.intercalate words := by
  rw [(C54_wording m).2.1] at h
  obtain ⟨ws, hw, rfl⟩ := Option.map_eq_some_iff.1 h
  exact ⟨_, _, ws, (C54_numbers _).1, (C54_numbers _).1, hw, by rw [slash_eq hp, C54_joined, C54_joined]⟩

example : Decimal (decimal 1207) 1207 := (C54_numbers _).1
example : decimal 1207 = "1207".toList := by decide +kernel

/-- **C54**: cutting a text at a separator and joining the pieces gives the text, and no piece has the separator in it; this
determines the pieces. -/
theorem C54_cut (sep : Char) (t : Text) (ps : List Text) :
    splitOn sep t = ps ↔ ps ≠ [] ∧ (∀ p ∈ ps, sep ∉ p) ∧ [sep].intercalate ps = t := by
  rw [← C54_joined]
  constructor
  · rintro rfl
    refine ⟨splitOn_ne_nil sep t, ?_, joinWith_splitOn sep t⟩
    induction t with
    | nil => simp [splitOn]
    | cons c t ih =>
      unfold splitOn
      split
      · intro p hp
        rcases List.mem_cons.1 hp with rfl | hp
        · simp
        · exact ih p hp
      · rename_i hc
        split
        · simp [Ne.symm hc]
        · rename_i l ls e
          intro p hp
          rw [e] at ih
          rcases List.mem_cons.1 hp with rfl | hp
          · simp only [List.mem_cons, not_or]; exact ⟨Ne.symm hc, ih l (by simp)⟩
          · exact ih p (by simp [hp])
  · rintro ⟨h1, h2, rfl⟩
    exact splitOn_joinWith sep ps h1 h2

example : splitOn '/' "src//a.rs".toList = ["src".toList, [], "a.rs".toList] := by decide +kernel

end CM.Props
