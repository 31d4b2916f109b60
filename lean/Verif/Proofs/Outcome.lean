import Verif.Model.Outcome
import Verif.Proofs.ListUtil
/-! Helper lemmas about outcomes. -/
namespace CM

/-- Number of recorded outcomes of mutants with the verdict `v`. -/
def countVerdict (v : SummaryOutcome) (os : List ScenarioOutcome) : Nat :=
  os.countP fun o => o.scenario.isMutant && o.summary == some v

def countMutants (os : List ScenarioOutcome) : Nat := os.countP (·.scenario.isMutant)

theorem countVerdict_cons (v) (o : ScenarioOutcome) (os) :
    countVerdict v (o :: os) = countVerdict v os +
      (if o.scenario.isMutant && o.summary == some v then 1 else 0) := by
  unfold countVerdict; rw [List.countP_cons]

/-- The effect of recording one outcome, as equations. -/
theorem add_spec {l l' : LabOutcome} {o : ScenarioOutcome} (h : l.add o = some l') :
    l'.outcomes = l.outcomes ++ [o] ∧
    l'.totalMutants = l.totalMutants + countMutants [o] ∧
    l'.missed = l.missed + countVerdict .missedMutant [o] ∧
    l'.caught = l.caught + countVerdict .caughtMutant [o] ∧
    l'.timeout = l.timeout + countVerdict .timeout [o] ∧
    l'.unviable = l.unviable + countVerdict .unviable [o] ∧
    l'.success = l.success + countVerdict .success [o] ∧
    (o.scenario.isMutant = true → o.summary ≠ none) := by
  unfold LabOutcome.add at h
  by_cases hm : o.scenario.isMutant = true
  · rw [if_pos hm] at h
    cases hs : o.summary with
    | none => rw [hs] at h; simp at h
    | some s =>
      rw [hs] at h
      simp only [Option.bind_eq_bind, Option.bind_some, Option.pure_def, Option.some.injEq] at h
      subst h
      cases s <;> simp [countVerdict, countMutants, hm, hs]
  · rw [if_neg hm] at h
    cases h
    simp [countVerdict, countMutants, hm]

theorem addAll_spec {os : List ScenarioOutcome} {l l' : LabOutcome} (h : l.addAll os = some l') :
    l'.outcomes = l.outcomes ++ os ∧
    l'.totalMutants = l.totalMutants + countMutants os ∧
    l'.missed = l.missed + countVerdict .missedMutant os ∧
    l'.caught = l.caught + countVerdict .caughtMutant os ∧
    l'.timeout = l.timeout + countVerdict .timeout os ∧
    l'.unviable = l.unviable + countVerdict .unviable os ∧
    l'.success = l.success + countVerdict .success os ∧
    (∀ o ∈ os, o.scenario.isMutant = true → o.summary ≠ none) := by
  induction os generalizing l with
  | nil =>
    simp only [LabOutcome.addAll, Option.some.injEq] at h
    subst h
    simp [countVerdict, countMutants]
  | cons o os ih =>
    simp only [LabOutcome.addAll] at h
    cases ha : l.add o with
    | none => rw [ha] at h; simp at h
    | some l1 =>
      rw [ha] at h
      have h1 := add_spec ha
      have h2 := ih h
      have e1 : countMutants (o :: os) = countMutants [o] + countMutants os := by
        simp only [countMutants, List.countP_cons, List.countP_nil]; omega
      have e2 : ∀ v, countVerdict v (o :: os) = countVerdict v [o] + countVerdict v os := by
        intro v; simp only [countVerdict, List.countP_cons, List.countP_nil]; omega
      refine ⟨by simp [h2.1, h1.1], ?_, ?_, ?_, ?_, ?_, ?_, ?_⟩
      · omega
      · rw [e2]; omega
      · rw [e2]; omega
      · rw [e2]; omega
      · rw [e2]; omega
      · rw [e2]; omega
      · intro x hx
        rcases List.mem_cons.1 hx with rfl | hx
        · exact h1.2.2.2.2.2.2.2
        · exact h2.2.2.2.2.2.2.2 x hx

theorem anyM_eq_some {α} {f : α → Option Bool} {l : List α} {b : Bool}
    (h : LabOutcome.anyM f l = some b) : b = true ↔ ∃ a ∈ l, f a = some true := by
  induction l with
  | nil => simp only [LabOutcome.anyM, Option.some.injEq] at h; subst h; simp
  | cons a l ih =>
    simp only [LabOutcome.anyM] at h
    cases hf : f a with
    | none => rw [hf] at h; simp at h
    | some b' =>
      rw [hf] at h
      cases b' with
      | true => simp at h; subst h; simp [hf]
      | false =>
        have := ih (by simpa using h)
        rw [this]; simp [hf]

theorem anyM_isSome {α} {f : α → Option Bool} {l : List α} (h : ∀ a ∈ l, f a ≠ none) :
    ∃ b, LabOutcome.anyM f l = some b := by
  induction l with
  | nil => exact ⟨false, rfl⟩
  | cons a l ih =>
    cases hf : f a with
    | none => exact absurd hf (h a (by simp))
    | some b' =>
      cases b' with
      | true => exact ⟨true, by simp [LabOutcome.anyM, hf]⟩
      | false =>
        obtain ⟨b, hb⟩ := ih fun a ha => h a (by simp [ha])
        exact ⟨b, by simpa [LabOutcome.anyM, hf] using hb⟩

theorem runPhases_ne_nil {r : Phase → Option PhaseResult} {ps prs} (h : runPhases r ps = some prs)
    (hps : ps ≠ []) : prs ≠ [] := by
  cases ps with
  | nil => exact absurd rfl hps
  | cons p ps =>
    simp only [runPhases] at h
    split at h
    · cases h
    · split at h
      · cases hr : runPhases r ps with
        | none => rw [hr] at h; simp at h
        | some q => rw [hr] at h; simp at h; subst h; simp
      · cases h; simp

end CM
