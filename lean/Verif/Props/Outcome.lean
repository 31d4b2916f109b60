import Verif.Proofs.Outcome
/-! Properties C09, C10, C11, C12, C34: phases, verdicts, counts and the exit code. -/
namespace CM.Props
open CM

/-- A mutant used in the concrete cases below. -/
def sampleMutant : Mutant where
  sourceFile := { package := ⟨"p".toList, "0.1.0".toList, [], []⟩,
                  path := ["src".toList, "lib.rs".toList], code := "fn f() -> bool { a() }\n".toList,
                  isTop := true }
  function := some ⟨"f".toList, "-> bool".toList, ⟨⟨1, 1⟩, ⟨1, 23⟩⟩⟩
  span := ⟨⟨1, 18⟩, ⟨1, 21⟩⟩
  replacement := "true".toList
  genre := .fnValue

/-! ### C34 -/

/-- C34: which commands a scenario runs, and when it stops. The results are those of a non-empty
prefix of the requested phases in order; all but the last are successes; and the scenario stops
before the end of the phases exactly if its last result is not a success. -/
theorem C34_phases_in_order (checkOnly : Bool) (result : Phase → Option PhaseResult)
    (prs : List PhaseResult) (h : runPhases result (phasesFor checkOnly) = some prs)
    (hphase : ∀ p r, result p = some r → r.phase = p) :
    (∃ rest, phasesFor checkOnly = prs.map (·.phase) ++ rest ∧
      ∃ last, prs.getLast? = some last ∧ (rest ≠ [] → last.status ≠ .success)) ∧
    (∀ pr ∈ prs.dropLast, pr.status = .success) ∧
    (∀ pr ∈ prs, result pr.phase = some pr) := by
  have hi : ∀ e : Exit, e.isSuccess = true ↔ e = .success := by intro e; cases e <;> simp [Exit.isSuccess]
  cases checkOnly
  · rw [show phasesFor false = [.build, .test] from rfl] at h
    simp only [runPhases] at h
    cases hb : result .build with
    | none => rw [hb] at h; simp at h
    | some b =>
      rw [hb] at h
      have hbp := hphase _ _ hb
      by_cases hbs : b.status.isSuccess = true
      · simp only [hbs, if_true] at h
        cases ht : result .test with
        | none => rw [ht] at h; simp at h
        | some t =>
          rw [ht] at h
          have htp := hphase _ _ ht
          have hprs : prs = [b, t] := by
            by_cases hts : t.status.isSuccess = true <;> simp [hts] at h <;> exact h.symm
          subst hprs
          refine ⟨⟨[], by simp [phasesFor, hbp, htp], t, by simp, by simp⟩, ?_, ?_⟩
          · simp [(hi _).1 hbs]
          · simp [hbp, htp, hb, ht]
      · simp only [hbs] at h
        simp at h
        subst h
        refine ⟨⟨[.test], by simp [phasesFor, hbp], b, by simp, ?_⟩, by simp, by simp [hbp, hb]⟩
        intro _ hc; exact hbs ((hi _).2 hc)
  · rw [show phasesFor true = [.check] from rfl] at h
    simp only [runPhases] at h
    cases hb : result .check with
    | none => simp [hb] at h
    | some b =>
      have hbp := hphase _ _ hb
      have hprs : prs = [b] := by
        by_cases hbs : b.status.isSuccess = true <;> simp [hb, hbs] at h <;> exact h.symm
      subst hprs
      exact ⟨⟨[], by simp [phasesFor, hbp], b, by simp, by simp⟩, by simp, by simp [hbp, hb]⟩

example : runPhases
      (fun p => some ⟨p, 1, if p = .build then .failure 101 else .success, []⟩)
      (phasesFor false) = some [⟨.build, 1, .failure 101, []⟩] ∧
    runPhases (fun p => some ⟨p, 1, .success, []⟩) (phasesFor false) =
      some [⟨.build, 1, .success, []⟩, ⟨.test, 1, .success, []⟩] := by decide

/-! ### C09 -/

/-- C09: the meaning of a child's exit status. -/
theorem C09_exit_status (s : ExitStatus) :
    (Exit.ofStatus s = .success ↔ s.code = some 0) ∧
    (∀ c, Exit.ofStatus s = .failure c ↔ s.code = some c ∧ c ≠ 0) ∧
    Exit.ofStatus s ≠ .timeout ∧
    (∀ k, Exit.ofStatus s = .signalled k ↔ s.code = none ∧ s.signal = some k) := by
  obtain ⟨code, signal⟩ := s
  unfold Exit.ofStatus
  cases code with
  | none => cases signal <;> simp
  | some c =>
    by_cases hc : c = 0
    · simp [hc, eq_comm]
    · simp only [hc, if_false]
      refine ⟨by simp [hc], ?_, by simp, by simp⟩
      intro d; constructor
      · intro h; cases h; exact ⟨rfl, hc⟩
      · rintro ⟨h, _⟩; cases h; rfl

/-- C09: the verdict on a mutant, in terms of what its cargo commands resulted in. `r p` is the
result of the command of phase `p`. -/
theorem C09_verdict (m : Mutant) (checkOnly : Bool) (result : Phase → PhaseResult)
    (hphase : ∀ p, (result p).phase = p) (prs : List PhaseResult)
    (h : runPhases (fun p => some (result p)) (phasesFor checkOnly) = some prs) :
    let r := fun p => (result p).status
    let first := if checkOnly then r .check else r .build
    let v := (ScenarioOutcome.mk (.mutant m) prs).summary
    (v = some .unviable ↔ ∃ c, first = .failure c) ∧
    (v = some .timeout ↔
      first = .timeout ∨ (checkOnly = false ∧ r .build = .success ∧ r .test = .timeout)) ∧
    (v = some .caughtMutant ↔
      checkOnly = false ∧ r .build = .success ∧ ∃ c, r .test = .failure c) ∧
    (v = some .missedMutant ↔ checkOnly = false ∧ r .build = .success ∧ r .test = .success) ∧
    (v = some .success ↔ checkOnly = true ∧ r .check = .success) ∧
    v ≠ none := by
  have hc := hphase .check
  have hb := hphase .build
  have ht := hphase .test
  intro r first v
  subst r first v
  cases checkOnly
  · rw [show phasesFor false = [.build, .test] from rfl] at h
    simp only [runPhases] at h
    cases hbs : (result .build).status <;> cases hts : (result .test).status <;>
      simp [hbs, hts, Exit.isSuccess] at h <;> subst h <;>
      simp [ScenarioOutcome.summary, ScenarioOutcome.checkOrBuildFailed, ScenarioOutcome.hasTimeout,
        ScenarioOutcome.mutantCaught, ScenarioOutcome.mutantMissed, ScenarioOutcome.success,
        ScenarioOutcome.lastPhase, ScenarioOutcome.lastPhaseResult, Scenario.isMutant,
        Exit.isSuccess, Exit.isTimeout, Exit.isFailure, hb, ht, hbs, hts]
  · rw [show phasesFor true = [.check] from rfl] at h
    simp only [runPhases] at h
    cases hcs : (result .check).status <;>
      simp [hcs, Exit.isSuccess] at h <;> subst h <;>
      simp [ScenarioOutcome.summary, ScenarioOutcome.checkOrBuildFailed, ScenarioOutcome.hasTimeout,
        ScenarioOutcome.mutantCaught, ScenarioOutcome.mutantMissed, ScenarioOutcome.success,
        ScenarioOutcome.lastPhase, ScenarioOutcome.lastPhaseResult, Scenario.isMutant,
        Exit.isSuccess, Exit.isTimeout, Exit.isFailure, hc, hcs]

example : (ScenarioOutcome.mk (.mutant sampleMutant)
    [⟨.build, 1, .success, []⟩, ⟨.test, 1, .failure 101, []⟩]).summary = some .caughtMutant := by
  decide

/-! ### C10 -/

/-- Specification: the number of outcomes in `os` that are of mutants and have verdict `v`. -/
def numberWith (v : SummaryOutcome) (os : List ScenarioOutcome) : Nat :=
  (os.filter fun o => o.scenario.isMutant && decide (o.summary = some v)).length

theorem numberWith_eq (v os) : numberWith v os = countVerdict v os := by
  unfold numberWith countVerdict
  rw [List.countP_eq_length_filter]
  congr 2
  funext o
  congr 1
  rw [Bool.eq_iff_iff]
  simp

/-- C10: after recording any sequence of outcomes the counters are the true counts. -/
theorem C10_counts (os : List ScenarioOutcome) (l : LabOutcome)
    (h : LabOutcome.addAll {} os = some l) :
    l.outcomes = os ∧
    l.totalMutants = (os.filter (·.scenario.isMutant)).length ∧
    l.missed = numberWith .missedMutant os ∧
    l.caught = numberWith .caughtMutant os ∧
    l.timeout = numberWith .timeout os ∧
    l.unviable = numberWith .unviable os ∧
    l.success = numberWith .success os := by
  have := addAll_spec h
  simp only [numberWith_eq]
  simp only [List.nil_append, Nat.zero_add] at this
  refine ⟨this.1, ?_, this.2.2.1, this.2.2.2.1, this.2.2.2.2.1, this.2.2.2.2.2.1, this.2.2.2.2.2.2.1⟩
  rw [this.2.1, countMutants, List.countP_eq_length_filter]

/-- C10: the total is the sum of the verdicts' counts (including unclassified failures). -/
theorem C10_total_is_sum (os : List ScenarioOutcome) (l : LabOutcome)
    (h : LabOutcome.addAll {} os = some l) :
    l.totalMutants = l.missed + l.caught + l.timeout + l.unviable + l.success +
      numberWith .failure os := by
  obtain ⟨h0, h1, h2, h3, h4, h5, h6⟩ := C10_counts os l h
  have hs := (addAll_spec h).2.2.2.2.2.2.2
  rw [h1, h2, h3, h4, h5, h6]
  simp only [numberWith_eq]
  clear h h0 h1 h2 h3 h4 h5 h6
  induction os with
  | nil => rfl
  | cons o os ih =>
    have ih := ih fun x hx => hs x (by simp [hx])
    simp only [countVerdict_cons, List.filter_cons]
    by_cases hm : o.scenario.isMutant = true
    · have := hs o (by simp) hm
      cases hsum : o.summary with
      | none => exact absurd hsum this
      | some v => cases v <;> simp [hm] <;> omega
    · simp [hm]; omega

/-- Recording never fails for outcomes with at least one phase result. -/
theorem C10_recording_total (os : List ScenarioOutcome) (hne : ∀ o ∈ os, o.phaseResults ≠ [])
    (l : LabOutcome) : ∃ l', l.addAll os = some l' := by
  induction os generalizing l with
  | nil => exact ⟨l, rfl⟩
  | cons o os ih =>
    have : ∃ l1, l.add o = some l1 := by
      have ho := hne o (by simp)
      unfold LabOutcome.add
      split
      · have : ∃ s, o.summary = some s := by
          obtain ⟨sc, prs⟩ := o
          have hl : ∃ pr, prs.getLast? = some pr := by
            cases h : prs.getLast? with
            | none => simp [List.getLast?_eq_none_iff] at h; exact absurd h ho
            | some pr => exact ⟨pr, rfl⟩
          obtain ⟨pr, hl⟩ := hl
          cases sc with
          | baseline => simp_all [Scenario.isMutant]
          | mutant m =>
            simp only [ScenarioOutcome.summary, ScenarioOutcome.mutantCaught,
              ScenarioOutcome.mutantMissed, ScenarioOutcome.success, ScenarioOutcome.lastPhase,
              ScenarioOutcome.lastPhaseResult, hl]
            split
            · exact ⟨_, rfl⟩
            · split
              · exact ⟨_, rfl⟩
              · simp only [Scenario.isMutant, if_true, Option.map_some, Option.bind_eq_bind,
                  Option.bind_some, Option.pure_def]
                split
                · exact ⟨_, rfl⟩
                · split <;> exact ⟨_, rfl⟩
        obtain ⟨s, hs⟩ := this
        rw [hs]
        simp
      · exact ⟨_, rfl⟩
    obtain ⟨l1, h1⟩ := this
    obtain ⟨l2, h2⟩ := ih (fun x hx => hne x (by simp [hx])) l1
    exact ⟨l2, by simp [LabOutcome.addAll, h1, h2]⟩

/-- A passing baseline and a missed mutant. -/
def sampleOutcomes : List ScenarioOutcome :=
  [⟨.baseline, [⟨.build, 1, .success, []⟩]⟩,
   ⟨.mutant sampleMutant, [⟨.build, 1, .success, []⟩, ⟨.test, 1, .success, []⟩]⟩]

example : LabOutcome.addAll {} sampleOutcomes =
    some { outcomes := sampleOutcomes, totalMutants := 1, missed := 1 } := by decide

/-! ### C11 -/

/-- The baseline was run and did not pass. -/
def BaselineFailed (os : List ScenarioOutcome) : Prop :=
  ∃ o ∈ os, o.scenario = .baseline ∧ ∃ pr, o.phaseResults.getLast? = some pr ∧ pr.status ≠ .success

/-- Some mutant has verdict `v`. -/
def SomeMutant (v : SummaryOutcome) (os : List ScenarioOutcome) : Prop :=
  ∃ o ∈ os, (∃ m, o.scenario = .mutant m) ∧ o.summary = some v

theorem numberWith_pos (v os) : 0 < numberWith v os ↔ SomeMutant v os := by
  unfold numberWith SomeMutant
  rw [List.length_pos_iff_exists_mem]
  have : ∀ o : ScenarioOutcome, o.scenario.isMutant = true ↔ ∃ m, o.scenario = .mutant m := by
    intro o; cases o.scenario <;> simp [Scenario.isMutant]
  simp [this]

/-- C11: the exit code of a run that recorded the outcomes `os`. -/
theorem C11_exit_code (os : List ScenarioOutcome) (l : LabOutcome) (code : Nat)
    (h : LabOutcome.addAll {} os = some l) (hc : l.exitCode = some code) :
    (code = 4 ↔ BaselineFailed os) ∧
    (code = 3 ↔ ¬ BaselineFailed os ∧ SomeMutant .timeout os) ∧
    (code = 2 ↔ ¬ BaselineFailed os ∧ ¬ SomeMutant .timeout os ∧ SomeMutant .missedMutant os) ∧
    (code = 0 ↔ ¬ BaselineFailed os ∧ ¬ SomeMutant .timeout os ∧ ¬ SomeMutant .missedMutant os) := by
  obtain ⟨h0, _, hm, _, ht, _, _⟩ := C10_counts os l h
  have e1 := numberWith_pos .timeout os
  have e2 := numberWith_pos .missedMutant os
  rw [← ht] at e1
  rw [← hm] at e2
  unfold LabOutcome.exitCode at hc
  rw [h0] at hc
  cases hany : LabOutcome.anyM
    (fun o => if o.scenario.isMutant then some false else o.success.map (!·)) os with
  | none => rw [hany] at hc; simp at hc
  | some b =>
    have hb := anyM_eq_some hany
    have e3 : b = true ↔ BaselineFailed os := by
      rw [hb]
      unfold BaselineFailed
      constructor
      · rintro ⟨o, ho, hf⟩
        refine ⟨o, ho, ?_⟩
        obtain ⟨sc, prs⟩ := o
        cases sc with
        | mutant m => simp [Scenario.isMutant] at hf
        | baseline =>
          refine ⟨rfl, ?_⟩
          cases hl : prs.getLast? with
          | none => simp [Scenario.isMutant, ScenarioOutcome.success, ScenarioOutcome.lastPhaseResult, hl] at hf
          | some pr =>
            refine ⟨pr, rfl, ?_⟩
            intro hs
            simp [Scenario.isMutant, ScenarioOutcome.success, ScenarioOutcome.lastPhaseResult, hl, hs,
              Exit.isSuccess] at hf
      · rintro ⟨o, ho, hsc, pr, hl, hne⟩
        refine ⟨o, ho, ?_⟩
        cases hs : pr.status <;>
          simp_all [Scenario.isMutant, ScenarioOutcome.success, ScenarioOutcome.lastPhaseResult, Exit.isSuccess]
    rw [hany] at hc
    rw [← e1, ← e2, ← e3]
    simp only [Option.bind_eq_bind, Option.bind_some] at hc
    cases b
    · simp only [Bool.false_eq_true, if_false] at hc
      by_cases t : l.timeout > 0
      · simp [t] at hc; subst hc; simp [t]
      · by_cases u : l.missed > 0
        · simp [t, u] at hc; subst hc; simp [t, u]
        · simp [t, u] at hc; subst hc; simp [t, u]
    · simp at hc; subst hc; simp

/-- C11: the exit code does not depend on the order in which the scenarios finished. -/
theorem C11_order_independent (os os' : List ScenarioOutcome) (hp : os.Perm os') (l l' : LabOutcome)
    (c c' : Nat) (h : LabOutcome.addAll {} os = some l) (h' : LabOutcome.addAll {} os' = some l')
    (hc : l.exitCode = some c) (hc' : l'.exitCode = some c') : c = c' := by
  have i := C11_exit_code os l c h hc
  have i' := C11_exit_code os' l' c' h' hc'
  have e1 : BaselineFailed os ↔ BaselineFailed os' := by
    unfold BaselineFailed; simp [hp.mem_iff]
  have e2 : ∀ v, SomeMutant v os ↔ SomeMutant v os' := by
    intro v; unfold SomeMutant; simp [hp.mem_iff]
  rw [← e1, ← e2, ← e2] at i'
  by_cases a : BaselineFailed os
  · rw [i.1.2 a, i'.1.2 a]
  · by_cases b : SomeMutant .timeout os
    · rw [i.2.1.2 ⟨a, b⟩, i'.2.1.2 ⟨a, b⟩]
    · by_cases d : SomeMutant .missedMutant os
      · rw [i.2.2.1.2 ⟨a, b, d⟩, i'.2.2.1.2 ⟨a, b, d⟩]
      · rw [i.2.2.2.2 ⟨a, b, d⟩, i'.2.2.2.2 ⟨a, b, d⟩]

/-- The exit code is defined whenever every outcome has a phase result. -/
theorem C11_exit_code_defined (os : List ScenarioOutcome) (l : LabOutcome)
    (h : LabOutcome.addAll {} os = some l) (hne : ∀ o ∈ os, o.phaseResults ≠ []) :
    ∃ c, l.exitCode = some c := by
  have h0 := (C10_counts os l h).1
  unfold LabOutcome.exitCode
  rw [h0]
  have : ∃ b, LabOutcome.anyM
      (fun o => if o.scenario.isMutant then some false else o.success.map (!·)) os = some b := by
    apply anyM_isSome
    intro o ho
    have := hne o ho
    cases hl : o.phaseResults.getLast? with
    | none => simp [List.getLast?_eq_none_iff] at hl; exact absurd hl this
    | some pr => simp [ScenarioOutcome.success, ScenarioOutcome.lastPhaseResult, hl]; split <;> simp
  obtain ⟨b, hb⟩ := this
  rw [hb]
  simp only [Option.bind_eq_bind, Option.bind_some]
  split
  · exact ⟨_, rfl⟩
  · split
    · exact ⟨_, rfl⟩
    · split <;> exact ⟨_, rfl⟩

example : BaselineFailed [⟨.baseline, [⟨.build, 1, .failure 101, []⟩]⟩] :=
  ⟨_, List.mem_singleton.2 rfl, rfl, _, rfl, by decide⟩
example : SomeMutant .timeout [⟨.mutant sampleMutant, [⟨.build, 1, .success, []⟩, ⟨.test, 9, .timeout, []⟩]⟩] :=
  ⟨_, List.mem_singleton.2 rfl, ⟨_, rfl⟩, by decide⟩

/-! ### C12 -/

/-- `o` is the outcome of a mutant whose commands were run by the phase loop. -/
def Executed (checkOnly : Bool) (o : ScenarioOutcome) : Prop :=
  ∃ (m : Mutant) (result : Phase → PhaseResult), o.scenario = .mutant m ∧
    (∀ p, (result p).phase = p) ∧
    runPhases (fun p => some (result p)) (phasesFor checkOnly) = some o.phaseResults

/-- Full statement of C12: exit code 0 of a test run means that all mutants were caught or
unviable. -/
def ZeroMeansCaught : Prop :=
  ∀ os l, LabOutcome.addAll {} os = some l → (∀ o ∈ os, Executed false o) → l.exitCode = some 0 →
    ∀ o ∈ os, o.summary = some .caughtMutant ∨ o.summary = some .unviable

/-- The outcome of a mutant whose test command was killed by a signal. -/
def killedOutcome : ScenarioOutcome :=
  ⟨.mutant sampleMutant, [⟨.build, 1, .success, []⟩, ⟨.test, 1, .signalled 9, []⟩]⟩

/-- The full statement fails: a test command killed by a signal leads to exit code 0 although the
mutant is neither caught nor unviable. -/
theorem C12_zero_means_caught_false : ¬ ZeroMeansCaught := by
  intro h
  have hl : LabOutcome.addAll {} [killedOutcome] =
      some { outcomes := [killedOutcome], totalMutants := 1 } := by decide
  have := h [killedOutcome] _ hl ?_ (by decide) killedOutcome (by simp)
  · revert this; decide
  · intro o ho
    simp at ho; subst ho
    refine ⟨sampleMutant,
      fun p => ⟨p, 1, if p = .test then .signalled 9 else .success, []⟩, rfl, by intro p; rfl, by decide⟩

/-- C12 when no command was killed by a signal or ended in an unknown way. Missing: those cases, for
which the full statement is false. -/
theorem C12_zero_means_caught_partial (os : List ScenarioOutcome) (l : LabOutcome)
    (h : LabOutcome.addAll {} os = some l) (hex : ∀ o ∈ os, Executed false o)
    (hsig : ∀ o ∈ os, ∀ pr ∈ o.phaseResults, pr.status ≠ .other ∧ ∀ k, pr.status ≠ .signalled k)
    (hc : l.exitCode = some 0) :
    ∀ o ∈ os, o.summary = some .caughtMutant ∨ o.summary = some .unviable := by
  intro o ho
  obtain ⟨_, nt, nm⟩ := (C11_exit_code os l 0 h hc).2.2.2.1 rfl
  obtain ⟨m, result, hsc, hph, hrun⟩ := hex o ho
  have hv := C09_verdict m false result hph o.phaseResults hrun
  have ho' : (ScenarioOutcome.mk (.mutant m) o.phaseResults) = o := by cases o; simp_all
  simp only [ho'] at hv
  obtain ⟨v1, v2, v3, v4, v5, v6⟩ := hv
  have nt' : o.summary ≠ some .timeout := fun hh => nt ⟨o, ho, ⟨m, hsc⟩, hh⟩
  have nm' : o.summary ≠ some .missedMutant := fun hh => nm ⟨o, ho, ⟨m, hsc⟩, hh⟩
  have hs := hsig o ho
  rw [show phasesFor false = [.build, .test] from rfl] at hrun
  simp only [runPhases] at hrun
  cases hb : (result .build).status <;> simp [hb, Exit.isSuccess] at hrun
  · cases ht : (result .test).status
    all_goals (rw [← hrun] at hs)
    · exact absurd (v4.2 ⟨trivial, hb, ht⟩) nm'
    · exact .inl (v3.2 ⟨trivial, hb, _, ht⟩)
    · exact absurd (v2.2 (.inr ⟨trivial, hb, ht⟩)) nt'
    · exact absurd ht ((hs _ (by simp)).2 _)
    · exact absurd ht (hs _ (by simp)).1
  all_goals (rw [← hrun] at hs)
  · exact .inr (v1.2 ⟨_, by simpa using hb⟩)
  · exact absurd (v2.2 (.inl (by simpa using hb))) nt'
  · exact absurd hb ((hs _ (by simp)).2 _)
  · exact absurd hb (hs _ (by simp)).1

example : Executed false ⟨.mutant sampleMutant,
    [⟨.build, 1, .success, []⟩, ⟨.test, 1, .failure 101, []⟩]⟩ ∧
    LabOutcome.exitCode { outcomes := [⟨.mutant sampleMutant,
      [⟨.build, 1, .success, []⟩, ⟨.test, 1, .failure 101, []⟩]⟩], totalMutants := 1, caught := 1 } =
      some 0 := by
  refine ⟨⟨sampleMutant, fun p => ⟨p, 1, if p = .test then .failure 101 else .success, []⟩, rfl,
    by intro p; rfl, by decide⟩, by decide⟩

end CM.Props
