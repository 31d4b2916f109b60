import Verif.Spec.Message
import Verif.Proofs.LabPrint
import Verif.Props.Lab
import Verif.Props.Summary
import Verif.Props.Name
/-! Properties C69 and C70: what is printed during a run. -/
namespace CM.Props
open CM CM.Spec CM.Lab

theorem padTo_heading (v : SummaryOutcome) : padTo 8 v.printed ++ " ".toList = heading v := by cases v <;> decide

theorem styled_calledAs (sc : Scenario) : sc.styled = calledAs sc := by
  cases sc with
  | baseline => rfl
  | mutant m => exact styled_eq_name m

theorem times_eq (opts : PrintOptions) (o : ScenarioOutcome) :
    o.times opts = if opts.showTimes then " in ".toList ++ timesOf opts.secs o.phaseResults else [] := by
  unfold ScenarioOutcome.times
  split
  · congr 1
    induction o.phaseResults with
    | nil => rfl
    | cons r rs ih =>
      have hr : r.phase.name = phaseWord r.phase := by cases r.phase <;> rfl
      rw [List.map_cons]
      cases rs with
      | nil => simp only [List.map_nil, joinWith, timesOf, hr]; simp
      | cons r' rs => 
        rw [List.map_cons] at ih ⊢
        rw [joinWith, ih, hr]
        rw [timesOf.eq_2 opts.secs r (r' :: rs), if_neg (by simp)]
        simp [List.append_assoc]
  · rfl

/-- The verdict decides whether something is printed and whether the log is. -/
theorem shown_of_verdict (o : ScenarioOutcome) (checkOnly : Bool) (result : Phase → PhaseResult)
    (hphase : ∀ p, (result p).phase = p)
    (h : runPhases (fun p => some (result p)) (phasesFor checkOnly) = some o.phaseResults)
    (v : SummaryOutcome) (hv : o.summary = some v) :
    o.mutantCaught = some (v == .caughtMutant) ∧ (o.scenario.isMutant && o.checkOrBuildFailed) = (v == .unviable) ∧
    (o.scenario = .baseline → (o.success != some true) = (v != .success)) := by
  obtain ⟨sc, prs⟩ := o
  have hc := hphase .check
  have hb := hphase .build
  have ht := hphase .test
  simp only at h
  cases checkOnly
  · rw [show phasesFor false = [.build, .test] from rfl] at h
    simp only [runPhases] at h
    cases sc <;> cases hbs : (result .build).status <;> cases hts : (result .test).status <;>
      simp [hbs, hts, Exit.isSuccess] at h <;> subst h <;>
      simp [ScenarioOutcome.summary, ScenarioOutcome.checkOrBuildFailed, ScenarioOutcome.hasTimeout,
        ScenarioOutcome.mutantCaught, ScenarioOutcome.mutantMissed, ScenarioOutcome.success,
        ScenarioOutcome.lastPhase, ScenarioOutcome.lastPhaseResult, Scenario.isMutant,
        Exit.isSuccess, Exit.isTimeout, Exit.isFailure, hb, ht, hbs, hts] at hv ⊢ <;> subst hv <;>
      first | decide | exact ⟨by decide, by decide, rfl⟩
  · rw [show phasesFor true = [.check] from rfl] at h
    simp only [runPhases] at h
    cases sc <;> cases hcs : (result .check).status <;>
      simp [hcs, Exit.isSuccess] at h <;> subst h <;>
      simp [ScenarioOutcome.summary, ScenarioOutcome.checkOrBuildFailed, ScenarioOutcome.hasTimeout,
        ScenarioOutcome.mutantCaught, ScenarioOutcome.mutantMissed, ScenarioOutcome.success,
        ScenarioOutcome.lastPhase, ScenarioOutcome.lastPhaseResult, Scenario.isMutant,
        Exit.isSuccess, Exit.isTimeout, Exit.isFailure, hc, hcs] at hv ⊢ <;> subst hv <;>
      first | decide | exact ⟨by decide, by decide, rfl⟩

/-- C69: what is printed when a scenario is finished: a line with its verdict and its name, and the times if asked
for, and the log of a baseline that failed or if asked for; but nothing about caught or unviable mutants unless
that is asked for. -/
theorem C69_message (opts : PrintOptions) (o : ScenarioOutcome) (checkOnly : Bool) (result : Phase → PhaseResult)
    (hphase : ∀ p, (result p).phase = p)
    (h : runPhases (fun p => some (result p)) (phasesFor checkOnly) = some o.phaseResults)
    (hn : calledAs o.scenario ≠ none) : o.message opts = some (reportOf opts o) := by
  obtain ⟨name, hn⟩ := Option.ne_none_iff_exists'.1 hn
  have hne : o.phaseResults ≠ [] := by
    intro h0
    rw [h0] at h
    cases checkOnly <;> simp only [phasesFor, runPhases, if_true, Bool.false_eq_true, if_false] at h
    all_goals
      simp at h
      try (split at h <;> simp at h)
  obtain ⟨v, hv⟩ := summary_some o hne
  unfold reportOf
  rw [hv, hn]
  dsimp only
  obtain ⟨h1, h2, h3⟩ := shown_of_verdict o checkOnly result hphase h v hv
  have hhid : o.hidden opts = some (!Shown opts v) := by
    unfold ScenarioOutcome.hidden
    rw [h1, h2]
    cases v <;> simp only [Shown, Option.map_some] <;> cases opts.printCaught <;> cases opts.printUnviable <;> rfl
  have hlog : (o.showsLog opts = true) ↔ ((o.scenario = .baseline ∧ v ≠ .success) ∨ opts.showAllLogs = true) := by
    unfold ScenarioOutcome.showsLog
    cases hsc : o.scenario with
    | mutant m => simp [Scenario.isMutant]
    | baseline => simp [Scenario.isMutant, h3 hsc]
  unfold ScenarioOutcome.message
  simp only [hv, hhid, styled_calledAs, hn, times_eq, Option.bind_eq_bind, Option.bind_some, Option.pure_def, ← padTo_heading]
  cases hs : Shown opts v
  · simp
  · simp only [Bool.not_true, Bool.false_eq_true, if_false, if_true]
    congr 3
    by_cases hl : o.showsLog opts = true
    · rw [if_pos hl, if_pos (hlog.1 hl)]
    · rw [if_neg hl, if_neg (fun h => hl (hlog.2 h))]

example : ScenarioOutcome.message { showTimes := true, secs := fun n => decimal n ++ "s".toList }
      ⟨.mutant sampleMutant, [⟨.build, 2, .success, []⟩, ⟨.test, 3, .success, []⟩]⟩ =
    some (some "MISSED   src/lib.rs:1:18: replace f -> bool with true in 2s build + 3s test\n".toList) := by decide +kernel

theorem foundMessage_eq (n : Nat) : foundMessage n = foundLine n ++ "\n".toList := by
  unfold foundMessage foundLine plural
  split
  · rename_i h; subst h; decide
  · simp [List.append_assoc]

theorem messages_eq {cfg : Lab.Config} {s : State} (h : Reachable cfg s) (hnames : ∀ m ∈ cfg.mutants, m.name true ≠ none)
    (told : List ScenarioOutcome) (ht : ∀ o ∈ told, o ∈ s.sh.out.lab.outcomes) :
    messages cfg.print told = told.filterMap (reportOf cfg.print) := by
  have hrec := reachable_records h
  have hmem : ∀ o ∈ s.sh.out.lab.outcomes, calledAs o.scenario ≠ none := by
    intro o ho
    cases hsc : o.scenario with
    | baseline => exact Option.some_ne_none _
    | mutant m =>
      obtain ⟨lost, h1, _⟩ := hrec.account
      refine hnames m (h1.subset ?_)
      simp only [List.mem_append]
      exact .inl (.inl (.inl (List.mem_filterMap.2 ⟨o, ho, by rw [hsc]⟩)))
  unfold messages
  induction told with
  | nil => rfl
  | cons o told ih =>
    obtain ⟨result, h1, h2⟩ := complete_executed (hrec.complete o (ht o (by simp)))
    have := C69_message cfg.print o cfg.checkOnly result h1 h2 (hmem o (ht o (by simp)))
    rw [List.filterMap_cons, List.filterMap_cons, this, ih fun o ho => ht o (by simp [ho])]
    rfl

/-- C69: at every moment of a run, whatever fails, nothing has been printed yet, or the first line and what is said
about some of the recorded outcomes, about each once; and if testing has ended, the last line. -/
theorem C69_only_recorded (cfg : Lab.Config) (s : State) (h : Reachable cfg s) (hnames : ∀ m ∈ cfg.mutants, m.name true ≠ none) :
    s.sh.stdout = [] ∨ ∃ told untold, s.sh.out.lab.outcomes.Perm (told ++ untold) ∧
      (s.sh.stdout = (foundLine cfg.mutants.length ++ "\n".toList) :: told.filterMap (reportOf cfg.print) ∨
        ∃ l, s.main = .returned (some l) ∧ s.sh.stdout = (foundLine cfg.mutants.length ++ "\n".toList) ::
          told.filterMap (reportOf cfg.print) ++
          [l.summaryString (if cfg.print.showTimes then some cfg.print.elapsed else none) ++ "\n".toList]) := by
  have hp := reachable_printed h
  have tell : Telling cfg s → ∃ told untold, s.sh.out.lab.outcomes.Perm (told ++ untold) ∧
      s.sh.stdout = (foundLine cfg.mutants.length ++ "\n".toList) :: told.filterMap (reportOf cfg.print) := by
    rintro ⟨told, lost, h1, h2, _⟩
    refine ⟨told, s.workers.filterMap Pc.untold ++ lost, by rwa [List.append_assoc] at h2, ?_⟩
    rw [h1, foundMessage_eq, messages_eq h hnames told fun o ho => h2.symm.subset (by simp [ho])]
  unfold Printed at hp
  cases hmain : s.main with
  | setup => rw [hmain] at hp; exact .inl hp
  | preparing | baseline | testing =>
    rw [hmain] at hp
    obtain ⟨told, untold, h1, h2⟩ := tell hp
    exact .inr ⟨told, untold, h1, .inl h2⟩
  | returned r =>
    rw [hmain] at hp
    cases r with
    | none =>
      rcases hp with hp | hp
      · exact .inl hp
      · obtain ⟨told, untold, h1, h2⟩ := tell hp
        exact .inr ⟨told, untold, h1, .inl h2⟩
    | some l =>
      have horder := (reachable_records h).order
      rw [hmain] at horder
      rcases hp with ⟨h1, h2, h3⟩ | ⟨hne, told, h1, h2⟩
      · refine .inr ⟨[], s.sh.out.lab.outcomes, List.Perm.refl _, .inl ?_⟩
        rw [h3, h1, foundMessage_eq]; rfl
      · have hl : l = s.sh.out.lab := by
          rcases horder with ⟨h, _⟩ | ⟨h, _⟩
          · exact absurd h hne
          · exact h
        rw [hl] at h1
        have hm := messages_eq h hnames told fun o ho => h1.subset ho
        refine .inr ⟨told, [], by simpa using h1.symm, ?_⟩
        rcases h2 with ⟨h2, _⟩ | ⟨h2, _⟩
        · exact .inl (by rw [h2, hm, foundMessage_eq])
        · exact .inr ⟨l, rfl, by rw [h2, hm, foundMessage_eq]; rfl⟩

/-- C69: a run that ends without error has printed the first line, what is to be said about each recorded outcome, in
some order, and the last line, unless the baseline failed. -/
theorem C69_printed (cfg : Lab.Config) (s : State) (h : Reachable cfg s) (hnames : ∀ m ∈ cfg.mutants, m.name true ≠ none)
    (l : LabOutcome) (hr : s.main = .returned (some l)) (hne : cfg.mutants ≠ []) :
    ∃ told : List ScenarioOutcome, told.Perm l.outcomes ∧
      s.sh.stdout = (foundLine cfg.mutants.length ++ "\n".toList) :: told.filterMap (reportOf cfg.print) ++
        if ∃ o ∈ l.outcomes, o.scenario = .baseline ∧ o.success ≠ some true then []
        else [l.summaryString (if cfg.print.showTimes then some cfg.print.elapsed else none) ++ "\n".toList] := by
  have hp := reachable_printed h
  have horder := (reachable_records h).order
  unfold Printed at hp
  rw [hr] at hp horder
  rcases hp with ⟨h1, _⟩ | ⟨_, told, h1, h2⟩
  · exact absurd h1 hne
  · have hl : l = s.sh.out.lab := by
      rcases horder with ⟨h, _⟩ | ⟨h, _⟩
      · exact absurd h hne
      · exact h
    have hm := messages_eq h hnames told fun o ho => hl ▸ h1.subset ho
    refine ⟨told, h1, ?_⟩
    rcases h2 with ⟨h2, o, h3, h4⟩ | ⟨h2, bs, ms, h3, h4, h5⟩
    · rw [if_pos ⟨o, by rw [h3]; simp, h4⟩, List.append_nil, h2, hm, foundMessage_eq]
    · rw [if_neg, h2, hm, foundMessage_eq]; rfl
      rintro ⟨o, ho, hb, hs⟩
      rw [h3] at ho
      rcases List.mem_append.1 ho with ho | ho
      · split at h5
        · obtain ⟨o', h5, _, h6⟩ := h5
          rw [h5] at ho
          rw [List.mem_singleton.1 ho] at hs
          exact hs h6
        · rw [h5] at ho; cases ho
      · have := h4 o ho
        rw [hb] at this; cases this

/-- The run with two threads. The mutant that is caught is not mentioned. -/
example : ((exec Sample.cfg (init Sample.cfg) Sample.run).map fun s => s.sh.stdout.flatten) =
    some ("Found 2 mutants to test\nok       Unmutated baseline\n" ++
      "MISSED   src/lib.rs:1:18: replace f -> bool with true\n2 mutants tested: 1 missed, 1 caught\n").toList := by
  decide +kernel

/-! ### C70 -/

theorem oneLine_append {a b : Text} (ha : '\n' ∉ a) (hl : a.getLast? ≠ some '\r') (hb : OneLine b) : OneLine (a ++ b) := by
  refine ⟨by simp [ha, hb.1], ?_⟩
  rw [List.getLast?_append]
  cases h : b.getLast? with
  | none => simpa using hl
  | some c => simpa [h] using hb.2

theorem oneLine_heading (v : SummaryOutcome) {n : Text} (h : OneLine n) : OneLine (heading v ++ n) :=
  oneLine_append (by cases v <;> decide) (by cases v <;> decide) h

theorem oneLine_no {t : Text} (h1 : '\n' ∉ t) (h2 : '\r' ∉ t) : OneLine t :=
  ⟨h1, fun h => h2 (List.mem_of_getLast? h)⟩

theorem foundLine_oneLine (n : Nat) : OneLine (foundLine n) := by
  unfold foundLine
  split
  · decide
  · apply oneLine_no <;> simp [not_mem_decimal (n := n) (c := '\n') rfl, not_mem_decimal (n := n) (c := '\r') rfl]

theorem summaryString_no (l : LabOutcome) (c : Char) (hc : c = '\n' ∨ c = '\r') : c ∉ l.summaryString none := by
  have hd : ∀ n, c ∉ decimal n := by
    intro n; rcases hc with rfl | rfl <;> exact not_mem_decimal rfl
  intro h
  unfold LabOutcome.summaryString at h
  simp only [List.mem_append, List.append_nil] at h
  rcases h with (h | h) | h
  · rcases h with h | h
    · unfold plural at h
      split at h <;> simp only [List.mem_append] at h
      · rcases h with (h | h) | h
        · exact hd _ h
        · revert h; rcases hc with rfl | rfl <;> decide
        · revert h; rcases hc with rfl | rfl <;> decide
      · rcases h with ((h | h) | h) | h
        · exact hd _ h
        · revert h; rcases hc with rfl | rfl <;> decide
        · revert h; rcases hc with rfl | rfl <;> decide
        · revert h; rcases hc with rfl | rfl <;> decide
    · revert h; rcases hc with rfl | rfl <;> decide
  · revert h; rcases hc with rfl | rfl <;> decide
  · rcases mem_joinWith h with h | ⟨t, ht, h⟩
    · revert h; rcases hc with rfl | rfl <;> decide
    · have : ∃ n w, t = decimal n ++ w ∧ c ∉ w := by
        unfold LabOutcome.byOutcome at ht
        simp only [List.mem_append] at ht
        rcases ht with (((ht | ht) | ht) | ht) | ht <;> split at ht <;> simp only [List.mem_singleton, List.not_mem_nil] at ht <;>
          exact ⟨_, _, ht, by rcases hc with rfl | rfl <;> decide⟩
      obtain ⟨n, w, rfl, hw⟩ := this
      rcases List.mem_append.1 h with h | h
      · exact hd _ h
      · exact hw h

theorem heading_prefix (v w : SummaryOutcome) (t : Text) : (heading w).isPrefixOf (heading v ++ t) = (w == v) := by
  cases v <;> cases w <;> rfl

theorem decimal_head (n : Nat) (t : Text) (l : ListFile) : (heading (verdictOf l)).isPrefixOf (decimal n ++ t) = false := by
  cases h : decimal n with
  | nil => exact absurd h (decimal_ne_nil' n)
  | cons c cs =>
    have hd : c.isDigit = true := isDigit_of_mem_decimal (n := n) (by simp [h])
    have key : ∀ a : Char, a.isDigit = false → ∀ as : Text, (a :: as).isPrefixOf (c :: cs ++ t) = false := by
      intro a ha as
      have : a ≠ c := fun e => by rw [e, hd] at ha; cases ha
      simp [List.isPrefixOf, this]
    cases l <;> exact key _ rfl _

theorem summaryString_head (l : LabOutcome) (f : ListFile) : (heading (verdictOf f)).isPrefixOf (l.summaryString none) = false := by
  unfold LabOutcome.summaryString plural
  split <;> simp only [List.append_assoc] <;> exact decimal_head _ _ _

theorem foundLine_head (n : Nat) (f : ListFile) : (heading (verdictOf f)).isPrefixOf (foundLine n) = false := by
  unfold foundLine
  split
  · cases f <;> decide
  · rw [List.append_assoc]; cases f <;> rfl

/-- The line about an outcome, when nothing else is asked for. -/
def reportLine (opts : PrintOptions) (o : ScenarioOutcome) : Option Text :=
  match o.summary, calledAs o.scenario with
  | some v, some name => if Shown opts v then some (heading v ++ name) else none
  | _, _ => none

theorem report_line (opts : PrintOptions) (ht : opts.showTimes = false) (hl : opts.showAllLogs = false) (o : ScenarioOutcome)
    (hb : o.scenario = .baseline → o.summary = some .success) :
    reportOf opts o = (reportLine opts o).map (· ++ "\n".toList) := by
  unfold reportOf reportLine
  cases hs : o.summary with
  | none => rfl
  | some v =>
    cases calledAs o.scenario with
    | none => rfl
    | some name =>
      dsimp only
      have : ¬ ((o.scenario = .baseline ∧ v ≠ .success) ∨ opts.showAllLogs = true) := by
        rintro (⟨h1, h2⟩ | h)
        · have := hb h1
          rw [hs] at this
          exact h2 (Option.some.inj this)
        · rw [hl] at h; cases h
      rw [if_neg this, ht]
      split
      · simp
      · rfl

theorem namesWith_baseline {v : SummaryOutcome} {o : ScenarioOutcome} {os : List ScenarioOutcome} (h : o.scenario = .baseline) :
    namesWith v (o :: os) = namesWith v os := by
  unfold namesWith
  rw [List.filterMap_cons, h]

theorem namesWith_mutant {v : SummaryOutcome} {o : ScenarioOutcome} {os : List ScenarioOutcome} {m : Mutant} (h : o.scenario = .mutant m) :
    namesWith v (o :: os) = (if o.summary = some v then (m.name true).toList else []) ++ namesWith v os := by
  unfold namesWith
  rw [List.filterMap_cons, h]
  by_cases hs : o.summary = some v
  · simp only [hs, if_true]
    cases m.name true <;> rfl
  · simp only [hs, if_false]; rfl

theorem lines_with (opts : PrintOptions) (f : ListFile) (os : List ScenarioOutcome)
    (hb : ∀ o ∈ os, o.scenario = .baseline → o.summary = some .success) :
    ((os.filterMap (reportLine opts)).filter (heading (verdictOf f)).isPrefixOf).map (·.drop 9) =
      if Shown opts (verdictOf f) then namesWith (verdictOf f) os else [] := by
  induction os with
  | nil => split <;> rfl
  | cons o os ih =>
    have ih := ih fun o ho => hb o (by simp [ho])
    have hd : ∀ v (t : Text), (heading v ++ t).drop 9 = t := by intro v t; cases v <;> rfl
    have skip : reportLine opts o = none ∨ (∃ v t, reportLine opts o = some (heading v ++ t) ∧ verdictOf f ≠ v) →
        namesWith (verdictOf f) (o :: os) = namesWith (verdictOf f) os ∨ Shown opts (verdictOf f) = false →
        (((o :: os).filterMap (reportLine opts)).filter (heading (verdictOf f)).isPrefixOf).map (·.drop 9) =
          if Shown opts (verdictOf f) then namesWith (verdictOf f) (o :: os) else [] := by
      intro h1 h2
      have : (((o :: os).filterMap (reportLine opts)).filter (heading (verdictOf f)).isPrefixOf) =
          ((os.filterMap (reportLine opts)).filter (heading (verdictOf f)).isPrefixOf) := by
        rcases h1 with h1 | ⟨v, t, h1, h3⟩
        · rw [List.filterMap_cons, h1]
        · rw [List.filterMap_cons, h1]
          dsimp only
          rw [List.filter_cons, heading_prefix, if_neg (by simp [h3])]
      rw [this, ih]
      rcases h2 with h2 | h2
      · rw [h2]
      · rw [h2]; rfl
    cases hsc : o.scenario with
    | baseline =>
      apply skip
      · right
        exact ⟨.success, "Unmutated baseline".toList, by simp [reportLine, hb o (by simp) hsc, hsc, calledAs, Shown], by cases f <;> decide⟩
      · exact .inl (namesWith_baseline hsc)
    | mutant m =>
      have names := namesWith_mutant (v := verdictOf f) (os := os) hsc
      cases hs : o.summary with
      | none => exact skip (.inl (by simp [reportLine, hs])) (.inl (by rw [names, hs]; simp))
      | some v =>
        cases hn : m.name true with
        | none => exact skip (.inl (by simp [reportLine, hs, hsc, calledAs, hn])) (.inl (by rw [names, hn]; simp))
        | some name =>
          by_cases hv : v = verdictOf f
          · subst hv
            cases hsh : Shown opts (verdictOf f) with
            | false => rw [← hsh]; exact skip (.inl (by simp [reportLine, hs, hsc, calledAs, hn, hsh])) (.inr hsh)
            | true =>
              have h1 : reportLine opts o = some (heading (verdictOf f) ++ name) := by simp [reportLine, hs, hsc, calledAs, hn, hsh]
              rw [hsh] at ih
              rw [List.filterMap_cons, h1]
              dsimp only
              rw [List.filter_cons, heading_prefix, if_pos (by simp), List.map_cons, hd, ih, if_pos rfl, if_pos rfl, names, hs, hn]
              simp
          · refine skip ?_ (.inl (by rw [names, hs]; simp [hv]))
            cases hsh : Shown opts v with
            | false => exact .inl (by simp [reportLine, hs, hsc, calledAs, hn, hsh])
            | true => exact .inr ⟨v, name, by simp [reportLine, hs, hsc, calledAs, hn, hsh], fun e => hv e.symm⟩

/-- C70: after a run without error, the lines on standard output that begin with the word for a verdict name, in some order, the
mutants of the list file for that verdict; or there are no such lines, if they were not asked for. -/
theorem C70_lines_agree (cfg : Lab.Config) (s : State) (h : Reachable cfg s) (l : LabOutcome) (hr : s.main = .returned (some l))
    (hplain : cfg.print.showTimes = false ∧ cfg.print.showAllLogs = false)
    (hb : ∀ o ∈ l.outcomes, o.scenario = .baseline → o.success = some true)
    (hnames : ∀ m ∈ cfg.mutants, ∃ n, m.name true = some n ∧ OneLine n) (f : ListFile) :
    (((rustLines s.sh.stdout.flatten).filter (heading (verdictOf f)).isPrefixOf).map (·.drop 9)).Perm
      (if Shown cfg.print (verdictOf f) then rustLines (s.sh.out.get f) else []) := by
  have hrec := reachable_records h
  have hsome : ∀ m ∈ cfg.mutants, m.name true ≠ none := fun m hm => by
    obtain ⟨n, hn, _⟩ := hnames m hm
    rw [hn]; exact Option.some_ne_none _
  have horder := hrec.order
  rw [hr] at horder
  -- the list file
  have hnf : ∀ pc ∈ s.workers, pc.isFailed = false := by
    rcases horder with ⟨h1, _⟩ | ⟨_, h1, _⟩
    · rw [no_mutants_no_workers h h1]; simp
    · exact h1
  have hl : l.outcomes = s.sh.out.lab.outcomes := by
    rcases horder with ⟨_, h1, h2⟩ | ⟨h1, _⟩
    · rw [h1, h2]
    · rw [h1]
  have hcalled : ∀ o ∈ s.sh.out.lab.outcomes, ∀ n, calledAs o.scenario = some n → OneLine n := by
    intro o ho n hn
    cases hsc : o.scenario with
    | baseline =>
      rw [hsc] at hn
      cases hn
      decide
    | mutant m =>
      rw [hsc] at hn
      obtain ⟨lost, h2, _⟩ := hrec.account
      obtain ⟨n', hn', hone⟩ := hnames m (h2.subset (by
        simp only [List.mem_append]
        exact .inl (.inl (.inl (List.mem_filterMap.2 ⟨o, ho, by rw [hsc]⟩)))))
      rw [show calledAs (.mutant m) = m.name true from rfl, hn'] at hn
      cases hn
      exact hone
  have hone : ∀ v, ∀ n ∈ namesWith v s.sh.out.lab.outcomes, OneLine n := by
    intro v n hn
    obtain ⟨o, ho, h1⟩ := List.mem_filterMap.1 hn
    refine hcalled o ho n ?_
    cases hsc : o.scenario with
    | baseline => rw [hsc] at h1; cases h1
    | mutant m =>
      rw [hsc] at h1
      dsimp only at h1
      split at h1
      · exact h1
      · cases h1
  have hfile : rustLines (s.sh.out.get f) = namesWith (verdictOf f) l.outcomes := by
    obtain ⟨h1, h2, h3, h4⟩ := C13_lists_read_back_partial _ _ (hrec.files hnf) hone
    rw [hl]
    cases f
    · exact h1
    · exact h2
    · exact h3
    · exact h4
  rw [hfile]
  -- what is printed, as lines
  have hsum : ∀ o ∈ l.outcomes, o.scenario = .baseline → o.summary = some .success := by
    intro o ho hsc
    have h1 := hb o ho hsc
    obtain ⟨result, h2, h3⟩ := complete_executed (hrec.complete o (hl ▸ ho))
    have hne : o.phaseResults ≠ [] := by
      intro h0
      simp [ScenarioOutcome.success, ScenarioOutcome.lastPhaseResult, h0] at h1
    obtain ⟨v, hv⟩ := summary_some o hne
    have := (shown_of_verdict o cfg.checkOnly result h2 h3 v hv).2.2 hsc
    rw [h1] at this
    rw [hv]
    cases v <;> first | rfl | cases this
  have hlines : ∃ (told : List ScenarioOutcome) (last : List Text), told.Perm l.outcomes ∧ (∀ t ∈ last, OneLine t ∧ (heading (verdictOf f)).isPrefixOf t = false) ∧
      s.sh.stdout.flatten = (foundLine cfg.mutants.length :: told.filterMap (reportLine cfg.print) ++ last).flatMap (· ++ "\n".toList) := by
    by_cases he : cfg.mutants = []
    · have hp := reachable_printed h
      unfold Printed at hp
      rw [hr] at hp
      rcases hp with ⟨_, h1, h2⟩ | ⟨h1, _⟩
      · exact ⟨[], [], by rw [h1], by simp, by rw [h2, he, foundMessage_eq]; rfl⟩
      · exact absurd he h1
    · obtain ⟨told, h1, h2⟩ := C69_printed cfg s h hsome l hr he
      rw [if_neg (by rintro ⟨o, h3, h4, h5⟩; exact h5 (hb o h3 h4)), hplain.1] at h2
      refine ⟨told, [l.summaryString none], h1, ?_, ?_⟩
      · intro t ht
        rw [List.mem_singleton.1 ht]
        exact ⟨oneLine_no (summaryString_no l _ (.inl rfl)) (summaryString_no l _ (.inr rfl)), summaryString_head l f⟩
      · have : told.filterMap (reportOf cfg.print) = (told.filterMap (reportLine cfg.print)).map (· ++ "\n".toList) := by
          have : ∀ os : List ScenarioOutcome, (∀ o ∈ os, o ∈ l.outcomes) → os.filterMap (reportOf cfg.print) =
              (os.filterMap (reportLine cfg.print)).map (· ++ "\n".toList) := by
            intro os
            induction os with
            | nil => intro _; rfl
            | cons o os ih =>
              intro ho
              rw [List.filterMap_cons, List.filterMap_cons, ih fun o h => ho o (by simp [h]),
                report_line cfg.print hplain.1 hplain.2 o (hsum o (ho o (by simp)))]
              cases reportLine cfg.print o <;> rfl
          exact this told fun o ho => h1.subset ho
        rw [h2, this, List.flatMap_def, List.map_append, List.map_cons]
        rfl
  obtain ⟨told, last, h1, h2, h3⟩ := hlines
  have htold : ∀ o ∈ told, o ∈ s.sh.out.lab.outcomes := fun o ho => hl ▸ h1.subset ho
  rw [h3, rustLines_flatMap]
  · rw [List.filter_append, List.filter_cons, foundLine_head, if_neg (by simp), List.map_append,
      lines_with cfg.print f told fun o ho => hsum o (h1.subset ho)]
    have : last.filter (heading (verdictOf f)).isPrefixOf = [] := by
      rw [List.filter_eq_nil_iff]
      intro t ht
      simp [(h2 t ht).2]
    rw [this, List.map_nil, List.append_nil]
    split
    · exact h1.filterMap _
    · exact .refl _
  · intro t ht
    simp only [List.mem_append, List.mem_cons] at ht
    rcases ht with (rfl | ht) | ht
    · exact foundLine_oneLine _
    · obtain ⟨o, ho, h4⟩ := List.mem_filterMap.1 ht
      unfold reportLine at h4
      cases hs : o.summary with
      | none => rw [hs] at h4; cases h4
      | some v =>
        cases hc : calledAs o.scenario with
        | none => rw [hs, hc] at h4; cases h4
        | some name =>
          rw [hs, hc] at h4
          dsimp only at h4
          split at h4
          · cases h4
            exact oneLine_heading v (hcalled o (htold o ho) name hc)
          · cases h4
    · exact (h2 t ht).1

example : Shown Sample.cfg.print (verdictOf .missed) = true ∧ Shown Sample.cfg.print (verdictOf .caught) = false ∧
    ((exec Sample.cfg (init Sample.cfg) Sample.run).map fun s =>
      ((rustLines s.sh.stdout.flatten).filter (heading (verdictOf .missed)).isPrefixOf).map (·.drop 9)) =
    some ["src/lib.rs:1:18: replace f -> bool with true".toList] := by decide +kernel

end CM.Props
