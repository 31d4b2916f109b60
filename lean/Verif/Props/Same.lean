import Verif.Spec.Same
import Verif.Props.Fate
/-! C98: jobs, shuffling and scheduling do not change the results. C99: which options decide about the mutants. -/
namespace CM.Props
open CM CM.Spec

/-! ### C98: what is recorded -/

theorem record_told {cfg : Run.Config} {es beh} (hb : Behaves cfg es beh) {o : ScenarioOutcome}
    (hc : Lab.Complete (phasesFor cfg.lab.checkOnly) o.phaseResults)
    (hw : ∀ r ∈ o.phaseResults, ∃ s d q, EndedIn cfg es s d o.scenario r.phase q r.status) :
    told o = recordOf cfg.lab.checkOnly beh o.scenario := by
  have hbeh : ∀ r ∈ o.phaseResults, r.status = beh o.scenario r.phase := fun r hr => by
    obtain ⟨s, d, q, h⟩ := hw r hr
    exact hb _ _ _ _ _ _ h
  unfold told recordOf
  cases hk : cfg.lab.checkOnly with
  | true =>
    rw [hk] at hc
    obtain ⟨result, h1, _, h3⟩ := one_phase hc
    have := hbeh (result .check) (by rw [h3]; simp)
    rw [h1] at this
    simp [h3, h1, this]
  | false =>
    rw [hk] at hc
    obtain ⟨result, h1, _, ⟨h3, h4⟩ | ⟨h3, h4⟩⟩ := two_phases hc
    · have := hbeh (result .build) (by rw [h3]; simp)
      rw [h1] at this
      rw [this] at h4
      simp [h3, h1, this, h4]
    · have hbuild := hbeh (result .build) (by rw [h3]; simp)
      have htest := hbeh (result .test) (by rw [h3]; simp)
      rw [h1] at hbuild htest
      have h5 := hbuild.symm.trans h4
      simp [h3, h1, h4, htest, h5]

theorem told_success {check beh} {o : ScenarioOutcome} (h : told o = recordOf check beh .baseline) :
    o.success = some true ↔ BaselinePasses check beh := by
  have hl : o.lastPhaseResult = (recordOf check beh .baseline).2.getLast?.map Prod.snd := by
    rw [← h]
    simp [told, ScenarioOutcome.lastPhaseResult, List.getLast?_map, Function.comp_def]
  have iss : ∀ e : Exit, e.isSuccess = true ↔ e = .success := by intro e; cases e <;> simp [Exit.isSuccess]
  unfold ScenarioOutcome.success
  rw [hl]
  unfold recordOf BaselinePasses
  cases check with
  | true => simp [iss]
  | false =>
    by_cases hbuild : beh .baseline .build = .success
    · simp [hbuild, iss]
    · simp [hbuild, iss]

theorem told_mutants {check beh} : ∀ {os : List ScenarioOutcome}, (∀ o ∈ os, told o = recordOf check beh o.scenario) →
    (∀ o ∈ os, o.scenario.isMutant = true) →
    os.map told = (Lab.recordedMutants os).map fun m => recordOf check beh (.mutant m)
  | [], _, _ => rfl
  | o :: os, h, hm => by
    have ih := told_mutants (os := os) (fun o ho => h o (by simp [ho])) (fun o ho => hm o (by simp [ho]))
    obtain ⟨m, hsc⟩ : ∃ m, o.scenario = .mutant m := by
      have := hm o (by simp)
      cases hs : o.scenario with
      | baseline => rw [hs] at this; cases this
      | mutant m => exact ⟨m, rfl⟩
    have hrec : Lab.recordedMutants (o :: os) = m :: Lab.recordedMutants os := by
      unfold Lab.recordedMutants
      rw [List.filterMap_cons_some (b := m) (by rw [hsc])]
    rw [hrec, List.map_cons, List.map_cons, ih, h o (by simp), hsc]

theorem no_mutants_no_outcomes {cfg : Lab.Config} {s : Lab.State} (h : Lab.Reachable cfg s) (he : cfg.mutants = []) :
    s.sh.out.lab.outcomes = [] := by
  have : s.workers = [] ∧ s.sh.out.lab.outcomes = [] := by
    refine Lab.reachable_invariant (cfg := cfg) (P := fun s => s.workers = [] ∧ s.sh.out.lab.outcomes = []) ⟨rfl, rfl⟩ ?_ h
    rintro s e s' ⟨hs, ho⟩ hst
    rcases Lab.step_cases hst with ⟨_, _, rfl⟩ | ⟨ok, _, hm⟩ | ⟨i, c, pc, sh', pc', _, hpc, _, rfl⟩
    · exact ⟨hs, ho⟩
    · cases Lab.mstep_rel hm
      case prepare h hne => exact absurd he hne
      all_goals first
        | exact ⟨hs, ho⟩
        | (rename_i hw _; rw [hs] at hw; cases hw)
    · rw [hs] at hpc; cases hpc
  exact this.2

/-- **C98**: a run that ended without an error has recorded, in some order, what is expected for the selected mutants. -/
theorem C98_results_are_expected (w : World) (x : Program.Machine) (a : MainArgs) (cfg : Run.Config) (h : Program.Tests w x a cfg)
    (ms : List Mutant) (hs : Selects w a ms) (es : List Run.Event) (s : Run.State)
    (he : Run.exec cfg (Run.init cfg) es = some s) (l : LabOutcome) (hr : s.lab.main = .returned (some l))
    (beh : Scenario → Phase → Exit) (hb : Behaves cfg es beh) :
    (l.outcomes.map told).Perm (expectedResults a.options.check (decide (a.options.baseline = .run)) beh ms) := by
  obtain ⟨_, _, _, hco, hbl, ms', hs', hperm, _⟩ := tests_facts h
  cases selects_unique hs hs'
  obtain ⟨_, hcomplete, hwit⟩ := returned_facts he hr
  have hinv := Run.reachable_inv (cfg := cfg) ⟨es, he⟩
  have horder := (Lab.reachable_records hinv.lab).order
  rw [hr] at horder
  have htold : ∀ o ∈ l.outcomes, told o = recordOf a.options.check beh o.scenario := fun o ho => by
    rw [← hco]; exact record_told hb (hcomplete o ho) (hwit o ho)
  unfold expectedResults
  rcases horder with ⟨h1, rfl, _⟩ | ⟨rfl, _, hcase⟩
  · have : ms = [] := List.Perm.eq_nil (by rw [← show cfg.mutants = [] from h1]; exact hperm.symm)
    rw [if_pos this]
    exact List.Perm.refl _
  · have hne : ms ≠ [] := by
      rintro rfl
      have hnil : cfg.lab.mutants = [] := hperm.eq_nil
      have hw := no_mutants_no_workers hinv.lab hnil
      rcases hcase with ⟨_, o, ho, _⟩ | ⟨_, hw', _⟩
      · have hm := no_mutants_no_outcomes hinv.lab hnil
        rw [ho] at hm; cases hm
      · exact hw' hw
    rw [if_neg hne]
    rcases hcase with ⟨hrun, o, ho, hsc, hns⟩ | ⟨⟨bs, os, hos, hmut, hbs⟩, _⟩
    · rw [if_pos (by simpa using hbl.1 hrun)]
      have ht := htold o (by rw [ho]; simp)
      rw [hsc] at ht
      rw [if_neg (fun hp => hns ((told_success ht).2 hp)), ho]
      simp [ht]
    · have hrec : ∀ o ∈ os, told o = recordOf a.options.check beh o.scenario := fun o ho => htold o (by rw [hos]; simp [ho])
      have hmap := told_mutants hrec hmut
      by_cases hrun : cfg.lab.runBaseline = true
      · rw [if_pos hrun] at hbs
        obtain ⟨o, rfl, hsc, hok⟩ := hbs
        have ht := htold o (by rw [hos]; simp)
        rw [hsc] at ht
        rw [if_pos (by simpa using hbl.1 hrun), if_pos ((told_success ht).1 hok)]
        have hc := (C32_outcome_is_complete cfg.lab s.lab hinv.lab _ hr (by
          intro o' ho' hb'
          rw [hos] at ho'
          rcases List.mem_append.1 ho' with h1 | h1
          · cases List.mem_singleton.1 h1; exact hok
          · have := hmut o' h1; rw [hb'] at this; cases this)).1
        rw [hos] at hc ⊢
        have : Lab.recordedMutants ([o] ++ os) = Lab.recordedMutants os := by
          unfold Lab.recordedMutants
          rw [List.cons_append, List.nil_append, List.filterMap_cons_none (by rw [hsc])]
        rw [this] at hc
        rw [List.map_append, hmap]
        simp only [List.map_cons, List.map_nil, ht, List.cons_append, List.nil_append]
        exact ((hc.trans hperm).map _).cons _
      · rw [if_neg hrun] at hbs
        subst hbs
        rw [if_neg (by simpa using fun h => hrun (hbl.2 h))]
        have hc := (C32_outcome_is_complete cfg.lab s.lab hinv.lab _ hr (by
          intro o' ho' hb'
          rw [hos] at ho'
          have := hmut o' (by simpa using ho'); rw [hb'] at this; cases this)).1
        rw [hos] at hc ⊢
        rw [List.nil_append] at hc ⊢
        rw [hmap]
        exact (hc.trans hperm).map _

/-! ### C98: two runs -/

/-- An outcome with this record, without times and command lines. -/
def plainOutcome (t : Scenario × List (Phase × Exit)) : ScenarioOutcome := ⟨t.1, t.2.map fun r => ⟨r.1, 0, r.2, []⟩⟩

theorem told_last (o : ScenarioOutcome) : (plainOutcome (told o)).lastPhase = o.lastPhase ∧
    (plainOutcome (told o)).lastPhaseResult = o.lastPhaseResult := by
  simp [plainOutcome, told, ScenarioOutcome.lastPhase, ScenarioOutcome.lastPhaseResult, List.getLast?_map, Function.comp_def]

theorem plain_summary (o : ScenarioOutcome) : (plainOutcome (told o)).summary = o.summary := by
  obtain ⟨h1, h2⟩ := told_last o
  have h3 : (plainOutcome (told o)).hasTimeout = o.hasTimeout := by
    simp [plainOutcome, told, ScenarioOutcome.hasTimeout, List.any_map, Function.comp_def]
  have h4 : (plainOutcome (told o)).checkOrBuildFailed = o.checkOrBuildFailed := by
    simp [plainOutcome, told, ScenarioOutcome.checkOrBuildFailed, List.any_map, Function.comp_def]
  have h5 : (plainOutcome (told o)).scenario = o.scenario := rfl
  unfold ScenarioOutcome.summary ScenarioOutcome.mutantCaught ScenarioOutcome.mutantMissed ScenarioOutcome.success
  rw [h1, h2, h3, h4, h5]

theorem plain_number (v : SummaryOutcome) (os : List ScenarioOutcome) :
    numberWith v os = numberWith v ((os.map told).map plainOutcome) := by
  induction os with
  | nil => rfl
  | cons o os ih =>
    unfold numberWith at ih ⊢
    simp only [List.map_cons, List.filter_cons, plain_summary, show (plainOutcome (told o)).scenario = o.scenario from rfl]
    split <;> simp [ih]

theorem plain_names (v : SummaryOutcome) (os : List ScenarioOutcome) :
    namesWith v os = namesWith v ((os.map told).map plainOutcome) := by
  unfold namesWith
  rw [List.map_map, List.filterMap_map]
  congr 1
  funext o
  simp only [Function.comp_def, plain_summary, show (plainOutcome (told o)).scenario = o.scenario from rfl]

theorem told_failed (os : List ScenarioOutcome) :
    BaselineFailed os ↔ ∃ t ∈ os.map told, t.1 = .baseline ∧ ∃ r, t.2.getLast? = some r ∧ r.2 ≠ .success := by
  unfold BaselineFailed
  constructor
  · rintro ⟨o, ho, hb, pr, hl, hn⟩
    exact ⟨told o, List.mem_map_of_mem ho, hb, (pr.phase, pr.status), by simp [told, List.getLast?_map, hl], hn⟩
  · rintro ⟨t, ht, hb, r, hl, hn⟩
    obtain ⟨o, ho, rfl⟩ := List.mem_map.1 ht
    simp only [told, List.getLast?_map, Option.map_eq_some_iff] at hl
    obtain ⟨pr, hl, rfl⟩ := hl
    exact ⟨o, ho, hb, pr, hl, hn⟩

theorem told_number {os os' : List ScenarioOutcome} (h : (os.map told).Perm (os'.map told)) (v : SummaryOutcome) :
    numberWith v os = numberWith v os' := by
  rw [plain_number v os, plain_number v os']
  exact ((h.map plainOutcome).filter _).length_eq

theorem told_exit {os os' : List ScenarioOutcome} {l l' : LabOutcome} (ha : LabOutcome.addAll {} os = some l)
    (ha' : LabOutcome.addAll {} os' = some l') (hne : ∀ o ∈ os, o.phaseResults ≠ []) (hne' : ∀ o ∈ os', o.phaseResults ≠ [])
    (h : (os.map told).Perm (os'.map told)) : l.exitCode = l'.exitCode := by
  obtain ⟨c, hc⟩ := C11_exit_code_defined os l ha hne
  obtain ⟨c', hc'⟩ := C11_exit_code_defined os' l' ha' hne'
  have hb : BaselineFailed os ↔ BaselineFailed os' := by
    rw [told_failed, told_failed]
    exact exists_congr fun t => and_congr h.mem_iff Iff.rfl
  have hm : ∀ v, SomeMutant v os ↔ SomeMutant v os' := by
    intro v
    rw [← numberWith_pos, ← numberWith_pos, told_number h]
  obtain ⟨p4, p3, p2, p0⟩ := C11_exit_code os l c ha hc
  obtain ⟨q4, q3, q2, q0⟩ := C11_exit_code os' l' c' ha' hc'
  rw [← hb] at q4
  rw [← hb, ← hm] at q3
  rw [← hb, ← hm, ← hm] at q2 q0
  rw [hc, hc']
  by_cases h1 : BaselineFailed os
  · rw [p4.2 h1, q4.2 h1]
  · by_cases h2 : SomeMutant .timeout os
    · rw [p3.2 ⟨h1, h2⟩, q3.2 ⟨h1, h2⟩]
    · by_cases h3 : SomeMutant .missedMutant os
      · rw [p2.2 ⟨h1, h2, h3⟩, q2.2 ⟨h1, h2, h3⟩]
      · rw [p0.2 ⟨h1, h2, h3⟩, q0.2 ⟨h1, h2, h3⟩]

theorem expected_perm {check baseline beh} {ms ms' : List Mutant} (h : ms.Perm ms') :
    (expectedResults check baseline beh ms).Perm (expectedResults check baseline beh ms') := by
  unfold expectedResults
  by_cases hn : ms = []
  · subst hn
    cases h.symm.eq_nil
    exact List.Perm.refl _
  · have hn' : ms' ≠ [] := by
      rintro rfl
      exact hn h.eq_nil
    rw [if_neg hn, if_neg hn']
    split
    · split
      · exact (h.map _).cons _
      · exact List.Perm.refl _
    · exact h.map _

/-- The names of the mutants that are recorded fit on a line if those of the selected ones do. -/
theorem recorded_one_line {cfg : Run.Config} {es s l} (he : Run.exec cfg (Run.init cfg) es = some s)
    (hr : s.lab.main = .returned (some l)) (hnames : ∀ m ∈ cfg.mutants, ∀ n, m.name true = some n → OneLine n)
    (v : SummaryOutcome) (n : Text) (hn : n ∈ namesWith v l.outcomes) : OneLine n := by
  obtain ⟨o, ho, m, hsc, hnm, _⟩ := mem_namesWith.1 hn
  have hinv := Run.reachable_inv (cfg := cfg) ⟨es, he⟩
  have horder := (Lab.reachable_records hinv.lab).order
  rw [hr] at horder
  rcases horder with ⟨_, rfl, _⟩ | ⟨rfl, _⟩
  · cases ho
  · refine hnames m ?_ n hnm
    have h1 : m ∈ Lab.recordedMutants s.lab.sh.out.lab.outcomes := List.mem_filterMap.2 ⟨o, ho, by rw [hsc]⟩
    have h2 := (C28_recorded_are_executed cfg.lab s.lab hinv.lab).1 m
    exact List.count_pos_iff.1 (Nat.lt_of_lt_of_le (List.count_pos_iff.2 h1) h2)

/-- **C98**: two runs of the same mutants with the same kind of commands, in which the commands end alike, give the same results:
outcomes, numbers, lists and exit code, whatever the number of jobs, the order, the schedule, and anything else. -/
theorem C98_same_results (w w' : World) (x x' : Program.Machine) (a a' : MainArgs) (cfg cfg' : Run.Config)
    (h : Program.Tests w x a cfg) (h' : Program.Tests w' x' a' cfg') (ms ms' : List Mutant) (hs : Selects w a ms)
    (hs' : Selects w' a' ms') (hms : ms.Perm ms') (hcheck : a.options.check = a'.options.check)
    (hbase : a.options.baseline = a'.options.baseline) (es es' : List Run.Event) (s s' : Run.State)
    (he : Run.exec cfg (Run.init cfg) es = some s) (he' : Run.exec cfg' (Run.init cfg') es' = some s') (l l' : LabOutcome)
    (hr : s.lab.main = .returned (some l)) (hr' : s'.lab.main = .returned (some l')) (beh : Scenario → Phase → Exit)
    (hb : Behaves cfg es beh) (hb' : Behaves cfg' es' beh) :
    (l.outcomes.map told).Perm (l'.outcomes.map told) ∧ l.exitCode = l'.exitCode ∧
    l.totalMutants = l'.totalMutants ∧ l.missed = l'.missed ∧ l.caught = l'.caught ∧ l.timeout = l'.timeout ∧
    l.unviable = l'.unviable ∧ l.success = l'.success ∧
    ((∀ m ∈ ms, ∀ n, m.name true = some n → OneLine n) →
      ∀ f, (rustLines (s.lab.sh.out.get f)).Perm (rustLines (s'.lab.sh.out.get f))) := by
  have h1 := C98_results_are_expected w x a cfg h ms hs es s he l hr beh hb
  have h2 := C98_results_are_expected w' x' a' cfg' h' ms' hs' es' s' he' l' hr' beh hb'
  rw [← hcheck, ← hbase] at h2
  have hp := h1.trans ((expected_perm hms).trans h2.symm)
  obtain ⟨ha, hc, _⟩ := returned_facts he hr
  obtain ⟨ha', hc', _⟩ := returned_facts he' hr'
  obtain ⟨_, n1, n2, n3, n4, n5, n6⟩ := C10_counts _ _ ha
  obtain ⟨_, m1, m2, m3, m4, m5, m6⟩ := C10_counts _ _ ha'
  refine ⟨hp, told_exit ha ha' (fun o ho => (hc o ho).ne_nil) (fun o ho => (hc' o ho).ne_nil) hp, ?_, ?_, ?_, ?_, ?_, ?_, ?_⟩
  · rw [n1, m1]
    have hl : ∀ os : List ScenarioOutcome, (os.filter (·.scenario.isMutant)).length = ((os.map told).filter (·.1.isMutant)).length := by
      intro os
      rw [List.filter_map, List.length_map]
      rfl
    rw [hl, hl]
    exact (hp.filter _).length_eq
  · rw [n2, m2, told_number hp]
  · rw [n3, m3, told_number hp]
  · rw [n4, m4, told_number hp]
  · rw [n5, m5, told_number hp]
  · rw [n6, m6, told_number hp]
  · intro hnames f
    obtain ⟨_, _, _, _, _, ms1, hs1, hperm, _⟩ := tests_facts h
    cases selects_unique hs hs1
    obtain ⟨_, _, _, _, _, ms2, hs2, hperm', _⟩ := tests_facts h'
    cases selects_unique hs' hs2
    rw [returned_lists he hr (recorded_one_line he hr fun m hm => hnames m (hperm.mem_iff.1 hm)) f,
      returned_lists he' hr' (recorded_one_line he' hr' fun m hm => hnames m (hms.mem_iff.2 (hperm'.mem_iff.1 hm))) f,
      plain_names, plain_names _ l'.outcomes]
    exact (hp.map plainOutcome).filterMap _

/-! ### C98: the lists and the exit code -/

theorem fate_verdict (check : Bool) (beh : Scenario → Phase → Exit) (m : Mutant) (f : ListFile) :
    (plainOutcome (recordOf check beh (.mutant m))).summary = some (verdictOf f) ↔ fateFrom check beh m = some f := by
  unfold recordOf fateFrom
  cases check with
  | true =>
    cases beh (.mutant m) .check <;> cases f <;>
      simp [plainOutcome, ScenarioOutcome.summary, ScenarioOutcome.checkOrBuildFailed, ScenarioOutcome.hasTimeout,
        ScenarioOutcome.mutantCaught, ScenarioOutcome.mutantMissed, ScenarioOutcome.success, ScenarioOutcome.lastPhase,
        ScenarioOutcome.lastPhaseResult, Exit.isSuccess, Exit.isFailure, Exit.isTimeout, verdictOf, fateOfBuild, Scenario.isMutant]
  | false =>
    cases beh (.mutant m) .build <;> cases beh (.mutant m) .test <;> cases f <;>
      simp [plainOutcome, ScenarioOutcome.summary, ScenarioOutcome.checkOrBuildFailed, ScenarioOutcome.hasTimeout,
        ScenarioOutcome.mutantCaught, ScenarioOutcome.mutantMissed, ScenarioOutcome.success, ScenarioOutcome.lastPhase,
        ScenarioOutcome.lastPhaseResult, Exit.isSuccess, Exit.isFailure, Exit.isTimeout, verdictOf, fateOfBuild, fateOfTest,
        Scenario.isMutant]

theorem names_mutants (check : Bool) (beh : Scenario → Phase → Exit) (ms : List Mutant) (f : ListFile) :
    namesWith (verdictOf f) ((ms.map fun m => recordOf check beh (.mutant m)).map plainOutcome) =
      (ms.filter fun m => fateFrom check beh m = some f).filterMap (·.name true) := by
  unfold namesWith
  rw [List.map_map, List.filterMap_map, List.filterMap_filter]
  congr 1
  funext m
  simp only [Function.comp_def]
  have : (plainOutcome (recordOf check beh (.mutant m))).scenario = .mutant m := rfl
  simp only [this, fate_verdict, decide_eq_true_eq]

theorem names_expected (check baseline : Bool) (beh : Scenario → Phase → Exit) (ms : List Mutant) (f : ListFile) :
    namesWith (verdictOf f) ((expectedResults check baseline beh ms).map plainOutcome) = expectedLines check baseline beh ms f := by
  have hb : ∀ rest, namesWith (verdictOf f) (plainOutcome (recordOf check beh .baseline) :: rest) = namesWith (verdictOf f) rest := by
    intro rest
    unfold namesWith
    rw [List.filterMap_cons_none rfl]
  unfold expectedResults expectedLines
  by_cases hn : ms = []
  · subst hn
    by_cases hst : Stopped check baseline beh <;> simp [hst, namesWith]
  · rw [if_neg hn]
    cases baseline with
    | false =>
      rw [if_neg Bool.false_ne_true, if_neg (fun h => Bool.noConfusion h.1)]
      exact names_mutants check beh ms f
    | true =>
      rw [if_pos rfl]
      by_cases hp : BaselinePasses check beh
      · rw [if_pos hp, if_neg (fun h => h.2 hp), List.map_cons, hb]
        exact names_mutants check beh ms f
      · rw [if_neg hp, if_pos ⟨rfl, hp⟩, List.map_cons, hb]
        rfl

/-- **C98**: the lines of the list files, in some order. -/
theorem C98_lines (w : World) (x : Program.Machine) (a : MainArgs) (cfg : Run.Config) (h : Program.Tests w x a cfg)
    (ms : List Mutant) (hs : Selects w a ms) (hnames : ∀ m ∈ ms, ∀ n, m.name true = some n → OneLine n) (es : List Run.Event)
    (s : Run.State) (he : Run.exec cfg (Run.init cfg) es = some s) (l : LabOutcome) (hr : s.lab.main = .returned (some l))
    (beh : Scenario → Phase → Exit) (hb : Behaves cfg es beh) (f : ListFile) :
    (rustLines (s.lab.sh.out.get f)).Perm (expectedLines a.options.check (decide (a.options.baseline = .run)) beh ms f) := by
  have hp := C98_results_are_expected w x a cfg h ms hs es s he l hr beh hb
  obtain ⟨_, _, _, _, _, ms1, hs1, hperm, _⟩ := tests_facts h
  cases selects_unique hs hs1
  rw [returned_lists he hr (recorded_one_line he hr fun m hm => hnames m (hperm.mem_iff.1 hm)) f, plain_names, ← names_expected]
  exact (hp.map plainOutcome).filterMap _

theorem some_expected {check baseline : Bool} {beh : Scenario → Phase → Exit} {ms : List Mutant} {os : List ScenarioOutcome}
    (hp : (os.map told).Perm (expectedResults check baseline beh ms)) (hn : ms ≠ []) (hst : ¬ Stopped check baseline beh) (f : ListFile) :
    SomeMutant (verdictOf f) os ↔ ∃ m ∈ ms, fateFrom check beh m = some f := by
  have hmem : ∀ m, recordOf check beh (.mutant m) ∈ os.map told ↔ m ∈ ms := by
    intro m
    rw [hp.mem_iff]
    have hinj : ∀ m', recordOf check beh (.mutant m') = recordOf check beh (.mutant m) ↔ m' = m := by
      intro m'
      constructor
      · intro h; exact Scenario.mutant.inj (congrArg Prod.fst h)
      · rintro rfl; rfl
    have hne : recordOf check beh (.mutant m) ≠ recordOf check beh .baseline := by
      intro h
      cases congrArg Prod.fst h
    unfold expectedResults
    rw [if_neg hn]
    cases baseline with
    | false => simp [List.mem_map, hinj]
    | true =>
      have hpass : BaselinePasses check beh := Classical.byContradiction fun h => hst ⟨rfl, h⟩
      simp [hpass, List.mem_map, hinj, hne]
  have hall : ∀ o ∈ os, ∀ m, o.scenario = .mutant m → told o = recordOf check beh (.mutant m) := by
    intro o ho m hsc
    have h1 := hp.mem_iff.1 (List.mem_map_of_mem (f := told) ho)
    have h2 : (told o).1 = .mutant m := hsc
    generalize told o = t at h1 h2
    unfold expectedResults at h1
    rw [if_neg hn] at h1
    cases baseline with
    | false =>
      simp only [Bool.false_eq_true, if_false, List.mem_map] at h1
      obtain ⟨m', _, rfl⟩ := h1
      cases Scenario.mutant.inj h2; rfl
    | true =>
      have hpass : BaselinePasses check beh := Classical.byContradiction fun h => hst ⟨rfl, h⟩
      simp only [if_true, hpass, List.mem_cons, List.mem_map] at h1
      rcases h1 with rfl | ⟨m', _, rfl⟩
      · cases h2
      · cases Scenario.mutant.inj h2; rfl
  unfold SomeMutant
  constructor
  · rintro ⟨o, ho, ⟨m, hsc⟩, hv⟩
    have ht := hall o ho m hsc
    refine ⟨m, (hmem m).1 (ht ▸ List.mem_map_of_mem ho), ?_⟩
    rw [← plain_summary, ht] at hv
    exact (fate_verdict ..).1 hv
  · rintro ⟨m, hm, hf⟩
    obtain ⟨o, ho, ht⟩ := List.mem_map.1 ((hmem m).2 hm)
    refine ⟨o, ho, ⟨m, congrArg Prod.fst ht⟩, ?_⟩
    rw [← plain_summary, ht]
    exact (fate_verdict ..).2 hf

theorem failed_expected {check baseline : Bool} {beh : Scenario → Phase → Exit} {ms : List Mutant} {os : List ScenarioOutcome}
    (hp : (os.map told).Perm (expectedResults check baseline beh ms)) :
    BaselineFailed os ↔ ms ≠ [] ∧ Stopped check baseline beh := by
  have hlast : (∃ r, (recordOf check beh .baseline).2.getLast? = some r ∧ r.2 ≠ .success) ↔ ¬ BaselinePasses check beh := by
    unfold recordOf BaselinePasses
    cases check with
    | true => simp
    | false => by_cases hbuild : beh .baseline .build = .success <;> simp [hbuild]
  have hm : ∀ m, (recordOf check beh (.mutant m)).1 ≠ .baseline := by
    intro m h
    cases h
  rw [told_failed]
  constructor
  · rintro ⟨t, ht, hb, hl⟩
    have h1 := hp.mem_iff.1 ht
    unfold expectedResults at h1
    by_cases hn : ms = []
    · rw [if_pos hn] at h1; cases h1
    · rw [if_neg hn] at h1
      refine ⟨hn, ?_⟩
      cases baseline with
      | false =>
        simp only [Bool.false_eq_true, if_false, List.mem_map] at h1
        obtain ⟨m, _, rfl⟩ := h1
        exact absurd hb (hm m)
      | true =>
        refine ⟨rfl, ?_⟩
        by_cases hpass : BaselinePasses check beh
        · simp only [if_true, hpass, List.mem_cons, List.mem_map] at h1
          rcases h1 with rfl | ⟨m, _, rfl⟩
          · exact hlast.1 hl
          · exact absurd hb (hm m)
        · exact hpass
  · rintro ⟨hn, hb, hns⟩
    subst hb
    refine ⟨recordOf check beh .baseline, hp.mem_iff.2 ?_, rfl, hlast.2 hns⟩
    unfold expectedResults
    rw [if_neg hn, if_pos rfl, if_neg hns]
    exact List.mem_singleton.2 rfl

/-- **C98**: the exit code. -/
theorem C98_code (w : World) (x : Program.Machine) (a : MainArgs) (cfg : Run.Config) (h : Program.Tests w x a cfg)
    (ms : List Mutant) (hs : Selects w a ms) (es : List Run.Event) (s : Run.State)
    (he : Run.exec cfg (Run.init cfg) es = some s) (l : LabOutcome) (hr : s.lab.main = .returned (some l))
    (beh : Scenario → Phase → Exit) (hb : Behaves cfg es beh) :
    l.exitCode = some (expectedCode a.options.check (decide (a.options.baseline = .run)) beh ms) := by
  have hp := C98_results_are_expected w x a cfg h ms hs es s he l hr beh hb
  obtain ⟨ha, hc, _⟩ := returned_facts he hr
  obtain ⟨c, hcode⟩ := C11_exit_code_defined l.outcomes l ha (fun o ho => (hc o ho).ne_nil)
  obtain ⟨p4, p3, p2, p0⟩ := C11_exit_code l.outcomes l c ha hcode
  have hf := failed_expected hp
  rw [hcode]
  congr 1
  unfold expectedCode
  by_cases hn : ms = []
  · rw [if_pos hn]
    have hos : l.outcomes = [] := by
      unfold expectedResults at hp
      rw [if_pos hn] at hp
      exact List.map_eq_nil_iff.1 hp.eq_nil
    refine p0.2 ⟨fun h => (hf.1 h).1 hn, ?_, ?_⟩ <;>
    · rintro ⟨o, ho, _⟩
      rw [hos] at ho
      cases ho
  · rw [if_neg hn]
    by_cases hst : Stopped a.options.check (decide (a.options.baseline = .run)) beh
    · rw [if_pos hst]
      exact p4.2 (hf.2 ⟨hn, hst⟩)
    · rw [if_neg hst]
      have hnf : ¬ BaselineFailed l.outcomes := fun h => hst (hf.1 h).2
      have ht := some_expected hp hn hst .timeout
      have hm := some_expected hp hn hst .missed
      by_cases h1 : ∃ m ∈ ms, fateFrom a.options.check beh m = some .timeout
      · rw [if_pos h1]
        exact p3.2 ⟨hnf, ht.2 h1⟩
      · rw [if_neg h1]
        by_cases h2 : ∃ m ∈ ms, fateFrom a.options.check beh m = some .missed
        · rw [if_pos h2]
          exact p2.2 ⟨hnf, fun h => h1 (ht.1 h), hm.2 h2⟩
        · rw [if_neg h2]
          exact p0.2 ⟨hnf, fun h => h1 (ht.1 h), fun h => h2 (hm.1 h)⟩

/-! ### C99 -/

/-- Options that agree on what decides about the mutants. -/
def SameChoice (o o' : Options) : Prop :=
  o.errorValues = o'.errorValues ∧ o.skipCalls = o'.skipCalls ∧ o.examineGlobset = o'.examineGlobset ∧
  o.excludeGlobset = o'.excludeGlobset ∧ o.examineNames = o'.examineNames ∧ o.excludeNames = o'.excludeNames

theorem choice_fields {regex args config o} (h : Options.new regex args config = some o) :
    o.errorValues = joinSlices args.error config.errorValues ∧ o.skipCalls = chooseSkipCalls args config ∧
    Glob.buildGlobSet (orSlices args.file config.examineGlobs) = some o.examineGlobset ∧
    Glob.buildGlobSet (orSlices args.exclude config.excludeGlobs) = some o.excludeGlobset ∧
    compileAll regex (orSlices args.examineRe config.examineRe) = some o.examineNames ∧
    compileAll regex (orSlices args.excludeRe config.excludeRe) = some o.excludeNames := by
  unfold Options.new at h
  obtain ⟨_, _, h⟩ := Option.bind_eq_some_iff.1 h
  obtain ⟨_, _, h⟩ := Option.bind_eq_some_iff.1 h
  obtain ⟨_, h1, h⟩ := Option.bind_eq_some_iff.1 h
  obtain ⟨_, h2, h⟩ := Option.bind_eq_some_iff.1 h
  obtain ⟨_, h3, h⟩ := Option.bind_eq_some_iff.1 h
  obtain ⟨_, h4, h⟩ := Option.bind_eq_some_iff.1 h
  obtain ⟨_, _, h⟩ := Option.bind_eq_some_iff.1 h
  cases h
  exact ⟨rfl, rfl, h3, h4, h1, h2⟩

theorem same_choice {regex a b c o o'} (h : SameFilters a b) (ho : Options.new regex a c = some o)
    (ho' : Options.new regex b c = some o') : SameChoice o o' := by
  obtain ⟨e1, e2, e3, e4, e5, e6, e7⟩ := h
  obtain ⟨p1, p2, p3, p4, p5, p6⟩ := choice_fields ho
  obtain ⟨q1, q2, q3, q4, q5, q6⟩ := choice_fields ho'
  rw [e2, q3] at p3
  rw [e3, q4] at p4
  rw [e4, q5] at p5
  rw [e5, q6] at p6
  refine ⟨by rw [p1, q1, e1], ?_, (Option.some.inj p3).symm, (Option.some.inj p4).symm, (Option.some.inj p5).symm,
    (Option.some.inj p6).symm⟩
  rw [p2, q2]
  unfold chooseSkipCalls
  rw [e6, e7]

theorem walkOne_choice {env : WalkEnv} {o : Options} (h : SameChoice env.options o) (pkg : Package) (path : Path) (top : Bool) :
    walkOne env pkg path top = walkOne { env with options := o } pkg path top := by
  obtain ⟨_, h2, _, _, h5, h6⟩ := h
  have hr : ∀ ms, retainAllowed env.options ms = retainAllowed o ms := by
    intro ms
    induction ms with
    | nil => rfl
    | cons m ms ih =>
      have : env.options.allowsMutant m = o.allowsMutant m := by unfold Options.allowsMutant; rw [h5, h6]
      unfold retainAllowed
      rw [this, ih]
  unfold walkOne
  simp only [h2, hr]

theorem walkSteps_choice {env : WalkEnv} {o : Options} (h : SameChoice env.options o) (pkg : Package) (n : Nat) (s : WalkState) :
    walkSteps env pkg n s = walkSteps { env with options := o } pkg n s := by
  have hp : ∀ p, env.options.allowsSourceFilePath p = o.allowsSourceFilePath p := by
    obtain ⟨_, _, h3, h4, _⟩ := h
    intro p
    unfold Options.allowsSourceFilePath
    rw [h3, h4]
  induction n generalizing s with
  | zero => rfl
  | succ n ih =>
    have : walkStep env pkg s = walkStep { env with options := o } pkg s := by
      unfold walkStep
      cases s.queue with
      | nil => rfl
      | cons q rest => simp only [walkOne_choice h, hp]
    unfold walkSteps
    rw [this]
    simp only [ih]

theorem walksTree_choice {env : WalkEnv} {o : Options} (h : SameChoice env.options o) {pkgs ms fs} (hw : WalksTree env pkgs ms fs) :
    WalksTree { env with options := o } pkgs ms fs := by
  induction hw with
  | nil => exact .nil
  | cons hp _ ih =>
    obtain ⟨n, s, h1, h2⟩ := hp
    exact .cons ⟨n, s, by rw [← walkSteps_choice h]; exact h1, h2⟩ ih

/-- **C99**: what is selected depends only on the options for it: the error values, the filters by file and name, the calls that are
skipped, the packages, and `--iterate`, `--in-diff` and `--shard`; on no other option, as long as it is accepted. -/
theorem C99_selection_options (w : World) (a a' : MainArgs) (hf : SameFilters a.options a'.options)
    (hp : a.mutatePackages = a'.mutatePackages) (hw : a.workspace = a'.workspace) (hi : a.iterate = a'.iterate)
    (hd : a.inDiff = a'.inDiff) (hsh : a.shard = a'.shard) (o : Options) (ho : Options.new w.regex a'.options w.config = some o)
    (ms : List Mutant) (hs : Selects w a ms) : Selects w a' ms := by
  obtain ⟨found, fs, left, changed, ⟨o1, pkgs, exprs, h1, h2, h3, h4⟩, h5, h6, h7⟩ := hs
  have hc := same_choice hf h1 ho
  refine ⟨found, fs, left, changed, ⟨o, pkgs, exprs, ho, ?_, ?_, ?_⟩, ?_, ?_, ?_⟩
  · rw [← hp, ← hw]; exact h2
  · rw [← hc.1]; exact h3
  · exact walksTree_choice (env := w.walkEnv o1 exprs) hc h4
  · rw [← hi]; exact h5
  · rw [← hd]; exact h6
  · rw [← hsh]; exact h7

/-- **C99**: so do runs: with other options that are accepted, the same mutants are tested, and prepared alike. -/
theorem C99_runs (w : World) (a a' : MainArgs) (hf : SameFilters a.options a'.options)
    (hp : a.mutatePackages = a'.mutatePackages) (hw : a.workspace = a'.workspace) (hi : a.iterate = a'.iterate)
    (hd : a.inDiff = a'.inDiff) (hsh : a.shard = a'.shard) (o : Options) (ho : Options.new w.regex a'.options w.config = some o)
    (hl : a'.list = false) (hlf : a'.listFiles = false) (out : FsState) (ms : List Mutant) (hr : Runs w a (.test out ms)) :
    Runs w a' (.test out ms) := by
  have hf0 : a.listFiles = false := by
    obtain ⟨found, fs, _, h⟩ := hr
    obtain ⟨left, _, h⟩ := Option.bind_eq_some_iff.1 h
    cases hx : a.listFiles with
    | false => rfl
    | true => rw [hx] at h; cases h
  obtain ⟨ms', hs, h⟩ := (runs_iff w a hf0 _).1 hr
  split at h
  · split at h
    · cases h
    · obtain ⟨_, _, h⟩ := h; cases h
  · obtain ⟨out', h1, h⟩ := h
    cases h
    refine (runs_iff w a' hlf _).2 ⟨ms, C99_selection_options w a a' hf hp hw hi hd hsh o ho ms hs, ?_⟩
    rw [hl]
    exact ⟨out, hi ▸ h1, rfl⟩

/-- **C98**: a run with another number of jobs, shuffled or not, with other random numbers and another schedule, gives the same results
if the commands end alike. -/
theorem C98_jobs_and_shuffling (w : World) (x x' : Program.Machine) (a : MainArgs) (j : Option Nat) (noShuffle : Bool)
    (cfg cfg' : Run.Config) (h : Program.Tests w x a cfg)
    (h' : Program.Tests w x' { a with options := { a.options with jobs := j, noShuffle := noShuffle } } cfg')
    (es es' : List Run.Event) (s s' : Run.State) (he : Run.exec cfg (Run.init cfg) es = some s)
    (he' : Run.exec cfg' (Run.init cfg') es' = some s') (l l' : LabOutcome) (hr : s.lab.main = .returned (some l))
    (hr' : s'.lab.main = .returned (some l')) (beh : Scenario → Phase → Exit) (hb : Behaves cfg es beh)
    (hb' : Behaves cfg' es' beh) :
    (l.outcomes.map told).Perm (l'.outcomes.map told) ∧ l.exitCode = l'.exitCode ∧
    l.totalMutants = l'.totalMutants ∧ l.missed = l'.missed ∧ l.caught = l'.caught ∧ l.timeout = l'.timeout ∧
    l.unviable = l'.unviable ∧ l.success = l'.success := by
  obtain ⟨_, _, _, _, _, ms, hs, _, _⟩ := tests_facts h
  obtain ⟨o, _, _, ho, _⟩ := h'.2
  have hs' := C99_selection_options w a { a with options := { a.options with jobs := j, noShuffle := noShuffle } }
    ⟨rfl, rfl, rfl, rfl, rfl, rfl, rfl⟩ rfl rfl rfl rfl rfl o ho ms hs
  obtain ⟨h1, h2, h3, h4, h5, h6, h7, h8, _⟩ := C98_same_results w w x x' a _ cfg cfg' h h' ms ms hs hs' (List.Perm.refl _) rfl rfl
    es es' s s' he he' l l' hr hr' beh hb hb'
  exact ⟨h1, h2, h3, h4, h5, h6, h7, h8⟩

/-! ### Example -/

/-- Whether the commands that have ended now did so like this. -/
def endsAlikeNow (beh : Scenario → Phase → Exit) (s : Run.State) : Bool :=
  (List.range s.lab.workers.length).all fun i =>
    match s.lab.workers[i]?, s.procs i with
    | some (.command _ sc p _ _), some q =>
      match q.pc with
      | .done (.ok e) => decide (e = beh sc p)
      | _ => true
    | _, _ => true

/-- Whether the commands that end during these events do so like this. -/
def endsAlike (cfg : Run.Config) (beh : Scenario → Phase → Exit) (s : Run.State) : List Run.Event → Bool
  | [] => endsAlikeNow beh s
  | e :: es => endsAlikeNow beh s && match Run.step cfg s e with
    | none => true
    | some s' => endsAlike cfg beh s' es

theorem endsAlike_at {cfg : Run.Config} {beh} : ∀ {es1 es2 : List Run.Event} {s s' : Run.State},
    endsAlike cfg beh s (es1 ++ es2) = true → Run.exec cfg s es1 = some s' → endsAlikeNow beh s' = true
  | [], [], s, s', h, he => by cases he; exact h
  | [], e :: es2, s, s', h, he => by
    cases he
    simp only [List.nil_append, endsAlike, Bool.and_eq_true] at h
    exact h.1
  | e :: es1, es2, s, s', h, he => by
    unfold Run.exec at he
    obtain ⟨s1, h1, h2⟩ := Option.bind_eq_some_iff.1 he
    simp only [List.cons_append, endsAlike, Bool.and_eq_true, h1] at h
    exact endsAlike_at h.2 h2

theorem behaves_of {cfg : Run.Config} {es beh} (h : endsAlike cfg beh (Run.init cfg) es = true) : Behaves cfg es beh := by
  rintro s d sc p q e ⟨es1, es2, i, todo, rs, rfl, he, hw, hp, hq⟩
  have h1 := endsAlike_at h he
  unfold endsAlikeNow at h1
  have hi : i ∈ List.range s.lab.workers.length := List.mem_range.2 (List.getElem?_eq_some_iff.1 hw).1
  have h2 := List.all_eq_true.1 h1 i hi
  simpa [hw, hp, hq] using h2

namespace ProgramSample

/-- The first mutant is caught by the tests, and everything else succeeds. -/
def caughtFirst : Scenario → Phase → Exit
  | .mutant m, .test => if m.name true = some first then .failure 101 else .success
  | _, _ => .success

/-- Two jobs, not shuffled. -/
def twoJobs : MainArgs := { sampleRun with options := { sampleRun.options with jobs := some 2, noShuffle := true } }

def oks (i n : Nat) : List Run.Event := List.replicate n (.worker i .ok)

/-- `RunSample.cmd` in any thread, with the time that it took. -/
def cmdOf (i : Nat) (st : ExitStatus) (took : Nat) : List Run.Event :=
  [.proc i (.spawn true), .proc i .checkTime, .proc i .checkInterrupt, .proc i (.tryWait true), .childExits i st,
   .tick 60000000, .proc i .wake, .proc i .checkTime, .proc i .checkInterrupt, .proc i (.tryWait true), .proc i (.log true),
   .leave i took]

/-- The second thread takes the first mutant, and is done with it after the first thread is done with the other. -/
def together : List Run.Event :=
  baseline ++ oks 1 7 ++ oks 0 9 ++ cmdOf 0 RunSample.exit0 60000001 ++ oks 0 1 ++ cmdOf 0 RunSample.exit0 60000001 ++ oks 0 3 ++
    cmdOf 1 RunSample.exit0 180000001 ++ oks 1 1 ++ cmdOf 1 exit101 60000001 ++ oks 1 3 ++ oks 0 1 ++ oks 1 1 ++ [.main true]

def nameOf : Scenario → Option Text
  | .baseline => none
  | .mutant m => m.name true

/-- Whether a run with these events ends with the commands ending alike, and what it has recorded: the names, in their order, with
the verdicts, and the exit code. -/
def endsWith (a : MainArgs) (es : List Run.Event) : Option (Bool × List (Option Text × Option SummaryOutcome) × Option Nat) :=
  (trySelect sampleWorld a 3).bind fun ms => (Options.new sampleWorld.regex a.options sampleWorld.config).bind fun o =>
    (Run.exec (Program.config sampleWorld machine a o ms) (Run.init (Program.config sampleWorld machine a o ms)) es).bind fun s =>
      match s.lab.main with
      | .returned (some l) =>
        some (endsAlike (Program.config sampleWorld machine a o ms) caughtFirst (Run.init (Program.config sampleWorld machine a o ms)) es,
          l.outcomes.map (fun o => (nameOf o.scenario, o.summary)), l.exitCode)
      | _ => none

end ProgramSample

set_option synthInstance.maxSize 512 in
/-- Two runs that meet the hypotheses of `C98_jobs_and_shuffling`, and record in different orders. That a run with these arguments
comes to testing is shown beside `C76_codes`. -/
example : ProgramSample.endsWith sampleRun ProgramSample.survivor =
    some (true, [(none, some .success), (some ProgramSample.first, some .caughtMutant), (some ProgramSample.second, some .missedMutant)],
      some 2) := by decide +kernel
set_option synthInstance.maxSize 512 in
example : ProgramSample.endsWith ProgramSample.twoJobs ProgramSample.together =
    some (true, [(none, some .success), (some ProgramSample.second, some .missedMutant), (some ProgramSample.first, some .caughtMutant)],
      some 2) := by decide +kernel
example : Program.Accepted ProgramSample.twoJobs := fun h => by cases h

/-- For `C99_selection_options`: other options that are accepted, and do not change what is selected. -/
example : SameFilters sampleRun.options { sampleRun.options with check := true, inPlace := true, timeout := some 3, features := { noDefaultFeatures := true } } ∧
    (Options.new sampleWorld.regex { sampleRun.options with check := true, inPlace := true, timeout := some 3, features := { noDefaultFeatures := true } }
      sampleWorld.config).isSome = true ∧
    (trySelect sampleWorld { sampleRun with options := { sampleRun.options with check := true, inPlace := true, timeout := some 3, features := { noDefaultFeatures := true } } } 3).map List.length = some 2 := by
  refine ⟨⟨rfl, rfl, rfl, rfl, rfl, rfl, rfl⟩, by decide +kernel, by decide +kernel⟩

end CM.Props
