import Verif.Proofs.Output
import Verif.Spec.Output
import Verif.Props.Outcome
/-! Properties C13 to C16: the files of the output directory. -/
namespace CM.Props
open CM CM.Spec

/-! ### C15 -/

/-- C15: whatever scenarios are started in a run, creating their logs never fails because the file
exists, there is one log per scenario and all log paths are different. -/
theorem C15_log_files_unique (scs : List Scenario) :
    ∃ used logs, startAll (fun _ => none) [] scs = some (used, logs) ∧
      logs.length = scs.length ∧ logs.Nodup := by
  obtain ⟨u, logs, h1, h2, h3⟩ := startAll_ok (used := fun _ => none) (logs := [])
    (by intro p hp; cases hp) List.nodup_nil scs
  exact ⟨u, logs ++ [], h1, by simpa using h3, h2⟩

/-- C15: nor do two mutants share a diff file, though it would be overwritten without an error. -/
theorem C15_diff_files_unique (scs : List Scenario) :
    (diffPaths (fun _ => none) scs).Nodup ∧
    (diffPaths (fun _ => none) scs).length = scs.countP (·.isMutant) := by
  constructor
  · refine (diffPaths_sublist _ scs).nodup ?_
    have := chosenNames_nodup scs
    unfold List.Nodup at this ⊢
    rw [List.pairwise_map]
    refine this.imp fun h e => h ?_
    rw [List.append_assoc, List.append_assoc] at e
    exact List.append_cancel_right (List.append_cancel_left e)
  · generalize (fun _ => none : UsedNames) = u
    induction scs generalizing u with
    | nil => rfl
    | cons sc scs ih =>
      simp only [diffPaths, List.length_append, ih, List.countP_cons]
      split <;> simp <;> omega

/-- Two mutants at the same position, the baseline twice: all names differ. -/
example : chosenNames (fun _ => none)
    [.baseline, .mutant sampleMutant, .mutant { sampleMutant with replacement := "false".toList },
      .baseline] =
    ["baseline".toList, "src__lib.rs_line_1_col_18".toList, "src__lib.rs_line_1_col_18_001".toList,
      "baseline_001".toList] := by decide

/-! ### C16 -/

/-- C16: the names of logs contain no path separator and no punctuation that Windows forbids. -/
theorem C16_log_names_safe (scs : List Scenario) (n : Text)
    (hn : n ∈ chosenNames (fun _ => none) scs) :
    ∀ c ∈ n, c ∉ ['/', '\\', ' ', ':', '<', '>', '?', '*', '|', '"'] := by
  obtain ⟨sc, _, i, rfl⟩ := chosenNames_render _ _ n hn
  exact render_safe sc i

/-- C16: and a name is never empty, `.` or `..`. -/
theorem C16_log_names_ordinary (scs : List Scenario) (n : Text)
    (hn : n ∈ chosenNames (fun _ => none) scs) : 5 < n.length := by
  obtain ⟨sc, _, i, rfl⟩ := chosenNames_render _ _ n hn
  have h : 5 < (scenarioLogName sc).length := by
    cases sc with
    | baseline => decide
    | mutant m =>
      show 5 < (Mutant.logFileNameBase m).length
      unfold Mutant.logFileNameBase
      simp only [List.length_append]
      have : "_line_".toList.length = 6 := by decide
      omega
  cases i with
  | zero => exact h
  | succ i =>
    simp only [renderLogName, List.length_append]
    omega

example : cleanFilename "a b/c:d\\e.rs".toList = "a_b__c_d_e.rs".toList := by decide

/-! ### C13 -/

/-- The verdict that a list file is for, said independently of the code. -/
def verdictOf : ListFile → SummaryOutcome
  | .missed => .missedMutant
  | .caught => .caughtMutant
  | .timeout => .timeout
  | .unviable => .unviable

theorem listFileFor_iff (s : SummaryOutcome) (l : ListFile) : listFileFor s = some l ↔ s = verdictOf l := by
  cases s <;> cases l <;> simp [listFileFor, verdictOf]

theorem flatMap_lineFor (l : ListFile) (os : List ScenarioOutcome) :
    os.flatMap (lineFor l) = (namesWith (verdictOf l) os).flatMap fun n => n ++ "\n".toList := by
  induction os with
  | nil => rfl
  | cons o os ih =>
    rw [List.flatMap_cons, ih]
    unfold namesWith
    cases hs : o.scenario with
    | baseline => rw [List.filterMap_cons]; simp [lineFor, hs]
    | mutant m =>
      rw [List.filterMap_cons]
      have e : (o.summary.bind listFileFor = some l) ↔ o.summary = some (verdictOf l) := by
        cases o.summary with
        | none => simp
        | some s => simp [listFileFor_iff]
      by_cases hv : o.summary = some (verdictOf l)
      · cases hn : m.name true with
        | none => simp [lineFor, hs, e, hv, hn]
        | some n => simp [lineFor, hs, hv, hn, (listFileFor_iff (verdictOf l) l).2 rfl]
      · simp [lineFor, hs, e, hv]

/-- C13: after recording any sequence of outcomes in a fresh output directory, each list file holds
the names of the mutants recorded with its verdict, each followed by a line feed, in the order of
completion; and `outcomes.json` holds those same outcomes in that order. -/
theorem C13_lists_agree (os : List ScenarioOutcome) (g : OutputFiles)
    (h : OutputFiles.addOutcomes {} os = some g) :
    g.missedTxt = (namesWith .missedMutant os).flatMap (· ++ "\n".toList) ∧
    g.caughtTxt = (namesWith .caughtMutant os).flatMap (· ++ "\n".toList) ∧
    g.timeoutTxt = (namesWith .timeout os).flatMap (· ++ "\n".toList) ∧
    g.unviableTxt = (namesWith .unviable os).flatMap (· ++ "\n".toList) ∧
    (os ≠ [] → ∃ j, g.outcomesJson = some j ∧ j.outcomes = os) := by
  obtain ⟨h1, h2, h3⟩ := addOutcomes_spec h
  have e : ∀ l, g.get l = (namesWith (verdictOf l) os).flatMap fun n => n ++ "\n".toList := by
    intro l; rw [h2, ← flatMap_lineFor]; cases l <;> rfl
  refine ⟨e .missed, e .caught, e .timeout, e .unviable, ?_⟩
  intro hne
  rcases h3 with h3 | h3
  · exact ⟨_, h3, by simpa using (addAll_spec h1).1⟩
  · exact absurd h3.1 hne

/-- C13 in full: read line by line, each list gives the names recorded with its verdict. -/
def C13_full : Prop :=
  ∀ (os : List ScenarioOutcome) (g : OutputFiles), (∀ o ∈ os, Recordable o) →
    OutputFiles.addOutcomes {} os = some g →
    rustLines g.missedTxt = namesWith .missedMutant os ∧
    rustLines g.caughtTxt = namesWith .caughtMutant os ∧
    rustLines g.timeoutTxt = namesWith .timeout os ∧
    rustLines g.unviableTxt = namesWith .unviable os

/-- A mutant in a directory with a line feed in its name. -/
def twoLineMutant : Mutant := { sampleMutant with
  sourceFile := { sampleMutant.sourceFile with path := ["a\nsrc".toList, "lib.rs".toList] } }

/-- The outcome of that mutant being caught. -/
def twoLineOutcome : ScenarioOutcome :=
  ⟨.mutant twoLineMutant, [⟨.build, 1, .success, []⟩, ⟨.test, 1, .failure 101, []⟩]⟩

/-- C13: names are not escaped, so one with a line feed makes two lines. The second is here the name
of another mutant, that was never tested. -/
theorem C13_one_line_each_false : ¬ C13_full := by
  intro h
  have := (h [twoLineOutcome] ((OutputFiles.addOutcomes {} [twoLineOutcome]).getD {})
    (by
      intro o ho
      cases List.mem_singleton.1 ho
      refine ⟨by decide, ?_⟩
      intro m hm
      cases hm
      decide) (by decide)).2.1
  exact absurd this (by decide)

example : sampleMutant.name true ∈ (rustLines
    ((OutputFiles.addOutcomes {} [twoLineOutcome]).getD {}).caughtTxt).map some := by decide

/-- C13: read back line by line, as `--iterate` does, the lists give those names, provided that names
fit on a line. -/
theorem C13_lists_read_back_partial (os : List ScenarioOutcome) (g : OutputFiles)
    (h : OutputFiles.addOutcomes {} os = some g)
    (hl : ∀ v, ∀ n ∈ namesWith v os, OneLine n) :
    rustLines g.missedTxt = namesWith .missedMutant os ∧
    rustLines g.caughtTxt = namesWith .caughtMutant os ∧
    rustLines g.timeoutTxt = namesWith .timeout os ∧
    rustLines g.unviableTxt = namesWith .unviable os := by
  obtain ⟨h1, h2, h3, h4, _⟩ := C13_lists_agree os g h
  refine ⟨?_, ?_, ?_, ?_⟩
  · rw [h1]; exact rustLines_flatMap _ (hl _)
  · rw [h2]; exact rustLines_flatMap _ (hl _)
  · rw [h3]; exact rustLines_flatMap _ (hl _)
  · rw [h4]; exact rustLines_flatMap _ (hl _)

theorem joinWith_mem {sep : Text} {ps : List Text} {c : Char} (h : c ∈ joinWith sep ps) :
    c ∈ sep ∨ ∃ p ∈ ps, c ∈ p := by
  induction ps with
  | nil => cases h
  | cons p ps ih =>
    cases ps with
    | nil => exact .inr ⟨p, by simp, by simpa [joinWith] using h⟩
    | cons q ps =>
      simp only [joinWith, List.mem_append] at h
      rcases h with (h | h) | h
      · exact .inr ⟨p, by simp, h⟩
      · exact .inl h
      · rcases ih h with h | ⟨x, hx, h⟩
        · exact .inl h
        · exact .inr ⟨x, by simp [hx], h⟩

/-- C13: a name fits on a line if the texts that it is made of have no line feed or carriage return:
the path, the name and return type of the function, the text replaced and the replacement. -/
theorem C13_names_fit_on_a_line (m : Mutant) (n : Text) (h : m.name true = some n)
    (hp : ∀ c ∈ m.sourceFile.path, '\n' ∉ c ∧ '\r' ∉ c)
    (hf : ∀ f, m.function = some f → ('\n' ∉ f.functionName ∧ '\r' ∉ f.functionName) ∧
      '\n' ∉ f.returnType ∧ '\r' ∉ f.returnType)
    (ho : '\n' ∉ originalText m.sourceFile.code m.span ∧ '\r' ∉ originalText m.sourceFile.code m.span)
    (hr : '\n' ∉ m.replacement ∧ '\r' ∉ m.replacement) : OneLine n := by
  have main : ∀ x, x = '\n' ∨ x = '\r' → x ∉ n := by
    intro x hx
    have hd : x.isDigit = false := by rcases hx with rfl | rfl <;> decide
    have hpx : ∀ c ∈ m.sourceFile.path, x ∉ c := by
      intro c hc; rcases hx with rfl | rfl <;> simp [hp c hc]
    have hox : x ∉ originalText m.sourceFile.code m.span := by
      rcases hx with rfl | rfl <;> simp [ho]
    have hrx : x ∉ m.replacement := by rcases hx with rfl | rfl <;> simp [hr]
    have hfx : ∀ f, m.function = some f → x ∉ f.functionName ∧ x ∉ f.returnType := by
      intro f h; rcases hx with rfl | rfl <;> simp [hf f h]
    have hlit : ∀ t ∈ ["/", "replace ", " ", " with ", "replace match guard with ", "delete match arm",
        "delete ", " in ", ":", ": "].map String.toList, x ∉ t := by
      rcases hx with rfl | rfl <;> decide
    have hslash : x ∉ toSlashPath m.sourceFile.path := by
      intro hm
      rcases joinWith_mem hm with h | ⟨p, hpm, h⟩
      · exact hlit _ (by simp) h
      · obtain ⟨c, hc, rfl⟩ := List.mem_map.1 hpm
        split at h
        · cases h
        · exact hpx c (List.mem_filter.1 hc).1 h
    unfold Mutant.name at h
    obtain ⟨d, hd', rfl⟩ := Option.map_eq_some_iff.1 h
    have hdx : x ∉ d := by
      unfold Mutant.describe at hd'
      split at hd'
      · obtain ⟨f, hf, rfl⟩ := Option.map_eq_some_iff.1 hd'
        have := hfx f hf
        have h1 := hlit "replace ".toList (by simp)
        have h2 := hlit " ".toList (by simp)
        have h3 := hlit " with ".toList (by simp)
        split <;> simp only [List.mem_append, not_or] <;> simp_all
      · cases hd'
        have h1 := hlit "replace match guard with ".toList (by simp)
        simp only [List.mem_append, not_or]
        exact ⟨h1, hrx⟩
      · cases hd'; exact hlit "delete match arm".toList (by simp)
      all_goals
        cases hd'
        have h1 := hlit "delete ".toList (by simp)
        have h2 := hlit "replace ".toList (by simp)
        have h3 := hlit " with ".toList (by simp)
        have h4 := hlit " in ".toList (by simp)
        simp only [List.mem_append, not_or]
        refine ⟨⟨⟨?_, hox⟩, ?_⟩, ?_⟩
        · split <;> assumption
        · split
          · simp
          · simp only [List.mem_append, not_or]; exact ⟨h3, hrx⟩
        · split
          · rename_i f hf
            simp only [List.mem_append, not_or]; exact ⟨h4, (hfx f hf).1⟩
          · simp
    have h5 := hlit ":".toList (by simp)
    have h6 := hlit ": ".toList (by simp)
    simp only [if_true, List.mem_append, not_or]
    exact ⟨⟨hslash, ⟨⟨⟨h5, not_mem_decimal hd⟩, h5⟩, not_mem_decimal hd⟩, h6⟩, hdx⟩
  refine ⟨main _ (.inl rfl), fun hl => main '\r' (.inr rfl) (List.mem_of_getLast? hl)⟩

example : ∃ n, sampleMutant.name true = some n ∧ OneLine n := ⟨_, rfl, by decide⟩

/-- C13: a mutant whose name is in the lists for two verdicts was recorded twice, with both. -/
theorem C13_one_list_each (os : List ScenarioOutcome) (v w : SummaryOutcome) (n : Text)
    (hv : n ∈ namesWith v os) (hw : n ∈ namesWith w os)
    (hu : ∀ o ∈ os, ∀ o' ∈ os, ∀ m m', o.scenario = .mutant m → o'.scenario = .mutant m' →
      m.name true = m'.name true → o = o') : v = w := by
  have key : ∀ v, n ∈ namesWith v os → ∃ o ∈ os, ∃ m, o.scenario = .mutant m ∧
      o.summary = some v ∧ m.name true = some n := by
    intro v hv
    unfold namesWith at hv
    rw [List.mem_filterMap] at hv
    obtain ⟨o, ho, h⟩ := hv
    cases hs : o.scenario with
    | baseline => rw [hs] at h; cases h
    | mutant m =>
      rw [hs] at h
      simp only at h
      split at h
      · rename_i hsum; exact ⟨o, ho, m, hs, hsum, h⟩
      · cases h
  obtain ⟨o, ho, m, a1, a2, a3⟩ := key v hv
  obtain ⟨o', ho', m', b1, b2, b3⟩ := key w hw
  have := hu o ho o' ho' m m' a1 b1 (by rw [a3, b3])
  subst this
  rw [a2] at b2
  exact Option.some.inj b2

theorem summary_some (o : ScenarioOutcome) (h : o.phaseResults ≠ []) : ∃ s, o.summary = some s := by
  have hl : ∃ pr, o.phaseResults.getLast? = some pr := by
    cases h' : o.phaseResults.getLast? with
    | none => rw [List.getLast?_eq_none_iff] at h'; exact absurd h' h
    | some pr => exact ⟨pr, rfl⟩
  obtain ⟨pr, hpr⟩ := hl
  cases hs : o.scenario with
  | baseline =>
    simp only [ScenarioOutcome.summary, hs, ScenarioOutcome.success,
      ScenarioOutcome.lastPhaseResult, hpr]
    split
    · exact ⟨_, rfl⟩
    · exact ⟨_, rfl⟩
  | mutant m =>
    simp only [ScenarioOutcome.summary, hs, ScenarioOutcome.success, ScenarioOutcome.mutantCaught,
      ScenarioOutcome.mutantMissed, Scenario.isMutant,
      ScenarioOutcome.lastPhase, ScenarioOutcome.lastPhaseResult, hpr]
    simp only [if_true, Option.map_some, Option.bind_eq_bind, Option.bind_some, Option.pure_def]
    repeat' split
    all_goals exact ⟨_, rfl⟩

theorem addOutcome_total (f : OutputFiles) (o : ScenarioOutcome) (h : Recordable o) :
    ∃ g, f.addOutcome o = some g := by
  obtain ⟨s, hs⟩ := summary_some o h.1
  have hadd : ∃ l, f.lab.add o = some l := by
    unfold LabOutcome.add
    split
    · rw [hs]; exact ⟨_, rfl⟩
    · exact ⟨_, rfl⟩
  obtain ⟨lab, hlab⟩ := hadd
  unfold OutputFiles.addOutcome addOutcomeWrites
  cases hsc : o.scenario with
  | baseline => simp [OutputFiles.writeAll, OutputFiles.write, hlab]
  | mutant m =>
    cases hn : m.name true with
    | none => exact absurd hn (h.2 m hsc)
    | some n =>
      simp only [hs, Option.bind_eq_bind, Option.bind_some]
      cases listFileFor s with
      | none => simp [OutputFiles.writeAll, OutputFiles.write, hlab]
      | some l => simp [hn, OutputFiles.writeAll, OutputFiles.write, hlab]

theorem addOutcomes_total (f : OutputFiles) (os : List ScenarioOutcome) (h : ∀ o ∈ os, Recordable o) :
    ∃ g, f.addOutcomes os = some g := by
  induction os generalizing f with
  | nil => exact ⟨f, rfl⟩
  | cons o os ih =>
    obtain ⟨f1, h1⟩ := addOutcome_total f o (h o (by simp))
    obtain ⟨g, h2⟩ := ih f1 fun o ho => h o (by simp [ho])
    exact ⟨g, by simp [OutputFiles.addOutcomes, h1, h2]⟩

/-- C13: recording never panics for the outcomes that a run makes. -/
theorem C13_recording_total (os : List ScenarioOutcome) (h : ∀ o ∈ os, Recordable o) :
    ∃ g, OutputFiles.addOutcomes {} os = some g := addOutcomes_total {} os h

/-- Concrete outcomes: baseline passed, one mutant caught, one missed. -/
def listedOutcomes : List ScenarioOutcome :=
  [⟨.baseline, [⟨.build, 1, .success, []⟩, ⟨.test, 1, .success, []⟩]⟩,
   ⟨.mutant sampleMutant, [⟨.build, 1, .success, []⟩, ⟨.test, 1, .failure 101, []⟩]⟩,
   ⟨.mutant { sampleMutant with replacement := "false".toList },
     [⟨.build, 1, .success, []⟩, ⟨.test, 1, .success, []⟩]⟩]

example : (OutputFiles.addOutcomes {} listedOutcomes).map (fun g => (g.caughtTxt, g.missedTxt)) =
    some ("src/lib.rs:1:18: replace f -> bool with true\n".toList,
      "src/lib.rs:1:18: replace f -> bool with false\n".toList) := by decide
example : ∀ n ∈ namesWith .caughtMutant listedOutcomes, OneLine n := by decide

/-! ### C14 -/

theorem crash_shape {os : List ScenarioOutcome} {ws : List OutputWrite} (hws : allWrites os = some ws)
    (f g : OutputFiles) (k : Nat) (hg : f.writeAll (ws.take k) = some g) :
    ∃ pre post fpre, os = pre ++ post ∧ f.addOutcomes pre = some fpre ∧
      (g = fpre ∨ ∃ o post' ow j, post = o :: post' ∧ addOutcomeWrites o = some ow ∧
        fpre.writeAll (ow.take j) = some g) := by
  induction os generalizing f ws k with
  | nil =>
    simp only [allWrites, Option.some.injEq] at hws
    subst hws
    simp only [List.take_nil, OutputFiles.writeAll, Option.some.injEq] at hg
    exact ⟨[], [], f, rfl, rfl, .inl hg.symm⟩
  | cons o os ih =>
    simp only [allWrites, Option.bind_eq_bind, Option.bind_eq_some_iff, Option.pure_def,
      Option.some.injEq] at hws
    obtain ⟨a, ha, b, hb, rfl⟩ := hws
    rw [List.take_append, writeAll_append] at hg
    by_cases hk : k ≤ a.length
    · rw [show k - a.length = 0 by omega] at hg
      simp only [List.take_zero] at hg
      refine ⟨[], o :: os, f, rfl, rfl, .inr ⟨o, os, a, k, rfl, ha, ?_⟩⟩
      cases hx : f.writeAll (a.take k) with
      | none => rw [hx] at hg; cases hg
      | some y => rw [hx] at hg; simpa [OutputFiles.writeAll] using hg
    · rw [List.take_of_length_le (by omega)] at hg
      cases hf : f.writeAll a with
      | none => rw [hf] at hg; cases hg
      | some f1 =>
        rw [hf] at hg
        simp only [Option.bind_some] at hg
        obtain ⟨pre, post, fpre, h1, h2, h3⟩ := ih hb f1 _ hg
        refine ⟨o :: pre, post, fpre, by simp [h1], ?_, h3⟩
        simp [OutputFiles.addOutcomes, OutputFiles.addOutcome, ha, hf, h2]

/-- What the four lists may hold at a crash: the lines of the first outcomes and, for the outcome
being recorded, nothing, or its name without or with the line feed. -/
theorem crash_states (os : List ScenarioOutcome) (ws : List OutputWrite)
    (hws : allWrites os = some ws) (k : Nat) (g : OutputFiles)
    (hg : OutputFiles.writeAll {} (ws.take k) = some g) :
    ∃ pre post, os = pre ++ post ∧
      -- either nothing of the next outcome is in the lists yet
      ((∀ l, g.get l = pre.flatMap (lineFor l)) ∧
          (g.outcomesJson = none ∨ ∃ j, g.outcomesJson = some j ∧
            (j.outcomes = pre ∨ ∃ o, post.head? = some o ∧ j.outcomes = pre ++ [o])) ∨
       -- or the next outcome is in `outcomes.json`, and its line is in its list, perhaps unfinished
       ∃ o l n, post.head? = some o ∧ lineFor l o = n ++ "\n".toList ∧
          (∃ j, g.outcomesJson = some j ∧ j.outcomes = pre ++ [o]) ∧
          (∀ l', l' ≠ l → g.get l' = pre.flatMap (lineFor l') ∧ lineFor l' o = []) ∧
          (g.get l = pre.flatMap (lineFor l) ++ n ∨ g.get l = pre.flatMap (lineFor l) ++ lineFor l o)) := by
  obtain ⟨pre, post, fpre, h1, h2, h3⟩ := crash_shape hws {} g k hg
  obtain ⟨p1, p2, p3⟩ := addOutcomes_spec h2
  have e0 : ∀ l, fpre.get l = pre.flatMap (lineFor l) := by
    intro l; rw [p2 l]; cases l <;> simp [OutputFiles.get]
  have hlabo : fpre.lab.outcomes = pre := by simpa using (addAll_spec p1).1
  have ejson : fpre.outcomesJson = none ∨ ∃ j, fpre.outcomesJson = some j ∧ j.outcomes = pre := by
    rcases p3 with p3 | p3
    · exact .inr ⟨_, p3, hlabo⟩
    · rw [p3.2]; exact .inl rfl
  refine ⟨pre, post, h1, ?_⟩
  rcases h3 with rfl | ⟨o, post', ow, j, hpost, how, hw⟩
  · left
    refine ⟨e0, ?_⟩
    rcases ejson with h | ⟨j, hj, hj'⟩
    · exact .inl h
    · exact .inr ⟨j, hj, .inl hj'⟩
  · -- the writes of one outcome
    have hshape : ow = [.remember o, .truncateJson, .writeJson] ∨
        ∃ m s l n, o.scenario = .mutant m ∧ o.summary = some s ∧ listFileFor s = some l ∧
          m.name true = some n ∧
          ow = [.remember o, .truncateJson, .writeJson, .appendName l n, .appendNewline l] := by
      unfold addOutcomeWrites at how
      cases hsc : o.scenario with
      | baseline => rw [hsc] at how; simp at how; exact .inl how.symm
      | mutant m =>
        rw [hsc] at how
        simp only [Option.bind_eq_bind, Option.bind_eq_some_iff] at how
        obtain ⟨s, hs, how⟩ := how
        split at how
        · simp at how; exact .inl how.symm
        · rename_i l hl
          simp only [Option.bind_eq_some_iff, Option.pure_def, Option.some.injEq] at how
          obtain ⟨n, hn, how⟩ := how
          exact .inr ⟨m, s, l, n, rfl, hs, hl, hn, how.symm⟩
    have hhead : post.head? = some o := by rw [hpost]; rfl
    cases hadd : fpre.lab.add o with
    | none =>
      left
      -- remembering panics, so nothing was written
      have : j = 0 := by
        cases j with
        | zero => rfl
        | succ j =>
          exfalso
          rcases hshape with rfl | ⟨m, s, l, n, _, _, _, _, rfl⟩ <;>
            simp [OutputFiles.writeAll, OutputFiles.write, hadd] at hw
      subst this
      simp only [List.take_zero, OutputFiles.writeAll, Option.some.injEq] at hw
      subst hw
      refine ⟨e0, ?_⟩
      rcases ejson with h | ⟨j, hj, hj'⟩
      · exact .inl h
      · exact .inr ⟨j, hj, .inl hj'⟩
    | some lab =>
      have hlab : lab.outcomes = pre ++ [o] := by rw [(add_spec hadd).1, hlabo]
      -- crash within the first three writes
      have first : ∀ g, (g = fpre ∨ g = { fpre with lab := lab } ∨
          g = { fpre with lab := lab, outcomesJson := none } ∨
          g = { fpre with lab := lab, outcomesJson := some lab }) →
          (∀ l, g.get l = pre.flatMap (lineFor l)) ∧
          (g.outcomesJson = none ∨ ∃ j, g.outcomesJson = some j ∧
            (j.outcomes = pre ∨ ∃ o, post.head? = some o ∧ j.outcomes = pre ++ [o])) := by
        intro g hg
        have hget : ∀ l, g.get l = fpre.get l := by
          rcases hg with rfl | rfl | rfl | rfl <;> intro l <;> cases l <;> rfl
        refine ⟨fun l => by rw [hget, e0], ?_⟩
        rcases hg with rfl | rfl | rfl | rfl
        · rcases ejson with h | ⟨j, hj, hj'⟩
          · exact .inl h
          · exact .inr ⟨j, hj, .inl hj'⟩
        · rcases ejson with h | ⟨j, hj, hj'⟩
          · exact .inl h
          · exact .inr ⟨j, hj, .inl hj'⟩
        · exact .inl rfl
        · exact .inr ⟨lab, rfl, .inr ⟨o, hhead, hlab⟩⟩
      rcases hshape with rfl | ⟨m, s, l, n, hsc, hs, hl, hn, rfl⟩
      · left
        apply first
        match j with
        | 0 => simp [OutputFiles.writeAll] at hw; exact .inl hw.symm
        | 1 =>
          simp [OutputFiles.writeAll, OutputFiles.write, hadd] at hw
          exact .inr (.inl hw.symm)
        | 2 =>
          simp [OutputFiles.writeAll, OutputFiles.write, hadd] at hw
          exact .inr (.inr (.inl hw.symm))
        | j + 3 =>
          simp [OutputFiles.writeAll, OutputFiles.write, hadd] at hw
          exact .inr (.inr (.inr hw.symm))
      · have hline : lineFor l o = n ++ "\n".toList := by simp [lineFor, hsc, hs, hl, hn]
        have hother : ∀ l', l' ≠ l → lineFor l' o = [] := by
          intro l' hne
          have : ¬ l = l' := fun h => hne h.symm
          simp [lineFor, hsc, hs, hl, this]
        have e1 : ∀ l', OutputFiles.get { fpre with lab := lab, outcomesJson := some lab } l' =
            pre.flatMap (lineFor l') := by intro l'; rw [← e0 l']; cases l' <;> rfl
        match j with
        | 0 => left; apply first; simp [OutputFiles.writeAll] at hw; exact .inl hw.symm
        | 1 =>
          left; apply first
          simp [OutputFiles.writeAll, OutputFiles.write, hadd] at hw
          exact .inr (.inl hw.symm)
        | 2 =>
          left; apply first
          simp [OutputFiles.writeAll, OutputFiles.write, hadd] at hw
          exact .inr (.inr (.inl hw.symm))
        | 3 =>
          left; apply first
          simp [OutputFiles.writeAll, OutputFiles.write, hadd] at hw
          exact .inr (.inr (.inr hw.symm))
        | 4 =>
          right
          simp only [List.take, OutputFiles.writeAll, OutputFiles.write, hadd, Option.map_some,
            Option.bind_some, Option.some.injEq] at hw
          subst hw
          refine ⟨o, l, n, hhead, hline, ⟨lab, by rw [append_json], hlab⟩, ?_, ?_⟩
          · intro l' hne
            have : ¬ l = l' := fun h => hne h.symm
            refine ⟨?_, hother l' hne⟩
            rw [append_get, if_neg this, List.append_nil, e1]
          · left; rw [append_get, if_pos rfl, e1]
        | j + 5 =>
          right
          simp only [List.take, List.take_nil, OutputFiles.writeAll, OutputFiles.write, hadd,
            Option.map_some, Option.bind_some, Option.some.injEq] at hw
          subst hw
          refine ⟨o, l, n, hhead, hline, ⟨lab, by rw [append_json, append_json], hlab⟩, ?_, ?_⟩
          · intro l' hne
            have : ¬ l = l' := fun h => hne h.symm
            refine ⟨?_, hother l' hne⟩
            rw [append_get, if_neg this, append_get, if_neg this, List.append_nil, List.append_nil, e1]
          · right; rw [append_get, if_pos rfl, append_get, if_pos rfl, e1, hline]; simp

theorem rustLines_torn (ls : List Text) (n : Text) (h : ∀ l ∈ ls, OneLine l) (hn : '\n' ∉ n) :
    rustLines (ls.flatMap (fun l => l ++ "\n".toList) ++ n) = ls ++ (if n = [] then [] else [n]) := by
  have torn : ∀ cur : Text, linesFrom cur n =
      if n.reverse ++ cur = [] then [] else [(n.reverse ++ cur).reverse] := by
    intro cur
    induction n generalizing cur with
    | nil => rfl
    | cons c n ih =>
      simp only [List.mem_cons, not_or] at hn
      have hc : c ≠ '\n' := fun e => hn.1 e.symm
      rw [linesFrom, if_neg hc, ih hn.2]
      simp
  unfold rustLines
  induction ls with
  | nil => rw [List.flatMap_nil, List.nil_append, torn]; simp
  | cons l ls ih =>
    have h1 := h l (by simp)
    have ih := ih fun x hx => h x (by simp [hx])
    rw [List.flatMap_cons]
    have : l ++ "\n".toList ++ ls.flatMap (fun l => l ++ "\n".toList) ++ n =
      l ++ '\n' :: (ls.flatMap (fun l => l ++ "\n".toList) ++ n) := by simp
    rw [this, linesFrom_clean _ _ h1.1 h1.2, ih]; rfl

/-- The list file that a verdict goes to, said independently of the code. -/
def listText (g : OutputFiles) : SummaryOutcome → Text
  | .missedMutant => g.missedTxt
  | .caughtMutant => g.caughtTxt
  | .timeout => g.timeoutTxt
  | .unviable => g.unviableTxt
  | _ => []

/-- `o` is the outcome of a mutant called `n` with verdict `v`. -/
def IsOutcomeOf (o : ScenarioOutcome) (n : Text) (v : SummaryOutcome) : Prop :=
  ∃ m, o.scenario = .mutant m ∧ m.name true = some n ∧ o.summary = some v

theorem mem_namesWith {v os n} : n ∈ namesWith v os ↔ ∃ o ∈ os, IsOutcomeOf o n v := by
  unfold namesWith IsOutcomeOf
  rw [List.mem_filterMap]
  constructor
  · rintro ⟨o, ho, h⟩
    cases hs : o.scenario with
    | baseline => rw [hs] at h; cases h
    | mutant m =>
      rw [hs] at h
      simp only at h
      split at h
      · rename_i hsum; exact ⟨o, ho, m, hs, h, hsum⟩
      · cases h
  · rintro ⟨o, ho, m, h1, h2, h3⟩
    exact ⟨o, ho, by simp [h1, h2, h3]⟩

theorem listText_eq (g : OutputFiles) (l : ListFile) : listText g (verdictOf l) = g.get l := by
  cases l <;> rfl

theorem namesWith_append (v a b) : namesWith v (a ++ b) = namesWith v a ++ namesWith v b := by
  unfold namesWith; rw [List.filterMap_append]

theorem name_ne_nil {m : Mutant} {n : Text} (h : m.name true = some n) : n ≠ [] := by
  unfold Mutant.name at h
  rw [Option.map_eq_some_iff] at h
  obtain ⟨d, _, rfl⟩ := h
  have : ":".toList ≠ [] := by decide
  simp

/-- The lists at a crash, as names: those of a prefix of the outcomes, each perhaps with the outcome
that follows. -/
theorem crash_lines (os : List ScenarioOutcome) (ws : List OutputWrite)
    (hws : allWrites os = some ws) (k : Nat) (g : OutputFiles)
    (hg : OutputFiles.writeAll {} (ws.take k) = some g)
    (hl : ∀ v, ∀ n ∈ namesWith v os, OneLine n) :
    ∃ pre post, os = pre ++ post ∧
      ((∀ l, rustLines (g.get l) = namesWith (verdictOf l) pre) ∧
          (g.outcomesJson = none ∨ ∃ j, g.outcomesJson = some j ∧
            (j.outcomes = pre ∨ ∃ o, post.head? = some o ∧ j.outcomes = pre ++ [o])) ∨
       (∃ o, post.head? = some o ∧
          (∃ j, g.outcomesJson = some j ∧ j.outcomes = pre ++ [o]) ∧
          (∀ l, rustLines (g.get l) = namesWith (verdictOf l) (pre ++ [o])))) := by
  obtain ⟨pre, post, h1, h2⟩ := crash_states os ws hws k g hg
  have hpre : ∀ v, ∀ n ∈ namesWith v pre, OneLine n := by
    intro v n hn; apply hl v; rw [h1, namesWith_append]; simp [hn]
  refine ⟨pre, post, h1, ?_⟩
  rcases h2 with ⟨h2, h3⟩ | ⟨o, l, n, ho, hline, hj, hother, hthis⟩
  · left
    refine ⟨fun l => ?_, h3⟩
    rw [h2, flatMap_lineFor]; exact rustLines_flatMap _ (hpre _)
  · right
    refine ⟨o, ho, hj, ?_⟩
    obtain ⟨post', rfl⟩ : ∃ p, post = o :: p := by
      cases post with
      | nil => cases ho
      | cons a p => simp at ho; subst ho; exact ⟨p, rfl⟩
    have hpo : ∀ v, ∀ n ∈ namesWith v (pre ++ [o]), OneLine n := by
      intro v n hn; apply hl v; rw [h1, show pre ++ o :: post' = (pre ++ [o]) ++ post' by simp,
        namesWith_append]; exact List.mem_append.2 (.inl hn)
    -- the name of `o`
    have hmo : ∃ m, o.scenario = .mutant m ∧ m.name true = some n ∧ o.summary = some (verdictOf l) := by
      unfold lineFor at hline
      cases hs : o.scenario with
      | baseline => rw [hs] at hline; simp at hline
      | mutant m =>
        rw [hs] at hline
        simp only at hline
        split at hline
        · rename_i hb
          cases hn : m.name true with
          | none => rw [hn] at hline; simp at hline
          | some n' =>
            rw [hn] at hline
            have := List.append_cancel_right hline
            refine ⟨m, rfl, by rw [← this]; exact hn, ?_⟩
            rw [Option.bind_eq_some_iff] at hb
            obtain ⟨s, hs1, hs2⟩ := hb
            rw [hs1, (listFileFor_iff _ _).1 hs2]
        · simp at hline
    obtain ⟨m, hm1, hm2, hm3⟩ := hmo
    have hno : namesWith (verdictOf l) [o] = [n] := by simp [namesWith, hm1, hm2, hm3]
    intro l'
    by_cases hll : l' = l
    · subst hll
      rcases hthis with h | h
      · rw [h, flatMap_lineFor, rustLines_torn _ _ (hpre _), if_neg (name_ne_nil hm2),
          namesWith_append, hno]
        have := hpo (verdictOf l') n (by rw [namesWith_append, hno]; simp)
        exact this.1
      · have : pre.flatMap (lineFor l') ++ lineFor l' o = (pre ++ [o]).flatMap (lineFor l') := by simp
        rw [h, this, flatMap_lineFor]; exact rustLines_flatMap _ (hpo _)
    · obtain ⟨a, b⟩ := hother l' hll
      have : namesWith (verdictOf l') [o] = [] := by
        have hne : ¬ verdictOf l = verdictOf l' := by
          intro e; apply hll; cases l <;> cases l' <;> simp [verdictOf] at e <;> rfl
        simp [namesWith, hm1, hm3, hne]
      rw [a, flatMap_lineFor, namesWith_append, this, List.append_nil]
      exact rustLines_flatMap _ (hpre _)

/-- C14: suppose the program is stopped after any number `k` of the writes it makes while recording
the outcomes `os`. Every line of a list file is the name of a mutant recorded with that verdict, and
if `outcomes.json` is then readable it has that outcome. -/
theorem C14_lists_never_claim_more_partial (os : List ScenarioOutcome) (ws : List OutputWrite)
    (hws : allWrites os = some ws) (k : Nat) (g : OutputFiles)
    (hg : OutputFiles.writeAll {} (ws.take k) = some g)
    (hl : ∀ v, ∀ n ∈ namesWith v os, OneLine n) :
    ∀ v ∈ [SummaryOutcome.missedMutant, .caughtMutant, .timeout, .unviable],
    ∀ n ∈ rustLines (listText g v),
      ∃ o ∈ os, IsOutcomeOf o n v ∧ ∀ j, g.outcomesJson = some j → o ∈ j.outcomes := by
  obtain ⟨pre, post, h1, h2⟩ := crash_lines os ws hws k g hg hl
  have main : ∀ l, ∀ n ∈ rustLines (g.get l),
      ∃ o ∈ os, IsOutcomeOf o n (verdictOf l) ∧ ∀ j, g.outcomesJson = some j → o ∈ j.outcomes := by
    intro l n hn
    rcases h2 with ⟨h2, h3⟩ | ⟨o, ho, ⟨j, hj, hj'⟩, h2⟩
    · rw [h2, mem_namesWith] at hn
      obtain ⟨o, ho, hio⟩ := hn
      refine ⟨o, by rw [h1]; simp [ho], hio, ?_⟩
      intro j hj
      rcases h3 with h3 | ⟨j', hj', h3⟩
      · rw [h3] at hj; cases hj
      · rw [hj'] at hj; cases hj
        rcases h3 with h3 | ⟨o', _, h3⟩ <;> rw [h3] <;> simp [ho]
    · rw [h2, mem_namesWith] at hn
      obtain ⟨o', ho', hio⟩ := hn
      have hmem : o ∈ post := by
        cases post with
        | nil => cases ho
        | cons a p => simp at ho; simp [ho]
      refine ⟨o', ?_, hio, ?_⟩
      · rw [h1]; rcases List.mem_append.1 ho' with h | h
        · simp [h]
        · simp at h; subst h; simp [hmem]
      · intro j2 hj2; rw [hj] at hj2; cases hj2; rw [hj']; exact ho'
  intro v hv n hn
  have : ∃ l, verdictOf l = v := by
    simp only [List.mem_cons, List.not_mem_nil, or_false] at hv
    rcases hv with rfl | rfl | rfl | rfl
    · exact ⟨.missed, rfl⟩
    · exact ⟨.caught, rfl⟩
    · exact ⟨.timeout, rfl⟩
    · exact ⟨.unviable, rfl⟩
  obtain ⟨l, rfl⟩ := this
  rw [listText_eq] at hn
  exact main l n hn

/-- C14: and of the outcomes in a readable `outcomes.json`, all but at most the last have their line
in the list of their verdict. -/
theorem C14_at_most_one_line_missing_partial (os : List ScenarioOutcome) (ws : List OutputWrite)
    (hws : allWrites os = some ws) (k : Nat) (g : OutputFiles)
    (hg : OutputFiles.writeAll {} (ws.take k) = some g)
    (hl : ∀ v, ∀ n ∈ namesWith v os, OneLine n)
    (j : LabOutcome) (hj : g.outcomesJson = some j) :
    (∃ rest, os = j.outcomes ++ rest) ∧
    ∀ o ∈ j.outcomes.dropLast, ∀ n,
      ∀ v ∈ [SummaryOutcome.missedMutant, .caughtMutant, .timeout, .unviable],
      IsOutcomeOf o n v → n ∈ rustLines (listText g v) := by
  obtain ⟨pre, post, h1, h2⟩ := crash_lines os ws hws k g hg hl
  have hpost : ∀ o, post.head? = some o → ∃ rest, post = o :: rest := by
    intro o ho
    cases post with
    | nil => cases ho
    | cons a p => simp at ho; subst ho; exact ⟨p, rfl⟩
  have hin : (∃ rest, os = j.outcomes ++ rest) ∧ (∀ o ∈ j.outcomes.dropLast, o ∈ pre) := by
    have hsnoc : ∀ o, post.head? = some o → j.outcomes = pre ++ [o] →
        (∃ rest, os = j.outcomes ++ rest) ∧ (∀ o ∈ j.outcomes.dropLast, o ∈ pre) := by
      intro o ho hjo
      obtain ⟨rest, hr⟩ := hpost o ho
      refine ⟨⟨rest, by rw [h1, hr, hjo]; simp⟩, ?_⟩
      rw [hjo, List.dropLast_concat]; exact fun o ho => ho
    rcases h2 with ⟨_, h3⟩ | ⟨o, ho, ⟨j', hj', h3⟩, _⟩
    · rcases h3 with h3 | ⟨j', hj', h3⟩
      · rw [h3] at hj; cases hj
      · rw [hj'] at hj; cases hj
        rcases h3 with h3 | ⟨o, ho, h3⟩
        · exact ⟨⟨post, by rw [h3]; exact h1⟩, by rw [h3]; exact fun o ho => (List.dropLast_sublist _).subset ho⟩
        · exact hsnoc o ho h3
    · rw [hj'] at hj; cases hj; exact hsnoc o ho h3
  have hlines : ∀ l n, n ∈ namesWith (verdictOf l) pre → n ∈ rustLines (g.get l) := by
    intro l n hn
    rcases h2 with ⟨h2, _⟩ | ⟨o, _, _, h2⟩
    · rw [h2]; exact hn
    · rw [h2, namesWith_append]; exact List.mem_append.2 (.inl hn)
  refine ⟨hin.1, ?_⟩
  intro o ho n v hv hio
  have : ∃ l, verdictOf l = v := by
    simp only [List.mem_cons, List.not_mem_nil, or_false] at hv
    rcases hv with rfl | rfl | rfl | rfl
    · exact ⟨.missed, rfl⟩
    · exact ⟨.caught, rfl⟩
    · exact ⟨.timeout, rfl⟩
    · exact ⟨.unviable, rfl⟩
  obtain ⟨l, rfl⟩ := this
  rw [listText_eq]
  exact hlines l n (mem_namesWith.2 ⟨o, hin.2 o ho, hio⟩)

/-- `outcomes.json` as it was last completely written when `k` of the writes `ws` are done: it held `j`
at some moment, and since then it still does or is being rewritten. -/
def LastWritten (ws : List OutputWrite) (k : Nat) (j : LabOutcome) : Prop :=
  ∃ k', k' ≤ k ∧ (∃ g, OutputFiles.writeAll {} (ws.take k') = some g ∧ g.outcomesJson = some j) ∧
    ∀ i, k' ≤ i → i ≤ k → ∀ g, OutputFiles.writeAll {} (ws.take i) = some g →
      g.outcomesJson = some j ∨ g.outcomesJson = none

theorem writes_shape {o : ScenarioOutcome} {ow} (how : addOutcomeWrites o = some ow) :
    ow = [.remember o, .truncateJson, .writeJson] ∨
    ∃ l n, ow = [.remember o, .truncateJson, .writeJson, .appendName l n, .appendNewline l] := by
  unfold addOutcomeWrites at how
  cases hsc : o.scenario with
  | baseline => rw [hsc] at how; simp at how; exact .inl how.symm
  | mutant m =>
    rw [hsc] at how
    simp only [Option.bind_eq_bind, Option.bind_eq_some_iff] at how
    obtain ⟨s, _, how⟩ := how
    split at how
    · simp at how; exact .inl how.symm
    · rename_i l _
      simp only [Option.bind_eq_some_iff, Option.pure_def, Option.some.injEq] at how
      obtain ⟨n, _, how⟩ := how
      exact .inr ⟨l, n, how.symm⟩

/-- Lines are appended only while `outcomes.json` is complete. -/
theorem append_needs_json {os : List ScenarioOutcome} {ws : List OutputWrite}
    (hws : allWrites os = some ws) (f g : OutputFiles) (k : Nat) (w : OutputWrite)
    (hg : f.writeAll (ws.take k) = some g) (hw : ws[k]? = some w)
    (happ : (∃ l n, w = .appendName l n) ∨ ∃ l, w = .appendNewline l) : g.outcomesJson ≠ none := by
  induction os generalizing f ws k with
  | nil => cases hws; cases hw
  | cons o os ih =>
    simp only [allWrites, Option.bind_eq_bind, Option.bind_eq_some_iff, Option.pure_def,
      Option.some.injEq] at hws
    obtain ⟨a, ha, b, hb, rfl⟩ := hws
    rw [List.take_append, writeAll_append] at hg
    by_cases hk : k < a.length
    · rw [show k - a.length = 0 by omega] at hg
      rw [List.getElem?_append_left hk] at hw
      obtain ⟨f1, h1, h2⟩ := Option.bind_eq_some_iff.1 hg
      cases h2
      have : k = 3 ∨ k = 4 := by
        rcases writes_shape ha with rfl | ⟨l, n, rfl⟩
        · match k, hk with
          | 0, _ | 1, _ | 2, _ =>
            cases hw; rcases happ with ⟨_, _, h⟩ | ⟨_, h⟩ <;> cases h
        · match k, hk with
          | 0, _ | 1, _ | 2, _ =>
            cases hw; rcases happ with ⟨_, _, h⟩ | ⟨_, h⟩ <;> cases h
          | 3, _ => exact .inl rfl
          | 4, _ => exact .inr rfl
      rcases writes_shape ha with rfl | ⟨l, n, rfl⟩
      · simp at hk; omega
      · rcases this with rfl | rfl
        · simp only [List.take, OutputFiles.writeAll, OutputFiles.write] at h1
          cases hl : f.lab.add o with
          | none => rw [hl] at h1; cases h1
          | some lab => rw [hl] at h1; cases h1; simp
        · simp only [List.take, OutputFiles.writeAll, OutputFiles.write] at h1
          cases hl : f.lab.add o with
          | none => rw [hl] at h1; cases h1
          | some lab => rw [hl] at h1; cases h1; simp [append_json]
    · rw [List.take_of_length_le (by omega)] at hg
      rw [List.getElem?_append_right (by omega)] at hw
      obtain ⟨f1, h1, h2⟩ := Option.bind_eq_some_iff.1 hg
      exact ih hb f1 _ h2 hw

/-- C14: the same for `outcomes.json` as it was last completely written, also while it is being
rewritten: there is such a file as soon as a list has a line, and it has the outcome of every line. -/
theorem C14_last_written_has_every_line_partial (os : List ScenarioOutcome) (ws : List OutputWrite)
    (hws : allWrites os = some ws) (k : Nat) (g : OutputFiles)
    (hg : OutputFiles.writeAll {} (ws.take k) = some g)
    (hl : ∀ v, ∀ n ∈ namesWith v os, OneLine n) :
    ∀ v ∈ [SummaryOutcome.missedMutant, .caughtMutant, .timeout, .unviable],
    ∀ n ∈ rustLines (listText g v),
      ∃ o ∈ os, IsOutcomeOf o n v ∧ ∃ j, LastWritten ws k j ∧ o ∈ j.outcomes := by
  intro v hv n hn
  -- a complete file is the last written
  have now : ∀ k g, OutputFiles.writeAll {} (ws.take k) = some g → ∀ n ∈ rustLines (listText g v),
      g.outcomesJson ≠ none → ∃ o ∈ os, IsOutcomeOf o n v ∧ ∃ j, LastWritten ws k j ∧ o ∈ j.outcomes := by
    intro k g hg n hn hne
    obtain ⟨o, ho, hio, hj⟩ := C14_lists_never_claim_more_partial os ws hws k g hg hl v hv n hn
    cases hjs : g.outcomesJson with
    | none => exact absurd hjs hne
    | some j =>
      refine ⟨o, ho, hio, j, ⟨k, Nat.le_refl k, ⟨g, hg, hjs⟩, ?_⟩, hj j hjs⟩
      intro i h1 h2 g' hg'
      have : i = k := by omega
      subst this
      rw [hg] at hg'; cases hg'; exact .inl hjs
  induction k generalizing g with
  | zero =>
    cases hg
    simp only [List.mem_cons, List.not_mem_nil, or_false] at hv
    rcases hv with rfl | rfl | rfl | rfl <;> cases hn
  | succ k ih =>
    cases hk : ws[k]? with
    | none =>
      have hle : ws.length ≤ k := List.getElem?_eq_none_iff.1 hk
      rw [List.take_of_length_le (by omega)] at hg
      have hg2 : OutputFiles.writeAll {} (ws.take k) = some g := by
        rw [List.take_of_length_le hle]; exact hg
      obtain ⟨o, ho, hio, j, ⟨k', h1, h2, h3⟩, hoj⟩ := ih g hg2 hn
      refine ⟨o, ho, hio, j, ⟨k', by omega, h2, ?_⟩, hoj⟩
      intro i h4 h5 g' hg'
      by_cases h6 : i ≤ k
      · exact h3 i h4 h6 g' hg'
      · have : i = k + 1 := by omega
        subst this
        rw [List.take_of_length_le (by omega), hg] at hg'
        cases hg'
        exact h3 k h1 (Nat.le_refl k) g hg2
    | some w =>
      have htake : ws.take (k + 1) = ws.take k ++ [w] := by
        rw [List.take_add_one, hk]; rfl
      have hsplit := hg
      rw [htake, writeAll_append] at hsplit
      obtain ⟨f, hf, hw⟩ := Option.bind_eq_some_iff.1 hsplit
      simp only [OutputFiles.writeAll] at hw
      obtain ⟨g', hw, hgg⟩ := Option.bind_eq_some_iff.1 hw
      cases hgg
      -- a write that neither touches the lists nor completes the file
      have same : listText g v = listText f v → (g.outcomesJson = f.outcomesJson ∨ g.outcomesJson = none) →
          ∃ o ∈ os, IsOutcomeOf o n v ∧ ∃ j, LastWritten ws (k + 1) j ∧ o ∈ j.outcomes := by
        intro ht hj
        obtain ⟨o, ho, hio, j, ⟨k', h1, h2, h3⟩, hoj⟩ := ih f hf (ht ▸ hn)
        refine ⟨o, ho, hio, j, ⟨k', by omega, h2, ?_⟩, hoj⟩
        intro i h4 h5 g' hg'
        by_cases h6 : i ≤ k
        · exact h3 i h4 h6 g' hg'
        · have : i = k + 1 := by omega
          subst this
          rw [hg] at hg'
          cases hg'
          rcases hj with hj | hj
          · rw [hj]; exact h3 k h1 (Nat.le_refl k) f hf
          · exact .inr hj
      cases w with
      | remember o =>
        obtain ⟨lab, _, rfl⟩ := Option.map_eq_some_iff.1 hw
        exact same (by cases v <;> rfl) (.inl rfl)
      | truncateJson => cases hw; exact same (by cases v <;> rfl) (.inr rfl)
      | writeJson => cases hw; exact now _ _ hg n hn (by simp)
      | appendName l m =>
        have := append_needs_json hws {} f k _ hf hk (.inl ⟨l, m, rfl⟩)
        cases hw
        exact now _ _ hg n hn (by rw [append_json]; exact this)
      | appendNewline l =>
        have := append_needs_json hws {} f k _ hf hk (.inr ⟨l, rfl⟩)
        cases hw
        exact now _ _ hg n hn (by rw [append_json]; exact this)

/-- The last complete file while it is being rewritten for the third outcome. -/
example : ((OutputFiles.writeAll {} (((allWrites listedOutcomes).getD []).take 10)).map fun g =>
    (rustLines g.caughtTxt, g.outcomesJson)) =
      some (["src/lib.rs:1:18: replace f -> bool with true".toList], none) ∧
    ((OutputFiles.writeAll {} (((allWrites listedOutcomes).getD []).take 8)).bind fun g =>
      g.outcomesJson.map (·.caught)) = some 1 := by decide

/-- C14 in full: at every crash point each line of a list is the name of a mutant with that verdict. -/
def C14_full : Prop :=
  ∀ (os : List ScenarioOutcome) (ws : List OutputWrite), (∀ o ∈ os, Recordable o) →
    allWrites os = some ws → ∀ (k : Nat) (g : OutputFiles),
    OutputFiles.writeAll {} (ws.take k) = some g →
    ∀ v ∈ [SummaryOutcome.missedMutant, .caughtMutant, .timeout, .unviable],
    ∀ n ∈ rustLines (listText g v),
      ∃ o ∈ os, IsOutcomeOf o n v ∧ ∃ j, LastWritten ws k j ∧ o ∈ j.outcomes

/-- C14: a line feed in a path makes a line that names a mutant which was never tested. -/
theorem C14_lists_never_claim_more_false : ¬ C14_full := by
  intro h
  have hr : ∀ o ∈ [twoLineOutcome], Recordable o := by
    intro o ho
    cases List.mem_singleton.1 ho
    refine ⟨by decide, ?_⟩
    intro m hm
    cases hm
    decide
  obtain ⟨o, ho, ⟨m, hm, hn, _⟩, _⟩ := h [twoLineOutcome] ((allWrites [twoLineOutcome]).getD []) hr
    (by decide) 5 ((OutputFiles.writeAll {} (((allWrites [twoLineOutcome]).getD []).take 5)).getD {})
    (by decide) .caughtMutant (by decide) "src/lib.rs:1:18: replace f -> bool with true".toList
    (by decide)
  cases List.mem_singleton.1 ho
  cases hm
  exact absurd hn (by decide)

/-- What one might expect besides: once an outcome was written, `outcomes.json` stays readable. -/
def OutcomesJsonStaysReadable : Prop :=
  ∀ os ws k g, allWrites os = some ws → OutputFiles.writeAll {} (ws.take k) = some g → 3 ≤ k →
    g.outcomesJson ≠ none

/-- C14: it does not: the file is rewritten in place, so a crash in between loses it. -/
theorem C14_outcomes_json_stays_readable_false : ¬ OutcomesJsonStaysReadable := by
  intro h
  have hw : ∃ ws, allWrites listedOutcomes = some ws ∧
      ∃ g, OutputFiles.writeAll {} (ws.take 5) = some g ∧ g.outcomesJson = none := by
    refine ⟨(allWrites listedOutcomes).getD [], by decide, ?_⟩
    refine ⟨(OutputFiles.writeAll {} (((allWrites listedOutcomes).getD []).take 5)).getD {}, ?_, ?_⟩ <;>
      decide
  obtain ⟨ws, h1, g, h2, h3⟩ := hw
  exact h _ _ 5 g h1 h2 (by omega) h3

/-- A crash with a line half written: the name is there without its line feed, and it is already in
`outcomes.json`. -/
example : ((OutputFiles.writeAll {} (((allWrites listedOutcomes).getD []).take 7)).map fun g =>
    (g.caughtTxt, g.outcomesJson.map (·.caught))) =
    some ("src/lib.rs:1:18: replace f -> bool with true".toList, some 1) := by decide

end CM.Props
