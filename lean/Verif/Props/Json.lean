import Verif.Proofs.JsonFiles
import Verif.Props.Name
import Verif.Props.Output
import Verif.Props.Lab
/-! C74: the JSON files say what was found and recorded. -/
namespace CM.Props
open CM CM.Spec CM.JsonProofs

/-- C74: whatever value is written, with whatever texts in it, reading the text gives the value back. -/
theorem C74_written_is_read (v : Json) (h : NumbersOk v) : readJson (v.pretty 0) = some v := readJson_pretty v h

/-- C74: `mutants.json` lists the mutants that are queued, each once, in the order of the queue, with all
that there is to say about them. -/
theorem C74_mutants_json (a : MainArgs) (r : Nat → Nat) (ms : List Mutant) :
    ∃ queue, queue.Perm ms ∧ queue = testQueue a r ms ∧
      readMutants (mutantsJsonText a r ms) = some (queue.map (entryOf · none)) := by
  refine ⟨testQueue a r ms, (C66_shuffle_keeps_mutants a.options.noShuffle r ms).1, rfl, ?_⟩
  unfold readMutants mutantsJsonText mutantsJson
  rw [readJson_pretty _ (numbersOk_array (by
    intro x hx
    obtain ⟨m, _, rfl⟩ := List.mem_map.1 hx
    exact numbersOk_mutant m))]
  simp only [Option.bind_eq_bind, Option.bind_some, elements_array, List.map_map]
  exact readAll_map (fun m _ => readMutant_json m.toJson)

/-- C74: `--list --json` prints the same of each mutant, and with `--diff` the diff too. -/
theorem C74_list_json (w : World) (diff : Bool) (ms : List Mutant) :
    readMutants (listJsonText w diff ms) =
      some (ms.map fun m => entryOf m (if diff then some (w.unifiedDiff m) else none)) := by
  unfold readMutants listJsonText listMutantsJson
  rw [readJson_pretty _ (numbersOk_array (by
    intro x hx
    obtain ⟨m, _, rfl⟩ := List.mem_map.1 hx
    exact numbersOk_listed m))]
  simp only [Option.bind_eq_bind, Option.bind_some, elements_array, List.map_map]
  refine readAll_map (fun m _ => ?_)
  show readMutant (MutantJson.listed _) = _
  rw [readMutant_listed]
  cases diff <;> rfl

/-- C74: `--list-files --json` prints the path and the package of each file. -/
theorem C74_list_files_json (fs : List SourceFile) :
    readFiles (listFilesJsonText fs) = some (fs.map fun f => (toSlashPath f.path, f.package.name)) := by
  unfold readFiles listFilesJsonText
  rw [readJson_pretty _ (numbersOk_array (by
    intro x hx
    obtain ⟨m, _, rfl⟩ := List.mem_map.1 hx
    exact numbersOk_toValue _ (numbersOk_object (by simp [numbersOk_str]))))]
  simp only [Option.bind_eq_bind, Option.bind_some, elements_array]
  refine readAll_map (fun f _ => ?_)
  have h1 : field "path".toList (Json.object [("path".toList, .str (toSlashPath f.path)),
    ("package".toList, .str f.package.name)]).toValue = some (.str (toSlashPath f.path)) := rfl
  have h2 : field "package".toList (Json.object [("path".toList, .str (toSlashPath f.path)),
    ("package".toList, .str f.package.name)]).toValue = some (.str f.package.name) := rfl
  simp only [h1, h2, asText_str, Option.bind_some, Option.pure_def]

/-- C74: an entry determines the edit: two mutants of the same text of the same ordinary path with equal
entries give the same mutated text. -/
theorem C74_entry_determines_edit (m m' : Mutant) (d d' : Option Text) (h : entryOf m d = entryOf m' d')
    (hp : OrdinaryPath m.sourceFile.path) (hp' : OrdinaryPath m'.sourceFile.path)
    (hc : m.sourceFile.path = m'.sourceFile.path → m.sourceFile.code = m'.sourceFile.code) :
    m.mutated = m'.mutated ∧ m.name true = m'.name true := by
  simp only [entryOf, MutantJson.mk.injEq] at h
  obtain ⟨-, h2, h3, h4, h5, h6, -⟩ := h
  have hpath := slash_injective hp hp' h2
  have hcode := hc hpath
  constructor
  · simp only [Mutant.mutated, hcode, h4, h5]
  · simp only [Mutant.name, Mutant.describe, hpath, hcode, h3, h4, h5, h6]

theorem saysFrom_index {w : JsonWorld} {os : List ScenarioOutcome} {i : Nat} {ss : List OutcomeSays}
    (h : saysFrom w i os = some ss) :
    ss.length = os.length ∧ ∀ j o, os[j]? = some o → ∃ e, ss[j]? = some e ∧ SaysOf w (i + j) o e := by
  induction os generalizing i ss with
  | nil => cases h; exact ⟨rfl, fun j o ho => by simp at ho⟩
  | cons o os ih =>
    rw [saysFrom] at h
    cases hs : o.summary with
    | none => rw [hs] at h; cases h
    | some s =>
      rw [hs] at h
      simp only [Option.bind_eq_bind, Option.bind_some] at h
      cases hr : saysFrom w (i + 1) os with
      | none => rw [hr] at h; cases h
      | some rest =>
        rw [hr] at h
        cases h
        obtain ⟨hl, hi⟩ := ih hr
        refine ⟨by simp [hl], ?_⟩
        intro j o' ho
        cases j with
        | zero =>
          simp only [List.getElem?_cons_zero, Option.some.injEq] at ho
          subst ho
          refine ⟨saysOf w i o s, by simp, ⟨?_, hs, rfl, rfl, ?_, ?_⟩⟩
          · show scenarioSays o.scenario = _
            cases o.scenario <;> rfl
          · simp [saysOf]
          · simp [saysOf]
        | succ j =>
          simp only [List.getElem?_cons_succ] at ho ⊢
          obtain ⟨e, h1, h2⟩ := hi j o' ho
          exact ⟨e, h1, by rw [show i + (j + 1) = i + 1 + j by omega]; exact h2⟩

/-- C74: `outcomes.json` has an entry for each outcome, in order, which says what the scenario, its verdict
and its commands were; and it holds the counts. -/
theorem C74_outcomes_json (w : JsonWorld) (hw : ∀ n, isNumber (w.seconds n) = true) (l : LabOutcome) (t : Text)
    (h : outcomesJsonText w l = some t) :
    ∃ s, readOutcomes t = some s ∧ s.outcomes.length = l.outcomes.length ∧
      (∀ i o, l.outcomes[i]? = some o → ∃ e, s.outcomes[i]? = some e ∧ SaysOf w i o e) ∧
      s.total = l.totalMutants ∧ s.missed = l.missed ∧ s.caught = l.caught ∧ s.timeout = l.timeout ∧
      s.unviable = l.unviable ∧ s.success = l.success := by
  obtain ⟨ss, h1, h2⟩ := readOutcomes_text hw h
  obtain ⟨hl, hi⟩ := saysFrom_index h1
  exact ⟨_, h2, hl, fun i o ho => by simpa using hi i o ho, rfl, rfl, rfl, rfl, rfl, rfl⟩

theorem saysFrom_counts {w : JsonWorld} {os : List ScenarioOutcome} {i : Nat} {ss : List OutcomeSays}
    (h : saysFrom w i os = some ss) :
    (∀ v, (ss.filter fun o => o.mutant.isSome && o.summary = v).length = countVerdict v os) ∧
    (ss.filter (·.mutant.isSome)).length = countMutants os := by
  induction os generalizing i ss with
  | nil => cases h; exact ⟨fun v => rfl, rfl⟩
  | cons o os ih =>
    rw [saysFrom] at h
    cases hs : o.summary with
    | none => rw [hs] at h; cases h
    | some s =>
      rw [hs] at h
      simp only [Option.bind_eq_bind, Option.bind_some] at h
      cases hr : saysFrom w (i + 1) os with
      | none => rw [hr] at h; cases h
      | some rest =>
        rw [hr] at h
        cases h
        obtain ⟨h1, h2⟩ := ih hr
        have hm : (saysOf w i o s).mutant.isSome = o.scenario.isMutant := by
          simp only [saysOf]; cases o.scenario <;> rfl
        have hsum : (saysOf w i o s).summary = s := rfl
        constructor
        · intro v
          have := h1 v
          simp only [countVerdict] at this
          simp only [List.filter_cons, hm, hsum, countVerdict, List.countP_cons, hs]
          by_cases e1 : o.scenario.isMutant = true <;> by_cases e2 : s = v <;> simp [e1, e2, this]
        · simp only [countMutants] at h2
          simp only [List.filter_cons, hm, countMutants, List.countP_cons]
          by_cases e1 : o.scenario.isMutant = true <;> simp [e1, h2]

/-- C74: the counts in `outcomes.json` are those of its own entries. -/
theorem C74_counts_agree_with_entries (w : JsonWorld) (hw : ∀ n, isNumber (w.seconds n) = true)
    (os : List ScenarioOutcome) (l : LabOutcome) (hl : LabOutcome.addAll {} os = some l) (t : Text)
    (h : outcomesJsonText w l = some t) :
    ∃ s, readOutcomes t = some s ∧ s.total = (s.outcomes.filter (·.mutant.isSome)).length ∧
      s.missed = s.countOf .missedMutant ∧ s.caught = s.countOf .caughtMutant ∧
      s.timeout = s.countOf .timeout ∧ s.unviable = s.countOf .unviable ∧ s.success = s.countOf .success := by
  obtain ⟨ss, h1, h2⟩ := readOutcomes_text hw h
  obtain ⟨c1, c2⟩ := saysFrom_counts h1
  have ha := addAll_spec hl
  refine ⟨_, h2, ?_⟩
  simp only [OutcomesSay.countOf, c1, c2]
  simp only [ha.1, ha.2, List.nil_append, Nat.zero_add]
  simp [ha]

/-- C74: once an outcome has been added to the output directory, `outcomes.json` has been written, and reads
as one entry for each outcome so far, in order. -/
theorem C74_outcomes_json_of_run (w : JsonWorld) (hw : ∀ n, isNumber (w.seconds n) = true)
    (os : List ScenarioOutcome) (hne : os ≠ []) (hph : ∀ o ∈ os, o.phaseResults ≠ []) (g : OutputFiles)
    (h : OutputFiles.addOutcomes {} os = some g) :
    ∃ l t s, g.outcomesJson = some l ∧ outcomesJsonText w l = some t ∧ readOutcomes t = some s ∧
      s.outcomes.length = os.length ∧
      (∀ i o, os[i]? = some o → ∃ e, s.outcomes[i]? = some e ∧ SaysOf w i o e) := by
  obtain ⟨l, hj, hl⟩ := (C13_lists_agree os g h).2.2.2.2 hne
  have hsum : ∀ o ∈ l.outcomes, ∃ s, o.summary = some s := by
    intro o ho
    rw [hl] at ho
    exact Option.isSome_iff_exists.1 (by
      have := hph o ho
      cases hp : o.phaseResults.getLast? with
      | none => exact absurd (List.getLast?_eq_none_iff.1 hp) this
      | some p =>
        simp only [ScenarioOutcome.summary, ScenarioOutcome.success, ScenarioOutcome.lastPhaseResult,
          ScenarioOutcome.mutantCaught, ScenarioOutcome.mutantMissed, ScenarioOutcome.lastPhase, hp]
        cases o.scenario with
        | baseline => by_cases h1 : o.hasTimeout = true <;> simp [h1]
        | mutant m =>
          by_cases h0 : o.checkOrBuildFailed = true <;> by_cases h1 : o.hasTimeout = true <;>
            by_cases h2 : p.phase = .test <;> by_cases h3 : p.status.isFailure = true <;>
            by_cases h4 : p.status.isSuccess = true <;> simp [h0, h1, h2, h3, h4, Scenario.isMutant])
  obtain ⟨vs, hv⟩ := outcomesJsonFrom_some (w := w) 0 hsum
  have ht : ∃ t, outcomesJsonText w l = some t :=
    Option.isSome_iff_exists.1 (by simp [outcomesJsonText, LabOutcome.json, hv])
  obtain ⟨t, ht⟩ := ht
  obtain ⟨s, h1, h2, h3, -⟩ := C74_outcomes_json w hw l t ht
  exact ⟨l, t, s, hj, ht, h1, by rw [h2, hl], by rw [← hl]; exact h3⟩

/-! Examples. -/

namespace JsonSample

/-- A mutant with a quote, a backslash, a line feed and another control character in its texts. -/
def mutant : Mutant where
  sourceFile := ⟨⟨"p".toList, "1.0.0".toList, [], []⟩, ["src".toList, "a \"b\".rs".toList], [], true⟩
  function := some ⟨"f".toList, "-> Result<\\u{7}>\x07".toList, ⟨⟨3, 1⟩, ⟨10, 2⟩⟩⟩
  span := ⟨⟨4, 5⟩, ⟨4, 12⟩⟩
  replacement := "\"x\"\n\u00e9".toList
  genre := .fnValue

def outcomes : List ScenarioOutcome :=
  [⟨.baseline, [⟨.build, 1500000000, .success, ["cargo".toList, "test".toList, "--no-run".toList]⟩,
      ⟨.test, 500000000, .success, ["cargo".toList, "test".toList]⟩]⟩,
   ⟨.mutant mutant, [⟨.build, 1500000000, .success, []⟩, ⟨.test, 500000000, .failure (-101), ["cargo".toList]⟩]⟩]

def world : JsonWorld := ⟨fun _ => "1.5e-1".toList, fun _ => "log/a.log".toList, fun i => if i = 0 then none else some "diff/a.diff".toList⟩

example : ∀ n, isNumber (world.seconds n) = true := by
  intro n
  show isNumber "1.5e-1".toList = true
  decide +kernel

example : (mutant.toJson.json).pretty 0 = "{\n  \"package\": \"p\",\n  \"file\": \"src/a \\\"b\\\".rs\",\n  \"function\": {\n".toList ++
    "    \"function_name\": \"f\",\n    \"return_type\": \"-> Result<\\\\u{7}>\\u0007\",\n    \"span\": {\n      \"start\": {\n".toList ++
    "        \"line\": 3,\n        \"column\": 1\n      },\n      \"end\": {\n        \"line\": 10,\n        \"column\": 2\n      }\n    }\n  },\n".toList ++
    "  \"span\": {\n    \"start\": {\n      \"line\": 4,\n      \"column\": 5\n    },\n    \"end\": {\n      \"line\": 4,\n      \"column\": 12\n    }\n  },\n".toList ++
    "  \"replacement\": \"\\\"x\\\"\\n\u00e9\",\n  \"genre\": \"FnValue\"\n}".toList := by decide +kernel

example : ((LabOutcome.addAll {} outcomes).bind (outcomesJsonText world)).isSome = true := by decide +kernel
example : (OutputFiles.addOutcomes {} outcomes).isSome = true := by decide +kernel

/-- White space and the order of members do not matter to the reader; it does not read what is not JSON. -/
example : (((readJson " { \"b\" : [ 1 , -2.5E+3 ] ,\t\"a\":{ } } ".toList).bind (field "b".toList)).bind elements).map
    (·.map asNumber) = some [some "1".toList, some "-2.5E+3".toList] := by decide +kernel
example : (readJson "[1,]".toList).isNone = true ∧ (readJson "01".toList).isNone = true ∧
    (readJson "\"a\nb\"".toList).isNone = true ∧ (readJson "{} {}".toList).isNone = true ∧
    (readJson "\"\\x\"".toList).isNone = true := by decide +kernel

end JsonSample

end CM.Props
