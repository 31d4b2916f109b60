import Verif.Spec.Fate
import Verif.Props.Campaign
import Verif.Props.Tested
/-! C97: what the list files say of a mutant is what happened to its commands. -/
namespace CM.Props
open CM CM.Spec

theorem ofStatus_failure {st : ExitStatus} {c : Int} : Exit.ofStatus st = .failure c ↔ st.code = some c ∧ c ≠ 0 := by
  unfold Exit.ofStatus
  cases st.code with
  | none => cases st.signal <;> simp
  | some c' => by_cases hc : c' = 0 <;> simp [hc] <;> omega

/-- The result of a command that a list is for. -/
def Says : ListFile → PhaseResult → Prop
  | .missed, r => r.phase = .test ∧ r.status = .success
  | .caught, r => r.phase = .test ∧ ∃ c, r.status = .failure c
  | .timeout, r => r.status = .timeout
  | .unviable, r => r.phase ≠ .test ∧ ∃ c, r.status = .failure c

theorem verdict_says {o : ScenarioOutcome} {m : Mutant} {b : Bool} (hsc : o.scenario = .mutant m)
    (h : Lab.Complete (phasesFor b) o.phaseResults) (f : ListFile) :
    o.summary = some (verdictOf f) ↔ ∃ r ∈ o.phaseResults, Says f r := by
  have ho : o = ⟨.mutant m, o.phaseResults⟩ := by cases o; cases hsc; rfl
  rw [ho]
  cases b with
  | true =>
    obtain ⟨result, h1, h2, h3⟩ := one_phase h
    obtain ⟨v1, v2, v3, v4, _⟩ := C09_verdict m true result h1 _ h2
    simp only [if_true, Bool.true_eq_false, false_and, or_false] at v1 v2 v3 v4
    have hp := h1 .check
    rw [h3] at v1 v2 v3 v4 ⊢
    cases f <;> simp [verdictOf, Says, v1, v2, v3, v4, hp]
  | false =>
    obtain ⟨result, h1, h2, h3⟩ := two_phases h
    obtain ⟨v1, v2, v3, v4, _⟩ := C09_verdict m false result h1 _ h2
    simp only [Bool.false_eq_true, if_false, true_and] at v1 v2 v3 v4
    have hp := h1 .build
    have hq := h1 .test
    rcases h3 with ⟨h3, h4⟩ | ⟨h3, h4⟩
    · rw [h3] at v1 v2 v3 v4 ⊢
      cases f <;> simp [verdictOf, Says, v1, v2, v3, v4, hp, hq, h4]
    · rw [h3] at v1 v2 v3 v4 ⊢
      cases f <;> simp [verdictOf, Says, v1, v2, v3, v4, hp, hq, h4]

/-- What a result says of the process. -/
theorem says_ended {cfg : Run.Config} {es m} {r : PhaseResult} (hj : cfg.lab.JobsOk) (hc : cfg.lab.Consistent)
    (h : ∃ s d q, EndedIn cfg es s d (.mutant m) r.phase q r.status) {f : ListFile} (hs : Says f r) : FateOf cfg es m f := by
  obtain ⟨s, d, q, hend⟩ := h
  have hm := (ended_mutant hj hc hend).1
  cases f with
  | missed =>
    obtain ⟨h1, h2⟩ := hs
    rw [h1, h2] at hend
    rcases ended_child hend with ⟨h, _⟩ | ⟨st, h3, h4⟩
    · cases h
    · exact ⟨s, d, q, _, st, hend, by simp, hm, h3, ofStatus_success.1 h4.symm⟩
  | caught =>
    obtain ⟨h1, c, h2⟩ := hs
    rw [h1, h2] at hend
    rcases ended_child hend with ⟨h, _⟩ | ⟨st, h3, h4⟩
    · cases h
    · obtain ⟨h5, h6⟩ := ofStatus_failure.1 h4.symm
      exact ⟨c, h6, s, d, q, _, st, hend, by simp, hm, h3, h5⟩
  | timeout =>
    have h2 : r.status = .timeout := hs
    rw [h2] at hend
    rcases ended_child hend with ⟨_, lim, h3, h4⟩ | ⟨st, _, h3⟩
    · exact ⟨s, d, _, q, lim, hend, hm, h3, h4⟩
    · exact absurd h3.symm (ofStatus_timeout st)
  | unviable =>
    obtain ⟨h1, c, h2⟩ := hs
    rw [h2] at hend
    rcases ended_child hend with ⟨h, _⟩ | ⟨st, h3, h4⟩
    · cases h
    · obtain ⟨h5, h6⟩ := ofStatus_failure.1 h4.symm
      exact ⟨c, r.phase, h6, h1, s, d, q, _, st, hend, by simp, hm, h3, h5⟩

theorem exited_status {cfg : Run.Config} {es m p c} (h : ExitedWith cfg es m p c) :
    ∃ s d q e, EndedIn cfg es s d (.mutant m) p q e ∧ (c = 0 → e = .success) ∧ (c ≠ 0 → e = .failure c) := by
  obtain ⟨s, d, q, e, st, hend, hne, _, hch, hcode⟩ := h
  rcases ended_child hend with ⟨h, _⟩ | ⟨st', h3, h4⟩
  · exact absurd h hne
  · rw [hch] at h3
    cases h3
    refine ⟨s, d, q, e, hend, ?_, ?_⟩
    · rintro rfl
      rw [h4]; exact ofStatus_success.2 hcode
    · intro hc
      rw [h4]; exact ofStatus_failure.2 ⟨hcode, hc⟩

/-- A fate is recorded in the end. -/
theorem fate_recorded {cfg : Run.Config} {es s l m f} (he : Run.exec cfg (Run.init cfg) es = some s)
    (hr : s.lab.main = .returned (some l)) (h : FateOf cfg es m f) :
    ∃ o ∈ l.outcomes, o.scenario = .mutant m ∧ o.summary = some (verdictOf f) := by
  obtain ⟨_, hcomplete, _⟩ := returned_facts he hr
  suffices hs : ∃ o ∈ l.outcomes, o.scenario = .mutant m ∧ ∃ r ∈ o.phaseResults, Says f r by
    obtain ⟨o, ho, hsc, hs⟩ := hs
    exact ⟨o, ho, hsc, (verdict_says hsc (hcomplete o ho) f).2 hs⟩
  cases f with
  | missed =>
    obtain ⟨s1, d, q, e, hend, h1, _⟩ := exited_status h
    cases h1 rfl
    obtain ⟨o, ho, hsc, r, hr, h2, h3⟩ := Run.nothing_lost he hr hend
    exact ⟨o, ho, hsc, r, hr, h2, h3⟩
  | caught =>
    obtain ⟨c, hc, h⟩ := h
    obtain ⟨s1, d, q, e, hend, _, h1⟩ := exited_status h
    cases h1 hc
    obtain ⟨o, ho, hsc, r, hr, h2, h3⟩ := Run.nothing_lost he hr hend
    exact ⟨o, ho, hsc, r, hr, h2, c, h3⟩
  | timeout =>
    obtain ⟨s1, d, p, q, lim, hend, _⟩ := h
    obtain ⟨o, ho, hsc, r, hr, _, h3⟩ := Run.nothing_lost he hr hend
    exact ⟨o, ho, hsc, r, hr, h3⟩
  | unviable =>
    obtain ⟨c, p, hc, hp, h⟩ := h
    obtain ⟨s1, d, q, e, hend, _, h1⟩ := exited_status h
    cases h1 hc
    obtain ⟨o, ho, hsc, r, hr, h2, h3⟩ := Run.nothing_lost he hr hend
    exact ⟨o, ho, hsc, r, hr, by rw [h2]; exact hp, c, h3⟩

theorem get_listText (g : OutputFiles) (f : ListFile) : g.get f = listText g (verdictOf f) := by cases f <;> rfl

/-! ### C97 -/

/-- **C97**: at any time in a run, also if it is killed then: a line in a list file is the name of a selected mutant, and what
the list says has happened to the commands for this mutant. -/
theorem C97_lines_are_true (w : World) (x : Program.Machine) (a : MainArgs) (cfg : Run.Config) (h : Program.Tests w x a cfg)
    (ms : List Mutant) (hs : Selects w a ms) (hcopy : CopiesSources w x ms)
    (hnames : ∀ m ∈ ms, ∀ n, m.name true = some n → OneLine n) (es : List Run.Event) (s : Run.State)
    (he : Run.exec cfg (Run.init cfg) es = some s) (hu : Undisturbed es) (f : ListFile) (n : Text)
    (hn : n ∈ rustLines (s.lab.sh.out.get f)) : ∃ m ∈ ms, m.name true = some n ∧ FateOf cfg es m f := by
  obtain ⟨_, _, hj, _, _, ms', hs', hperm, hcons⟩ := tests_facts h
  cases selects_unique hs hs'
  have hc := hcons hcopy
  obtain ⟨os, ws, k, hws, hwr, hear⟩ := run_written cfg es s he hu
  have mine : ∀ o ∈ os, ∀ m, o.scenario = .mutant m → m ∈ ms := by
    intro o ho m hsc
    cases hrs : o.phaseResults with
    | nil => exact absurd hrs (hear o ho).1.ne_nil
    | cons r rs =>
      obtain ⟨s1, d, q, hend, _⟩ := (hear o ho).2 r (by rw [hrs]; simp)
      rw [hsc] at hend
      exact hperm.mem_iff.1 (ended_mutant hj hc hend).2
  have hone : ∀ v, ∀ n ∈ namesWith v os, OneLine n := by
    intro v n hn
    obtain ⟨o, ho, m, hsc, hnm, _⟩ := mem_namesWith.1 hn
    exact hnames m (mine o ho m hsc) n hnm
  rw [get_listText] at hn
  obtain ⟨o, ho, ⟨m, hsc, hnm, hsum⟩, _⟩ :=
    C14_lists_never_claim_more_partial os ws hws k _ hwr hone (verdictOf f) (by cases f <;> simp [verdictOf]) n hn
  refine ⟨m, mine o ho m hsc, hnm, ?_⟩
  obtain ⟨r, hr, hsay⟩ := (verdict_says hsc (hear o ho).1 f).1 hsum
  have := (hear o ho).2 r hr
  rw [hsc] at this
  obtain ⟨s1, d, q, hend, _⟩ := this
  exact says_ended hj hc ⟨s1, d, q, hend⟩ hsay

/-- The lists in the end. -/
theorem returned_lists {cfg : Run.Config} {es s l} (he : Run.exec cfg (Run.init cfg) es = some s)
    (hr : s.lab.main = .returned (some l)) (hone : ∀ v, ∀ n ∈ namesWith v l.outcomes, OneLine n) (f : ListFile) :
    rustLines (s.lab.sh.out.get f) = namesWith (verdictOf f) l.outcomes := by
  have hinv := Run.reachable_inv (cfg := cfg) ⟨es, he⟩
  have hrec := Lab.reachable_records hinv.lab
  have horder := hrec.order
  rw [hr] at horder
  obtain ⟨hf, ho⟩ : (∀ pc ∈ s.lab.workers, pc.isFailed = false) ∧ s.lab.sh.out.lab.outcomes = l.outcomes := by
    rcases horder with ⟨h1, rfl, h2⟩ | ⟨rfl, h1, _⟩
    · refine ⟨?_, h2⟩
      rw [no_mutants_no_workers hinv.lab h1]
      simp
    · exact ⟨h1, rfl⟩
  have h := hrec.files hf
  rw [ho] at h
  obtain ⟨h1, h2, h3, h4⟩ := C13_lists_read_back_partial _ _ h hone
  cases f
  · exact h1
  · exact h2
  · exact h3
  · exact h4

/-- **C97**: after a run that ended without an error, each mutant that this has happened to is in the list for it. -/
theorem C97_all_listed (w : World) (x : Program.Machine) (a : MainArgs) (cfg : Run.Config) (h : Program.Tests w x a cfg)
    (ms : List Mutant) (hs : Selects w a ms) (hcopy : CopiesSources w x ms)
    (hnames : ∀ m ∈ ms, ∀ n, m.name true = some n → OneLine n) (es : List Run.Event) (s : Run.State)
    (he : Run.exec cfg (Run.init cfg) es = some s) (l : LabOutcome) (hr : s.lab.main = .returned (some l)) (f : ListFile)
    (m : Mutant) (n : Text) (hn : m.name true = some n) (hf : FateOf cfg es m f) : n ∈ rustLines (s.lab.sh.out.get f) := by
  obtain ⟨_, _, hj, _, _, ms', hs', hperm, hcons⟩ := tests_facts h
  cases selects_unique hs hs'
  have hc := hcons hcopy
  obtain ⟨_, hcomplete, hwit⟩ := returned_facts he hr
  rw [returned_lists he hr ?_ f]
  · obtain ⟨o, ho, hsc, hsum⟩ := fate_recorded he hr hf
    exact mem_namesWith.2 ⟨o, ho, m, hsc, hn, hsum⟩
  · intro v n hn
    obtain ⟨o, ho, m, hsc, hnm, _⟩ := mem_namesWith.1 hn
    cases hrs : o.phaseResults with
    | nil => exact absurd hrs (hcomplete o ho).ne_nil
    | cons r rs =>
      obtain ⟨s1, d, q, hend⟩ := hwit o ho r (by rw [hrs]; simp)
      rw [hsc] at hend
      exact hnames m (hperm.mem_iff.1 (ended_mutant hj hc hend).2) n hnm

theorem one_outcome {m : Mutant} : ∀ {os : List ScenarioOutcome} {o o'}, (Lab.recordedMutants os).count m ≤ 1 → o ∈ os → o' ∈ os →
    o.scenario = .mutant m → o'.scenario = .mutant m → o = o'
  | x :: os, o, o', hle, ho, ho', hsc, hsc' => by
    have hrest : ∀ {y}, y ∈ os → y.scenario = .mutant m → 1 ≤ (Lab.recordedMutants os).count m := by
      intro y hy hsy
      refine List.count_pos_iff.2 (List.mem_filterMap.2 ⟨y, hy, ?_⟩)
      rw [hsy]
    have hhead : x.scenario = .mutant m → (Lab.recordedMutants os).count m = 0 := by
      intro hx
      unfold Lab.recordedMutants at hle
      rw [List.filterMap_cons_some (b := m) (by rw [hx]), List.count_cons_self] at hle
      unfold Lab.recordedMutants
      omega
    rcases List.mem_cons.1 ho with h1 | h1 <;> rcases List.mem_cons.1 ho' with h2 | h2
    · rw [h1, h2]
    · have := hhead (h1 ▸ hsc); have := hrest h2 hsc'; omega
    · have := hhead (h2 ▸ hsc'); have := hrest h1 hsc; omega
    · refine one_outcome (os := os) (Nat.le_trans (List.Sublist.count_le m ?_) hle) h1 h2 hsc hsc'
      exact (List.sublist_cons_self x os).filterMap _

/-- **C97**: a mutant is in two lists only if it was selected twice. -/
theorem C97_one_fate (w : World) (x : Program.Machine) (a : MainArgs) (cfg : Run.Config) (h : Program.Tests w x a cfg)
    (ms : List Mutant) (hs : Selects w a ms) (hnodup : ms.Nodup) (es : List Run.Event) (s : Run.State)
    (he : Run.exec cfg (Run.init cfg) es = some s) (l : LabOutcome) (hr : s.lab.main = .returned (some l)) (m : Mutant)
    (f g : ListFile) (hf : FateOf cfg es m f) (hg : FateOf cfg es m g) : f = g := by
  obtain ⟨_, _, _, _, _, ms', hs', hperm, _⟩ := tests_facts h
  cases selects_unique hs hs'
  obtain ⟨o, ho, hsc, hsum⟩ := fate_recorded he hr hf
  obtain ⟨o', ho', hsc', hsum'⟩ := fate_recorded he hr hg
  have hinv := Run.reachable_inv (cfg := cfg) ⟨es, he⟩
  have hcount := (C28_recorded_are_executed cfg.lab s.lab hinv.lab).1 m
  have horder := (Lab.reachable_records hinv.lab).order
  rw [hr] at horder
  rcases horder with ⟨_, rfl, _⟩ | ⟨rfl, _⟩
  · cases ho
  · have hle : (Lab.recordedMutants s.lab.sh.out.lab.outcomes).count m ≤ 1 :=
      Nat.le_trans hcount (List.nodup_iff_count.1 (hperm.nodup_iff.2 hnodup) m)
    cases one_outcome hle ho ho' hsc hsc'
    rw [hsum] at hsum'
    cases f <;> cases g <;> first | rfl | cases hsum'

/-- **C97**: after a run that ended without an error and in which no command failed on the unmodified tree, each selected mutant
has one of these fates, or its check passed where only checks were asked for, or a command of it was ended by a signal. -/
theorem C97_no_other_fate (w : World) (x : Program.Machine) (a : MainArgs) (cfg : Run.Config) (h : Program.Tests w x a cfg)
    (ms : List Mutant) (hs : Selects w a ms) (hcopy : CopiesSources w x ms) (es : List Run.Event) (s : Run.State)
    (he : Run.exec cfg (Run.init cfg) es = some s) (l : LabOutcome) (hr : s.lab.main = .returned (some l))
    (hbase : ¬ BaselineBroke cfg es) (m : Mutant) (hm : m ∈ ms) :
    (∃ f, FateOf cfg es m f) ∨ (a.options.check = true ∧ ExitedWith cfg es m .check 0) ∨ EndedBySignal cfg es m := by
  obtain ⟨_, _, hj, hco, _, ms', hs', hperm, hcons⟩ := tests_facts h
  cases selects_unique hs hs'
  have hc := hcons hcopy
  obtain ⟨hall, hcomplete, hwit⟩ := returned_facts he hr
  have hinv := Run.reachable_inv (cfg := cfg) ⟨es, he⟩
  have hb : ∀ o ∈ l.outcomes, o.scenario = .baseline → o.success = some true := by
    intro o ho hb
    cases hlast : o.phaseResults.getLast? with
    | none => exact absurd (List.getLast?_eq_none_iff.1 hlast) (hcomplete o ho).ne_nil
    | some pr =>
      have : pr.status = .success := Classical.byContradiction fun hn => hbase ((broke_iff hj he hr).1 ⟨o, ho, hb, pr, hlast, hn⟩)
      simp [ScenarioOutcome.success, ScenarioOutcome.lastPhaseResult, hlast, this, Exit.isSuccess]
  have hm' : m ∈ Lab.recordedMutants l.outcomes :=
    (C32_outcome_is_complete cfg.lab s.lab hinv.lab l hr hb).1.mem_iff.2 (hperm.mem_iff.2 hm)
  obtain ⟨o, ho, hsc⟩ : ∃ o ∈ l.outcomes, o.scenario = .mutant m := by
    obtain ⟨o, ho, h⟩ := List.mem_filterMap.1 hm'
    refine ⟨o, ho, ?_⟩
    cases hsc : o.scenario <;> rw [hsc] at h <;> simp at h
    rw [h]
  have wit : ∀ r ∈ o.phaseResults, ∃ s d q, EndedIn cfg es s d (.mutant m) r.phase q r.status := by
    rw [← hsc]
    exact hwit o ho
  by_cases hsay : ∃ f, ∃ r ∈ o.phaseResults, Says f r
  · obtain ⟨f, hsay⟩ := hsay
    have hsum := (verdict_says hsc (hcomplete o ho) f).2 hsay
    obtain ⟨r, hr, hsay⟩ := hsay
    exact .inl ⟨f, says_ended hj hc (wit r hr) hsay⟩
  · have no : ∀ f, ∀ r ∈ o.phaseResults, ¬ Says f r := fun f r hr h => hsay ⟨f, r, hr, h⟩
    have signal : ∀ r ∈ o.phaseResults, r.status ≠ .success → EndedBySignal cfg es m := by
      intro r hr hne
      obtain ⟨s1, d, q, hend⟩ := wit r hr
      have hnt : r.status ≠ .timeout := no .timeout r hr
      rcases ended_child hend with ⟨h, _⟩ | ⟨st, h1, h2⟩
      · exact absurd h hnt
      · refine ⟨s1, d, _, q, _, st, hend, hnt, (ended_mutant hj hc hend).1, h1, ?_⟩
        cases hcode : st.code with
        | none => rfl
        | some c =>
          exfalso
          by_cases hz : c = 0
          · subst hz
            exact hne (by rw [h2]; exact ofStatus_success.2 hcode)
          · have hfail : r.status = .failure c := by rw [h2]; exact ofStatus_failure.2 ⟨hcode, hz⟩
            by_cases hp : r.phase = .test
            · exact no .caught r hr ⟨hp, c, hfail⟩
            · exact no .unviable r hr ⟨hp, c, hfail⟩
    have hcomp := hcomplete o ho
    rw [hco] at hcomp
    cases hcheck : a.options.check with
    | true =>
      rw [hcheck] at hcomp
      obtain ⟨result, g1, _, g3⟩ := one_phase hcomp
      have hmem : result .check ∈ o.phaseResults := by rw [g3]; simp
      by_cases hsucc : (result .check).status = .success
      · obtain ⟨s1, d, q, hend⟩ := wit _ hmem
        rw [g1, hsucc] at hend
        rcases ended_child hend with ⟨h, _⟩ | ⟨st, h1, h2⟩
        · cases h
        · exact .inr (.inl ⟨rfl, s1, d, q, _, st, hend, by simp, (ended_mutant hj hc hend).1, h1, ofStatus_success.1 h2.symm⟩)
      · exact .inr (.inr (signal _ hmem hsucc))
    | false =>
      rw [hcheck] at hcomp
      obtain ⟨result, g1, _, ⟨g3, g4⟩ | ⟨g3, g4⟩⟩ := two_phases hcomp
      · exact .inr (.inr (signal (result .build) (by rw [g3]; simp) g4))
      · have hmem : result .test ∈ o.phaseResults := by rw [g3]; simp
        exact .inr (.inr (signal _ hmem fun h => no .missed _ hmem ⟨g1 .test, h⟩))

/-- **C97**: a line in `missed.txt` names a mutant whose tests have exited with 0 on the source tree with the tokens of one construct
of one file exchanged. -/
theorem C97_missed_program (w : World) (x : Program.Machine) (a : MainArgs) (cfg : Run.Config) (h : Program.Tests w x a cfg)
    (hplace : a.options.inPlace = false) (k : Program.Disk) (hk : ProperEntries k.entries) (hp : Prints k) (hr : ReadsDisk w k)
    (hx : CopiesDisk x w k cfg.options) (ms : List Mutant) (hs : Selects w a ms) (hcopy : CopiesSources w x ms)
    (hms : ∀ m ∈ ms, PlainPath m.sourceFile.path ∧ ¬ Adapted m.sourceFile.path)
    (exprs : List Tokens) (hex : parsedErrorExprs w.parseExpr cfg.options.errorValues = some exprs) (hcode : ∀ e ∈ exprs, PlainCode e)
    (htree : ∀ m ∈ ms, ∀ f, w.parseFile m.sourceFile.code = some f → TreeOfTokens m.sourceFile.code f)
    (hnames : ∀ m ∈ ms, ∀ n, m.name true = some n → OneLine n) (es : List Run.Event) (s : Run.State)
    (he : Run.exec cfg (Run.init cfg) es = some s) (hu : Undisturbed es) (n : Text)
    (hn : n ∈ rustLines s.lab.sh.out.missedTxt) :
    ∃ m ∈ ms, m.name true = some n ∧ ∃ s1 d q e st, EndedIn cfg es s1 d (.mutant m) .test q e ∧
      q.child = .reaped st ∧ st.code = some 0 ∧
      BuiltFrom k cfg.options (fun p => ∃ m' ∈ ms, m'.sourceFile.path = p) (some m) (s1.lab.sh.dirs d) ∧
      ∃ raw f after, w.read (joinPath w.root m.sourceFile.path) = some raw ∧ w.parseFile (normalizeNewlines raw) = some f ∧
        s1.lab.sh.dirs d m.sourceFile.path = some after ∧ OneExchanged (exprs.map pretty) f (normalizeNewlines raw) after := by
  obtain ⟨m, hm, hnm, s1, d, q, e, st, hend, _, _, h1, h2⟩ :=
    C97_lines_are_true w x a cfg h ms hs hcopy hnames es s he hu .missed n hn
  obtain ⟨h3, h4⟩ := C96_tokens_tested w x a cfg h hplace k hk hp hr hx ms hs hms exprs hex hcode htree es s1 d m .test q e hend
  exact ⟨m, hm, hnm, s1, d, q, e, st, hend, h1, h2, h3, h4⟩

/-! ### Example -/

/-- The lists after these events in the sample tree with two mutants, whether the run has returned, and the names. -/
def ProgramSample.lists (es : List Run.Event) : Option (Bool × List (List Text) × List (Option Text)) :=
  (trySelect sampleWorld sampleRun 3).bind fun ms => (Options.new sampleWorld.regex sampleRun.options sampleWorld.config).bind fun o =>
    (Run.exec (Program.config sampleWorld machine sampleRun o ms) (Run.init (Program.config sampleWorld machine sampleRun o ms)) es).map
      fun s => (match s.lab.main with
        | .returned (some _) => true
        | _ => false, [rustLines (s.lab.sh.out.get .missed), rustLines (s.lab.sh.out.get .caught), rustLines (s.lab.sh.out.get .timeout),
          rustLines (s.lab.sh.out.get .unviable)], ms.map (·.name true))

def ProgramSample.first : Text := "util/src/lib.rs:2:7: replace + with *".toList
def ProgramSample.second : Text := "util/src/lib.rs:3:7: replace + with -".toList

/-- A mutant is caught and the other survives, as the lists say in the end. The names fit on a line, and no write was disturbed; that
the other hypotheses hold is shown beside `C76_codes` and `C96_tokens_tested`. -/
example : ProgramSample.lists ProgramSample.survivor =
    some (true, [[ProgramSample.second], [ProgramSample.first], [], []], [some ProgramSample.first, some ProgramSample.second]) ∧
    OneLine ProgramSample.first ∧ OneLine ProgramSample.second := by decide +kernel
example : Undisturbed ProgramSample.survivor := by
  intro i k h
  have : ∀ e ∈ ProgramSample.survivor, goesWell e = true := by decide +kernel
  cases this _ (List.dropLast_subset _ h)

/-- The same with the run killed after the second mutant has been recorded as unviable or as stopped by a signal. -/
example : ProgramSample.lists (ProgramSample.baseline ++ [RunSample.ok] ++ ProgramSample.mutant RunSample.exit0 ++
      [RunSample.ok, RunSample.ok, RunSample.ok, RunSample.ok, RunSample.ok, RunSample.ok] ++ RunSample.cmd ProgramSample.exit101 ++
      [RunSample.ok, RunSample.ok]) =
    some (false, [[ProgramSample.first], [], [], [ProgramSample.second]], [some ProgramSample.first, some ProgramSample.second]) := by
  decide +kernel
example : ProgramSample.lists (ProgramSample.baseline ++ [RunSample.ok] ++ ProgramSample.mutant RunSample.exit0 ++
      ProgramSample.mutant ⟨none, some 6⟩) =
    some (false, [[ProgramSample.first], [], [], []], [some ProgramSample.first, some ProgramSample.second]) := by decide +kernel

end CM.Props
