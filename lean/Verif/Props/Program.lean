import Verif.Proofs.History
import Verif.Props.Pipeline
import Verif.Props.Timeouts
import Verif.Props.Span
/-! The exit code of the whole program: C76. -/
namespace CM.Props
open CM CM.Spec

/-! ### From the arguments to the queue -/

theorem selects_found {w : World} {a : MainArgs} {ms : List Mutant} (h : Selects w a ms) :
    ∃ found fs, Discovers w a found fs ∧ ∀ m ∈ ms, m ∈ found := by
  obtain ⟨found, fs, left, changed, hd, h1, h2, h3⟩ := h
  refine ⟨found, fs, hd, ?_⟩
  have hleft : left.Sublist found := by
    unfold iterateFilter at h1
    split at h1
    · rw [iterate_eq h1]; exact List.filter_sublist
    · cases h1; exact List.Sublist.refl _
  have hch : changed.Sublist left := by
    unfold inDiffFilter at h2
    split at h2
    · cases h2; exact List.Sublist.refl _
    · obtain ⟨t, _, h2⟩ := Option.bind_eq_some_iff.1 h2
      rw [diff_eq h2]; exact List.filter_sublist
  have hms : ms.Sublist changed := by
    unfold shardFilter at h3
    split at h3
    · cases h3; exact List.Sublist.refl _
    · exact C07_shard_order _ _ _ h3
  exact fun m hm => hleft.subset (hch.subset (hms.subset hm))

/-- What was found comes from the text of a file in the tree. -/
theorem walked_source {env : WalkEnv} {pkgs ms fs} (h : WalksTree env pkgs ms fs) :
    ∀ m ∈ ms, ∃ raw, env.read (joinPath env.root m.sourceFile.path) = some raw ∧
      m.sourceFile.code = normalizeNewlines raw := by
  induction h with
  | nil => simp
  | cons hp _ ih =>
    intro m hm
    rcases List.mem_append.1 hm with hm | hm
    · obtain ⟨x, sf, syn, _, ⟨hl, _⟩, _, _, path, _, hmem⟩ := (C45_mutants _ _ _ _ hp m).1 hm
      rw [sourceFile_of_mutantsAt hmem]
      unfold loadSource at hl
      split at hl
      · cases hl
      · obtain ⟨raw, h1, h2⟩ := Option.bind_eq_some_iff.1 hl
        cases h2
        exact ⟨raw, h1, rfl⟩
    · exact ih m hm

/-- **C03** for what is tested: the text of every selected mutant's file is that of a file in the tree with exactly the CRs before
LFs deleted. -/
theorem C03_selected (w : World) (a : MainArgs) (ms : List Mutant) (h : Selects w a ms) :
    ∀ m ∈ ms, ∃ raw, w.read (joinPath w.root m.sourceFile.path) = some raw ∧ Erases raw m.sourceFile.code := by
  obtain ⟨found, fs, ⟨o, pkgs, exprs, _, _, _, hw⟩, hsub⟩ := selects_found h
  intro m hm
  obtain ⟨raw, h1, h2⟩ := walked_source hw m (hsub m hm)
  exact ⟨raw, h1, h2 ▸ C03_normalize_spec raw⟩

theorem options_plain {regex args config o} (h : Options.new regex args config = some o) :
    o.inPlace = args.inPlace ∧ o.jobs = args.jobs ∧ o.checkOnly = args.check ∧ o.baseline = args.baseline := by
  unfold Options.new at h
  obtain ⟨_, _, h⟩ := Option.bind_eq_some_iff.1 h
  obtain ⟨_, _, h⟩ := Option.bind_eq_some_iff.1 h
  obtain ⟨_, _, h⟩ := Option.bind_eq_some_iff.1 h
  obtain ⟨_, _, h⟩ := Option.bind_eq_some_iff.1 h
  obtain ⟨_, _, h⟩ := Option.bind_eq_some_iff.1 h
  obtain ⟨_, _, h⟩ := Option.bind_eq_some_iff.1 h
  obtain ⟨_, _, h⟩ := Option.bind_eq_some_iff.1 h
  cases h
  exact ⟨rfl, rfl, rfl, rfl⟩

/-- What a run that comes to testing is like. -/
theorem tests_facts {w : World} {x : Program.Machine} {a : MainArgs} {cfg : Run.Config} (h : Program.Tests w x a cfg) :
    a.list = false ∧ a.listFiles = false ∧ cfg.lab.JobsOk ∧ cfg.lab.checkOnly = a.options.check ∧
    (cfg.lab.runBaseline = true ↔ a.options.baseline = .run) ∧
    ∃ ms, Selects w a ms ∧ cfg.mutants.Perm ms ∧ (CopiesSources w x ms → cfg.lab.Consistent) := by
  obtain ⟨hacc, o, out, ms, ho, hr, rfl⟩ := h
  obtain ⟨p1, p2, p3, p4⟩ := options_plain ho
  have hf : a.listFiles = false := by
    obtain ⟨found, fs, _, h⟩ := hr
    unfold afterDiscovery at h
    obtain ⟨left, _, h⟩ := Option.bind_eq_some_iff.1 h
    cases hf : a.listFiles with
    | false => rfl
    | true => rw [hf] at h; cases h
  obtain ⟨ms', hs, h⟩ := (runs_iff w a hf _).1 hr
  have hl : a.list = false := by
    cases hl : a.list with
    | false => rfl
    | true =>
      rw [hl, if_pos rfl] at h
      split at h
      · cases h
      · obtain ⟨_, _, h⟩ := h; cases h
  rw [hl, if_neg Bool.false_ne_true] at h
  obtain ⟨_, _, h⟩ := h
  cases h
  have hperm : (testQueue a x.random ms).Perm ms := (C66_shuffle_keeps_mutants _ _ _).1
  refine ⟨hl, hf, ?_, p3, ?_, ms, hs, hperm, ?_⟩
  · intro hi
    have hi : o.inPlace = true := hi
    have : o.jobs = none := by rw [p2]; exact hacc (by rw [← p1]; exact hi)
    show max 1 (min (o.jobs.getD 1) _) = 1
    rw [this]
    simp only [Option.getD_none]
    omega
  · show (o.baseline == .run) = true ↔ _
    rw [p4, beq_iff_eq]
  · intro hc
    obtain ⟨found, fs, ⟨o', pkgs, exprs, _, _, _, hw⟩, hsub⟩ := selects_found hs
    constructor
    · intro m hm
      exact walked_source hw m (hsub m (hperm.mem_iff.1 hm))
    · intro m hm
      exact hc m (hperm.mem_iff.1 hm)

/-! ### What the results say of processes -/

/-- How the process had ended. -/
theorem ended_child {cfg es s d sc p q e} (h : EndedIn cfg es s d sc p q e) :
    (e = .timeout ∧ ∃ l, documentedLimit cfg.options (recordedBaseline cfg.options s.lab.sh.out.lab.outcomes) sc p = some l ∧
      cfg.nanos l < q.clock) ∨ ∃ st, q.child = .reaped st ∧ e = Exit.ofStatus st := by
  obtain ⟨es1, es2, i, todo, rs, _, h1, h2, h3, h4⟩ := h
  have hinv := Run.reachable_inv (cfg := cfg) ⟨es1, h1⟩
  have hp := hinv.procs i
  rw [h2] at hp
  obtain ⟨q', hq', hran, _⟩ := hp
  rw [h3] at hq'
  cases hq'
  have hpi := pinv_of_ran hran
  unfold PInv at hpi
  rw [h4] at hpi
  rcases hpi.2 with ⟨rfl, hpast⟩ | h
  · refine .inl ⟨rfl, ?_⟩
    obtain ⟨trace, hran⟩ := hran
    obtain ⟨l, hl, hc⟩ := (C25_results_are_true _ _ _ _ hran h4).1 rfl
    rw [limit_eq hinv sc p ?_] at hl
    · obtain ⟨l', hl', rfl⟩ := Option.map_eq_some_iff.1 hl
      exact ⟨l', hl', hc⟩
    · intro hm
      have hf := (Lab.reachable_shape hinv.lab).fits i _ h2
      have hst := hinv.stage
      unfold Run.TimeoutsOk at hst
      cases hmain : s.lab.main <;> rw [hmain] at hf hst
      case testing => exact hst
      case baseline => cases hf; cases hm
      all_goals exact hf.elim
  · exact .inr h

theorem ofStatus_success {st : ExitStatus} : Exit.ofStatus st = .success ↔ st.code = some 0 := by
  unfold Exit.ofStatus
  cases st.code with
  | none => cases st.signal <;> simp
  | some c => by_cases hc : c = 0 <;> simp [hc]

theorem ofStatus_timeout (st : ExitStatus) : Exit.ofStatus st ≠ .timeout := by
  unfold Exit.ofStatus
  cases st.code with
  | none => cases st.signal <;> simp
  | some c => by_cases hc : c = 0 <;> simp [hc]

/-- **C71**: a recorded result is that of the command for its own scenario and phase. There was a time in the run when a
thread was at this command and the process of that thread had ended with the recorded status; the process took no longer
than the recorded time. Success is recorded just if it exited with 0, a failure just if it exited with that code. A
timeout is recorded only if the command had a documented limit and this process took longer. -/
theorem C71_of_its_command (cfg : Run.Config) (es : List Run.Event) (s : Run.State)
    (h : Run.exec cfg (Run.init cfg) es = some s) (o : ScenarioOutcome) (ho : o ∈ s.lab.sh.out.lab.outcomes)
    (r : PhaseResult) (hr : r ∈ o.phaseResults) :
    r.argv = cargoArgv cfg.bin (cfg.packages o.scenario) r.phase cfg.options ∧
    ∃ s1 d q, EndedIn cfg es s1 d o.scenario r.phase q r.status ∧ q.clock ≤ r.duration ∧
      ((r.status = .timeout ∧ ∃ l, documentedLimit cfg.options
          (recordedBaseline cfg.options s1.lab.sh.out.lab.outcomes) o.scenario r.phase = some l ∧ cfg.nanos l < q.clock) ∨
        ∃ st, q.child = .reaped st ∧ r.status ≠ .timeout ∧ (r.status = .success ↔ st.code = some 0) ∧
          ∀ c, r.status = .failure c ↔ st.code = some c ∧ c ≠ 0) := by
  refine ⟨(C71_results_are_of_processes cfg s ⟨es, h⟩ o ho r hr).1, ?_⟩
  obtain ⟨s1, d, q, h1, h2⟩ := (Run.witnessed cfg es s h).2 o ho r hr
  refine ⟨s1, d, q, h1, h2, ?_⟩
  rcases ended_child h1 with h3 | ⟨st, h3, h4⟩
  · exact .inl h3
  · refine .inr ⟨st, h3, by rw [h4]; exact ofStatus_timeout st, by rw [h4]; exact ofStatus_success, fun c => ?_⟩
    rw [h4]
    unfold Exit.ofStatus
    cases st.code with
    | none => cases st.signal <;> simp
    | some c' => by_cases hc : c' = 0 <;> simp [hc] <;> omega

/-- The directory of a command for a mutant. -/
theorem ended_mutant {cfg es s d m p q e} (hj : cfg.lab.JobsOk) (hc : cfg.lab.Consistent)
    (h : EndedIn cfg es s d (.mutant m) p q e) : HoldsMutant cfg (s.lab.sh.dirs d) m ∧ m ∈ cfg.mutants := by
  obtain ⟨es1, es2, i, todo, rs, _, h1, h2, _⟩ := h
  have hinv := Run.reachable_inv (cfg := cfg) ⟨es1, h1⟩
  obtain ⟨hm, t, h3, _, h4⟩ := C29_one_mutation_up_to_crlf_partial _ hj hc _ hinv.lab i d m p todo rs h2
  exact ⟨⟨t, h3, h4⟩, hm⟩

theorem ended_baseline {cfg es s d p q e} (hj : cfg.lab.JobsOk)
    (h : EndedIn cfg es s d .baseline p q e) : s.lab.sh.dirs d = cfg.lab.base := by
  obtain ⟨es1, es2, i, todo, rs, _, h1, h2, _⟩ := h
  exact C29_baseline_sees_original _ hj _ (Run.reachable_inv (cfg := cfg) ⟨es1, h1⟩).lab i d p todo rs h2

/-- The results of a scenario, if mutants are tested. -/
theorem two_phases {rs : List PhaseResult} (h : Lab.Complete (phasesFor false) rs) :
    ∃ result : Phase → PhaseResult, (∀ p, (result p).phase = p) ∧
      runPhases (fun p => some (result p)) (phasesFor false) = some rs ∧
      ((rs = [result .build] ∧ (result .build).status ≠ .success) ∨
        (rs = [result .build, result .test] ∧ (result .build).status = .success)) := by
  obtain ⟨result, h1, h2⟩ := complete_executed h
  refine ⟨result, h1, h2, ?_⟩
  have h3 := h2
  simp only [phasesFor, Bool.false_eq_true, if_false, runPhases] at h3
  by_cases hb : (result .build).status = .success
  · rw [if_pos (by rw [hb]; rfl)] at h3
    refine .inr ⟨?_, hb⟩
    cases ht : (result .test).status.isSuccess <;> rw [ht] at h3 <;> simp at h3 <;> exact h3.symm
  · rw [if_neg (by simpa [Exit.isSuccess] using hb)] at h3
    cases h3
    exact .inl ⟨rfl, hb⟩

theorem one_phase {rs : List PhaseResult} (h : Lab.Complete (phasesFor true) rs) :
    ∃ result : Phase → PhaseResult, (∀ p, (result p).phase = p) ∧
      runPhases (fun p => some (result p)) (phasesFor true) = some rs ∧ rs = [result .check] := by
  obtain ⟨result, h1, h2⟩ := complete_executed h
  refine ⟨result, h1, h2, ?_⟩
  have h3 := h2
  simp only [phasesFor, if_true, runPhases] at h3
  split at h3 <;> simp at h3 <;> exact h3.symm

/-- A result other than success is the last one. -/
theorem failing_is_last {b : Bool} {rs : List PhaseResult} (h : Lab.Complete (phasesFor b) rs) {r} (hr : r ∈ rs)
    (hs : r.status ≠ .success) : rs.getLast? = some r := by
  cases b with
  | true =>
    obtain ⟨result, _, _, rfl⟩ := one_phase h
    cases List.mem_singleton.1 hr
    rfl
  | false =>
    obtain ⟨result, _, _, ⟨rfl, _⟩ | ⟨rfl, hb⟩⟩ := two_phases h
    · cases List.mem_singleton.1 hr
      rfl
    · rcases List.mem_cons.1 hr with rfl | hr
      · exact absurd hb hs
      · cases List.mem_singleton.1 hr
        rfl

/-- What a run that returns an outcome has recorded. -/
theorem returned_facts {cfg : Run.Config} {es s l} (he : Run.exec cfg (Run.init cfg) es = some s)
    (hr : s.lab.main = .returned (some l)) :
    LabOutcome.addAll {} l.outcomes = some l ∧
    (∀ o ∈ l.outcomes, Lab.Complete (phasesFor cfg.lab.checkOnly) o.phaseResults) ∧
    (∀ o ∈ l.outcomes, ∀ r ∈ o.phaseResults, ∃ s d q, EndedIn cfg es s d o.scenario r.phase q r.status) := by
  have hinv := Run.reachable_inv (cfg := cfg) ⟨es, he⟩
  have hrec := Lab.reachable_records hinv.lab
  have hw := (Run.witnessed cfg es s he).2
  have ho := hrec.order
  rw [hr] at ho
  rcases ho with ⟨_, rfl, _⟩ | ⟨rfl, _⟩
  · exact ⟨rfl, by simp, by simp⟩
  · refine ⟨hrec.lab, hrec.complete, fun o ho r hr => ?_⟩
    obtain ⟨s1, d, q, h, _⟩ := hw o ho r hr
    exact ⟨s1, d, q, h⟩

/-- A command of the baseline failed, if and only if this was recorded. -/
theorem broke_iff {cfg : Run.Config} {es s l} (hj : cfg.lab.JobsOk) (he : Run.exec cfg (Run.init cfg) es = some s)
    (hr : s.lab.main = .returned (some l)) : BaselineFailed l.outcomes ↔ BaselineBroke cfg es := by
  obtain ⟨_, hcomplete, hwit⟩ := returned_facts he hr
  constructor
  · rintro ⟨o, ho, hb, pr, hlast, hs⟩
    have hmem : pr ∈ o.phaseResults := List.mem_of_getLast? hlast
    obtain ⟨s1, d, q, hend⟩ := hwit o ho pr hmem
    rw [hb] at hend
    refine ⟨s1, d, _, q, _, hend, ended_baseline hj hend, ?_⟩
    rcases ended_child hend with ⟨h1, lim, h2, h3⟩ | ⟨st, h1, h2⟩
    · refine .inr ⟨h1, lim, ?_, h3⟩
      cases hp : pr.phase <;> rw [hp] at h2 <;> exact h2
    · exact .inl ⟨st, h1, fun h => hs (by rw [h2]; exact ofStatus_success.2 h)⟩
  · rintro ⟨s1, d, p, q, e, hend, _, h⟩
    have hne : e ≠ .success := by
      rcases h with ⟨st, h1, h2⟩ | ⟨rfl, _⟩
      · rcases ended_child hend with ⟨rfl, _⟩ | ⟨st', h3, rfl⟩
        · simp
        · rw [h1] at h3
          cases h3
          exact fun h => h2 (ofStatus_success.1 h)
      · simp
    obtain ⟨o, ho, h1, r, h2, _, rfl⟩ := Run.nothing_lost he hr hend
    exact ⟨o, ho, h1, r, failing_is_last (hcomplete o ho) h2 hne, hne⟩

/-- A command for a mutant took too long, if and only if this was recorded. -/
theorem tooLong_iff {cfg : Run.Config} {es s l} (hj : cfg.lab.JobsOk) (hc : cfg.lab.Consistent)
    (he : Run.exec cfg (Run.init cfg) es = some s) (hr : s.lab.main = .returned (some l)) :
    SomeMutant .timeout l.outcomes ↔ ∃ m ∈ cfg.mutants, TookTooLong cfg es m := by
  obtain ⟨_, hcomplete, hwit⟩ := returned_facts he hr
  constructor
  · rintro ⟨o, ho, ⟨m, hm⟩, hsum⟩
    have : ∃ r ∈ o.phaseResults, r.status = .timeout := by
      have ho' : o = ⟨.mutant m, o.phaseResults⟩ := by cases o; cases hm; rfl
      rw [ho'] at hsum
      have hcomp := hcomplete o ho
      cases hb : cfg.lab.checkOnly with
      | true =>
        rw [hb] at hcomp
        obtain ⟨result, h1, h2, h3⟩ := one_phase hcomp
        have := (C09_verdict m true result h1 _ h2).2.1.1 hsum
        simp only [if_true, Bool.true_eq_false, false_and, or_false] at this
        exact ⟨_, by rw [h3]; simp, this⟩
      | false =>
        rw [hb] at hcomp
        obtain ⟨result, h1, h2, h3⟩ := two_phases hcomp
        have := (C09_verdict m false result h1 _ h2).2.1.1 hsum
        simp only [Bool.false_eq_true, if_false, true_and] at this
        rcases this with h | ⟨h4, h5⟩
        · rcases h3 with ⟨h3, _⟩ | ⟨h3, _⟩ <;> exact ⟨_, by rw [h3]; simp, h⟩
        · rcases h3 with ⟨_, h6⟩ | ⟨h3, _⟩
          · exact absurd h4 h6
          · exact ⟨_, by rw [h3]; simp, h5⟩
    obtain ⟨r, hmem, hst⟩ := this
    obtain ⟨s1, d, q, hend⟩ := hwit o ho r hmem
    rw [hm, hst] at hend
    obtain ⟨h1, h2⟩ := ended_mutant hj hc hend
    refine ⟨m, h2, s1, d, r.phase, q, ?_⟩
    rcases ended_child hend with ⟨_, lim, h3, h4⟩ | ⟨st, _, h3⟩
    · exact ⟨lim, hend, h1, h3, h4⟩
    · exact absurd h3.symm (ofStatus_timeout st)
  · rintro ⟨m, _, s1, d, p, q, lim, hend, _⟩
    obtain ⟨o, ho, hm, r, h2, _, hst⟩ := Run.nothing_lost he hr hend
    refine ⟨o, ho, ⟨m, hm⟩, ?_⟩
    have ho' : o = ⟨.mutant m, o.phaseResults⟩ := by cases o; cases hm; rfl
    rw [ho']
    have hcomp := hcomplete o ho
    cases hb : cfg.lab.checkOnly with
    | true =>
      rw [hb] at hcomp
      obtain ⟨result, h1, h2', h3⟩ := one_phase hcomp
      refine (C09_verdict m true result h1 _ h2').2.1.2 ?_
      rw [h3, List.mem_singleton] at h2
      rw [h2] at hst
      simp [hst]
    | false =>
      rw [hb] at hcomp
      obtain ⟨result, h1, h2', h3⟩ := two_phases hcomp
      refine (C09_verdict m false result h1 _ h2').2.1.2 ?_
      rcases h3 with ⟨h3, _⟩ | ⟨h3, h4⟩
      · rw [h3, List.mem_singleton] at h2
        rw [h2] at hst
        simp [hst]
      · rw [h3] at h2
        rcases List.mem_cons.1 h2 with rfl | h2
        · simp [hst]
        · rw [List.mem_singleton] at h2
          rw [h2] at hst
          simp [hst, h4]

/-- The tests of a mutant succeeded, if and only if this was recorded, unless it took too long. -/
theorem survived_iff {cfg : Run.Config} {es s l} (hj : cfg.lab.JobsOk) (hc : cfg.lab.Consistent)
    (he : Run.exec cfg (Run.init cfg) es = some s) (hr : s.lab.main = .returned (some l))
    (ht : ¬ ∃ m ∈ cfg.mutants, TookTooLong cfg es m) :
    SomeMutant .missedMutant l.outcomes ↔ ∃ m ∈ cfg.mutants, Survived cfg es m := by
  obtain ⟨_, hcomplete, hwit⟩ := returned_facts he hr
  constructor
  · rintro ⟨o, ho, ⟨m, hm⟩, hsum⟩
    have : ∃ r ∈ o.phaseResults, r.phase = .test ∧ r.status = .success := by
      have ho' : o = ⟨.mutant m, o.phaseResults⟩ := by cases o; cases hm; rfl
      rw [ho'] at hsum
      have hcomp := hcomplete o ho
      cases hb : cfg.lab.checkOnly with
      | true =>
        rw [hb] at hcomp
        obtain ⟨result, h1, h2, h3⟩ := one_phase hcomp
        cases ((C09_verdict m true result h1 _ h2).2.2.2.1.1 hsum).1
      | false =>
        rw [hb] at hcomp
        obtain ⟨result, h1, h2, h3⟩ := two_phases hcomp
        obtain ⟨_, h4, h5⟩ := (C09_verdict m false result h1 _ h2).2.2.2.1.1 hsum
        rcases h3 with ⟨_, h6⟩ | ⟨h3, _⟩
        · exact absurd h4 h6
        · exact ⟨_, by rw [h3]; simp, h1 .test, h5⟩
    obtain ⟨r, hmem, hph, hst⟩ := this
    obtain ⟨s1, d, q, hend⟩ := hwit o ho r hmem
    rw [hm, hst, hph] at hend
    obtain ⟨h1, h2⟩ := ended_mutant hj hc hend
    rcases ended_child hend with ⟨h, _⟩ | ⟨st, h3, h4⟩
    · cases h
    · exact ⟨m, h2, s1, d, q, _, st, hend, h1, h3, ofStatus_success.1 h4.symm⟩
  · rintro ⟨m, hmem, s1, d, q, e, st, hend, hh, hch, hcode⟩
    have hsucc : e = .success := by
      rcases ended_child hend with ⟨rfl, lim, h1, h2⟩ | ⟨st', h1, h2⟩
      · exact absurd ⟨m, hmem, s1, d, _, q, lim, hend, hh, h1, h2⟩ ht
      · rw [hch] at h1
        cases h1
        rw [h2]
        exact ofStatus_success.2 hcode
    subst hsucc
    obtain ⟨o, ho, hm, r, h2, hph, hst⟩ := Run.nothing_lost he hr hend
    refine ⟨o, ho, ⟨m, hm⟩, ?_⟩
    have ho' : o = ⟨.mutant m, o.phaseResults⟩ := by cases o; cases hm; rfl
    rw [ho']
    have hcomp := hcomplete o ho
    cases hb : cfg.lab.checkOnly with
    | true =>
      rw [hb] at hcomp
      obtain ⟨result, h1, h2', h3⟩ := one_phase hcomp
      rw [h3, List.mem_singleton] at h2
      rw [h2, h1] at hph
      cases hph
    | false =>
      rw [hb] at hcomp
      obtain ⟨result, h1, h2', h3⟩ := two_phases hcomp
      refine (C09_verdict m false result h1 _ h2').2.2.2.1.2 ?_
      rcases h3 with ⟨h3, _⟩ | ⟨h3, h4⟩
      · rw [h3, List.mem_singleton] at h2
        rw [h2, h1] at hph
        cases hph
      · rw [h3] at h2
        rcases List.mem_cons.1 h2 with rfl | h2
        · rw [h1] at hph
          cases hph
        · rw [List.mem_singleton] at h2
          rw [h2] at hst
          exact ⟨rfl, h4, hst⟩

/-! ### C76 -/

/-- **C76**: the exit code of a run that tested something is given by what has happened to processes: 4 if a command
failed on the unmodified tree; else 3 if a command for a mutant took too long; else 2 if the tests of a mutant
succeeded; else 0. -/
theorem C76_codes (w : World) (x : Program.Machine) (a : MainArgs) (cfg : Run.Config) (h : Program.Tests w x a cfg)
    (ms : List Mutant) (hs : Selects w a ms) (hcopy : CopiesSources w x ms) (es : List Run.Event) (s : Run.State)
    (he : Run.exec cfg (Run.init cfg) es = some s) (l : LabOutcome) (hr : s.lab.main = .returned (some l)) (code : Nat)
    (hcode : l.exitCode = some code) :
    (code = 4 ↔ BaselineBroke cfg es) ∧
    (code = 3 ↔ ¬ BaselineBroke cfg es ∧ ∃ m ∈ ms, TookTooLong cfg es m) ∧
    (code = 2 ↔ ¬ BaselineBroke cfg es ∧ (¬ ∃ m ∈ ms, TookTooLong cfg es m) ∧ ∃ m ∈ ms, Survived cfg es m) ∧
    (code = 0 ↔ ¬ BaselineBroke cfg es ∧ (¬ ∃ m ∈ ms, TookTooLong cfg es m) ∧ ¬ ∃ m ∈ ms, Survived cfg es m) := by
  obtain ⟨_, _, hj, _, _, ms', hs', hperm, hcons⟩ := tests_facts h
  cases selects_unique hs hs'
  have hc := hcons hcopy
  obtain ⟨hall, _, _⟩ := returned_facts he hr
  obtain ⟨h4, h3, h2, h0⟩ := C11_exit_code _ l code hall hcode
  have hmem : ∀ P : Mutant → Prop, (∃ m ∈ cfg.mutants, P m) ↔ ∃ m ∈ ms, P m := fun P =>
    ⟨fun ⟨m, hm, hp⟩ => ⟨m, hperm.mem_iff.1 hm, hp⟩, fun ⟨m, hm, hp⟩ => ⟨m, hperm.mem_iff.2 hm, hp⟩⟩
  have e1 := broke_iff hj he hr
  have e2 := tooLong_iff hj hc he hr
  have e3 := survived_iff hj hc he hr
  rw [hmem] at e2 e3
  rw [hmem] at e3
  rw [e1] at h4 h3 h2 h0
  rw [e2] at h3 h2 h0
  refine ⟨h4, h3, h2.trans ?_, h0.trans ?_⟩
  · exact and_congr_right fun _ => and_congr_right e3
  · exact and_congr_right fun _ => and_congr_right fun ht => not_congr (e3 ht)

/-- **C76**: if the exit code is 0 and this was not a dry run of `--check`, then each of the selected mutants was caught: a command
was run on the tree with just this mutant and did not succeed. -/
theorem C76_zero_all_died (w : World) (x : Program.Machine) (a : MainArgs) (cfg : Run.Config) (h : Program.Tests w x a cfg)
    (ms : List Mutant) (hs : Selects w a ms) (hcopy : CopiesSources w x ms) (hcheck : a.options.check = false)
    (es : List Run.Event) (s : Run.State) (he : Run.exec cfg (Run.init cfg) es = some s) (l : LabOutcome)
    (hr : s.lab.main = .returned (some l)) (hcode : l.exitCode = some 0) : ∀ m ∈ ms, Died cfg es m := by
  intro m hm
  obtain ⟨_, _, hj, hco, _, ms', hs', hperm, hcons⟩ := tests_facts h
  cases selects_unique hs hs'
  have hc := hcons hcopy
  obtain ⟨hall, hcomplete, hwit⟩ := returned_facts he hr
  have hinv := Run.reachable_inv (cfg := cfg) ⟨es, he⟩
  obtain ⟨h1, h2, h3⟩ := (C11_exit_code _ l 0 hall hcode).2.2.2.1 rfl
  have hbase : ∀ o ∈ l.outcomes, o.scenario = .baseline → o.success = some true := by
    intro o ho hb
    cases hlast : o.phaseResults.getLast? with
    | none =>
      exact absurd (List.getLast?_eq_none_iff.1 hlast) (hcomplete o ho).ne_nil
    | some pr =>
      have : pr.status = .success := Classical.byContradiction fun hn => h1 ⟨o, ho, hb, pr, hlast, hn⟩
      simp [ScenarioOutcome.success, ScenarioOutcome.lastPhaseResult, hlast, this, Exit.isSuccess]
  have hrec := (C32_outcome_is_complete cfg.lab s.lab hinv.lab l hr hbase).1
  have hm' : m ∈ Lab.recordedMutants l.outcomes := hrec.mem_iff.2 (hperm.mem_iff.2 hm)
  obtain ⟨o, ho, hsc⟩ : ∃ o ∈ l.outcomes, o.scenario = .mutant m := by
    obtain ⟨o, ho, h⟩ := List.mem_filterMap.1 hm'
    refine ⟨o, ho, ?_⟩
    cases hsc : o.scenario <;> rw [hsc] at h <;> simp at h
    rw [h]
  have hcomp := hcomplete o ho
  rw [hco, hcheck] at hcomp
  obtain ⟨result, g1, g2, g3⟩ := two_phases hcomp
  have ho' : o = ⟨.mutant m, o.phaseResults⟩ := by cases o; cases hsc; rfl
  have v := C09_verdict m false result g1 _ g2
  rw [← ho'] at v
  have hnt : o.summary ≠ some .timeout := fun h => h2 ⟨o, ho, ⟨m, hsc⟩, h⟩
  have hnm : o.summary ≠ some .missedMutant := fun h => h3 ⟨o, ho, ⟨m, hsc⟩, h⟩
  have : ∃ r ∈ o.phaseResults, r.status ≠ .success ∧ r.status ≠ .timeout := by
    have nt := fun h => hnt (v.2.1.2 h)
    simp only [Bool.false_eq_true, if_false, true_and, not_or] at nt
    rcases g3 with ⟨g3, g4⟩ | ⟨g3, g4⟩
    · exact ⟨_, by rw [g3]; simp, g4, fun h => nt (.inl h)⟩
    · refine ⟨result .test, by rw [g3]; simp, fun h => hnm (v.2.2.2.1.2 ⟨rfl, g4, h⟩), fun h => nt (.inr ⟨g4, h⟩)⟩
  obtain ⟨r, hrm, hr1, hr2⟩ := this
  obtain ⟨s1, d, q, hend⟩ := hwit o ho r hrm
  rw [hsc] at hend
  rcases ended_child hend with ⟨h, _⟩ | ⟨st, g5, g6⟩
  · exact absurd h hr2
  · exact ⟨s1, d, _, q, _, st, hend, (ended_mutant hj hc hend).1, g5, fun h => hr1 (by rw [g6]; exact ofStatus_success.2 h)⟩

theorem outcomes_grow {cfg : Run.Config} : ∀ {es s s'}, Run.Inv cfg s → Run.exec cfg s es = some s' →
    ∀ o ∈ s.lab.sh.out.lab.outcomes, o ∈ s'.lab.sh.out.lab.outcomes
  | [], _, _, _, he, o, ho => by cases he; exact ho
  | e :: es, s, s', h, he, o, ho => by
    obtain ⟨t, h1, h2⟩ := Option.bind_eq_some_iff.1 he
    refine outcomes_grow (h.step h1) h2 o ?_
    have key : ∀ {i : Nat} {c pc sh' pc'}, s.lab.workers[i]? = some pc → Lab.WStep cfg.lab s.lab.sh c pc sh' pc' →
        t.lab = { s.lab with sh := sh', workers := s.lab.workers.set i pc' } → o ∈ t.lab.sh.out.lab.outcomes := by
      intro i c pc sh' pc' _ hw he
      rw [he]
      rcases hw.records with h | ⟨_, _, _, _, h, _⟩
      · show o ∈ sh'.out.lab.outcomes
        rw [h]; exact ho
      · show o ∈ sh'.out.lab.outcomes
        rw [Lab.add_outcomes h]; exact List.mem_append_left _ ho
    cases Run.moves h h1 with
    | env _ h3 _ => rw [h3]; exact ho
    | main h3 _ => rw [(h3.idle (Lab.reachable_shape h.lab)).2.2.2.1]; exact ho
    | worker i c pc sh' pc' hpc _ hw he _ => exact key hpc hw he
    | leave i dur d sc p todo rs q r sh' pc' hpc _ _ _ hw he _ => exact key hpc hw he

/-- **C76**: if the exit code is 4, then the baseline was asked for, and no mutant was ever taken up: nothing but the unmodified
tree was tested. -/
theorem C76_four_nothing_tested (w : World) (x : Program.Machine) (a : MainArgs) (cfg : Run.Config)
    (h : Program.Tests w x a cfg) (es : List Run.Event) (s : Run.State) (he : Run.exec cfg (Run.init cfg) es = some s)
    (l : LabOutcome) (hr : s.lab.main = .returned (some l)) (hcode : l.exitCode = some 4) :
    a.options.baseline = .run ∧
    ∀ es1 es2 s1, es = es1 ++ es2 → Run.exec cfg (Run.init cfg) es1 = some s1 →
      ∀ pc ∈ s1.lab.workers, ∀ m, pc.scenario ≠ some (.mutant m) := by
  obtain ⟨_, _, hj, _, hrun, _⟩ := tests_facts h
  obtain ⟨hall, hcomplete, _⟩ := returned_facts he hr
  have hinv := Run.reachable_inv (cfg := cfg) ⟨es, he⟩
  obtain ⟨o, ho, hb, pr, hlast, hne⟩ := (C11_exit_code _ l 4 hall hcode).1.1 rfl
  have hfail : o.success ≠ some true := by
    simp [ScenarioOutcome.success, ScenarioOutcome.lastPhaseResult, hlast, hne, Exit.isSuccess]
  have hord := (Lab.reachable_records hinv.lab).order
  rw [hr] at hord
  have hcase : cfg.lab.runBaseline = true ∧ l.outcomes = [o] ∧ l = s.lab.sh.out.lab := by
    rcases hord with ⟨_, rfl, _⟩ | ⟨hl, _, ⟨hb', o', h1, _, _⟩ | ⟨⟨bs, ms, h1, h2, h3⟩, _⟩⟩
    · cases ho
    · rw [h1, List.mem_singleton] at ho
      exact ⟨hb', by rw [h1, ho], hl⟩
    · exfalso
      rw [h1] at ho
      rcases List.mem_append.1 ho with ho | ho
      · split at h3
        · obtain ⟨o', rfl, _, h5⟩ := h3
          rw [List.mem_singleton] at ho
          rw [ho] at hfail
          exact hfail h5
        · rw [h3] at ho; cases ho
      · have := h2 o ho
        rw [hb] at this
        cases this
  obtain ⟨hrb, hone, rfl⟩ := hcase
  refine ⟨hrun.1 hrb, ?_⟩
  rintro es1 es2 s1 rfl h1 pc hpc m hsc
  have hinv1 := Run.reachable_inv (cfg := cfg) ⟨es1, h1⟩
  obtain ⟨o', rest, g1, g2, g3, _⟩ := C31_baseline_first cfg.lab s1.lab hinv1.lab hrb (.inl ⟨pc, hpc, m, hsc⟩)
  rw [Run.exec_append, h1] at he
  have := outcomes_grow hinv1 he o' (by rw [g1]; simp)
  rw [hone, List.mem_singleton] at this
  rw [this] at g3
  exact hfail g3

/-- **C76**: which codes there are, and that 1 and 101 are for errors only: the arguments, configuration or sources do not let
anything be listed or tested, or testing ended with an error, or there was an interrupt or a failure of the operating system
before. Code 70 and other codes are never of a run. -/
theorem C76_other_codes (w : World) (x : Program.Machine) (a : MainArgs) (code : Nat) (h : Program.Ends w x (.run a) code) :
    code ∈ [0, 1, 2, 3, 4, 101] ∧
    (code = 1 ∨ code = 101 → (∀ act, ¬ Runs w a act) ∨ x.trouble = true ∨ ∃ cfg es s, Program.Tests w x a cfg ∧
      Run.exec cfg (Run.init cfg) es = some s ∧ s.lab.main = .returned none) ∧
    ((code = 2 ∨ code = 3 ∨ code = 4 ∨ (code = 0 ∧ a.list = false ∧ a.listFiles = false)) →
      ∃ cfg es s l, Program.Tests w x a cfg ∧ Run.exec cfg (Run.init cfg) es = some s ∧
        s.lab.main = .returned (some l) ∧ l.exitCode = some code) := by
  cases h with
  | error h => exact ⟨by simp, fun _ => .inl h, by simp⟩
  | panic h => exact ⟨by simp, fun _ => .inl h, by simp⟩
  | troubleError h => exact ⟨by simp, fun _ => .inr (.inl h), by simp⟩
  | troublePanic h => exact ⟨by simp, fun _ => .inr (.inl h), by simp⟩
  | listed h hl =>
    refine ⟨by simp, by simp, ?_⟩
    rintro (h | h | h | ⟨_, h1, h2⟩)
    · cases h
    · cases h
    · cases h
    · rw [h1, h2] at hl; cases hl
  | @tested _ cfg es s l _ h he hr hc =>
    obtain ⟨hall, _, _⟩ := returned_facts he hr
    refine ⟨?_, ?_, fun _ => ⟨cfg, es, s, l, h, he, hr, hc⟩⟩
    · obtain ⟨h4, h3, h2, h0⟩ := C11_exit_code _ l code hall hc
      by_cases b : BaselineFailed l.outcomes
      · simp [h4.2 b]
      · by_cases t : SomeMutant .timeout l.outcomes
        · simp [h3.2 ⟨b, t⟩]
        · by_cases m : SomeMutant .missedMutant l.outcomes
          · simp [h2.2 ⟨b, t, m⟩]
          · simp [h0.2 ⟨b, t, m⟩]
    · intro hx
      exfalso
      obtain ⟨h4, h3, h2, h0⟩ := C11_exit_code _ l code hall hc
      by_cases b : BaselineFailed l.outcomes
      · rw [h4.2 b] at hx; simp at hx
      · by_cases t : SomeMutant .timeout l.outcomes
        · rw [h3.2 ⟨b, t⟩] at hx; simp at hx
        · by_cases m : SomeMutant .missedMutant l.outcomes
          · rw [h2.2 ⟨b, t, m⟩] at hx; simp at hx
          · rw [h0.2 ⟨b, t, m⟩] at hx; simp at hx
  | @testError _ cfg es s h he hr => exact ⟨by simp, fun _ => .inr (.inr ⟨cfg, es, s, h, he, hr⟩), by simp⟩
  | @testPanic _ cfg es s h he hr => exact ⟨by simp, fun _ => .inr (.inr ⟨cfg, es, s, h, he, hr⟩), by simp⟩
  | @exitPanic _ cfg es s l h he hr hc =>
    exfalso
    obtain ⟨hall, hcomplete, _⟩ := returned_facts he hr
    obtain ⟨c, h⟩ := C11_exit_code_defined _ l hall fun o ho => (hcomplete o ho).ne_nil
    rw [hc] at h
    cases h

/-- **C76**: the code for a command line that is refused is that for wrong usage and no code of a result; and there are no
other codes at all. -/
theorem C76_refused (w : World) (x : Program.Machine) (c : Program.Cli) (code : Nat) (h : Program.Ends w x c code) :
    code ∈ [0, 1, 2, 3, 4, 70, 101] ∧ (c = .refused 2 → code = 1) ∧ (c = .refused 0 → code = 0) ∧
    (∀ n, c = .refused n → code ∉ [2, 3, 4]) ∧ (c = .version ∨ c = .completions → code = 0) ∧
    (∀ a, c = .run a → a.list = true ∨ a.listFiles = true → code ∈ [0, 1, 101]) := by
  have key : ∀ {a cfg}, Program.Tests w x a cfg → ¬ (a.list = true ∨ a.listFiles = true) := by
    rintro a cfg ⟨_, o, out, ms, _, hr, _⟩ h
    obtain ⟨ms0, fs, _, hr⟩ := hr
    unfold afterDiscovery at hr
    simp only [Option.bind_eq_bind, Option.bind_eq_some_iff, Option.pure_def] at hr
    obtain ⟨ms1, _, hr⟩ := hr
    by_cases hf : a.listFiles = true
    · rw [if_pos hf] at hr; cases hr
    · rw [if_neg hf] at hr
      obtain ⟨_, _, hr⟩ := Option.bind_eq_some_iff.1 hr
      obtain ⟨_, _, hr⟩ := Option.bind_eq_some_iff.1 hr
      rcases h with h | h
      · rw [if_pos h] at hr
        split at hr
        · cases hr
        · obtain ⟨_, _, hr⟩ := Option.map_eq_some_iff.1 hr
          cases hr
      · exact hf h
  cases h with
  | refused n =>
    by_cases h2 : n = 2
    · subst h2; simp
    · by_cases h0 : n = 0
      · subst h0; simp
      · simp [h2, h0]
  | version => simp
  | completions => simp
  | error h => simp
  | panic h => simp
  | troubleError h => simp
  | troublePanic h => simp
  | listed h hl => simp
  | testError h _ _ => simp
  | testPanic h _ _ => simp
  | exitPanic h _ _ _ => simp
  | @tested a cfg es s l code h he hr hc =>
    have hm := (C76_other_codes w x a code (.tested h he hr hc)).1
    refine ⟨by simp only [List.mem_cons, List.not_mem_nil, or_false] at hm ⊢; omega, by simp, by simp, by simp, by simp, ?_⟩
    intro a' ha hl
    cases ha
    exact absurd hl (key h)

/-- `Process::run` can only return a status. -/
def Smooth (q : Proc.State) : Prop :=
  q.interrupted = false ∧ match q.pc with
    | .kill r | .wait r => r = .timeout
    | .done r => ∃ e, r = .ok e
    | _ => True

theorem smooth_step {i q e q'} (h : Smooth q) (hs : Proc.step q e = some q') (he : goesWell (.proc i e) = true)
    (hc : e ≠ .ctrlC) : Smooth q' := by
  obtain ⟨h1, h2⟩ := h
  cases e with
  | tick n => cases hs; exact ⟨h1, h2⟩
  | ctrlC => exact absurd rfl hc
  | childExits st => simp only [Proc.step] at hs; split at hs <;> cases hs; exact ⟨h1, h2⟩
  | spawn ok =>
    cases ok with
    | false => cases he
    | true => simp only [Proc.step] at hs; split at hs <;> cases hs; exact ⟨h1, trivial⟩
  | checkTime =>
    simp only [Proc.step] at hs
    split at hs
    · split at hs <;> cases hs
      · exact ⟨h1, rfl⟩
      · exact ⟨h1, trivial⟩
    · cases hs
  | checkInterrupt =>
    simp only [Proc.step] at hs
    split at hs
    · split at hs <;> cases hs
      · rename_i hi
        rw [h1] at hi
        cases hi
      · exact ⟨h1, trivial⟩
    · cases hs
  | tryWait ok =>
    cases ok with
    | false => cases he
    | true =>
      simp only [Proc.step, Bool.not_true, Bool.false_eq_true, if_false] at hs
      split at hs
      · split at hs <;> cases hs
        · exact ⟨h1, trivial⟩
        · exact ⟨h1, trivial⟩
      · cases hs
  | wake =>
    simp only [Proc.step] at hs
    split at hs
    · split at hs <;> cases hs
      exact ⟨h1, trivial⟩
    · cases hs
  | kill r =>
    simp only [Proc.step] at hs
    split at hs
    · rename_i why hpc
      rw [hpc] at h2
      cases r with
      | ok => cases hs; exact ⟨h1, h2⟩
      | noSuchProcess =>
        simp only at hs
        split at hs <;> cases hs
        exact ⟨h1, h2⟩
      | error => cases he
    · cases hs
  | wait ok =>
    cases ok with
    | false => cases he
    | true =>
      simp only [Proc.step] at hs
      split at hs
      · rename_i why hpc
        rw [hpc] at h2
        cases h2
        simp only [if_true] at hs
        split at hs <;> cases hs
        exact ⟨h1, trivial⟩
      · cases hs
  | log ok =>
    cases ok with
    | false => cases he
    | true =>
      simp only [Proc.step] at hs
      split at hs <;> cases hs
      exact ⟨h1, _, rfl⟩

theorem timeouts_total (cfg : Run.Config) (hm : ∀ m, cfg.options.testTimeoutMultiplier = some m → 0 ≤ m)
    (hb : ∀ m, cfg.options.buildTimeoutMultiplier = some m → 0 ≤ m) (b : Option ScenarioOutcome) : cfg.timeouts b ≠ none := by
  cases b with
  | some b =>
    obtain ⟨ts, h⟩ := C23_total cfg.options b hm hb
    show Timeouts.fromBaseline b cfg.options ≠ none
    rw [h]; simp
  | none =>
    show Timeouts.withoutBaseline cfg.options ≠ none
    have h1 : ∃ v, buildTimeout none cfg.options = some v := by
      unfold buildTimeout
      split <;> exact ⟨_, rfl⟩
    have h2 : ∃ v, testTimeout none cfg.options = some v := by
      unfold testTimeout
      split
      · exact ⟨_, rfl⟩
      · simp only
        split <;> exact ⟨_, rfl⟩
    obtain ⟨v1, h1⟩ := h1
    obtain ⟨v2, h2⟩ := h2
    unfold Timeouts.withoutBaseline
    rw [h1, h2]
    simp

/-- A run in which nothing goes wrong is one of the threads in which nothing goes wrong. -/
theorem well_run (cfg : Run.Config) (ht : ∀ b, cfg.timeouts b ≠ none) (es : List Run.Event) (s : Run.State)
    (he : Run.exec cfg (Run.init cfg) es = some s) (hwell : ∀ e ∈ es, goesWell e = true) :
    (∃ les, Lab.exec cfg.lab (Lab.init cfg.lab) les = some s.lab ∧ (∀ e ∈ les, e.Fine) ∧
      ∀ i, Lab.Event.worker i .logUnreadable ∉ les) ∧ s.lab.sh.interrupted = false ∧
    ∀ i q, s.procs i = some q → Smooth q := by
  revert es s
  refine exec_snoc_ind cfg _ ?_ ?_
  · intro _
    exact ⟨⟨[], rfl, by simp, by simp⟩, rfl, by simp [Run.init]⟩
  intro es s e s' hreach ih hst hwell
  obtain ⟨⟨les, h1, h2, h3⟩, hint, hproc⟩ := ih fun e he => hwell e (List.mem_append_left _ he)
  have hinv := Run.reachable_inv hreach
  have hw : goesWell e = true := hwell e (by simp)
  have snoc : ∀ {le l'}, Lab.step cfg.lab s.lab le = some l' → le.Fine → (∀ i, le ≠ .worker i .logUnreadable) →
      ∃ les, Lab.exec cfg.lab (Lab.init cfg.lab) les = some l' ∧ (∀ e ∈ les, e.Fine) ∧
        ∀ i, Lab.Event.worker i .logUnreadable ∉ les := by
    intro le l' hle hf hn
    refine ⟨les ++ [le], by rw [Lab.exec_append, h1]; simp [Lab.exec, hle], ?_, ?_⟩
    · intro e he
      rcases List.mem_append.1 he with he | he
      · exact h2 e he
      · rw [List.mem_singleton.1 he]; exact hf
    · intro i hi
      rcases List.mem_append.1 hi with hi | hi
      · exact h3 i hi
      · exact hn i (List.mem_singleton.1 hi).symm
  have same : ∀ {i c l'}, Lab.step cfg.lab s.lab (.worker i c) = some l' → l'.sh.interrupted = false := by
    intro i c l' h
    rcases Lab.step_cases h with ⟨h, _⟩ | ⟨_, h, _⟩ | ⟨_, _, _, _, _, _, _, hw, rfl⟩
    · cases h
    · cases h
    · show _ = false
      rw [← hint]; exact hw.interrupted_eq
  have set_smooth : ∀ {i q'}, Smooth q' → ∀ j x, Run.setAt s.procs i (some q') j = some x → Smooth x := by
    intro i q' hq' j x hx
    unfold Run.setAt at hx
    split at hx
    · cases hx; exact hq'
    · exact hproc j x hx
  cases e with
  | tick n =>
    cases hst
    refine ⟨⟨les, h1, h2, h3⟩, hint, ?_⟩
    intro i q hq
    obtain ⟨q0, hq0, hq⟩ := Option.bind_eq_some_iff.1 hq
    exact smooth_step (i := i) (hproc i q0 hq0) hq rfl (by simp)
  | interrupt => cases hw
  | childExits i st =>
    obtain ⟨q, hq, hh⟩ := Option.bind_eq_some_iff.1 hst
    obtain ⟨q', hq', rfl⟩ := Option.map_eq_some_iff.1 hh
    exact ⟨⟨les, h1, h2, h3⟩, hint, set_smooth (smooth_step (i := i) (hproc i q hq) hq' rfl (by simp))⟩
  | main ok =>
    cases hw
    have key : ∀ {l'}, Lab.step cfg.lab s.lab (.main true) = some l' → l'.sh.interrupted = false := by
      intro l' h
      rcases Lab.step_cases h with ⟨h, _⟩ | ⟨_, _, h⟩ | ⟨_, _, _, _, _, h, _⟩
      · cases h
      · rw [((Lab.mstep_rel h).idle (Lab.reachable_shape hinv.lab)).1]; exact hint
      · cases h
    simp only [Run.step] at hst
    split at hst
    · obtain ⟨l, hl, rfl⟩ := Option.map_eq_some_iff.1 hst
      exact ⟨snoc hl rfl (by simp), key hl, hproc⟩
    · rename_i b hb
      split at hst
      · rename_i hn
        exact absurd hn (ht b)
      · obtain ⟨l, hl, rfl⟩ := Option.map_eq_some_iff.1 hst
        exact ⟨snoc hl rfl (by simp), key hl, hproc⟩
  | worker i c =>
    simp only [Run.step] at hst
    split at hst
    · cases hst
    obtain ⟨l, hl, rfl⟩ := Option.map_eq_some_iff.1 hst
    cases c <;> first | cases hw | skip
    refine ⟨snoc hl trivial (by simp), same hl, ?_⟩
    intro j q hq
    simp only [Run.setAt] at hq
    split at hq
    · cases hpc : l.workers[i]? with
      | none => rw [hpc] at hq; cases hq
      | some pc =>
        rw [hpc] at hq
        cases pc <;> first | (cases hq; done) | skip
        cases hq
        exact ⟨same hl, trivial⟩
    · exact hproc j q hq
  | proc i e =>
    simp only [Run.step] at hst
    split at hst
    · rename_i hp
      obtain ⟨q, hq, hh⟩ := Option.bind_eq_some_iff.1 hst
      obtain ⟨q', hq', rfl⟩ := Option.map_eq_some_iff.1 hh
      exact ⟨⟨les, h1, h2, h3⟩, hint, set_smooth (smooth_step (i := i) (hproc i q hq) hq' hw (by rintro rfl; cases hp))⟩
    · cases hst
  | leave i dur =>
    simp only [Run.step] at hst
    obtain ⟨q, hq, hh⟩ := Option.bind_eq_some_iff.1 hst
    split at hh
    · rename_i r hr
      split at hh
      · obtain ⟨l, hl, rfl⟩ := Option.map_eq_some_iff.1 hh
        obtain ⟨_, hs⟩ := hproc i q hq
        rw [hr] at hs
        obtain ⟨x, rfl⟩ := hs
        refine ⟨snoc hl trivial (by simp [Run.choiceOf]), same hl, ?_⟩
        intro j y hy
        simp only [Run.setAt] at hy
        split at hy
        · cases hy
        · exact hproc j y hy
      · cases hh
    · cases hh

/-- **C76**: the codes 1 and 101 have a cause: if nothing goes wrong in the operating system, nobody interrupts, logs are
text, files are copied as they are, and no multiplier for limits is negative, then testing does not end with an error,
however commands end. -/
theorem C76_errors_have_causes (w : World) (x : Program.Machine) (a : MainArgs) (cfg : Run.Config)
    (h : Program.Tests w x a cfg) (ms : List Mutant) (hs : Selects w a ms)
    (hcopy : ∀ m ∈ ms, x.copy (fun p => w.read (joinPath w.root p)) m.sourceFile.path = w.read (joinPath w.root m.sourceFile.path))
    (hm : ∀ m, cfg.options.testTimeoutMultiplier = some m → 0 ≤ m)
    (hb : ∀ m, cfg.options.buildTimeoutMultiplier = some m → 0 ≤ m)
    (es : List Run.Event) (s : Run.State) (he : Run.exec cfg (Run.init cfg) es = some s)
    (hwell : ∀ e ∈ es, goesWell e = true) : s.lab.main ≠ .returned none := by
  obtain ⟨_, _, hj, _, _, ms', hs', hperm, hcons⟩ := tests_facts h
  cases selects_unique hs hs'
  have hc := hcons fun m hm => .inr (hcopy m hm)
  obtain ⟨⟨les, h1, h2, h3⟩, _⟩ := well_run cfg (timeouts_total cfg hm hb) es s he hwell
  refine (C32_no_error_without_cause cfg.lab hj hc ?_ ?_ les s.lab h2 h3 h1).2
  · intro m hm
    obtain ⟨raw, hraw, _⟩ := hc.source m hm
    unfold Lab.Config.base
    split
    · rw [hraw]; rfl
    · have := hcopy m (hperm.mem_iff.1 hm)
      obtain ⟨_, o, out, ms', _, _, rfl⟩ := h
      show (x.copy _ _).isSome = true
      rw [show (fun p => w.read (joinPath w.root p)) = (Program.config w x a o ms').lab.tree from rfl] at this
      rw [this]
      exact Option.isSome_iff_exists.2 ⟨raw, hraw⟩
  · intro m hm hn
    obtain ⟨found, fs, ⟨o', pkgs, exprs, _, _, _, hw⟩, hsub⟩ := selects_found hs
    obtain ⟨n, hn'⟩ := walksTree_named hw m (hsub m (hperm.mem_iff.1 hm)) true
    rw [hn] at hn'
    cases hn'

/-! ### Example -/

namespace ProgramSample
open RunSample

def machine : Program.Machine where
  nanos := fun x => (x * 1000000000).ceil.toNat
  copy := id
  random := fun n => n

/-- The code that the program ends with after these events, in the sample tree with two mutants. -/
def exitsWith (es : List Run.Event) : Option Nat :=
  (trySelect sampleWorld sampleRun 3).bind fun ms => (Options.new sampleWorld.regex sampleRun.options sampleWorld.config).bind fun o =>
    (Run.exec (Program.config sampleWorld machine sampleRun o ms) (Run.init (Program.config sampleWorld machine sampleRun o ms)) es).bind
      fun s => match s.lab.main with
        | .returned (some l) => l.exitCode
        | _ => none

def exit101 : ExitStatus := ⟨some 101, none⟩

def baseline : List Run.Event :=
  [.main true, ok, ok, .main true, ok, ok, ok] ++ cmd exit0 ++ [ok] ++ cmd exit0 ++ [ok, ok, ok, .main true]

/-- The tests of a mutant end like this. -/
def mutant (st : ExitStatus) : List Run.Event := [ok, ok, ok, ok, ok, ok] ++ cmd exit0 ++ [ok] ++ cmd st ++ [ok, ok, ok]

/-- A mutant is caught and the other survives. -/
def survivor : List Run.Event := baseline ++ [ok] ++ mutant exit101 ++ mutant exit0 ++ [ok, .main true]

end ProgramSample

example : ProgramSample.exitsWith ProgramSample.survivor = some 2 := by decide +kernel
example : ∀ e ∈ ProgramSample.survivor, goesWell e = true := by decide +kernel
example : ProgramSample.exitsWith (ProgramSample.baseline ++ [RunSample.ok] ++ ProgramSample.mutant ProgramSample.exit101 ++
    ProgramSample.mutant ⟨none, some 6⟩ ++ [RunSample.ok, .main true]) = some 0 := by decide +kernel
example : ProgramSample.exitsWith ([.main true, RunSample.ok, RunSample.ok, .main true, RunSample.ok, RunSample.ok, RunSample.ok] ++
    RunSample.cmd ProgramSample.exit101 ++ [RunSample.ok, RunSample.ok, RunSample.ok, .main true]) = some 4 := by decide +kernel

/-- What is recorded in that run, for `C71_of_its_command`. -/
example : ((trySelect sampleWorld sampleRun 3).bind fun ms =>
    (Options.new sampleWorld.regex sampleRun.options sampleWorld.config).bind fun o =>
      (Run.exec (Program.config sampleWorld ProgramSample.machine sampleRun o ms)
        (Run.init (Program.config sampleWorld ProgramSample.machine sampleRun o ms)) ProgramSample.survivor).map fun s =>
      s.lab.sh.out.lab.outcomes.map fun o => o.phaseResults.map fun r => (r.phase, r.status)) =
    some [[(.build, .success), (.test, .success)], [(.build, .success), (.test, .failure 101)],
      [(.build, .success), (.test, .success)]] := by decide +kernel

/-- The program ends with code 2, and the hypotheses of the theorems are met. -/
example : Program.Ends sampleWorld ProgramSample.machine (.run sampleRun) 2 ∧
    ∃ ms, Selects sampleWorld sampleRun ms ∧ ms.length = 2 ∧ CopiesSources sampleWorld ProgramSample.machine ms := by
  have h : ProgramSample.exitsWith ProgramSample.survivor = some 2 := by decide +kernel
  have hlen : (trySelect sampleWorld sampleRun 3).map List.length = some 2 := by decide +kernel
  unfold ProgramSample.exitsWith at h
  obtain ⟨ms, h1, h⟩ := Option.bind_eq_some_iff.1 h
  obtain ⟨o, h2, h⟩ := Option.bind_eq_some_iff.1 h
  obtain ⟨s, h3, h⟩ := Option.bind_eq_some_iff.1 h
  rw [h1] at hlen
  have hs := selects_of_try h1
  refine ⟨?_, ms, hs, Option.some.inj hlen, fun m _ => .inr rfl⟩
  have ho : (prepareOutput sampleWorld sampleRun.iterate).isSome = true := by decide +kernel
  obtain ⟨out, ho⟩ := Option.isSome_iff_exists.1 ho
  have ht : Runs sampleWorld sampleRun (.test out ms) := (runs_iff _ _ rfl _).2 ⟨ms, hs, out, ho, rfl⟩
  split at h
  · rename_i l hl
    exact .tested ⟨(by intro h; cases h), o, out, ms, h2, ht, rfl⟩ h3 hl h
  · cases h

end CM.Props
